/-
Changing the replay support of modules.

Models of `/repo/src/sysrepo.c` 2121-2203 (`sr_set_module_replay_support`, `sr_get_module_replay_support`), of
`/repo/src/lyd_mods.c` 1433-1556 (`sr_lydmods_update_replay_support_module`, `sr_lydmods_change_chng_replay_support`), of
`/repo/src/shm_mod.c` 224-226 (reading it when the module SHM is created), 1662-1682 (`sr_shmmod_update_replay_support`), of
`/repo/src/context_change.c` 548-596 (`sr_lycc_set_replay_support`) and of `/repo/src/replay.c` 148-155 (notifications are stored
only of modules with replay support).

Simplifications: calls are serialized by the lock of the internal module data (`sr_lycc_lock` with `lydmods_lock`), a process may
crash at any time.
-/
namespace Verif.ReplaySupp

/-- Modules and their replay support. -/
structure State where
  /-- All the modules, in the order of the internal data. -/
  mods : List Nat
  /-- The persistent internal data: the time of the earliest notification, if replay is supported. -/
  pers : Nat → Option Nat
  /-- The flag in the module SHM. -/
  shm : Nat → Bool
  /-- The plugin has been told. -/
  plug : Nat → Bool

/-- What happens in a call. -/
structure Env where
  /-- Getting the plugin or the earliest notification of the module fails. -/
  bad : Nat → Bool
  /-- The earliest notification of the module, 0 for none. -/
  earliest : Nat → Nat
  now : Nat
  /-- Storing the internal data fails. -/
  full : Bool
  /-- The process crashes after storing the internal data. -/
  crash : Bool
  /-- The plugin fails to enable or disable notifications of the module. -/
  refuse : Nat → Bool

/-- Results. -/
inductive Res where
  | ok | notFound | error | crashed
deriving DecidableEq, Repr

/-- Replay support of one module in the internal data, lyd_mods.c 1433-1495: `none` is an error, otherwise whether it changed. -/
def upd (e : Env) (en : Bool) (pers : Nat → Option Nat) (m : Nat) : Option (Bool × (Nat → Option Nat)) :=
  if !en && (pers m).isSome then some (true, fun x => if x = m then none else pers x)
  else if en && (pers m).isNone then
    if e.bad m then none
    else some (true, fun x => if x = m then some (if e.earliest m = 0 then e.now else e.earliest m) else pers x)
  else some (false, pers)

/-- Replay support of the modules, with the changed ones, lyd_mods.c 1527-1542. -/
def updAll (e : Env) (en : Bool) : (Nat → Option Nat) → List Nat → Option (List Nat × (Nat → Option Nat))
  | pers, [] => some ([], pers)
  | pers, m :: t =>
    match upd e en pers m with
    | none => none
    | some (c, pers') =>
      match updAll e en pers' t with
      | none => none
      | some (cs, pers'') => some (if c then m :: cs else cs, pers'')

/-- The flags in the SHM, shm_mod.c 1669-1679. -/
def putShm (en : Bool) (cs : List Nat) (shm : Nat → Bool) : Nat → Bool := fun x => if x ∈ cs then en else shm x

/-- The plugins are told, context_change.c 558-592. -/
def tell (e : Env) (en : Bool) : List Nat → (Nat → Bool) → Bool × (Nat → Bool)
  | [], plug => (true, plug)
  | m :: t, plug => if e.refuse m then (false, plug) else tell e en t (fun x => if x = m then en else plug x)

/-- `sr_set_module_replay_support`, sysrepo.c 2121-2168, of one or of all the modules. -/
def set (e : Env) (s : State) (n : Option Nat) (en : Bool) : Res × State :=
  if n.any (fun n => decide (n ∉ s.mods)) then (.notFound, s)
  else
    match updAll e en s.pers (n.elim s.mods (fun n => [n])) with
    | none => (.error, s)
    | some (cs, pers) =>
      if e.full then (.error, s)
      else if e.crash then (.crashed, { s with pers := pers })
      else
        ((if (tell e en cs s.plug).1 then .ok else .error),
          { s with pers := pers, shm := putShm en cs s.shm, plug := (tell e en cs s.plug).2 })

/-- `sr_get_module_replay_support`, sysrepo.c 2170-2203. -/
def get (s : State) (m : Nat) : Option Bool := if m ∈ s.mods then some (s.shm m) else none

/-- The module SHM is created again, after a restart of the system, shm_mod.c 224-226. -/
def restart (s : State) : State := { s with shm := fun m => (s.pers m).isSome }

/-- Steps. -/
inductive Op where
  | set (e : Env) (n : Option Nat) (en : Bool)
  | restart

/-- One step. -/
def step (s : State) : Op → State
  | .set e n en => (set e s n en).2
  | .restart => restart s

/-! ### Specification -/

/-- The support the successful calls make. -/
def want (s : State) (w : Nat → Bool) : List Op → Nat → Bool
  | [] => w
  | .restart :: t => want (restart s) w t
  | .set e n en :: t =>
    want (set e s n en).2 (fun m => if (set e s n en).1 = .ok ∧ (n = none ∨ n = some m) then en else w m) t

/-- No crash and no plugin that fails in the end. -/
def Calm : List Op → Prop
  | [] => True
  | .restart :: t => Calm t
  | .set e _ _ :: t => (e.crash = false ∧ ∀ m, e.refuse m = false) ∧ Calm t

end Verif.ReplaySupp
