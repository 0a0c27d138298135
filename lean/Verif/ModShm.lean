/-!
# Shared memory of modules when the modules change

`sr_install_modules`, `sr_remove_modules`, `sr_update_modules` and `sr_enable_module_feature` (or disabling one) write the
shared memory of all modules again. What it holds about a module that stays, the priority set by
`sr_module_change_set_order`, the datastore lock and the subscriptions, is copied or lost here.

* `src/shm_mod.c` 186–307 `sr_shmmod_fill`, 775–855 `sr_shmmod_store_modules`,
  1737–1813 `sr_shmmod_prio_cmp`, `sr_shmmod_reboot_init`, 1817–1853 `sr_shmmod_change_prio`,
  1332–1395 the check of the datastore lock, 1605–1635 `sr_shmmod_release_locks`
* `src/sysrepo.c` 262, 1525, 1569, 1844, 2089, 2596 (callers of `sr_shmmod_store_modules`),
  4801–4894 `sr_change_dslock`, 5590–5637 `sr_module_change_set_order`, `sr_module_change_get_order`

Not modelled: the schemas (any list of modules may follow any other, `ModOps` says which do), locks of all
modules at once and of dead connections (C14, C15), what subscriptions do (C21), failures of the memory.
-/

namespace Verif.ModShm

/-- `sr_mod_t`, shm_types.h 115–178: its `data_lock_info` per datastore (priority and the session with the
lock, 0 if none) and its subscriptions, here their IDs. -/
structure Mod where
  name : Nat
  prio : Nat → Nat
  lock : Nat → Option Nat
  subs : List Nat

/-- `SR_DS_RUNNING`, sysrepo_types.h. -/
def running : Nat := 1

/-- Calls of users. A call `modules` is any call that writes the memory again: with the modules it
contains then; also one that fails and is reverted, sysrepo.c 1569. `restart` is the first connection
after the shared memory is gone. -/
inductive Call where
  | setOrder (n ds p : Nat) (perm : Bool)
  | lock (s n ds : Nat)
  | unlock (s n ds : Nat)
  | stop (s : Nat)
  | change (s n ds : Nat)
  | subscribe (n id : Nat)
  | unsubscribe (n id : Nat)
  | modules (ns : List Nat)
  | restart
  deriving DecidableEq

inductive Res where
  | ok | notFound | denied | locked | failed
  | copied (ns : List Nat)
  deriving DecidableEq

/-- `sr_shmmod_find_module`, shm_mod.c 91–107. -/
def find (n : Nat) : List Mod → Option Mod
  | [] => none
  | m :: l => if m.name = n then some m else find n l

/-- Write access to one module found as above. -/
def upd (n : Nat) (f : Mod → Mod) : List Mod → List Mod
  | [] => []
  | m :: l => if m.name = n then f m :: l else m :: upd n f l

/-- `sr_shmmod_fill`, shm_mod.c 211–212 the memory is zeroed, 283–304 the subscriptions are copied from
the previous memory. -/
def fill (old : Option Mod) (n : Nat) : Mod :=
  ⟨n, fun _ => 0, fun _ => none, match old with | some m => m.subs | none => []⟩

/-- `sr_shmmod_store_modules`, shm_mod.c 802–813. -/
def store (old : List Mod) : List Nat → List Mod
  | [] => []
  | n :: ns => fill (find n old) n :: store old ns

/-- `sr_shmmod_prio_cmp`, shm_mod.c 1741–1752: whether the first one stays first. -/
def cmpLe (a b : Mod) : Bool := !(a.prio running > b.prio running)

/-- `qsort` of shm_mod.c 1776; equal ones keep their order, as with the merge sort of glibc. -/
def insert (m : Mod) : List Mod → List Mod
  | [] => [m]
  | x :: l => if cmpLe m x then m :: x :: l else x :: insert m l

/-- See `insert`. -/
def sort : List Mod → List Mod
  | [] => []
  | m :: l => insert m (sort l)

def names : List Mod → List Nat
  | [] => []
  | m :: l => m.name :: names l

def setAt {α} (f : Nat → α) (k : Nat) (v : α) : Nat → α := fun x => if x = k then v else f x

/-- One call. -/
def step (st : List Mod) : Call → List Mod × Res
  -- sysrepo.c 5599–5613, shm_mod.c 1845–1847
  | .setOrder n ds p perm =>
    match find n st with
    | none => (st, .notFound)
    | some _ =>
      if !perm then (st, .denied)
      else (upd n (fun m => { m with prio := setAt m.prio ds p }) st, .ok)
  -- shm_mod.c 1332, 1388 locked by another one, sysrepo.c 4823–4827, 4847–4850
  | .lock s n ds =>
    match find n st with
    | none => (st, .notFound)
    | some m =>
      match m.lock ds with
      | some _ => (st, .locked)
      | none => (upd n (fun m => { m with lock := setAt m.lock ds (some s) }) st, .ok)
  -- shm_mod.c 1332, sysrepo.c 4828–4831, 4851–4855
  | .unlock s n ds =>
    match find n st with
    | none => (st, .notFound)
    | some m =>
      match m.lock ds with
      | none => (st, .failed)
      | some x =>
        if x ≠ s then (st, .locked)
        else (upd n (fun m => { m with lock := setAt m.lock ds none }) st, .ok)
  -- shm_mod.c 1613–1635
  | .stop s => (st.map fun m => { m with lock := fun ds => if m.lock ds = some s then none else m.lock ds }, .ok)
  -- shm_mod.c 1332, 1388: changing the data needs the lock of the module in the mode `SR_LOCK_WRITE`
  | .change s n ds =>
    match find n st with
    | none => (st, .notFound)
    | some m =>
      match m.lock ds with
      | none => (st, .ok)
      | some x => if x ≠ s then (st, .locked) else (st, .ok)
  | .subscribe n id =>
    match find n st with
    | none => (st, .notFound)
    | some _ => (upd n (fun m => { m with subs := m.subs ++ [id] }) st, .ok)
  | .unsubscribe n id =>
    match find n st with
    | none => (st, .notFound)
    | some _ => (upd n (fun m => { m with subs := m.subs.filter (· ≠ id) }) st, .ok)
  | .modules ns => (store st ns, .ok)
  -- shm_mod.c 76–85 zeroed, sysrepo.c 262, 320; shm_mod.c 1776–1808 copied in this order
  | .restart => (store [] (names st), .copied (names (sort (store [] (names st)))))

/-- All calls, the latest first, on modules just installed. -/
def run (ns : List Nat) : List Call → List Mod
  | [] => store [] ns
  | c :: h => (step (run ns h) c).1

/-- `sr_module_change_get_order`, sysrepo.c 5616–5637, with access. -/
def getOrder (st : List Mod) (n ds : Nat) : Option Nat :=
  match find n st with
  | none => none
  | some m => some (m.prio ds)

/-- The subscriptions of a module. -/
def subsOf (st : List Mod) (n : Nat) : Option (List Nat) :=
  match find n st with
  | none => none
  | some m => some m.subs

/-! ## Specification: what the history of calls, the latest first, asks for -/

/-- The modules installed. -/
def installed (ns : List Nat) : List Call → List Nat
  | [] => ns
  | .modules l :: _ => l
  | _ :: h => installed ns h

/-- No call changed modules and sysrepo was not restarted. -/
def quiet : List Call → Bool
  | [] => true
  | .modules _ :: _ => false
  | .restart :: _ => false
  | _ :: h => quiet h

/-- The priority last set with the access needed. -/
def asked (n ds : Nat) : List Call → Nat
  | [] => 0
  | .setOrder n' ds' p true :: h => if n' = n ∧ ds' = ds then p else asked n ds h
  | _ :: h => asked n ds h

/-- The calls since modules changed or sysrepo was restarted. -/
def recent : List Call → List Call
  | [] => []
  | .modules _ :: _ => []
  | .restart :: _ => []
  | c :: h => c :: recent h

/-- The subscriptions to a module since it was installed or sysrepo was restarted. -/
def wanted (ns : List Nat) (n : Nat) : List Call → List Nat
  | [] => []
  | .subscribe n' id :: h => if n' = n then wanted ns n h ++ [id] else wanted ns n h
  | .unsubscribe n' id :: h => if n' = n then (wanted ns n h).filter (fun x => decide (x ≠ id)) else wanted ns n h
  | .modules _ :: h => if n ∈ installed ns h then wanted ns n h else []
  | .restart :: _ => []
  | _ :: h => wanted ns n h

end Verif.ModShm
