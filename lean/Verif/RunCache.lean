/-
# The cache of running data of a connection, and who may read what

Models the cache a connection opened with `SR_CONN_CACHE_RUNNING` keeps of the running datastore:
`sr_conn_run_cache_update`, `sr_conn_run_cache_update_mod`, `sr_conn_run_cache_flush`
(src/common.c 3069-3263), its use by `sr_modinfo_data_load` (src/modinfo.c 2948-3029), the store of
changed data (`sr_modinfo_data_store`, src/modinfo.c 3837-3890), the removal of modules the user may
not read (`sr_modinfo_perm_check`, src/modinfo.c 487-527) and the evaluation of the filter
(`sr_modinfo_get_filter`, src/modinfo.c 3377-3459, called by `sr_get_data`, src/sysrepo.c 3116-3255).

Any number of connections, each used by any number of threads; every thread runs reads and writes of
running data, one after another, and is interrupted by the others wherever it does not hold the lock.

Simplifications: a module is a number, its data a list of numbers (its top-level subtrees), the data
of several modules one list of owned values, in which the order between modules has no meaning.  A
write changes one module and loads any number of others.  Module locks are reduced to their effect:
an operation holds its modules read-locked from its beginning to its end, a write of a module needs
that no other operation has it.  `READ UPGR` is a `READ` here, which only allows more interleavings.
Locks do not time out and memory does not run out.  The lock of the cache is taken as correct
(RWLock, C01).
-/
namespace Verif.RunCache

/-- `UINT32_MAX`, the version of a module that was just added to the cache (src/common.c 3119). -/
def idNone : Nat := 4294967295

/-- What does not change during a run. -/
structure Cfg where
  /-- number of threads of all the connections together -/
  nt : Nat
  /-- the connection a thread uses -/
  conn : Nat → Nat
  /-- whether a connection was opened with `SR_CONN_CACHE_RUNNING` (src/sysrepo_types.h 106) -/
  cached : Nat → Bool
  /-- the module has no plugin for running, startup is used for it (src/common.c 3083-3088) -/
  runDisabled : Nat → Bool
  /-- the plugin of the module tells the version of the data (src/common.c 3127) -/
  hasVer : Nat → Bool
  /-- whether loading data from the plugin may fail (src/common.c 3160) -/
  loadsFail : Bool

/-- How the thread holds the cache lock in a phase of the update. -/
inductive Lk where
  | rd
  | wr
  deriving DecidableEq, Repr

/-- Where an operation of a thread is. -/
inductive Pc where
  | idle
  /-- in the loop over modules, before module `i` (src/common.c 3081) -/
  | upd (i : Nat) (lk : Lk)
  /-- the module is not cached, READ lock released, before the WRITE lock (src/common.c 3101-3110) -/
  | waitAdd (i : Nat)
  /-- `cmod` is entry `j` of the cache, before the check of versions (src/common.c 3126) -/
  | check (i j : Nat) (lk : Lk)
  /-- data not current, READ lock released, before the WRITE lock (src/common.c 3140-3150) -/
  | waitLoad (i j : Nat)
  /-- WRITE lock held, before removing and loading the data (src/common.c 3155) -/
  | load (i j : Nat)
  /-- the update succeeded, READ lock held (src/common.c 3172-3186) -/
  | fin
  /-- a read whose result is `r`, locks still held (src/sysrepo.c 3165) -/
  | done (r : List (Nat × Nat))
  /-- a write that prepared the new data of its module, the cache unlocked (src/modinfo.c 2993-3028) -/
  | ready (d : List Nat)
  /-- the plugin stored the new data (src/modinfo.c 3863) -/
  | stored (d : List Nat)
  /-- `run_cache_id` was incremented (src/modinfo.c 3874) -/
  | bumped (d : List Nat)
  deriving DecidableEq, Repr

/-- The thread holds the cache READ lock. -/
def Pc.holdsR : Pc → Bool
  | .upd _ .rd | .check _ _ .rd | .fin | .done _ => true
  | _ => false

/-- The thread holds the cache WRITE lock between two steps. -/
def Pc.holdsW : Pc → Bool
  | .upd _ .wr | .check _ _ .wr | .load _ _ => true
  | _ => false

/-- The write holds the WRITE lock of its module. -/
def Pc.storing : Pc → Bool
  | .stored _ | .bumped _ => true
  | _ => false

/-- An operation of a thread. -/
structure Th where
  pc : Pc
  /-- the modules of the operation that are left after the permission check, `mod_info->mods` -/
  ms : List Nat
  /-- the modules the filter selects data of -/
  req : List Nat
  /-- `SR_GET_NO_FILTER` -/
  noFilter : Bool
  /-- the changed module and the change, for a write -/
  wr : Option (Nat × (List Nat → List Nat))
  /-- ghost: which modules the user could read when the operation began -/
  perm0 : Nat → Bool
  /-- ghost: a read with the permission check -/
  chk : Bool

/-- The shared state. -/
structure State where
  /-- data of a module in the plugin: of running, or of startup when running is disabled -/
  file : Nat → List Nat
  /-- `run_cache_id` of a module in SHM (src/shm_types.h 134), a 32-bit number -/
  cid : Nat → Nat
  /-- ghost: number of stores of the module -/
  n : Nat → Nat
  /-- version of the data told by the plugin -/
  ver : Nat → Nat
  /-- whether the user may read the module in running (`sr_perm_check`, src/common.c 1298-1337) -/
  perm : Nat → Bool
  /-- `run_cache_mods` of a connection (src/common_types.h 146-152) -/
  ents : Nat → List (Nat × Nat)
  /-- `run_cache_data` of a connection -/
  data : Nat → List (Nat × Nat)
  th : Nat → Th
  /-- an assertion of `sr_conn_run_cache_update_mod` failed (src/common.c 3211, 3214) -/
  crash : Bool

/-- Change one value of a function. -/
def upd {α : Type} (f : Nat → α) (k : Nat) (v : α) : Nat → α := fun x => if x = k then v else f x

/-- `sr_module_data_unlink` (src/common.c 5356-5405): what stays after a module's data are removed. -/
def unlink (d : List (Nat × Nat)) (m : Nat) : List (Nat × Nat) := d.filter (fun x => x.1 != m)

/-- The data of one module as loaded from its plugin. -/
def tree (m : Nat) (d : List Nat) : List (Nat × Nat) := d.map (fun v => (m, v))

/-- `lyd_insert_sibling` of the loaded data (src/common.c 3165). -/
def insert (d : List (Nat × Nat)) (m : Nat) (v : List Nat) : List (Nat × Nat) := d ++ tree m v

/-- Index of the first cache entry of a module (src/common.c 3092-3097). -/
def findEnt (es : List (Nat × Nat)) (m : Nat) : Option Nat := es.findIdx? (fun e => e.1 == m)

/-- `cur_id` (src/common.c 3126-3134). -/
def curId (A : Cfg) (s : State) (m : Nat) : Nat := if A.hasVer m then s.ver m else s.cid m

/-- Set the place of a thread. -/
def State.go (s : State) (t : Nat) (p : Pc) : State := { s with th := upd s.th t { s.th t with pc := p } }

/-- No other thread of the connection of `t` satisfies `p`. -/
def alone (A : Cfg) (s : State) (t : Nat) (p : Pc → Bool) : Bool :=
  (List.range A.nt).all (fun t' => t' == t || A.conn t' != A.conn t || !p (s.th t').pc)

/-- `t` can have the cache WRITE lock. -/
def canW (A : Cfg) (s : State) (t : Nat) : Bool := alone A s t (fun p => p.holdsR || p.holdsW)

/-- `t` can have the cache READ lock. -/
def canR (A : Cfg) (s : State) (t : Nat) : Bool := alone A s t (fun p => p.holdsW)

/-- No operation holds the WRITE lock of a module of `ms` (`sr_shmmod_modinfo_rdlock`). -/
def canRdMods (A : Cfg) (s : State) (t : Nat) (ms : List Nat) : Bool :=
  (List.range A.nt).all (fun t' => t' == t || !(s.th t').pc.storing ||
    match (s.th t').wr with
    | some (m, _) => !ms.contains m
    | none => true)

/-- No other operation has the module (`sr_shmmod_modinfo_rdlock_upgrade`, before the store). -/
def canWrMod (A : Cfg) (s : State) (t : Nat) (m : Nat) : Bool :=
  (List.range A.nt).all (fun t' => t' == t || (s.th t').pc == .idle || !(s.th t').ms.contains m)

/-- `sr_modinfo_perm_check`, not strict, for reading (src/modinfo.c 487-527): modules the user may not
read are left out; nothing is checked with `SR_MI_PERM_NO`. -/
def permitted (s : State) (chk : Bool) (req : List Nat) : List Nat :=
  if chk then req.filter s.perm else req

/-- What the filter returns from the data (`sr_modinfo_get_filter`, src/modinfo.c 3444-3449): it is
evaluated on all of them and selects data of the modules of the request, or everything with
`SR_GET_NO_FILTER` (src/sysrepo.c 3162).  A filter is reduced to the modules it selects. -/
def select (noFilter : Bool) (req : List Nat) (d : List (Nat × Nat)) : List (Nat × Nat) :=
  d.filter (fun x => noFilter || req.contains x.1)

/-- `mod_info->data` after the load: the whole cache if it is used (src/modinfo.c 2965-2992), otherwise
the data of the modules of the operation (src/modinfo.c 3004-3022). -/
def loaded (A : Cfg) (s : State) (t : Nat) : List (Nat × Nat) :=
  if A.cached (A.conn t) && !(s.th t).ms.isEmpty then s.data (A.conn t)
  else (s.th t).ms.flatMap (fun m => tree m (s.file m))

/-- Steps of the threads and of the environment. -/
inductive Label where
  /-- a call reading running; `chk`: with the permission check (`SR_MI_PERM_READ`), otherwise a load
  for validation (`SR_MI_PERM_NO`, src/sysrepo.c 6757, 7054, 7350) -/
  | beginRead (t : Nat) (req : List Nat) (noFilter chk : Bool)
  /-- a call changing running: module `m` by `f`, with `ms` loaded (src/sysrepo.c 4281, 4427) -/
  | beginWrite (t : Nat) (ms : List Nat) (m : Nat) (f : List Nat → List Nat)
  | find (t : Nat)
  | add (t : Nat)
  | check (t : Nat)
  | lockLoad (t : Nat)
  | load (t : Nat)
  | loadFail (t : Nat)
  | fin (t : Nat)
  | ret (t : Nat)
  | store (t : Nat)
  | bump (t : Nat)
  | replace (t : Nat)
  /-- the connection changes its context (`sr_conn_ctx_switch`, src/common.c 3308-3340) -/
  | flush (c : Nat)
  /-- somebody changes startup of a module with running disabled -/
  | editStartup (m : Nat) (d : List Nat)
  /-- the data of a plugin telling versions change behind sysrepo, to another version -/
  | external (m : Nat) (d : List Nat) (v : Nat)
  /-- the permissions of a module are changed (`sr_set_module_ds_access`) -/
  | chmod (m : Nat) (b : Bool)

/-- Where an operation goes once it has its modules: with no module left or no cache the loop is not
run (src/modinfo.c 2966-2974). -/
def start (A : Cfg) (t : Nat) (ms : List Nat) : Pc :=
  if A.cached (A.conn t) && !ms.isEmpty then .upd 0 .rd else .fin

/-- One step, `none` if it cannot be taken. -/
def step (A : Cfg) (s : State) : Label → Option State
  | .beginRead t req nf chk =>
    -- `sr_modinfo_consolidate` (src/modinfo.c 3032-3110) and the CACHE READ LOCK (2960);
    -- `mod_info` has a module once (`sr_modinfo_add`)
    let ms := permitted s chk req
    if t < A.nt ∧ (s.th t).pc = .idle ∧ canR A s t = true ∧ canRdMods A s t ms = true ∧ req.Nodup then
      some { s with th := upd s.th t ⟨start A t ms, ms, req, nf, none, s.perm, chk⟩ }
    else none
  | .beginWrite t ms m f =>
    if t < A.nt ∧ (s.th t).pc = .idle ∧ canR A s t = true ∧ canRdMods A s t ms = true ∧
        m ∈ ms ∧ ms.Nodup then
      some { s with th := upd s.th t ⟨start A t ms, ms, ms, false, some (m, f), s.perm, false⟩ }
    else none
  | .find t =>
    -- src/common.c 3081-3124
    match (s.th t).pc with
    | .upd i lk =>
      match (s.th t).ms[i]? with
      | none => some (s.go t .fin)
      | some m =>
        match findEnt (s.ents (A.conn t)) m with
        | some j => some (s.go t (.check i j lk))
        | none =>
          match lk with
          | .rd => some (s.go t (.waitAdd i))
          | .wr =>
            some { s.go t (.check i (s.ents (A.conn t)).length .wr) with
              ents := upd s.ents (A.conn t) (s.ents (A.conn t) ++ [(m, idNone)]) }
    | _ => none
  | .add t =>
    -- src/common.c 3106-3123
    match (s.th t).pc with
    | .waitAdd i =>
      match (s.th t).ms[i]? with
      | none => none
      | some m =>
        if canW A s t then
          some { s.go t (.check i (s.ents (A.conn t)).length .wr) with
            ents := upd s.ents (A.conn t) (s.ents (A.conn t) ++ [(m, idNone)]) }
        else none
    | _ => none
  | .check t =>
    -- src/common.c 3126-3142
    match (s.th t).pc with
    | .check i j lk =>
      match (s.th t).ms[i]?, (s.ents (A.conn t))[j]? with
      | some m, some e =>
        if e.2 = curId A s m then some (s.go t (.upd (i + 1) lk))
        else
          match lk with
          | .wr => some (s.go t (.load i j))
          | .rd => some (s.go t (.waitLoad i j))
      | _, _ => none
    | _ => none
  | .lockLoad t =>
    -- src/common.c 3145-3152
    match (s.th t).pc with
    | .waitLoad i j => if canW A s t then some (s.go t (.load i j)) else none
    | _ => none
  | .load t =>
    -- src/common.c 3155-3169
    match (s.th t).pc with
    | .load i j =>
      match (s.th t).ms[i]? with
      | some m =>
        some { s.go t (.upd (i + 1) .wr) with
          data := upd s.data (A.conn t) (insert (unlink (s.data (A.conn t)) m) m (s.file m))
          ents := upd s.ents (A.conn t) ((s.ents (A.conn t)).set j (m, curId A s m)) }
      | none => none
    | _ => none
  | .loadFail t =>
    -- src/common.c 3155-3163: the old data are gone, the entry keeps its version, the call fails
    match (s.th t).pc with
    | .load i _ =>
      match (s.th t).ms[i]? with
      | some m =>
        if A.loadsFail then
          some { s.go t .idle with data := upd s.data (A.conn t) (unlink (s.data (A.conn t)) m) }
        else none
      | none => none
    | _ => none
  | .fin t =>
    match (s.th t).pc with
    | .fin =>
      match (s.th t).wr with
      | none => some (s.go t (.done (select (s.th t).noFilter (s.th t).req (loaded A s t))))
      | some (m, f) =>
        -- the data of the module are duplicated and changed (src/modinfo.c 2993-3006)
        some (s.go t (.ready (f (((loaded A s t).filter (fun x => x.1 == m)).map (·.2)))))
    | _ => none
  | .ret t =>
    match (s.th t).pc with
    | .done _ => some (s.go t .idle)
    | _ => none
  | .store t =>
    -- src/modinfo.c 3862-3868
    match (s.th t).pc, (s.th t).wr with
    | .ready d, some (m, _) =>
      if canWrMod A s t m then
        some { s.go t (.stored d) with file := upd s.file m d, ver := upd s.ver m (s.ver m + 1) }
      else none
    | _, _ => none
  | .bump t =>
    -- src/modinfo.c 3870-3876
    match (s.th t).pc, (s.th t).wr with
    | .stored d, some (m, _) =>
      some { s.go t (if A.cached (A.conn t) then .bumped d else .idle) with
        cid := upd s.cid m ((s.cid m + 1) % 4294967296), n := upd s.n m (s.n m + 1) }
    | _, _ => none
  | .replace t =>
    -- `sr_conn_run_cache_update_mod` (src/common.c 3189-3232)
    match (s.th t).pc, (s.th t).wr with
    | .bumped d, some (m, _) =>
      if canW A s t then
        match findEnt (s.ents (A.conn t)) m with
        | none => some { s with crash := true }
        | some j =>
          if ((s.ents (A.conn t))[j]?.map (·.2)) = some (s.cid m) then some { s with crash := true }
          else
            some { s.go t .idle with
              data := upd s.data (A.conn t) (insert (unlink (s.data (A.conn t)) m) m d)
              ents := upd s.ents (A.conn t) ((s.ents (A.conn t)).set j (m, s.cid m)) }
      else none
    | _, _ => none
  | .flush c =>
    -- `sr_conn_run_cache_flush` (src/common.c 3234-3263), with no operation of the connection running
    if (List.range A.nt).all (fun t => A.conn t != c || (s.th t).pc == .idle) then
      if A.cached c then some { s with ents := upd s.ents c [], data := upd s.data c [] } else some s
    else none
  | .editStartup m d =>
    -- `sr_modinfo_data_store` for startup: `run_cache_id` is not touched (src/modinfo.c 3872)
    if A.runDisabled m then some { s with file := upd s.file m d, ver := upd s.ver m (s.ver m + 1) }
    else none
  | .external m d v =>
    if A.hasVer m = true ∧ v ≠ s.ver m then some { s with file := upd s.file m d, ver := upd s.ver m v }
    else none
  | .chmod m b => some { s with perm := upd s.perm m b }

/-- At the beginning nothing is cached and nobody works; SHM is fresh. -/
structure Init (s : State) : Prop where
  cid : ∀ m, s.cid m = 0
  n : ∀ m, s.n m = 0
  ents : ∀ c, s.ents c = []
  data : ∀ c, s.data c = []
  th : ∀ t, (s.th t).pc = .idle
  crash : s.crash = false

/-- States that can occur. -/
inductive Reach (A : Cfg) : State → Prop
  | init {s : State} : Init s → Reach A s
  | step {s s' : State} (l : Label) : Reach A s → step A s l = some s' → Reach A s'

/-- Run labels from a state. -/
def exec (A : Cfg) (s : State) : List Label → Option State
  | [] => some s
  | l :: ls => match step A s l with
    | some s' => exec A s' ls
    | none => none

/-! ## Specification -/

/-- The nodes of module `m` in a result. -/
def nodesOf (r : List (Nat × Nat)) (m : Nat) : List Nat :=
  r.filterMap (fun x => if x.1 = m then some x.2 else none)

end Verif.RunCache
