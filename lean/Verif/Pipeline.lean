/-!
Model of applying changes: `sr_apply_changes` (sysrepo.c 4245-4309), `sr_apply_oper_changes` (4152-4243), `sr_changes_notify_store`
(3970-4131), `_sr_replace_config` (4401-4446), `sr_copy_config` (4509-4612), the discarding of changes (4311-4390) and the functions of
modinfo.c they call.

The content of one module in one datastore is a value of an arbitrary type `D` (it includes the default flags). A diff is the pair of the
contents it leads from and to; it is empty when they are equal. What libyang, the access control, the subscribers, the datastore plugins
and the lock timeouts do is arbitrary and given by an `Env`. One call is modelled at a time: the locks it holds keep the other sessions
out (`RWLock`, `DsLock`).
-/
namespace Verif.Pipeline

/-- The datastores, sysrepo_types.h. -/
inductive Ds where
  | startup | running | candidate | operational | factory
deriving DecidableEq, Repr

/-- What is stored. `oper` are the data pushed by the session. `cand m = none`: the candidate of the module is not modified. `runOff`:
the running datastore of the module is disabled. -/
structure Store (D : Type) where
  start : Nat → D
  run : Nat → D
  oper : Nat → D
  fact : Nat → D
  cand : Nat → Option D
  runOff : Nat → Bool

/-- Change of one value. -/
def upd {α : Type} (f : Nat → α) (m : Nat) (d : α) : Nat → α := fun k => if k = m then d else f k

variable {D : Type} [DecidableEq D]

/-- `sr_module_file_data_append`, common.c 5397-5432, and modinfo.c 2695-2715. -/
def Store.read (s : Store D) : Ds → Nat → D
  | .startup, m => s.start m
  | .running, m => if s.runOff m then s.start m else s.run m
  | .candidate, m =>
    match s.cand m with
    | some d => d
    | none => if s.runOff m then s.start m else s.run m
  | .operational, m => s.oper m
  | .factory, m => s.fact m

/-- The plugin `store_cb` of the datastore chosen in modinfo.c 3857-3866 succeeded. -/
def Store.write (s : Store D) : Ds → Nat → D → Store D
  | .startup, m, d => { s with start := upd s.start m d }
  | .running, m, d => if s.runOff m then { s with start := upd s.start m d } else { s with run := upd s.run m d }
  | .candidate, m, d => { s with cand := upd s.cand m (some d) }
  | .operational, m, d => { s with oper := upd s.oper m d }
  | .factory, m, d => { s with fact := upd s.fact m d }

/-- The lock of a module in the main datastore, modinfo.h 34-37. -/
inductive Lock where
  | none | read | upgr | write
deriving DecidableEq, Repr

/-- A module in mod info, modinfo.h 27-60: its flags. -/
structure Mod where
  id : Nat
  new : Bool := false
  req : Bool := false
  dep : Bool := false
  inv : Bool := false
  lock : Lock := .none
  changed : Bool := false
deriving DecidableEq, Repr

/-- Mod info. The diff leads from `base` to `data`. Simplified: modules are in the order they were added (modinfo.c 3079 sorts them, the
order matters only for locking, see `LockOrder`). -/
structure MI (D : Type) where
  ds : Ds
  mods : List Mod
  base : Nat → D
  data : Nat → D

/-- Pending changes of a session: the modules of its top-level nodes, their effect on the content of each, and the number of nodes that
are refused (opaque nodes, data of the module sysrepo, creating existing, deleting missing nodes). -/
structure Edit (D : Type) where
  mods : List Nat
  new : Nat → D → D
  refused : (Nat → D) → Nat

/-- The decision of `sr_nacm_check_diff`. -/
inductive Nacm where
  | ok | denied | error
deriving DecidableEq, Repr

/-- Result of the update event: an internal error, errors from subscribers, or possibly new changes. -/
inductive Upd (D : Type) where
  | internal
  | errors (n : Nat)
  | ok (edit : Option (Edit D))

/-- Result of the change event. -/
inductive Chg where
  | ok | refused | internal
deriving DecidableEq, Repr

/-- Result of `store_cb` and of updating the running cache: stored, failed leaving the given content, stored but the cache failed. -/
inductive Stored (D : Type) where
  | ok
  | failed (left : D)
  | cacheFailed

/-- Everything outside the modelled functions. The fields with `2` are the calls in `sr_modinfo_change_notify_update`. -/
structure Env (D : Type) where
  /-- collecting the modules, locking them and loading their data -/
  collectOk : Bool := true
  applyOk : Bool := true
  invDeps : Nat → List Nat := fun _ => []
  deps : Nat → (Nat → D) → List Nat := fun _ _ => []
  nacmUser : Bool := false
  nacm : (Nat → D) → (Nat → D) → Nacm := fun _ _ => .ok
  depsOk : Bool := true
  /-- validating a module: its content afterwards, errors, errors of the final validation -/
  valMod : Nat → (Nat → D) → D
  valErr : Nat → (Nat → D) → Nat := fun _ _ => 0
  valFinal : Nat → (Nat → D) → Nat := fun _ _ => 0
  valOk : Bool := true
  /-- adding default nodes, state nodes found -/
  defMod : Nat → (Nat → D) → D
  stateErr : (Nat → D) → Nat := fun _ => 0
  /-- write permission of the process -/
  perm : Nat → Bool := fun _ => true
  subLock : Bool := true
  /-- the diff of the operational datastore as a whole is not empty -/
  visible : Bool := true
  updSub : Bool := false
  upd : (Nat → D) → (Nat → D) → Upd D := fun _ _ => .ok none
  clearOk : Bool := true
  collectOk2 : Bool := true
  applyOk2 : Bool := true
  depsOk2 : Bool := true
  valOk2 : Bool := true
  subLock2 : Bool := true
  chgSub : Bool := false
  chg : (Nat → D) → (Nat → D) → Chg := fun _ _ => .ok
  abortOk : Bool := true
  upgrade : Nat → Bool := fun _ => true
  store : Nat → Stored D := fun _ => .ok
  downOk : Bool := true
  doneOk : Bool := true
  notifOk : Bool := true
  /-- removing the candidate data of a module: failure is only logged -/
  unlink : Nat → Bool := fun _ => true

/-- What can be observed during a call: the events the subscribers are called with (contents before and after) and each write of a
module, with the lock held on it. -/
inductive Ev (D : Type) where
  | update (old new : Nat → D)
  | change (old new : Nat → D)
  | abort (old new : Nat → D)
  | store (m : Nat) (lock : Lock) (d : D)
  | done (old new : Nat → D)

/-- Result of a call. -/
structure Out (D : Type) where
  st : Store D
  log : List (Ev D)
  err : Bool

/-! ## Mod info -/

/-- `sr_modinfo_add` of a whole module, modinfo.c 52-112. -/
def addMod (m : Nat) (ms : List Mod) : List Mod :=
  if ms.any (·.id == m) then ms.map fun x => if x.id == m && !x.req then { x with new := true } else x
  else ms ++ [{ id := m, new := true }]

/-- The kind of modules a consolidation adds: required or dependencies. -/
inductive Kind where
  | req | dep | inv
deriving DecidableEq, Repr

/-- Setting a kind. -/
def Mod.setKind (x : Mod) : Kind → Mod
  | .req => { x with req := true, new := false }
  | .dep => { x with dep := true, new := false }
  | .inv => { x with inv := true, new := false }

/-- `sr_modinfo_mod_new`, modinfo.c 2793-2884, of an inverse dependency. -/
def addInv (m : Nat) (ms : List Mod) : List Mod :=
  if ms.any (·.id == m) then ms.map fun x => if x.id == m then x.setKind .inv else x
  else ms ++ [{ id := m, inv := true }]

/-- The first loop of `sr_modinfo_consolidate`, modinfo.c 3052-3063. -/
def markNew (k : Kind) (ms : List Mod) : List Mod := ms.map fun x => if x.new then x.setKind k else x

/-- `sr_shmmod_modinfo_lock`, shm_mod.c 1409-1444: modules already locked keep their lock. -/
def lockMods (l : Lock) (ms : List Mod) : List Mod := ms.map fun x => if x.lock = .none then { x with lock := l } else x

/-- `sr_modinfo_consolidate`, modinfo.c 3033-3118: nothing is done without new modules. The data of the new modules are loaded: the
model has the content of all the modules in `data` from the start. -/
def consolidate (env : Env D) (k : Kind) (inv : Bool) (l : Lock) (ms : List Mod) : List Mod :=
  if ms.any (·.new) then
    let ms := markNew k ms
    let ms := if inv then
        (ms.filter fun x => if k = .dep then x.dep else x.req).foldl (fun a x => (env.invDeps x.id).foldl (fun a m => addInv m a) a) ms
      else ms
    lockMods l ms
  else ms

/-- The effect of changes on the content of a module. -/
def Edit.result (e : Edit D) (m : Nat) (d : D) : D := if e.mods.contains m then e.new m d else d

/-- Marking a module as changed. -/
def Mod.markIf (x : Mod) (b : Bool) : Mod := if b then { x with changed := true } else x

/-- The loop of `sr_modinfo_edit_apply`, modinfo.c 614-628, over the modules of the edit: a module is marked when the edit changed it. -/
def applyLoop (e : Edit D) : List Mod → (Nat → D) → List Mod × (Nat → D)
  | [], data => ([], data)
  | x :: xs, data =>
    let d := e.result x.id (data x.id)
    let (ys, data') := applyLoop e xs (upd data x.id d)
    (x.markIf (decide (d ≠ data x.id)) :: ys, data')

/-- `sr_modinfo_edit_apply`, modinfo.c 586-635, creating a new diff: it starts at the present data. -/
def editApply (e : Edit D) (mi : MI D) : MI D :=
  let (ms, data) := applyLoop e mi.mods mi.data
  { mi with mods := ms, base := mi.data, data }

/-- `sr_modinfo_replace`, modinfo.c 687-740: the required modules with a difference get the new data. -/
def replaceLoop (src : Nat → D) : List Mod → (Nat → D) → List Mod × (Nat → D)
  | [], data => ([], data)
  | x :: xs, data =>
    let d := if x.req then src x.id else data x.id
    let (ys, data') := replaceLoop src xs (upd data x.id d)
    (x.markIf (decide (d ≠ data x.id)) :: ys, data')

/-- See `replaceLoop`. -/
def replaceData (src : Nat → D) (mi : MI D) : MI D :=
  let (ms, data) := replaceLoop src mi.mods mi.data
  { mi with mods := ms, base := mi.data, data }

/-- Merging the diff a validation made, modinfo.c 3149-3170 and 3208-3229: the module is changed when the diff has something for it. -/
def Mod.afterVal (x : Mod) (base d d' : D) : Mod := if d' = d then x else { x with changed := decide (d' ≠ base) }

/-- The first loop of `sr_modinfo_validate`, modinfo.c 3139-3172, over changed and inverse dependency modules, counting the errors. -/
def valLoop (env : Env D) (base : Nat → D) : List Mod → (Nat → D) → List Mod × (Nat → D) × Nat
  | [], data => ([], data, 0)
  | x :: xs, data =>
    if x.changed || x.inv then
      let d := env.valMod x.id data
      let (ys, data', n) := valLoop env base xs (upd data x.id d)
      (x.afterVal (base x.id) (data x.id) d :: ys, data', env.valErr x.id data + n)
    else
      let (ys, data', n) := valLoop env base xs data
      (x :: ys, data', n)

/-- `sr_modinfo_validate`, modinfo.c 3121-3186: the mod info and the number of errors added to the validation errors. -/
def validate (env : Env D) (mi : MI D) : MI D × Nat :=
  let (ms, data, n) := valLoop env mi.base mi.mods mi.data
  ({ mi with mods := ms, data }, n + ((ms.filter fun x => x.changed || x.inv).map fun x => env.valFinal x.id data).sum)

/-- `sr_modinfo_add_defaults`, modinfo.c 3189-3236, over the required modules. -/
def defLoop (env : Env D) (base : Nat → D) : List Mod → (Nat → D) → List Mod × (Nat → D)
  | [], data => ([], data)
  | x :: xs, data =>
    if x.req then
      let d := env.defMod x.id data
      let (ys, data') := defLoop env base xs (upd data x.id d)
      (x.afterVal (base x.id) (data x.id) d :: ys, data')
    else
      let (ys, data') := defLoop env base xs data
      (x :: ys, data')

/-- See `defLoop`. -/
def addDefaults (env : Env D) (mi : MI D) : MI D :=
  let (ms, data) := defLoop env mi.base mi.mods mi.data
  { mi with mods := ms, data }

/-- `sr_modinfo_collect_deps`, modinfo.c 376-396, and the consolidation of the dependencies found (sysrepo.c 4020, modinfo.c 3582): read
lock. -/
def withDeps (env : Env D) (mi : MI D) : MI D :=
  let ds := (mi.mods.filter fun x => (x.req && x.changed) || x.inv).flatMap fun x => env.deps x.id mi.data
  { mi with mods := consolidate env .dep false .read (ds.foldl (fun a m => addMod m a) mi.mods) }

/-- The validation of the datastore, sysrepo.c 4013-4059 and modinfo.c 3576-3606: the new mod info and the number of errors; `none` is an
internal error. -/
def check (env : Env D) (depsOk valOk : Bool) (mi : MI D) : Option (MI D × Nat) :=
  match mi.ds with
  | .startup | .running => if depsOk && valOk then some (validate env (withDeps env mi)) else none
  | .candidate => if valOk then some (addDefaults env mi, env.stateErr (addDefaults env mi).data) else none
  | .operational => some (mi, 0)
  | .factory => none

/-- Whether there is a diff for notifying. -/
def hasDiff (env : Env D) (mi : MI D) : Bool :=
  if mi.ds = .operational then env.visible else mi.mods.any fun x => decide (mi.data x.id ≠ mi.base x.id)

/-- `sr_modinfo_is_changed`, modinfo.c 3946-3960. -/
def isChanged (mi : MI D) : Bool := mi.mods.any (·.changed)

/-- `sr_modinfo_perm_check`, modinfo.c 488-527, strict. -/
def permOk (env : Env D) (mi : MI D) : Bool := mi.mods.all fun x => !(x.req || x.changed) || env.perm x.id

/-- `sr_shmmod_modinfo_rdlock_upgrade`, shm_mod.c 1500-1527: required upgradable-locked modules. -/
def upgradeMods (ms : List Mod) : List Mod := ms.map fun x => if x.req ∧ x.lock = .upgr then { x with lock := .write } else x

/-- The modules whose lock is upgraded. -/
def upgraded (ms : List Mod) : List Nat := (ms.filter fun x => x.req && decide (x.lock = .upgr)).map (·.id)

/-- `sr_modinfo_data_store`, modinfo.c 3838-3922: the changed modules are stored one by one, the first failure ends it. -/
def storeLoop (env : Env D) (ds : Ds) (data : Nat → D) : List Mod → Store D → Store D × List (Ev D) × Bool
  | [], s => (s, [], true)
  | x :: xs, s =>
    if x.changed then
      match env.store x.id with
      | .failed left => (s.write ds x.id left, [], false)
      | .cacheFailed => (s.write ds x.id (data x.id), [.store x.id x.lock (data x.id)], false)
      | .ok =>
        let (s', l, ok) := storeLoop env ds data xs (s.write ds x.id (data x.id))
        (s', .store x.id x.lock (data x.id) :: l, ok)
    else storeLoop env ds data xs s

/-! ## The phases of `sr_changes_notify_store`, last first -/

/-- From `store:` on, sysrepo.c 4099-4122. `old` is the content before the call, for the done event. -/
def storePhase (env : Env D) (s : Store D) (old : Nat → D) (mi : MI D) (err2 : Bool) (log : List (Ev D)) : Out D :=
  if !hasDiff env mi && !isChanged mi then ⟨s, log, err2⟩
  else if (upgraded mi.mods).all env.upgrade = false then ⟨s, log, true⟩
  else
    match storeLoop env mi.ds mi.data (upgradeMods mi.mods) s with
    | (s', l, false) => ⟨s', log ++ l, true⟩
    | (s', l, true) =>
      if !env.downOk then ⟨s', log ++ l, true⟩
      else
        let l' := if env.chgSub && hasDiff env mi then l ++ [.done old mi.data] else l
        if !env.doneOk || !env.notifOk then ⟨s', log ++ l', true⟩ else ⟨s', log ++ l', err2⟩

/-- The change event, sysrepo.c 4082-4097. -/
def changePhase (env : Env D) (s : Store D) (old : Nat → D) (mi : MI D) (log : List (Ev D)) : Out D :=
  if !hasDiff env mi then storePhase env s old mi false log
  else
    let log := if env.chgSub then log ++ [.change old mi.data] else log
    match (if env.chgSub then env.chg old mi.data else .ok) with
    | .internal => ⟨s, log, true⟩
    | .refused => ⟨s, log ++ [.abort old mi.data], true⟩
    | .ok => storePhase env s old mi false log

/-- `sr_modinfo_update_is_foreign`, modinfo.c 3471-3506: some changes are of a module that is not required. -/
def isForeign (e : Edit D) (ms : List Mod) : Bool := e.mods.any fun m => !ms.any fun x => x.id == m && x.req

/-- Applying the changes made by update subscribers, modinfo.c 3538-3626: the mod info with the diffs merged and the number of errors.
`none` is an internal error. -/
def updateApply (env : Env D) (e : Edit D) (mi : MI D) : Option (MI D × Nat) :=
  if mi.ds = .operational then none
  else if !env.collectOk2 || !env.applyOk2 then none
  else
    let mi1 := if isForeign e mi.mods then
        { mi with mods := consolidate env .req (mi.ds ≠ .candidate) .upgr (e.mods.foldl (fun a m => addMod m a) mi.mods) }
      else mi
    match check env env.depsOk2 env.valOk2 (editApply e mi1) with
    | none => none
    | some (mi2, n) => if env.subLock2 then some ({ mi2 with base := mi.base }, e.refused mi1.data + n) else none

/-- The update event delivered, if somebody is subscribed. -/
def updLog (env : Env D) (old : Nat → D) (mi : MI D) : List (Ev D) := if env.updSub then [Ev.update old mi.data] else []

/-- `sr_shmsub_change_notify_update`, shm_sub.c 1283-1454: nothing happens without subscribers. -/
def updRes (env : Env D) (old : Nat → D) (mi : MI D) : Upd D := if env.updSub then env.upd old mi.data else .ok none

/-- The update event, sysrepo.c 4070-4080, and `sr_modinfo_change_notify_update`, modinfo.c 3509-3633. `err2`: errors were found before. -/
def updatePhase (env : Env D) (s : Store D) (old : Nat → D) (mi : MI D) (err2 : Bool) : Out D :=
  let log := updLog env old mi
  match updRes env old mi with
  | .internal => ⟨s, log, true⟩
  | .errors (_ + 1) => ⟨s, log, true⟩
  | .errors 0 => if err2 then ⟨s, log, true⟩ else changePhase env s old mi log
  | .ok none => if err2 then ⟨s, log, true⟩ else changePhase env s old mi log
  | .ok (some e) =>
    match updateApply env e mi with
    | none => ⟨s, log, true⟩
    | some (mi', n) => if err2 || n ≠ 0 then ⟨s, log, true⟩ else changePhase env s old mi' log

/-- `sr_changes_notify_store`, sysrepo.c 3970-4131. -/
def notifyStore (env : Env D) (s : Store D) (old : Nat → D) (mi : MI D) (err2 : Bool) : Out D :=
  if !hasDiff env mi then storePhase env s old mi err2 []
  else if env.nacmUser && env.nacm mi.base mi.data ≠ .ok then ⟨s, [], true⟩
  else
    match check env env.depsOk env.valOk mi with
    | none => ⟨s, [], true⟩
    | some (mi, n) =>
      if n ≠ 0 then ⟨s, [], true⟩
      else if !hasDiff env mi then storePhase env s old mi err2 []
      else if !permOk env mi then ⟨s, [], true⟩
      else if !env.subLock then ⟨s, [], true⟩
      else updatePhase env s old mi err2

/-! ## The API -/

/-- The mod info of modules, locked upgradable, with their data loaded: `sr_modinfo_collect_edit` (or `sr_modinfo_add`) and
`sr_modinfo_consolidate` in sysrepo.c 4270-4284 and 4414-4429. -/
def loaded (env : Env D) (s : Store D) (ds : Ds) (ms : List Nat) (inv : Bool) : MI D :=
  ⟨ds, consolidate env .req inv .upgr (ms.foldl (fun a m => addMod m a) []), s.read ds, s.read ds⟩

/-- `sr_apply_changes`, sysrepo.c 4245-4309, with pending changes. Pushing operational data (4152-4243): refused nodes are an error at
once. -/
def applyChanges (env : Env D) (s : Store D) (ds : Ds) (e : Edit D) : Out D :=
  if !env.collectOk || !env.applyOk then ⟨s, [], true⟩
  else
    let mi := loaded env s ds e.mods (ds ≠ .candidate && ds ≠ .operational)
    if ds = .operational then
      if e.refused mi.data ≠ 0 then ⟨s, [], true⟩ else notifyStore env s (s.read ds) (editApply e mi) false
    else notifyStore env s (s.read ds) (editApply e mi) (e.refused mi.data ≠ 0)

/-- `_sr_replace_config`, sysrepo.c 4401-4446. -/
def replaceConfig (env : Env D) (s : Store D) (ds : Ds) (ms : List Nat) (src : Nat → D) : Out D :=
  if !env.collectOk || !env.applyOk then ⟨s, [], true⟩
  else notifyStore env s (s.read ds) (replaceData src (loaded env s ds ms true)) false

/-- `sr_modinfo_candidate_reset`, modinfo.c 3926-3943, with `candidate_reset_cb` of the JSON plugin, ds_json.c 662-678: a file that
cannot be removed is only a warning. -/
def candidateReset (env : Env D) (s : Store D) (ms : List Nat) : Store D :=
  { s with cand := fun m => if ms.contains m && env.unlink m then none else s.cand m }

/-- `sr_copy_config` from the candidate to running after the candidate data `src` were loaded, sysrepo.c 4573-4580. Only the candidate is
locked while they are loaded, running not before `_sr_replace_config`. -/
def commitLoaded (env : Env D) (s : Store D) (ms : List Nat) (src : Nat → D) : Out D :=
  let o := replaceConfig env s .running ms src
  if o.err then o else ⟨candidateReset env o.st ms, o.log, false⟩

/-- `sr_copy_config`, sysrepo.c 4509-4612, of modules `ms` from `src` to `ds`. `wrOk`: locking the source. -/
def copyConfig (env : Env D) (wrOk : Bool) (s : Store D) (src ds : Ds) (ms : List Nat) : Out D :=
  if src = ds then ⟨s, [], false⟩
  else if !wrOk then ⟨s, [], true⟩
  else if src = .running ∧ ds = .candidate then ⟨candidateReset env s ms, [], false⟩
  else if src = .candidate ∧ ds = .running then commitLoaded env s ms (s.read src)
  else replaceConfig env s ds ms (s.read src)

/-- A call of any session. `reset`: `sr_unlock` of the candidate (sysrepo.c 4951) and the end of a session that has it locked
(shm_mod.c 1600-1660). -/
inductive Call (D : Type) where
  | apply (env : Env D) (ds : Ds) (e : Edit D)
  | replace (env : Env D) (ds : Ds) (ms : List Nat) (src : Nat → D)
  | copy (env : Env D) (wrOk : Bool) (src ds : Ds) (ms : List Nat)
  | reset (env : Env D) (ms : List Nat)

/-- The call. -/
def Call.run (s : Store D) : Call D → Out D
  | .apply env ds e => applyChanges env s ds e
  | .replace env ds ms src => replaceConfig env s ds ms src
  | .copy env wrOk src ds ms => copyConfig env wrOk s src ds ms
  | .reset env ms => ⟨candidateReset env s ms, [], false⟩

/-- Calls one after another, of any sessions. -/
def runCalls (s : Store D) : List (Call D) → Store D
  | [] => s
  | c :: cs => runCalls (c.run s).st cs

/-- The session: its datastore and pending changes per datastore. -/
structure Session (D : Type) where
  ds : Ds
  pending : Ds → Option (Edit D)

/-- Setting the pending changes of the present datastore. -/
def Session.setPending (c : Session D) (e : Option (Edit D)) : Session D :=
  { c with pending := fun d => if d = c.ds then e else c.pending d }

/-- The calls of a session. The result of an edit function (`EditMerge`) is arbitrary pending changes. `discardSome` is
`sr_discard_changes_xpath` with an XPath: what is left is arbitrary. -/
inductive Op (D : Type) where
  | switch (ds : Ds)
  | edit (e : Option (Edit D))
  | apply (env : Env D)
  | discard
  | discardSome (left : Option (Edit D))
  | copy (env : Env D) (lockOk : Bool) (src : Ds) (ms : List Nat)
  | replace (env : Env D) (ms : List Nat) (src : Nat → D)

/-- A call: the session and the store after it and whether it failed. `sr_apply_changes` releases the changes only when it succeeds,
sysrepo.c 4297-4301; `sr_discard_changes`, 4343-4390. -/
def Op.run (c : Session D) (s : Store D) : Op D → Session D × Store D × Bool
  | .switch ds => ({ c with ds }, s, false)
  | .edit e => (c.setPending e, s, false)
  | .apply env =>
    match c.pending c.ds with
    | none => (c, s, false)
    | some e =>
      let o := applyChanges env s c.ds e
      (if o.err then c else c.setPending none, o.st, o.err)
  | .discard => (c.setPending none, s, false)
  | .discardSome left => (if (c.pending c.ds).isNone then c else c.setPending left, s, false)
  | .copy env lockOk src ms => let o := copyConfig env lockOk s src c.ds ms; (c, o.st, o.err)
  | .replace env ms src => let o := replaceConfig env s c.ds ms src; (c, o.st, o.err)

end Verif.Pipeline
