/-
Owner, group and permissions of the data of a module.

Models of `/repo/src/sysrepo.c` 2229-2335 (`_sr_set_module_ds_access`, `sr_set_module_ds_access`), 2337-2431
(`sr_get_module_ds_access`, `sr_check_module_ds_access`), of `/repo/src/plugins/ds_json.c` 49-159 (creating a file in
`srpds_json_store_`), 287-339 (`srpds_json_init`), 355-404 (`srpds_json_store`), 660-677 (`srpds_json_candidate_reset`), 679-894
(`srpds_json_access_set`, `_get`, `_check`), of `/repo/src/plugins/common_json.c` 169-234 (`srpjson_open`), 409-454
(`srpjson_chmodown`) and of `/repo/src/plugins/ntf_json.c` 177-208 (`srpntf_open_file`), 637-662 (`srpntf_json_access_set`).

Simplifications: the production environment (`sr_is_prod_env`); calls are atomic; the directories can be searched and written
by everybody; of the kernel, the rules of Linux for `chown`, `chmod` and opening files are modelled (capabilities: all or none,
no ACLs). Permissions have no execute bits, which are refused. Content of files is modelled in `JsonStore.lean`.
-/
import Verif.NtfJson

namespace Verif.Access

/-- Read and write permissions of the owner, the group and others. -/
structure Perm where
  ur : Bool
  uw : Bool
  gr : Bool
  gw : Bool
  or : Bool
  ow : Bool
deriving DecidableEq, Repr

/-- No permissions. -/
def Perm.none : Perm := ⟨false, false, false, false, false, false⟩

/-- Without the bits of a mask. -/
def Perm.mask (p u : Perm) : Perm :=
  ⟨p.ur && !u.ur, p.uw && !u.uw, p.gr && !u.gr, p.gw && !u.gw, p.or && !u.or, p.ow && !u.ow⟩

/-- Attributes of a file. -/
structure Attr where
  uid : Nat
  gid : Nat
  perm : Perm
deriving DecidableEq, Repr

/-- A process. -/
structure Proc where
  root : Bool
  uid : Nat
  /-- The group of files it creates. -/
  gid : Nat
  /-- All its groups. -/
  gids : List Nat
deriving DecidableEq, Repr

/-- Users and groups of the system and the configuration of sysrepo. -/
structure Env where
  uidOf : Nat → Option Nat
  gidOf : Nat → Option Nat
  /-- `SR_GROUP`. -/
  srGroup : Option Nat
  /-- `SR_UMASK`. -/
  umask : Perm

/-- Datastores. -/
inductive Ds where
  | startup | running | candidate | operational | factory
deriving DecidableEq, Repr

/-- Files of a module. -/
structure Mod where
  /-- Data files but the operational ones. -/
  data : Ds → Option Attr
  /-- Operational data files of sessions. -/
  oper : List (Nat × Attr)
  /-- Permission files of `running`, `candidate` and `operational`. -/
  permf : Ds → Attr
  /-- `running` is disabled. -/
  noRunning : Bool

/-- Results. -/
inductive Res where
  | ok | inval | notFound | unauthorized | internal | sys
deriving DecidableEq, Repr

/-! ### The kernel -/

/-- `chown` is permitted. -/
def chownOk (p : Proc) (a : Attr) (u g : Option Nat) : Bool :=
  p.root ||
  ((match u with
    | none => true
    | some u => p.uid == a.uid && u == a.uid) &&
   (match g with
    | none => true
    | some g => p.uid == a.uid && (p.gids.contains g || g == a.gid)))

/-- `chmod` is permitted. -/
def chmodOk (p : Proc) (a : Attr) : Bool := p.root || p.uid == a.uid

/-- Opening a file for reading is permitted. -/
def canRead (p : Proc) (a : Attr) : Bool :=
  p.root || (if p.uid = a.uid then a.perm.ur else if a.gid ∈ p.gids then a.perm.gr else a.perm.or)

/-- Opening a file for writing is permitted. -/
def canWrite (p : Proc) (a : Attr) : Bool :=
  p.root || (if p.uid = a.uid then a.perm.uw else if a.gid ∈ p.gids then a.perm.gw else a.perm.ow)

/-! ### Changing access -/

/-- Permissions passed to the functions. -/
structure Arg where
  perm : Perm
  /-- An execute bit is set. -/
  exec : Bool
  /-- A bit above 00777 is set. -/
  high : Bool
deriving DecidableEq, Repr

/-- `perm == 0`. -/
def Arg.zero (a : Arg) : Bool := a.perm == Perm.none && !a.exec && !a.high

/-- `srpjson_chmodown`, common_json.c 409-454. -/
def chmodown (e : Env) (p : Proc) (a : Attr) (o g : Option Nat) (m : Arg) : Res × Attr :=
  if m.high || m.exec then (.inval, a)
  else if o.isSome && (o.bind e.uidOf).isNone then (.notFound, a)
  else if g.isSome && (g.bind e.gidOf).isNone then (.notFound, a)
  else if !chownOk p a (o.bind e.uidOf) (g.bind e.gidOf) then (.unauthorized, a)
  else
    let a1 : Attr := { a with uid := (o.bind e.uidOf).getD a.uid, gid := (g.bind e.gidOf).getD a.gid }
    if m.zero then (.ok, a1)
    else if !chmodOk p a1 then (.unauthorized, a1)
    else (.ok, { a1 with perm := m.perm })

/-- The same for all the operational data files, ds_json.c 698-704. -/
def chmodAll (e : Env) (p : Proc) (o g : Option Nat) (m : Arg) : List (Nat × Attr) → Res × List (Nat × Attr)
  | [] => (.ok, [])
  | (i, a) :: t =>
    match chmodown e p a o g m with
    | (.ok, a') => ((chmodAll e p o g m t).1, (i, a') :: (chmodAll e p o g m t).2)
    | (r, a') => (r, (i, a') :: t)

/-- Write a data file. -/
def Mod.putData (m : Mod) (d : Ds) (a : Attr) : Mod := { m with data := fun x => if x = d then some a else m.data x }

/-- Write a permission file. -/
def Mod.putPerm (m : Mod) (d : Ds) (a : Attr) : Mod := { m with permf := fun x => if x = d then a else m.permf x }

/-- The permission file is changed at last, ds_json.c 733-752. -/
def setPermFile (e : Env) (p : Proc) (m : Mod) (d : Ds) (o g : Option Nat) (a : Arg) : Res × Mod :=
  ((chmodown e p (m.permf d) o g a).1, m.putPerm d (chmodown e p (m.permf d) o g a).2)

/-- `srpds_json_access_set`, ds_json.c 679-760. -/
def accessSet (e : Env) (p : Proc) (m : Mod) (d : Ds) (o g : Option Nat) (a : Arg) : Res × Mod :=
  match d with
  | .operational =>
    let r := chmodAll e p o g a m.oper
    if r.1 = .ok then setPermFile e p { m with oper := r.2 } d o g a else (r.1, { m with oper := r.2 })
  | .startup | .factory =>
    match m.data d with
    | none => (.internal, m)
    | some f => ((chmodown e p f o g a).1, m.putData d (chmodown e p f o g a).2)
  | .running | .candidate =>
    match m.data d with
    | none => setPermFile e p m d o g a
    | some f =>
      let r := chmodown e p f o g a
      if r.1 = .ok then setPermFile e p (m.putData d r.2) d o g a else (r.1, m.putData d r.2)

/-- The datastore whose plugin is used, sysrepo.c 2251-2254, 2370-2373. -/
def target (m : Mod) (d : Ds) : Ds := if d = .running ∧ m.noRunning then .startup else d

/-- Another group than the one of sysrepo is ignored, sysrepo.c 2284-2287. -/
def useGroup (e : Env) (g : Option Nat) : Option Nat :=
  match e.srGroup with
  | none => g
  | some s => if g = some s then g else none

/-- Forbidden bits are ignored, sysrepo.c 2280-2283. -/
def useArg (e : Env) (a : Arg) : Arg := { a with perm := a.perm.mask e.umask }

/-- `sr_set_module_ds_access` of one module, sysrepo.c 2269-2335. -/
def set (e : Env) (p : Proc) (m : Mod) (d : Ds) (o g : Option Nat) (a : Arg) : Res × Mod :=
  if (o.isNone && g.isNone && a.zero) || a.exec then (.inval, m)
  else if o.isNone && (useGroup e g).isNone && (useArg e a).zero then (.ok, m)
  else accessSet e p m (target m d) o (useGroup e g) (useArg e a)

/-- The same of all the modules, sysrepo.c 2315-2328. -/
def setAll (e : Env) (p : Proc) (d : Ds) (o g : Option Nat) (a : Arg) : List Mod → Res × List Mod
  | [] => (.ok, [])
  | m :: t =>
    match set e p m d o g a with
    | (.ok, m') => ((setAll e p d o g a t).1, m' :: (setAll e p d o g a t).2)
    | (r, m') => (r, m' :: t)

/-- `srpds_json_access_get`, ds_json.c 762-836: `none` is an error, the file does not exist. -/
def accessGet (m : Mod) (d : Ds) : Option Attr :=
  match d with
  | .startup | .factory => m.data d
  | _ => some (m.permf d)

/-- `sr_get_module_ds_access`, sysrepo.c 2337-2386. -/
def get (m : Mod) (d : Ds) : Option Attr := accessGet m (target m d)

/-- `sr_check_module_ds_access`, sysrepo.c 2388-2431 and ds_json.c 838-894. -/
def check (p : Proc) (m : Mod) (d : Ds) : Option (Bool × Bool) :=
  (get m d).map (fun a => (canRead p a, canWrite p a))

/-! ### Files are created and removed -/

/-- A file is created by `srpjson_open`, common_json.c 169-234; the flag tells whether it succeeded, the file stays otherwise. -/
def mk (e : Env) (p : Proc) (perm : Perm) : Bool × Attr :=
  let a : Attr := ⟨p.uid, p.gid, perm.mask e.umask⟩
  match e.srGroup with
  | none => (true, a)
  | some s =>
    match e.gidOf s with
    | none => (false, a)
    | some g => if chownOk p a none (some g) then (true, { a with gid := g }) else (false, a)

/-- Opening the file in `srpds_json_store_`, ds_json.c 97-110: the existing file is opened if creating it failed. -/
def openFile (e : Env) (p : Proc) (old : Option Attr) (perm : Perm) : Res × Attr :=
  match old with
  | some a => (if canWrite p a then .ok else .sys, a)
  | none => (if (mk e p perm).1 || canWrite p (mk e p perm).2 then .ok else .sys, (mk e p perm).2)

/-- `srpds_json_store`, ds_json.c 355-404. -/
def store (e : Env) (p : Proc) (m : Mod) (d : Ds) (sid : Nat) : Res × Mod :=
  match d with
  | .startup | .factory =>
    match m.data d with
    | none => (.sys, m)
    | some a => (if canWrite p a then .ok else .sys, m)
  | .operational =>
    match m.oper.lookup sid with
    | some a => (if canWrite p a then .ok else .sys, m)
    | none => ((openFile e p none (m.permf d).perm).1, { m with oper := m.oper ++ [(sid, (openFile e p none (m.permf d).perm).2)] })
  | .running | .candidate =>
    ((openFile e p (m.data d) (m.permf d).perm).1, m.putData d (openFile e p (m.data d) (m.permf d).perm).2)

/-- `srpds_json_init`, ds_json.c 287-339: the file of `running` is created with the owner and the group of the permission
file. -/
def init (e : Env) (p : Proc) (m : Mod) : Res × Mod :=
  match m.data .running with
  | some _ => (.sys, m)
  | none =>
    let c := mk e p (m.permf .running).perm
    if !c.1 then (.sys, m.putData .running c.2)
    else if chownOk p c.2 (some (m.permf .running).uid) (some (m.permf .running).gid) then
      (.ok, m.putData .running ⟨(m.permf .running).uid, (m.permf .running).gid, c.2.perm⟩)
    else (.unauthorized, m.putData .running c.2)

/-- Calls. -/
inductive Op where
  | set (p : Proc) (d : Ds) (o g : Option Nat) (a : Arg)
  | store (p : Proc) (d : Ds) (sid : Nat)
  | init (p : Proc)
  /-- The candidate is reset, ds_json.c 660-677. -/
  | reset
  /-- Operational data of a session are removed, ds_json.c 394-396. -/
  | drop (sid : Nat)

/-- One call. -/
def step (e : Env) (m : Mod) : Op → Res × Mod
  | .set p d o g a => set e p m d o g a
  | .store p d sid => store e p m d sid
  | .init p => init e p m
  | .reset => (.ok, { m with data := fun x => if x = .candidate then none else m.data x })
  | .drop sid => (.ok, { m with oper := m.oper.filter (fun x => x.1 ≠ sid) })

/-- A history. -/
def run (e : Env) : Mod → List Op → Mod
  | m, [] => m
  | m, o :: t => run e (step e m o).2 t

/-! ### Notifications -/

/-- A file of notifications. -/
structure NtfFile where
  file : NtfJson.File
  attr : Attr

/-- One iteration of the loop of `srpntf_json_access_set`, ntf_json.c 648-660, with the file found before the loop: an error, or
the loop goes on with the same file. `none`: the loop ends. -/
def ntfIter (e : Env) (p : Proc) (o g : Option Nat) (m : Arg) (cur : Nat × Nat) (fs : List NtfFile) : Option (Res × List NtfFile) :=
  if cur.1 = 0 ∨ cur.2 = 0 then none
  else
    match fs.find? (fun f => f.file.lo == cur.1 && f.file.hi == cur.2) with
    | none => some (.internal, fs)
    | some f =>
      some ((chmodown e p f.attr o g m).1,
        fs.map (fun x => if x.file.lo == cur.1 && x.file.hi == cur.2 then { x with attr := (chmodown e p f.attr o g m).2 } else x))

/-- The loop for at most `n` iterations; `none`: it has not returned. -/
def ntfLoop (e : Env) (p : Proc) (o g : Option Nat) (m : Arg) (cur : Nat × Nat) : Nat → List NtfFile → Option (Res × List NtfFile)
  | 0, _ => none
  | n + 1, fs =>
    match ntfIter e p o g m cur fs with
    | none => some (.ok, fs)
    | some (.ok, fs') => ntfLoop e p o g m cur n fs'
    | some (r, fs') => some (r, fs')

/-- `srpntf_json_access_set`, ntf_json.c 637-662. -/
def ntfSet (e : Env) (p : Proc) (o g : Option Nat) (m : Arg) (n : Nat) (fs : List NtfFile) : Option (Res × List NtfFile) :=
  ntfLoop e p o g m (NtfJson.findFile (fs.map (·.file)) 1 1) n fs

/-- Permissions of new files, `SRPJSON_NOTIF_PERM`. -/
def ntfPerm : Perm := ⟨true, true, false, false, false, false⟩

/-- A file for new notifications, `srpntf_open_file`, ntf_json.c 177-208. -/
def ntfNew (e : Env) (p : Proc) : Bool × Attr := mk e p ntfPerm

/-! ### Specification -/

/-- What is requested of an attribute. -/
def Wanted (e : Env) (o g : Option Nat) (a : Arg) (old new : Attr) : Prop :=
  (∀ n, o = some n → e.uidOf n = some new.uid) ∧ (o = none → new.uid = old.uid) ∧
  (∀ n, g = some n → (e.srGroup = none ∨ e.srGroup = some n) → e.gidOf n = some new.gid) ∧
  ((g = none ∨ ∃ s, e.srGroup = some s ∧ g ≠ some s) → new.gid = old.gid) ∧
  -- every requested bit that is not forbidden, or what it was if there is none
  ((a.perm.mask e.umask ≠ Perm.none → new.perm = a.perm.mask e.umask) ∧ (a.perm.mask e.umask = Perm.none → new.perm = old.perm))

/-- The files with the data of a datastore. -/
def Holds (m : Mod) (d : Ds) (f : Attr) : Prop :=
  match d with
  | .operational => ∃ i, (i, f) ∈ m.oper
  | _ => m.data d = some f

end Verif.Access
