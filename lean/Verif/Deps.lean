/-
Component: which modules are validated when data change, and on what data.

Models sr_lydmods_add_deps_all with its helpers (lyd_mods.c 390-870), sr_modinfo_add (modinfo.c 52-114),
sr_modinfo_collect_deps (375-397), sr_modinfo_edit_apply (588-635), sr_modinfo_mod_new and
sr_modinfo_mod_inv_deps (2793-2907), sr_modinfo_data_load (2947-3030), sr_modinfo_consolidate (3033-3118),
sr_modinfo_validate (3121-3186), sr_shmmod_collect_deps (shm_mod.c 1144-1302), sr_validate (sysrepo.c
3834-3968) and the way sr_apply_changes takes through them (3970-4050, 4245-4290), with the part of
sr_modinfo_change_notify_update (modinfo.c 3541-3592) that loads data again.

Simplified: a module is its number, which is also its place in the shared memory; data of one module are a
value of any type; libyang's validation of a module is a parameter (`Lib`), split like the code calls it into
the first pass, which can change the data of the module (default values, nodes whose `when` is false) and can
fail, and the final pass. Locks, permissions, NACM and subscribers are in other components. Data of a module
that is not loaded are `none`. All data of a loaded module are loaded: the XPaths of dependencies, which only
limit what a datastore plugin has to return, decide only whether the data are remembered as loaded.
-/

namespace Verif.Deps

/-- An instance-identifier leaf that requires its instance: the modules its values in the data of the module
point to, and the module its default value points to if that is another one (lyd_mods.c 565-587). -/
structure Inst (D : Type) where
  vals : D → List Nat
  dflt : Option Nat

/-- The modules and what libyang knows of them: the modules in which the nodes of leafref paths (with
require-instance) and of when and must expressions are, lyd_mods.c 593-608, 528-534. -/
structure Lib (D : Type) where
  mods : List Nat
  lrefs : Nat → List (List Nat)
  xpaths : Nat → List (List Nat)
  insts : Nat → List (Inst D)
  none : D
  fix : Nat → (Nat → D) → D
  okNow : Nat → (Nat → D) → Bool
  okEnd : Nat → (Nat → D) → Bool

/-- A dependency in the internal data, lyd_mods.c 390-498. -/
inductive Dep (D : Type) where
  | lref (t : Nat)
  | inst (i : Inst D)
  | xpath (ts : List Nat)

variable {D : Type} [DecidableEq D]

/-- The dependency of a leafref: the first foreign node, lyd_mods.c 599-614. -/
def lrefDep (m : Nat) (atoms : List Nat) : Option (Dep D) :=
  match atoms.find? (fun t => t ≠ m) with
  | none => none
  | some t => some (.lref t)

/-- All dependencies of a module, lyd_mods.c 641-720. -/
def depsOf (L : Lib D) (m : Nat) : List (Dep D) :=
  (L.lrefs m).filterMap (lrefDep m) ++ (L.insts m).map .inst ++
    (L.xpaths m).map fun atoms => .xpath (atoms.filter fun t => t ≠ m)

/-- The leaves target-module of a dependency, lyd_mods.c 826. -/
def targets : Dep D → List Nat
  | .lref t => [t]
  | .inst _ => []
  | .xpath ts => ts

/-- sr_lydmods_add_inv_data_dep, lyd_mods.c 730-752. -/
def addInv (inv : Nat → List Nat) (b a : Nat) : Nat → List Nat := fun k =>
  if k = b then (if a ∈ inv b then inv b else inv b ++ [a]) else inv k

/-- The inverse dependencies of all the modules, lyd_mods.c 791-862. -/
def invDeps (L : Lib D) : Nat → List Nat :=
  L.mods.foldl (fun inv a => ((depsOf L a).flatMap targets).foldl (fun inv b => addInv inv b a) inv) fun _ => []

/-- One item of struct sr_mod_info_s, modinfo.h 27-40; `loads` counts how many times its data were loaded. -/
structure Ent where
  m : Nat
  req : Bool := false
  dep : Bool := false
  inv : Bool := false
  new : Bool := false
  xp : Bool := false
  data : Bool := false
  changed : Bool := false
  loads : Nat := 0
  deriving DecidableEq, Repr

/-- struct sr_mod_info_s: its modules and the data. -/
structure MI (D : Type) where
  es : List Ent
  cur : Nat → D

/-- Changes the item of a module. -/
def upd (m : Nat) (f : Ent → Ent) (es : List Ent) : List Ent := es.map fun e => if e.m = m then f e else e

/-- sr_modinfo_add, modinfo.c 52-114; `xp` if an XPath is given. -/
def add (xp : Bool) (es : List Ent) (m : Nat) : List Ent :=
  if es.any (fun e => e.m = m) then
    upd m (fun e => if e.req then e else { e with new := true, xp := e.xp || xp }) es
  else es ++ [{ m := m, new := true, xp := xp }]

/-- Type of a module, modinfo.h 28-30. -/
inductive Ty where
  | req | dep | inv

/-- Adds a type to an item. -/
def Ent.as (e : Ent) : Ty → Ent
  | .req => { e with req := true }
  | .dep => { e with dep := true }
  | .inv => { e with inv := true }

/-- sr_modinfo_mod_new, modinfo.c 2793-2875. -/
def modNew (ty : Ty) (es : List Ent) (m : Nat) : List Ent :=
  if es.any (fun e => e.m = m) then upd m (fun e => { e.as ty with new := false }) es
  else es ++ [({ m := m } : Ent).as ty]

/-- Puts an item before those of greater modules, modinfo.c 3088. -/
def insert (e : Ent) : List Ent → List Ent
  | [] => [e]
  | x :: l => if e.m ≤ x.m then e :: x :: l else x :: insert e l

/-- qsort with sr_modinfo_qsort_cmp, modinfo.c 2917-2932, 3088. -/
def sort : List Ent → List Ent
  | [] => []
  | e :: l => insert e (sort l)

/-- Loads the data of the modules that are not loaded, modinfo.c 2947-3030; with the running cache all data
are remembered as loaded, without it only those of modules without an XPath. -/
def load (cached : Bool) (ds : Nat → D) (mi : MI D) : MI D :=
  { es := mi.es.map fun e => if e.data then e else { e with data := cached || !e.xp, loads := e.loads + 1 },
    cur := fun k => if mi.es.any (fun e => e.m = k && !e.data) then ds k else mi.cur k }

/-- sr_modinfo_consolidate, modinfo.c 3033-3118: new modules get a type, with `inv` the modules depending on
the required ones are added (3069-3078), all are sorted and loaded. -/
def consolidate (L : Lib D) (cached : Bool) (ds : Nat → D) (ty : Ty) (inv : Bool) (mi : MI D) : MI D :=
  if !mi.es.any (·.new) then mi
  else
    let es := (mi.es.filter (·.new)).foldl (fun es e => modNew ty es e.m) mi.es
    let es := if inv then
        (es.filter (·.req)).foldl (fun es e => (invDeps L e.m).foldl (modNew .inv) es) es
      else es
    load cached ds { mi with es := sort es }

/-- sr_modinfo_edit_apply, modinfo.c 588-635: the edit is the modules of its top-level nodes and what it does
to the data of a module. It stops at the first node of a module that is not there (see `NextMod`). -/
def editApply (nodes : List Nat) (app : Nat → D → D) (mi : MI D) : MI D :=
  let done := nodes.takeWhile fun n => mi.es.any fun e => e.m = n
  { es := mi.es.map fun e =>
      if e.m ∈ done ∧ app e.m (mi.cur e.m) ≠ mi.cur e.m then { e with changed := true } else e,
    cur := fun k => if k ∈ done then app k (mi.cur k) else mi.cur k }

/-- sr_shmmod_collect_deps for one dependency, shm_mod.c 1144-1302. -/
def collectDep (own : D) (es : List Ent) : Dep D → List Ent
  | .lref t => add true es t
  | .inst i => match i.vals own with
    | [] => match i.dflt with
      | none => es
      | some t => add true es t
    | t :: ts => (t :: ts).foldl (add true) es
  | .xpath ts => ts.foldl (add true) es

/-- sr_modinfo_collect_deps, modinfo.c 375-397. -/
def collectDeps (L : Lib D) (mi : MI D) : MI D :=
  let srcs := mi.es.filter fun e => (e.req && e.changed) || e.inv
  { mi with es := srcs.foldl (fun es e => (depsOf L e.m).foldl (collectDep (mi.cur e.m)) es) mi.es }

/-- Sets the data of a module. -/
def set (d : Nat → D) (m : Nat) (x : D) : Nat → D := fun k => if k = m then x else d k

/-- The first pass of sr_modinfo_validate, modinfo.c 3138-3171. With `fin` (finish_diff) a module changed by
the validation becomes changed unless it has its stored data again. -/
def pass1 (L : Lib D) (sel : Ent → Bool) (fin : Bool) (ds : Nat → D) : List Ent → (Nat → D) → List Ent × (Nat → D) × Bool
  | [], cur => ([], cur, true)
  | e :: l, cur =>
    if sel e then
      let d := L.fix e.m cur
      let r := pass1 L sel fin ds l (set cur e.m d)
      ((if fin && d ≠ cur e.m then { e with changed := decide (d ≠ ds e.m) } else e) :: r.1, r.2.1,
        L.okNow e.m cur && r.2.2)
    else
      let r := pass1 L sel fin ds l cur
      (e :: r.1, r.2.1, r.2.2)

/-- sr_modinfo_validate, modinfo.c 3121-3186: the data and whether there was no error. -/
def validate (L : Lib D) (sel : Ent → Bool) (fin : Bool) (ds : Nat → D) (mi : MI D) : MI D × Bool :=
  let r := pass1 L sel fin ds mi.es mi.cur
  ({ es := r.1, cur := r.2.1 }, r.2.2 && r.1.all fun e => !sel e || L.okEnd e.m r.2.1)

/-- MOD_INFO_CHANGED | MOD_INFO_INV_DEP, sysrepo.c 4034, 3939. -/
def selChanged (e : Ent) : Bool := e.changed || e.inv

/-- MOD_INFO_REQ | MOD_INFO_INV_DEP, sysrepo.c 3946. -/
def selReq (e : Ent) : Bool := e.req || e.inv

/-- No modules. -/
def MI.init (L : Lib D) : MI D := { es := [], cur := fun _ => L.none }

/-- Collects the modules of an edit (modinfo.c 149-190), with the ones depending on them, applies the edit
and adds dependencies: sysrepo.c 4275-4287, 4025-4030. -/
def prepare (L : Lib D) (cached : Bool) (ds : Nat → D) (nodes : List Nat) (app : Nat → D → D) (mi : MI D) : MI D :=
  let mi := consolidate L cached ds .req true { mi with es := nodes.foldl (add false) mi.es }
  let mi := editApply nodes app mi
  consolidate L cached ds .dep false (collectDeps L mi)

/-- What sr_apply_changes stores in running or startup, sysrepo.c 4245-4290, 4020-4040: nothing if the
validation fails. -/
def applyChanges (L : Lib D) (cached : Bool) (ds : Nat → D) (nodes : List Nat) (app : Nat → D → D) : Option (Nat → D) :=
  let mi := consolidate L cached ds .req true { MI.init L with es := nodes.foldl (add false) [] }
  if !(editApply nodes app mi).es.any (·.changed) then some ds
  else
    let r := validate L selChanged true ds (prepare L cached ds nodes app (MI.init L))
    if r.2 then some fun k => if r.1.es.any (fun e => e.m = k && e.changed) then r.1.cur k else ds k
    else none

/-- The modules after an update subscriber changed the edit, modinfo.c 3541-3592. -/
def updated (L : Lib D) (cached : Bool) (ds : Nat → D) (nodes : List Nat) (app : Nat → D → D) (nodes2 : List Nat)
    (app2 : Nat → D → D) : MI D :=
  prepare L cached ds nodes2 app2 (validate L selChanged true ds (prepare L cached ds nodes app (MI.init L))).1

/-- sr_validate of running or startup, sysrepo.c 3858-3884, 3911-3942: whether there is no error. The module
is optional. -/
def validateRun (L : Lib D) (cached : Bool) (ds : Nat → D) (one : Option Nat) (nodes : List Nat) (app : Nat → D → D) : Bool :=
  if nodes = [] then true
  else
    let req := match one with
      | none => nodes
      | some m => [m]
    if one.any (fun m => m ∉ nodes) then true
    else
      let mi := consolidate L cached ds .req true { MI.init L with es := req.foldl (add false) [] }
      let mi := editApply nodes app mi
      let mi := consolidate L cached ds .dep false (collectDeps L mi)
      (validate L selChanged false ds mi).2

/-- sr_validate of candidate, sysrepo.c 3886-3898, 3911-3949. -/
def validateCand (L : Lib D) (cached : Bool) (ds : Nat → D) (one : Option Nat) (nodes : List Nat) (app : Nat → D → D) : Bool :=
  let req := match one with
    | none => L.mods
    | some m => [m]
  let mi := consolidate L cached ds .req true { MI.init L with es := req.foldl (add false) [] }
  let mi := editApply nodes app mi
  let mi := consolidate L cached ds .dep false (collectDeps L mi)
  (validate L selReq false ds mi).2

/-! Specification. -/

/-- The modules a module depends on by its schema. -/
def statics (L : Lib D) (m : Nat) : List Nat := (L.lrefs m).flatten ++ (L.xpaths m).flatten

/-- The modules the instance-identifiers in the data of a module point to. -/
def points (L : Lib D) (m : Nat) (x : D) : List Nat := (L.insts m).flatMap fun i => i.vals x

/-- What libyang does: the validation of a module reads its data and those its schema and instance-identifiers
refer to; a module that passed the first pass passes it again without changes; instance-identifiers that the
first pass adds are default values. -/
structure Laws (L : Lib D) : Prop where
  fix_reads : ∀ m d d', (∀ k ∈ m :: statics L m, d k = d' k) → L.fix m d = L.fix m d'
  now_reads : ∀ m d d', (∀ k ∈ m :: statics L m ++ points L m (d m) ++ points L m (L.fix m d), d k = d' k) →
    L.okNow m d = L.okNow m d'
  end_reads : ∀ m d d', (∀ k ∈ m :: statics L m ++ points L m (d m), d k = d' k) → L.okEnd m d = L.okEnd m d'
  again : ∀ m d, L.okNow m d = true →
    L.fix m (set d m (L.fix m d)) = L.fix m d ∧ L.okNow m (set d m (L.fix m d)) = true
  added : ∀ m d, ∀ i ∈ L.insts m, ∀ t ∈ i.vals (L.fix m d), t ∈ i.vals (d m) ∨ i.dflt = some t ∨ t = m
  known : ∀ m ∈ L.mods, ∀ k ∈ statics L m, k ∈ L.mods
  known_inst : ∀ m ∈ L.mods, ∀ i ∈ L.insts m, (∀ x, ∀ k ∈ i.vals x, k ∈ L.mods) ∧ ∀ k, i.dflt = some k → k ∈ L.mods

/-- A module is valid in a datastore. -/
def ValidMod (L : Lib D) (ds : Nat → D) (m : Nat) : Prop :=
  L.fix m ds = ds m ∧ L.okNow m ds = true ∧ L.okEnd m ds = true

/-- A datastore is valid. -/
def Valid (L : Lib D) (ds : Nat → D) : Prop := ∀ m ∈ L.mods, ValidMod L ds m

/-- The first pass over some modules with all data at hand: the data after it and whether all passed. -/
def firstPass (L : Lib D) : List Nat → (Nat → D) → (Nat → D) × Bool
  | [], d => (d, true)
  | m :: V, d =>
    let r := firstPass L V fun k => if k = m then L.fix m d else d k
    (r.1, L.okNow m d && r.2)

/-- Modules that an edit changes or that refer to a module of the edit. -/
def Affected (L : Lib D) (ds : Nat → D) (nodes : List Nat) (app : Nat → D → D) (k : Nat) : Prop :=
  (k ∈ nodes ∧ app k (ds k) ≠ ds k) ∨ (k ∈ L.mods ∧ ∃ t ∈ nodes, t ≠ k ∧ t ∈ statics L k)

/-- The modules `V` pass the validation with all data at hand, which turns the edited data into `out`. A module
that got its stored data back and refers to no module of the edit does not have to pass again. -/
structure Passes (L : Lib D) (ds : Nat → D) (nodes : List Nat) (app : Nat → D → D) (V : List Nat) (out : Nat → D) : Prop where
  first : firstPass L V (fun k => if k ∈ nodes then app k (ds k) else ds k) = (out, true)
  final : ∀ k ∈ V, (out k = ds k ∧ ¬ (k ∈ L.mods ∧ ∃ t ∈ nodes, t ≠ k ∧ t ∈ statics L k)) ∨ L.okEnd k out = true

/-- Every leafref path has nodes of at most one other module. -/
def OneForeign (L : Lib D) : Prop := ∀ m, ∀ atoms ∈ L.lrefs m, ∀ x ∈ atoms, ∀ y ∈ atoms, x ≠ m → y ≠ m → x = y

/-- No default instance-identifier of another module is added next to an existing one. -/
def NoDefaults (L : Lib D) : Prop := ∀ m d, ∀ i ∈ L.insts m, i.vals (d m) ≠ [] →
  ∀ t ∈ i.vals (L.fix m d), t ∈ i.vals (d m) ∨ t = m

/-- The data after an edit. -/
def edited (ds : Nat → D) (nodes : List Nat) (app : Nat → D → D) : Nat → D :=
  fun k => if k ∈ nodes then app k (ds k) else ds k

end Verif.Deps
