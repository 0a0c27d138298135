/-
Changes of the operational datastore made by one session (push operational data).

Models of `/repo/src/sysrepo.c` the operational parts of lines 3451-3511 (`sr_set_item_str`), 3513-3617
(`sr_delete_item`), 3625-3676 (`sr_discard_items`), 3718-3831 (`sr_edit_batch`), 4155-4241
(`sr_apply_oper_changes`), 4243-4308 (`sr_apply_changes`), 4343-4394 (`sr_discard_changes_xpath`), 4615-4676
(`_sr_discard_oper_changes`), 4683-4748 (`sr_get_oper_changes`), of `/repo/src/modinfo.c` 149-192
(`sr_modinfo_collect_edit`), 322-373 (`sr_modinfo_collect_oper_sess`), 641-684 (`sr_modinfo_oper_ds_diff`), 3838-3923
(`sr_modinfo_data_store`), and of `/repo/src/edit_diff.c` 2411-2562 (`sr_oper_edit_mod_apply_data`), 2566-2655
(`sr_oper_edit_mod_apply`), 3233-3390 (`sr_edit_add`).

Simplifications: a data tree is a top-level node (a container, a list instance or a leaf: its schema node and the
instance) with leaves, deeper trees have longer leaf names; values and names are numbers; origins are left out; a
discard-items node refers to one module. Top-level nodes of a module are neighbours, a new one is put after the
others of its module, as `lyd_insert_sibling` does; the order of modules and of nodes of a module is otherwise not
that of the schema. Other sessions, their order, and what subscribers are told are the subjects of `OperPush`,
`OperData` and `ChangeNotify`; here a subscriber can only refuse the changes.
-/
namespace Verif.OperSess

/-- Operation of a top-level node of the edit; the other operations are not allowed for this datastore. -/
inductive Op where
  | merge
  | replace
deriving DecidableEq, Repr

/-- Schema node and instance of a top-level node. -/
abbrev Name := Nat × Nat

/-- Leaves of a tree and their values. -/
abbrev Leaves := List (Nat × Nat)

/-- A top-level node of an edit. -/
structure Top where
  mod : Nat
  name : Name
  op : Op
  leaves : Leaves
deriving DecidableEq, Repr

/-- A discard-items node of an edit. -/
structure Disc where
  mod : Nat
  xpath : Nat
  op : Op
deriving DecidableEq, Repr

/-- `session->dt[ds].edit`: the trees and, always after them, the opaque nodes. -/
structure Edit where
  tops : List Top
  discs : List Disc
deriving DecidableEq, Repr

/-- Stored push data of the session for a module. -/
structure Push where
  trees : List (Name × Leaves)
  discs : List Nat
deriving DecidableEq, Repr

/-- Nothing stored. -/
def noPush : Push := ⟨[], []⟩

/-- The session. -/
structure State where
  stored : Nat → Push
  /-- `has_data` of the push entry of the session in the ext SHM. -/
  has : Nat → Bool
  pending : Option Edit
  /-- `push_oper_data`. -/
  flag : Bool

/-- Installed modules, in the order of the mod SHM, and whether assertions are compiled in. -/
structure Cfg where
  mods : List Nat
  dbg : Bool

/-- What the environment does during a call. -/
structure Env where
  /-- `sr_get_oper_changes` fails (a lock times out, a file cannot be read). -/
  getFails : Bool := false
  /-- The context lock times out. -/
  lockFails : Bool := false
  /-- A subscriber refuses the changes. -/
  refuse : Bool := false
deriving DecidableEq, Repr

/-- Results of API functions. -/
inductive Ret where
  | ok
  | notFound
  | locked
  | unsupported
  | internal
  | callback
  /-- An assertion failed, the process is gone. -/
  | abort
deriving DecidableEq, Repr

/-- `sr_get_oper_changes`, sysrepo.c 4718-4737, with the operation of sysrepo.c 3480-3486 set. -/
def prefill (C : Cfg) (s : State) : Edit where
  tops := (C.mods.filter s.has).flatMap (fun m => (s.stored m).trees.map (fun t => ⟨m, t.1, .replace, t.2⟩))
  discs := (C.mods.filter s.has).flatMap (fun m => (s.stored m).discs.map (fun x => ⟨m, x, .replace⟩))

/-- No node in the edit. -/
def Edit.isEmpty (e : Edit) : Bool := e.tops.isEmpty && e.discs.isEmpty

/-- The beginning of the functions that change the edit, sysrepo.c 3473-3498, 3528-3553, 3634-3659: the edit to
be changed, or the result the function ends with. The error of `sr_get_oper_changes` is in `rc` only, the functions
return `err_info`, which is empty. -/
def start (C : Cfg) (s : State) (v : Env) : Ret ⊕ Edit :=
  match s.pending with
  | some e => .inr e
  | none =>
    if v.getFails then .inl .ok
    else if v.lockFails ∧ (prefill C s).isEmpty then .inl .locked
    else .inr (prefill C s)

/-- The end of these functions, sysrepo.c 3505-3508, 3611-3614, 3670-3673: an edit without any node is released. -/
def finish (s : State) (e : Edit) : State :=
  { s with pending := if e.isEmpty then none else some e }

/-- Create or change a leaf. -/
def setLeaf (ls : Leaves) (l v : Nat) : Leaves :=
  if ls.any (fun x => x.1 == l) then ls.map (fun x => if x.1 = l then (l, v) else x) else ls ++ [(l, v)]

/-- Insert a top-level node. -/
def insTop : List Top → Top → List Top
  | [], t => [t]
  | x :: xs, t => if x.mod = t.mod ∧ xs.all (fun y => y.mod ≠ t.mod) then x :: t :: xs else x :: insTop xs t

/-- Leaves of a new or changed node. -/
def setLv (ls : Leaves) : Option (Nat × Nat) → Leaves
  | none => ls
  | some (l, v) => setLeaf ls l v

/-- `sr_edit_add` for the operational datastore, edit_diff.c 3250-3335: an existing node is found and its value
changed, a new node in an existing tree is under its operation, a new tree gets the operation replace. -/
def editAdd (ts : List Top) (m : Nat) (n : Name) (lv : Option (Nat × Nat)) : List Top :=
  if ts.any (fun t => t.mod == m && t.name == n) then
    ts.map (fun t => if t.mod = m ∧ t.name = n then { t with leaves := setLv t.leaves lv } else t)
  else insTop ts ⟨m, n, .replace, setLv [] lv⟩

/-- What is deleted. -/
inductive Target where
  /-- A leaf of a tree. -/
  | leaf (m : Nat) (n : Name) (l : Nat)
  /-- A tree. -/
  | top (m : Nat) (n : Name)
  /-- All the instances of a list. -/
  | list (m : Nat) (k : Nat)
deriving DecidableEq, Repr

/-- Whether there is anything to delete. -/
def found (ts : List Top) : Target → Bool
  | .leaf m n l => ((ts.find? (fun t => t.mod == m && t.name == n)).any (fun t => t.leaves.any (fun x => x.1 == l)))
  | .top m n => ts.any (fun t => t.mod == m && t.name == n)
  | .list m k => ts.any (fun t => t.mod == m && t.name.1 == k)

/-- Delete it, sysrepo.c 3555-3592. -/
def editDel (ts : List Top) : Target → List Top
  | .leaf m n l =>
    ts.map (fun t => if t.mod = m ∧ t.name = n then { t with leaves := t.leaves.filter (fun x => x.1 != l) } else t)
  | .top m n => ts.filter (fun t => !(t.mod == m && t.name == n))
  | .list m k => ts.filter (fun t => !(t.mod == m && t.name.1 == k))

/-- The nodes from the first one of a module, edit_diff.c 2588-2592. -/
def from_ (e : Edit) (m : Nat) : List Top := e.tops.dropWhile (fun t => t.mod != m)

/-- The trees of a module that are applied: the loops of edit_diff.c 2594-2607 and 2456-2469 end at the first node of
another module. -/
def run (e : Edit) (m : Nat) : List Top := (from_ e m).takeWhile (fun t => t.mod == m)

/-- All the operations looked at by edit_diff.c 2594-2632, including the one of the node after the module. -/
def ops (e : Edit) (m : Nat) : List Op :=
  (if run e m = [] then []
   else (run e m).map (·.op) ++
     ((((from_ e m).dropWhile (fun t => t.mod == m)).map (·.op)) ++ e.discs.map (·.op)).take 1) ++
  ((e.discs.filter (fun d => d.mod == m)).reverse).map (·.op)

/-- Get rid of equal opaque nodes, edit_diff.c 2484-2503: what is left of the new and of the stored ones. -/
def cancel : List Nat → List Nat → List Nat × List Nat
  | [], old => ([], old)
  | x :: xs, old =>
    if x ∈ old then cancel xs (old.erase x)
    else (x :: (cancel xs old).1, (cancel xs old).2)

/-- Remove these opaque nodes. -/
def without (l : List Nat) : List Nat → List Nat
  | [] => l
  | x :: xs => without (l.erase x) xs

/-- Opaque nodes after the change, edit_diff.c 2505-2547. -/
def newDiscs (replace : Bool) (new old : List Nat) : List Nat :=
  (if replace then without old (cancel new old).2 else old) ++ (cancel new old).1

/-- Merge of one tree into the stored ones. -/
def mergeTree (ts : List (Name × Leaves)) (n : Name) (ls : Leaves) : List (Name × Leaves) :=
  if ts.any (fun t => t.1 == n) then
    ts.map (fun t => if t.1 = n then (n, ls.foldl (fun a x => setLeaf a x.1 x.2) t.2) else t)
  else ts ++ [(n, ls)]

/-- `sr_oper_edit_mod_apply`, edit_diff.c 2566-2655, with `sr_oper_edit_mod_apply_data`, 2411-2562: the new data of the
module. Without any node of the module the operation stays 0, which an assertion forbids, 2423; if it is compiled out
the data are replaced by nothing but the opaque nodes stay. -/
def applyMod (dbg : Bool) (pe : Option Edit) (m : Nat) (old : Push) : Ret ⊕ Push :=
  match pe with
  | none => .inr ⟨[], newDiscs true [] old.discs⟩
  | some e =>
    let new := (e.discs.filter (fun d => d.mod == m)).reverse.map (·.xpath)
    match ops e m with
    | [] => if dbg then .inl .abort else .inr ⟨[], newDiscs false new old.discs⟩
    | o :: os =>
      if os.all (· == o) then
        match o with
        | .replace => .inr ⟨(run e m).map (fun t => (t.name, t.leaves)), newDiscs true new old.discs⟩
        | .merge =>
          .inr ⟨(run e m).foldl (fun ts t => mergeTree ts t.name t.leaves) old.trees, newDiscs false new old.discs⟩
      else .inl .internal

/-- Modules of the edit, modinfo.c 149-192. -/
def inEdit (pe : Option Edit) (m : Nat) : Bool :=
  match pe with
  | none => false
  | some e => e.tops.any (fun t => t.mod == m) || e.discs.any (fun d => d.mod == m)

/-- Modules to work with, sysrepo.c 4172-4178; `only` limits those with stored data. -/
def collected (C : Cfg) (s : State) (only : Option Nat) : List Nat :=
  C.mods.filter (fun m => (s.has m && (only == none || only == some m)) || inEdit s.pending m)

/-- The error, if any. -/
def errOf : Ret ⊕ Push → Option Ret
  | .inl r => some r
  | .inr _ => none

/-- The first failure. -/
def failure (C : Cfg) (s : State) (only : Option Nat) : Option Ret :=
  (collected C s only).findSome? (fun m => errOf (applyMod C.dbg s.pending m (s.stored m)))

/-- New data of a module. -/
def newData (C : Cfg) (s : State) (only : Option Nat) (m : Nat) : Push :=
  if m ∈ collected C s only then
    match applyMod C.dbg s.pending m (s.stored m) with
    | .inl _ => s.stored m
    | .inr d => d
  else s.stored m

/-- Some data. -/
def Push.any (d : Push) : Bool := !(d.trees.isEmpty && d.discs.isEmpty)

/-- Modules with changes. -/
def changed (C : Cfg) (s : State) (only : Option Nat) : List Nat :=
  C.mods.filter (fun m => newData C s only m ≠ s.stored m)

/-- `sr_apply_oper_changes`, sysrepo.c 4155-4241, and `sr_modinfo_data_store`, modinfo.c 3838-3923. `del` is set when
the session is stopped: its entries are deleted, and there must be no data. -/
def applyOper (C : Cfg) (s : State) (only : Option Nat) (del : Bool) (v : Env) : Ret × State :=
  match failure C s only with
  | some r => (r, s)
  | none =>
    if v.refuse ∧ changed C s only ≠ [] then (.callback, s)
    else if C.dbg ∧ del ∧ (changed C s only).any (fun m => (newData C s only m).any) then (.abort, s)
    else
      (.ok, { s with stored := newData C s only
                     has := fun m => if m ∈ changed C s only then
                       (if del then false else (newData C s only m).any) else s.has m
                     flag := s.flag || (!del && !(changed C s only).isEmpty) })

/-- Calls of the API. -/
inductive Call where
  /-- `sr_set_item_str` of a tree or of a leaf with its value. -/
  | set (m : Nat) (n : Name) (lv : Option (Nat × Nat))
  /-- `sr_delete_item`. -/
  | delete (t : Target) (strict : Bool)
  /-- `sr_discard_items`. -/
  | discardItems (m x : Nat)
  /-- `sr_edit_batch` with trees and discard-items and the default operation. -/
  | batch (tops : List (Nat × Name × Leaves)) (discs : List (Nat × Nat)) (op : Op)
  /-- `sr_apply_changes`. -/
  | apply
  /-- `sr_discard_changes`. -/
  | discard
  /-- `sr_discard_changes_xpath` selecting this. -/
  | discardXpath (t : Target)
  /-- `sr_discard_oper_changes`, with or without a module. -/
  | discardOper (only : Option Nat)
deriving DecidableEq, Repr

/-- A call. -/
def call (C : Cfg) (s : State) (v : Env) : Call → Ret × State
  | .set m n lv =>
    match start C s v with
    | .inl r => (r, s)
    | .inr e => (.ok, finish s { e with tops := editAdd e.tops m n lv })
  | .delete t strict =>
    match start C s v with
    | .inl r => (r, s)
    | .inr e =>
      if found e.tops t then (.ok, finish s { e with tops := editDel e.tops t })
      else (if strict then .notFound else .ok, finish s e)
  | .discardItems m x =>
    match start C s v with
    | .inl r => (r, s)
    | .inr e => (.ok, finish s { e with discs := e.discs ++ [⟨m, x, .replace⟩] })
  | .batch ts ds o =>
    match s.pending with
    | some _ => (.unsupported, s)
    | none =>
      if v.lockFails then (.locked, s)
      else (.ok, { s with pending := some ⟨ts.map (fun t => ⟨t.1, t.2.1, o, t.2.2⟩), ds.map (fun d => ⟨d.1, d.2, o⟩)⟩ })
  | .apply =>
    match s.pending with
    | none => (.ok, s)
    | some _ =>
      if (applyOper C s none false v).1 = .ok then (.ok, { (applyOper C s none false v).2 with pending := none })
      else applyOper C s none false v
  | .discard => (.ok, { s with pending := none })
  | .discardXpath t =>
    match s.pending with
    | none => (.ok, s)
    | some e => (.ok, finish s { e with tops := editDel e.tops t })
  | .discardOper only => applyOper C s only false v

/-- A new session. -/
def s0 : State := ⟨fun _ => noPush, fun _ => false, none, false⟩

/-- States after calls, each with what the environment did, none of which ended the process. -/
inductive Reach (C : Cfg) (A : State → Env → Call → Prop) : State → Prop
  | init : Reach C A s0
  | call {s : State} (v : Env) (c : Call) : Reach C A s → A s v c → (call C s v c).1 ≠ .abort →
      Reach C A (call C s v c).2

/-! ### Specification -/

/-- What the data of a session say: the trees of every module with the values of their leaves, and how many times an
XPath is discarded. -/
structure View where
  tree : Nat → Name → Option (Nat → Option Nat)
  discs : Nat → Nat → Nat

/-- Value of a leaf. -/
def leafAt (ls : Leaves) (l : Nat) : Option Nat := (ls.find? (fun x => x.1 == l)).map (·.2)

/-- The data stored for the session. -/
def storedView (s : State) : View where
  tree m n := ((s.stored m).trees.find? (fun t => t.1 == n)).map (fun t => leafAt t.2)
  discs m x := (s.stored m).discs.count x

/-- The data in an edit. -/
def editView (e : Edit) : View where
  tree m n := (e.tops.find? (fun t => t.mod == m && t.name == n)).map (fun t => leafAt t.leaves)
  discs m x := e.discs.countP (fun d => d.mod == m && d.xpath == x)

/-- The data the session will have when it applies its changes. -/
def view (s : State) : View :=
  match s.pending with
  | none => storedView s
  | some e => editView e

/-- A tree is created if it does not exist, and its leaf set. -/
def View.set (A : View) (m : Nat) (n : Name) (lv : Option (Nat × Nat)) : View :=
  { A with tree := fun m' n' =>
      if m' = m ∧ n' = n then
        some (fun l =>
          match lv with
          | some (l0, v) => if l = l0 then some v else ((A.tree m n).getD (fun _ => none)) l
          | none => ((A.tree m n).getD (fun _ => none)) l)
      else A.tree m' n' }

/-- The target is deleted. -/
def View.del (A : View) : Target → View
  | .leaf m n l =>
    { A with tree := fun m' n' =>
        if m' = m ∧ n' = n then (A.tree m n).map (fun f l' => if l' = l then none else f l') else A.tree m' n' }
  | .top m n => { A with tree := fun m' n' => if m' = m ∧ n' = n then none else A.tree m' n' }
  | .list m k => { A with tree := fun m' n' => if m' = m ∧ n'.1 = k then none else A.tree m' n' }

/-- Another XPath is discarded. -/
def View.disc (A : View) (m x : Nat) : View :=
  { A with discs := fun m' x' => if m' = m ∧ x' = x then A.discs m x + 1 else A.discs m' x' }

/-- The target exists. -/
def View.Has (A : View) : Target → Prop
  | .leaf m n l => ∃ f v, A.tree m n = some f ∧ f l = some v
  | .top m n => ∃ f, A.tree m n = some f
  | .list m k => ∃ i f, A.tree m (k, i) = some f

/-- Data merged into others: the trees and leaves of both, of leaves in both the new one; of discarded XPaths only
those are added that there are not yet. -/
def View.merge (A B : View) : View where
  tree m n :=
    match B.tree m n with
    | none => A.tree m n
    | some g => some (fun l => (g l).or (((A.tree m n).getD (fun _ => none)) l))
  discs m x := max (A.discs m x) (B.discs m x)

/-- Data changed by others with an operation. -/
def View.batch (A B : View) : Op → View
  | .merge => A.merge B
  | .replace => B

/-- No data. -/
def View.Empty (A : View) : Prop := (∀ m n, A.tree m n = none) ∧ ∀ m x, A.discs m x = 0

/-- No data of a module. -/
def View.NoMod (A : View) (m : Nat) : Prop := (∀ n, A.tree m n = none) ∧ ∀ x, A.discs m x = 0

/-- Data of one module, or of all, are removed. -/
def View.drop (A : View) (only : Option Nat) : View where
  tree m n := if only = none ∨ only = some m then none else A.tree m n
  discs m x := if only = none ∨ only = some m then 0 else A.discs m x

end Verif.OperSess
