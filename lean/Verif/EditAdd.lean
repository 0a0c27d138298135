import Verif.Edit
/-!
# Collecting changes in a session before they are applied

Model of `sr_set_item_str` (sysrepo.c 3451-3510), `sr_delete_item` (sysrepo.c 3512-3606), `sr_edit_add` (edit_diff.c 3225-3400) and what
it uses: `sr_edit_is_superior_op` (2700-2756), `sr_edit_add_descendant_have_own_op` (2765-2784), `sr_edit_add_merge_op` (2794-2893),
`sr_edit_add_update_op` (3012-3068), `sr_edit_add_find_match` (3080-3223); on edits of any depth.

The collected edit is applied by `Verif.Edit.apply`.
Simplifications: conventional datastores; no isolated edits, positions, origins, `purge` and lists without keys; paths and values are
valid, so that creating nodes does not fail; the keys of an instance are its identity; the order of siblings is the order of creation.
-/
namespace Verif.EditAdd
open Verif.Edit (Id Path Kind Op Tree Edit get)

/-- A node of the collected edit: its own operation, its value (`none` for an opaque node, that is a leaf to be deleted for which
there is no value). -/
inductive ENode where
  | mk (id : Id) (op : Option Op) (val : Option Nat) (kids : List ENode)

def ENode.id : ENode → Id | .mk i _ _ _ => i
def ENode.op : ENode → Option Op | .mk _ o _ _ => o
def ENode.val : ENode → Option Nat | .mk _ _ v _ => v
def ENode.kids : ENode → List ENode | .mk _ _ _ k => k

/-- The schema: kinds of nodes, which leaves accept an empty string, and this value. -/
structure Cfg where
  K : Nat → Kind
  emptyOk : Nat → Bool
  empty : Nat

/-- An API call with the path of the item. -/
inductive Call where
  | set (strict shallow : Bool) (p : Path) (v : Nat)
  | del (strict : Bool) (p : Path)
deriving DecidableEq

def Call.path : Call → Path
  | .set _ _ p _ => p
  | .del _ p => p

/-- Operation of a call, sysrepo.c 3499, 3592-3596. -/
def Call.op : Call → Op
  | .set strict _ _ _ => if strict then .create else .merge
  | .del strict _ => if strict then .delete else .remove

/-- Default operation of a call, sysrepo.c 3500, 3600. -/
def Call.defOp : Call → Op
  | .set _ shallow _ _ => if shallow then .none else .merge
  | .del strict _ => if strict then .none else .ether

/-- The node at a path, `sr_edit_add_find_match`, edit_diff.c 3080-3223. -/
def nodeAt (es : List ENode) : Path → Option ENode
  | [] => none
  | i :: q =>
    match es.find? fun e => e.id = i with
    | none => none
    | some e => if q = [] then some e else nodeAt e.kids q

/-- `sr_edit_diff_find_oper` with `recursive`, edit_diff.c 137-178: the operation of a node, its own or of its nearest ancestor, and
whether it is its own. -/
def findOper (es : List ENode) (inh : Option Op) : Path → Option (Op × Bool)
  | [] => none
  | i :: q =>
    match es.find? fun e => e.id = i with
    | none => none
    | some e =>
      if q = [] then
        match e.op with
        | some o => some (o, true)
        | none => inh.map fun o => (o, false)
      else findOper e.kids (e.op.or inh) q

/-- Change the node at a path. -/
def alter (f : ENode → ENode) (es : List ENode) : Path → List ENode
  | [] => es
  | i :: q => es.map fun e => if e.id = i then (if q = [] then f e else .mk e.id e.op e.val (alter f e.kids q)) else e

/-- `lyd_free_tree` of the node at a path. -/
def prune (es : List ENode) : Path → List ENode
  | [] => es
  | i :: q =>
    if q = [] then es.filter fun e => e.id ≠ i
    else es.map fun e => if e.id = i then .mk e.id e.op e.val (prune e.kids q) else e

/-- New nodes down a path, the last with the value. -/
def chain (v : Option Nat) : Path → List ENode
  | [] => []
  | i :: q => [.mk i none (if q = [] then v else some 0) (chain v q)]

/-- `sr_lyd_new_path`: create the missing nodes of a path, without operations. -/
def grow (v : Option Nat) (es : List ENode) : Path → List ENode
  | [] => es
  | i :: q =>
    match es.find? fun e => e.id = i with
    | none => es ++ chain v (i :: q)
    | some _ => es.map fun e => if e.id = i then .mk e.id e.op e.val (grow v e.kids q) else e

/-- `sr_edit_set_oper`. -/
def setOp (o : Option Op) : List ENode → Path → List ENode :=
  alter fun e => .mk e.id o e.val e.kids

/-- Set the operation of the children without one, but not of `j`, edit_diff.c 3037-3048. -/
def fill (o : Op) (j : Id) : List ENode → Path → List ENode :=
  alter fun e => .mk e.id e.op e.val (e.kids.map fun c => if c.id ≠ j ∧ c.op = none then .mk c.id (some o) c.val c.kids else c)

/-- `sr_edit_is_superior_op`, edit_diff.c 2700-2756: the operation to use and whether it is superior; `none` is an error. -/
def superior (new cur : Op) : Option (Op × Bool) :=
  match cur with
  | .create => if new = .delete ∨ new = .replace ∨ new = .remove ∨ new = .purge then none else some (new, false)
  | .delete | .purge => none
  | .replace => if new = .delete ∨ new = .remove ∨ new = .purge then none else some (new, false)
  | .remove =>
    if new = .delete ∨ new = .replace then none
    else if new = .create ∨ new = .merge then some (.replace, true)
    else some (new, false)
  | .merge => if new = .delete ∨ new = .replace ∨ new = .remove ∨ new = .purge then none else some (new, false)
  | .none => some (new, new = .replace ∨ new = .merge)
  | .ether => some (new, new = .replace ∨ new = .merge ∨ new = .none)

/-- The loop of `sr_edit_add_update_op`, edit_diff.c 3020-3065, at the ancestor that is the first `n` steps of the path `p`; `pending`
is the operation found already (`next_iter_oper`). -/
def updateOp (d : Op) (p : Path) : Nat → Option (Op × Bool) → List ENode → Option (List ENode)
  | 0, _, es => some es
  | n + 1, pending, es =>
    let par := p.take (n + 1)
    match pending.or (findOper es none par) with
    | none => none
    | some (op, own) =>
      -- edit_diff.c 3024-3035
      match if pending.isSome then some (d, true) else superior d op with
      | none => none
      | some (_, false) => some es
      | some (_, true) =>
        let es1 := fill op ((p[n + 1]?).getD (0, 0)) es par
        if own then
          let es2 := setOp none es1 par
          let up := if n = 0 then some (op, own) else findOper es2 none (p.take n)
          match up with
          | none => none
          | some (op', own') =>
            -- edit_diff.c 3053-3063
            match superior d op' with
            | none => none
            | some (d', sup) =>
              if n = 0 || !sup then some (setOp (some d') es2 par)
              else updateOp d p n (some (op', own')) es2
        else updateOp d p n none es1

mutual
/-- `sr_edit_add_descendant_have_own_op`, edit_diff.c 2765-2784, for a subtree. -/
def onlyOp (o : Op) : ENode → Bool
  | .mk _ o' _ kids => (o' = none || o' = some o) && onlyOps o kids
/-- The same for siblings. -/
def onlyOps (o : Op) : List ENode → Bool
  | [] => true
  | e :: es => onlyOp o e && onlyOps o es
end

/-- `sr_edit_add_merge_op`, edit_diff.c 2794-2893, for the node at the path of the call: the edit and success. -/
def mergeOp (C : Cfg) (es : List ENode) (c : Call) : List ENode × Bool :=
  match findOper es none c.path, nodeAt es c.path with
  | some (cur, own), some e =>
    if c.op = cur then (es, true)
    else match cur with
    | .ether | .none => if onlyOps c.op e.kids then (setOp (some c.op) es c.path, true) else (es, false)
    | .merge | .create => if c.op = .remove ∨ c.op = .delete then (prune es c.path, true) else (es, false)
    | .replace => if own ∨ (c.op ≠ .merge ∧ c.op ≠ .create) then (es, false) else (es, true)
    | .remove | .delete =>
      match c with
      | .set _ _ p v =>
        if C.K e.id.1 = .leaf then (alter (fun e => .mk e.id (some .replace) (some v) e.kids) es p, true)
        else (alter (fun e => .mk e.id (some .replace) e.val []) es p, true)
      | .del _ _ => (es, false)
    | .purge => (es, false)
  | _, _ => (es, false)

/-- Value of a new node: that of the call, for a leaf to be deleted an empty one if there is such a value. -/
def newVal (C : Cfg) : Call → Option Nat
  | .set _ _ _ v => some v
  | .del _ p =>
    match p.getLast? with
    | some i => if C.K i.1 = .leaf then (if C.emptyOk i.1 then some C.empty else none) else some 0
    | none => some 0

/-- `sr_edit_add`, edit_diff.c 3225-3400: the edit and success. -/
def add (C : Cfg) (es : List ENode) (c : Call) : List ENode × Bool :=
  match nodeAt es c.path with
  | some e =>
    -- edit_diff.c 3247-3272
    if C.K e.id.1 = .leaf ∧ e.val ≠ none then
      match c with
      | .set _ _ p v => mergeOp C (alter (fun e => .mk e.id e.op (some v) e.kids) es p) c
      | .del _ p => if C.emptyOk e.id.1 then mergeOp C (alter (fun e => .mk e.id e.op (some C.empty) e.kids) es p) c else (es, false)
    else mergeOp C es c
  | none =>
    let es1 := grow (newVal C c) es c.path
    match findOper es1 none c.path with
    | none =>
      -- edit_diff.c 3326-3332, a new top-level tree
      (setOp (some c.op) (if c.path.length = 1 then es1 else setOp (some c.defOp) es1 (c.path.take 1)) c.path, true)
    | some _ =>
      match updateOp c.defOp c.path (c.path.length - 1) none es1 with
      | none => ([], false)
      | some es2 => (setOp (some c.op) es2 c.path, true)

/-- Several calls, all of which succeed. -/
def adds (C : Cfg) (es : List ENode) : List Call → Option (List ENode)
  | [] => some es
  | c :: cs => if (add C es c).2 then adds C (add C es c).1 cs else none

mutual
/-- The edit as it is applied. -/
def toEdit : ENode → Edit
  | .mk i o v kids => .mk i o (v.getD 0) false (toEdits kids)
/-- The same for siblings. -/
def toEdits : List ENode → List Edit
  | [] => []
  | e :: es => toEdit e :: toEdits es
end

/-- `sr_apply_changes` of the collected edit. -/
def apply (C : Cfg) (data : List Tree) (es : List ENode) : Option (List Tree) :=
  (Verif.Edit.apply C.K data (toEdits es)).map (·.data)

/-! ## Specification -/

/-- Data: value and default flag at every path. -/
abbrev Data := Path → Option (Nat × Bool)

/-- The kind of the item at a path. -/
def kindAt (K : Nat → Kind) (p : Path) : Option Kind := p.getLast?.map fun i => K i.1

/-- What setting or deleting one item does (documentation of `sr_set_item`, `sr_delete_item`): a strict set is refused if the item
exists (except a default value), a non-recursive one if its parent does not; missing parents are created. A strict deletion is refused if
the item does not exist (or only as a default); everything in the item is deleted. -/
def effect (K : Nat → Kind) (f : Data) : Call → Option Data
  | .set strict shallow p v =>
    if strict && (f p).any (fun x => !(x.2 && kindAt K p = some .leaf)) then none
    else if shallow && p.dropLast ≠ [] && f p.dropLast = none then none
    else some fun q =>
      if q = p then
        some (v, (f p).any fun x => x.2 && kindAt K p ≠ some .leaf && kindAt K p ≠ some .leaflist)
      else if q ≠ [] ∧ q <+: p ∧ f q = none then some (0, false)
      else f q
  | .del strict p =>
    if strict && !(f p).any (fun x => !(x.2 && (kindAt K p = some .leaf || kindAt K p = some .leaflist))) then none
    else some fun q => if p <+: q then none else f q

/-- The path of an item in the schema: what is above the item is neither a leaf nor a leaf-list. -/
def ItemPath (K : Nat → Kind) (p : Path) : Prop :=
  p ≠ [] ∧ ∀ r, r ≠ [] → r <+: p → r ≠ p → kindAt K r ≠ some .leaf ∧ kindAt K r ≠ some .leaflist

/-- The call fits the schema; only leaves have values. -/
def Valid (K : Nat → Kind) : Call → Prop
  | .set _ _ p v => ItemPath K p ∧ (kindAt K p ≠ some .leaf → v = 0)
  | .del _ p => ItemPath K p

/-- The call does not depend on the order of the earlier ones (`hist`), which led to `g`. An item is set only if neither it nor anything
above it was deleted. An item is deleted if its parent exists and neither it nor anything in it was touched, or if there are only
non-strict deletions in the same top-level node. -/
def InOrder (hist : List Call) (g : Data) : Call → Prop
  | .set _ _ p _ => ∀ s r, Call.del s r ∈ hist → ¬ r <+: p
  | .del _ p => (p.length = 1 ∨ g p.dropLast ≠ none) ∧ (∀ c ∈ hist, ¬ p <+: c.path) ∨
      ∀ c ∈ hist, c.path.head? = p.head? → ∃ r, c = .del false r

/-- All the calls are like that. -/
def Orderly (K : Nat → Kind) (hist : List Call) (g : Data) : List Call → Prop
  | [] => True
  | c :: cs => InOrder hist g c ∧ ∀ g', effect K g c = some g' → Orderly K (c :: hist) g' cs

/-- The calls applied one after another. -/
def sequential (K : Nat → Kind) (f : Data) : List Call → Option Data
  | [] => some f
  | c :: cs => (effect K f c).bind fun g => sequential K g cs

end Verif.EditAdd
