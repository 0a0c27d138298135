import Verif.Edit
/-!
Model of collecting changes before they are applied: sysrepo.c 3455-3510 (`sr_set_item_str`), 3515-3610 (`sr_delete_item`),
edit_diff.c 2758-2893 (`sr_edit_add_merge_op`), 3225-3330 (`sr_edit_add`), for any number of top-level leaves.

The application of the collected edit is that of `Verif.Edit` (edit_diff.c 2065-2254) for leaves.
Simplifications: inner nodes, whose operations `sr_edit_add_update_op` rearranges, are left out; so are isolated edits, the
operational datastore and `purge`.
-/
namespace Verif.EditMerge
open Verif.Edit (Op Tree Act actMatched actMissing)

/-- A call on a leaf: set or delete an item, strict or not. -/
inductive Call where
  | set (strict : Bool) (v : Nat)
  | del (strict : Bool)
deriving DecidableEq

/-- The operation of a call, sysrepo.c 3501 and 3600-3606. -/
def Call.op : Call → Op
  | .set true _ => .create
  | .set false _ => .merge
  | .del true => .delete
  | .del false => .remove

/-- A leaf in the collected edit: its operation and value (none for an opaque node of a deletion). -/
structure Entry where
  op : Op
  val : Option Nat
deriving DecidableEq

/-- `sr_edit_add_merge_op` for a leaf, edit_diff.c 2758-2893: the new entry (`none` if it is freed) and success. -/
def mergeOp (e : Entry) (c : Call) : Option Entry × Bool :=
  if c.op = e.op then (some e, true)
  else
    match e.op with
    | .ether | .none => (some { e with op := c.op }, true)
    | .merge | .create => if c.op = .remove ∨ c.op = .delete then (none, true) else (some e, false)
    | .replace => (some e, false)
    | .remove | .delete =>
      match c with
      | .set _ v => (some ⟨.replace, some v⟩, true)
      | .del _ => (some e, false)
    | .purge => (some e, false)

/-- `sr_edit_add` for a leaf, edit_diff.c 3225-3330. `emptyOk` says whether the type of the leaf has the empty string as a
value, because the value of a leaf that is in the edit is changed first, to an empty one by a deletion (3252-3258). -/
def addLeaf (emptyOk : Bool) (empty : Nat) (e : Option Entry) (c : Call) : Option Entry × Bool :=
  match e with
  | none => (some ⟨c.op, match c with | .set _ v => some v | .del _ => none⟩, true)
  | some e =>
    match e.val, c with
    | some _, .set _ v => mergeOp { e with val := some v } c
    | some _, .del _ => if emptyOk then mergeOp { e with val := some empty } c else (some e, false)
    | none, _ => mergeOp e c

/-- The collected edit, a leaf is in it at most once. -/
abbrev Edits := List (Nat × Entry)

def find (i : Nat) : Edits → Option Entry
  | [] => none
  | (j, e) :: l => if j = i then some e else find i l

/-- Store the entry of a leaf: changed in place, freed, or appended. -/
def store (i : Nat) (e : Option Entry) : Edits → Edits
  | [] => e.toList.map (i, ·)
  | (j, e') :: l => if j = i then e.toList.map (i, ·) ++ l else (j, e') :: store i e l

/-- One API call. -/
def add (emptyOk : Nat → Bool) (empty : Nat) (l : Edits) (i : Nat) (c : Call) : Edits × Bool :=
  let r := addLeaf (emptyOk i) empty (find i l) c
  (store i r.1 l, r.2)

/-- Several API calls, all of them must succeed. -/
def adds (emptyOk : Nat → Bool) (empty : Nat) (l : Edits) : List (Nat × Call) → Option Edits
  | [] => some l
  | (i, c) :: cs => if (add emptyOk empty l i c).2 then adds emptyOk empty (add emptyOk empty l i c).1 cs else none

/-- The data: value and default flag of every leaf. -/
abbrev Data := Nat → Option (Nat × Bool)

/-- `sr_edit_apply_r` for a leaf, see `Verif.Edit.applyNode`. -/
def applyLeaf (e : Entry) (a : Option (Nat × Bool)) : Option (Option (Nat × Bool)) :=
  let v := e.val.getD 0
  match a with
  | none =>
    match actMissing e.op with
    | .skip => some none
    | .new => some (some (v, false))
    | _ => none
  | some (w, d) =>
    match actMatched .leaf e.op (.mk (0, 0) w d []) v false with
    | .keep => some (some (w, d))
    | .set => some (some (v, false))
    | .dflt => some (some (w, false))
    | .del => some none
    | _ => none

def upd (f : Data) (i : Nat) (a : Option (Nat × Bool)) : Data := fun j => if j = i then a else f j

/-- `sr_apply_changes` of the collected edit. -/
def apply (f : Data) : Edits → Option Data
  | [] => some f
  | (i, e) :: l =>
    match applyLeaf e (f i) with
    | none => none
    | some a => apply (upd f i a) l

/-! ## Specification -/

/-- What one call does when it is applied at once: set a value (strict: nothing but a default may be there), delete it
(strict: an explicit value must be there). -/
def effect (a : Option (Nat × Bool)) : Call → Option (Option (Nat × Bool))
  | .set false v => some (some (v, false))
  | .set true v => match a with | some (_, false) => none | _ => some (some (v, false))
  | .del false => some none
  | .del true => match a with | some (_, false) => some none | _ => none

/-- Calls applied one after another. -/
def sequential (f : Data) : List (Nat × Call) → Option Data
  | [] => some f
  | (i, c) :: cs =>
    match effect (f i) c with
    | none => none
    | some a => sequential (fun j => if j = i then a else f j) cs

/-- No item is deleted after it was set. -/
def NoDeleteAfterSet (cs : List (Nat × Call)) : Prop :=
  ∀ i s v s' a b d, cs = a ++ (i, .set s v) :: b ++ (i, .del s') :: d → False

end Verif.EditMerge
