import Verif.EditRefuse
/-!
C17, C18: what an edit does and what is reported about it. Specification: `get`, `value` (what is at a path), `meantKids`
(meaning of the operations), `after` (reading a diff) in `Verif.Edit`, `Refused` in `Verif.EditRefuse`.
-/
namespace Verif.Edit

/-! ### C17: every operation means what it says -/

/-- C17. After an accepted edit there is at every path the value and the default flag that the operations mean. Missing from
the full property: `replace` with the value that is already there should make a default leaf explicit and does not (it is so
in the specification too, see `replace_keeps_default`); the order of instances is C19. -/
theorem edit_meaning_partial (K : Nat → Kind) (data : List Tree) (edit : List Edit) (r : Res) (hd : WFs K data)
    (he : WFEs K edit) (h : apply K data edit = some r) (q : Path) (hq : q ≠ []) :
    get r.data q = meantKids K none false (get data) edit q :=
  ((meant_kids K edit none ⟨false, false⟩ false data r he hd (fun h => by simp at h) h).2.2 _ (fun _ _ => rfl) q hq).symm

/-- C17. The result of an accepted edit fits the schema again. -/
theorem edit_keeps_shape (K : Nat → Kind) (data : List Tree) (edit : List Edit) (r : Res) (hd : WFs K data)
    (he : WFEs K edit) (h : apply K data edit = some r) : WFs K r.data :=
  (meant_kids K edit none ⟨false, false⟩ false data r he hd (fun h => by simp at h) h).1

/-- C17. An edit is refused exactly for one of the listed reasons: a node to be created exists, a node to be deleted or
required to exist does not, there is no parent for a new node, or something else than removing is asked below a node that
the same edit removes. -/
theorem edit_refused_iff (K : Nat → Kind) (data : List Tree) (edit : List Edit) (hd : WFs K data) (he : WFEs K edit)
    (hx : Distincts K none edit) (hb : Bares none edit) :
    apply K data edit = none ↔ ∃ e ∈ edit, Refused K none False True (get data) e :=
  refused_kids K edit none ⟨false, false⟩ false data False True (get data) he hx hb hd (fun h => by simp at h) (by simp)
    (by simp) (fun _ _ _ _ => rfl)

/-- C17, in plain words for one top-level node: `delete` and `remove` leave nothing at and below it. -/
theorem removed_is_gone (K : Nat → Kind) (data : List Tree) (i : Id) (op : Op) (v : Nat) (d : Bool) (kids : List Edit) (r : Res)
    (hd : WFs K data) (he : WFE K (.mk i (some op) v d kids)) (hop : op = .delete ∨ op = .remove ∨ op = .purge)
    (h : apply K data [.mk i (some op) v d kids] = some r) (q : Path) : get r.data (i :: q) = none := by
  rw [edit_meaning_partial K data [_] r hd (by simpa [WFEs] using he) h _ (by simp)]
  rcases hop with rfl | rfl | rfl <;> simp [meantKids, meantNode]

/-- C17, in plain words: what an edit without `purge` does not mention stays. -/
theorem unmentioned_stays (K : Nat → Kind) (data : List Tree) (i : Id) (op : Op) (v : Nat) (d : Bool) (kids : List Edit) (r : Res)
    (hd : WFs K data) (he : WFE K (.mk i (some op) v d kids)) (hop : op ≠ .purge)
    (h : apply K data [.mk i (some op) v d kids] = some r) (j : Id) (hj : j ≠ i) (q : Path) :
    get r.data (j :: q) = get data (j :: q) := by
  rw [edit_meaning_partial K data [_] r hd (by simpa [WFEs] using he) h _ (by simp)]
  cases op <;> simp [meantKids, meantNode, hj] at hop ⊢

/-- C17, in plain words: `create`, `merge` and `replace` of a leaf leave the value of the edit. -/
theorem set_is_there (K : Nat → Kind) (data : List Tree) (i : Id) (op : Op) (v : Nat) (d : Bool) (kids : List Edit) (r : Res)
    (hd : WFs K data) (he : WFE K (.mk i (some op) v d kids)) (hop : op = .create ∨ op = .merge ∨ op = .replace)
    (h : apply K data [.mk i (some op) v d kids] = some r) : value r.data [i] = some v := by
  rw [value, edit_meaning_partial K data [_] r hd (by simpa [WFEs] using he) h _ (by simp)]
  rcases hop with rfl | rfl | rfl <;> simp [meantKids, meantNode]

/-- C17, in plain words: an explicit `create` or `merge` of a leaf leaves an explicit leaf. -/
theorem set_is_explicit (K : Nat → Kind) (data : List Tree) (i : Id) (op : Op) (v : Nat) (kids : List Edit) (r : Res)
    (hd : WFs K data) (he : WFE K (.mk i (some op) v false kids)) (hop : op = .create ∨ op = .merge) (hl : K i.1 = .leaf)
    (h : apply K data [.mk i (some op) v false kids] = some r) : get r.data [i] = some (v, false) := by
  rw [edit_meaning_partial K data [_] r hd (by simpa [WFEs] using he) h _ (by simp)]
  rcases hop with rfl | rfl
  · simp only [meantKids, meantNode, Option.some_or, ne_eq, not_true_eq_false, if_false, hl, true_or, reduceCtorEq,
      not_false_eq_true, and_self, if_true]
    split <;> simp
  · simp only [meantKids, meantNode, Option.some_or, ne_eq, not_true_eq_false, if_false, hl, true_or, reduceCtorEq,
      not_false_eq_true, and_self, if_true]
    split <;> simp

theorem get_below_none (data : List Tree) (i : Id) (h : get data [i] = none) (q : Path) : get data (i :: q) = none := by
  cases hf : data.find? (fun t => t.id = i) with
  | none => exact get_head_none hf q
  | some t => rw [get_head hf] at h; simp at h

theorem meantKids_unnamed (K : Nat → Kind) (inh : Option Op) (repl : Bool) (c : Id) (q : Path) (es : List Edit) :
    ∀ f : Path → Option (Nat × Bool), c ∉ es.map Edit.id → f (c :: q) = none → meantKids K inh repl f es (c :: q) = none := by
  induction es with
  | nil => intro f _ h; simpa [meantKids] using h
  | cons e es ih =>
    intro f hc h
    simp only [List.map_cons, List.mem_cons, not_or] at hc
    simp only [meantKids]
    refine ih _ hc.2 ?_
    obtain ⟨i, o, v, d, kids⟩ := e
    have hci : c ≠ i := hc.1
    simp only [meantNode]
    cases o.or inh with
    | none => simpa using h
    | some op => cases op <;> simp [hci, h]

/-- C17, in plain words: after `replace`, no child that the edit does not name is left. -/
theorem replaced_is_exact (K : Nat → Kind) (data : List Tree) (i : Id) (v : Nat) (d : Bool) (kids : List Edit) (r : Res)
    (hd : WFs K data) (he : WFE K (.mk i (some .replace) v d kids)) (h : apply K data [.mk i (some .replace) v d kids] = some r)
    (c : Id) (hc : c ∉ kids.map Edit.id) (q : Path) : get r.data (i :: c :: q) = none := by
  rw [edit_meaning_partial K data [_] r hd (by simpa [WFEs] using he) h _ (by simp)]
  simp only [meantKids, meantNode, Option.some_or, ne_eq, not_true_eq_false, if_false]
  refine meantKids_unnamed K _ _ c q kids _ hc ?_
  cases hv : get data [i] with
  | none =>
    have : get data (i :: c :: q) = none := get_below_none data i hv _
    simp only [this, ite_self]
  | some w =>
    have : (kids.map Edit.id).contains c = false := by simpa using hc
    simp only [List.head?_cons, Option.any_some, this]; simp

/-! ### C18: the reported diff -/

/-- C18. The diff read on what was there before gives exactly what is there afterwards, values and default flags. -/
theorem diff_replays (K : Nat → Kind) (data : List Tree) (edit : List Edit) (r : Res) (hd : WFs K data) (he : WFEs K edit)
    (hx : Distincts K none edit) (h : apply K data edit = some r) (q : Path) (hq : q ≠ []) :
    after (get data) r.diff q = get r.data q :=
  (diff_kids K edit none ⟨false, false⟩ false data r he hx hd (fun h => by simp at h) h).told.after q hq

/-- C18. The diff is empty exactly if nothing changed anywhere. -/
theorem diff_empty_iff (K : Nat → Kind) (data : List Tree) (edit : List Edit) (r : Res) (hd : WFs K data) (he : WFEs K edit)
    (hx : Distincts K none edit) (h : apply K data edit = some r) :
    r.diff = [] ↔ ∀ q, q ≠ [] → get r.data q = get data q := by
  have hk := diff_kids K edit none ⟨false, false⟩ false data r he hx hd (fun h => by simp at h) h
  constructor
  · intro hn q hq
    rw [← hk.told.after q hq, hn]
    cases q <;> simp [after]
  · intro hs
    cases hdf : r.diff with
    | nil => rfl
    | cons d ds =>
      obtain ⟨q, hne⟩ := hk.told.changed d (by simp [hdf])
      exact absurd (hs _ (by simp)) hne

/-- C18. Every node at the top of the diff is about a real change at or below it. -/
theorem diff_nodes_changed (K : Nat → Kind) (data : List Tree) (edit : List Edit) (r : Res) (hd : WFs K data) (he : WFEs K edit)
    (hx : Distincts K none edit) (h : apply K data edit = some r) (d : Diff) (hm : d ∈ r.diff) :
    ∃ q, get r.data (d.id :: q) ≠ get data (d.id :: q) :=
  (diff_kids K edit none ⟨false, false⟩ false data r he hx hd (fun h => by simp at h) h).told.changed d hm

/-- C18. A change is reported exactly if there is one, unless the edit creates nodes marked as default. -/
theorem change_iff (K : Nat → Kind) (data : List Tree) (edit : List Edit) (r : Res) (hd : WFs K data) (he : WFEs K edit)
    (hx : Distincts K none edit) (hc : Explicits none edit) (h : apply K data edit = some r) :
    r.change = true ↔ ∃ q, q ≠ [] ∧ get r.data q ≠ get data q := by
  rw [change_kids K edit none _ _ data r hc h, ne_eq, diff_empty_iff K data edit r hd he hx h]
  simp

/-! ### Examples and witnesses -/

/-- Schema: 0 container, 1 list, 2 leaf, 3 leaf-list, 4 presence container. -/
def exK (n : Nat) : Kind :=
  match n with
  | 0 => .npCont | 1 => .list | 2 => .leaf | 3 => .leaflist | _ => .cont

/-- A container with a default leaf and two list instances with leaves. -/
def exData : List Tree :=
  [.mk (0, 0) 0 false [.mk (2, 0) 7 true [], .mk (1, 1) 0 false [.mk (2, 0) 5 false []], .mk (1, 2) 0 false [.mk (2, 0) 6 false []]]]

/-- Replace one instance (dropping its leaf), create a third one, remove a leaf-list value that is not there, merge the leaf. -/
def exEdit : List Edit :=
  [.mk (0, 0) (some .ether) 0 false [.mk (1, 1) (some .replace) 0 false [.mk (3, 9) none 0 false []],
    .mk (1, 3) (some .create) 0 false [.mk (2, 0) none 8 false []], .mk (3, 4) (some .remove) 0 false [],
    .mk (2, 0) (some .merge) 7 false []]]

theorem exData_wf : WFs exK exData := by simp [exData, WFs, WF, exK, Tree.id]
theorem exEdit_wf : WFEs exK exEdit := by simp [exEdit, WFEs, WFE, exK]
theorem exEdit_distinct : Distincts exK none exEdit := by
  simp [exEdit, Distincts, Distinct, PurgesList, Edit.id, Edit.op]
theorem exEdit_explicit : Explicits none exEdit := by simp [exEdit, Explicits, Explicit]
theorem exEdit_bare : Bares none exEdit := by simp [exEdit, Bares, Bare]

/-- The example is accepted, changes data and reports it. -/
example : ∃ r, apply exK exData exEdit = some r ∧ r.change = true ∧ value r.data [(0, 0), (1, 1), (2, 0)] = none ∧
    value r.data [(0, 0), (1, 1), (3, 9)] = some 0 ∧ value r.data [(0, 0), (1, 3), (2, 0)] = some 8 ∧
    value r.data [(0, 0), (1, 2), (2, 0)] = some 6 ∧ get r.data [(0, 0), (2, 0)] = some (7, false) ∧
    r.diff.length = 1 := by
  refine ⟨_, rfl, ?_⟩
  decide

/-- Creating an existing instance is refused, and so is deleting a missing one. -/
example : apply exK exData [.mk (0, 0) (some .ether) 0 false [.mk (1, 1) (some .create) 0 false []]] = none ∧
    apply exK exData [.mk (0, 0) (some .ether) 0 false [.mk (1, 4) (some .delete) 0 false []]] = none :=
  ⟨rfl, rfl⟩

/-- The edit of the example has none of the reasons to be refused. -/
example : ¬ ∃ e ∈ exEdit, Refused exK none False True (get exData) e := by
  rw [← edit_refused_iff exK exData exEdit exData_wf exEdit_wf exEdit_distinct exEdit_bare]
  simp [show apply exK exData exEdit = some _ from rfl]

/-- Finding: `merge` of the value a default leaf already has makes it explicit, `replace` of it leaves it a default and
reports no change. -/
theorem replace_keeps_default : ∃ r r',
    apply exK exData [.mk (0, 0) (some .ether) 0 false [.mk (2, 0) (some .merge) 7 false []]] = some r ∧
    apply exK exData [.mk (0, 0) (some .ether) 0 false [.mk (2, 0) (some .replace) 7 false []]] = some r' ∧
    get r.data [(0, 0), (2, 0)] = some (7, false) ∧ r.change = true ∧
    get r'.data [(0, 0), (2, 0)] = some (7, true) ∧ r'.change = false :=
  ⟨_, _, rfl, rfl, by decide⟩

/-- Finding: an edit that creates a default node over an equal default one reports a change although nothing changed. -/
theorem default_create_reported : ∃ r,
    apply exK exData [.mk (0, 0) (some .ether) 0 false [.mk (2, 0) (some .create) 7 true []]] = some r ∧
    r.change = true ∧ r.diff.length = 0 :=
  ⟨_, rfl, by decide⟩

end Verif.Edit
