import Verif.EditAdd
/-!
Lemmas about collected edits: what is at every path after each step of adding a change.
-/
namespace Verif.EditAdd
open Verif.Edit (Id Path Kind Op Tree Edit get)

/-- Own operation and value of the node at a path. -/
def info (es : List ENode) (q : Path) : Option (Option Op × Option Nat) := (nodeAt es q).map fun e => (e.op, e.val)

/-- Effective operation of the node at a path. -/
def eff (es : List ENode) (q : Path) : Option Op := (findOper es none q).map (·.1)

@[simp] theorem nodeAt_nil (es : List ENode) : nodeAt es [] = none := rfl
@[simp] theorem info_nil (es : List ENode) : info es [] = none := rfl
@[simp] theorem eff_nil (es : List ENode) : eff es [] = none := rfl

theorem nodeAt_cons (es : List ENode) (i : Id) (q : Path) :
    nodeAt es (i :: q) = (es.find? fun e => e.id = i).bind fun e => if q = [] then some e else nodeAt e.kids q := by
  simp only [nodeAt]; cases es.find? (fun e => e.id = i) <;> rfl

theorem find_map {g : ENode → ENode} (hg : ∀ e, (g e).id = e.id) (es : List ENode) (i : Id) :
    (es.map g).find? (fun e => e.id = i) = (es.find? fun e => e.id = i).map g := by
  induction es with
  | nil => rfl
  | cons e es ih =>
    simp only [List.map_cons, List.find?_cons, hg]
    by_cases h : e.id = i <;> simp [h, ih]

theorem find_id {es : List ENode} {i : Id} {e : ENode} (h : es.find? (fun e => e.id = i) = some e) : e.id = i := by
  simpa using List.find?_some h

theorem nodeAt_alter {f : ENode → ENode} (hf : ∀ e, (f e).id = e.id) : ∀ (q : Path) (es : List ENode) (q' : Path),
    (nodeAt (alter f es q) q = (nodeAt es q).map f) ∧
    (q' ≠ [] → q ≠ [] → nodeAt (alter f es q) (q ++ q') = (nodeAt es q).bind fun e => nodeAt (f e).kids q') ∧
    (¬ q <+: q' → info (alter f es q) q' = info es q')
  | [], es, q' => by simp
  | i :: q, es, q' => by
    have hid : ∀ e : ENode, (if e.id = i then (if q = [] then f e else .mk e.id e.op e.val (alter f e.kids q)) else e).id = e.id := by
      intro e; split
      · split
        · exact hf e
        · rfl
      · rfl
    refine ⟨?_, ?_, ?_⟩
    · simp only [alter, nodeAt_cons, find_map hid]
      cases h : es.find? (fun e => e.id = i) with
      | none => simp
      | some e =>
        have hi := find_id h
        by_cases hq : q = []
        · simp [hi, hq]
        · simp only [Option.map_some, Option.bind_some, hi, hq, if_true, if_false]
          exact (nodeAt_alter hf q e.kids []).1
    · intro hq' _
      simp only [alter, List.cons_append, nodeAt_cons, find_map hid]
      cases h : es.find? (fun e => e.id = i) with
      | none => simp
      | some e =>
        have hi := find_id h
        by_cases hq : q = []
        · simp [hi, hq, hq']
        · simp only [Option.map_some, Option.bind_some, hi, hq, if_true, if_false, List.append_eq_nil_iff, false_and]
          exact (nodeAt_alter hf q e.kids q').2.1 hq' hq
    · intro hnp
      cases q' with
      | nil => simp
      | cons j q' =>
        simp only [info, alter, nodeAt_cons, find_map hid]
        cases h : es.find? (fun e => e.id = j) with
        | none => simp
        | some e =>
          have hj := find_id h
          by_cases hji : j = i
          · subst hji
            simp only [List.cons_prefix_cons, true_and] at hnp
            have hq : q ≠ [] := by rintro rfl; simp at hnp
            simp only [Option.map_some, Option.bind_some, hj, hq, if_true, if_false]
            by_cases hq' : q' = []
            · simp [hq', ENode.op, ENode.val]
            · simp only [hq', if_false]
              exact (nodeAt_alter hf q e.kids q').2.2 hnp
          · simp only [Option.map_some, Option.bind_some, hj, hji, if_false]

theorem nodeAt_append (es : List ENode) : ∀ (q r : Path), q ≠ [] → r ≠ [] →
    nodeAt es (q ++ r) = (nodeAt es q).bind fun e => nodeAt e.kids r := by
  intro q
  induction q generalizing es with
  | nil => intro r h; exact absurd rfl h
  | cons i q ih =>
    intro r _ hr
    simp only [List.cons_append, nodeAt_cons]
    cases h : es.find? (fun e => e.id = i) with
    | none => simp
    | some e =>
      by_cases hq : q = []
      · simp [hq, hr]
      · simp [hq, ih e.kids r hq hr]

theorem info_append (es : List ENode) {q r : Path} (hq : q ≠ []) (hr : r ≠ []) :
    info es (q ++ r) = (nodeAt es q).bind fun e => info e.kids r := by
  simp only [info, nodeAt_append es q r hq hr]
  cases nodeAt es q <;> rfl

theorem info_prefix {es : List ENode} {q r : Path} (hq : q ≠ []) (h : info es (q ++ r) ≠ none) : info es q ≠ none := by
  by_cases hr : r = []
  · simpa [hr] using h
  · rw [info_append es hq hr] at h
    intro hn
    simp only [info, Option.map_eq_none_iff] at hn
    simp [hn] at h

theorem info_setOp (o : Option Op) (es : List ENode) (q q' : Path) :
    info (setOp o es q) q' = if q' = q then (info es q).map (fun x => (o, x.2)) else info es q' := by
  have h := nodeAt_alter (f := fun e => .mk e.id o e.val e.kids) (fun e => rfl) q es
  by_cases hq : q' = q
  · subst hq
    simp only [if_true, info, setOp, (h []).1, Option.map_map]
    rfl
  · simp only [hq, if_false]
    by_cases hp : q <+: q'
    · obtain ⟨r, rfl⟩ := hp
      have hr : r ≠ [] := by rintro rfl; simp at hq
      by_cases hq0 : q = []
      · subst hq0; rfl
      · simp only [info, setOp, (h r).2.1 hr hq0, nodeAt_append es q r hq0 hr]
        cases nodeAt es q <;> rfl
    · exact (h q').2.2 hp

theorem info_setVal (v : Option Nat) (es : List ENode) (q q' : Path) :
    info (alter (fun e => .mk e.id e.op v e.kids) es q) q' = if q' = q then (info es q).map (fun x => (x.1, v)) else info es q' := by
  have h := nodeAt_alter (f := fun e => .mk e.id e.op v e.kids) (fun e => rfl) q es
  by_cases hq : q' = q
  · subst hq
    simp only [if_true, info, (h []).1, Option.map_map]
    rfl
  · simp only [hq, if_false]
    by_cases hp : q <+: q'
    · obtain ⟨r, rfl⟩ := hp
      have hr : r ≠ [] := by rintro rfl; simp at hq
      by_cases hq0 : q = []
      · subst hq0; rfl
      · simp only [info, (h r).2.1 hr hq0, nodeAt_append es q r hq0 hr]
        cases nodeAt es q <;> rfl
    · exact (h q').2.2 hp

theorem fill_kids (o : Op) (j : Id) (es : List ENode) (k : Id) (r : Path) :
    info (es.map fun c => if c.id ≠ j ∧ c.op = none then .mk c.id (some o) c.val c.kids else c) (k :: r) =
      if r = [] ∧ k ≠ j then (info es (k :: r)).map (fun x => (x.1.or (some o), x.2)) else info es (k :: r) := by
  have hid : ∀ c : ENode, (if c.id ≠ j ∧ c.op = none then ENode.mk c.id (some o) c.val c.kids else c).id = c.id := by
    intro c; split <;> rfl
  simp only [info, nodeAt_cons, find_map hid]
  cases h : es.find? (fun e => e.id = k) with
  | none => simp
  | some e =>
    have hk := find_id h
    obtain ⟨i, op, v, kids⟩ := e
    simp only [ENode.id] at hk; subst hk
    by_cases hr : r = []
    · subst hr
      by_cases hj : i = j
      · simp [hj, ENode.id]
      · cases op <;> simp [hj, ENode.id, ENode.op, ENode.val]
    · simp only [hr, if_false, false_and, Option.map_some, Option.bind_some]
      split <;> rfl

open Classical in
theorem info_fill (o : Op) (j : Id) (es : List ENode) {q : Path} (hq : q ≠ []) (q' : Path) :
    info (fill o j es q) q' = if ∃ k, q' = q ++ [k] ∧ k ≠ j then (info es q').map (fun x => (x.1.or (some o), x.2)) else info es q' := by
  have h := nodeAt_alter (f := fun e => .mk e.id e.op e.val (e.kids.map fun c => if c.id ≠ j ∧ c.op = none then .mk c.id (some o) c.val c.kids else c))
    (fun e => rfl) q es
  by_cases hp : q <+: q'
  · obtain ⟨r, rfl⟩ := hp
    cases r with
    | nil =>
      have : ¬ ∃ k, q ++ [] = q ++ [k] ∧ k ≠ j := by rintro ⟨k, hk, _⟩; simp at hk
      rw [if_neg this]
      simp only [List.append_nil, info, fill, (h []).1, Option.map_map]
      rfl
    | cons k r =>
      have e1 : info (fill o j es q) (q ++ k :: r) = (nodeAt es q).bind fun e =>
          info (e.kids.map fun c => if c.id ≠ j ∧ c.op = none then .mk c.id (some o) c.val c.kids else c) (k :: r) := by
        simp only [info, fill]
        rw [(h (k :: r)).2.1 (by simp) hq]
        cases nodeAt es q <;> rfl
      rw [e1, info_append es hq (by simp)]
      have hiff : (∃ k', q ++ k :: r = q ++ [k'] ∧ k' ≠ j) ↔ r = [] ∧ k ≠ j := by
        constructor
        · rintro ⟨k', h1, h2⟩
          simp only [List.append_cancel_left_eq, List.cons.injEq] at h1
          exact ⟨h1.2, by rw [h1.1]; exact h2⟩
        · rintro ⟨rfl, h2⟩; exact ⟨k, rfl, h2⟩
      cases hn : nodeAt es q with
      | none => simp
      | some e =>
        simp only [Option.bind_some, fill_kids]
        by_cases hc : r = [] ∧ k ≠ j
        · rw [if_pos hc, if_pos (hiff.mpr hc)]
        · rw [if_neg hc, if_neg (fun x => hc (hiff.mp x))]
  · have : ¬ ∃ k, q' = q ++ [k] ∧ k ≠ j := by rintro ⟨k, rfl, _⟩; exact hp ⟨_, rfl⟩
    rw [if_neg this]
    exact (h q').2.2 hp

theorem info_chain (v : Option Nat) (p : Path) : ∀ q : Path,
    info (chain v p) q = if q ≠ [] ∧ q <+: p then some (none, if q = p then v else some 0) else none := by
  induction p with
  | nil => intro q; cases q <;> simp [chain, info, nodeAt]
  | cons i p ih =>
    intro q
    cases q with
    | nil => simp
    | cons j q =>
      simp only [info, chain, nodeAt_cons, List.find?_cons, ENode.id, List.cons_prefix_cons]
      by_cases hij : i = j
      · subst hij
        simp only [decide_true, Option.bind_some, true_and, ne_eq, reduceCtorEq, not_false_eq_true, List.cons.injEq]
        by_cases hq : q = []
        · subst hq; simp [ENode.op, ENode.val, eq_comm]
        · simp only [hq, if_false]
          have := ih q
          simp only [info, ne_eq, hq, not_false_eq_true, true_and] at this
          simp [ENode.kids, this]
      · simp [hij, Ne.symm hij]

theorem info_grow (v : Option Nat) : ∀ (p : Path) (es : List ENode) (q : Path),
    info (grow v es p) q = if q ≠ [] ∧ q <+: p ∧ info es q = none then some (none, if q = p then v else some 0) else info es q
  | [], es, q => by
    simp only [grow, List.prefix_nil]
    rw [if_neg]; rintro ⟨h1, h2, _⟩; exact h1 h2
  | i :: p, es, q => by
    cases q with
    | nil => simp
    | cons j q =>
      simp only [grow]
      cases h : es.find? (fun e => e.id = i) with
      | none =>
        simp only
        by_cases hij : j = i
        · subst hij
          have hn : ∀ r, info es (j :: r) = none := by intro r; simp [info, nodeAt_cons, h]
          have : info (es ++ chain v (j :: p)) (j :: q) = info (chain v (j :: p)) (j :: q) := by
            simp [info, nodeAt_cons, List.find?_append, h]
          rw [this, info_chain, hn]
          by_cases hp : (j :: q) <+: j :: p <;> simp [hp]
        · have hnp : ¬ (j :: q) <+: i :: p := by simp [List.cons_prefix_cons, hij]
          simp only [hnp, false_and, and_false, if_false]
          have : (chain v (i :: p)).find? (fun e => decide (e.id = j)) = none := by simp [chain, ENode.id, Ne.symm hij]
          simp only [info, nodeAt_cons, List.find?_append, this, Option.or_none]
      | some e =>
        simp only
        have hid : ∀ e : ENode, (if e.id = i then ENode.mk e.id e.op e.val (grow v e.kids p) else e).id = e.id := by
          intro e; split <;> rfl
        simp only [info, nodeAt_cons, find_map hid]
        by_cases hij : j = i
        · subst hij
          have hj := find_id h
          simp only [h, Option.map_some, Option.bind_some, hj, if_true, List.cons_prefix_cons, true_and, List.cons.injEq]
          by_cases hq : q = []
          · simp [hq, ENode.op, ENode.val]
          · have := info_grow v p e.kids q
            simp only [info, ne_eq, hq, not_false_eq_true, true_and] at this
            simp only [hq, if_false, ne_eq, reduceCtorEq, not_false_eq_true, true_and]
            exact this
        · have hnp : ¬ (j :: q) <+: i :: p := by simp [List.cons_prefix_cons, hij]
          simp only [hnp, false_and, and_false, if_false]
          cases h' : es.find? (fun e => e.id = j) with
          | none => simp
          | some e' => simp [find_id h', hij]

/-! ### Effective operations -/

theorem findOper_snoc (es : List ENode) : ∀ (q : Path) (inh : Option Op) (j : Id), q ≠ [] →
    findOper es inh (q ++ [j]) = (info es (q ++ [j])).bind fun x =>
      match x.1 with
      | some o => some (o, true)
      | none => (findOper es inh q).map fun x => (x.1, false) := by
  intro q
  induction q generalizing es with
  | nil => intro _ _ h; exact absurd rfl h
  | cons i q ih =>
    intro inh j _
    simp only [List.cons_append, findOper, info, nodeAt_cons]
    cases h : es.find? (fun e => e.id = i) with
    | none => simp
    | some e =>
      simp only [Option.bind_some, List.append_eq_nil_iff, List.cons_ne_self, and_false, if_false, reduceCtorEq]
      by_cases hq : q = []
      · subst hq
        simp only [List.nil_append, findOper, nodeAt_cons, if_true]
        cases h' : e.kids.find? (fun e => e.id = j) with
        | none => simp
        | some e' =>
          simp only [Option.bind_some, if_true, Option.map_some]
          cases e'.op with
          | some o => rfl
          | none => cases e.op <;> cases inh <;> rfl
      · simp only [hq, if_false]
        have := ih e.kids (e.op.or inh) j hq
        simpa only [info] using this

theorem findOper_one (es : List ENode) (inh : Option Op) (j : Id) :
    findOper es inh [j] = (info es [j]).bind fun x =>
      match x.1 with
      | some o => some (o, true)
      | none => inh.map fun o => (o, false) := by
  simp only [findOper, info, nodeAt_cons]
  cases h : es.find? (fun e => e.id = j) with
  | none => simp
  | some e => simp only [Option.bind_some, if_true, Option.map_some]; cases e.op <;> rfl

theorem eff_snoc (es : List ENode) (q : Path) (j : Id) :
    eff es (q ++ [j]) = (info es (q ++ [j])).bind fun x => x.1.or (eff es q) := by
  by_cases hq : q = []
  · subst hq
    simp only [List.nil_append, eff, findOper_one]
    cases info es [j] with
    | none => rfl
    | some x => obtain ⟨o, v⟩ := x; cases o <;> simp [findOper]
  · simp only [eff, findOper_snoc es q none j hq]
    cases info es (q ++ [j]) with
    | none => rfl
    | some x => obtain ⟨o, v⟩ := x; cases o <;> cases findOper es none q <;> simp

/-- The operation is the node's own. -/
theorem findOper_own {es : List ENode} {q : Path} {o : Op} {own : Bool} (h : findOper es none q = some (o, own)) :
    (own = true ∧ ∃ v, info es q = some (some o, v)) ∨ (own = false ∧ ∃ v, info es q = some (none, v)) := by
  rcases List.eq_nil_or_concat q with rfl | ⟨q, j, rfl⟩
  · simp [findOper] at h
  · rw [List.concat_eq_append] at h ⊢
    by_cases hq : q = []
    · subst hq
      simp only [List.nil_append, findOper_one] at h ⊢
      cases hi : info es [j] with
      | none => simp [hi] at h
      | some x =>
        obtain ⟨o', v⟩ := x
        cases o' with
        | none => simp [hi] at h
        | some o' => simp only [hi, Option.bind_some, Option.some.injEq, Prod.mk.injEq] at h; exact .inl ⟨h.2.symm, v, by rw [h.1]⟩
    · rw [findOper_snoc es q none j hq] at h
      cases hi : info es (q ++ [j]) with
      | none => simp [hi] at h
      | some x =>
        obtain ⟨o', v⟩ := x
        cases o' with
        | none =>
          simp only [hi, Option.bind_some, Option.map_eq_some_iff, Prod.mk.injEq] at h
          obtain ⟨y, _, _, h2⟩ := h
          exact .inr ⟨h2.symm, v, rfl⟩
        | some o' => simp only [hi, Option.bind_some, Option.some.injEq, Prod.mk.injEq] at h; exact .inl ⟨h.2.symm, v, by rw [h.1]⟩

theorem findOper_eff {es : List ENode} {q : Path} {o : Op} {own : Bool} (h : findOper es none q = some (o, own)) : eff es q = some o := by
  simp [eff, h]

/-- Effective operations below `r` agree if they do at `r` and all the nodes below agree. -/
theorem eff_congr {es es' : List ENode} {r : Path} (h : eff es' r = eff es r) : ∀ s : Path,
    (∀ t, t ≠ [] → t <+: s → info es' (r ++ t) = info es (r ++ t)) → eff es' (r ++ s) = eff es (r ++ s) := by
  intro s
  generalize hn : s.length = n
  induction n generalizing s with
  | zero => intro _; have : s = [] := List.eq_nil_of_length_eq_zero hn; simpa [this] using h
  | succ n ih =>
    intro hi
    rcases List.eq_nil_or_concat s with rfl | ⟨s, j, rfl⟩
    · simp at hn
    · rw [List.concat_eq_append] at hi hn ⊢
      simp only [List.length_append, List.length_singleton, Nat.add_right_cancel_iff] at hn
      rw [← List.append_assoc, eff_snoc, eff_snoc, ih s hn (fun t h1 h2 => hi t h1 (h2.trans (List.prefix_append _ _))),
        List.append_assoc, hi (s ++ [j]) (by simp) (List.prefix_refl _)]

theorem eff_of_own {es : List ENode} {q : Path} {o : Op} {v : Option Nat} (h : info es q = some (some o, v)) : eff es q = some o := by
  rcases List.eq_nil_or_concat q with rfl | ⟨q, j, rfl⟩
  · simp at h
  · rw [List.concat_eq_append] at h ⊢; rw [eff_snoc, h]; simp

/-- Effective operations at and below a node with its own operation. -/
theorem eff_below_own {es es' : List ENode} {q : Path} {o : Op} {v v' : Option Nat} (h : info es q = some (some o, v))
    (h' : info es' q = some (some o, v')) (s : Path) (hs : ∀ t, t ≠ [] → t <+: s → info es' (q ++ t) = info es (q ++ t)) :
    eff es' (q ++ s) = eff es (q ++ s) :=
  eff_congr (by rw [eff_of_own h, eff_of_own h']) s hs

end Verif.EditAdd
