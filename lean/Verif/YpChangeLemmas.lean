import Verif.YpChange

/-! Lemmas of `Verif.YpChange`. -/
namespace Verif.YpChange

/-- The edits in preparation. -/
def pend (s : St) : List Edit := match s.pending with | some p => p.edits | none => []

theorem applyAll_append (a b : List Edit) (d : Data) : applyAll (a ++ b) d = applyAll b (applyAll a d) := by
  simp [applyAll, List.foldl_append]

theorem apply_out {d : Data} {e : Edit} {x : Node} (h : ¬ e.node <+: x) : apply d e x = d x := by
  simp [apply, h]

theorem apply_move {d : Data} {e : Edit} (h : e.op = .move) : apply d e = d := by
  funext x
  simp only [apply, h]
  split <;> rfl

/-- An edit looks at one position only. -/
theorem apply_congr {d1 d2 : Data} {e : Edit} {x : Node} (h : d1 x = d2 x) : apply d1 e x = apply d2 e x := by
  simp only [apply]
  split
  · split
    · rfl
    · exact h
    · split
      · rfl
      · exact h
  · exact h

theorem applyAll_congr (es : List Edit) : ∀ (d1 d2 : Data) (x : Node), d1 x = d2 x → applyAll es d1 x = applyAll es d2 x := by
  induction es with
  | nil => intro d1 d2 x h; exact h
  | cons e es ih => intro d1 d2 x h; exact ih _ _ _ (apply_congr h)

/-- Edits of a node do not matter elsewhere. -/
theorem erase_out (n : Node) (es : List Edit) : ∀ (d : Data) (x : Node), ¬ n <+: x →
    applyAll (es.eraseP (fun e => e.node == n)) d x = applyAll es d x := by
  induction es with
  | nil => intro d x _; rfl
  | cons e es ih =>
    intro d x hx
    rw [List.eraseP_cons]
    by_cases h : e.node = n
    · simp only [h, beq_self_eq_true, cond_true]
      exact applyAll_congr es _ _ _ (apply_out (by rw [h]; exact hx)).symm
    · simp only [beq_eq_false_iff_ne.2 h, cond_false]
      exact ih _ x hx

/-- Removing moves does not matter. -/
theorem erase_move (n : Node) (es : List Edit) : ∀ (d : Data), (∀ e ∈ es, e.node = n → e.op = .move) →
    applyAll (es.eraseP (fun e => e.node == n)) d = applyAll es d := by
  induction es with
  | nil => intro d _; rfl
  | cons e es ih =>
    intro d hm
    rw [List.eraseP_cons]
    by_cases h : e.node = n
    · simp only [h, beq_self_eq_true, cond_true]
      show applyAll es d = applyAll es (apply d e)
      rw [apply_move (hm e (by simp) h)]
    · simp only [beq_eq_false_iff_ne.2 h, cond_false]
      exact ih _ (fun e' he' => hm e' (by simp [he']))

/-- What a change says of the new data. -/
structure Right (d' : Data) (c : Change) : Prop where
  deleted : c.op = .deleted → ∀ q, d' (c.node ++ q) = none
  value : c.op = .created ∨ c.op = .modified → ∀ q, c.sub q = d' (c.node ++ q)

theorem Describes.right {d d' : Data} {cs : List Change} (h : Describes d d' cs) (ht : Tree d') {c : Change} (hc : c ∈ cs) :
    Right d' c := by
  refine ⟨fun ho q => ?_, h.value c hc⟩
  have h1 := h.deleted c hc ho
  cases hq : d' (c.node ++ q) with
  | none => rfl
  | some v =>
    have := ht c.node q (by rw [hq]; rfl)
    rw [h1] at this
    cases this

theorem start_pend (s : St) : (start s).2.edits = pend s := by
  unfold start pend
  cases s.pending <;> rfl

/-- The parts of the state the changes of a callback leave. -/
structure Same (s s' : St) : Prop where
  damp : s'.damp = s.damp
  excl : s'.excl = s.excl
  last : s'.last = s.last
  timer : s'.timer = s.timer
  sent : s'.sent = s.sent
  crashed : s'.crashed = s.crashed

theorem Same.rfl' {s : St} : Same s s := ⟨rfl, rfl, rfl, rfl, rfl, rfl⟩

theorem Same.trans {s t u : St} (h : Same s t) (h' : Same t u) : Same s u :=
  ⟨h'.damp.trans h.damp, h'.excl.trans h.excl, h'.last.trans h.last, h'.timer.trans h.timer, h'.sent.trans h.sent,
    h'.crashed.trans h.crashed⟩

theorem start_same (s : St) : Same s (start s).1 := by
  unfold start
  cases s.pending <;> exact ⟨rfl, rfl, rfl, rfl, rfl, rfl⟩

theorem append_same {s : St} {p : Pend} {c : Change} {s' : St} (h : append s p c = some s') : Same s s' := by
  unfold append at h
  split at h
  · cases h
  · cases h; exact ⟨rfl, rfl, rfl, rfl, rfl, rfl⟩

theorem loop_same (deny : Node → Bool) (cs : List Change) : ∀ (last : Option (Op × Node)) (s : St),
    Same s (loop deny cs last s).1 := by
  induction cs with
  | nil => intro last s; exact Same.rfl'
  | cons c cs ih =>
    intro last s
    unfold loop
    split
    · exact ih _ _
    split
    · exact ih _ _
    split
    · exact Same.trans (t := { s with exclCount := s.exclCount + 1 }) ⟨rfl, rfl, rfl, rfl, rfl, rfl⟩ (ih _ _)
    split
    · exact (start_same s).trans ⟨rfl, rfl, rfl, rfl, rfl, rfl⟩
    · rename_i s' h
      exact ((start_same s).trans (append_same h)).trans (ih _ _)

/-- One more edit: the node is as in the new data, everything else as before. -/
theorem append_content {s : St} {p : Pend} {c : Change} {s' : St} {d' b : Data} (h : append s p c = some s')
    (hr : Right d' c) (hm : c.op = .moved → ∀ e ∈ p.edits, e.node = c.node → e.op = .move) (x : Node) :
    applyAll (pend s') b x = if c.node <+: x ∧ c.op ≠ .moved then d' x else applyAll p.edits b x := by
  unfold append clearTarget at h
  by_cases hq : bothQuotes c.node = true
  · simp [hq] at h
  simp only [hq, Bool.false_eq_true, if_false] at h
  have h := Option.some.inj h
  rw [← h]
  simp only [pend]
  rw [applyAll_append]
  by_cases hmv : c.op = .moved
  · have ho : (mkEdit s.editId c).op = .move := by simp [mkEdit, sr2yp, hmv]
    simp only [applyAll, List.foldl_cons, List.foldl_nil]
    rw [apply_move ho]
    rw [if_neg (by simp [hmv])]
    exact congrFun (erase_move c.node p.edits b (hm hmv)) x
  · by_cases hx : c.node <+: x
    · rw [if_pos ⟨hx, hmv⟩]
      obtain ⟨q, rfl⟩ := hx
      simp only [applyAll, List.foldl_cons, List.foldl_nil, apply, mkEdit, List.prefix_append, if_true]
      cases hop : c.op with
      | moved => exact absurd hop hmv
      | deleted => simp only [sr2yp, hop]; exact (hr.deleted hop q).symm
      | modified =>
        simp only [sr2yp, hop]
        simp [hr.value (Or.inr hop)]
      | created =>
        simp only [sr2yp, hop]
        cases c.uo <;> simp [hr.value (Or.inl hop)]
    · rw [if_neg (fun h => hx h.1)]
      simp only [applyAll, List.foldl_cons, List.foldl_nil]
      rw [apply_out (e := mkEdit s.editId c) hx]
      exact erase_out c.node p.edits b x hx

theorem append_ok {s : St} {p : Pend} {c : Change} (h : bothQuotes c.node = false) : ∃ s', append s p c = some s' := by
  simp [append, clearTarget, h]

/-- Edits of other nodes are kept, one is added. -/
theorem append_mem {s : St} {p : Pend} {c : Change} {s' : St} (h : append s p c = some s') {e : Edit} (he : e ∈ pend s') :
    e ∈ p.edits ∨ e.node = c.node := by
  unfold append clearTarget at h
  by_cases hq : bothQuotes c.node = true
  · simp [hq] at h
  simp only [hq, Bool.false_eq_true, if_false] at h
  have h := Option.some.inj h
  rw [← h] at he
  simp only [pend, List.mem_append, List.mem_singleton] at he
  rcases he with he | he
  · exact Or.inl (List.eraseP_subset he)
  · exact Or.inr (by rw [he]; rfl)

theorem append_some {s : St} {p : Pend} {c : Change} {s' : St} (h : append s p c = some s') : s'.pending.isSome := by
  unfold append at h
  split at h
  · cases h
  · cases h; rfl

/-- The changes of one callback bring the receiver to the new data. -/
theorem loop_content (d d' b : Data) (cs : List Change) : ∀ (last : Option (Op × Node)) (s : St),
    (∀ o, s.excl o = false) → (∀ c ∈ cs, bothQuotes c.node = false) → (∀ c ∈ cs, Right d' c) → (cs.map (·.node)).Nodup →
    (∀ c ∈ cs, c.op = .moved → ∀ e ∈ pend s, e.node = c.node → e.op = .move) →
    (∀ x, applyAll (pend s) b x = d' x ∨ applyAll (pend s) b x = d x) →
    (∀ n, last = some (.created, n) → ∀ x, n <+: x → applyAll (pend s) b x = d' x) →
    (loop (fun _ => false) cs last s).2 = true ∧
    ((s.pending.isSome → (loop (fun _ => false) cs last s).1.pending.isSome)) ∧
    ∀ x, (applyAll (pend s) b x = d' x → applyAll (pend (loop (fun _ => false) cs last s).1) b x = d' x) ∧
      (applyAll (pend (loop (fun _ => false) cs last s).1) b x = d' x ∨
        (applyAll (pend (loop (fun _ => false) cs last s).1) b x = d x ∧
          ∀ c ∈ cs, c.op ≠ .moved → ¬ c.node <+: x)) := by
  induction cs with
  | nil =>
    intro last s _ _ _ _ _ hI _
    refine ⟨rfl, fun h => h, fun x => ⟨fun h => h, ?_⟩⟩
    rcases hI x with h | h
    · exact Or.inl h
    · exact Or.inr ⟨h, by simp⟩
  | cons c cs ih =>
    intro last s hex hq hr hn hm hI hl
    have hq' : ∀ c ∈ cs, bothQuotes c.node = false := fun a ha => hq a (by simp [ha])
    have hr' : ∀ c ∈ cs, Right d' c := fun a ha => hr a (by simp [ha])
    have hn2 := List.nodup_cons.1 hn
    unfold loop
    rw [if_neg (by simp)]
    by_cases hskip : nested last c = true
    · rw [if_pos hskip]
      obtain ⟨h1, h2, h3⟩ := ih last s hex hq' hr' hn2.2 (fun a ha => hm a (by simp [ha])) hI hl
      refine ⟨h1, h2, fun x => ⟨(h3 x).1, ?_⟩⟩
      rcases (h3 x).2 with h | ⟨h, hall⟩
      · exact Or.inl h
      · by_cases hx : c.node <+: x
        · left
          refine (h3 x).1 ?_
          unfold nested at hskip
          split at hskip
          · rename_i n _
            have hab := hskip
            simp only [above, Bool.and_eq_true, List.isPrefixOf_iff_prefix] at hab
            exact hl n rfl x (hab.1.trans hx)
          · cases hskip
        · refine Or.inr ⟨h, fun a ha hop => ?_⟩
          rcases List.mem_cons.1 ha with rfl | ha
          · exact hx
          · exact hall a ha hop
    · rw [if_neg hskip, if_neg (by simp [hex])]
      obtain ⟨s', hs'⟩ := append_ok (s := (start s).1) (p := (start s).2) (hq c (by simp))
      simp only [hs']
      have hc := append_content (b := b) hs' (hr c (by simp))
        (fun ho e he => hm c (by simp) ho e (by rw [← start_pend]; exact he))
      rw [start_pend] at hc
      have hsame := (start_same s).trans (append_same hs')
      obtain ⟨h1, h2, h3⟩ := ih (some (c.op, c.node)) s' (by intro o; rw [hsame.excl]; exact hex o) hq' hr' hn2.2
        (by
          intro a ha ho e he hea
          rcases append_mem hs' he with hp | hp
          · exact hm a (by simp [ha]) ho e (by rw [← start_pend]; exact hp) hea
          · exact absurd (List.mem_map_of_mem (f := (·.node)) ha) (by rw [← hea, hp]; exact hn2.1))
        (by
          intro x
          rw [hc x]
          split
          · exact Or.inl rfl
          · exact hI x)
        (by
          intro n hn x hx
          have hn := Option.some.inj hn
          have h1 : c.op = .created := congrArg Prod.fst hn
          have h2 : c.node = n := congrArg Prod.snd hn
          rw [hc x, if_pos ⟨h2 ▸ hx, by rw [h1]; exact fun h => by cases h⟩])
      refine ⟨h1, fun _ => h2 (append_some hs'), fun x => ⟨?_, ?_⟩⟩
      · intro h
        refine (h3 x).1 ?_
        rw [hc x]
        split
        · rfl
        · exact h
      · rcases (h3 x).2 with h | ⟨h, hall⟩
        · exact Or.inl h
        · by_cases hx : c.node <+: x ∧ c.op ≠ .moved
          · left
            refine (h3 x).1 ?_
            rw [hc x, if_pos hx]
          · refine Or.inr ⟨h, fun a ha hop => ?_⟩
            rcases List.mem_cons.1 ha with rfl | ha
            · exact fun hx' => hx ⟨hx', hop⟩
            · exact hall a ha hop

end Verif.YpChange
