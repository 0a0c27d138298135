import Verif.DepsLemmas2

/- Lemmas: the validation with the loaded modules is the one with all data. -/

namespace Verif.Deps

variable {D : Type} [DecidableEq D]

theorem set_eq (d : Nat → D) (m : Nat) (x : D) : (fun k => if k = m then x else d k) = set d m x := rfl

theorem firstPass_other (L : Lib D) (k : Nat) : ∀ (V : List Nat) (d : Nat → D), k ∉ V → (firstPass L V d).1 k = d k := by
  intro V
  induction V with
  | nil => intro d _; rfl
  | cons m V ih =>
    intro d hk
    have := ih (fun k => if k = m then L.fix m d else d k) (fun h => hk (List.mem_cons_of_mem _ h))
    show (firstPass L V _).1 k = _
    rw [this]
    exact if_neg (fun h : k = m => hk (h ▸ List.mem_cons_self))

/-- A module is judged on loaded data only. -/
def Covered (L : Lib D) (K : List Nat) (d : Nat → D) (m : Nat) : Prop :=
  (∀ k ∈ m :: statics L m, k ∈ K) ∧
  ∀ d' : Nat → D, d' m = d m → ∀ k ∈ points L m (d m) ++ points L m (L.fix m d'), k ∈ K

theorem pass1_eq {L : Lib D} (hL : Laws L) (sel : Ent → Bool) (fin : Bool) (ds : Nat → D) (K : List Nat) :
    ∀ (es : List Ent) (cur d : Nat → D), (keys es).Nodup → (∀ k ∈ K, cur k = d k) →
      (∀ e ∈ es, sel e = true → Covered L K d e.m) →
      (pass1 L sel fin ds es cur).2.2 = (firstPass L (keys (es.filter sel)) d).2 ∧
      (∀ k ∈ K, (pass1 L sel fin ds es cur).2.1 k = (firstPass L (keys (es.filter sel)) d).1 k) ∧
      (pass1 L sel fin ds es cur).1 = es.map (fun e =>
        if sel e = true ∧ fin = true ∧ (firstPass L (keys (es.filter sel)) d).1 e.m ≠ d e.m then
          { e with changed := decide ((firstPass L (keys (es.filter sel)) d).1 e.m ≠ ds e.m) } else e) ∧
      (∀ e ∈ es, sel e = true → ∃ d', d' e.m = d e.m ∧ (firstPass L (keys (es.filter sel)) d).1 e.m = L.fix e.m d') := by
  intro es
  induction es with
  | nil =>
    intro cur d _ hK _
    refine ⟨rfl, hK, rfl, ?_⟩
    intro e he
    cases he
  | cons e l ih =>
    intro cur d hn hK hc
    simp only [keys, List.map_cons, List.nodup_cons] at hn
    by_cases hs : sel e = true
    · have hce := hc e List.mem_cons_self hs
      have hfix : L.fix e.m cur = L.fix e.m d := hL.fix_reads _ _ _ fun k hk => hK k (hce.1 k hk)
      have hem : cur e.m = d e.m := hK _ (hce.1 _ List.mem_cons_self)
      have hnow : L.okNow e.m cur = L.okNow e.m d := by
        apply hL.now_reads
        intro k hk
        apply hK
        rcases List.mem_append.1 hk with hk | hk
        · rcases List.mem_append.1 hk with hk | hk
          · exact hce.1 k hk
          · rw [hem] at hk
            exact hce.2 d rfl k (List.mem_append_left _ hk)
        · rw [hfix] at hk
          exact hce.2 d rfl k (List.mem_append_right _ hk)
      have hK' : ∀ k ∈ K, set cur e.m (L.fix e.m cur) k = set d e.m (L.fix e.m d) k := by
        intro k hk
        unfold set
        rw [hfix]
        split
        · rfl
        · exact hK k hk
      have hother : ∀ x ∈ l, set d e.m (L.fix e.m d) x.m = d x.m := by
        intro x hx
        unfold set
        rw [if_neg]
        intro h
        exact hn.1 (h ▸ List.mem_map_of_mem hx)
      have hc' : ∀ x ∈ l, sel x = true → Covered L K (set d e.m (L.fix e.m d)) x.m := by
        intro x hx hsx
        have := hc x (List.mem_cons_of_mem _ hx) hsx
        unfold Covered at this ⊢
        rw [hother x hx]
        exact this
      obtain ⟨h1, h2, h3, h4⟩ := ih (set cur e.m (L.fix e.m cur)) (set d e.m (L.fix e.m d)) hn.2 hK' hc'
      have hkeys : keys ((e :: l).filter sel) = e.m :: keys (l.filter sel) := by
        rw [List.filter_cons_of_pos hs]
        rfl
      have hq : firstPass L (keys ((e :: l).filter sel)) d =
          ((firstPass L (keys (l.filter sel)) (set d e.m (L.fix e.m d))).1,
            L.okNow e.m d && (firstPass L (keys (l.filter sel)) (set d e.m (L.fix e.m d))).2) := by
        rw [hkeys]
        rfl
      have hown : (firstPass L (keys (l.filter sel)) (set d e.m (L.fix e.m d))).1 e.m = L.fix e.m d := by
        rw [firstPass_other]
        · exact if_pos rfl
        · intro hk
          unfold keys at hk
          obtain ⟨x, hx, hxm⟩ := List.mem_map.1 hk
          exact hn.1 (hxm ▸ List.mem_map_of_mem (List.mem_filter.1 hx).1)
      have hp : pass1 L sel fin ds (e :: l) cur =
          ((if fin && L.fix e.m cur ≠ cur e.m then { e with changed := decide (L.fix e.m cur ≠ ds e.m) } else e) ::
            (pass1 L sel fin ds l (set cur e.m (L.fix e.m cur))).1,
            (pass1 L sel fin ds l (set cur e.m (L.fix e.m cur))).2.1,
            L.okNow e.m cur && (pass1 L sel fin ds l (set cur e.m (L.fix e.m cur))).2.2) := by
        rw [pass1, if_pos hs]
      rw [hp, hq]
      refine ⟨?_, h2, ?_, ?_⟩
      · simp only [h1, hnow]
      · simp only [List.map_cons, hown, hs, true_and, hfix, hem]
        congr 1
        · cases fin <;> simp
        · rw [← hfix, h3, hfix]
          apply List.map_congr_left
          intro x hx
          rw [hother x hx]
      · intro x hx hsx
        rcases List.mem_cons.1 hx with rfl | hx
        · exact ⟨d, rfl, hown⟩
        · obtain ⟨d', hd', hx'⟩ := h4 x hx hsx
          exact ⟨d', by rw [hd', hother x hx], hx'⟩
    · have hc' : ∀ x ∈ l, sel x = true → Covered L K d x.m := fun x hx => hc x (List.mem_cons_of_mem _ hx)
      obtain ⟨h1, h2, h3, h4⟩ := ih cur d hn.2 hK hc'
      have hkeys : keys ((e :: l).filter sel) = keys (l.filter sel) := by
        rw [List.filter_cons_of_neg hs]
      have hp : pass1 L sel fin ds (e :: l) cur =
          (e :: (pass1 L sel fin ds l cur).1, (pass1 L sel fin ds l cur).2.1, (pass1 L sel fin ds l cur).2.2) := by
        rw [pass1, if_neg hs]
      rw [hp, hkeys]
      refine ⟨h1, h2, ?_, ?_⟩
      · simp only [List.map_cons, hs, h3, Bool.false_eq_true, false_and, if_false]
      · intro x hx hsx
        rcases List.mem_cons.1 hx with rfl | hx
        · exact absurd hsx hs
        · exact h4 x hx hsx

/-- The final pass with the loaded data is the one with all data. -/
theorem okEnd_eq {L : Lib D} (hL : Laws L) {K : List Nat} {d q cur : Nat → D} {m : Nat} (hc : Covered L K d m)
    (hq : ∃ d', d' m = d m ∧ q m = L.fix m d') (hK : ∀ k ∈ K, cur k = q k) : L.okEnd m cur = L.okEnd m q := by
  obtain ⟨d', hd, hf⟩ := hq
  have hm : cur m = q m := hK m (hc.1 m List.mem_cons_self)
  apply hL.end_reads
  intro k hk
  apply hK
  rcases List.mem_append.1 hk with hk | hk
  · exact hc.1 k hk
  · rw [hm, hf] at hk
    exact hc.2 d' hd k (List.mem_append_right _ hk)

theorem mem_targets {L : Lib D} (h1 : OneForeign L) {k t : Nat} (ht : t ∈ statics L k) (hne : t ≠ k) :
    ∃ d ∈ depsOf L k, t ∈ targets d ∧ ∀ own, t ∈ wants own d := by
  unfold statics at ht
  rcases List.mem_append.1 ht with h | h
  · obtain ⟨atoms, ha, hta⟩ := List.mem_flatten.1 h
    have hf : lrefDep k atoms = some (Dep.lref t : Dep D) := by
      unfold lrefDep
      cases hf : atoms.find? (fun t => t ≠ k) with
      | none =>
        rw [List.find?_eq_none] at hf
        have := hf t hta
        simp [hne] at this
      | some x =>
        have hx := List.find?_some hf
        simp only [ne_eq, decide_not, Bool.not_eq_true', decide_eq_false_iff_not] at hx
        rw [h1 k atoms ha x (List.mem_of_find?_eq_some hf) t hta hx hne]
    refine ⟨.lref t, ?_, ?_, ?_⟩
    · unfold depsOf
      exact List.mem_append_left _ (List.mem_append_left _ (List.mem_filterMap.2 ⟨atoms, ha, hf⟩))
    · exact List.mem_cons_self
    · intro own
      exact List.mem_cons_self
  · obtain ⟨atoms, ha, hta⟩ := List.mem_flatten.1 h
    have hm : t ∈ atoms.filter fun t => t ≠ k := List.mem_filter.2 ⟨hta, by simpa using hne⟩
    refine ⟨.xpath (atoms.filter fun t => t ≠ k), ?_, hm, fun _ => hm⟩
    unfold depsOf
    exact List.mem_append_right _ (List.mem_map.2 ⟨atoms, ha, rfl⟩)

theorem targets_statics {L : Lib D} {k t : Nat} (h : t ∈ (depsOf L k).flatMap targets) : t ≠ k ∧ t ∈ statics L k := by
  obtain ⟨d, hd, ht⟩ := List.mem_flatMap.1 h
  unfold depsOf at hd
  rcases List.mem_append.1 hd with hd | hd
  · rcases List.mem_append.1 hd with hd | hd
    · obtain ⟨atoms, ha, hf⟩ := List.mem_filterMap.1 hd
      unfold lrefDep at hf
      cases hf2 : atoms.find? (fun t => t ≠ k) with
      | none => rw [hf2] at hf; cases hf
      | some x =>
        rw [hf2] at hf
        cases hf
        cases List.mem_singleton.1 ht
        have hx := List.find?_some hf2
        simp only [ne_eq, decide_not, Bool.not_eq_true', decide_eq_false_iff_not] at hx
        exact ⟨hx, List.mem_append_left _ (List.mem_flatten.2 ⟨atoms, ha, List.mem_of_find?_eq_some hf2⟩)⟩
    · obtain ⟨i, _, rfl⟩ := List.mem_map.1 hd
      cases ht
  · obtain ⟨atoms, ha, rfl⟩ := List.mem_map.1 hd
    obtain ⟨h1, h2⟩ := List.mem_filter.1 ht
    exact ⟨by simpa using h2, List.mem_append_right _ (List.mem_flatten.2 ⟨atoms, ha, h1⟩)⟩

theorem inv_iff {L : Lib D} (h1 : OneForeign L) (R : List Nat) (k : Nat) :
    Inv L R k ↔ k ∈ L.mods ∧ ∃ t ∈ R, t ≠ k ∧ t ∈ statics L k := by
  unfold Inv
  constructor
  · rintro ⟨t, ht, hk⟩
    obtain ⟨hm, htg⟩ := (mem_invDeps L t k).1 hk
    exact ⟨hm, t, ht, targets_statics htg⟩
  · rintro ⟨hm, t, ht, hne, hst⟩
    obtain ⟨d, hd, htg, _⟩ := mem_targets h1 hst hne
    exact ⟨t, ht, (mem_invDeps L t k).2 ⟨hm, List.mem_flatMap.2 ⟨d, hd, htg⟩⟩⟩

theorem covered_of {L : Lib D} (hL : Laws L) (h1 : OneForeign L) (h2 : NoDefaults L) {K : List Nat} {d : Nat → D} {k : Nat}
    (hk : k ∈ K) (hd : ∀ x ∈ depsOf L k, ∀ t ∈ wants (d k) x, t ∈ K) : Covered L K d k := by
  have hst : ∀ t ∈ k :: statics L k, t ∈ K := by
    intro t ht
    by_cases hne : t = k
    · exact hne ▸ hk
    · rcases List.mem_cons.1 ht with rfl | ht
      · exact hk
      · obtain ⟨x, hx, _, hw⟩ := mem_targets h1 ht hne
        exact hd x hx t (hw _)
  have hinst : ∀ i ∈ L.insts k, .inst i ∈ depsOf L k := by
    intro i hi
    unfold depsOf
    exact List.mem_append_left _ (List.mem_append_right _ (List.mem_map_of_mem hi))
  have hval : ∀ i ∈ L.insts k, ∀ t ∈ i.vals (d k), t ∈ K := by
    intro i hi t ht
    apply hd _ (hinst i hi)
    cases hv : i.vals (d k) with
    | nil => rw [hv] at ht; cases ht
    | cons x xs =>
      rw [hv] at ht
      simp only [wants, hv]
      exact ht
  refine ⟨hst, ?_⟩
  intro d' hd' t ht
  rcases List.mem_append.1 ht with ht | ht
  · obtain ⟨i, hi, hti⟩ := List.mem_flatMap.1 ht
    exact hval i hi t hti
  · obtain ⟨i, hi, hti⟩ := List.mem_flatMap.1 ht
    by_cases hv : i.vals (d k) = []
    · rcases hL.added k d' i hi t hti with h | h | h
      · rw [hd', hv] at h
        cases h
      · apply hd _ (hinst i hi)
        simp only [wants, hv, h, Option.toList_some, List.mem_singleton]
      · exact h ▸ hk
    · rcases h2 k d' i hi (by rw [hd']; exact hv) t hti with h | h
      · rw [hd'] at h
        exact hval i hi t h
      · exact h ▸ hk

/-- The validation is the one with all data. -/
theorem validate_eq {L : Lib D} (hL : Laws L) (sel : Ent → Bool) (fin : Bool)
    (ds : Nat → D) {R nodes : List Nat} {app : Nat → D → D} {mi : MI D} (hr : Ready L ds R nodes app mi)
    (hcov : ∀ e ∈ mi.es, sel e = true → Covered L (keys mi.es) (edited ds nodes app) e.m) :
    let V := keys (mi.es.filter sel)
    let q := firstPass L V (edited ds nodes app)
    let es' := mi.es.map (fun e => if sel e = true ∧ fin = true ∧ q.1 e.m ≠ edited ds nodes app e.m then
          { e with changed := decide (q.1 e.m ≠ ds e.m) } else e)
    (validate L sel fin ds mi).1.es = es' ∧
    (∀ k ∈ keys mi.es, (validate L sel fin ds mi).1.cur k = q.1 k) ∧
    (validate L sel fin ds mi).2 = (q.2 && es'.all fun e => !sel e || L.okEnd e.m q.1) := by
  obtain ⟨a, b, c, d⟩ := pass1_eq hL sel fin ds (keys mi.es) mi.es mi.cur (edited ds nodes app) hr.nodup hr.cur hcov
  refine ⟨c, b, ?_⟩
  unfold validate
  simp only
  rw [a]
  congr 1
  rw [c]
  rw [Bool.eq_iff_iff, List.all_eq_true, List.all_eq_true]
  refine forall_congr' fun e => forall_congr' fun he => ?_
  obtain ⟨x, hx, rfl⟩ := List.mem_map.1 he
  by_cases hs : sel x = true
  · have hm : ∀ (p : Prop) [Decidable p] (v : Bool), (if p then { x with changed := v } else x).m = x.m := by
      intro p _ v
      split <;> rfl
    rw [hm, okEnd_eq hL (hcov x hx hs) (d x hx hs) b]
  · simp [hs]

theorem sorted_lt {l : List Nat} (h1 : l.Pairwise (· ≤ ·)) (h2 : l.Nodup) : l.Pairwise (· < ·) := by
  induction l with
  | nil => exact .nil
  | cons x l ih =>
    simp only [List.pairwise_cons, List.nodup_cons] at h1 h2 ⊢
    refine ⟨?_, ih h1.2 h2.2⟩
    intro a ha
    have := h1.1 a ha
    have : x ≠ a := fun h => h2.1 (h ▸ ha)
    omega

theorem keys_filter_sublist (es : List Ent) (sel : Ent → Bool) : (keys (es.filter sel)).Sublist (keys es) :=
  (List.filter_sublist).map _

end Verif.Deps
