import Verif.Plugind

/-!
# The plugin daemon (properties, C136)
-/

namespace Verif.Plugind

/-! ## Helper lemmas -/

theorem swap_parts (A B C : List (List Char)) (b c : List Char) :
    swap (A ++ (b :: B) ++ (c :: C)) A.length (A.length + B.length + 1) = A ++ (c :: B) ++ (b :: C) := by
  have h1 : (A ++ (b :: B) ++ (c :: C))[A.length]? = some b := by simp
  have h2 : (A ++ (b :: B) ++ (c :: C))[A.length + B.length + 1]? = some c := by
    rw [List.getElem?_append_right (by simp; omega)]
    simp
    rw [show A.length + B.length + 1 - (A.length + (B.length + 1)) = 0 by omega]; rfl
  unfold swap
  rw [h1, h2]
  simp only
  have e1 : (A ++ (b :: B) ++ (c :: C)).set A.length c = A ++ (c :: B) ++ (c :: C) := by
    simp [List.set_append]
  rw [e1, List.set_append_right _ _ (by simp; omega)]
  simp
  rw [show A.length + B.length + 1 - (A.length + (B.length + 1)) = 0 by omega]; rfl

theorem swap_same (A C : List (List Char)) (c : List Char) :
    swap (A ++ c :: C) A.length A.length = A ++ c :: C := by
  have h1 : (A ++ c :: C)[A.length]? = some c := by simp
  unfold swap
  rw [h1]
  simp [List.set_append]

/-- The inner loop moves exactly the plugins meant to the end of the ordered part. -/
theorem pass_spec (conf : List Char) : ∀ (C A B : List (List Char)), (∀ b ∈ B, matches? b conf = false) →
    ∃ M R, pass conf C.length (A ++ B ++ C) (A.length + B.length) A.length = (A ++ M ++ R, A.length + M.length) ∧
      (∀ x ∈ M, matches? x conf = true) ∧ (∀ x ∈ R, matches? x conf = false) ∧ (M ++ R).Perm (B ++ C) := by
  intro C
  induction C with
  | nil => intro A B hB; exact ⟨[], B, by simp [pass], by simp, hB, by simp⟩
  | cons c C ih =>
    intro A B hB
    have hg : (A ++ B ++ c :: C)[A.length + B.length]? = some c := by
      rw [List.getElem?_append_right (by simp)]; simp
    simp only [List.length_cons, pass, hg]
    cases hm : matches? c conf with
    | false =>
      simp only [Bool.false_eq_true, ↓reduceIte]
      obtain ⟨M, R, h1, h2, h3, h4⟩ := ih A (B ++ [c]) (by
        intro b hb
        rcases List.mem_append.mp hb with hb | hb
        · exact hB b hb
        · simp at hb; exact hb ▸ hm)
      refine ⟨M, R, ?_, h2, h3, by simpa using h4⟩
      rw [← h1]; simp [Nat.add_assoc]
    | true =>
      simp only [↓reduceIte]
      cases B with
      | nil =>
        obtain ⟨M, R, h1, h2, h3, h4⟩ := ih (A ++ [c]) [] (by simp)
        refine ⟨c :: M, R, ?_, ?_, h3, ?_⟩
        · simp only [List.append_nil, List.length_nil, Nat.add_zero] at h1 ⊢
          rw [swap_same]
          simp only [List.length_append, List.length_cons, List.length_nil, List.append_assoc, List.cons_append, List.nil_append, Nat.zero_add] at h1 ⊢
          rw [h1]; simp; omega
        · intro x hx
          rcases List.mem_cons.mp hx with rfl | hx
          · exact hm
          · exact h2 x hx
        · simpa using h4
      | cons b B =>
        obtain ⟨M, R, h1, h2, h3, h4⟩ := ih (A ++ [c]) (B ++ [b]) (by
          intro x hx
          apply hB
          simp only [List.mem_append, List.mem_singleton] at hx
          rcases hx with hx | hx <;> simp [hx])
        refine ⟨c :: M, R, ?_, ?_, h3, ?_⟩
        · have := swap_parts A B C b c
          simp only [List.length_cons] at this ⊢
          rw [← Nat.add_assoc, this]
          have e : A ++ c :: B ++ b :: C = A ++ [c] ++ (B ++ [b]) ++ C := by simp
          rw [e]
          have e2 : A.length + B.length + 1 + 1 = (A ++ [c]).length + (B ++ [b]).length := by simp; omega
          have e3 : A.length + 1 = (A ++ [c]).length := by simp
          rw [e2, e3, h1]
          simp; omega
        · intro x hx
          rcases List.mem_cons.mp hx with rfl | hx
          · exact hm
          · exact h2 x hx
        · have : (c :: M ++ R).Perm (c :: (B ++ [b] ++ C)) := by simpa using h4
          refine this.trans ?_
          have p1 : (B ++ [b] ++ C).Perm (b :: B ++ C) := by
            simpa using (List.perm_middle (a := b) (l₁ := B) (l₂ := C))
          have p2 : (b :: B ++ c :: C).Perm (c :: (b :: B ++ C)) := List.perm_middle
          exact (p1.cons c).trans p2.symm

/-- The outer loop: the ordered part stays, the rest is ordered by the first name that means it. -/
theorem sortFrom_spec : ∀ (confs A R : List (List Char)),
    ∃ S, sortFrom confs (A ++ R) A.length = A ++ S ∧ S.Perm R ∧
      S.Pairwise (fun x y => rank matches? confs x ≤ rank matches? confs y) := by
  intro confs
  induction confs with
  | nil =>
    intro A R
    refine ⟨R, rfl, List.Perm.refl _, ?_⟩
    simp [rank, List.pairwise_iff_getElem]
  | cons c cs ih =>
    intro A R
    obtain ⟨M, N, h1, h2, h3, h4⟩ := pass_spec c R A [] (by simp)
    obtain ⟨S, i1, i2, i3⟩ := ih (A ++ M) N
    refine ⟨M ++ S, ?_, ?_, ?_⟩
    · simp only [sortFrom]
      simp only [List.append_nil, List.length_nil, Nat.add_zero] at h1
      have e : (A ++ R).length - A.length = R.length := by simp
      rw [e, h1]
      simp only
      rw [show A.length + M.length = (A ++ M).length by simp, i1, List.append_assoc]
    · refine ((List.Perm.append_left M i2).trans h4).trans ?_
      simp
    · have hM : ∀ x ∈ M, rank matches? (c :: cs) x = 0 := by
        intro x hx; simp [rank, List.findIdx_cons, h2 x hx]
      have hN : ∀ x ∈ S, rank matches? (c :: cs) x = rank matches? cs x + 1 := by
        intro x hx
        have := h3 x (i2.mem_iff.mp hx)
        simp [rank, List.findIdx_cons, this]
      rw [List.pairwise_append]
      refine ⟨?_, ?_, ?_⟩
      · refine List.Pairwise.imp_of_mem (R := fun _ _ => True) ?_ (List.pairwise_iff_getElem.mpr (by simp))
        intro a b ha hb _
        rw [hM a ha, hM b hb]; exact Nat.le_refl _
      · refine List.Pairwise.imp_of_mem ?_ i3
        intro a b ha hb h
        rw [hN a ha, hN b hb]; omega
      · intro a ha b hb
        rw [hM a ha]; exact Nat.zero_le _

theorem lenNoExt_dot (s e : List Char) (h : '.' ∉ e) : lenNoExt (s ++ '.' :: e) = s.length := by
  unfold lenNoExt
  have : (s ++ '.' :: e).reverse.idxOf? '.' = some e.length := by
    rw [List.idxOf?, List.findIdx?_eq_some_iff_getElem]
    refine ⟨by simp, ?_, ?_⟩
    · simp
    · intro j hj
      have hj' : j < e.reverse.length := by simpa using hj
      simp only [List.reverse_append, List.reverse_cons, List.append_assoc]
      rw [List.getElem_append_left hj']
      have := List.getElem_mem hj'
      intro hc
      simp only [beq_iff_eq] at hc
      rw [hc] at this
      exact h (by simpa using this)
  rw [this]
  simp

theorem lenNoExt_nodot (s : List Char) (h : '.' ∉ s) : lenNoExt s = s.length := by
  unfold lenNoExt
  have : s.reverse.idxOf? '.' = none := by
    rw [List.idxOf?_eq_none_iff]; simpa using h
  rw [this]

/-! ## Properties -/

/-- C136.  Sorting loses no plugin and adds none, and orders the plugins by the first configured name that means
them; those meant by none are last. -/
theorem sorted_as_configured (confs plugins : List (List Char)) :
    (sort confs plugins).Perm plugins ∧
    (sort confs plugins).Pairwise (fun p q => rank matches? confs p ≤ rank matches? confs q) := by
  obtain ⟨S, h1, h2, h3⟩ := sortFrom_spec confs [] plugins
  have : sort confs plugins = S := by simpa [sort] using h1
  rw [this]; exact ⟨h2, h3⟩

example : sort ["c".toList, "x".toList, "a.so".toList] ["a".toList, "b".toList, "c".toList, "d".toList] =
    ["c".toList, "a".toList, "b".toList, "d".toList] := by decide +kernel

/-- C136 (partial).  A configured name means the plugin of a file exactly if it is the name of the file with some
extension or without it, for file names with one dot.

Full statement: `Means` for all file names; `dotted_name_ignored` shows it false with more
dots. -/
theorem name_exact_partial (stem ext conf : List Char) (h1 : '.' ∉ stem) (h2 : '.' ∉ ext) :
    pluginName (stem ++ '.' :: ext) = stem ∧
    (matches? stem conf = true ↔ conf = stem ∨ ∃ e, '.' ∉ e ∧ conf = stem ++ '.' :: e) ∧
    (Means stem ext conf → matches? (pluginName (stem ++ '.' :: ext)) conf = true) := by
  have hp : pluginName (stem ++ '.' :: ext) = stem := by
    unfold pluginName; rw [lenNoExt_dot stem ext h2]; simp
  have hstem : matches? stem stem = true := by simp [matches?, lenNoExt_nodot stem h1]
  have hdot : ∀ e, '.' ∉ e → matches? stem (stem ++ '.' :: e) = true := by
    intro e he; simp [matches?, lenNoExt_dot stem e he]
  have hiff : matches? stem conf = true ↔ conf = stem ∨ ∃ e, '.' ∉ e ∧ conf = stem ++ '.' :: e := by
    constructor
    · intro hm
      by_cases hd : '.' ∈ conf
      · -- split at the last dot
        have hr : '.' ∈ conf.reverse := by simpa using hd
        obtain ⟨a, b, hab, hna⟩ := List.eq_append_cons_of_mem hr
        have hc : conf = b.reverse ++ '.' :: a.reverse := by
          have := congrArg List.reverse hab
          simpa using this
        have hl := lenNoExt_dot b.reverse a.reverse (by simpa using hna)
        rw [← hc] at hl
        simp only [matches?, hl, Bool.and_eq_true, beq_iff_eq] at hm
        right
        refine ⟨a.reverse, by simpa using hna, ?_⟩
        have ht : conf.take b.reverse.length = b.reverse := by rw [hc]; simp
        rw [ht] at hm
        rw [hm.2]; exact hc
      · left
        simp only [matches?, lenNoExt_nodot conf hd, Bool.and_eq_true, beq_iff_eq, List.take_length] at hm
        exact hm.2.symm
    · rintro (rfl | ⟨e, he, rfl⟩)
      · exact hstem
      · exact hdot e he
  refine ⟨hp, hiff, ?_⟩
  rw [hp]
  rintro (rfl | rfl)
  · exact hdot ext h2
  · exact hstem

example : pluginName "oven.so".toList = "oven".toList ∧ matches? "oven".toList "oven".toList = true ∧
    matches? "oven".toList "oven.so".toList = true ∧ matches? "oven".toList "ove.n.so".toList = false := by
  decide +kernel

/-- C136 is false for files with more dots: the plugin of `a.b.so` configured without its extension, as `a.b`, is not found, so its place in
the order is ignored. -/
theorem dotted_name_ignored :
    pluginName "a.b.so".toList = "a.b".toList ∧ Means "a.b".toList "so".toList "a.b".toList ∧
    matches? (pluginName "a.b.so".toList) "a.b".toList = false ∧
    sort ["a.b".toList] ["c".toList, pluginName "a.b.so".toList] = ["c".toList, "a.b".toList] :=
  ⟨by decide +kernel, .inr rfl, by decide +kernel, by decide +kernel⟩

/-- C136.  Plugins are initialized in the order sorted, all of them, or with fatal failures those up to the first that fails;
and when the daemon ends, exactly those initialized are cleaned up, each once, in the same order. -/
theorem cleanup_exact (ok : List Char → Bool) (fatal : Bool) (confs plugins : List (List Char)) :
    ∃ tried rest, sort confs plugins = tried ++ rest ∧
      daemon ok fatal confs plugins = tried.map .init ++ (tried.filter ok).map .cleanup ∧
      (fatal = false → rest = []) ∧
      (fatal = true → ((∀ p ∈ tried, ok p = true) ∧ rest = []) ∨
        ∃ t p, tried = t ++ [p] ∧ (∀ q ∈ t, ok q = true) ∧ ok p = false) := by
  unfold daemon
  generalize sort confs plugins = l
  suffices h : ∃ tried rest, l = tried ++ rest ∧ initAll ok fatal l = (tried.map .init, tried.filter ok) ∧
      (fatal = false → rest = []) ∧
      (fatal = true → ((∀ p ∈ tried, ok p = true) ∧ rest = []) ∨
        ∃ t p, tried = t ++ [p] ∧ (∀ q ∈ t, ok q = true) ∧ ok p = false) by
    obtain ⟨t, r, h1, h2, h3⟩ := h
    exact ⟨t, r, h1, by simp [h2], h3⟩
  induction l with
  | nil => exact ⟨[], [], rfl, rfl, fun _ => rfl, fun _ => .inl ⟨by simp, rfl⟩⟩
  | cons p ps ih =>
    obtain ⟨t, r, h1, h2, h3, h4⟩ := ih
    cases hp : ok p with
    | true =>
      refine ⟨p :: t, r, by simp [h1], by simp [initAll, hp, h2], h3, fun hf => ?_⟩
      rcases h4 hf with ⟨ha, hr⟩ | ⟨t', q, hq1, hq2, hq3⟩
      · left; exact ⟨by simpa [hp] using ha, hr⟩
      · right; exact ⟨p :: t', q, by simp [hq1], by simpa [hp] using hq2, hq3⟩
    | false =>
      cases hf : fatal with
      | true =>
        refine ⟨[p], ps, rfl, by simp [initAll, hp], by simp, fun _ => .inr ⟨[], p, rfl, by simp, hp⟩⟩
      | false =>
        subst hf
        refine ⟨p :: t, r, by simp [h1], by simp [initAll, hp, h2], h3, by simp⟩

example : daemon (· != "b".toList) false ["c".toList] ["a".toList, "b".toList, "c".toList] =
    [.init "c".toList, .init "b".toList, .init "a".toList, .cleanup "c".toList, .cleanup "a".toList] ∧
  daemon (· != "b".toList) true ["c".toList] ["a".toList, "b".toList, "c".toList] =
    [.init "c".toList, .init "b".toList, .cleanup "c".toList] := by decide +kernel

end Verif.Plugind
