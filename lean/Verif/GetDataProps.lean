import Verif.GetDataLemmas
/-!
C52: the result of `sr_get_data`. Specification: `Exists`, `Above`, `Brings`, `DocOrder`, `WF` in `Verif.GetData`.
-/
namespace Verif.GetData

/-- None is the other or its ancestor. -/
def Apart (p q : Path) : Prop := p ≠ q ∧ ¬ Above p q ∧ ¬ Above q p

theorem above_trans {a b c : Path} (h1 : Above a b) (h2 : Above b c) : Above a c := by
  obtain ⟨r, hr, rfl⟩ := h1
  obtain ⟨r2, _, rfl⟩ := h2
  exact ⟨r ++ r2, by simp [hr], by simp⟩

theorem test_iff (kept : List Path) (p : Path) (hk : ∀ a ∈ kept, a ≠ []) :
    (List.range p.length).any (fun n => n ≠ 0 && kept.contains (p.take n)) = true ↔ ∃ a ∈ kept, Above a p := by
  simp only [List.any_eq_true, List.mem_range, Bool.and_eq_true, decide_eq_true_eq, List.contains_iff_mem]
  constructor
  · rintro ⟨n, h1, _, h3⟩; exact ⟨_, h3, above_iff.mpr ⟨n, h1, rfl⟩⟩
  · rintro ⟨a, h1, h2⟩
    obtain ⟨n, h3, rfl⟩ := above_iff.mp h2
    exact ⟨n, h3, by rintro rfl; exact hk _ h1 (by simp), h1⟩

theorem filter_spec (ps : List Path) : ∀ kept : List Path, kept.Pairwise Apart → (∀ a ∈ kept, ∀ b ∈ ps, a ≠ b ∧ ¬ Above b a) →
    DocOrder ps → (∀ a ∈ kept, a ≠ []) → (∀ a ∈ ps, a ≠ []) →
    (filterSubtrees kept ps).Pairwise Apart ∧
    ∀ x, x ∈ filterSubtrees kept ps ↔ x ∈ kept ∨ (x ∈ ps ∧ ∀ y, y ∈ kept ∨ y ∈ ps → ¬ Above y x) := by
  induction ps with
  | nil => intro kept h _ _ _ _; exact ⟨by simpa [filterSubtrees] using h, by simp [filterSubtrees]⟩
  | cons p ps ih =>
    intro kept h1 h2 h3 h4 h5
    simp only [DocOrder, List.pairwise_cons] at h3
    simp only [filterSubtrees]
    have ht := test_iff kept p h4
    split
    · rename_i hc
      obtain ⟨a, ha, hap⟩ := ht.mp hc
      obtain ⟨i1, i2⟩ := ih kept h1 (fun a ha b hb => h2 a ha b (by simp [hb])) h3.2 h4 (fun a ha => h5 a (by simp [ha]))
      refine ⟨i1, fun x => ?_⟩
      rw [i2]
      constructor
      · rintro (h | ⟨hx, hy⟩)
        · exact .inl h
        · refine .inr ⟨by simp [hx], fun y hyy hab => ?_⟩
          rcases hyy with hyy | hyy
          · exact hy y (.inl hyy) hab
          · rcases List.mem_cons.mp hyy with rfl | hyy
            · exact hy a (.inl ha) (above_trans hap hab)
            · exact hy y (.inr hyy) hab
      · rintro (h | ⟨hx, hy⟩)
        · exact .inl h
        · rcases List.mem_cons.mp hx with rfl | hx
          · exact absurd hap (hy a (.inl ha))
          · exact .inr ⟨hx, fun y hyy => hy y (hyy.imp id (fun h => by simp [h]))⟩
    · rename_i hc
      have hno : ∀ a ∈ kept, ¬ Above a p := fun a ha hap => hc (ht.mpr ⟨a, ha, hap⟩)
      have hself : ¬ Above p p := by
        rintro ⟨r, hr, he⟩
        have := congrArg List.length he
        simp at this; exact hr this
      obtain ⟨i1, i2⟩ := ih (kept ++ [p])
        (by rw [List.pairwise_append]
            refine ⟨h1, by simp, ?_⟩
            intro a ha b hb
            simp only [List.mem_singleton] at hb
            subst hb
            exact ⟨(h2 a ha b (by simp)).1, hno a ha, (h2 a ha b (by simp)).2⟩)
        (by intro a ha b hb
            rcases List.mem_append.mp ha with ha | ha
            · exact h2 a ha b (by simp [hb])
            · simp only [List.mem_singleton] at ha
              subst ha
              exact h3.1 b hb)
        h3.2 (by intro a ha
                 rcases List.mem_append.mp ha with ha | ha
                 · exact h4 a ha
                 · simp only [List.mem_singleton] at ha; subst ha; exact h5 a (by simp))
        (fun a ha => h5 a (by simp [ha]))
      refine ⟨i1, fun x => ?_⟩
      rw [i2]
      simp only [List.mem_append, List.mem_cons, List.not_mem_nil, or_false]
      constructor
      · rintro ((h | rfl) | ⟨hx, hy⟩)
        · exact .inl h
        · refine .inr ⟨.inl rfl, fun y hyy hab => ?_⟩
          rcases hyy with hyy | rfl | hyy
          · exact hno y hyy hab
          · exact hself hab
          · exact (h3.1 y hyy).2 hab
        · refine .inr ⟨.inr hx, fun y hyy => hy y ?_⟩
          rcases hyy with h | h | h
          · exact .inl (.inl h)
          · exact .inl (.inr h)
          · exact .inr h
      · rintro (h | ⟨rfl | hx, hy⟩)
        · exact .inl (.inl h)
        · exact .inl (.inr rfl)
        · refine .inr ⟨hx, fun y hyy => hy y ?_⟩
          rcases hyy with (h | h) | h
          · exact .inl h
          · exact .inr (.inl h)
          · exact .inr (.inr h)

theorem fold_good (forest : List Tree) (depth : Nat) (denied : Path → Bool) (hw : WF forest) (ps : List Path) :
    ∀ (done : List Path) (s : List RNode × Ht), Good forest depth done s → ps.Pairwise Apart →
    (∀ p ∈ ps, p ≠ [] ∧ Exists forest p ∧ ∀ p' ∈ done, Apart p' p) →
    Good forest depth (done ++ ps.filter (fun p => !denied p)) (ps.foldl (addOne forest depth denied) s) := by
  induction ps with
  | nil => intro done s g _ _; simpa using g
  | cons p ps ih =>
    intro done s g hp hps
    rw [List.pairwise_cons] at hp
    obtain ⟨h1, h2, h3⟩ := hps p (by simp)
    simp only [List.foldl_cons, List.filter_cons]
    by_cases hd : denied p = true
    · have : addOne forest depth denied s p = s := by simp [addOne, hd]
      rw [this]
      simp only [hd, Bool.not_true, Bool.false_eq_true, if_false]
      exact ih done s g hp.2 (fun q hq => hps q (by simp [hq]))
    · simp only [Bool.not_eq_true] at hd
      simp only [hd, Bool.not_false, if_true]
      have g' := g.step hw p h1 h2 h3 denied hd
      have := ih (done ++ [p]) _ g' hp.2 (by
        intro q hq
        obtain ⟨a, b, c⟩ := hps q (by simp [hq])
        refine ⟨a, b, fun p' hp' => ?_⟩
        rcases List.mem_append.mp hp' with hp' | hp'
        · exact c p' hp'
        · simp only [List.mem_singleton] at hp'
          subst hp'
          exact hp.1 q hq)
      simpa using this

/-- C52. The result has exactly the topmost selected nodes that are not denied, their ancestors, and their descendants to
`depth` levels below them, every node once and below the copy of its parent.
Missing from C52: the depth is one level more than documented (`one_level_too_deep`), and a selected node below another
selected node is not returned if it is deeper (`selected_node_missing`). -/
theorem result_exact_partial (forest : List Tree) (depth : Nat) (denied : Path → Bool) (set : List Path) (hw : WF forest)
    (hs : DocOrder set) (he : ∀ p ∈ set, p ≠ [] ∧ Exists forest p) :
    (∀ q, q ∈ (getData forest depth denied set).map (·.path) ↔
      ∃ p ∈ set, (∀ p' ∈ set, ¬ Above p' p) ∧ denied p = false ∧ Brings forest depth p q) ∧
    ((getData forest depth denied set).map (·.path)).Nodup ∧
    (∀ x ∈ getData forest depth denied set, match x.parent with
      | none => x.path.length = 1
      | some j => x.path ≠ [] ∧ ∃ y, (getData forest depth denied set)[j]? = some y ∧ y.path = x.path.dropLast) := by
  obtain ⟨f1, f2⟩ := filter_spec set [] (by simp) (by simp) hs (by simp) (fun a ha => (he a ha).1)
  have g0 : Good forest depth [] ([], []) := ⟨by simp, by simp, by simp [ParentsOk], by simp [lookup], by simp [lookup]⟩
  have g := fold_good forest depth denied hw (filterSubtrees [] set) [] ([], []) g0 f1 (by
    intro p hp
    have := (f2 p).mp hp
    simp only [List.not_mem_nil, false_or] at this
    exact ⟨(he p this.1).1, (he p this.1).2, by simp⟩)
  refine ⟨fun q => ?_, g.nodup, g.parents⟩
  rw [getData, g.mem]
  simp only [List.nil_append, List.mem_filter, Bool.not_eq_true']
  constructor
  · rintro ⟨p, ⟨h1, h2⟩, h3⟩
    have := (f2 p).mp h1
    simp only [List.not_mem_nil, false_or] at this
    exact ⟨p, this.1, this.2, h2, h3⟩
  · rintro ⟨p, h1, h2, h3, h4⟩
    refine ⟨p, ⟨(f2 p).mpr (.inr ⟨h1, fun y hy => h2 y (by simpa using hy)⟩), h3⟩, h4⟩

/-- C52 without a depth limit: exactly the selected nodes, their ancestors and all their descendants. -/
theorem unlimited_exact (forest : List Tree) (set : List Path) (hw : WF forest) (hs : DocOrder set)
    (he : ∀ p ∈ set, p ≠ [] ∧ Exists forest p) (q : Path) :
    q ∈ (getData forest 0 (fun _ => false) set).map (·.path) ↔
      q ≠ [] ∧ Exists forest q ∧ ∃ p ∈ set, q = p ∨ Above q p ∨ Above p q := by
  rw [(result_exact_partial forest 0 (fun _ => false) set hw hs he).1]
  constructor
  · rintro ⟨p, h1, _, _, h2, h3, h4⟩
    refine ⟨h2, h3, p, h1, ?_⟩
    rcases h4 with h | h | ⟨r, h, _⟩
    · exact .inl h
    · exact .inr (.inl h)
    · by_cases hr : r = []
      · left; simpa [hr] using h
      · exact .inr (.inr ⟨r, hr, h⟩)
  · rintro ⟨h2, h3, p, h1, h4⟩
    -- the topmost selected node above `p`
    have top : ∀ n (p : Path), p.length ≤ n → p ∈ set → ∃ t ∈ set, (t = p ∨ Above t p) ∧ ∀ p' ∈ set, ¬ Above p' t := by
      intro n
      induction n with
      | zero => intro p hp hm; exact absurd (List.length_eq_zero_iff.mp (by omega)) (he p hm).1
      | succ n ih =>
        intro p hp hm
        by_cases hx : ∃ p' ∈ set, Above p' p
        · obtain ⟨p', h1, h2⟩ := hx
          have : p'.length ≤ n := by obtain ⟨m, h3, rfl⟩ := above_iff.mp h2; simp; omega
          obtain ⟨t, a, b, c⟩ := ih p' this h1
          refine ⟨t, a, .inr ?_, c⟩
          rcases b with rfl | b
          · exact h2
          · exact above_trans b h2
        · exact ⟨p, hm, .inl rfl, fun p' h1 h2 => hx ⟨p', h1, h2⟩⟩
    obtain ⟨t, a, b, c⟩ := top p.length p (Nat.le_refl _) h1
    refine ⟨t, a, c, rfl, h2, h3, ?_⟩
    rcases b with rfl | b
    · rcases h4 with h | h | ⟨r, _, h⟩
      · exact .inl h
      · exact .inr (.inl h)
      · exact .inr (.inr ⟨r, h, .inl rfl⟩)
    · rcases h4 with h | h | h
      · obtain ⟨r, _, h⟩ := (h ▸ b : Above t q)
        exact .inr (.inr ⟨r, h, .inl rfl⟩)
      · obtain ⟨r1, _, e1⟩ := b
        obtain ⟨r2, _, e2⟩ := h
        rcases comparable (e1.symm.trans e2) with h | h | h
        · exact .inl h.symm
        · obtain ⟨r, _, h⟩ := h
          exact .inr (.inr ⟨r, h, .inl rfl⟩)
        · exact .inr (.inl h)
      · obtain ⟨r, _, h⟩ := above_trans b h
        exact .inr (.inr ⟨r, h, .inl rfl⟩)

/-! ### Example and findings -/

/-- a { b { c { d } } e } and f. -/
def ex : List Tree := [.mk 1 [.mk 2 [.mk 3 [.mk 4 []]], .mk 5 []], .mk 6 []]

theorem ex_wf : WF ex := by
  refine .mk (by decide) ?_
  intro t ht
  simp [ex] at ht
  rcases ht with rfl | rfl
  · refine .mk (by decide) ?_
    intro t ht
    simp [Tree.kids] at ht
    rcases ht with rfl | rfl
    · refine .mk (by decide) ?_
      intro t ht
      simp [Tree.kids] at ht
      subst ht
      refine .mk (by decide) ?_
      intro t ht
      simp [Tree.kids] at ht
      subst ht
      exact .mk (by simp [Tree.kids]) (by simp [Tree.kids])
    · exact .mk (by simp [Tree.kids]) (by simp [Tree.kids])
  · exact .mk (by simp [Tree.kids]) (by simp [Tree.kids])

example : WF ex ∧ DocOrder [[1, 2], [1, 2, 3], [1, 5]] ∧
    (getData ex 0 (fun _ => false) [[1, 2], [1, 2, 3], [1, 5]]).map (·.path) = [[1], [1, 2], [1, 2, 3], [1, 2, 3, 4], [1, 5]] ∧
    (getData ex 0 (fun _ => false) [[1, 2], [1, 2, 3], [1, 5]]).map (·.parent) = [none, some 0, some 1, some 2, some 0] := by
  refine ⟨ex_wf, ?_, by decide, by decide⟩
  simp [DocOrder, above_iff]
  have h2 : ∀ n, n < 2 → n = 0 ∨ n = 1 := by omega
  have h3 : ∀ n, n < 3 → n = 0 ∨ n = 1 ∨ n = 2 := by omega
  refine ⟨⟨?_, ?_⟩, ?_⟩
  · intro n h; rcases h2 n h with rfl | rfl <;> simp
  · intro n h; rcases h2 n h with rfl | rfl <;> simp
  · intro n h; rcases h3 n h with rfl | rfl | rfl <;> simp

/-- Finding: the documentation says that depth 1 returns no descendants, but the children are returned. -/
theorem one_level_too_deep : (getData ex 1 (fun _ => false) [[1]]).map (·.path) = [[1], [1, 2], [1, 5]] := by decide

/-- Finding: with a depth limit a selected node may be missing in the result: `/a | /a/b/c` with depth 1. -/
theorem selected_node_missing : [1, 2, 3] ∈ [[1], [1, 2, 3]] ∧
    (getData ex 1 (fun _ => false) [[1], [1, 2, 3]]).map (·.path) = [[1], [1, 2], [1, 5]] := by decide

end Verif.GetData
