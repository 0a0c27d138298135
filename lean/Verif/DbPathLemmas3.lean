import Verif.DbPathLemmas2

/-! # Lemmas: loading, deleting and the filter -/
namespace Verif.DbPath

/-! ## Loading -/

/-- The array has the node loaded last and its parents. -/
def Inv (done : List Path) (arr : List Str) : Prop :=
  ∀ l, done.getLast? = some l → l.length ≤ arr.length ∧ ∀ i, i < l.length → arr[i]? = some (pathText (l.take (i + 1)))

theorem depth_path {p : Path} (h : ∀ s ∈ p, s.Good) : depth (pathText p) = p.length := depth_text _ _ (allClosed h)

theorem loop_ok (d : List Path) (hd : Data d) (todo done : List Path) (st : Load) (hs : Sorted d (done ++ todo))
    (hi : Inv done st.arr) (ho : st.out = done.map place) :
    ∃ st', loadLoop st (todo.map pathText) = some st' ∧ st'.out = (done ++ todo).map place := by
  induction todo generalizing done st with
  | nil => exact ⟨st, rfl, by simp [ho]⟩
  | cons p todo ih =>
    have hmem : ∀ {q}, q ∈ done ++ p :: todo ↔ q ∈ d := fun {q} => hs.perm.mem_iff
    have hp : p ∈ d := hmem.1 (by simp)
    have hgp := hd.good p hp
    have hdep := depth_path hgp.2
    have hlen : p.length ≠ 0 := fun h => hgp.1 (List.length_eq_zero_iff.1 h)
    have hs' : Sorted d ((done ++ [p]) ++ todo) := by simpa using hs
    have step : ∀ st', addNode st (pathText p) = some st' → Inv (done ++ [p]) st'.arr → st'.out = (done ++ [p]).map place →
        ∃ st', loadLoop st ((p :: todo).map pathText) = some st' ∧ st'.out = (done ++ p :: todo).map place := by
      intro st' h1 h2 h3
      obtain ⟨st2, h4, h5⟩ := ih (done ++ [p]) st' hs' h2 h3
      refine ⟨st2, ?_, by simpa using h5⟩
      simp [loadLoop, h1, h4]
    by_cases h1 : p.length = 1
    · refine step _ (by simp only [addNode, hdep]; rw [if_neg hlen, if_pos h1]) ?_ ?_
      · intro l hl
        simp only [List.getLast?_concat, Option.some.injEq] at hl
        subst hl
        have htake : p.take 1 = p := by rw [List.take_of_length_le]; omega
        refine ⟨?_, ?_⟩
        · rw [h1]
          dsimp only
          split
          · simp
          · rename_i ha
            simp; omega
        · intro i hi'
          have : i = 0 := by omega
          subst this
          rw [htake]
          dsimp only
          split
          · rfl
          · rename_i ha
            rw [List.getElem?_set_self (by omega)]
      · simp [ho, place, h1]
    · -- below the node loaded before
      have hq := hd.parent p hp (by omega)
      have hqd : p.dropLast ∈ done := by
        have h2 := hmem.2 hq
        simp only [List.mem_append, List.mem_cons] at h2
        rcases h2 with h2 | h2 | h2
        · exact h2
        · exfalso
          have := congrArg List.length h2
          simp at this
          omega
        · exfalso
          have h3 := (List.pairwise_cons.1 (List.pairwise_append.1 hs.sorted).2.1).1 _ h2
          have hgq := hd.good _ hq
          have hpre : p.dropLast <+: p := List.dropLast_prefix p
          have h4 : le (modif (pathText p.dropLast)) (modif (pathText p)) = true := by
            unfold pathText
            rw [modif_text _ _ (allClosed hgq.2), modif_text _ _ (allClosed hgp.2)]
            exact le_of_prefix ((modText_prefix hgq.2 hgp.2).2 hpre)
          have h5 := le_antisymm h4 h3
          unfold pathText at h5
          rw [modif_text _ _ (allClosed hgq.2), modif_text _ _ (allClosed hgp.2)] at h5
          have := congrArg List.length (modText_inj hgq.2 hgp.2 h5)
          simp at this
          omega
      obtain ⟨done', l, hdl⟩ : ∃ done' l, done = done' ++ [l] := by
        have : done ≠ [] := by rintro rfl; simp at hqd
        exact ⟨done.dropLast, done.getLast this, (List.dropLast_concat_getLast this).symm⟩
      have hll : done.getLast? = some l := by rw [hdl]; simp
      have hl : l ∈ d := hmem.1 (by rw [hdl]; simp)
      have hgl := hd.good l hl
      have hgq := hd.good _ hq
      have hql : p.dropLast <+: l := by
        have h2 : le (modif (pathText p.dropLast)) (modif (pathText l)) = true := by
          rw [hdl, List.mem_append] at hqd
          rcases hqd with h2 | h2
          · have := (List.pairwise_append.1 hs.sorted).1
            rw [hdl] at this
            exact (List.pairwise_append.1 this).2.2 _ h2 l (by simp)
          · rw [List.mem_singleton.1 h2]; exact le_refl _
        have h3 : le (modif (pathText l)) (modif (pathText p)) = true :=
          (List.pairwise_append.1 hs.sorted).2.2 l (by rw [hdl]; simp) p (by simp)
        unfold pathText at h2 h3
        rw [modif_text _ _ (allClosed hgq.2), modif_text _ _ (allClosed hgl.2)] at h2
        rw [modif_text _ _ (allClosed hgl.2), modif_text _ _ (allClosed hgp.2)] at h3
        exact (modText_prefix hgq.2 hgl.2).1
          (le_between h2 h3 ((modText_prefix hgq.2 hgp.2).2 (List.dropLast_prefix p)))
      obtain ⟨hi1, hi2⟩ := hi l hll
      have hqlen : p.dropLast.length = p.length - 1 := by simp
      have hlle : p.length - 1 ≤ l.length := by rw [← hqlen]; exact hql.length_le
      have htk : ∀ i, i + 1 ≤ p.length - 1 → l.take (i + 1) = p.take (i + 1) := by
        intro i hi'
        have e1 : p.dropLast.take (i + 1) = l.take (i + 1) := by
          obtain ⟨t, ht⟩ := hql
          rw [← ht, List.take_append_of_le_length (by omega)]
        have e2 : p.dropLast.take (i + 1) = p.take (i + 1) := by
          rw [List.dropLast_eq_take, List.take_take]
          congr 1; omega
        rw [← e1, e2]
      have hpar : st.arr[p.length - 2]? = some (pathText p.dropLast) := by
        rw [hi2 _ (by omega)]
        have : p.length - 2 + 1 = p.length - 1 := by omega
        rw [this]
        have := htk (p.length - 2) (by omega)
        rw [show p.length - 2 + 1 = p.length - 1 by omega] at this
        rw [this, List.dropLast_eq_take]
      refine step _ (by simp only [addNode, hdep]; rw [if_neg hlen, if_neg h1, hpar]) ?_ ?_
      · intro l' hl'
        simp only [List.getLast?_concat, Option.some.injEq] at hl'
        subst hl'
        dsimp only
        by_cases ha : st.arr.length ≤ p.length - 1
        · have hae : st.arr.length = p.length - 1 := by omega
          rw [if_pos ha]
          refine ⟨by simp; omega, ?_⟩
          intro i hi'
          by_cases hii : i < p.length - 1
          · rw [List.getElem?_append_left (by omega), hi2 i (by omega), htk i (by omega)]
          · have : i = p.length - 1 := by omega
            subst this
            rw [List.getElem?_append_right (by omega), hae]
            simp
            rw [List.take_of_length_le]; omega
        · rw [if_neg ha]
          refine ⟨by simp; omega, ?_⟩
          intro i hi'
          by_cases hii : i < p.length - 1
          · rw [List.getElem?_set_ne (by omega), hi2 i (by omega), htk i (by omega)]
          · have : i = p.length - 1 := by omega
            subst this
            rw [List.getElem?_set_self (by omega), List.take_of_length_le (by omega)]
      · simp only [ho, List.map_append, List.map_cons, List.map_nil, place]
        rw [if_neg (show ¬ p.length ≤ 1 by omega)]

theorem load_ok (d ps : List Path) (hd : Data d) (hs : Sorted d ps) : load (ps.map pathText) = some (ps.map place) := by
  obtain ⟨st, h1, h2⟩ := loop_ok d hd ps [] { arr := [], out := [] } (by simpa using hs)
    (fun l hl => by simp at hl) rfl
  simp [load, h1, h2]

/-! ## Changes -/

theorem filter_map_text (d : List Path) (g : Str → Bool) (k : Path → Bool) (h : ∀ r ∈ d, g (pathText r) = k r) :
    (d.map pathText).filter g = (d.filter k).map pathText := by
  rw [List.filter_map]
  congr 1
  exact List.filter_congr h

theorem effect_data {d : List Path} (hd : Data d) (c : Change) (hf : Fits d c) : Data (effect d c) := by
  cases c with
  | create p =>
    obtain ⟨h1, h2, h3⟩ := hf
    refine ⟨?_, ?_, ?_⟩
    · intro q hq
      simp only [effect, List.mem_append, List.mem_singleton] at hq
      rcases hq with hq | rfl
      · exact hd.good q hq
      · exact h1
    · simp only [effect, List.nodup_append]
      refine ⟨hd.nodup, by simp, ?_⟩
      intro a ha b hb
      simp only [List.mem_singleton] at hb
      rintro rfl
      exact h2 (hb ▸ ha)
    · intro q hq hl
      simp only [effect, List.mem_append, List.mem_singleton] at hq ⊢
      rcases hq with hq | rfl
      · exact .inl (hd.parent q hq hl)
      · exact .inl (h3 hl)
  | delete p below =>
    refine ⟨?_, ?_, ?_⟩
    · intro q hq
      exact hd.good q (List.mem_filter.1 hq).1
    · exact hd.nodup.filter _
    · intro q hq hl
      simp only [effect, List.mem_filter, Bool.not_eq_true'] at hq ⊢
      refine ⟨hd.parent q hq.1 hl, ?_⟩
      cases h : p.isPrefixOf q.dropLast with
      | false => rfl
      | true =>
        have h1 := List.isPrefixOf_iff_prefix.1 h
        have h2 := List.isPrefixOf_iff_prefix.2 (h1.trans (List.dropLast_prefix q))
        rw [h2] at hq
        exact absurd hq.2 (by simp)

theorem good_split {p : Path} (h : p ≠ []) : ∃ q s, p = q ++ [s] :=
  ⟨p.dropLast, p.getLast h, (List.dropLast_concat_getLast h).symm⟩

theorem alone_prefix {d : List Path} (hd : Data d) {p r : Path} (hp : p ∈ d) (hr : r ∈ d) (ha : Alone d p) :
    pathText p <+: pathText r ↔ p <+: r := by
  refine ⟨fun h => ?_, text_of_prefix⟩
  have hgp := hd.good p hp
  have hgr := hd.good r hr
  obtain ⟨q, s, rfl⟩ := good_split hgp.1
  obtain ⟨s', t, rfl, h2⟩ := (text_prefix hgp.2 hgr.2).1 h
  have := ha _ hr s s' (by simp) ⟨t, by simp⟩ h2
  subst this
  exact ⟨t, by simp⟩

theorem apply_ok (be : Backend) {d : List Path} (hd : Data d) (c : Change) (hf : Fits d c)
    (ha : be = .mongo → AloneAt d c) :
    apply be (d.map pathText) c = (effect d c).map pathText := by
  have hinj : ∀ {p r}, Path.Good p → r ∈ d → pathText r = pathText p → r = p :=
    fun hp hr e => pathText_inj (hd.good _ hr).2 hp.2 e
  cases c with
  | create p =>
    obtain ⟨h1, h2, h3⟩ := hf
    simp only [apply, effect, List.map_append, List.map_cons, List.map_nil]
    congr 1
    rw [List.filter_eq_self]
    intro t ht
    obtain ⟨r, hr, rfl⟩ := List.mem_map.1 ht
    simp only [decide_eq_true_eq]
    intro e
    have := hinj h1 hr e
    subst this
    exact h2 hr
  | delete p below =>
    obtain ⟨h1, h2⟩ := hf
    have hgp := hd.good p h1
    simp only [apply, effect]
    cases be with
    | redis =>
      refine filter_map_text d _ _ ?_
      intro r hr
      rw [Bool.eq_iff_iff]
      simp only [decide_eq_true_eq, Bool.not_eq_true', List.mem_map, List.mem_cons]
      constructor
      · intro hn
        cases hpre : p.isPrefixOf r with
        | false => rfl
        | true =>
          exfalso
          apply hn
          have := List.isPrefixOf_iff_prefix.1 hpre
          by_cases e : r = p
          · exact ⟨p, .inl rfl, by rw [e]⟩
          · exact ⟨r, .inr ((h2 r).2 ⟨hr, this, e⟩), rfl⟩
      · rintro hn ⟨q, hq, e⟩
        have hqd : q ∈ d := by
          rcases hq with rfl | hq
          · exact h1
          · exact ((h2 q).1 hq).1
        have := hinj (hd.good q hqd) hr e.symm
        subst this
        have hp : p <+: r := by
          rcases hq with rfl | hq
          · exact List.prefix_refl _
          · exact ((h2 r).1 hq).2.1
        rw [List.isPrefixOf_iff_prefix.2 hp] at hn
        cases hn
    | mongo =>
      dsimp only
      split
      · rename_i hb
        have hb' : below = [] := List.isEmpty_iff.1 hb
        refine filter_map_text d _ _ ?_
        intro r hr
        rw [Bool.eq_iff_iff]
        simp only [decide_eq_true_eq, Bool.not_eq_true']
        constructor
        · intro hn
          cases hpre : p.isPrefixOf r with
          | false => rfl
          | true =>
            exfalso
            by_cases e : r = p
            · exact hn (by rw [e])
            · have := (h2 r).2 ⟨hr, List.isPrefixOf_iff_prefix.1 hpre, e⟩
              rw [hb'] at this
              cases this
        · intro hn e
          have := hinj hgp hr e
          subst this
          rw [List.isPrefixOf_iff_prefix.2 (List.prefix_refl _)] at hn
          cases hn
      · rename_i hb
        have hal := ha rfl (by rintro rfl; simp at hb)
        refine filter_map_text d _ _ ?_
        intro r hr
        rw [Bool.eq_iff_iff]
        simp only [Bool.not_eq_true']
        rw [← Bool.not_eq_true, ← Bool.not_eq_true, begins_iff, List.isPrefixOf_iff_prefix, alone_prefix hd h1 hr hal]

theorem applyAll_ok (be : Backend) (cs : List Change) (d : List Path) (hd : Data d) (hf : FitsAll d cs)
    (ha : be = .mongo → AloneAll d cs) :
    applyAll be (d.map pathText) cs = (effectAll d cs).map pathText ∧ Data (effectAll d cs) := by
  induction cs generalizing d with
  | nil => exact ⟨rfl, hd⟩
  | cons c cs ih =>
    simp only [applyAll, effectAll]
    rw [apply_ok be hd c hf.1 (fun h => (ha h).1)]
    exact ih _ (effect_data hd c hf.1) hf.2 (fun h => (ha h).2)

/-! ## The filter -/

theorem parents_text (f : Str → Char) (p : Path) (h : AllClosed f p) (hne : p ≠ []) (n : Nat) (hn : p.length ≤ n) :
    ∃ ts, parents n (textWith f p) = some ts ∧ ∀ t, t ∈ ts ↔ ∃ q, q ≠ [] ∧ q <+: p ∧ q ≠ p ∧ t = textWith f q := by
  induction n generalizing p with
  | zero => exact absurd (List.length_eq_zero_iff.1 (Nat.le_zero.1 hn)) hne
  | succ n ih =>
    obtain ⟨q, s, rfl⟩ := good_split hne
    simp only [parents, parentText_text f q s h]
    cases q with
    | nil =>
      refine ⟨[], by simp [textWith], ?_⟩
      intro t
      simp only [List.not_mem_nil, false_iff]
      rintro ⟨q, h1, h2, h3, _⟩
      have := h2.length_le
      have h4 : q.length ≠ 0 := fun h => h1 (List.length_eq_zero_iff.1 h)
      exact h3 (h2.eq_of_length (by simp only [List.nil_append, List.length_cons, List.length_nil] at *; omega))
    | cons a q =>
      obtain ⟨ts, h1, h2⟩ := ih (a :: q) (fun s hs => h s (by simp at hs ⊢; rcases hs with hs | hs <;> simp [hs])) (by simp)
        (by simp at hn ⊢; omega)
      have hcons : textWith f (a :: q) = '/' :: (stepText f a ++ textWith f q) := textWith_cons f a q
      refine ⟨textWith f (a :: q) :: ts, ?_, ?_⟩
      · rw [hcons]
        dsimp only
        rw [← hcons, h1]
        rfl
      · intro t
        simp only [List.mem_cons]
        rw [h2]
        constructor
        · rintro (rfl | ⟨r, r1, r2, r3, r4⟩)
          · refine ⟨a :: q, by simp, List.prefix_append _ _, ?_, rfl⟩
            intro e
            have := congrArg List.length e
            simp at this
          · refine ⟨r, r1, r2.trans (List.prefix_append _ _), ?_, r4⟩
            intro e
            have := r2.length_le
            rw [e] at this
            simp only [List.length_append, List.length_cons, List.length_nil] at this
            omega
        · rintro ⟨r, r1, r2, r3, r4⟩
          by_cases e : r = a :: q
          · exact .inl (by rw [r4, e])
          · refine .inr ⟨r, r1, ?_, e, r4⟩
            have hlt : r.length < ((a :: q) ++ [s]).length := by
              have := r2.length_le
              rcases Nat.lt_or_eq_of_le this with h' | h'
              · exact h'
              · exact absurd (r2.eq_of_length h') r3
            exact List.prefix_of_prefix_length_le r2 (List.prefix_append _ _) (by simp at hlt ⊢; omega)

/-- The path a filter is about. -/
theorem filterOf_ok (L : Lib) (p : Path) (hg : Path.Good p) (x : Str) (hx : x = pathText p ∨ '/' :: x = pathText p)
    (hx' : x.head? = some '/' → x = pathText p) (hk : L.isKey (pathText p) = true → 1 < p.length) :
    ∃ f q, filterOf L x = some f ∧ Path.Good q ∧ f.start = pathText q ∧ (q = p ∨ q = p.dropLast) ∧
      ∀ t, t ∈ f.exact ↔ ∃ r, r ≠ [] ∧ r <+: q ∧ r ≠ q ∧ t = pathText r := by
  have habs : (if x.head? = some '/' then x else '/' :: x) = pathText p := by
    split
    · rename_i h; exact hx' h
    · rename_i h
      rcases hx with hx | hx
      · exfalso
        apply h
        obtain ⟨s, q, e⟩ : ∃ s q, p = s :: q := by
          cases p with
          | nil => exact absurd rfl hg.1
          | cons s q => exact ⟨s, q, rfl⟩
        rw [hx, e]
        simp [pathText, textWith_cons]
      · exact hx
  simp only [filterOf, habs]
  by_cases hkey : L.isKey (pathText p) = true
  · rw [if_pos hkey]
    obtain ⟨q, s, rfl⟩ := good_split hg.1
    have hq : q ≠ [] := by
      have := hk hkey
      rintro rfl
      simp at this
    have hgq : Path.Good q := ⟨hq, fun a ha => hg.2 a (by simp [ha])⟩
    have h1 : parentText (pathText (q ++ [s])) = some (pathText q) := parentText_text _ _ _ (allClosed hg.2)
    rw [h1]
    obtain ⟨ts, h2, h3⟩ := parents_text quoteOf q (allClosed hgq.2) hq ((pathText q).length + 1)
      (by have := textWith_length quoteOf q; unfold pathText; omega)
    refine ⟨{ start := pathText q, exact := ts }, q, ?_, hgq, ?_, .inr (by simp), h3⟩
    · show (parents ((pathText q).length + 1) (pathText q)).map _ = _
      have h2' : parents ((pathText q).length + 1) (pathText q) = some ts := h2
      rw [h2']; rfl
    · rfl
  · rw [if_neg hkey]
    obtain ⟨ts, h2, h3⟩ := parents_text quoteOf p (allClosed hg.2) hg.1 ((pathText p).length + 1)
      (by have := textWith_length quoteOf p; unfold pathText; omega)
    refine ⟨{ start := pathText p, exact := ts }, p, ?_, hg, ?_, .inl rfl, h3⟩
    · show (parents ((pathText p).length + 1) (pathText p)).map _ = _
      have h2' : parents ((pathText p).length + 1) (pathText p) = some ts := h2
      rw [h2']; rfl
    · rfl

end Verif.DbPath
