import Verif.DbPathLemmas3

/-! # Lemmas: the filter of loading, list instances -/
namespace Verif.DbPath

/-- An XPath that is the path of a node as the database has it, perhaps without the first slash. -/
def Canon (x : Str) (p : Path) : Prop := x = pathText p ∨ '/' :: x = pathText p

theorem canon_head {x : Str} {p : Path} (hg : Path.Good p) (h : Canon x p) (hh : x.head? = some '/') : x = pathText p := by
  rcases h with h | h
  · exact h
  · exfalso
    cases p with
    | nil => exact hg.1 rfl
    | cons s q =>
      rw [pathText, textWith_cons] at h
      have h1 := (List.cons.inj h).2
      have hs := hg.2 s (by simp)
      cases hn : s.name with
      | nil => exact hs.1 hn
      | cons c t =>
        have hc := hs.2.1 c (by simp [hn])
        rw [h1, stepText, hn] at hh
        simp at hh
        exact hc.1 hh

/-- What a filter lets through. -/
def About (f : Filt) (q : Path) : Prop :=
  Path.Good q ∧ f.start = pathText q ∧ ∀ t, t ∈ f.exact ↔ ∃ r, r ≠ [] ∧ r <+: q ∧ r ≠ q ∧ t = pathText r

theorem about_of {L : Lib} {x : Str} {p : Path} (hg : Path.Good p) (hx : Canon x p)
    (hk : L.isKey (pathText p) = true → 1 < p.length) :
    ∃ f q, filterOf L x = some f ∧ About f q ∧ (q = p ∨ q = p.dropLast) := by
  obtain ⟨f, q, h1, h2, h3, h4, h5⟩ := filterOf_ok L p hg x hx (canon_head hg hx) hk
  exact ⟨f, q, h1, ⟨h2, h3, h5⟩, h4⟩

theorem collect_ok (L : Lib) (xs : List Str)
    (h : ∀ x ∈ xs, L.isPath x = true ∧ ∃ f, filterOf L x = some f) :
    ∃ fs, collect L xs = some (fs, true) ∧ fs.length = xs.length ∧
      ∀ f, f ∈ fs ↔ ∃ x ∈ xs, filterOf L x = some f := by
  induction xs with
  | nil => exact ⟨[], rfl, rfl, by simp⟩
  | cons x xs ih =>
    obtain ⟨fs, h1, h2, h3⟩ := ih fun y hy => h y (by simp [hy])
    obtain ⟨hp, f, hf⟩ := h x (by simp)
    refine ⟨f :: fs, by simp [collect, hp, hf, h1], by simp [h2], ?_⟩
    intro g
    simp only [List.mem_cons, h3, exists_eq_or_imp]
    constructor
    · rintro (rfl | h')
      · exact .inl hf
      · exact .inr h'
    · rintro (h' | h')
      · rw [hf] at h'; exact .inl (Option.some.inj h').symm
      · exact .inr h'

theorem lets_iff {f : Filt} {q r : Path} (h : About f q) (hr : Path.Good r) :
    f.lets (pathText r) = true ↔ (pathText q <+: pathText r ∨ (r <+: q ∧ r ≠ q)) := by
  unfold Filt.lets
  rw [Bool.or_eq_true, begins_iff, h.2.1, decide_eq_true_eq, h.2.2]
  constructor
  · rintro (h' | ⟨r0, a, b, c, e⟩)
    · exact .inl h'
    · have hg0 : ∀ s ∈ r0, s.Good := fun s hs => h.1.2 s (b.subset hs)
      have := pathText_inj hr.2 hg0 e
      subst this
      exact .inr ⟨b, c⟩
  · rintro (h' | ⟨b, c⟩)
    · exact .inl h'
    · exact .inr ⟨r, hr.1, b, c, rfl⟩

/-- The part of the data some filters let through is data again. -/
theorem filter_data {d : List Path} (hd : Data d) (fs : List Filt) (h : ∀ f ∈ fs, ∃ q, About f q) :
    Data (d.filter fun r => fs.any fun f => f.lets (pathText r)) := by
  refine ⟨fun p hp => hd.good p (List.mem_filter.1 hp).1, hd.nodup.filter _, ?_⟩
  intro r hr hl
  obtain ⟨hr1, hr2⟩ := List.mem_filter.1 hr
  have hpar := hd.parent r hr1 hl
  refine List.mem_filter.2 ⟨hpar, ?_⟩
  obtain ⟨f, hf, hfl⟩ := List.any_eq_true.1 hr2
  refine List.any_eq_true.2 ⟨f, hf, ?_⟩
  obtain ⟨q, hq⟩ := h f hf
  have hgr := hd.good r hr1
  have hgp := hd.good _ hpar
  rw [lets_iff hq hgp]
  rw [lets_iff hq hgr] at hfl
  obtain ⟨q0, s, rfl⟩ := good_split hq.1.1
  rcases hfl with h1 | ⟨h1, h2⟩
  · obtain ⟨s', t, rfl, h3⟩ := (text_prefix hq.1.2 hgr.2).1 h1
    cases t with
    | nil =>
      right
      simp only [List.dropLast_concat]
      refine ⟨List.prefix_append _ _, ?_⟩
      intro e
      have := congrArg List.length e
      simp at this
    | cons a t =>
      left
      have e : (q0 ++ s' :: a :: t).dropLast = q0 ++ s' :: (a :: t).dropLast := by
        rw [List.dropLast_append_of_ne_nil (by simp)]
        rfl
      rw [e] at hgp ⊢
      exact (text_prefix hq.1.2 hgp.2).2 ⟨s', _, rfl, h3⟩
  · right
    refine ⟨(List.dropLast_prefix r).trans h1, ?_⟩
    intro e
    have h3 := h1.length_le
    rw [← e] at h3
    simp at h3
    omega

theorem needed_lets {f : Filt} {p q r : Path} (h : About f q) (hq : q = p ∨ q = p.dropLast) (hr : Path.Good r)
    (hn : p <+: r ∨ r <+: p) : f.lets (pathText r) = true := by
  rw [lets_iff h hr]
  have hqp : q <+: p := by
    rcases hq with rfl | rfl
    · exact List.prefix_refl _
    · exact List.dropLast_prefix _
  rcases hn with hn | hn
  · exact .inl (text_of_prefix (hqp.trans hn))
  · by_cases e : r = p
    · subst e; exact .inl (text_of_prefix hqp)
    · by_cases e2 : r = q
      · subst e2; exact .inl (List.prefix_refl _)
      · refine .inr ⟨?_, e2⟩
        rcases hq with rfl | rfl
        · exact hn
        · have : r.length < p.length := by
            rcases Nat.lt_or_eq_of_le hn.length_le with h' | h'
            · exact h'
            · exact absurd (hn.eq_of_length h') e
          exact List.prefix_of_prefix_length_le hn (List.dropLast_prefix p) (by simp; omega)

/-! ## List instances -/

theorem preds_prefix {l l' : List Pred}
    (h : ∀ p ∈ l, (∀ c ∈ p.key, NameChar c) ∧ ('\'' ∉ p.value ∨ '"' ∉ p.value))
    (h' : ∀ p ∈ l', (∀ c ∈ p.key, NameChar c) ∧ ('\'' ∉ p.value ∨ '"' ∉ p.value))
    (hl : l'.length = l.length) (e : l.flatMap (predText quoteOf) <+: l'.flatMap (predText quoteOf)) : l = l' := by
  induction l generalizing l' with
  | nil => exact (List.length_eq_zero_iff.1 (by simpa using hl)).symm
  | cons p t ih =>
    cases l' with
    | nil => simp at hl
    | cons p' t' =>
      obtain ⟨z, hz⟩ := e
      have hk : '=' ∉ p.key := fun hm => ((h p (by simp)).1 _ hm).2.2.2.2.2 rfl
      have hk' : '=' ∉ p'.key := fun hm => ((h' p' (by simp)).1 _ hm).2.2.2.2.2 rfl
      have hv := quoteOf_not (h p (by simp)).2
      have hv' := quoteOf_not (h' p' (by simp)).2
      have e2 : p.key ++ '=' :: (quoteOf p.value :: (p.value ++ quoteOf p.value :: (']' :: (t.flatMap (predText quoteOf) ++ z)))) =
          p'.key ++ '=' :: (quoteOf p'.value :: (p'.value ++ quoteOf p'.value :: (']' :: t'.flatMap (predText quoteOf)))) := by
        simpa [predText] using hz
      obtain ⟨e3, e4⟩ := split_at hk hk' e2
      simp only [List.cons.injEq] at e4
      obtain ⟨e5, e6⟩ := e4
      rw [e5] at e6 hv
      obtain ⟨e7, e8⟩ := split_at hv hv' e6
      simp only [List.cons.injEq, true_and] at e8
      have := ih (l' := t') (fun q hq => h q (by simp [hq])) (fun q hq => h' q (by simp [hq])) (by simpa using hl) ⟨z, e8⟩
      rw [this]
      congr 1
      cases p; cases p'
      simp only [Pred.mk.injEq]
      exact ⟨e3, e7⟩

theorem step_prefix_list {s s' : Step} (hs : s.Good) (hs' : s'.Good) (hp : s.preds ≠ [])
    (hl : s'.name = s.name → s'.preds.length = s.preds.length) (h : stepText quoteOf s <+: stepText quoteOf s') : s' = s := by
  obtain ⟨z, hz⟩ := h
  cases hsp : s.preds with
  | nil => exact absurd hsp hp
  | cons p t =>
    have hb : '[' ∉ s.name := fun hm => (hs.2.1 _ hm).2.2.2.2.1 rfl
    have hb' : '[' ∉ s'.name := fun hm => (hs'.2.1 _ hm).2.2.2.2.1 rfl
    obtain ⟨y, hy⟩ : ∃ y, (p :: t).flatMap (predText quoteOf) = '[' :: y := ⟨_, by rw [List.flatMap_cons]; rfl⟩
    cases hsp' : s'.preds with
    | nil =>
      exfalso
      simp only [stepText, hsp, hsp', hy, List.flatMap_nil, List.append_nil] at hz
      apply hb'
      rw [← hz]
      simp
    | cons p' t' =>
      obtain ⟨y', hy'⟩ : ∃ y, (p' :: t').flatMap (predText quoteOf) = '[' :: y := ⟨_, by rw [List.flatMap_cons]; rfl⟩
      have hz' : s.name ++ '[' :: (y ++ z) = s'.name ++ '[' :: y' := by
        simp only [stepText, hsp, hsp', hy, hy'] at hz
        simpa using hz
      obtain ⟨e1, e2⟩ := split_at hb hb' hz'
      have e3 : s.preds = s'.preds := by
        refine preds_prefix hs.2.2 hs'.2.2 (hl e1.symm) ?_
        rw [hsp, hsp', hy, hy', ← e2]
        exact ⟨z, rfl⟩
      cases s; cases s'
      simp only at e1 e3
      rw [e1, e3]

end Verif.DbPath
