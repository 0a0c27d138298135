import Verif.DbPathLemmas

/-! # Lemmas: texts determine paths, order of the records, queries -/
namespace Verif.DbPath

/-! ## Texts determine steps -/

theorem split_at {c : Char} {a a' x y : Str} (h : c ∉ a) (h' : c ∉ a') (e : a ++ c :: x = a' ++ c :: y) :
    a = a' ∧ x = y := by
  induction a generalizing a' with
  | nil =>
    cases a' with
    | nil => simpa using e
    | cons d t =>
      simp only [List.nil_append, List.cons_append, List.cons.injEq] at e
      exact absurd (by simp [e.1]) h'
  | cons d t ih =>
    cases a' with
    | nil =>
      simp only [List.nil_append, List.cons_append, List.cons.injEq] at e
      exact absurd (by simp [← e.1]) h
    | cons d' t' =>
      simp only [List.cons_append, List.cons.injEq] at e
      simp only [List.mem_cons, not_or] at h h'
      obtain ⟨h1, h2⟩ := ih h.2 h'.2 e.2
      exact ⟨by rw [e.1, h1], h2⟩

theorem preds_inj {l l' : List Pred}
    (h : ∀ p ∈ l, (∀ c ∈ p.key, NameChar c) ∧ ('\'' ∉ p.value ∨ '"' ∉ p.value))
    (h' : ∀ p ∈ l', (∀ c ∈ p.key, NameChar c) ∧ ('\'' ∉ p.value ∨ '"' ∉ p.value))
    (e : l.flatMap (predText quoteOf) = l'.flatMap (predText quoteOf)) : l = l' := by
  induction l generalizing l' with
  | nil =>
    cases l' with
    | nil => rfl
    | cons p t => simp [predText] at e
  | cons p t ih =>
    cases l' with
    | nil => simp [predText] at e
    | cons p' t' =>
      have hk : '=' ∉ p.key := fun hm => ((h p (by simp)).1 _ hm).2.2.2.2.2 rfl
      have hk' : '=' ∉ p'.key := fun hm => ((h' p' (by simp)).1 _ hm).2.2.2.2.2 rfl
      have hv := quoteOf_not (h p (by simp)).2
      have hv' := quoteOf_not (h' p' (by simp)).2
      have e2 : p.key ++ '=' :: (quoteOf p.value :: (p.value ++ quoteOf p.value :: (']' :: t.flatMap (predText quoteOf)))) =
          p'.key ++ '=' :: (quoteOf p'.value :: (p'.value ++ quoteOf p'.value :: (']' :: t'.flatMap (predText quoteOf)))) := by
        simpa [predText] using e
      obtain ⟨e3, e4⟩ := split_at hk hk' e2
      simp only [List.cons.injEq] at e4
      obtain ⟨e5, e6⟩ := e4
      rw [e5] at e6 hv
      obtain ⟨e7, e8⟩ := split_at hv hv' e6
      simp only [List.cons.injEq, true_and] at e8
      have := ih (fun q hq => h q (by simp [hq])) (fun q hq => h' q (by simp [hq])) e8
      rw [this]
      congr 1
      cases p; cases p'
      simp only [Pred.mk.injEq]
      exact ⟨e3, e7⟩

theorem name_preds {s s' : Step} (f : Str → Char) (h : ∀ c ∈ s.name, NameChar c) (h' : ∀ c ∈ s'.name, NameChar c)
    (e : stepText f s = stepText f s') :
    s.name = s'.name ∧ s.preds.flatMap (predText f) = s'.preds.flatMap (predText f) := by
  have key : ∀ (a a' : Str) (l l' : List Pred), (∀ c ∈ a, NameChar c) → (∀ c ∈ a', NameChar c) →
      a ++ l.flatMap (predText f) = a' ++ l'.flatMap (predText f) →
      a = a' ∧ l.flatMap (predText f) = l'.flatMap (predText f) := by
    intro a
    induction a with
    | nil =>
      intro a' l l' _ h' e
      cases a' with
      | nil => exact ⟨rfl, by simpa using e⟩
      | cons d t =>
        exfalso
        cases l with
        | nil => simp at e
        | cons p l =>
          have : '[' = d := by
            have := congrArg List.head? e
            simpa [predText] using this
          exact (h' d (by simp)).2.2.2.2.1 this.symm
    | cons d t ih =>
      intro a' l l' h h' e
      cases a' with
      | nil =>
        exfalso
        cases l' with
        | nil => simp at e
        | cons p l =>
          have : d = '[' := by
            have := congrArg List.head? e
            simpa [predText] using this
          exact (h d (by simp)).2.2.2.2.1 this
      | cons d' t' =>
        simp only [List.cons_append, List.cons.injEq] at e
        obtain ⟨h1, h2⟩ := ih t' l l' (fun c hc => h c (by simp [hc])) (fun c hc => h' c (by simp [hc])) e.2
        exact ⟨by rw [e.1, h1], h2⟩
  exact key _ _ _ _ h h' e

theorem stepText_inj {s s' : Step} (h : s.Good) (h' : s'.Good) (e : stepText quoteOf s = stepText quoteOf s') : s = s' := by
  obtain ⟨h1, h2⟩ := name_preds quoteOf h.2.1 h'.2.1 e
  have := preds_inj h.2.2 h'.2.2 h2
  cases s; cases s'
  simp_all

/-! ## Texts determine paths -/

theorem modText_prefix {q r : Path} (hq : ∀ s ∈ q, s.Good) (hr : ∀ s ∈ r, s.Good) :
    modText quoteOf q <+: modText quoteOf r ↔ q <+: r := by
  constructor
  · induction q generalizing r with
    | nil => intro _; exact List.nil_prefix
    | cons s q ih =>
      intro h
      cases r with
      | nil =>
        rw [modText_cons] at h
        have := h.length_le
        have h1 := stepText_ne quoteOf (hq s (by simp))
        have : (stepText quoteOf s).length ≠ 0 := fun h' => h1 (List.length_eq_zero_iff.1 h')
        simp [modText] at *
      | cons s' r =>
        rw [modText_cons, modText_cons, List.cons_prefix_cons] at h
        obtain ⟨x, hx⟩ := h.2
        have hm : ∀ p : Path, ∃ y, modText quoteOf p = ' ' :: y := by
          intro p
          cases p with
          | nil => exact ⟨[], rfl⟩
          | cons a b => exact ⟨_, modText_cons _ _ _⟩
        obtain ⟨y, hy⟩ := hm q
        obtain ⟨z, hz⟩ := hm r
        rw [hy, hz] at hx
        have hx' : stepText quoteOf s ++ ' ' :: (y ++ x) = stepText quoteOf s' ++ ' ' :: z := by simpa using hx
        obtain ⟨e1, _, e3⟩ := scan_unique (.inr rfl) (.inr rfl) (closed_good (hq s (by simp))).1
          (closed_good (hr s' (by simp))).1 hx'
        have hs := stepText_inj (hq s (by simp)) (hr s' (by simp)) e1
        rw [hs]
        refine List.cons_prefix_cons.2 ⟨rfl, ih (fun a ha => hq a (by simp [ha])) (fun a ha => hr a (by simp [ha])) ?_⟩
        rw [hy, hz]
        exact ⟨x, by rw [← e3]; simp⟩
  · rintro ⟨t, rfl⟩
    cases t with
    | nil => simp
    | cons a b => exact ⟨stepText quoteOf a ++ modText quoteOf b, by simp [modText]⟩

theorem modText_inj {q r : Path} (hq : ∀ s ∈ q, s.Good) (hr : ∀ s ∈ r, s.Good)
    (e : modText quoteOf q = modText quoteOf r) : q = r := by
  have h1 := (modText_prefix hq hr).1 (by rw [e]; exact List.prefix_refl _)
  have h2 := (modText_prefix hr hq).1 (by rw [e]; exact List.prefix_refl _)
  exact h1.eq_of_length (Nat.le_antisymm h1.length_le h2.length_le)

theorem pathText_inj {q r : Path} (hq : ∀ s ∈ q, s.Good) (hr : ∀ s ∈ r, s.Good)
    (e : pathText q = pathText r) : q = r := by
  refine modText_inj hq hr ?_
  rw [← modif_text _ _ (allClosed hq), ← modif_text _ _ (allClosed hr)]
  exact congrArg modif e

/-! ## Order -/

theorem le_refl (a : Str) : le a a = true := by
  induction a with
  | nil => rfl
  | cons c t ih => simp [le, ih]

theorem le_of_prefix {a b : Str} (h : a <+: b) : le a b = true := by
  induction a generalizing b with
  | nil => rfl
  | cons c t ih =>
    obtain ⟨x, rfl⟩ := h
    simp [le, ih (List.prefix_append t x)]

theorem le_antisymm {a b : Str} (h : le a b = true) (h' : le b a = true) : a = b := by
  induction a generalizing b with
  | nil =>
    cases b with
    | nil => rfl
    | cons d t => simp [le] at h'
  | cons c t ih =>
    cases b with
    | nil => simp [le] at h
    | cons d u =>
      simp only [le, Bool.or_eq_true, Bool.and_eq_true, decide_eq_true_eq] at h h'
      rcases h with h | ⟨rfl, h⟩
      · rcases h' with h' | ⟨rfl, h'⟩
        · omega
        · omega
      · rcases h' with h' | ⟨_, h'⟩
        · omega
        · rw [ih h h']

/-- Everything between a text and a longer one begins with the text. -/
theorem le_between {a b c : Str} (h : le a b = true) (h' : le b c = true) (hp : a <+: c) : a <+: b := by
  induction a generalizing b c with
  | nil => exact List.nil_prefix
  | cons x t ih =>
    obtain ⟨y, rfl⟩ := hp
    cases b with
    | nil => simp [le] at h
    | cons d u =>
      simp only [List.cons_append, le, Bool.or_eq_true, Bool.and_eq_true, decide_eq_true_eq] at h h'
      have hd : x = d := by
        rcases h with h | h
        · rcases h' with h' | h'
          · omega
          · rw [h'.1] at h; omega
        · exact h.1
      subst hd
      have h1 : le t u = true := by
        rcases h with h | h
        · omega
        · exact h.2
      have h2 : le u (t ++ y) = true := by
        rcases h' with h' | h'
        · omega
        · exact h'.2
      exact List.cons_prefix_cons.2 ⟨rfl, ih h1 h2 (List.prefix_append t y)⟩

/-! ## Queries -/

theorem literal_escape (p t : Str) : literal (escape p) t = some (p.isPrefixOf t) := by
  induction p generalizing t with
  | nil => simp [escape, literal, List.isPrefixOf]
  | cons c p ih =>
    unfold escape
    split
    · rename_i h
      have ha : alnum c = false := by
        have e1 : ' '.toNat = 32 := rfl
        have e2 : '/'.toNat = 47 := rfl
        have e3 : ':'.toNat = 58 := rfl
        have e4 : '@'.toNat = 64 := rfl
        have e5 : '['.toNat = 91 := rfl
        have e6 : '`'.toNat = 96 := rfl
        have e7 : '{'.toNat = 123 := rfl
        have e8 : '~'.toNat = 126 := rfl
        rw [e1, e2, e3, e4, e5, e6, e7, e8] at h
        have f1 : '0'.toNat = 48 := rfl
        have f2 : '9'.toNat = 57 := rfl
        have f3 : 'A'.toNat = 65 := rfl
        have f4 : 'Z'.toNat = 90 := rfl
        have f5 : 'a'.toNat = 97 := rfl
        have f6 : 'z'.toNat = 122 := rfl
        unfold alnum
        rw [f1, f2, f3, f4, f5, f6]
        simp only [Bool.or_eq_false_iff, Bool.and_eq_false_iff, decide_eq_false_iff_not]
        omega
      cases t with
      | nil => simp [literal, ha, ih, List.isPrefixOf]
      | cons d t =>
        simp only [literal, ha, ih, List.isPrefixOf, Option.map_some]
        simp [BEq.beq]
    · rename_i h
      have hs : special c = false := by
        cases hc : special c with
        | false => rfl
        | true =>
          exfalso
          apply h
          simp only [special, List.mem_cons, List.not_mem_nil, or_false, decide_eq_true_eq] at hc
          rcases hc with rfl | rfl | rfl | rfl | rfl | rfl | rfl | rfl | rfl | rfl | rfl | rfl | rfl <;> decide
      have hb : c ≠ '\\' := by
        rintro rfl
        exact h (by decide)
      cases t with
      | nil =>
        unfold literal
        split
        · rename_i heq; simp at heq
        · rename_i heq; simp only [List.cons.injEq] at heq; exact absurd heq.1 hb
        · rename_i heq; simp only [List.cons.injEq] at heq; exact absurd heq.1 hb
        · rename_i heq
          simp only [List.cons.injEq] at heq
          obtain ⟨rfl, rfl⟩ := heq
          simp [hs, ih, List.isPrefixOf]
      | cons d t =>
        unfold literal
        split
        · rename_i heq; simp at heq
        · rename_i heq; simp only [List.cons.injEq] at heq; exact absurd heq.1 hb
        · rename_i heq; simp only [List.cons.injEq] at heq; exact absurd heq.1 hb
        · rename_i heq
          simp only [List.cons.injEq] at heq
          obtain ⟨rfl, rfl⟩ := heq
          simp only [hs, ih, List.isPrefixOf, Option.map_some]
          simp [BEq.beq]

theorem begins_iff (p r : Str) : begins p r = true ↔ p <+: r := by
  unfold begins
  rw [literal_escape]
  cases h : p.isPrefixOf r with
  | true => simp [List.isPrefixOf_iff_prefix.1 h]
  | false =>
    have : ¬ p <+: r := fun h' => by rw [List.isPrefixOf_iff_prefix.2 h'] at h; cases h
    simp [this]

/-! ## Prefixes of texts of paths -/

/-- What the beginning of the text of a path means for the path. -/
theorem text_prefix {p r : Path} {s : Step} (hp : ∀ a ∈ p ++ [s], a.Good) (hr : ∀ a ∈ r, a.Good) :
    pathText (p ++ [s]) <+: pathText r ↔
      ∃ s' t, r = p ++ s' :: t ∧ stepText quoteOf s <+: stepText quoteOf s' := by
  induction p generalizing r with
  | nil =>
    constructor
    · intro h
      cases r with
      | nil =>
        have := h.length_le
        simp [pathText, textWith] at this
      | cons s' t =>
        refine ⟨s', t, rfl, ?_⟩
        simp only [pathText, List.nil_append] at h
        rw [textWith_cons, textWith_cons, List.cons_prefix_cons] at h
        have h2 : stepText quoteOf s <+: stepText quoteOf s' ++ textWith quoteOf t := by
          simpa [textWith] using h.2
        cases t with
        | nil => simpa [textWith] using h2
        | cons a b =>
          rw [textWith_cons] at h2
          exact scan_prefix (.inl rfl) (closed_good (hp s (by simp))).1 (closed_good (hr s' (by simp))).1 h2
    · rintro ⟨s', t, rfl, h⟩
      simp only [pathText, List.nil_append]
      rw [textWith_cons, textWith_cons]
      obtain ⟨x, hx⟩ := h
      exact ⟨x ++ textWith quoteOf t, by rw [← hx]; simp [textWith]⟩
  | cons a p ih =>
    constructor
    · intro h
      cases r with
      | nil =>
        have := h.length_le
        simp [pathText, textWith] at this
      | cons b r =>
        simp only [pathText, List.cons_append] at h
        rw [textWith_cons, textWith_cons, List.cons_prefix_cons] at h
        obtain ⟨x, hx⟩ := h.2
        obtain ⟨y, hy⟩ : ∃ y, textWith quoteOf (p ++ [s]) = '/' :: y := by
          cases p with
          | nil => exact ⟨_, textWith_cons _ _ _⟩
          | cons c d => exact ⟨_, textWith_cons _ _ _⟩
        rw [hy] at hx
        have hx' : stepText quoteOf a ++ '/' :: (y ++ x) = stepText quoteOf b ++ textWith quoteOf r := by simpa using hx
        cases r with
        | nil =>
          exfalso
          simp only [textWith, List.flatMap_nil, List.append_nil] at hx'
          have hb := (closed_good (hr b (by simp))).1
          rw [← hx', scan_append, (closed_good (hp a (by simp))).1] at hb
          simp [scan] at hb
        | cons c d =>
          rw [textWith_cons] at hx'
          obtain ⟨e1, _, e3⟩ := scan_unique (.inl rfl) (.inl rfl) (closed_good (hp a (by simp))).1
            (closed_good (hr b (by simp))).1 hx'
          have hab := stepText_inj (hp a (by simp)) (hr b (by simp)) e1
          subst hab
          have : pathText (p ++ [s]) <+: pathText (c :: d) := by
            unfold pathText
            rw [hy, textWith_cons, ← e3]
            exact ⟨x, rfl⟩
          obtain ⟨s', t, e, h'⟩ := (ih (fun z hz => hp z (by simp at hz ⊢; exact .inr hz))
            (fun z hz => hr z (by simp at hz ⊢; exact .inr hz))).1 this
          exact ⟨s', t, by rw [e]; rfl, h'⟩
    · rintro ⟨s', t, rfl, h⟩
      have := (ih (r := p ++ s' :: t) (fun z hz => hp z (by simp at hz ⊢; exact .inr hz))
        (fun z hz => hr z (by simp at hz ⊢; exact .inr hz))).2 ⟨s', t, rfl, h⟩
      simp only [pathText, List.cons_append] at this ⊢
      rw [textWith_cons, textWith_cons, List.cons_prefix_cons]
      refine ⟨rfl, ?_⟩
      obtain ⟨x, hx⟩ := this
      exact ⟨x, by rw [List.append_assoc, hx]⟩

theorem text_of_prefix {p r : Path} (h : p <+: r) : pathText p <+: pathText r := by
  obtain ⟨t, rfl⟩ := h
  unfold pathText
  rw [textWith_append]
  exact List.prefix_append _ _

end Verif.DbPath
