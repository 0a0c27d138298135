import Verif.DbPath

/-! # Lemmas: keys, quotes and texts of paths -/
namespace Verif.DbPath

/-! ## Keys -/

theorem toNat_ofNat {n : Nat} (h : n < 256) : (UInt8.ofNat n).toNat = n := by
  simp [Nat.mod_eq_of_lt h]

theorem keyLen_split {n : Nat} (h : n ≤ 16383) : keyLen (UInt8.ofNat (n >>> 7)) (UInt8.ofNat (n &&& 0x7f)) = n := by
  have h1 : n >>> 7 = n / 128 := by rw [Nat.shiftRight_eq_div_pow]
  have h2 : n &&& 0x7f = n % 128 := Nat.and_two_pow_sub_one_eq_mod n 7
  have h3 : n / 128 < 128 := by omega
  have h4 : n % 128 < 128 := by omega
  unfold keyLen charToU32
  rw [h1, h2, toNat_ofNat (by omega), toNat_ofNat (by omega), if_pos h3, if_pos h4]
  rw [Nat.shiftLeft_eq]
  have : n / 128 * 2 ^ 7 % 2 ^ 32 = n / 128 * 2 ^ 7 := Nat.mod_eq_of_lt (by omega)
  rw [this, Nat.mul_comm, ← Nat.two_pow_add_eq_or_of_lt (show n % 128 < 2 ^ 7 by omega)]
  omega

theorem addKeys_some (ks : List (List UInt8)) (buf out : List UInt8) (h : addKeys ks buf = some out) :
    ∃ tail, out = buf ++ tail ∧ ∀ junk, parseLoop ks.length (tail ++ junk) = some ks := by
  induction ks generalizing buf with
  | nil =>
    refine ⟨[], ?_, fun _ => rfl⟩
    have := Option.some.inj h
    simp [this]
  | cons k ks ih =>
    unfold addKeys at h
    split at h
    · cases h
    · rename_i hk
      obtain ⟨tail, h1, h2⟩ := ih _ h
      refine ⟨UInt8.ofNat (k.length >>> 7) :: UInt8.ofNat (k.length &&& 0x7f) :: (k ++ tail), ?_, ?_⟩
      · rw [h1]; simp
      · intro junk
        have hl := keyLen_split (n := k.length) (by omega)
        simp only [List.length_cons, List.cons_append, parseLoop, hl]
        rw [if_neg (by simp)]
        rw [List.append_assoc, List.drop_left, List.take_left, h2]
        rfl

theorem addKeys_none (ks : List (List UInt8)) (buf : List UInt8) :
    addKeys ks buf = none ↔ ∃ k ∈ ks, k.length > 16383 := by
  induction ks generalizing buf with
  | nil => simp [addKeys]
  | cons k ks ih =>
    unfold addKeys
    split
    · rename_i h; simp [h]
    · rename_i h
      rw [ih]
      simp only [List.mem_cons, exists_eq_or_imp]
      constructor
      · intro h'; exact .inr h'
      · rintro (h' | h')
        · exact absurd h' h
        · exact h'

/-! ## Scanning -/

/-- The quotes after a character. -/
def qnext (st : Bool × Bool) (c : Char) : Bool × Bool :=
  if c = '\'' then (if st.1 then false else if st.2 then st.1 else true, st.2)
  else if c = '"' then (st.1, if st.2 then false else if st.1 then st.2 else true)
  else st

/-- Go through a text without a slash or space outside of strings. -/
def scan : Bool × Bool → Str → Option (Bool × Bool)
  | st, [] => some st
  | st, c :: t => if (c = '/' ∨ c = ' ') ∧ st = (false, false) then none else scan (qnext st c) t

theorem scan_append (st : Bool × Bool) (a b : Str) : scan st (a ++ b) = (scan st a).bind (scan · b) := by
  induction a generalizing st with
  | nil => rfl
  | cons c t ih =>
    simp only [List.cons_append, scan]
    split
    · rfl
    · exact ih _

theorem qnext_name {c : Char} (h : NameChar c) (st : Bool × Bool) : qnext st c = st := by
  obtain ⟨_, h1, h2, _⟩ := h
  simp [qnext, h1, h2]

theorem scan_name {w : Str} (h : ∀ c ∈ w, NameChar c) (st : Bool × Bool) : scan st w = some st := by
  induction w generalizing st with
  | nil => rfl
  | cons c t ih =>
    have hc := h c (by simp)
    simp only [scan]
    rw [if_neg, qnext_name hc]
    · exact ih (fun c hc => h c (by simp [hc])) st
    · rintro ⟨h1 | h1, _⟩
      · exact hc.1 h1
      · exact hc.2.2.2.1 h1

theorem scan_single {w : Str} (h : '\'' ∉ w) : scan (true, false) w = some (true, false) := by
  induction w with
  | nil => rfl
  | cons c t ih =>
    simp only [List.mem_cons, not_or] at h
    have hc : qnext (true, false) c = (true, false) := by
      simp only [qnext, if_neg (Ne.symm h.1)]
      split <;> rfl
    simp only [scan]
    rw [if_neg (by simp), hc]
    exact ih h.2

theorem scan_double {w : Str} (h : '"' ∉ w) : scan (false, true) w = some (false, true) := by
  induction w with
  | nil => rfl
  | cons c t ih =>
    simp only [List.mem_cons, not_or] at h
    have hc : qnext (false, true) c = (false, true) := by
      simp only [qnext, if_neg (Ne.symm h.1)]
      split <;> rfl
    simp only [scan]
    rw [if_neg (by simp), hc]
    exact ih h.2

/-- A string in quotes. -/
theorem scan_quoted {q : Char} {v : Str} (hq : q = '\'' ∨ q = '"') (hv : q ∉ v) :
    scan (false, false) (q :: (v ++ [q])) = some (false, false) := by
  rcases hq with rfl | rfl
  · show scan (true, false) (v ++ ['\'']) = _
    rw [scan_append, scan_single hv]; rfl
  · show scan (false, true) (v ++ ['"']) = _
    rw [scan_append, scan_double hv]; rfl

/-- A text without a slash or space outside of strings and with closed strings, from both ends. -/
def Closed (w : Str) : Prop :=
  scan (false, false) w = some (false, false) ∧ scan (false, false) w.reverse = some (false, false)

theorem closed_nil : Closed [] := ⟨rfl, rfl⟩

theorem Closed.append {a b : Str} (ha : Closed a) (hb : Closed b) : Closed (a ++ b) := by
  constructor
  · rw [scan_append, ha.1]; exact hb.1
  · rw [List.reverse_append, scan_append, hb.2]; exact ha.2

theorem closed_name {w : Str} (h : ∀ c ∈ w, NameChar c) : Closed w :=
  ⟨scan_name h _, scan_name (fun c hc => h c (List.mem_reverse.1 hc)) _⟩

theorem closed_quoted {q : Char} {v : Str} (hq : q = '\'' ∨ q = '"') (hv : q ∉ v) : Closed (q :: (v ++ [q])) := by
  refine ⟨scan_quoted hq hv, ?_⟩
  have : (q :: (v ++ [q])).reverse = q :: (v.reverse ++ [q]) := by simp
  rw [this]
  exact scan_quoted hq (fun h => hv (List.mem_reverse.1 h))

theorem closed_flatMap {α : Type} (l : List α) (f : α → Str) (h : ∀ a ∈ l, Closed (f a)) : Closed (l.flatMap f) := by
  induction l with
  | nil => exact closed_nil
  | cons a t ih =>
    rw [List.flatMap_cons]
    exact (h a (by simp)).append (ih fun b hb => h b (by simp [hb]))

/-- What the quotes chosen have to be. -/
def Quotes (f : Str → Char) (p : Path) : Prop :=
  (∀ v, f v = '\'' ∨ f v = '"') ∧ ∀ s ∈ p, ∀ q ∈ s.preds, f q.value ∉ q.value

theorem closed_pred {f : Str → Char} {p : Pred} (hf : ∀ v, f v = '\'' ∨ f v = '"') (hk : ∀ c ∈ p.key, NameChar c)
    (hv : f p.value ∉ p.value) : Closed (predText f p) := by
  have : predText f p = ['['] ++ (p.key ++ (['='] ++ ((f p.value :: (p.value ++ [f p.value])) ++ [']']))) := by
    simp [predText]
  rw [this]
  exact Closed.append ⟨by decide, by decide⟩ ((closed_name hk).append (Closed.append ⟨by decide, by decide⟩
    ((closed_quoted (hf _) hv).append ⟨by decide, by decide⟩)))

theorem closed_step {f : Str → Char} {s : Step} (hf : ∀ v, f v = '\'' ∨ f v = '"') (hg : s.Good)
    (hq : ∀ q ∈ s.preds, f q.value ∉ q.value) : Closed (stepText f s) := by
  refine (closed_name hg.2.1).append (closed_flatMap _ _ fun p hp => ?_)
  exact closed_pred hf (hg.2.2 p hp).1 (hq p hp)

theorem quoteOf_cases (v : Str) : quoteOf v = '\'' ∨ quoteOf v = '"' := by
  unfold quoteOf; split <;> simp

theorem quoteOf_not {v : Str} (h : '\'' ∉ v ∨ '"' ∉ v) : quoteOf v ∉ v := by
  unfold quoteOf
  split
  · rename_i h'
    rcases h with h | h
    · exact absurd h' h
    · exact h
  · assumption

theorem closed_good {s : Step} (h : s.Good) : Closed (stepText quoteOf s) :=
  closed_step quoteOf_cases h fun p hp => quoteOf_not (h.2.2 p hp).2

theorem stepText_ne (f : Str → Char) {s : Step} (h : s.Good) : stepText f s ≠ [] := by
  intro h'
  exact h.1 (List.append_eq_nil_iff.1 h').1

/-- The first separator outside of strings is where it is. -/
theorem scan_unique {st : Bool × Bool} {w w' x y : Str} {c c' : Char} (hc : c = '/' ∨ c = ' ') (hc' : c' = '/' ∨ c' = ' ')
    (h : scan st w = some (false, false)) (h' : scan st w' = some (false, false)) (e : w ++ c :: x = w' ++ c' :: y) :
    w = w' ∧ c = c' ∧ x = y := by
  induction w generalizing st w' with
  | nil =>
    have hst : st = (false, false) := Option.some.inj h
    cases w' with
    | nil => simp at e; exact ⟨rfl, e⟩
    | cons d t =>
      simp only [List.nil_append, List.cons_append, List.cons.injEq] at e
      rw [← e.1] at h'
      simp [scan, hc, hst] at h'
  | cons d t ih =>
    cases w' with
    | nil =>
      have hst : st = (false, false) := Option.some.inj h'
      simp only [List.nil_append, List.cons_append, List.cons.injEq] at e
      rw [e.1] at h
      simp [scan, hc', hst] at h
    | cons d' t' =>
      simp only [List.cons_append, List.cons.injEq] at e
      obtain ⟨e1, e2⟩ := e
      subst e1
      unfold scan at h h'
      split at h
      · cases h
      · rename_i hn
        rw [if_neg hn] at h'
        obtain ⟨a, b⟩ := ih h h' e2
        exact ⟨by rw [a], b⟩

/-- A closed text that begins another closed text followed by a slash or nothing. -/
theorem scan_prefix {st : Bool × Bool} {w w' x : Str} {c : Char} (hc : c = '/' ∨ c = ' ')
    (h : scan st w = some (false, false)) (h' : scan st w' = some (false, false)) (e : w <+: w' ++ c :: x) :
    w <+: w' := by
  induction w generalizing st w' with
  | nil => exact List.nil_prefix
  | cons d t ih =>
    cases w' with
    | nil =>
      have hst : st = (false, false) := Option.some.inj h'
      rw [List.nil_append, List.cons_prefix_cons] at e
      rw [e.1] at h
      simp [scan, hc, hst] at h
    | cons d' t' =>
      rw [List.cons_append, List.cons_prefix_cons] at e
      obtain ⟨e1, e2⟩ := e
      subst e1
      unfold scan at h h'
      split at h
      · cases h
      · rename_i hn
        rw [if_neg hn] at h'
        exact List.cons_prefix_cons.2 ⟨rfl, ih h h' e2⟩

/-! ## Tokens -/

theorem token_closed_aux (sq dq : Bool) (w x : Str) (h : scan (sq, dq) w = some (false, false)) :
    token sq dq (w ++ '/' :: x) = some (w, x) := by
  induction w generalizing sq dq with
  | nil =>
    have hst := Option.some.inj h
    simp only [Prod.mk.injEq] at hst
    simp [token, hst.1, hst.2]
  | cons c t ih =>
    unfold scan at h
    split at h
    · cases h
    · rename_i hn
      simp only [List.cons_append, token]
      by_cases h1 : c = '\''
      · simp only [qnext, if_pos h1] at h
        rw [if_pos h1, ih _ _ h]
        rfl
      · by_cases h2 : c = '"'
        · simp only [qnext, if_neg h1, if_pos h2] at h
          rw [if_neg h1, if_pos h2, ih _ _ h]
          rfl
        · simp only [qnext, if_neg h1, if_neg h2] at h
          rw [if_neg h1, if_neg h2, if_neg, ih _ _ h]
          · rfl
          · rintro ⟨a, b, c'⟩
            exact hn ⟨.inl a, by rw [b, c']⟩

theorem token_none_aux (sq dq : Bool) (w : Str) (h : scan (sq, dq) w = some (false, false)) :
    token sq dq w = none ∧ token sq dq (w ++ [' ']) = none := by
  induction w generalizing sq dq with
  | nil =>
    have hst := Option.some.inj h
    simp only [Prod.mk.injEq] at hst
    simp [token, hst.1, hst.2]
  | cons c t ih =>
    unfold scan at h
    split at h
    · cases h
    · rename_i hn
      simp only [List.cons_append, token]
      by_cases h1 : c = '\''
      · simp only [qnext, if_pos h1] at h
        rw [if_pos h1, if_pos h1, (ih _ _ h).1, (ih _ _ h).2]
        simp
      · by_cases h2 : c = '"'
        · simp only [qnext, if_neg h1, if_pos h2] at h
          rw [if_neg h1, if_pos h2, if_neg h1, if_pos h2, (ih _ _ h).1, (ih _ _ h).2]
          simp
        · simp only [qnext, if_neg h1, if_neg h2] at h
          rw [if_neg h1, if_neg h2, if_neg h1, if_neg h2]
          have hx : ¬ (c = '/' ∧ sq = false ∧ dq = false) := by
            rintro ⟨a, b, c'⟩
            exact hn ⟨.inl a, by rw [b, c']⟩
          rw [if_neg hx, if_neg hx, (ih _ _ h).1, (ih _ _ h).2]
          simp

theorem token_closed {w : Str} (h : Closed w) (x : Str) : token false false (w ++ '/' :: x) = some (w, x) :=
  token_closed_aux _ _ _ _ h.1

theorem token_none {w : Str} (h : Closed w) : token false false w = none := (token_none_aux _ _ _ h.1).1

theorem token_space {w : Str} (h : Closed w) : token false false (w ++ [' ']) = none := (token_none_aux _ _ _ h.1).2

/-- All steps are closed texts. -/
def AllClosed (f : Str → Char) (p : Path) : Prop := ∀ s ∈ p, Closed (stepText f s)

theorem allClosed {p : Path} (h : ∀ s ∈ p, s.Good) : AllClosed quoteOf p := fun s hs => closed_good (h s hs)

theorem textWith_cons (f : Str → Char) (s : Step) (p : Path) : textWith f (s :: p) = '/' :: (stepText f s ++ textWith f p) := by
  simp [textWith]

theorem textWith_append (f : Str → Char) (p q : Path) : textWith f (p ++ q) = textWith f p ++ textWith f q := by
  simp [textWith]

/-- What follows a step: nothing or a slash. -/
theorem token_text (f : Str → Char) (w : Str) (hw : Closed w) (p : Path) :
    token false false (w ++ textWith f p) = match p with
      | [] => none
      | s :: q => some (w, stepText f s ++ textWith f q) := by
  cases p with
  | nil => simpa [textWith] using token_none hw
  | cons s q =>
    rw [textWith_cons]
    exact token_closed hw _

theorem depthLoop_text (f : Str → Char) (p : Path) (w : Str) (hw : Closed w) (h : AllClosed f p) (n : Nat)
    (hn : p.length < n) : depthLoop n (w ++ textWith f p) = p.length := by
  induction p generalizing w n with
  | nil =>
    cases n with
    | zero => omega
    | succ n => simp only [depthLoop, token_text f w hw]; rfl
  | cons s q ih =>
    cases n with
    | zero => omega
    | succ n =>
      simp only [depthLoop, token_text f w hw]
      rw [ih _ (h s (by simp)) (fun s hs => h s (by simp [hs])) n (by simp at hn; omega)]
      simp; omega

theorem textWith_length (f : Str → Char) (p : Path) : p.length ≤ (textWith f p).length := by
  induction p with
  | nil => simp
  | cons s q ih => rw [textWith_cons]; simp; omega

theorem depth_text (f : Str → Char) (p : Path) (h : AllClosed f p) : depth (textWith f p) = p.length := by
  have := depthLoop_text f p [] closed_nil h ((textWith f p).length + 1) (by have := textWith_length f p; omega)
  simpa [depth] using this

theorem parentText_text (f : Str → Char) (p : Path) (s : Step) (h : AllClosed f (p ++ [s])) :
    parentText (textWith f (p ++ [s])) = some (textWith f p) := by
  have hs := h s (by simp)
  have hc : Closed (stepText f s).reverse := ⟨hs.2, by rw [List.reverse_reverse]; exact hs.1⟩
  have : (textWith f (p ++ [s])).reverse = (stepText f s).reverse ++ '/' :: (textWith f p).reverse := by
    simp [textWith]
  simp [parentText, this, token_closed hc]

/-- `path_modif` of a path. -/
def modText (f : Str → Char) (p : Path) : Str := (p.flatMap fun s => ' ' :: stepText f s) ++ [' ']

theorem modText_cons (f : Str → Char) (s : Step) (p : Path) : modText f (s :: p) = ' ' :: (stepText f s ++ modText f p) := by
  simp [modText]

theorem modifLoop_text (f : Str → Char) (p : Path) (w : Str) (hw : Closed w) (h : AllClosed f p) (n : Nat)
    (hn : p.length < n) : modifLoop n (w ++ textWith f p ++ [' ']) = w ++ modText f p := by
  induction p generalizing w n with
  | nil =>
    cases n with
    | zero => omega
    | succ n =>
      have : token false false (w ++ textWith f [] ++ [' ']) = none := by
        simpa [textWith] using token_space hw
      simp only [modifLoop, this]
      simp [textWith, modText]
  | cons s q ih =>
    cases n with
    | zero => omega
    | succ n =>
      have : token false false (w ++ textWith f (s :: q) ++ [' ']) = some (w, stepText f s ++ textWith f q ++ [' ']) := by
        rw [textWith_cons]
        have := token_closed hw (stepText f s ++ textWith f q ++ [' '])
        simpa using this
      simp only [modifLoop, this]
      rw [ih _ (h s (by simp)) (fun s hs => h s (by simp [hs])) n (by simp at hn; omega), modText_cons]

theorem modif_text (f : Str → Char) (p : Path) (h : AllClosed f p) : modif (textWith f p) = modText f p := by
  have := modifLoop_text f p [] closed_nil h ((textWith f p).length + 2) (by have := textWith_length f p; omega)
  simpa [modif] using this

end Verif.DbPath
