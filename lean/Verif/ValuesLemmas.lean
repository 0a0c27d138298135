import Verif.Values
/-! Lemmas on rounding and texts of numbers. -/
namespace Verif.Values

/-! ## Rounding -/

theorem roundDiv_near {a b : Nat} (hb : 0 < b) : 2 * a ≤ 2 * (roundDiv a b * b) + b ∧ 2 * (roundDiv a b * b) ≤ 2 * a + b := by
  have h1 := Nat.div_add_mod a b
  have h2 := Nat.mod_lt a hb
  have h3 : (a / b + 1) * b = a / b * b + b := by rw [Nat.add_mul, Nat.one_mul]
  have h4 : b * (a / b) = a / b * b := Nat.mul_comm _ _
  unfold roundDiv
  repeat' split
  all_goals (try rw [h3]); omega

theorem roundDiv_eq {a b p : Nat} (h1 : 2 * a < 2 * (p * b) + b) (h2 : 2 * (p * b) < 2 * a + b) : roundDiv a b = p := by
  have hb : 0 < b := by omega
  obtain ⟨n1, n2⟩ := roundDiv_near (a := a) hb
  generalize roundDiv a b = k at *
  rcases Nat.lt_trichotomy k p with h | h | h
  · have : (k + 1) * b ≤ p * b := Nat.mul_le_mul_right b h
    rw [Nat.add_mul, Nat.one_mul] at this; omega
  · exact h
  · have : (p + 1) * b ≤ k * b := Nat.mul_le_mul_right b h
    rw [Nat.add_mul, Nat.one_mul] at this; omega

theorem roundDiv_zero {b : Nat} (hb : 0 < b) : roundDiv 0 b = 0 := roundDiv_eq (by omega) (by omega)

theorem one_pos : 0 < one := Nat.pow_pos (by decide)

theorem nearest_zero {q : Nat} (hq : 0 < q) : nearest 0 q = 0 := by
  unfold nearest
  rw [Nat.zero_mul, roundDiv_zero (Nat.mul_pos hq (Nat.pow_pos (by decide))), Nat.zero_mul]

/-- A number below 2^52 survives being a double. -/
theorem round_nearest {p q : Nat} (hq : 0 < q) (hq2 : q ≤ 2 ^ 60) (hp : p < 2 ^ 52) :
    roundDiv (nearest p q * q) one = p := by
  rcases Nat.eq_zero_or_pos p with rfl | hp0
  · rw [nearest_zero hq, Nat.zero_mul]; exact roundDiv_zero one_pos
  have hone : (2 : Nat) ^ 1074 = 2 ^ 52 * (2 ^ 60 * 2 ^ 962) := by rw [← Nat.pow_add, ← Nat.pow_add]
  have hdiv : 2 ^ 52 ≤ p * one / q := by
    rw [Nat.le_div_iff_mul_le hq]
    calc 2 ^ 52 * q ≤ 2 ^ 52 * 2 ^ 60 := Nat.mul_le_mul_left _ hq2
      _ ≤ 2 ^ 52 * (2 ^ 60 * 2 ^ 962) := Nat.mul_le_mul_left _ (Nat.le_mul_of_pos_right _ (Nat.pow_pos (by decide)))
      _ = one := hone.symm
      _ ≤ p * one := Nat.le_mul_of_pos_left _ hp0
  have hne : p * one / q ≠ 0 := by
    have : 0 < 2 ^ 52 := Nat.pow_pos (by decide)
    omega
  have hL : 52 ≤ Nat.log2 (p * one / q) := (Nat.le_log2 hne).2 hdiv
  have hself : 2 ^ Nat.log2 (p * one / q) ≤ p * one / q := Nat.log2_self_le hne
  -- the unit of the last digit
  have hu : q * 2 ^ (Nat.log2 (p * one / q) - 52) * 2 ^ 52 ≤ p * one := by
    rw [Nat.mul_assoc, ← Nat.pow_add, show Nat.log2 (p * one / q) - 52 + 52 = Nat.log2 (p * one / q) by omega]
    calc q * 2 ^ Nat.log2 (p * one / q) ≤ q * (p * one / q) := Nat.mul_le_mul_left _ hself
      _ ≤ p * one := Nat.mul_div_le _ _
  have hupos : 0 < q * 2 ^ (Nat.log2 (p * one / q) - 52) := Nat.mul_pos hq (Nat.pow_pos (by decide))
  unfold nearest
  generalize 2 ^ (Nat.log2 (p * one / q) - 52) = u at *
  obtain ⟨n1, n2⟩ := roundDiv_near (a := p * one) hupos
  have hlt : q * u < one := by
    have h1 : p * one < 2 ^ 52 * one := Nat.mul_lt_mul_of_pos_right hp one_pos
    have h2 : q * u * 2 ^ 52 < one * 2 ^ 52 := by rw [Nat.mul_comm one]; omega
    exact Nat.lt_of_mul_lt_mul_right h2
  have e : roundDiv (p * one) (q * u) * u * q = roundDiv (p * one) (q * u) * (q * u) := by
    rw [Nat.mul_assoc, Nat.mul_comm u q]
  apply roundDiv_eq <;> rw [e] <;> omega

/-! ## Digits -/

theorem frac_length (k r : Nat) : (frac k r).length = k := by
  induction k generalizing r with
  | zero => rfl
  | succ k ih => simp [frac, ih]

theorem frac_digit {k r : Nat} {c : Char} (h : c ∈ frac k r) : c.isDigit = true := by
  induction k generalizing r with
  | zero => simp [frac] at h
  | succ k ih =>
    simp only [frac, List.mem_append, List.mem_singleton] at h
    rcases h with h | rfl
    · exact ih h
    · have : ∀ a : Fin 10, (Nat.digitChar a.1).isDigit = true := by decide +kernel
      exact this ⟨r % 10, Nat.mod_lt _ (by decide)⟩

theorem ofDigitChars_append (b : Nat) (l m : Str) (i : Nat) : Nat.ofDigitChars b (l ++ m) i = Nat.ofDigitChars b m (Nat.ofDigitChars b l i) := by
  induction l generalizing i with
  | nil => simp
  | cons c l ih => rw [List.cons_append, Nat.ofDigitChars_cons, Nat.ofDigitChars_cons, ih]

theorem frac_value {k r : Nat} (h : r < 10 ^ k) : Nat.ofDigitChars 10 (frac k r) 0 = r := by
  induction k generalizing r with
  | zero => simp at h; simp [frac, h]
  | succ k ih =>
    rw [frac, ofDigitChars_append, ih (by rw [Nat.pow_succ] at h; omega), Nat.ofDigitChars_cons_digitChar_of_lt_ten (Nat.mod_lt _ (by decide))]
    simp; omega

theorem digits_all (n : Nat) : (Nat.toDigits 10 n).all Char.isDigit = true := by
  rw [List.all_eq_true]; intro c hc; exact Nat.isDigit_of_mem_toDigits (by decide) (by decide) hc

theorem natOf_digits (n : Nat) : natOf (Nat.toDigits 10 n) = some n := by
  rw [natOf, if_pos ⟨Nat.toDigits_ne_nil, digits_all n⟩, Nat.ofDigitChars_ten_toDigits]

theorem natOf_frac {k r : Nat} (hk : 1 ≤ k) (h : r < 10 ^ k) : natOf (frac k r) = some r := by
  rw [natOf, if_pos, frac_value h]
  refine ⟨?_, ?_⟩
  · intro e; have := frac_length k r; rw [e] at this; simp at this; omega
  · rw [List.all_eq_true]; intro c hc; exact frac_digit hc

theorem digit_ne {c d : Char} (h : c.isDigit = true) (hd : d.isDigit = false) : c ≠ d := by
  intro e; subst e; simp [h] at hd

theorem split_dot {l f : Str} (h : ∀ c ∈ l, c ≠ '.') :
    (l ++ '.' :: f).dropWhile (fun c => c ≠ '.') = '.' :: f ∧ (l ++ '.' :: f).takeWhile (fun c => c ≠ '.') = l := by
  induction l with
  | nil => simp
  | cons c l ih =>
    have hc : c ≠ '.' := h c (by simp)
    have := ih (fun c hc => h c (by simp [hc]))
    simp only [List.cons_append, List.dropWhile_cons, List.takeWhile_cons, hc, ne_eq, not_false_eq_true, decide_true, if_true]
    exact ⟨this.1, by rw [this.2]⟩

theorem parseDecAbs_fixed {fd N : Nat} (h : 1 ≤ fd) : parseDecAbs fd (fixed fd N) = some N := by
  have hs := split_dot (l := Nat.toDigits 10 (N / 10 ^ fd)) (f := frac fd (N % 10 ^ fd))
    (fun c hc => digit_ne (Nat.isDigit_of_mem_toDigits (by decide) (by decide) hc) (by decide))
  have hm : N % 10 ^ fd < 10 ^ fd := Nat.mod_lt _ (Nat.pow_pos (by decide))
  rw [parseDecAbs, fixed, hs.1]
  simp only [frac_length, Nat.le_refl, if_true, hs.2, natOf_digits, natOf_frac h hm, Nat.sub_self, Nat.pow_zero, Nat.mul_one]
  rw [Nat.mul_comm, Nat.div_add_mod]

theorem fixed_head {fd N : Nat} : ∃ c t, fixed fd N = c :: t ∧ c ≠ '-' := by
  unfold fixed
  cases h : Nat.toDigits 10 (N / 10 ^ fd) with
  | nil => exact absurd h Nat.toDigits_ne_nil
  | cons c t => exact ⟨c, _, rfl, digit_ne (Nat.isDigit_of_mem_toDigits (b := 10) (n := N / 10 ^ fd) (by decide) (by decide) (by rw [h]; simp)) (by decide)⟩

theorem parseSign_pos {fd N : Nat} (h : 1 ≤ fd) : parseSign fd (fixed fd N) = some (N : Int) := by
  obtain ⟨c, t, e, hc⟩ := fixed_head (fd := fd) (N := N)
  have := parseDecAbs_fixed (N := N) h
  unfold parseSign
  split
  · rename_i heq; rw [e] at heq; simp only [List.cons.injEq] at heq; exact absurd heq.1 hc
  · rw [this]; rfl

theorem parseDec_pos {fd N : Nat} (h : 1 ≤ fd) (hr : N ≤ 9223372036854775807) : parseDec fd (fixed fd N) = some (N : Int) := by
  unfold parseDec
  rw [parseSign_pos h]
  dsimp only
  rw [if_pos]; omega

theorem parseDec_neg {fd N : Nat} (h : 1 ≤ fd) (hr : N ≤ 9223372036854775808) : parseDec fd ('-' :: fixed fd N) = some (-(N : Int)) := by
  unfold parseDec
  simp only [parseSign, parseDecAbs_fixed h, Option.map_some]
  rw [if_pos]; omega

theorem parseInt_fmt (v : Int) : parseInt (fmtInt v) = some v := by
  unfold fmtInt
  split
  · simp only [parseInt, natOf_digits, Option.map_some]; congr 1; omega
  · cases h : Nat.toDigits 10 v.natAbs with
    | nil => exact absurd h Nat.toDigits_ne_nil
    | cons c t =>
      have hc : c ≠ '-' := digit_ne (Nat.isDigit_of_mem_toDigits (b := 10) (n := v.natAbs) (by decide) (by decide) (by rw [h]; simp)) (by decide)
      unfold parseInt
      split
      · rename_i heq; simp only [List.cons.injEq] at heq; exact absurd heq.1 hc
      · rw [← h, natOf_digits]; simp; omega

theorem digits_length_le {n k : Nat} (hk : 0 < k) (h : n < 10 ^ k) : (Nat.toDigits 10 n).length ≤ k :=
  (Nat.length_toDigits_le_iff (by decide) hk).2 h

theorem digits_length_ge {n k : Nat} (hk : 0 < k) (h : 10 ^ k ≤ n) : k + 1 ≤ (Nat.toDigits 10 n).length := by
  have := mt (Nat.length_toDigits_le_iff (b := 10) (n := n) (by decide) hk).1 (by omega)
  omega

theorem fixed_length (fd N : Nat) : (fixed fd N).length = (Nat.toDigits 10 (N / 10 ^ fd)).length + 1 + fd := by
  simp [fixed, frac_length]; omega

theorem fmtInt_length {v : Int} (h : -9223372036854775808 ≤ v ∧ v ≤ 18446744073709551615) : (fmtInt v).length ≤ 20 := by
  unfold fmtInt
  split
  · have := digits_length_le (n := v.natAbs) (k := 19) (by decide) (by omega)
    simp; omega
  · exact digits_length_le (by decide) (by omega)

end Verif.Values
