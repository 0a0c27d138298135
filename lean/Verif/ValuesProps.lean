import Verif.ValuesLemmas
/-!
# Properties of the values of leaves (C105)

`setItem L t (ly2sr v)` is what a leaf of type `t` with the value `v` has after its value was read
with `sr_get_item()` and written back with `sr_set_item()`.
-/
namespace Verif.Values

/-! ## Decimal numbers -/

theorem fmt_strtod {fd : Nat} {n : Int} (hfd : fd ≤ 18) (hn : n.natAbs < 2 ^ 52) :
    fmtF fd (strtod fd n) = if n < 0 then '-' :: fixed fd n.natAbs else fixed fd n.natAbs := by
  have hq : 0 < 10 ^ fd := Nat.pow_pos (by decide)
  have hq2 : 10 ^ fd ≤ 2 ^ 60 := Nat.le_trans (Nat.pow_le_pow_right (by decide) hfd) (by decide)
  have hr := round_nearest hq hq2 hn
  unfold strtod fmtF
  by_cases h : n < 0
  · rw [if_pos h, if_pos h]
    have hpos : 0 < nearest n.natAbs (10 ^ fd) := by
      rcases Nat.eq_zero_or_pos (nearest n.natAbs (10 ^ fd)) with e | e
      · rw [e, Nat.zero_mul, roundDiv_zero one_pos] at hr; omega
      · exact e
    generalize nearest n.natAbs (10 ^ fd) = k at *
    rw [if_pos (show (-(k : Int)) < 0 by omega), Int.natAbs_neg, Int.natAbs_natCast, hr]
  · generalize nearest n.natAbs (10 ^ fd) = k at *
    rw [if_neg h, if_neg h, if_neg (show ¬ (k : Int) < 0 by omega), Int.natAbs_natCast, hr]

/-- The text of a decimal64 with a value below 2^52 is read as that value, and fits the buffer. -/
theorem dec_text {fd : Nat} {n : Int} (h1 : 1 ≤ fd) (h2 : fd ≤ 18) (hn : n.natAbs < 2 ^ 52) :
    parseDec fd (fmtF fd (strtod fd n)) = some n ∧ (fmtF fd (strtod fd n)).length ≤ 21 := by
  rw [fmt_strtod h2 hn]
  have hp : (2 : Nat) ^ 52 ≤ 9223372036854775807 := by decide
  have hl : (Nat.toDigits 10 (n.natAbs / 10 ^ fd)).length ≤ 19 - fd := by
    apply digits_length_le (by omega)
    rw [Nat.div_lt_iff_lt_mul (Nat.pow_pos (by decide)), ← Nat.pow_add, show 19 - fd + fd = 19 by omega]
    exact Nat.lt_trans hn (by decide)
  have hlen := fixed_length fd n.natAbs
  by_cases h : n < 0
  · rw [if_pos h]
    refine ⟨?_, by simp only [List.length_cons]; omega⟩
    rw [parseDec_neg h1 (by omega)]; congr 1; omega
  · rw [if_neg h]
    refine ⟨?_, by omega⟩
    rw [parseDec_pos h1 (by omega)]; congr 1; omega

/-- **C105** (decimal numbers). A decimal64 value below 2^52 (not counting the decimal point; about
    15 digits) that is read with `sr_get_item()` and written back with `sr_set_item()` is not
    changed, and reading it again gives the same double. -/
theorem decimal_exact (L : Lib) {fd : Nat} {n : Int} (h1 : 1 ≤ fd) (h2 : fd ≤ 18) (hn : n.natAbs < 2 ^ 52) :
    setItem L (.dec fd) (ly2sr (.dec fd n)) = some (.dec fd n) := by
  obtain ⟨hp, hl⟩ := dec_text h1 h2 hn
  simp only [setItem, ly2sr, sr2lyStr, findDec, deref, toBuf]
  rw [if_pos (by omega)]
  simp [parse, hp]

example : setItem (fun _ _ s => some s) (.dec 2) (ly2sr (.dec 2 (-12345))) = some (.dec 2 (-12345)) :=
  decimal_exact _ (by decide) (by decide) (by decide)

/-- **C105 violated** (decimal numbers). With more digits it is changed: 9.000000000000000001 read
    and written back is 9. (The header of sysrepo warns of it.) -/
theorem decimal_changed (L : Lib) :
    setItem L (.dec 18) (ly2sr (.dec 18 9000000000000000001)) = some (.dec 18 9000000000000000000) := by
  have h : ly2sr (.dec 18 9000000000000000001) = .dec (9 * 2 ^ 1074) := by decide +kernel
  have h2 : fmtF 18 (9 * 2 ^ 1074) = "9.000000000000000000".toList := by decide +kernel
  rw [h, setItem, sr2lyStr]
  have h3 : parseDec 18 "9.000000000000000000".toList = some 9000000000000000000 := by decide +kernel
  simp only [findDec, deref, h2, toBuf]
  rw [if_pos (by decide)]
  simp only [parse, h3, Option.map_some]

/-! ## All types -/

theorem deref_parse (L : Lib) (t : Ty) (s : Str) : parse L t s = parse L (deref t) s := by
  fun_induction deref t with
  | case1 t ih => rw [parse, ih]
  | case2 t h => rfl

theorem findDec_deref (t : Ty) : findDec t = findDec (deref t) := by
  have : deref (deref t) = deref t := by
    fun_induction deref t with
    | case1 t ih => exact ih
    | case2 t h =>
      unfold deref; split
      · rename_i t' ; exact absurd rfl (h t')
      · rfl
  unfold findDec; rw [this]

theorem deref_noUnion {t : Ty} (h : NoUnion t) : NoUnion (deref t) := by
  fun_induction deref t with
  | case1 t ih => exact ih h
  | case2 t _ => exact h

theorem deref_valid {t : Ty} (h : Valid t) : Valid (deref t) := by
  fun_induction deref t with
  | case1 t ih => exact ih h
  | case2 t _ => exact h

theorem deref_not {t t' : Ty} : deref t ≠ .leafref t' := by
  fun_induction deref t with
  | case1 t ih => exact ih
  | case2 t h => intro e; exact h t' e

theorem setItem_deref (L : Lib) (t : Ty) (v : Val) : setItem L t v = setItem L (deref t) v := by
  unfold setItem
  have : sr2lyStr t v = sr2lyStr (deref t) v := by
    cases v <;> simp only [sr2lyStr, ← findDec_deref t]
  rw [this, deref_parse]
  split <;> first | rfl | exact deref_parse L t _

/-- **C105**, for leaves without a union type. Whatever the type of a leaf (directly or by a
    leafref), reading its value with `sr_get_item()` and writing it back with `sr_set_item()` does
    not change it. Missing: decimal numbers of more than about 15 digits, for which it is false, and
    unions (below). -/
theorem write_back_partial {L : Lib} (hL : Canonical L) {t : Ty} (hu : NoUnion t) (ht : Valid t) {v : LyVal}
    (hv : Stored L t v) (hs : Small v) : setItem L t (ly2sr v) = some v := by
  rw [setItem_deref]
  replace hu := deref_noUnion hu
  replace ht := deref_valid ht
  obtain ⟨s, hv⟩ := hv
  rw [deref_parse] at hv
  have hn : ∀ t', deref t ≠ .leafref t' := fun t' => deref_not
  generalize deref t = t at *
  cases t with
  | str k i =>
    simp only [parse, Option.map_eq_some_iff] at hv
    obtain ⟨c, hc, rfl⟩ := hv
    simp [setItem, ly2sr, sr2lyStr, parse, hL k i s c hc]
  | bool =>
    simp only [parse] at hv
    repeat' split at hv
    all_goals (try cases hv)
    · rfl
    · rfl
  | empty =>
    simp only [parse] at hv
    split at hv <;> cases hv
    rfl
  | int k lo hi =>
    simp only [parse] at hv
    split at hv
    · split at hv
      · rename_i v' _ hr
        cases hv
        simp only [Valid] at ht
        have hl := fmtInt_length (v := v') (by omega)
        simp only [setItem, ly2sr, sr2lyStr, toBuf]
        rw [if_pos (by omega)]
        simp only [parse, parseInt_fmt]
        rw [if_pos hr]
      · cases hv
    · cases hv
  | dec fd =>
    simp only [parse, Option.map_eq_some_iff] at hv
    obtain ⟨n, -, rfl⟩ := hv
    exact decimal_exact L ht.1 ht.2 hs
  | leafref t => exact absurd rfl (hn t)
  | union ts => exact absurd hu (by simp [NoUnion])

/-- A library with strings of at most three characters, all of them canonical. -/
def small3 : Lib := fun _ _ s => if s.length ≤ 3 then some s else none

example : setItem small3 (.leafref (.int .i8 (-128) 127)) (ly2sr (.int .i8 (-7))) = some (.int .i8 (-7)) :=
  write_back_partial (L := small3) (by intro k i s c h; unfold small3 at *; split at h <;> cases h; rw [if_pos (by assumption)]) (by simp [NoUnion])
    (by simp [Valid]) ⟨"-07".toList, by decide +kernel⟩ (by simp [Small])

/-- **C105**, for unions. A value of a union that is no decimal number is written back with its
    canonical text, so it is not changed if libyang understands the canonical text of the value as
    that value. -/
theorem write_back_union_partial {L : Lib} {t : Ty} {v : LyVal} {c : Str} (hc : canonical v = some c) (hr : Range v)
    (hv : parse L t c = some v) : setItem L t (ly2sr v) = some v := by
  have key : ∀ w : LyVal, canonical w = some c → Range w →
      sr2lyStr t (ly2sr w) = .text (some c) ∨ (sr2lyStr t (ly2sr w) = .text none ∧ c = []) := by
    intro w
    induction w with
    | str k s => intro hc hr; simp only [canonical, Option.some.injEq] at hc; subst hc; exact .inl rfl
    | bool b => intro hc hr; simp only [canonical, Option.some.injEq] at hc; subst hc; exact .inl rfl
    | empty => intro hc hr; simp only [canonical, Option.some.injEq] at hc; subst hc; exact .inr ⟨rfl, rfl⟩
    | int k v =>
      intro hc hr
      simp only [canonical, Option.some.injEq] at hc; subst hc
      left
      have hl := fmtInt_length (v := v) hr
      simp only [ly2sr, sr2lyStr, toBuf]
      rw [if_pos (by omega)]; rfl
    | dec fd n => intro hc; simp [canonical] at hc
    | union w ih => intro hc hr; simp only [ly2sr]; exact ih (by simpa [canonical] using hc) hr
  unfold setItem
  rcases key v hc hr with h | ⟨h, rfl⟩
  · rw [h]; exact hv
  · rw [h]; exact hv

example : setItem small3 (.union [.bool, .int .u8 0 255, .str .string 0]) (ly2sr (.union (.str .string "300".toList))) =
    some (.union (.str .string "300".toList)) :=
  write_back_union_partial (c := "300".toList) rfl trivial (by decide +kernel)

/-- **C105**, for decimal numbers in unions. If all decimal64 types of a union have the same number
    of fraction digits and there is one, the text is read as the number. -/
theorem write_back_union_dec_partial {ts : List Ty} {fd : Nat} {n : Int} (h1 : 1 ≤ fd) (h2 : fd ≤ 18) (hn : n.natAbs < 2 ^ 52)
    (hm : .dec fd ∈ ts) (hs : ∀ fd', .dec fd' ∈ ts → fd' = fd) :
    ∃ s, sr2lyStr (.union ts) (ly2sr (.union (.dec fd n))) = .text (some s) ∧ parseDec fd s = some n := by
  have hf : firstDec ts = .digits fd := by
    clear hn
    fun_induction firstDec ts with
    | case1 => simp at hm
    | case2 fd' ts => rw [hs fd' (by simp)]
    | case3 t ts h ih =>
      apply ih
      · rcases List.mem_cons.1 hm with e | e
        · exact absurd e.symm (by intro e; exact h fd e)
        · exact e
      · exact fun fd' h => hs fd' (by simp [h])
  obtain ⟨hp, hl⟩ := dec_text h1 h2 hn
  refine ⟨_, ?_, hp⟩
  simp only [ly2sr, sr2lyStr, findDec, deref, hf, toBuf]
  rw [if_pos (by omega)]

example : ∃ s, sr2lyStr (.union [.bool, .dec 3]) (ly2sr (.union (.dec 3 1250))) = .text (some s) ∧ parseDec 3 s = some 1250 :=
  write_back_union_dec_partial (by decide) (by decide) (by decide) (by simp) (by simp)

/-- **C105 violated** (unions of decimal numbers). In a union of decimal64 types with 1 and with 2
    fraction digits the value 1.25 has two digits, but it is written back with one: it becomes
    1.2. -/
theorem union_digits_lost (L : Lib) :
    Stored L (.union [.dec 1, .dec 2]) (.union (.dec 2 125)) ∧
    setItem L (.union [.dec 1, .dec 2]) (ly2sr (.union (.dec 2 125))) = some (.union (.dec 1 12)) := by
  refine ⟨⟨"1.25".toList, ?_⟩, ?_⟩
  · have h1 : parseDec 1 "1.25".toList = none := by decide +kernel
    have h2 : parseDec 2 "1.25".toList = some 125 := by decide +kernel
    simp only [parse, parseFirst, h1, h2, Option.map_none, Option.map_some]
  · have h1 : ly2sr (.union (.dec 2 125)) = .dec (5 * 2 ^ 1072) := by decide +kernel
    have h2 : fmtF 1 (5 * 2 ^ 1072) = "1.2".toList := by decide +kernel
    have h3 : parseDec 1 "1.2".toList = some 12 := by decide +kernel
    rw [h1, setItem, sr2lyStr]
    simp only [findDec, deref, firstDec, h2, toBuf]
    rw [if_pos (by decide)]
    simp only [parse, parseFirst, h3, Option.map_some]

/-- **C105 violated** (unions with leafrefs). In a union with a leafref to a decimal64 leaf, the
    number of fraction digits is not found and the value is written back as an empty text, here as
    the empty string of the other member type. -/
theorem union_leafref_lost {L : Lib} (hL : L .string 0 [] = some []) :
    Stored L (.union [.leafref (.dec 1), .str .string 0]) (.union (.dec 1 15)) ∧
    setItem L (.union [.leafref (.dec 1), .str .string 0]) (ly2sr (.union (.dec 1 15))) = some (.union (.str .string [])) := by
  refine ⟨⟨"1.5".toList, ?_⟩, ?_⟩
  · have h1 : parseDec 1 "1.5".toList = some 15 := by decide +kernel
    simp only [parse, parseFirst, h1, Option.map_some]
  · have h1 : parseDec 1 [] = none := by decide +kernel
    simp only [setItem, ly2sr, sr2lyStr, findDec, deref, firstDec, parse, parseFirst, h1, Option.map_none, hL, Option.map_some]

/-! ## Values given by the user -/

/-- **C105** (values of the user). An integer set with `sr_set_item()` is accepted exactly if it is
    in the range of the type of the leaf, and then it is the value `sr_get_item()` returns. -/
theorem set_get_int (L : Lib) {k : IK} {lo hi v : Int} (h : -9223372036854775808 ≤ v ∧ v ≤ 18446744073709551615) :
    (setItem L (.int k lo hi) (.int k v)).map ly2sr = if lo ≤ v ∧ v ≤ hi then some (.int k v) else none := by
  have hl := fmtInt_length (v := v) h
  simp only [setItem, sr2lyStr, toBuf]
  rw [if_pos (by omega)]
  simp only [parse, parseInt_fmt]
  split <;> rfl

example : setItem small3 (.int .u16 0 65535) (.int .u16 65535) = some (.int .u16 65535) := by decide +kernel

/-- The buffer is large enough for every decimal64 number: a double that is rounded to a number in
    the range of the type. -/
theorem buffer_fits {fd : Nat} (h1 : 1 ≤ fd) (h2 : fd ≤ 18) {x : Dbl}
    (hr : roundDiv (x.natAbs * 10 ^ fd) one ≤ 9223372036854775808) :
    ∃ s, sr2lyStr (.dec fd) (.dec x) = .text (some s) := by
  have hl : (fmtF fd x).length ≤ 21 := by
    unfold fmtF
    generalize roundDiv (x.natAbs * 10 ^ fd) one = N at *
    have hl : (Nat.toDigits 10 (N / 10 ^ fd)).length ≤ 19 - fd := by
      apply digits_length_le (by omega)
      rw [Nat.div_lt_iff_lt_mul (Nat.pow_pos (by decide)), ← Nat.pow_add, show 19 - fd + fd = 19 by omega]
      exact Nat.lt_of_le_of_lt hr (by decide)
    have := fixed_length fd N
    split
    · simp only [List.length_cons]; omega
    · omega
  refine ⟨fmtF fd x, ?_⟩
  simp only [sr2lyStr, findDec, deref, toBuf]
  rw [if_pos (by omega)]

example : ∃ s, sr2lyStr (.dec 18) (.dec (-9 * 2 ^ 1074)) = .text (some s) := buffer_fits (by decide) (by decide) (by decide +kernel)

/-- **C105 violated** (numbers too large). A decimal64 value of the user that is too large by a
    factor of about ten is not refused: its text is longer than the buffer on the stack and is
    written behind its end, for every type. -/
theorem buffer_overflows {fd : Nat} (h1 : 1 ≤ fd) (h2 : fd ≤ 18) {x : Dbl}
    (hr : 10 ^ 20 ≤ roundDiv (x.natAbs * 10 ^ fd) one) : sr2lyStr (.dec fd) (.dec x) = .overflow := by
  have hl : 22 ≤ (fmtF fd x).length := by
    unfold fmtF
    generalize roundDiv (x.natAbs * 10 ^ fd) one = N at *
    have hl : 20 - fd + 1 ≤ (Nat.toDigits 10 (N / 10 ^ fd)).length := by
      apply digits_length_ge (by omega)
      rw [Nat.le_div_iff_mul_le (Nat.pow_pos (by decide)), ← Nat.pow_add, show 20 - fd + fd = 20 by omega]
      exact hr
    have := fixed_length fd N
    split
    · simp only [List.length_cons]; omega
    · omega
  simp only [sr2lyStr, findDec, deref, toBuf]
  rw [if_neg (by omega)]

/-- One hundred for a type with 18 fraction digits. -/
example : sr2lyStr (.dec 18) (.dec (100 * 2 ^ 1074)) = .overflow := buffer_overflows (by decide) (by decide) (by decide +kernel)

/-- **C105 violated** (wrong type). A decimal64 value for a leaf of any other type but a union is
    not refused: the type of the leaf is read as if it was a decimal64 type. -/
theorem wrong_type {t : Ty} (h1 : ∀ fd, deref t ≠ .dec fd) (h2 : ∀ ts, deref t ≠ .union ts) (x : Dbl) :
    sr2lyStr t (.dec x) = .confused := by
  have : findDec t = .other := by
    unfold findDec
    split
    · rename_i fd h; exact absurd h (h1 fd)
    · rename_i ts h; exact absurd h (h2 ts)
    · rfl
  simp only [sr2lyStr, this]

example : sr2lyStr (.str .string 0) (.dec 0) = .confused := wrong_type (by intro _ h; cases h) (by intro _ h; cases h) 0

end Verif.Values
