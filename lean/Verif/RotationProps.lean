import Verif.Rotation

/-! Properties of the rotation of notification files: C59. -/
namespace Verif.Rotation

theorem strchr_append {c : Char} {a : Str} (h : c ∉ a) (b : Str) : strchr c (a ++ b) = strchr c b := by
  induction a with
  | nil => rfl
  | cons x t ih =>
    simp at h
    simp only [List.cons_append, strchr]
    rw [if_neg (fun e => h.1 e.symm), ih h.2]

theorem strchr_eq {c : Char} {s x : Str} (h : strchr c s = some x) : ∃ a y, s = a ++ c :: y ∧ x = c :: y ∧ c ∉ a := by
  induction s with
  | nil => simp [strchr] at h
  | cons z t ih =>
    simp only [strchr] at h
    split at h
    · rename_i he; subst he; cases h; exact ⟨[], t, rfl, rfl, by simp⟩
    · rename_i he
      obtain ⟨a, y, h1, h2, h3⟩ := ih h
      exact ⟨z :: a, y, by rw [h1]; rfl, h2, by simp [h3]; exact fun e => he e.symm⟩

theorem digits_num {ds : Str} (h : ∀ c ∈ ds, '0' ≤ c ∧ c ≤ '9') (acc : Nat) (t : Str)
    (ht : ∀ c ∈ t.head?, isDig c = false) :
    digits acc (ds ++ t) = (ds.foldl (fun n c => 10 * n + (c.toNat - '0'.toNat)) acc, t) := by
  induction ds generalizing acc with
  | nil =>
    cases t with
    | nil => rfl
    | cons c t => simp only [List.nil_append, digits, List.foldl_nil]; rw [if_neg (by simpa using ht c (by simp))]
  | cons c ds ih =>
    have hc := h c (by simp)
    simp only [List.cons_append, digits, List.foldl_cons]
    rw [if_pos (by simpa [isDig] using hc), ih fun x hx => h x (by simp [hx])]
    rfl

theorem dig_cases {c : Char} (h : '0' ≤ c ∧ c ≤ '9') : c ≠ ' ' ∧ c ≠ '\t' ∧ c ≠ '\n' ∧ c ≠ '\x0b' ∧ c ≠ '\x0c' ∧ c ≠ '\r' ∧
    c ≠ '-' ∧ c ≠ '+' ∧ c ≠ '.' := by
  refine ⟨?_, ?_, ?_, ?_, ?_, ?_, ?_, ?_, ?_⟩ <;> (intro e; subst e; revert h; decide)

theorem strtoul_num {ds : Str} (h : IsNum ds) (hm : decimal ds ≤ ulongMax) (t : Str)
    (ht : ∀ c ∈ t.head?, isDig c = false) : strtoul (ds ++ t) = some (decimal ds, t) := by
  obtain ⟨hne, hd⟩ := h
  cases ds with
  | nil => exact absurd rfl hne
  | cons c ds =>
    have hc := hd c (by simp)
    obtain ⟨h1, h2, h3, h4, h5, h6, h7, h8, _⟩ := dig_cases hc
    have hdw : ((c :: ds) ++ t).dropWhile
        (fun c => c = ' ' ∨ c = '\t' ∨ c = '\n' ∨ c = '\x0b' ∨ c = '\x0c' ∨ c = '\r') = (c :: ds) ++ t := by
      simp [h1, h2, h3, h4, h5, h6]
    have hdg := digits_num hd 0 t ht
    unfold strtoul
    simp only [hdw]
    have hs2 : sign ((c :: ds) ++ t) = (false, (c :: ds) ++ t) := by
      simp only [List.cons_append, sign]
      rw [if_neg h7, if_neg h8]
    rw [hs2]
    simp only [List.cons_append] at hdg ⊢
    rw [if_pos (by simpa [isDig] using hc), hdg]
    have : decimal (c :: ds) = (c :: ds).foldl (fun n c => 10 * n + (c.toNat - '0'.toNat)) 0 := rfl
    rw [← this, if_neg (by omega)]
    rfl

theorem formatCheck_notif {mod lo hi : Str} (hmod : '.' ∉ mod) (hlo : IsNum lo) (hhi : IsNum hi)
    (h1 : decimal lo ≤ ulongMax) (h2 : decimal hi ≤ ulongMax) :
    formatCheck (notifFile mod lo hi) = some (decimal lo, decimal hi) := by
  have e : notifFile mod lo hi = mod ++ ('.' :: (['n', 'o', 't', 'i', 'f'] ++ ('.' :: (lo ++ ('-' :: hi))))) := by
    simp [notifFile]
  have hz : strchr '-' (lo ++ '-' :: hi) = some ('-' :: hi) := by
    rw [strchr_append (fun hm => (dig_cases (hlo.2 _ hm)).2.2.2.2.2.2.1 rfl)]; simp [strchr]
  have hl := strtoul_num hlo h1 ('-' :: hi) (by simp; decide)
  have hh := strtoul_num hhi h2 [] (by simp)
  rw [List.append_nil] at hh
  unfold formatCheck
  rw [e, strchr_append hmod]
  simp [strchr, hl, hz, hh]

/-- C59 (partial: the module name has no dot): a notification file is moved to the archive exactly when its latest
notification is older than the configured age. -/
theorem rotated_iff_partial {mod lo hi : Str} (hmod : '.' ∉ mod) (hlo : IsNum lo) (hhi : IsNum hi)
    (h1 : decimal lo < 2 ^ 64) (h2 : decimal hi < 2 ^ 64) (now age : Nat) :
    rotated now age (notifFile mod lo hi) = true ↔ decimal hi + age < now := by
  have hf := formatCheck_notif hmod hlo hhi (by unfold ulongMax; omega) (by unfold ulongMax; omega)
  have hlen : 9 ≤ (notifFile mod lo hi).length := by
    have := List.length_pos_iff.2 hlo.1
    simp [notifFile]; omega
  unfold rotated
  rw [if_neg, hf]
  · simp; omega
  · rintro (h | h) <;> (rw [h] at hlen; simp at hlen)

example : rotated 1000 100 (notifFile "test".toList "500".toList "899".toList) = true ∧
    rotated 1000 100 (notifFile "test".toList "500".toList "900".toList) = false := by decide

/-- C59 does not hold for modules with a dot in their name: their files are never moved. -/
theorem dotted_never_rotated (now age : Nat) :
    rotated now age (notifFile "acme.types".toList "500".toList "899".toList) = false := by
  have : formatCheck (notifFile "acme.types".toList "500".toList "899".toList) = none := by decide
  unfold rotated
  rw [this]
  split <;> rfl

/-- No other file is ever moved: the name of a moved file has `.notif.` after the part without dots, followed by
two times. -/
theorem rotated_only_notif {now age : Nat} {name : Str} (h : rotated now age name = true) :
    ∃ (mod rest : Str), '.' ∉ mod ∧ name = mod ++ ['.', 'n', 'o', 't', 'i', 'f', '.'] ++ rest ∧
      ∃ t2, (formatCheck name).map (·.2) = some t2 ∧ t2 + age < now := by
  unfold rotated at h
  split at h
  · cases h
  · cases hf : formatCheck name with
    | none => rw [hf] at h; cases h
    | some p =>
      obtain ⟨t1, t2⟩ := p
      rw [hf] at h
      simp only [decide_eq_true_eq] at h
      have hk := hf
      unfold formatCheck at hk
      cases hx : strchr '.' name with
      | none => rw [hx] at hk; cases hk
      | some x =>
        rw [hx] at hk
        simp only at hk
        split at hk
        · cases hk
        · rename_i he
          obtain ⟨a, y, h1, h2, h3⟩ := strchr_eq hx
          subst h2
          simp only [List.drop_one, List.tail_cons, Decidable.not_not] at he
          refine ⟨a, y.drop 6, h3, ?_, t2, rfl, by omega⟩
          rw [h1, List.append_assoc]
          show a ++ '.' :: y = a ++ '.' :: (['n', 'o', 't', 'i', 'f', '.'] ++ y.drop 6)
          rw [← he, List.take_append_drop]

/-- The configured age is the number times its unit. -/
theorem older_than_exact {ds : Str} (h : IsNum ds) (hm : decimal ds < 2 ^ 64) {u : Char} {secs : Nat}
    (hu : unitSeconds u = some secs) : olderThan (ds ++ [u]) = decimal ds * secs := by
  have hnd : isDig u = false := by
    unfold unitSeconds at hu
    split at hu <;> first | decide | cases hu
  have hs := strtoul_num h (by unfold ulongMax; omega) [u] (by simpa using hnd)
  unfold olderThan
  rw [hs]
  unfold unitSeconds at hu
  split at hu <;> cases hu <;> simp <;> omega

example : olderThan "2W".toList = 2 * 7 * 24 * 3600 := by decide

end Verif.Rotation
