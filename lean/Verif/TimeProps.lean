import Verif.Time
/-!
C51 (time arithmetic), C54, C55 (YANG push). Specification: `Ts.ns`, `Normal` in `Verif.Time`.
-/
namespace Verif.Time

/-- C51. Adding milliseconds is exact if they fit 32 bits together with those of the time.
Missing from C51: the last second of the 32-bit range (`add_goes_back`). -/
theorem add_exact_partial (t : Ts) (ms : Nat) (h : Clock t) (hms : ms + (t.nsec / 1000000).toNat < 2 ^ 32) :
    ∃ r, tsAdd (some t) ms = some r ∧ r.ns = t.ns + ms * 1000000 ∧ Normal r := by
  obtain ⟨⟨h1, h2⟩, h3, h4⟩ := h
  obtain ⟨s, n⟩ := t
  simp only at h1 h2 h3 h4 hms
  simp only [tsAdd, Option.getD_some]
  by_cases h0 : ms = 0
  · simp only [h0, if_true]
    exact ⟨_, rfl, by simp, h1, h2⟩
  · by_cases hn : n = 0
    · subst hn
      simp only [h0, if_false, ne_eq, not_true_eq_false]
      have : fits (s + (ms / 1000 : Nat)) := by simp only [fits]; omega
      rw [if_pos this]
      refine ⟨_, rfl, ?_, ?_, ?_⟩ <;> simp only [Ts.ns] <;> omega
    · simp only [h0, if_false, ne_eq, hn, not_false_eq_true, if_true]
      rw [Nat.mod_eq_of_lt hms]
      have : fits (s + ((ms + (n / 1000000).toNat) / 1000 : Nat)) := by simp only [fits]; omega
      rw [if_pos this]
      refine ⟨_, rfl, ?_, ?_, ?_⟩ <;> simp only [Ts.ns] <;> omega

/-- Without a time the result is the duration. -/
theorem add_null_exact (ms : Nat) (hms : ms < 2 ^ 32) :
    ∃ r, tsAdd none ms = some r ∧ r.ns = ms * 1000000 ∧ Normal r := by
  obtain ⟨r, h1, h2, h3⟩ := add_exact_partial ⟨0, 0⟩ ms (by simp [Clock, Normal]) (by simpa using hms)
  exact ⟨r, h1, by simpa [Ts.ns] using h2, h3⟩

/-- The result is always normal, also when the milliseconds wrap around. -/
theorem add_normal (t r : Ts) (ms : Nat) (h : Normal t) (hr : tsAdd (some t) ms = some r) : Normal r := by
  obtain ⟨s, n⟩ := t
  obtain ⟨h1, h2⟩ := h
  simp only at h1 h2
  simp only [tsAdd, Option.getD_some] at hr
  split at hr
  · simp only [Option.some.injEq] at hr; subst hr; exact ⟨h1, h2⟩
  · by_cases hn : n = 0
    · simp only [hn, ne_eq, not_true_eq_false, if_false] at hr
      split at hr
      · simp only [Option.some.injEq] at hr; subst hr
        simp only [Normal]; omega
      · simp at hr
    · simp only [hn, ne_eq, not_false_eq_true, if_true] at hr
      split at hr
      · simp only [Option.some.injEq] at hr; subst hr
        simp only [Normal]; omega
      · simp at hr

/-- Finding: with a duration near 2^32 ms the result is before the given time. -/
theorem add_goes_back : ∃ t r, Clock t ∧ tsAdd (some t) (2 ^ 32 - 1) = some r ∧ r.ns < t.ns :=
  ⟨⟨1000, 5000000⟩, ⟨1000, 4000000⟩, by simp [Clock, Normal], rfl, by simp [Ts.ns]⟩

theorem Clock.wide {t : Ts} (h : Clock t) : Wide t := ⟨h.1, h.2.1, by have := h.2.2; omega⟩

/-- C51. Comparing times compares the instants. -/
theorem cmp_exact (a b : Ts) (ha : Normal a) (hb : Normal b) :
    (tsCmp a b = 1 ↔ a.ns > b.ns) ∧ (tsCmp a b = -1 ↔ a.ns < b.ns) ∧ (tsCmp a b = 0 ↔ a = b) := by
  obtain ⟨s, n⟩ := a
  obtain ⟨s', n'⟩ := b
  simp only [Normal] at ha hb
  simp only [tsCmp, Ts.ns, Ts.mk.injEq]
  split
  · omega
  · split
    · omega
    · split
      · omega
      · split <;> omega

/-- C51. Subtracting is exact, a negative difference gives -1 ns. -/
theorem sub_exact (a b : Ts) (ha : Wide a) (hb : Wide b) :
    ∃ r, tsSub a b = some r ∧ (b.ns ≤ a.ns → r.ns = a.ns - b.ns ∧ Normal r) ∧ (a.ns < b.ns → r = ⟨0, -1⟩) := by
  obtain ⟨s, n⟩ := a
  obtain ⟨s', n'⟩ := b
  simp only [Wide, Normal] at ha hb
  simp only [tsSub, Ts.ns, Normal]
  split
  · exact ⟨_, rfl, by omega, fun _ => rfl⟩
  · have : fits (s - s') := by simp only [fits]; omega
    rw [if_neg (by simpa using this)]
    split
    · exact ⟨_, rfl, by simp only; omega, by omega⟩
    · exact ⟨_, rfl, by simp only; omega, by omega⟩

/-- C51. The difference in milliseconds, rounded down, if it is less than 2^31 ms (24 days).
Missing from C51: larger differences (`sub_ms_wraps`). -/
theorem sub_ms_exact_partial (a b : Ts) (ha : Wide a) (hb : Wide b) (hd : a.ns - b.ns < 2 ^ 31 * 1000000) :
    tsSubMs a b = some (if a.ns < b.ns then -1 else (a.ns - b.ns) / 1000000) := by
  obtain ⟨r, h1, h2, h3⟩ := sub_exact a b ha hb
  simp only [tsSubMs, h1]
  by_cases hlt : a.ns < b.ns
  · simp [h3 hlt, hlt]
  · obtain ⟨h4, h5⟩ := h2 (by omega)
    obtain ⟨s, n⟩ := r
    simp only [Normal] at h5
    have hx0 : 0 ≤ a.ns - b.ns := by omega
    generalize a.ns - b.ns = x at *
    simp only [Ts.ns] at h4
    have hne : ¬ (s = 0 ∧ n = -1) := by omega
    have hf : fits (s * 1000) := by simp only [fits]; omega
    simp only [hlt, if_false]

    rw [if_neg hne, if_neg (by simpa using hf)]
    simp only [Option.some.injEq, toInt]
    omega

/-- Finding: a difference of 25 days is negative. -/
theorem sub_ms_wraps : ∃ a b, Clock a ∧ Clock b ∧ b.ns < a.ns ∧ tsSubMs a b = some (-2134967296) :=
  ⟨⟨2160000, 0⟩, ⟨0, 0⟩, by simp [Clock, Normal], by simp [Clock, Normal], by simp [Ts.ns], by decide +kernel⟩

example : tsAdd (some ⟨7, 999000001⟩) 1002 = some ⟨9, 1000001⟩ ∧ tsSub ⟨9, 1000001⟩ ⟨7, 999000001⟩ = some ⟨1, 2000000⟩ ∧
    tsSubMs ⟨9, 1000001⟩ ⟨7, 999000001⟩ = some 1002 ∧ Clock ⟨7, 999000001⟩ := by
  refine ⟨by decide +kernel, by decide +kernel, by decide +kernel, by simp [Clock, Normal]⟩

/-! ### YANG push -/

/-- The time is a whole number of periods after (or before) the anchor. -/
def OnPeriod (t anchor : Ts) (periodMs : Nat) : Prop := ∃ k : Int, t.ns = anchor.ns + k * (periodMs * 1000000)

/-- C54. The first update of a periodic subscription is on the period of its anchor time if the subscription is made
on the period, or in the middle of one, of an anchor in the last 24 days.
Missing from C54: every other time (`update_off_period`, `future_anchor_ignored`). -/
theorem update_on_period_partial (now anchor : Ts) (periodMs : Nat) (hn : Clock now) (ha : Clock anchor) (hp : 0 < periodMs)
    (hp2 : periodMs < 2 ^ 31) (hle : anchor.ns ≤ now.ns) (hd : now.ns - anchor.ns < 2 ^ 31 * 1000000)
    (hon : OnPeriod now anchor periodMs ∨ ∃ k : Int, 2 * (now.ns - anchor.ns) = (2 * k + 1) * (periodMs * 1000000) ∧ periodMs % 2 = 0) :
    ∃ r, firstUpdate now (some anchor) periodMs = some r ∧ OnPeriod r anchor periodMs ∧ now.ns ≤ r.ns ∧
      r.ns < now.ns + periodMs * 1000000 := by
  have hs := sub_ms_exact_partial now anchor hn.wide ha.wide hd
  rw [if_neg (by omega)] at hs
  simp only [firstUpdate, hs]
  generalize hq : (now.ns - anchor.ns) / 1000000 = q
  have hq0 : 0 ≤ q := by omega
  have hrem : (q.natAbs % periodMs) < periodMs := Nat.mod_lt _ hp
  obtain ⟨r, h1, h2, h3⟩ := add_exact_partial now (q.natAbs % periodMs) hn (by have := hn.1; simp only [Normal] at this; omega)
  refine ⟨r, h1, ?_, by omega, by rw [h2]; have : (periodMs : Int) * 1000000 > ((q.natAbs % periodMs : Nat) : Int) * 1000000 := by omega
                                  omega⟩
  rcases hon with ⟨k, hk⟩ | ⟨k, hk, heven⟩
  · have hk' : now.ns - anchor.ns = (k * periodMs) * 1000000 := by rw [hk, Int.mul_assoc]; omega
    have : q = k * periodMs := by rw [← hq, hk']; exact Int.mul_ediv_cancel _ (by decide)
    have hz : q.natAbs % periodMs = 0 := by rw [this, Int.natAbs_mul, Int.natAbs_natCast]; exact Nat.mul_mod_left _ _
    refine ⟨k, ?_⟩
    rw [h2, hz, hk]; simp
  · obtain ⟨h, rfl⟩ : ∃ h, periodMs = 2 * h := ⟨periodMs / 2, by omega⟩
    have hk' : now.ns - anchor.ns = ((2 * k + 1) * h) * 1000000 := by
      have e : (2 * k + 1) * (((2 * h : Nat) : Int) * 1000000) = 2 * (((2 * k + 1) * h) * 1000000) := by
        push_cast; ac_rfl
      rw [e] at hk; omega
    have hqe : q = (2 * k + 1) * h := by rw [← hq, hk']; exact Int.mul_ediv_cancel _ (by decide)
    have hmod : ((q.natAbs % (2 * h) : Nat) : Int) = h := by
      have e1 : ((q.natAbs % (2 * h) : Nat) : Int) = q % (2 * h : Int) := by
        rw [Int.natCast_emod, Int.natAbs_of_nonneg hq0]; simp
      rw [e1, hqe]
      have e2 : (2 * k + 1) * (h : Int) = h + (2 * h) * k := by rw [Int.add_mul]; simp; rw [Int.add_comm]; ac_rfl
      rw [e2, Int.add_mul_emod_self_left]
      exact Int.emod_eq_of_lt (by omega) (by omega)
    refine ⟨k + 1, ?_⟩
    rw [h2, hmod]
    have e3 : (k + 1) * (((2 * h : Nat) : Int) * 1000000) = ((2 * k + 1) * h) * 1000000 + h * 1000000 := by
      have : ((2 * h : Nat) : Int) = 2 * (h : Int) := by simp
      rw [this]
      generalize (h : Int) = h
      have : (k + 1) * (2 * h * 1000000) = (2 * k + 2) * h * 1000000 := by
        have : (2 * k + 2) = 2 * (k + 1) := by omega
        rw [this]; ac_rfl
      rw [this, ← Int.add_mul]
      congr 1
      rw [show (2 * k + 2) = (2 * k + 1) + 1 by omega, Int.add_mul]
      simp
    rw [e3]; omega

/-- Finding: a subscription made 2 s after the anchor with a period of 10 s gets its first update 4 s after it. -/
theorem update_off_period : ∃ now anchor r, Clock now ∧ Clock anchor ∧ anchor.ns ≤ now.ns ∧
    firstUpdate now (some anchor) 10000 = some r ∧ ¬ OnPeriod r anchor 10000 :=
  ⟨⟨1002, 0⟩, ⟨1000, 0⟩, ⟨1004, 0⟩, by simp [Clock, Normal], by simp [Clock, Normal], by simp [Ts.ns], by decide +kernel,
    by rintro ⟨k, hk⟩; simp [Ts.ns] at hk; omega⟩

/-- Finding: an anchor time in the future is ignored, the first update comes 1 ms later. -/
theorem future_anchor_ignored : ∃ now anchor r, Clock now ∧ Clock anchor ∧ now.ns < anchor.ns ∧
    firstUpdate now (some anchor) 10000 = some r ∧ ¬ OnPeriod r anchor 10000 :=
  ⟨⟨1000, 0⟩, ⟨1005, 0⟩, ⟨1000, 1000000⟩, by simp [Clock, Normal], by simp [Clock, Normal], by simp [Ts.ns], by decide +kernel,
    by rintro ⟨k, hk⟩; simp [Ts.ns] at hk; omega⟩

/-- C55. A change is sent only if the dampening period since the last one has passed, less 1 ms, and always once it has
passed, for dampening periods below 24 days.
Missing from C55: the last millisecond (`sent_too_early`), longer periods (`long_dampening_ignored`). -/
theorem dampening_partial (last now : Ts) (dampMs : Nat) (hl : Clock last) (hn : Clock now) (hle : last.ns ≤ now.ns)
    (hd : dampMs < 2 ^ 31) :
    ∃ b, dampReady last dampMs now = some b ∧
      (b = true → last.ns + dampMs * 1000000 < now.ns + 1000000) ∧
      (last.ns + dampMs * 1000000 ≤ now.ns → b = true) := by
  simp only [dampReady]
  split
  · rename_i h; subst h; exact ⟨true, rfl, by intro _; simp; omega, fun _ => rfl⟩
  · obtain ⟨r, h1, h2, h3⟩ := add_exact_partial last dampMs hl (by have := hl.1; simp only [Normal] at this; omega)
    simp only [h1]
    have hcr : Normal r ∧ 0 ≤ r.sec ∧ r.sec < 2 ^ 63 - 1 := by
      refine ⟨h3, ?_⟩
      obtain ⟨⟨a1, a2⟩, a3, a4⟩ := hl
      obtain ⟨c1, c2⟩ := h3
      simp only [Ts.ns] at h2
      omega
    have hs := sub_ms_exact_partial r now ⟨hcr.1, hcr.2.1, by omega⟩ hn.wide (by omega)
    simp only [hs]
    refine ⟨_, rfl, ?_, ?_⟩
    · intro hb
      simp only [decide_eq_true_eq] at hb
      split at hb <;> omega
    · intro hle2
      simp only [decide_eq_true_eq]
      split <;> omega

/-- Finding: a change is sent although 0.9 ms of the dampening period are left. -/
theorem sent_too_early : ∃ last now, Clock last ∧ Clock now ∧ now.ns < last.ns + 1000 * 1000000 ∧
    dampReady last 1000 now = some true :=
  ⟨⟨10, 0⟩, ⟨10, 999100000⟩, by simp [Clock, Normal], by simp [Clock, Normal], by simp [Ts.ns], by decide +kernel⟩

/-- Finding: a dampening period of 25 days has no effect. -/
theorem long_dampening_ignored : ∃ last now, Clock last ∧ Clock now ∧ last = now ∧
    dampReady last 2160000000 now = some true :=
  ⟨⟨10, 0⟩, ⟨10, 0⟩, by simp [Clock, Normal], by simp [Clock, Normal], rfl, by decide +kernel⟩

example : dampReady ⟨10, 500⟩ 1000 ⟨11, 400⟩ = some true ∧ dampReady ⟨10, 500⟩ 1000 ⟨10, 900000000⟩ = some false ∧
    firstUpdate ⟨1005, 0⟩ (some ⟨1000, 0⟩) 10000 = some ⟨1010, 0⟩ := by decide +kernel

end Verif.Time
