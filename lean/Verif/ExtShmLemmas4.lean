import Verif.ExtShmLemmas3
/-! Helper lemmas: deletion, resizing, trimming. -/
namespace Verif.ExtShm

theorem shmreallocDel_spec {m : Mem} {n aoff count item idx asz ao : Nat} {l : List (Nat × Nat)} (hH : HS m l n)
    (hn : n < 4294967296) (hidx : idx < count)
    (ha : aoff % 8 = 0 ∧ 8 ≤ aoff ∧ aoff + shmSize (count * item) ≤ n)
    (hfree : ∀ x, In aoff (shmSize (count * item)) x → ¬ Cov l x)
    (hat : (asz = 0 ∧ ao = 0) ∨ (asz ≠ 0 ∧ asz % 8 = 0 ∧ ao % 8 = 0 ∧ 8 ≤ ao ∧ ao + asz ≤ n))
    (hfree2 : ∀ x, In ao asz x → ¬ Cov l x)
    (hdis : ∀ x, In aoff (shmSize (count * item)) x → ¬ In ao asz x) :
    ∃ m' l', shmreallocDel ⟨m, n⟩ aoff count item idx asz ao = some (⟨m', n⟩, if count - 1 = 0 then 0 else aoff, count - 1) ∧
      HS m' l' n ∧
      (∀ x, Cov l' x ↔ Cov l x ∨ In ao asz x ∨
        (In aoff (shmSize (count * item)) x ∧ ¬ In aoff (shmSize ((count - 1) * item)) x)) ∧
      (∀ r, r < idx * item → m' (aoff + r) = m (aoff + r)) ∧
      (∀ r, idx * item ≤ r → r < (count - 1) * item → m' (aoff + r) = m (aoff + item + r)) ∧
      (∀ x, 8 ≤ x → ¬ Cov l x → ¬ In aoff (shmSize (count * item)) x → ¬ In ao asz x → m' x = m x) := by
  have hmul : count * item = (count - 1) * item + item := by
    obtain ⟨c, rfl⟩ : ∃ c, count = c + 1 := ⟨count - 1, by omega⟩
    simp only [Nat.add_sub_cancel, Nat.add_mul, Nat.one_mul]
  have hmul2 : (idx + 1) * item = idx * item + item := by rw [Nat.add_mul, Nat.one_mul]
  have hmul3 : (count - 1 - idx) * item = (count - 1) * item - idx * item := Nat.sub_mul ..
  have hleI : idx * item ≤ (count - 1) * item := Nat.mul_le_mul_right _ (by omega)
  have hmono : shmSize ((count - 1) * item) ≤ shmSize (count * item) := shmSize_mono (by omega)
  have hge := shmSize_ge ((count - 1) * item)
  have hge2 := shmSize_ge (count * item)
  have hmod1 := shmSize_mod (count * item)
  have hmod2 := shmSize_mod ((count - 1) * item)
  have hpre : ¬(¬((asz = 0 ∧ ao = 0) ∨ (asz ≠ 0 ∧ ao ≠ 0)) ∨ asz ≠ shmSize asz ∨ count = 0) := by
    rcases hat with ⟨h1, h2⟩ | ⟨h1, h2, h3, h4, h5⟩
    · subst h1; subst h2; simp [shmSize]; omega
    · have : asz = shmSize asz := by simp only [shmSize]; omega
      simp only [h1, ← this]; simp; omega
  unfold shmreallocDel
  rw [if_neg hpre, hmul2, hmul3]
  have hmm : ∃ m0, (if count - 1 ≠ 0 ∧ idx < count - 1 then
        move m (aoff + idx * item) (aoff + (idx * item + item)) ((count - 1) * item - idx * item) else m) = m0 ∧
      (∀ r, r < idx * item → m0 (aoff + r) = m (aoff + r)) ∧
      (∀ r, idx * item ≤ r → r < (count - 1) * item → m0 (aoff + r) = m (aoff + item + r)) ∧
      (∀ x, ¬ In aoff (shmSize (count * item)) x → m0 x = m x) := by
    refine ⟨_, rfl, ?_, ?_, ?_⟩
    · intro r hr
      split
      · rw [move_out (by omega)]
      · rfl
    · intro r hr1 hr2
      rw [if_pos (by
        have : idx < count - 1 := by
          rcases Nat.lt_or_ge idx (count - 1) with h | h
          · exact h
          · have : idx = count - 1 := by omega
            subst this; omega
        omega), move_in (by omega)]
      omega
    · intro x hx
      split
      · refine move_out fun h => hx ⟨by omega, by omega⟩
      · rfl
  obtain ⟨m0, e0, c1, c2, c3⟩ := hmm
  simp only [e0]
  have hH0 : HS m0 l n := hH.congr (Nat.le_refl _) fun x hx => c3 x (by
    rcases hx with hx | hx
    · omega
    · exact fun h => hfree x h hx)
  have h1 : ∃ m1 l1, (if shmSize (count * item) - shmSize ((count - 1) * item) ≠ 0 then
        holeAdd ⟨m0, n⟩ (aoff + shmSize ((count - 1) * item)) (shmSize (count * item) - shmSize ((count - 1) * item))
        else some ⟨m0, n⟩) = some ⟨m1, n⟩ ∧ HS m1 l1 n ∧
      (∀ x, Cov l1 x ↔ Cov l x ∨ (In aoff (shmSize (count * item)) x ∧ ¬ In aoff (shmSize ((count - 1) * item)) x)) ∧
      (∀ x, 8 ≤ x → ¬ Cov l1 x → m1 x = m0 x) := by
    by_cases hz : shmSize (count * item) - shmSize ((count - 1) * item) = 0
    · refine ⟨m0, l, by simp [hz], hH0, fun x => ?_, fun _ _ _ => rfl⟩
      refine ⟨Or.inl, fun h => h.elim id fun h => ?_⟩
      exact absurd ⟨h.1.1, by have := h.1.2; omega⟩ h.2
    · obtain ⟨m1, l1, e1, h1, c1, f1⟩ := holeAdd_spec (off := aoff + shmSize ((count - 1) * item))
        (size := shmSize (count * item) - shmSize ((count - 1) * item)) hH0 hn (by omega) (by omega) (by omega) (by omega)
        (fun x hx1 hx2 => hfree x ⟨by omega, by omega⟩)
      refine ⟨m1, l1, by rw [if_pos hz, e1], h1, fun x => ?_, f1⟩
      rw [c1]
      constructor
      · rintro (h | h)
        · exact Or.inl h
        · exact Or.inr ⟨⟨by omega, by omega⟩, fun h' => by have := h'.2; omega⟩
      · rintro (h | ⟨h, h'⟩)
        · exact Or.inl h
        · refine Or.inr ?_
          have h1 := h.1; have h2 := h.2
          have : ¬ x < aoff + shmSize ((count - 1) * item) := fun h3 => h' ⟨h1, h3⟩
          omega
  obtain ⟨m1, l1, e1, h1, cv1, f1⟩ := h1
  simp only [e1]
  have h2 : ∃ m2 l2, (if asz ≠ 0 then holeAdd ⟨m1, n⟩ ao asz else some ⟨m1, n⟩) = some ⟨m2, n⟩ ∧ HS m2 l2 n ∧
      (∀ x, Cov l2 x ↔ Cov l1 x ∨ In ao asz x) ∧ (∀ x, 8 ≤ x → ¬ Cov l2 x → m2 x = m1 x) := by
    rcases hat with ⟨h3, h4⟩ | ⟨h3, h4, h5, h6, h7⟩
    · refine ⟨m1, l1, by simp [h3], h1, fun x => ⟨Or.inl, fun h => h.elim id fun h => ?_⟩, fun _ _ _ => rfl⟩
      have := h.1; have := h.2; omega
    · obtain ⟨m2, l2, e2, h2, c2, f2⟩ := holeAdd_spec (off := ao) (size := asz) h1 hn h5 h4 h6 h7
        (fun x hx1 hx2 hc => by
          rcases (cv1 x).1 hc with h | h
          · exact hfree2 x ⟨hx1, hx2⟩ h
          · exact hdis x h.1 ⟨hx1, hx2⟩)
      exact ⟨m2, l2, by rw [if_pos h3, e2], h2, c2, f2⟩
  obtain ⟨m2, l2, e2, h2, cv2, f2⟩ := h2
  simp only [e2]
  have hcov : ∀ x, Cov l2 x ↔ Cov l x ∨ In ao asz x ∨
        (In aoff (shmSize (count * item)) x ∧ ¬ In aoff (shmSize ((count - 1) * item)) x) := by
    intro x; rw [cv2, cv1]; grind
  have hkeep : ∀ r, r < (count - 1) * item → m2 (aoff + r) = m0 (aoff + r) := by
    intro r hr
    have hin : In aoff (shmSize (count * item)) (aoff + r) := ⟨by omega, by omega⟩
    have hnc : ¬ Cov l2 (aoff + r) := by
      rw [hcov]
      rintro (h | h | h)
      · exact hfree _ hin h
      · exact hdis _ hin h
      · exact h.2 ⟨by omega, by omega⟩
    rw [f2 _ (by omega) hnc, f1 _ (by omega) (fun h => hnc ((cv2 _).2 (Or.inl h)))]
  refine ⟨m2, l2, rfl, h2, hcov, ?_, ?_, ?_⟩
  · intro r hr; rw [hkeep r (by omega), c1 r hr]
  · intro r hr1 hr2; rw [hkeep r hr2, c2 r hr1 hr2]
  · intro x hx hc hi1 hi2
    have hnc : ¬ Cov l2 x := by
      rw [hcov]
      rintro (h | h | h)
      · exact hc h
      · exact hi2 h
      · exact hi1 h.1
    rw [f2 _ hx hnc, f1 _ hx (fun h => hnc ((cv2 _).2 (Or.inl h))), c3 x hi1]

/-- What a successful `sr_shmrealloc` guarantees. -/
structure ReOk (m : Mem) (l : List (Nat × Nat)) (n off cur new : Nat) (sh : Shm) (off' : Nat)
    (l' : List (Nat × Nat)) : Prop where
  hs : HS sh.mem l' sh.size
  size8 : sh.size % 8 = 0
  sizeGe : n ≤ sh.size
  al : off' % 8 = 0 ∧ 8 ≤ off' ∧ off' + shmSize new ≤ sh.size
  fresh : ∀ x, In off' (shmSize new) x → Cov l x ∨ n ≤ x ∨ In off (shmSize cur) x
  cov : ∀ x, 8 ≤ x → x < sh.size → (Cov l' x ↔ (Cov l x ∨ n ≤ x ∨ In off (shmSize cur) x) ∧ ¬ In off' (shmSize new) x)
  keep : ∀ r, r < shmSize cur → r < shmSize new → sh.mem (off' + r) = m (off + r)
  frame : ∀ x, 8 ≤ x → x < n → ¬ Cov l x → ¬ In off (shmSize cur) x → sh.mem x = m x

theorem shmrealloc_spec {m : Mem} {n off cur new : Nat} {l : List (Nat × Nat)} {g : Bool} (hH : HS m l n)
    (hn : n < 4294967296) (hn8 : n % 8 = 0) (h8 : 8 ≤ n)
    (hz : off = 0 ↔ cur = 0) (hnz : ¬ (cur = 0 ∧ new = 0))
    (ha : cur ≠ 0 → off % 8 = 0 ∧ 8 ≤ off ∧ off + shmSize cur ≤ n)
    (hfree : ∀ x, In off (shmSize cur) x → ¬ Cov l x) :
    ∃ sz, sz ≤ n + shmSize new ∧
      (∀ sh o, shmrealloc ⟨m, n⟩ off cur new g = .ok (sh, o) → sh.size = sz) ∧
      ((∃ sh', shmrealloc ⟨m, n⟩ off cur new g = .sysErr sh' ∧ g = false) ∨
       (sz < 4294967296 → ∃ sh o l', shmrealloc ⟨m, n⟩ off cur new g = .ok (sh, o) ∧ ReOk m l n off cur new sh o l')) := by
  have hm1 := shmSize_mod cur
  have hm2 := shmSize_mod new
  have hc0 : shmSize cur = 0 ↔ cur = 0 := shmSize_eq_zero
  have hn0 : shmSize new = 0 ↔ new = 0 := shmSize_eq_zero
  have hpre : ¬ ¬(off = 0 ∨ cur ≠ 0) := by
    by_cases h : off = 0
    · simp [h]
    · have : cur ≠ 0 := fun h' => h (hz.2 h')
      simp [this]
  have holdn : ∀ x, In off (shmSize cur) x → 8 ≤ x ∧ x < n := by
    intro x hx
    have hc : cur ≠ 0 := by rintro rfl; simp [shmSize] at hx; omega
    have := ha hc; have := hx.1; have := hx.2; omega
  unfold shmrealloc
  rw [if_neg hpre]
  simp only
  by_cases hlt : shmSize cur < shmSize new
  · simp only [if_pos hlt]
    have hext : ∃ m1 l1 b, (if shmSize cur ≠ 0 then extend ⟨m, n⟩ (off + shmSize cur) (shmSize new - shmSize cur)
          else some (⟨m, n⟩, false)) = some (⟨m1, n⟩, b) ∧ HS m1 l1 n ∧ (∀ x, 8 ≤ x → ¬ Cov l x → m1 x = m x) ∧
        ((b = false ∧ m1 = m ∧ l1 = l) ∨
         (b = true ∧ cur ≠ 0 ∧ off + shmSize new ≤ n ∧
          (∀ x, off + shmSize cur ≤ x → x < off + shmSize new → Cov l x) ∧
          ∀ x, Cov l1 x ↔ Cov l x ∧ ¬ In off (shmSize new) x)) := by
      by_cases h0 : shmSize cur = 0
      · exact ⟨m, l, false, by simp [h0], hH, fun _ _ _ => rfl, Or.inl ⟨rfl, rfl, rfl⟩⟩
      · rw [if_pos h0]
        have ha := ha (fun h => h0 (hc0.2 h))
        obtain ⟨m1, l1, b, e, h1, f1, h2⟩ := extend_spec (off := off + shmSize cur) (k := shmSize new - shmSize cur)
          hH hn (by omega) (by omega)
        refine ⟨m1, l1, b, e, h1, f1, ?_⟩
        rcases h2 with h2 | ⟨hb, hle2, -, hcx, hc1⟩
        · exact Or.inl h2
        · refine Or.inr ⟨hb, fun h => h0 (hc0.2 h), by omega, fun x hx1 hx2 => hcx x hx1 (by omega), fun x => ?_⟩
          rw [hc1]
          constructor
          · rintro ⟨h3, h4⟩
            refine ⟨h3, fun h5 => ?_⟩
            by_cases h6 : x < off + shmSize cur
            · exact hfree x ⟨h5.1, h6⟩ h3
            · have := h5.2; omega
          · rintro ⟨h3, h4⟩
            exact ⟨h3, fun h5 => h4 ⟨by omega, by omega⟩⟩
    obtain ⟨m1, l1, b, e, h1, f1, h2⟩ := hext
    simp only [e]
    rcases h2 with ⟨rfl, rfl, rfl⟩ | ⟨rfl, hc, hle2, hcx, hc1⟩
    · obtain ⟨m2, l2, off', N', e2, P⟩ := place_spec hH hn (Nat.le_refl _) hn8 h8 hm2
      simp only [e2]
      have hoff0 : ¬ off' = 0 := by have := P.ge; omega
      obtain ⟨m3, e3, h3, f3⟩ := P.hs.remap (N := N') P.le h8
      refine ⟨N', P.bound, ?_, ?_⟩
      · intro sh o ho
        split at ho
        · simp at ho
        · split at ho
          · simp at ho
          · rename_i sh5 hsh5
            injection ho with ho; injection ho with ho _; rw [← ho]
            rw [holeAdd_size hsh5, e3]
      · by_cases hg : N' > n ∧ g = false
        · left; exact ⟨_, by rw [if_pos hg], hg.2⟩
        right
        intro hszb
        rw [if_neg hg]
        simp only [e3, if_neg hoff0]
        have hfit := P.fit
        have hge := P.ge
        have hle := P.le
        have hnewold : ∀ x, In off (shmSize cur) x → ¬ In off' (shmSize new) x := by
          intro x hx hx2
          have hxn := holdn x hx
          rcases P.fresh x hx2.1 hx2.2 with h | h
          · exact hfree x hx h
          · omega
        have hm4H : HS (move m3 off' off (shmSize cur)) l2 N' := h3.congr (Nat.le_refl _) (fun x hx => move_out (by
          rcases hx with hx | hx
          · omega
          · intro h5; exact ((P.cov x).1 hx).2 ⟨h5.1, by omega⟩))
        have hcovN : ∀ x, x < N' → (Cov l2 x ↔ (Cov l1 x ∨ n ≤ x) ∧ ¬ In off' (shmSize new) x) := by
          intro x hx
          rw [P.cov]
          constructor
          · rintro ⟨h5, h6⟩; exact ⟨Or.inl h5, h6⟩
          · rintro ⟨h5 | h5, h6⟩
            · exact ⟨h5, h6⟩
            · exact absurd (P.used x h5 hx) h6
        have hadd : ∃ m5 l5, holeAdd ⟨move m3 off' off (shmSize cur), N'⟩ off (shmSize cur) = some ⟨m5, N'⟩ ∧ HS m5 l5 N' ∧
            (∀ x, Cov l5 x ↔ Cov l2 x ∨ In off (shmSize cur) x) ∧
            (∀ x, 8 ≤ x → ¬ Cov l5 x → m5 x = move m3 off' off (shmSize cur) x) := by
          by_cases h0 : cur = 0
          · subst h0
            refine ⟨_, l2, by simp [holeAdd, shmSize], hm4H, fun x => ⟨Or.inl, fun h => h.elim id fun h => ?_⟩, fun _ _ _ => rfl⟩
            simp only [shmSize_zero] at h; have := h.1; have := h.2; omega
          · have ha := ha h0
            obtain ⟨m5, l5, e5, h5, c5, f5⟩ := holeAdd_spec (off := off) (size := shmSize cur) hm4H hszb ha.1 hm1 ha.2.1 (by omega)
              (fun x hx1 hx2 hx3 => hfree x ⟨hx1, hx2⟩ ((P.cov x).1 hx3).1)
            exact ⟨m5, l5, e5, h5, c5, f5⟩
        obtain ⟨m5, l5, e5, h5, c5, f5⟩ := hadd
        simp only [e5]
        have hold : ∀ x, 8 ≤ x → x < n → ¬ Cov l1 x → m3 x = m1 x := fun x hx hxn hc => by rw [f3 x hxn, P.frame x hx hc]
        refine ⟨_, _, l5, rfl, h5, P.al', P.le, ⟨P.al, P.ge, P.fit⟩, ?_, ?_, ?_, ?_⟩
        · intro x hx
          rcases P.fresh x hx.1 hx.2 with h | h
          · exact Or.inl h
          · exact Or.inr (Or.inl h)
        · intro x hx hxs
          rw [c5, hcovN x hxs]
          constructor
          · rintro (⟨h6 | h6, h7⟩ | h6)
            · exact ⟨Or.inl h6, h7⟩
            · exact ⟨Or.inr (Or.inl h6), h7⟩
            · exact ⟨Or.inr (Or.inr h6), hnewold x h6⟩
          · rintro ⟨h6 | h6 | h6, h7⟩
            · exact Or.inl ⟨Or.inl h6, h7⟩
            · exact Or.inl ⟨Or.inr h6, h7⟩
            · exact Or.inr h6
        · intro r hr1 hr2
          have hin : In off (shmSize cur) (off + r) := ⟨by omega, by omega⟩
          have hin' : In off' (shmSize new) (off' + r) := ⟨by omega, by omega⟩
          simp only
          rw [f5 _ (by omega), move_in (y := off + r) (by omega) (by omega)]
          · exact hold _ (holdn _ hin).1 (holdn _ hin).2 (hfree _ hin)
          · rw [c5, hcovN _ (by omega)]
            rintro (h6 | h6)
            · exact h6.2 hin'
            · exact hnewold _ h6 hin'
        · intro x hx hxn hc hin
          simp only
          have hnn : ¬ In off' (shmSize new) x := by
            intro h6
            rcases P.fresh x h6.1 h6.2 with h | h
            · exact hc h
            · omega
          rw [f5 x hx, move_out (fun h6 => hnn ⟨h6.1, by omega⟩), hold x hx hxn hc]
          rw [c5, hcovN _ (by omega)]
          rintro (h6 | h6)
          · rcases h6.1 with h7 | h7
            · exact hc h7
            · omega
          · exact hin h6
    · have hoff0 : ¬ off = 0 := fun h => hc (hz.1 h)
      simp only [if_neg hoff0]
      have ha := ha hc
      refine ⟨n, by omega, ?_, Or.inr fun _ => ⟨_, _, l1, rfl, h1, hn8, Nat.le_refl _, ⟨ha.1, ha.2.1, hle2⟩, ?_, ?_, ?_, ?_⟩⟩
      · intro sh o ho; injection ho with ho; injection ho with ho _; rw [← ho]
      · intro x hx
        by_cases h6 : x < off + shmSize cur
        · exact Or.inr (Or.inr ⟨hx.1, h6⟩)
        · exact Or.inl (hcx x (by omega) hx.2)
      · intro x hx hxn
        rw [hc1]
        constructor
        · rintro ⟨h6, h7⟩; exact ⟨Or.inl h6, h7⟩
        · rintro ⟨h6 | h6 | h6, h7⟩
          · exact ⟨h6, h7⟩
          · simp only at hxn; omega
          · exact absurd ⟨h6.1, by have := h6.2; omega⟩ h7
      · intro r hr1 hr2
        have hin : In off (shmSize cur) (off + r) := ⟨by omega, by omega⟩
        exact f1 _ (by omega) (hfree _ hin)
      · intro x hx hxn hc _
        exact f1 x hx hc
  · rw [if_neg hlt]
    have hc : cur ≠ 0 := by
      intro h
      apply hnz
      refine ⟨h, hn0.1 ?_⟩
      have := hc0.2 h; omega
    have hoff0 : ¬ off = 0 := fun h => hc (hz.1 h)
    have ha := ha hc
    by_cases hlt2 : shmSize new < shmSize cur
    · simp only [if_pos hlt2, if_neg hoff0]
      obtain ⟨m5, l5, e5, h5, c5, f5⟩ := holeAdd_spec (off := off + shmSize new) (size := shmSize cur - shmSize new) hH hn
        (by omega) (by omega) (by omega) (by omega) (fun x hx1 hx2 => hfree x ⟨by omega, by omega⟩)
      simp only [e5]
      refine ⟨n, by omega, ?_, Or.inr fun _ => ⟨_, _, l5, rfl, h5, hn8, Nat.le_refl _, ⟨ha.1, ha.2.1, by simp only; omega⟩, ?_, ?_, ?_, ?_⟩⟩
      · intro sh o ho; injection ho with ho; injection ho with ho _; rw [← ho]
      · intro x hx; exact Or.inr (Or.inr ⟨hx.1, by have := hx.2; omega⟩)
      · intro x hx hxn
        rw [c5]
        constructor
        · rintro (h6 | h6)
          · exact ⟨Or.inl h6, fun h7 => hfree x ⟨h7.1, by have := h7.2; omega⟩ h6⟩
          · exact ⟨Or.inr (Or.inr ⟨by omega, by omega⟩), fun h7 => by have := h7.2; omega⟩
        · rintro ⟨h6 | h6 | h6, h7⟩
          · exact Or.inl h6
          · simp only at hxn; omega
          · refine Or.inr ?_
            have h1 := h6.1; have h2 := h6.2
            have : ¬ x < off + shmSize new := fun h => h7 ⟨h1, h⟩
            omega
      · intro r hr1 hr2
        refine f5 _ (by omega) ?_
        rw [c5]
        rintro (h6 | h6)
        · exact hfree _ ⟨by omega, by omega⟩ h6
        · omega
      · intro x hx hxn hc hin
        refine f5 _ hx ?_
        rw [c5]
        rintro (h6 | h6)
        · exact hc h6
        · exact hin ⟨by omega, by omega⟩
    · have he : shmSize new = shmSize cur := by omega
      rw [if_neg hlt2, if_neg hoff0]
      refine ⟨n, by omega, ?_, Or.inr fun _ => ⟨_, _, l, rfl, hH, hn8, Nat.le_refl _, ⟨ha.1, ha.2.1, by simp only; omega⟩, ?_, ?_, ?_, ?_⟩⟩
      · intro sh o ho; injection ho with ho; injection ho with ho _; rw [← ho]
      · intro x hx; rw [he] at hx; exact Or.inr (Or.inr hx)
      · intro x hx hxn
        rw [he]
        constructor
        · intro h6; exact ⟨Or.inl h6, fun h7 => hfree x h7 h6⟩
        · rintro ⟨h6 | h6 | h6, h7⟩
          · exact h6
          · simp only at hxn; omega
          · exact absurd h6 h7
      · intro r hr1 hr2; rfl
      · intro x hx hxn hc hin; rfl

theorem trim_spec {m : Mem} {n : Nat} {l : List (Nat × Nat)} (hH : HS m l n) (hn : n < 4294967296) (hn8 : n % 8 = 0)
    (h8 : 8 ≤ n) :
    ∃ sh' l', trim ⟨m, n⟩ = some sh' ∧ HS sh'.mem l' sh'.size ∧ 8 ≤ sh'.size ∧ sh'.size ≤ n ∧ sh'.size % 8 = 0 ∧
      (∀ x, Cov l' x ↔ Cov l x ∧ x < sh'.size) ∧ (∀ x, sh'.size ≤ x → x < n → Cov l x) ∧
      (∀ x, 8 ≤ x → x < sh'.size → ¬ Cov l x → sh'.mem x = m x) := by
  have hlast := lastLoop_spec hH.seg hH.fin (n + 1) 0 hH.toWFL.length
  unfold trim
  simp only [holeFirst, hlast]
  by_cases hc : lastOff 0 l ≠ 0 ∧ lastOff 0 l + holeSize m (lastOff 0 l) = n
  · obtain ⟨a, p, rfl⟩ : ∃ a p, l = a ++ [p] := by
      rcases List.eq_nil_or_concat l with rfl | ⟨b, q, e⟩
      · exact absurd rfl hc.1
      · exact ⟨b, q, by rw [e, List.concat_eq_append]⟩
    rw [if_pos hc]
    rw [lastOff_concat] at hc ⊢
    have hsz : holeSize m p.1 = p.2 := (CC.cons.1 (CC.append.1 hH.cc).2).2.2.1
    have hpo := hH.toWFL.ok p (by simp)
    rw [hsz] at hc ⊢
    obtain ⟨m1, e1, h1, f1⟩ := holeDel_spec hH hn
    have hcd := holeDel_cov hH.toWFL
    simp only [List.append_nil] at h1 hcd
    simp only [e1]
    have hap := (List.pairwise_append.1 hH.toWFL.asc).2.2
    have hap' : ∀ q ∈ a, q.1 + q.2 < p.1 := fun q hq => hap q hq p (by simp)
    have hn' : n - p.2 = p.1 := by omega
    have hHa : HS m1 a p.1 := by
      refine { asc := h1.asc, ok := fun q hq => ?_, seg := h1.seg, fin := h1.fin }
      have := h1.toWFL.ok q hq; have := hap' q hq; omega
    rw [hn']
    refine ⟨_, a, rfl, ?_, ?_, ?_, ?_, ?_, ?_, ?_⟩
    · exact hHa.congr (Nat.le_refl _) (fun x hx => by
        simp only [remap]
        rw [if_pos]
        rcases hx with hx | hx
        · omega
        · have := hx.lt hHa.toWFL; omega)
    · simp only [remap]; omega
    · simp only [remap]; omega
    · simp only [remap]; omega
    · intro x
      simp only [remap]
      rw [hcd]
      constructor
      · rintro ⟨h2, h3⟩
        have := h2.lt hH.toWFL
        exact ⟨h2, by omega⟩
      · rintro ⟨h2, h3⟩
        exact ⟨h2, by omega⟩
    · intro x hx1 hx2
      simp only [remap] at hx1
      exact ⟨p, by simp, hx1, by omega⟩
    · intro x hx1 hx2 hx3
      simp only [remap] at hx2 ⊢
      rw [if_pos (by omega), f1 x hx1 hx3]
  · rw [if_neg hc]
    refine ⟨_, l, rfl, hH, h8, Nat.le_refl _, hn8, fun x => ⟨fun h => ⟨h, (h.lt hH.toWFL).2⟩, fun h => h.1⟩, ?_, fun _ _ _ _ => rfl⟩
    intro x hx1 hx2; simp only at hx1; omega

end Verif.ExtShm
