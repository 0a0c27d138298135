import Verif.ExtShmLemmas2
/-! Helper lemmas: finding space and the three reallocation functions. -/
namespace Verif.ExtShm

theorem mem_split {α : Type} {a : α} {l : List α} (h : a ∈ l) : ∃ s t, l = s ++ a :: t := List.append_of_mem h

theorem Cov.lt {l : List (Nat × Nat)} {n x : Nat} (h : Cov l x) (hW : WFL l n) : 8 ≤ x ∧ x < n := by
  obtain ⟨q, hq, h1⟩ := h
  have := hW.ok q hq; omega

theorem useHole_spec {m : Mem} {n used : Nat} {l : List (Nat × Nat)} {h : Nat × Nat} (hH : HS m l n)
    (hn : n < 4294967296) (hm : h ∈ l) (hu : used ≤ h.2) (hu8 : used % 8 = 0) :
    ∃ m' l', useHole ⟨m, n⟩ h.1 used = some ⟨m', n⟩ ∧ HS m' l' n ∧
      (∀ x, Cov l' x ↔ Cov l x ∧ ¬ (h.1 ≤ x ∧ x < h.1 + used)) ∧ (∀ x, 8 ≤ x → ¬ Cov l x → m' x = m x) := by
  obtain ⟨a, b, rfl⟩ := mem_split hm
  have hho := hH.toWFL.ok h hm
  have hsz : holeSize m h.1 = h.2 := (CC.cons.1 (CC.append.1 hH.cc).2).2.2.1
  obtain ⟨m1, e1, h1, f1⟩ := holeDel_spec hH hn
  have hcd := holeDel_cov hH.toWFL
  simp only [useHole, hsz, e1]
  by_cases hz : h.2 - used = 0
  · refine ⟨m1, a ++ b, by simp [hz], h1, fun x => ?_, f1⟩
    rw [hcd, show used = h.2 by omega]
  · obtain ⟨m2, l2, e2, h2, c2, f2⟩ := holeAdd_spec (off := h.1 + used) (size := h.2 - used) h1 hn (by omega) (by omega) (by omega) (by omega)
      (fun x hx1 hx2 => by rw [hcd]; exact fun hh => hh.2 ⟨by omega, by omega⟩)
    refine ⟨m2, l2, by simp [hz, e2], h2, fun x => ?_, fun x hx hc => ?_⟩
    · rw [c2, hcd]
      constructor
      · rintro (h | h)
        · exact ⟨h.1, by omega⟩
        · exact ⟨⟨_, hm, by omega, by omega⟩, by omega⟩
      · rintro ⟨hc, hx⟩
        by_cases hy : h.1 ≤ x ∧ x < h.1 + h.2
        · exact Or.inr (by omega)
        · exact Or.inl ⟨hc, hy⟩
    · rw [f2 x hx, f1 x hx hc]
      rw [c2, hcd]
      rintro (hh | hh)
      · exact hc hh.1
      · exact hc ⟨_, hm, by omega, by omega⟩

/-- What finding space guarantees. -/
structure Placed (m : Mem) (l : List (Nat × Nat)) (n N k : Nat) (m' : Mem) (l' : List (Nat × Nat)) (off N' : Nat) : Prop where
  hs : HS m' l' n
  al : off % 8 = 0
  al' : N' % 8 = 0
  ge : 8 ≤ off
  le : N ≤ N'
  fit : off + k ≤ N'
  bound : N' ≤ N + k
  fresh : ∀ x, off ≤ x → x < off + k → Cov l x ∨ N ≤ x
  used : ∀ x, N ≤ x → x < N' → off ≤ x ∧ x < off + k
  cov : ∀ x, Cov l' x ↔ Cov l x ∧ ¬ (off ≤ x ∧ x < off + k)
  frame : ∀ x, 8 ≤ x → ¬ Cov l x → m' x = m x

theorem place_spec {m : Mem} {n N k : Nat} {l : List (Nat × Nat)} (hH : HS m l n) (hn : n < 4294967296)
    (hN : n ≤ N) (hN8 : N % 8 = 0) (h8 : 8 ≤ N) (hk8 : k % 8 = 0) :
    ∃ m' l' off N', place ⟨m, n⟩ N k = some (⟨m', n⟩, off, N') ∧ Placed m l n N k m' l' off N' := by
  have hf := findLoop_spec 0 k hH.toWFL hH.seg hH.fin (n + 1) hH.toWFL.length
  rcases hf with ⟨h, hm, e, hk, -⟩ | e
  · have hho := hH.toWFL.ok h hm
    obtain ⟨m1, l1, e1, h1, c1, f1⟩ := useHole_spec hH hn hm hk hk8
    refine ⟨m1, l1, h.1, N, ?_, h1, hho.1, hN8, hho.2.2.1, Nat.le_refl _, by omega, by omega, ?_, ?_, c1, f1⟩
    · unfold place holeFind holeFirst
      simp only [e]
      split
      · simp_all
      · rename_i heq; injection heq with heq; omega
      · rename_i heq; injection heq with heq; subst heq; simp [e1]
    · intro x hx1 hx2; exact Or.inl ⟨h, hm, by omega, by omega⟩
    · intro x hx1 hx2; omega
  · refine ⟨m, l, N, N + k, ?_, hH, hN8, by omega, h8, by omega, by omega, by omega, ?_, ?_, ?_, ?_⟩
    · unfold place holeFind holeFirst
      simp only [e]
    · intro x hx1 hx2; exact Or.inr hx1
    · intro x hx1 hx2; exact ⟨hx1, hx2⟩
    · intro x
      refine ⟨fun h => ⟨h, ?_⟩, fun h => h.1⟩
      have := h.lt hH.toWFL; omega
    · intros; rfl

theorem extend_spec {m : Mem} {n off k : Nat} {l : List (Nat × Nat)} (hH : HS m l n) (hn : n < 4294967296)
    (ho : off ≠ 0) (hk8 : k % 8 = 0) :
    ∃ m' l' b, extend ⟨m, n⟩ off k = some (⟨m', n⟩, b) ∧ HS m' l' n ∧ (∀ x, 8 ≤ x → ¬ Cov l x → m' x = m x) ∧
      ((b = false ∧ m' = m ∧ l' = l) ∨
       (b = true ∧ off + k ≤ n ∧ Cov l off ∧ (∀ x, off ≤ x → x < off + k → Cov l x) ∧
        ∀ x, Cov l' x ↔ Cov l x ∧ ¬ (off ≤ x ∧ x < off + k))) := by
  have hf := findLoop_spec off k hH.toWFL hH.seg hH.fin (n + 1) hH.toWFL.length
  rcases hf with ⟨h, hm, e, hk, hoff⟩ | e
  · have hho := hH.toWFL.ok h hm
    have hoff := hoff ho
    obtain ⟨m1, l1, e1, h1, c1, f1⟩ := useHole_spec hH hn hm hk hk8
    refine ⟨m1, l1, true, ?_, h1, f1, Or.inr ⟨rfl, by omega, ⟨h, hm, by omega, by omega⟩, ?_, by rw [← hoff]; exact c1⟩⟩
    · unfold extend holeFind holeFirst
      simp only [e]
      split
      · simp_all
      · rename_i heq; injection heq with heq; omega
      · rename_i heq; injection heq with heq; subst heq; simp [e1]
    · intro x hx1 hx2; exact ⟨h, hm, by omega, by omega⟩
  · refine ⟨m, l, false, ?_, hH, fun _ _ _ => rfl, Or.inl ⟨rfl, rfl, rfl⟩⟩
    unfold extend holeFind holeFirst
    simp only [e]

theorem HS.congr {m m' : Mem} {n N : Nat} {l : List (Nat × Nat)} (h : HS m l n) (hN : n ≤ N)
    (he : ∀ x, x < 8 ∨ Cov l x → m' x = m x) : HS m' l N := by
  have hW := h.toWFL
  have hW' : WFL l N := ⟨hW.asc, fun q hq => by have := hW.ok q hq; omega⟩
  refine { hW' with seg := h.seg.congr fun x hx => ?_, fin := ?_ }
  · rcases (hW.reads0 hx).1 with h1 | ⟨q, hq, h1⟩
    · exact he x (Or.inl (by omega))
    · exact he x (Or.inr ⟨q, hq, by have := hW.ok q hq; omega⟩)
  · refine Eq.trans (rd_congr m _ _ fun x hx1 hx2 => he x ?_) h.fin
    rcases hW.endCell_in with h0 | ⟨q, hq, h0⟩
    · exact Or.inl (by omega)
    · exact Or.inr ⟨q, hq, by have := hW.ok q hq; omega⟩

/-- The segment is enlarged only when needed; either way the content is kept. -/
theorem HS.remap {m : Mem} {n N : Nat} {l : List (Nat × Nat)} (h : HS m l n) (hN : n ≤ N) (h8 : 8 ≤ n) :
    ∃ m', (if N > n then ExtShm.remap ⟨m, n⟩ N else ⟨m, n⟩ : Shm) = ⟨m', N⟩ ∧ HS m' l N ∧ ∀ x, x < n → m' x = m x := by
  split
  · refine ⟨_, rfl, h.congr hN ?_, fun x hx => if_pos hx⟩
    rintro x (hx | hx)
    · exact if_pos (by simp only; omega)
    · exact if_pos (hx.lt h.toWFL).2
  · have : N = n := by omega
    subst this
    exact ⟨m, rfl, h, fun _ _ => rfl⟩

/-- What placing the grown array guarantees. -/
theorem addArray_spec {m : Mem} {n aoff count item : Nat} {l : List (Nat × Nat)} (hH : HS m l n)
    (hn : n < 4294967296) (hn8 : n % 8 = 0) (h8 : 8 ≤ n) (hi : 0 < item)
    (hz : aoff = 0 ↔ count = 0)
    (ha : count ≠ 0 → aoff % 8 = 0 ∧ 8 ≤ aoff ∧ aoff + shmSize (count * item) ≤ n)
    (hfree : ∀ x, aoff ≤ x → x < aoff + shmSize (count * item) → ¬ Cov l x) :
    ∃ m1 l1 off sz moved, addArray ⟨m, n⟩ aoff count item = some (⟨m1, n⟩, off, sz, moved) ∧ HS m1 l1 n ∧
      off % 8 = 0 ∧ sz % 8 = 0 ∧ 8 ≤ off ∧ n ≤ sz ∧ off + shmSize ((count + 1) * item) ≤ sz ∧ sz ≤ n + shmSize ((count + 1) * item) ∧
      (∀ x, n ≤ x → x < sz → off ≤ x ∧ x < off + shmSize ((count + 1) * item)) ∧
      (∀ x, Cov l1 x ↔ Cov l x ∧ ¬ (off ≤ x ∧ x < off + shmSize ((count + 1) * item))) ∧
      (∀ x, 8 ≤ x → ¬ Cov l x → m1 x = m x) ∧
      ((moved = false ∧ off = aoff ∧ aoff ≠ 0 ∧
         (∀ x, aoff + shmSize (count * item) ≤ x → x < off + shmSize ((count + 1) * item) → Cov l x)) ∨
       (moved = true ∧ (∀ x, off ≤ x → x < off + shmSize ((count + 1) * item) → Cov l x ∨ n ≤ x))) := by
  have hA := shmSize_mod (count * item)
  have hA' := shmSize_mod ((count + 1) * item)
  have hmul : (count + 1) * item = count * item + item := by rw [Nat.add_mul, Nat.one_mul]
  have hle : shmSize (count * item) ≤ shmSize ((count + 1) * item) := shmSize_mono (by omega)
  have hdiff : shmSize ((count + 1) * item) - shmSize (count * item) ≤ shmSize item := by
    have := shmSize_add_le (count * item) item; rw [hmul]; omega
  unfold addArray
  by_cases hd : shmSize ((count + 1) * item) - shmSize (count * item) = 0
  · have he : shmSize ((count + 1) * item) = shmSize (count * item) := by omega
    have hc : count ≠ 0 := by
      rintro rfl
      have := shmSize_ge item
      simp only [Nat.zero_mul, shmSize_zero, Nat.zero_add, Nat.one_mul] at he
      omega
    have ha := ha hc
    simp only [he, Nat.sub_self, if_true]
    refine ⟨m, l, aoff, n, false, rfl, hH, ha.1, hn8, ha.2.1, Nat.le_refl _, ha.2.2, by omega, ?_, ?_, fun _ _ _ => rfl,
      Or.inl ⟨rfl, rfl, by omega, ?_⟩⟩
    · intros; omega
    · intro x
      exact ⟨fun h => ⟨h, fun h1 => hfree x h1.1 h1.2 h⟩, fun h => h.1⟩
    · intros; omega
  · simp only [if_neg hd]
    have hext : ∃ m1 l1 b, (if aoff ≠ 0 then extend ⟨m, n⟩ (aoff + (shmSize ((count + 1) * item) - shmSize (count * item)))
          (shmSize ((count + 1) * item) - shmSize (count * item)) else some (⟨m, n⟩, false)) = some (⟨m1, n⟩, b) ∧ HS m1 l1 n ∧ (∀ x, 8 ≤ x → ¬ Cov l x → m1 x = m x) ∧
        ((b = false ∧ m1 = m ∧ l1 = l) ∨
         (b = true ∧ aoff ≠ 0 ∧ aoff + shmSize ((count + 1) * item) ≤ n ∧
          (∀ x, aoff + shmSize (count * item) ≤ x → x < aoff + shmSize ((count + 1) * item) → Cov l x) ∧
          ∀ x, Cov l1 x ↔ Cov l x ∧ ¬ (aoff ≤ x ∧ x < aoff + shmSize ((count + 1) * item)))) := by
      by_cases h0 : aoff = 0
      · exact ⟨m, l, false, by simp [h0], hH, fun _ _ _ => rfl, Or.inl ⟨rfl, rfl, rfl⟩⟩
      · rw [if_pos h0]
        have ha := ha (fun h => h0 (hz.2 h))
        obtain ⟨m1, l1, b, e, h1, f1, h2⟩ := extend_spec (off := aoff + (shmSize ((count + 1) * item) - shmSize (count * item)))
          (k := shmSize ((count + 1) * item) - shmSize (count * item)) hH hn (by omega) (by omega)
        refine ⟨m1, l1, b, e, h1, f1, ?_⟩
        rcases h2 with h2 | ⟨hb, hle2, hc0, hcx, hc1⟩
        · exact Or.inl h2
        · -- the hole cannot be inside of the array, so it is right after it
          have hc : count ≠ 0 := fun h => h0 (hz.2 h)
          have hge : item ≤ count * item := Nat.le_mul_of_pos_left _ (by omega)
          have hge' := shmSize_mono hge
          have heq : shmSize ((count + 1) * item) - shmSize (count * item) = shmSize (count * item) := by
            by_cases hlt : shmSize ((count + 1) * item) - shmSize (count * item) < shmSize (count * item)
            · exact absurd hc0 (hfree _ (by omega) (by omega))
            · omega
          refine Or.inr ⟨hb, h0, by omega, fun x hx1 hx2 => hcx x (by omega) (by omega), fun x => ?_⟩
          rw [hc1]
          constructor
          · rintro ⟨h3, h4⟩
            refine ⟨h3, fun h5 => ?_⟩
            by_cases h6 : x < aoff + shmSize (count * item)
            · exact hfree x h5.1 h6 h3
            · omega
          · rintro ⟨h3, h4⟩
            exact ⟨h3, by omega⟩
    obtain ⟨m1, l1, b, e, h1, f1, h2⟩ := hext
    simp only [e]
    rcases h2 with ⟨rfl, rfl, rfl⟩ | ⟨rfl, h0, hle2, hcx, hc1⟩
    · obtain ⟨m2, l2, off, N', e2, P⟩ := place_spec hH hn (Nat.le_refl _) hn8 h8 hA'
      simp only [e2]
      exact ⟨m2, l2, off, N', true, rfl, P.hs, P.al, P.al', P.ge, P.le, P.fit, P.bound, P.used, P.cov, P.frame, Or.inr ⟨rfl, P.fresh⟩⟩
    · have ha := ha (fun h => h0 (hz.2 h))
      refine ⟨m1, l1, aoff, n, false, rfl, h1, ha.1, hn8, ha.2.1, Nat.le_refl _, hle2, by omega, by intros; omega, hc1, f1,
        Or.inl ⟨rfl, rfl, h0, hcx⟩⟩

/-- What placing the attribute guarantees. -/
theorem addAttr_spec {m : Mem} {n N len : Nat} {l : List (Nat × Nat)} (hH : HS m l n) (hn : n < 4294967296)
    (hN : n ≤ N) (hN8 : N % 8 = 0) (h8 : 8 ≤ N) :
    ∃ m' l' off N', addAttr ⟨m, n⟩ N len = some (⟨m', n⟩, off, N') ∧
      HS m' l' n ∧ (len ≠ 0 → off % 8 = 0 ∧ 8 ≤ off) ∧ N' % 8 = 0 ∧ N ≤ N' ∧ N' ≤ N + shmSize len ∧ (len = 0 → off = 0) ∧ (len ≠ 0 → off + shmSize len ≤ N') ∧
      (∀ x, off ≤ x → x < off + shmSize len → Cov l x ∨ N ≤ x) ∧
      (∀ x, N ≤ x → x < N' → off ≤ x ∧ x < off + shmSize len) ∧
      (∀ x, Cov l' x ↔ Cov l x ∧ ¬ (off ≤ x ∧ x < off + shmSize len)) ∧
      (∀ x, 8 ≤ x → ¬ Cov l x → m' x = m x) := by
  unfold addAttr
  by_cases hz : shmSize len = 0
  · have hl : len = 0 := shmSize_eq_zero.1 hz
    subst hl
    simp only [shmSize_zero, if_true]
    refine ⟨m, l, 0, N, rfl, hH, by simp, hN8, Nat.le_refl _, by omega, by simp, by simp, by intros; omega, by intros; omega, ?_, fun _ _ _ => rfl⟩
    intro x; exact ⟨fun h => ⟨h, by omega⟩, fun h => h.1⟩
  · rw [if_neg hz]
    obtain ⟨m2, l2, off, N', e2, P⟩ := place_spec hH hn hN hN8 h8 (shmSize_mod len)
    exact ⟨m2, l2, off, N', e2, P.hs, fun _ => ⟨P.al, P.ge⟩, P.al', P.le, P.bound, fun h => absurd (shmSize_eq_zero.2 h) hz, fun _ => P.fit, P.fresh, P.used, P.cov, P.frame⟩

theorem move_in {m : Mem} {dst src n x y : Nat} (h : dst ≤ x ∧ x < dst + n) (hy : src + (x - dst) = y) :
    move m dst src n x = m y := by
  unfold move; rw [if_pos h, hy]

theorem move_out {m : Mem} {dst src n x : Nat} (h : ¬ (dst ≤ x ∧ x < dst + n)) : move m dst src n x = m x := by
  unfold move; rw [if_neg h]

/-- Copying of the items. -/
theorem addCopy_spec {m : Mem} {aoff off count item idx : Nat} {moved : Bool} (hidx : idx ≤ count)
    (h : (moved = false ∧ off = aoff) ∨
      (moved = true ∧ (off + (count + 1) * item ≤ aoff ∨ aoff + count * item ≤ off))) :
    (∀ r, r < idx * item → addCopy m aoff off count item idx moved (off + r) = m (aoff + r)) ∧
    (∀ r, idx * item ≤ r → r < count * item →
      addCopy m aoff off count item idx moved (off + item + r) = m (aoff + r)) ∧
    (∀ x, x < off ∨ off + (count + 1) * item ≤ x → addCopy m aoff off count item idx moved x = m x) := by
  have hmul : (count + 1) * item = count * item + item := by rw [Nat.add_mul, Nat.one_mul]
  have hmul2 : (idx + 1) * item = idx * item + item := by rw [Nat.add_mul, Nat.one_mul]
  have hmul3 : (count - idx) * item = count * item - idx * item := Nat.sub_mul ..
  have hle : idx * item ≤ count * item := Nat.mul_le_mul_right _ hidx
  rw [hmul] at h ⊢
  unfold addCopy
  rw [hmul2, hmul3]
  generalize hI : idx * item = I at *
  generalize hC : count * item = C at *
  have hIC : ¬ idx < count → I = C := by
    intro h1
    have : idx = count := by omega
    subst this; omega
  have hI0 : idx = 0 → I = 0 := by rintro rfl; simp at hI; omega
  refine ⟨fun r hr => ?_, fun r hr1 hr2 => ?_, fun x hx => ?_⟩
  · rcases h with ⟨rfl, rfl⟩ | ⟨rfl, h⟩
    · simp only [Bool.false_eq_true, false_and, if_false]
      split
      · rw [move_out (by omega)]
      · rfl
    · have : idx ≠ 0 := fun h0 => by have := hI0 h0; omega
      simp only [this, ne_eq, not_false_eq_true, and_self, if_true]
      split
      · rw [move_out (by omega), move_in (y := aoff + r) (by omega) (by omega)]
      · rw [move_in (y := aoff + r) (by omega) (by omega)]
  · have hlt : idx < count := by
      rcases Nat.lt_or_ge idx count with h1 | h1
      · exact h1
      · have := hIC (by omega); omega
    rw [if_pos hlt, move_in (y := aoff + r) (by omega) (by omega)]
    rcases h with ⟨rfl, rfl⟩ | ⟨rfl, h⟩
    · simp only [Bool.false_eq_true, false_and, if_false]
    · split
      · rw [move_out (by omega)]
      · rfl
  · split
    · rw [move_out (by omega)]
      split
      · rw [move_out (by omega)]
      · rfl
    · split
      · rw [move_out (by omega)]
      · rfl

theorem holeAdd_size {sh sh' : Shm} {off size : Nat} (h : holeAdd sh off size = some sh') : sh'.size = sh.size := by
  unfold holeAdd at h
  split at h
  · injection h with h; rw [h]
  · split at h
    · simp at h
    · simp only at h
      split at h
      · injection h with h; rw [← h]
      · split at h
        · injection h with h; rw [← h]
        · split at h
          · injection h with h; rw [← h]
          · injection h with h; rw [← h]

/-- Offset `x` in the range of length `k` from `off`. -/
abbrev In (off k x : Nat) : Prop := off ≤ x ∧ x < off + k

/-- What a successful `sr_shmrealloc_add` guarantees. -/
structure AddOk (m : Mem) (l : List (Nat × Nat)) (n aoff count item idx len : Nat) (o : AddOut)
    (l' : List (Nat × Nat)) : Prop where
  hs : HS o.sh.mem l' o.sh.size
  size8 : o.sh.size % 8 = 0
  sizeGe : n ≤ o.sh.size
  cnt : o.count = count + 1
  itm : o.itemOff = o.arrayOff + idx * item
  arr : o.arrayOff % 8 = 0 ∧ 8 ≤ o.arrayOff ∧ o.arrayOff + shmSize ((count + 1) * item) ≤ o.sh.size
  attr : len ≠ 0 → o.attrOff % 8 = 0 ∧ 8 ≤ o.attrOff ∧ o.attrOff + shmSize len ≤ o.sh.size
  attr0 : len = 0 → o.attrOff = 0
  disj : ∀ x, In o.arrayOff (shmSize ((count + 1) * item)) x → ¬ In o.attrOff (shmSize len) x
  arrFresh : ∀ x, In o.arrayOff (shmSize ((count + 1) * item)) x → Cov l x ∨ n ≤ x ∨ In aoff (shmSize (count * item)) x
  attrFresh : ∀ x, In o.attrOff (shmSize len) x → Cov l x ∨ n ≤ x
  cov : ∀ x, 8 ≤ x → x < o.sh.size → (Cov l' x ↔ (Cov l x ∨ n ≤ x ∨ In aoff (shmSize (count * item)) x) ∧
    ¬ In o.arrayOff (shmSize ((count + 1) * item)) x ∧ ¬ In o.attrOff (shmSize len) x)
  before : ∀ r, r < idx * item → o.sh.mem (o.arrayOff + r) = m (aoff + r)
  after : ∀ r, idx * item ≤ r → r < count * item → o.sh.mem (o.arrayOff + item + r) = m (aoff + r)
  frame : ∀ x, 8 ≤ x → x < n → ¬ Cov l x → ¬ In aoff (shmSize (count * item)) x → o.sh.mem x = m x

theorem shmreallocAdd_spec {m : Mem} {n aoff count item idx len : Nat} {l : List (Nat × Nat)} {g : Bool} (hH : HS m l n)
    (hn : n < 4294967296) (hn8 : n % 8 = 0) (h8 : 8 ≤ n) (hi : 0 < item)
    (hz : aoff = 0 ↔ count = 0) (hidx : idx ≤ count)
    (ha : count ≠ 0 → aoff % 8 = 0 ∧ 8 ≤ aoff ∧ aoff + shmSize (count * item) ≤ n)
    (hfree : ∀ x, In aoff (shmSize (count * item)) x → ¬ Cov l x) :
    ∃ sz, sz ≤ n + shmSize ((count + 1) * item) + shmSize len ∧
      (∀ o, shmreallocAdd ⟨m, n⟩ aoff count item idx len g = .ok o → o.sh.size = sz) ∧
      ((∃ sh', shmreallocAdd ⟨m, n⟩ aoff count item idx len g = .sysErr sh' ∧ g = false) ∨
       (sz < 4294967296 → ∃ o l', shmreallocAdd ⟨m, n⟩ aoff count item idx len g = .ok o ∧
          AddOk m l n aoff count item idx len o l')) := by
  obtain ⟨m1, l1, off, sz1, moved, e1, h1, hal1, hsz18, hge1, hle1, hfit1, hbd1, hus1, hc1, hf1, hmv⟩ :=
    addArray_spec hH hn hn8 h8 hi hz ha (fun x h1 h2 => hfree x ⟨h1, h2⟩)
  obtain ⟨m2, l2, aof, sz2, e2, h2, hal2, hsz28, hle2, hbd2, hz2, hfit2, hfr2, hus2, hc2, hf2⟩ :=
    addAttr_spec (len := len) h1 hn hle1 hsz18 (by omega)
  have hAge := shmSize_ge (count * item)
  have hA'ge := shmSize_ge ((count + 1) * item)
  have hpre : ¬(¬((aoff ≠ 0 ∧ count ≠ 0) ∨ (aoff = 0 ∧ count = 0)) ∨ ¬ idx ≤ count) := by
    by_cases h0 : aoff = 0
    · have := hz.1 h0; simp [h0, this]; omega
    · have : count ≠ 0 := fun h => h0 (hz.2 h); simp [h0, this]; omega
  unfold shmreallocAdd
  rw [if_neg hpre]
  simp only [e1, e2]
  refine ⟨sz2, by omega, ?_, ?_⟩
  · intro o ho
    split at ho
    · simp at ho
    · split at ho
      · simp at ho
      · split at ho
        · simp at ho
        · rename_i sh5 hsh5
          injection ho with ho
          rw [← ho]; simp only
          obtain ⟨m3, e3, h3, f3⟩ := h2.remap (N := sz2) (by omega) h8
          rw [e3] at hsh5
          split at hsh5
          · rw [holeAdd_size hsh5]
          · injection hsh5 with hsh5; rw [← hsh5]
  · by_cases hg : sz2 > n ∧ g = false
    · left; exact ⟨⟨m2, n⟩, by rw [if_pos hg], hg.2⟩
    right
    intro hszb
    rw [if_neg hg]
    obtain ⟨m3, e3, h3, f3⟩ := h2.remap (N := sz2) (by omega) h8
    have hoff0 : ¬ (off = 0 ∨ shmSize len ≠ 0 ∧ aof = 0) := by
      rintro (h | ⟨h, h'⟩)
      · omega
      · have := hal2 (fun hl => h (shmSize_eq_zero.2 hl)); omega
    simp only [e3, if_neg hoff0]
    -- the new array does not overlap with the attribute
    have hdisj : ∀ x, In off (shmSize ((count + 1) * item)) x → ¬ In aof (shmSize len) x := by
      intro x hx hx2
      rcases hfr2 x hx2.1 hx2.2 with h | h
      · exact ((hc1 x).1 h).2 hx
      · have := hx.2; omega
    have holdn : ∀ x, In aoff (shmSize (count * item)) x → 8 ≤ x ∧ x < n := by
      intro x hx
      have hc : count ≠ 0 := by rintro rfl; simp [shmSize] at hx; omega
      have := ha hc; have := hx.1; have := hx.2; omega
    -- content of the old array is still there before the copying
    have hold : ∀ x, 8 ≤ x → x < n → ¬ Cov l x → m3 x = m x := by
      intro x hx hxn hc
      rw [f3 x hxn, hf2 x hx (fun h => hc ((hc1 x).1 h).1), hf1 x hx hc]
    have hmv' : (moved = false ∧ off = aoff) ∨
        (moved = true ∧ (off + (count + 1) * item ≤ aoff ∨ aoff + count * item ≤ off)) := by
      rcases hmv with ⟨h1, h2, -⟩ | ⟨h1, h2⟩
      · exact Or.inl ⟨h1, h2⟩
      · refine Or.inr ⟨h1, ?_⟩
        by_cases hc : count = 0
        · have := hz.2 hc; subst hc; simp only [Nat.zero_mul]; omega
        have ha := ha hc
        have hpos : 0 < count * item := Nat.mul_pos (by omega) hi
        have hpos2 : 0 < (count + 1) * item := Nat.mul_pos (by omega) hi
        have hmod1 := shmSize_mod (count * item)
        have hmod2 := shmSize_mod ((count + 1) * item)
        rcases Nat.lt_or_ge (max aoff off) (min (aoff + shmSize (count * item)) (off + shmSize ((count + 1) * item))) with h3 | h3
        · exfalso
          have hx1 : In aoff (shmSize (count * item)) (max aoff off) := ⟨by omega, by omega⟩
          have hx2 : In off (shmSize ((count + 1) * item)) (max aoff off) := ⟨by omega, by omega⟩
          rcases h2 _ hx2.1 hx2.2 with h | h
          · exact hfree _ hx1 h
          · have := hx1.2; omega
        · by_cases h4 : off + shmSize ((count + 1) * item) ≤ aoff
          · left; omega
          · right; omega
    obtain ⟨cb, ca, cf⟩ := addCopy_spec (m := m3) (aoff := aoff) (off := off) (moved := moved) (item := item) hidx hmv'
    generalize hm4 : addCopy m3 aoff off count item idx moved = m4 at *
    have hm4H : HS m4 l2 sz2 := h3.congr (Nat.le_refl _) (fun x hx => by
      apply cf
      rcases hx with hx | hx
      · omega
      · have h5 := ((hc1 x).1 ((hc2 x).1 hx).1).2
        by_cases h6 : x < off
        · exact Or.inl h6
        · exact Or.inr (by
            have : ¬ x < off + shmSize ((count + 1) * item) := fun h7 => h5 ⟨by omega, h7⟩
            omega))
    -- free the old array
    have hfin : ∃ m5 l5, (if moved = true ∧ aoff ≠ 0 then holeAdd ⟨m4, sz2⟩ aoff (shmSize (count * item)) else some ⟨m4, sz2⟩) =
        some ⟨m5, sz2⟩ ∧ HS m5 l5 sz2 ∧
        (∀ x, 8 ≤ x → x < sz2 → (Cov l5 x ↔ (Cov l x ∨ n ≤ x ∨ In aoff (shmSize (count * item)) x) ∧
            ¬ In off (shmSize ((count + 1) * item)) x ∧ ¬ In aof (shmSize len) x)) ∧
        (∀ x, 8 ≤ x → ¬ Cov l5 x → m5 x = m4 x) := by
      have hcov2 : ∀ x, x < sz2 → (Cov l2 x ↔ (Cov l x ∨ n ≤ x) ∧ ¬ In off (shmSize ((count + 1) * item)) x ∧ ¬ In aof (shmSize len) x) := by
        intro x hx
        rw [hc2, hc1]
        constructor
        · rintro ⟨⟨h5, h6⟩, h7⟩; exact ⟨Or.inl h5, h6, h7⟩
        · rintro ⟨h5 | h5, h6, h7⟩
          · exact ⟨⟨h5, h6⟩, h7⟩
          · exfalso
            by_cases h9 : x < sz1
            · exact h6 (hus1 x h5 h9)
            · exact h7 (hus2 x (by omega) hx)
      by_cases hm : moved = true ∧ aoff ≠ 0
      · rw [if_pos hm]
        have hc : count ≠ 0 := fun h => hm.2 (hz.2 h)
        have ha := ha hc
        have hnew : ∀ x, In off (shmSize ((count + 1) * item)) x → Cov l x ∨ n ≤ x := by
          rcases hmv with ⟨h5, -⟩ | ⟨-, h5⟩
          · rw [hm.1] at h5; simp at h5
          · exact fun x hx => h5 x hx.1 hx.2
        have hnn : ∀ x, In aoff (shmSize (count * item)) x → ¬ In off (shmSize ((count + 1) * item)) x ∧ ¬ In aof (shmSize len) x := by
          intro x hx
          have hxn := holdn x hx
          refine ⟨fun h5 => ?_, fun h5 => ?_⟩
          · rcases hnew x h5 with h6 | h6
            · exact hfree x hx h6
            · omega
          · rcases hfr2 x h5.1 h5.2 with h6 | h6
            · exact hfree x hx ((hc1 x).1 h6).1
            · omega
        obtain ⟨m5, l5, e5, h5, c5, f5⟩ := holeAdd_spec (off := aoff) (size := shmSize (count * item)) hm4H hszb ha.1
          (shmSize_mod _) ha.2.1 (by omega) (fun x hx1 hx2 hx3 => hfree x ⟨hx1, hx2⟩ ((hc1 x).1 ((hc2 x).1 hx3).1).1)
        refine ⟨m5, l5, e5, h5, fun x hx hxs => ?_, f5⟩
        rw [c5, hcov2 x hxs]
        constructor
        · rintro (⟨h6 | h6, h7, h8⟩ | h6)
          · exact ⟨Or.inl h6, h7, h8⟩
          · exact ⟨Or.inr (Or.inl h6), h7, h8⟩
          · exact ⟨Or.inr (Or.inr h6), hnn x h6⟩
        · rintro ⟨h6 | h6 | h6, h7, h8⟩
          · exact Or.inl ⟨Or.inl h6, h7, h8⟩
          · exact Or.inl ⟨Or.inr h6, h7, h8⟩
          · exact Or.inr h6
      · rw [if_neg hm]
        refine ⟨m4, l2, rfl, hm4H, fun x hx hxs => ?_, fun _ _ _ => rfl⟩
        rw [hcov2 x hxs]
        constructor
        · rintro ⟨h6 | h6, h7, h8⟩
          · exact ⟨Or.inl h6, h7, h8⟩
          · exact ⟨Or.inr (Or.inl h6), h7, h8⟩
        · rintro ⟨h6 | h6 | h6, h7, h8⟩
          · exact ⟨Or.inl h6, h7, h8⟩
          · exact ⟨Or.inr h6, h7, h8⟩
          · exfalso
            rcases hmv' with ⟨h9, h10⟩ | ⟨h9, -⟩
            · subst h10
              have : shmSize (count * item) ≤ shmSize ((count + 1) * item) := shmSize_mono (Nat.mul_le_mul_right _ (by omega))
              exact h7 ⟨h6.1, by have := h6.2; omega⟩
            · have h11 : aoff = 0 := by
                rcases Nat.eq_zero_or_pos aoff with h | h
                · exact h
                · exact absurd ⟨h9, by omega⟩ hm
              have := holdn x h6
              have := hz.1 h11; subst this
              simp only [Nat.zero_mul, shmSize_zero] at h6
              have := h6.1; have := h6.2; omega
    obtain ⟨m5, l5, e5, h5, c5, f5⟩ := hfin
    simp only [e5]
    have hAend : off + shmSize ((count + 1) * item) ≤ sz2 := by omega
    have hnewm : ∀ x, In off (shmSize ((count + 1) * item)) x → m5 x = m4 x := fun x hx =>
      f5 x (by have := hx.1; omega) (fun h => ((c5 x (by have := hx.1; omega) (by have := hx.2; omega)).1 h).2.1 hx)
    have hmul : (count + 1) * item = count * item + item := by rw [Nat.add_mul, Nat.one_mul]
    have hleI : idx * item ≤ count * item := Nat.mul_le_mul_right _ hidx
    refine ⟨_, l5, rfl, h5, hsz28, by simp only; omega, rfl, rfl, ⟨hal1, hge1, hAend⟩, ?_, hz2, hdisj, ?_, ?_, c5, ?_, ?_, ?_⟩
    · intro hl; exact ⟨(hal2 hl).1, (hal2 hl).2, hfit2 hl⟩
    · intro x hx
      rcases hmv with ⟨-, rfl, -, h6⟩ | ⟨-, h6⟩
      · by_cases h7 : x < off + shmSize (count * item)
        · exact Or.inr (Or.inr ⟨hx.1, h7⟩)
        · exact Or.inl (h6 x (by omega) hx.2)
      · rcases h6 x hx.1 hx.2 with h7 | h7
        · exact Or.inl h7
        · exact Or.inr (Or.inl h7)
    · intro x hx
      rcases hfr2 x hx.1 hx.2 with h6 | h6
      · exact Or.inl ((hc1 x).1 h6).1
      · exact Or.inr (by omega)
    · intro r hr
      simp only
      rw [hnewm _ ⟨by omega, by omega⟩, cb r hr]
      have hin : In aoff (shmSize (count * item)) (aoff + r) := ⟨by omega, by omega⟩
      exact hold _ (holdn _ hin).1 (holdn _ hin).2 (hfree _ hin)
    · intro r hr1 hr2
      simp only
      rw [hnewm _ ⟨by omega, by omega⟩, ca r hr1 hr2]
      have hin : In aoff (shmSize (count * item)) (aoff + r) := ⟨by omega, by omega⟩
      exact hold _ (holdn _ hin).1 (holdn _ hin).2 (hfree _ hin)
    · intro x hx hxn hc hin
      simp only
      have hnotnew : ¬ In off (shmSize ((count + 1) * item)) x := by
        intro h6
        rcases hmv with ⟨-, rfl, -, h7⟩ | ⟨-, h7⟩
        · by_cases h8 : x < off + shmSize (count * item)
          · exact hin ⟨h6.1, h8⟩
          · exact hc (h7 x (by omega) h6.2)
        · rcases h7 x h6.1 h6.2 with h8 | h8
          · exact hc h8
          · omega
      rw [f5 x hx, cf x, hold x hx hxn hc]
      · by_cases h6 : x < off
        · exact Or.inl h6
        · refine Or.inr ?_
          have : ¬ x < off + shmSize ((count + 1) * item) := fun h7 => hnotnew ⟨by omega, h7⟩
          omega
      · intro h6
        rcases ((c5 x hx (by omega)).1 h6).1 with h7 | h7 | h7
        · exact hc h7
        · omega
        · exact hin h7

end Verif.ExtShm
