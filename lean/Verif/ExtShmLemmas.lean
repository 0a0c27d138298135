import Verif.ExtShm
/-! Helper lemmas about the hole list and the allocator of the external shared memory. -/
namespace Verif.ExtShm

/-! ## Memory -/

theorem rd_wr_same (m : Mem) (a v : Nat) (h : v < 4294967296) : rd32 (wr32 m a v) a = v := by
  simp [rd32, wr32]; omega

theorem wr_other (m : Mem) (a v x : Nat) (h : x < a ∨ a + 4 ≤ x) : wr32 m a v x = m x := by
  unfold wr32
  rw [if_neg (by omega), if_neg (by omega), if_neg (by omega), if_neg (by omega)]

theorem rd_congr (m m' : Mem) (a : Nat) (h : ∀ x, a ≤ x → x < a + 4 → m' x = m x) : rd32 m' a = rd32 m a := by
  unfold rd32
  rw [h a (by omega) (by omega), h (a+1) (by omega) (by omega), h (a+2) (by omega) (by omega),
    h (a+3) (by omega) (by omega)]

theorem rd_wr_other (m : Mem) (a b v : Nat) (h : b + 4 ≤ a ∨ a + 4 ≤ b) : rd32 (wr32 m a v) b = rd32 m b :=
  rd_congr _ _ _ fun x _ _ => wr_other _ _ _ _ (by omega)

theorem shmSize_mod (n : Nat) : shmSize n % 8 = 0 := by simp [shmSize]
theorem shmSize_ge (n : Nat) : n ≤ shmSize n := by simp only [shmSize]; omega
theorem shmSize_lt (n : Nat) : shmSize n < n + 8 := by simp only [shmSize]; omega
theorem shmSize_zero : shmSize 0 = 0 := rfl
theorem shmSize_eq_zero {n : Nat} : shmSize n = 0 ↔ n = 0 := by simp only [shmSize]; omega
theorem shmSize_mono {a b : Nat} (h : a ≤ b) : shmSize a ≤ shmSize b := by simp only [shmSize]; omega
theorem shmSize_idem (n : Nat) : shmSize (shmSize n) = shmSize n := by simp only [shmSize]; omega
theorem shmSize_add_le (a b : Nat) : shmSize (a + b) ≤ shmSize a + shmSize b := by simp only [shmSize]; omega

/-! ## Hole list in the memory -/

/-- List segment of holes from the pointer cell `c`. -/
def Seg (m : Mem) : Nat → List (Nat × Nat) → Prop
  | _, [] => True
  | c, h :: r => rd32 m c = h.1 ∧ h.1 ≠ 0 ∧ rd32 m h.1 = h.2 ∧ Seg m (h.1 + 4) r

/-- Pointer cell after the last hole. -/
def endCell : Nat → List (Nat × Nat) → Nat
  | c, [] => c
  | _, h :: r => endCell (h.1 + 4) r

/-- Bytes a list segment depends on. -/
def Reads : Nat → List (Nat × Nat) → Nat → Prop
  | _, [], _ => False
  | c, h :: r, x => (c ≤ x ∧ x < c + 4) ∨ (h.1 ≤ x ∧ x < h.1 + 4) ∨ Reads (h.1 + 4) r x

theorem Seg.congr {m m' : Mem} {c : Nat} {l : List (Nat × Nat)} (h : Seg m c l)
    (he : ∀ x, Reads c l x → m' x = m x) : Seg m' c l := by
  induction l generalizing c with
  | nil => trivial
  | cons a r ih =>
    obtain ⟨h1, h2, h3, h4⟩ := h
    refine ⟨?_, h2, ?_, ih h4 fun x hx => he x (Or.inr (Or.inr hx))⟩
    · rw [rd_congr m m' c fun x _ _ => he x (Or.inl ⟨by omega, by omega⟩), h1]
    · rw [rd_congr m m' a.1 fun x _ _ => he x (Or.inr (Or.inl ⟨by omega, by omega⟩)), h3]

theorem seg_append {m : Mem} {c : Nat} {a b : List (Nat × Nat)} :
    Seg m c (a ++ b) ↔ Seg m c a ∧ Seg m (endCell c a) b := by
  induction a generalizing c with
  | nil => simp [Seg, endCell]
  | cons h r ih => simp only [List.cons_append, Seg, endCell, ih, and_assoc]

theorem endCell_append {c : Nat} {a b : List (Nat × Nat)} : endCell c (a ++ b) = endCell (endCell c a) b := by
  induction a generalizing c with
  | nil => rfl
  | cons h r ih => simp only [List.cons_append, endCell, ih]

theorem endCell_concat {c : Nat} {a : List (Nat × Nat)} {h : Nat × Nat} : endCell c (a ++ [h]) = h.1 + 4 := by
  rw [endCell_append]; rfl

theorem reads_append {c : Nat} {a b : List (Nat × Nat)} {x : Nat} :
    Reads c (a ++ b) x ↔ Reads c a x ∨ Reads (endCell c a) b x := by
  induction a generalizing c with
  | nil => simp [Reads, endCell]
  | cons h r ih => simp only [List.cons_append, Reads, endCell, ih, or_assoc]

/-- Well-formed hole list in a segment: ascending, never touching, aligned, not empty, past the header. -/
structure WFL (l : List (Nat × Nat)) (size : Nat) : Prop where
  asc : l.Pairwise (fun a b => a.1 + a.2 < b.1)
  ok : ∀ h ∈ l, h.1 % 8 = 0 ∧ h.2 % 8 = 0 ∧ 8 ≤ h.1 ∧ 8 ≤ h.2 ∧ h.1 + h.2 ≤ size

/-- The memory holds the hole list `l`. -/
structure HS (m : Mem) (l : List (Nat × Nat)) (size : Nat) : Prop extends WFL l size where
  seg : Seg m 0 l
  fin : rd32 m (endCell 0 l) = 0

/-- Byte in a hole. -/
def Cov (l : List (Nat × Nat)) (x : Nat) : Prop := ∃ h ∈ l, h.1 ≤ x ∧ x < h.1 + h.2

theorem cov_append {a b : List (Nat × Nat)} {x : Nat} : Cov (a ++ b) x ↔ Cov a x ∨ Cov b x := by
  simp only [Cov, List.mem_append]; grind

theorem cov_cons {h : Nat × Nat} {b : List (Nat × Nat)} {x : Nat} :
    Cov (h :: b) x ↔ (h.1 ≤ x ∧ x < h.1 + h.2) ∨ Cov b x := by
  simp only [Cov, List.mem_cons]; grind

theorem cov_nil {x : Nat} : ¬ Cov [] x := by simp [Cov]

theorem WFL.sub {a b : List (Nat × Nat)} {n : Nat} (h : WFL b n) (hs : a.Sublist b) : WFL a n :=
  ⟨h.asc.sublist hs, fun x hx => h.ok x (hs.subset hx)⟩

/-- Bytes read by a well-formed list are the start pointer or in the first 8 bytes of a hole, and not the end
pointer cell. -/
theorem WFL.reads {l : List (Nat × Nat)} {n c x : Nat} (h : WFL l n) (hr : Reads c l x)
    (hc : ∀ q ∈ l, c + 4 ≤ q.1) :
    ((c ≤ x ∧ x < c + 4) ∨ ∃ q ∈ l, q.1 ≤ x ∧ x < q.1 + 8) ∧ x < endCell c l := by
  induction l generalizing c with
  | nil => exact absurd hr (by simp [Reads])
  | cons a r ih =>
    have hA := h.ok a (by simp)
    have hP := List.pairwise_cons.1 h.asc
    have hr' : WFL r n := ⟨hP.2, fun q hq => h.ok q (by simp [hq])⟩
    have hge : ∀ (c : Nat) (r : List (Nat × Nat)), (∀ q ∈ r, c + 4 ≤ q.1) → r.Pairwise (fun a b => a.1 + a.2 < b.1) →
        (∀ q ∈ r, 8 ≤ q.2) → c ≤ endCell c r := by
      intro c r
      induction r generalizing c with
      | nil => intros; exact Nat.le_refl _
      | cons b t ih2 =>
        intro h1 h2 h3
        have hp := List.pairwise_cons.1 h2
        have := ih2 (b.1 + 4) (fun q hq => by have := hp.1 q hq; have := h3 b (by simp); omega) hp.2
          (fun q hq => h3 q (by simp [hq]))
        have := h1 b (by simp)
        simp only [endCell]; omega
    have hc' : ∀ q ∈ r, a.1 + 4 + 4 ≤ q.1 := fun q hq => by have := hP.1 q hq; omega
    have hE := hge (a.1 + 4) r hc' hP.2 (fun q hq => (hr'.ok q hq).2.2.2.1)
    have hca := hc a (by simp)
    simp only [endCell]
    rcases hr with hr | hr | hr
    · exact ⟨Or.inl hr, by omega⟩
    · exact ⟨Or.inr ⟨a, by simp, by omega, by omega⟩, by omega⟩
    · obtain ⟨h1, h2⟩ := ih hr' hr hc'
      refine ⟨Or.inr ?_, h2⟩
      rcases h1 with h1 | ⟨q, hq, h1⟩
      · exact ⟨a, by simp, by omega, by omega⟩
      · exact ⟨q, by simp [hq], h1⟩

theorem WFL.reads0 {l : List (Nat × Nat)} {n x : Nat} (h : WFL l n) (hr : Reads 0 l x) :
    (x < 4 ∨ ∃ q ∈ l, q.1 ≤ x ∧ x < q.1 + 8) ∧ x < endCell 0 l := by
  have := h.reads hr (fun q hq => by have := h.ok q hq; omega)
  exact ⟨by rcases this.1 with h1 | h1; exact Or.inl (by omega); exact Or.inr h1, this.2⟩

theorem WFL.length {l : List (Nat × Nat)} {n : Nat} (h : WFL l n) : l.length < n + 1 := by
  have : ∀ (l : List (Nat × Nat)) (k : Nat), l.Pairwise (fun a b => a.1 + a.2 < b.1) →
      (∀ h ∈ l, k ≤ h.1 ∧ 8 ≤ h.2 ∧ h.1 + h.2 ≤ n) → k ≤ n → k + l.length ≤ n := by
    intro l
    induction l with
    | nil => intro k _ _ h; simpa using h
    | cons a r ih =>
      intro k hp ho hk
      have hP := List.pairwise_cons.1 hp
      have ha := ho a (by simp)
      have := ih (k + 1) hP.2 (fun q hq => by
        have := hP.1 q hq; have := ho q (by simp [hq]); omega) (by omega)
      simp only [List.length_cons]; omega
  have := this l 0 h.asc (fun q hq => by have := h.ok q hq; omega) (by omega)
  omega

/-! ## Loops -/

/-- First hole of a list, 0 for none. -/
def start : List (Nat × Nat) → Nat
  | [] => 0
  | h :: _ => h.1

/-- Offset of the last hole of a list, 0 for none. -/
def lastOff : Nat → List (Nat × Nat) → Nat
  | p, [] => p
  | _, h :: r => lastOff h.1 r

theorem findLoop_spec {m : Mem} {n c : Nat} {l : List (Nat × Nat)} (off k : Nat) (hW : WFL l n) (hs : Seg m c l)
    (he : rd32 m (endCell c l) = 0) (f : Nat) (hf : l.length < f) :
    (∃ h ∈ l, findLoop m off k f (rd32 m c) = some h.1 ∧ k ≤ h.2 ∧ (off ≠ 0 → h.1 = off)) ∨
      findLoop m off k f (rd32 m c) = some 0 := by
  induction l generalizing c f with
  | nil =>
    obtain ⟨f, rfl⟩ : ∃ g, f = g + 1 := ⟨f - 1, by omega⟩
    simp only [endCell] at he
    right; simp [findLoop, he]
  | cons a r ih =>
    obtain ⟨f, rfl⟩ : ∃ g, f = g + 1 := ⟨f - 1, by omega⟩
    obtain ⟨h1, h2, h3, h4⟩ := hs
    have ih := ih (hW.sub (List.sublist_cons_self ..)) h4 he f (by simp only [List.length_cons] at hf; omega)
    simp only [findLoop, h1, if_neg h2, holeSize, h3, holeNext]
    by_cases ho : off = 0
    · simp only [ho, ne_eq, not_true, if_false] at *
      split
      · left; exact ⟨a, by simp, rfl, by assumption, by simp⟩
      · rcases ih with ⟨h, hh, h5, h6⟩ | ih
        · left; exact ⟨h, by simp [hh], h5, h6⟩
        · right; exact ih
    · simp only [ne_eq, ho, not_false_eq_true, if_true] at *
      split
      · left; exact ⟨a, by simp, rfl, by omega, by intro; omega⟩
      · split
        · right; rfl
        · rcases ih with ⟨h, hh, h5, h6⟩ | ih
          · left; exact ⟨h, by simp [hh], h5, h6⟩
          · right; exact ih

theorem delLoop_spec {m : Mem} {n c : Nat} {a b : List (Nat × Nat)} {h : Nat × Nat} (hW : WFL (a ++ h :: b) n)
    (hs : Seg m c (a ++ h :: b)) (f p : Nat) (hf : a.length < f) :
    delLoop m h.1 f p (rd32 m c) = some (lastOff p a) := by
  induction a generalizing c f p with
  | nil =>
    obtain ⟨f, rfl⟩ : ∃ g, f = g + 1 := ⟨f - 1, by omega⟩
    obtain ⟨h1, h2, -⟩ := hs
    simp [delLoop, h1, h2, lastOff]
  | cons q r ih =>
    obtain ⟨f, rfl⟩ : ∃ g, f = g + 1 := ⟨f - 1, by omega⟩
    obtain ⟨h1, h2, h3, h4⟩ := hs
    have := ih (hW.sub (List.sublist_cons_self ..)) h4 f q.1 (by simp only [List.length_cons] at hf; omega)
    have hP := (List.pairwise_cons.1 hW.asc).1 h (by simp)
    have hne : q.1 ≠ h.1 := by omega
    simp only [delLoop, h1, if_neg h2, if_neg hne, holeNext, this, lastOff]

theorem addLoop_spec {m : Mem} {n c : Nat} {l : List (Nat × Nat)} (off : Nat) (hW : WFL l n) (hs : Seg m c l)
    (he : rd32 m (endCell c l) = 0) (f p : Nat) (hf : l.length < f) :
    ∃ a b, l = a ++ b ∧ (∀ h ∈ a, h.1 ≤ off) ∧ (∀ h ∈ b, off < h.1) ∧
      addLoop m off f p (rd32 m c) = some (lastOff p a, start b) := by
  induction l generalizing c f p with
  | nil =>
    obtain ⟨f, rfl⟩ : ∃ g, f = g + 1 := ⟨f - 1, by omega⟩
    simp only [endCell] at he
    exact ⟨[], [], rfl, by simp, by simp, by simp [addLoop, he, lastOff, start]⟩
  | cons q r ih =>
    obtain ⟨f, rfl⟩ : ∃ g, f = g + 1 := ⟨f - 1, by omega⟩
    obtain ⟨h1, h2, h3, h4⟩ := hs
    by_cases hq : off < q.1
    · refine ⟨[], q :: r, rfl, by simp, ?_, by simp [addLoop, h1, h2, hq, lastOff, start]⟩
      intro h hh
      have hP := (List.pairwise_cons.1 hW.asc).1
      rcases List.mem_cons.1 hh with rfl | hh
      · exact hq
      · have := hP h hh; omega
    · obtain ⟨a, b, e, ha, hb, hl⟩ := ih (hW.sub (List.sublist_cons_self ..)) h4 he f q.1
        (by simp only [List.length_cons] at hf; omega)
      refine ⟨q :: a, b, by simp [e], ?_, hb, ?_⟩
      · intro h hh
        rcases List.mem_cons.1 hh with rfl | hh
        · omega
        · exact ha h hh
      · simp only [addLoop, h1, if_neg h2, if_neg hq, holeNext, hl, lastOff]

theorem lastLoop_spec {m : Mem} {c : Nat} {l : List (Nat × Nat)} (hs : Seg m c l)
    (he : rd32 m (endCell c l) = 0) (f p : Nat) (hf : l.length < f) :
    lastLoop m f p (rd32 m c) = some (lastOff p l) := by
  induction l generalizing c f p with
  | nil =>
    obtain ⟨f, rfl⟩ : ∃ g, f = g + 1 := ⟨f - 1, by omega⟩
    simp only [endCell] at he
    simp [lastLoop, he, lastOff]
  | cons q r ih =>
    obtain ⟨f, rfl⟩ : ∃ g, f = g + 1 := ⟨f - 1, by omega⟩
    obtain ⟨h1, h2, h3, h4⟩ := hs
    simp only [lastLoop, h1, if_neg h2, holeNext, ih h4 he f q.1 (by simp only [List.length_cons] at hf; omega), lastOff]

theorem lastOff_concat (p : Nat) (a : List (Nat × Nat)) (h : Nat × Nat) : lastOff p (a ++ [h]) = h.1 := by
  induction a generalizing p with
  | nil => rfl
  | cons q r ih => simp only [List.cons_append, lastOff, ih]

/-- The cell written by the code is the end cell of the preceding holes. -/
theorem cell_eq {a : List (Nat × Nat)} {n : Nat} (h : WFL a n) :
    (if lastOff 0 a ≠ 0 then lastOff 0 a + 4 else 0) = endCell 0 a := by
  rcases List.eq_nil_or_concat a with rfl | ⟨b, q, e⟩
  · rfl
  · rw [List.concat_eq_append] at e
    subst e
    have := h.ok q (by simp)
    rw [lastOff_concat, endCell_concat, if_pos (by omega)]

theorem holes_eq {m : Mem} {c : Nat} {l : List (Nat × Nat)} (hs : Seg m c l)
    (he : rd32 m (endCell c l) = 0) (f : Nat) (hf : l.length < f) : holesFrom m f c = some l := by
  induction l generalizing c f with
  | nil =>
    obtain ⟨f, rfl⟩ : ∃ g, f = g + 1 := ⟨f - 1, by omega⟩
    simp only [endCell] at he
    simp [holesFrom, he]
  | cons q r ih =>
    obtain ⟨f, rfl⟩ : ∃ g, f = g + 1 := ⟨f - 1, by omega⟩
    obtain ⟨h1, h2, h3, h4⟩ := hs
    simp only [holesFrom, h1, if_neg h2, h3, ih h4 he f (by simp only [List.length_cons] at hf; omega), Option.map_some]

theorem HS.holes {sh : Shm} {l : List (Nat × Nat)} (h : HS sh.mem l sh.size) : holes sh = some l :=
  holes_eq h.seg h.fin _ h.toWFL.length

theorem free_iff {sh : Shm} {l : List (Nat × Nat)} (h : HS sh.mem l sh.size) (x : Nat) : Free sh x ↔ Cov l x := by
  simp [Free, h.holes, Cov]

end Verif.ExtShm
