import Verif.ExtShmLemmas
/-! Helper lemmas: adding and removing holes. -/
namespace Verif.ExtShm

/-- The whole list from a pointer cell. -/
def CC (m : Mem) (c : Nat) (l : List (Nat × Nat)) : Prop := Seg m c l ∧ rd32 m (endCell c l) = 0

theorem CC.rd_start {m : Mem} {c : Nat} {l : List (Nat × Nat)} (h : CC m c l) : rd32 m c = start l := by
  cases l with
  | nil => exact h.2
  | cons q t => exact h.1.1

theorem CC.cons {m : Mem} {c : Nat} {h : Nat × Nat} {t : List (Nat × Nat)} :
    CC m c (h :: t) ↔ rd32 m c = h.1 ∧ h.1 ≠ 0 ∧ rd32 m h.1 = h.2 ∧ CC m (h.1 + 4) t := by
  simp only [CC, Seg, endCell, and_assoc]

theorem CC.append {m : Mem} {c : Nat} {a b : List (Nat × Nat)} :
    CC m c (a ++ b) ↔ Seg m c a ∧ CC m (endCell c a) b := by
  simp only [CC, seg_append, endCell_append, and_assoc]

theorem HS.cc {m : Mem} {l : List (Nat × Nat)} {n : Nat} (h : HS m l n) : CC m 0 l := ⟨h.seg, h.fin⟩
theorem HS.mk' {m : Mem} {l : List (Nat × Nat)} {n : Nat} (h : WFL l n) (hc : CC m 0 l) : HS m l n :=
  { h with seg := hc.1, fin := hc.2 }

theorem CC.congr {m m' : Mem} {n c : Nat} {l : List (Nat × Nat)} (h : CC m c l) (hW : WFL l n)
    (hc : ∀ q ∈ l, c + 4 ≤ q.1) (he : ∀ x, c ≤ x → m' x = m x) : CC m' c l := by
  refine ⟨h.1.congr fun x hx => he x ?_, ?_⟩
  · have := (hW.reads hx hc).1
    rcases this with h1 | ⟨q, hq, h1⟩
    · omega
    · have := hc q hq; omega
  · rw [← h.2]
    have : c ≤ endCell c l := by
      rcases List.eq_nil_or_concat l with rfl | ⟨b, q, e⟩
      · exact Nat.le_refl _
      · rw [List.concat_eq_append] at e
        subst e
        have := hc q (by simp)
        rw [endCell_concat]; omega
    exact rd_congr _ _ _ fun x _ _ => he x (by omega)

/-- A list keeps its meaning when its pointer is copied to another cell and its headers are not touched. -/
theorem CC.relink {m m' : Mem} {n c c' : Nat} {l : List (Nat × Nat)} (h : CC m c l) (hW : WFL l n)
    (hp : rd32 m' c' = rd32 m c) (he : ∀ x, start l ≤ x → l ≠ [] → m' x = m x) : CC m' c' l := by
  cases l with
  | nil => exact ⟨trivial, by rw [show endCell c' [] = c' from rfl, hp]; exact h.2⟩
  | cons q t =>
    have hP := List.pairwise_cons.1 hW.asc
    have hq := hW.ok q (by simp)
    rw [CC.cons] at h ⊢
    refine ⟨by rw [hp]; exact h.1, h.2.1, ?_, ?_⟩
    · rw [← h.2.2.1]; exact rd_congr _ _ _ fun x _ _ => he x (by simp only [start]; omega) (by simp)
    · refine h.2.2.2.congr (hW.sub (List.sublist_cons_self ..)) (fun r hr => by have := hP.1 r hr; omega) fun x hx =>
        he x (by simp only [start]; omega) (by simp)

theorem WFL.endCell_le {a : List (Nat × Nat)} {n off : Nat} (h : WFL a n) (h8 : 8 ≤ off)
    (ho : ∀ q ∈ a, q.1 + q.2 ≤ off) : endCell 0 a + 4 ≤ off := by
  rcases List.eq_nil_or_concat a with rfl | ⟨b, q, e⟩
  · simp only [endCell]; omega
  · rw [List.concat_eq_append] at e
    subst e
    have := h.ok q (by simp)
    have := ho q (by simp)
    rw [endCell_concat]; omega

/-- Where the end cell is. -/
theorem WFL.endCell_in {a : List (Nat × Nat)} {n : Nat} (h : WFL a n) :
    endCell 0 a = 0 ∨ ∃ q ∈ a, endCell 0 a = q.1 + 4 := by
  rcases List.eq_nil_or_concat a with rfl | ⟨b, q, e⟩
  · exact Or.inl rfl
  · rw [List.concat_eq_append] at e
    subst e
    exact Or.inr ⟨q, by simp, endCell_concat⟩

theorem Seg.wr_end {m m' : Mem} {a : List (Nat × Nat)} {n : Nat} (h : Seg m 0 a) (hW : WFL a n)
    (he : ∀ x, x < endCell 0 a → m' x = m x) : Seg m' 0 a :=
  h.congr fun x hx => he x (hW.reads0 hx).2

theorem holeDel_spec {m : Mem} {n : Nat} {a b : List (Nat × Nat)} {h : Nat × Nat}
    (hH : HS m (a ++ h :: b) n) (hn : n < 4294967296) :
    ∃ m', holeDel ⟨m, n⟩ h.1 = some ⟨m', n⟩ ∧ HS m' (a ++ b) n ∧
      (∀ x, 8 ≤ x → ¬ Cov (a ++ h :: b) x → m' x = m x) := by
  have hW := hH.toWFL
  have hWa : WFL a n := hW.sub (List.sublist_append_left ..)
  have hWb : WFL (h :: b) n := hW.sub (List.sublist_append_right ..)
  have hWb' : WFL b n := hWb.sub (List.sublist_cons_self ..)
  have hap := (List.pairwise_append.1 hW.asc).2.2
  have hlen : a.length < n + 1 := by
    have := hW.length; simp only [List.length_append] at this; omega
  have hd := delLoop_spec hW hH.seg (n + 1) 0 hlen
  have hcell := cell_eq hWa
  have hcc := CC.append.1 hH.cc
  have hcb := (CC.cons.1 hcc.2).2.2.2
  have hh := hW.ok h (by simp)
  have hP := (List.pairwise_cons.1 hWb.asc).1
  have hend : endCell 0 a + 4 ≤ h.1 := hWa.endCell_le (by omega) fun q hq => by
    have := hap q hq h (by simp); omega
  refine ⟨wr32 m (endCell 0 a) (holeNext m h.1), ?_, HS.mk' (hW.sub ?_) (CC.append.2 ⟨?_, ?_⟩), ?_⟩
  · simp only [holeDel, holeFirst, hd, hcell]
  · exact List.Sublist.append_left (List.sublist_cons_self ..) _
  · exact Seg.wr_end hcc.1 hWa fun x hx => wr_other _ _ _ _ (Or.inl hx)
  · refine hcb.relink hWb' ?_ ?_
    · rw [rd_wr_same]; rfl
      show rd32 m (h.1 + 4) < _
      rw [hcb.rd_start]
      cases b with
      | nil => simp [start]
      | cons q t => have := hWb'.ok q (by simp); simp only [start]; omega
    · intro x hx hb
      refine wr_other _ _ _ _ (Or.inr ?_)
      cases b with
      | nil => exact absurd rfl hb
      | cons q t => have := hP q (by simp); simp only [start] at hx; omega
  · intro x hx hc
    refine wr_other _ _ _ _ ?_
    rcases hWa.endCell_in with h0 | ⟨q, hq, h0⟩
    · omega
    · have hqo := hWa.ok q hq
      rcases Nat.lt_or_ge x (endCell 0 a) with h1 | h1
      · exact Or.inl h1
      · rcases Nat.lt_or_ge x (endCell 0 a + 4) with h2 | h2
        · exact absurd (cov_append.2 (Or.inl ⟨q, hq, by omega, by omega⟩)) hc
        · exact Or.inr h2

theorem holeDel_cov {a b : List (Nat × Nat)} {h : Nat × Nat} {n : Nat} (hW : WFL (a ++ h :: b) n) (x : Nat) :
    Cov (a ++ b) x ↔ Cov (a ++ h :: b) x ∧ ¬ (h.1 ≤ x ∧ x < h.1 + h.2) := by
  have hap := (List.pairwise_append.1 hW.asc).2.2
  have hP := (List.pairwise_cons.1 (hW.sub (List.sublist_append_right ..)).asc).1
  simp only [cov_append, cov_cons]
  constructor
  · rintro (⟨q, hq, h1⟩ | ⟨q, hq, h1⟩)
    · have := hap q hq h (by simp)
      exact ⟨Or.inl ⟨q, hq, h1⟩, by omega⟩
    · have := hP q hq
      exact ⟨Or.inr (Or.inr ⟨q, hq, h1⟩), by omega⟩
  · rintro ⟨h1 | h1 | h1, h2⟩
    · exact Or.inl h1
    · exact absurd h1 h2
    · exact Or.inr h1

theorem holeAdd_spec {m : Mem} {n off size : Nat} {l : List (Nat × Nat)} (hH : HS m l n) (hn : n < 4294967296)
    (ho8 : off % 8 = 0) (hs8 : size % 8 = 0) (h8 : 8 ≤ off) (hon : off + size ≤ n)
    (hdis : ∀ x, off ≤ x → x < off + size → ¬ Cov l x) :
    ∃ m' l', holeAdd ⟨m, n⟩ off size = some ⟨m', n⟩ ∧ HS m' l' n ∧
      (∀ x, Cov l' x ↔ Cov l x ∨ (off ≤ x ∧ x < off + size)) ∧
      (∀ x, 8 ≤ x → ¬ Cov l' x → m' x = m x) := by
  by_cases hz : size = 0
  · subst hz
    exact ⟨m, l, by simp [holeAdd], hH, fun x => ⟨Or.inl, fun h => h.elim id (fun h => by omega)⟩, fun _ _ _ => rfl⟩
  have hW := hH.toWFL
  obtain ⟨a, b, rfl, ha, hb, hadd⟩ := addLoop_spec off hW hH.seg hH.fin (n + 1) 0 hW.length
  have hWa : WFL a n := hW.sub (List.sublist_append_left ..)
  have hWb : WFL b n := hW.sub (List.sublist_append_right ..)
  have hap := (List.pairwise_append.1 hW.asc).2.2
  have ha' : ∀ q ∈ a, q.1 + q.2 ≤ off := fun q hq => by
    have h1 := ha q hq
    rcases Nat.lt_or_ge off (q.1 + q.2) with h2 | h2
    · exact absurd (cov_append.2 (Or.inl ⟨q, hq, by omega, by omega⟩)) (hdis off (by omega) (by omega))
    · exact h2
  have hb' : ∀ q ∈ b, off + size ≤ q.1 := fun q hq => by
    have h1 := hb q hq
    have hqo := hWb.ok q hq
    rcases Nat.lt_or_ge q.1 (off + size) with h2 | h2
    · exact absurd (cov_append.2 (Or.inr ⟨q, hq, by omega, by omega⟩)) (hdis q.1 (by omega) (by omega))
    · exact h2
  have hcell := cell_eq hWa
  have hcc := CC.append.1 hH.cc
  have hend : endCell 0 a + 4 ≤ off := hWa.endCell_le h8 ha'
  have hendx : ∀ x, 8 ≤ x → ¬ Cov a x → x < endCell 0 a ∨ endCell 0 a + 4 ≤ x := by
    intro x hx hc
    rcases hWa.endCell_in with h0 | ⟨q, hq, h0⟩
    · omega
    · have hqo := hWa.ok q hq
      rcases Nat.lt_or_ge x (endCell 0 a) with h1 | h1
      · exact Or.inl h1
      · rcases Nat.lt_or_ge x (endCell 0 a + 4) with h2 | h2
        · exact absurd ⟨q, hq, by omega, by omega⟩ hc
        · exact Or.inr h2
  simp only [holeAdd, if_neg hz, holeFirst, hadd, hcell]
  by_cases hcp : lastOff 0 a ≠ 0 ∧ lastOff 0 a + holeSize m (lastOff 0 a) = off
  · -- connecting with prev
    obtain ⟨hp0, hp1⟩ := hcp
    obtain ⟨a0, p, rfl⟩ : ∃ a0 p, a = a0 ++ [p] := by
      rcases List.eq_nil_or_concat a with rfl | ⟨b, q, e⟩
      · exact absurd rfl hp0
      · exact ⟨b, q, by rw [e, List.concat_eq_append]⟩
    have hWa0 : WFL a0 n := hWa.sub (List.sublist_append_left ..)
    have hpo := hWa.ok p (by simp)
    have ha0p : ∀ q ∈ a0, q.1 + q.2 < p.1 := fun q hq =>
      (List.pairwise_append.1 hWa.asc).2.2 q hq p (by simp)
    rw [lastOff_concat] at hp0 hp1 ⊢
    have hcc2 := CC.append.1 (show CC m 0 (a0 ++ (p :: b)) by simpa using hH.cc)
    have hccp := CC.cons.1 hcc2.2
    have hps : holeSize m p.1 = p.2 := hccp.2.2.1
    rw [hps] at hp1 ⊢
    have hend0 : endCell 0 a0 + 4 ≤ p.1 := hWa0.endCell_le (by omega) fun q hq => by have := ha0p q hq; omega
    by_cases hcn : start b ≠ 0 ∧ off + size = start b
    · -- and next
      obtain ⟨nx, t, rfl⟩ : ∃ nx t, b = nx :: t := by
        cases b with
        | nil => exact absurd rfl hcn.1
        | cons q t => exact ⟨q, t, rfl⟩
      simp only [start] at hcn
      have hno := hWb.ok nx (by simp)
      have hPn := (List.pairwise_cons.1 hWb.asc).1
      have hcn2 := CC.cons.1 hccp.2.2.2
      have hns : holeSize m nx.1 = nx.2 := hcn2.2.2.1
      have hWt : WFL t n := hWb.sub (List.sublist_cons_self ..)
      simp only [start, hp0, hp1, hcn.1, hcn.2, hns, ne_eq, not_false_eq_true, and_self, if_true]
      have hWn : WFL (a0 ++ (p.1, p.2 + size + nx.2) :: t) n := by
        constructor
        · refine List.pairwise_append.2 ⟨hWa0.asc, List.pairwise_cons.2 ⟨fun q hq => ?_, hWt.asc⟩, fun q hq r hr => ?_⟩
          · have := hPn q hq; simp only; omega
          · have := ha0p q hq
            rcases List.mem_cons.1 hr with rfl | hr
            · exact this
            · exact hap q (by simp [hq]) r (by simp [hr])
        · intro q hq
          simp only [List.mem_append, List.mem_cons] at hq
          rcases hq with hq | rfl | hq
          · exact hWa0.ok q hq
          · simp only; omega
          · exact hWt.ok q hq
      have hcov : ∀ x, Cov (a0 ++ (p.1, p.2 + size + nx.2) :: t) x ↔ Cov (a0 ++ [p] ++ nx :: t) x ∨ (off ≤ x ∧ x < off + size) := by
        intro x
        simp only [cov_append, cov_cons, cov_nil, or_false]
        constructor
        · rintro (h | h | h)
          · exact Or.inl (Or.inl (Or.inl h))
          · by_cases h1 : x < off
            · exact Or.inl (Or.inl (Or.inr (by omega)))
            · by_cases h2 : x < off + size
              · exact Or.inr (by omega)
              · exact Or.inl (Or.inr (Or.inl (by omega)))
          · exact Or.inl (Or.inr (Or.inr h))
        · rintro (((h | h) | h | h) | h)
          · exact Or.inl h
          · exact Or.inr (Or.inl (by omega))
          · exact Or.inr (Or.inl (by omega))
          · exact Or.inr (Or.inr h)
          · exact Or.inr (Or.inl (by omega))
      have hnx : holeNext (wr32 m p.1 (p.2 + size + nx.2)) nx.1 = start t := by
        show rd32 _ _ = _
        rw [rd_wr_other _ _ _ _ (by omega)]; exact hcn2.2.2.2.rd_start
      rw [hnx]
      have htl : start t < 4294967296 := by
        cases t with
        | nil => simp [start]
        | cons q r => have := hWt.ok q (by simp); simp only [start]; omega
      refine ⟨_, a0 ++ (p.1, p.2 + size + nx.2) :: t, rfl, HS.mk' hWn (CC.append.2 ⟨?_, CC.cons.2 ⟨?_, ?_, ?_, ?_⟩⟩), fun x => by rw [hcov x, hcn.2], ?_⟩
      · exact Seg.wr_end hcc2.1 hWa0 fun x hx => by
          rw [wr_other _ _ _ _ (by omega), wr_other _ _ _ _ (by omega)]
      · rw [rd_wr_other _ _ _ _ (by omega), rd_wr_other _ _ _ _ (by omega)]; exact hccp.1
      · simp only; omega
      · simp only; rw [rd_wr_other _ _ _ _ (by omega), rd_wr_same _ _ _ (by omega)]
      · simp only
        refine hcn2.2.2.2.relink hWt ?_ ?_
        · rw [rd_wr_same _ _ _ htl, hcn2.2.2.2.rd_start]
        · intro x hx ht
          cases t with
          | nil => exact absurd rfl ht
          | cons q r =>
            have := hPn q (by simp)
            simp only [start] at hx
            rw [wr_other _ _ _ _ (by omega), wr_other _ _ _ _ (by omega)]
      · intro x hx hc
        have h1 : ¬ (p.1 ≤ x ∧ x < p.1 + (p.2 + size + nx.2)) := fun h1 =>
          hc (cov_append.2 (Or.inr (cov_cons.2 (Or.inl h1))))
        rw [wr_other _ _ _ _ (by omega), wr_other _ _ _ _ (by omega)]
    · simp only [hcn, and_false, if_false, hp0, hp1, ne_eq, not_false_eq_true, and_self, if_true]
      have hb'' : ∀ q ∈ b, off + size < q.1 := fun q hq => by
        have h1 := hb' q hq
        cases b with
        | nil => simp at hq
        | cons r t =>
          have hr := hWb.ok r (by simp)
          simp only [start] at hcn
          have hrr := hb' r (by simp)
          rcases List.mem_cons.1 hq with rfl | hq
          · omega
          · have := (List.pairwise_cons.1 hWb.asc).1 q hq; omega
      have hWn : WFL (a0 ++ (p.1, p.2 + size) :: b) n := by
        constructor
        · refine List.pairwise_append.2 ⟨hWa0.asc, List.pairwise_cons.2 ⟨fun q hq => ?_, hWb.asc⟩, fun q hq r hr => ?_⟩
          · have := hb'' q hq; simp only; omega
          · have := ha0p q hq
            rcases List.mem_cons.1 hr with rfl | hr
            · exact this
            · exact hap q (by simp [hq]) r (by simp [hr])
        · intro q hq
          simp only [List.mem_append, List.mem_cons] at hq
          rcases hq with hq | rfl | hq
          · exact hWa0.ok q hq
          · simp only; omega
          · exact hWb.ok q hq
      have hcov : ∀ x, Cov (a0 ++ (p.1, p.2 + size) :: b) x ↔ Cov (a0 ++ [p] ++ b) x ∨ (off ≤ x ∧ x < off + size) := by
        intro x
        simp only [cov_append, cov_cons, cov_nil, or_false]
        constructor
        · rintro (h | h | h)
          · exact Or.inl (Or.inl (Or.inl h))
          · by_cases h1 : x < off
            · exact Or.inl (Or.inl (Or.inr (by omega)))
            · exact Or.inr (by omega)
          · exact Or.inl (Or.inr h)
        · rintro (((h | h) | h) | h)
          · exact Or.inl h
          · exact Or.inr (Or.inl (by omega))
          · exact Or.inr (Or.inr h)
          · exact Or.inr (Or.inl (by omega))
      refine ⟨_, a0 ++ (p.1, p.2 + size) :: b, rfl, HS.mk' hWn (CC.append.2 ⟨?_, CC.cons.2 ⟨?_, ?_, ?_, ?_⟩⟩), hcov, ?_⟩
      · exact Seg.wr_end hcc2.1 hWa0 fun x hx => by rw [wr_other _ _ _ _ (by omega)]
      · rw [rd_wr_other _ _ _ _ (by omega)]; exact hccp.1
      · simp only; omega
      · simp only; rw [rd_wr_same _ _ _ (by omega)]
      · simp only
        refine hccp.2.2.2.relink hWb ?_ ?_
        · rw [rd_wr_other _ _ _ _ (by omega)]
        · intro x hx hbn
          cases b with
          | nil => exact absurd rfl hbn
          | cons q r =>
            have := hb' q (by simp)
            simp only [start] at hx
            rw [wr_other _ _ _ _ (by omega)]
      · intro x hx hc
        have h1 : ¬ (p.1 ≤ x ∧ x < p.1 + (p.2 + size)) := fun h1 =>
          hc (cov_append.2 (Or.inr (cov_cons.2 (Or.inl h1))))
        rw [wr_other _ _ _ _ (by omega)]
  · -- not connecting with prev
    have ha'' : ∀ q ∈ a, q.1 + q.2 < off := fun q hq => by
      have h1 := ha' q hq
      rcases List.eq_nil_or_concat a with rfl | ⟨a0, p, e⟩
      · simp at hq
      · rw [List.concat_eq_append] at e
        subst e
        have hpo := hWa.ok p (by simp)
        have hps : holeSize m p.1 = p.2 := by
          have := (CC.cons.1 (CC.append.1 (show CC m 0 (a0 ++ (p :: b)) by simpa using hH.cc)).2).2.2.1
          exact this
        rw [lastOff_concat, hps] at hcp
        have hpp := ha' p (by simp)
        simp only [List.mem_append, List.mem_singleton] at hq
        rcases hq with hq | rfl
        · have := (List.pairwise_append.1 hWa.asc).2.2 q hq p (by simp); omega
        · omega
    rw [if_neg (fun h => hcp h.1), if_neg hcp]
    by_cases hcn : start b ≠ 0 ∧ off + size = start b
    · obtain ⟨nx, t, rfl⟩ : ∃ nx t, b = nx :: t := by
        cases b with
        | nil => exact absurd rfl hcn.1
        | cons q t => exact ⟨q, t, rfl⟩
      simp only [start] at hcn
      have hno := hWb.ok nx (by simp)
      have hPn := (List.pairwise_cons.1 hWb.asc).1
      have hcn2 := CC.cons.1 hcc.2
      have hWt : WFL t n := hWb.sub (List.sublist_cons_self ..)
      simp only [start, hcn.1, hcn.2, ne_eq, not_false_eq_true, and_self, if_true]
      have hns : holeSize (wr32 m (endCell 0 a) off) nx.1 = nx.2 := by
        show rd32 _ _ = _
        rw [rd_wr_other _ _ _ _ (by omega)]; exact hcn2.2.2.1
      rw [hns]
      have hWn : WFL (a ++ (off, size + nx.2) :: t) n := by
        constructor
        · refine List.pairwise_append.2 ⟨hWa.asc, List.pairwise_cons.2 ⟨fun q hq => ?_, hWt.asc⟩, fun q hq r hr => ?_⟩
          · have := hPn q hq; simp only; omega
          · have := ha'' q hq
            rcases List.mem_cons.1 hr with rfl | hr
            · exact this
            · exact hap q hq r (by simp [hr])
        · intro q hq
          simp only [List.mem_append, List.mem_cons] at hq
          rcases hq with hq | rfl | hq
          · exact hWa.ok q hq
          · simp only; omega
          · exact hWt.ok q hq
      have hcov : ∀ x, Cov (a ++ (off, size + nx.2) :: t) x ↔ Cov (a ++ nx :: t) x ∨ (off ≤ x ∧ x < off + size) := by
        intro x
        simp only [cov_append, cov_cons]
        constructor
        · rintro (h | h | h)
          · exact Or.inl (Or.inl h)
          · by_cases h2 : x < off + size
            · exact Or.inr (by omega)
            · exact Or.inl (Or.inr (Or.inl (by omega)))
          · exact Or.inl (Or.inr (Or.inr h))
        · rintro ((h | h | h) | h)
          · exact Or.inl h
          · exact Or.inr (Or.inl (by omega))
          · exact Or.inr (Or.inr h)
          · exact Or.inr (Or.inl (by omega))
      have hnx : holeNext (wr32 (wr32 m (endCell 0 a) off) off (size + nx.2)) nx.1 = start t := by
        show rd32 _ _ = _
        rw [rd_wr_other _ _ _ _ (by omega), rd_wr_other _ _ _ _ (by omega)]; exact hcn2.2.2.2.rd_start
      rw [hnx]
      have htl : start t < 4294967296 := by
        cases t with
        | nil => simp [start]
        | cons q r => have := hWt.ok q (by simp); simp only [start]; omega
      refine ⟨_, a ++ (off, size + nx.2) :: t, rfl, HS.mk' hWn (CC.append.2 ⟨?_, CC.cons.2 ⟨?_, ?_, ?_, ?_⟩⟩), fun x => by rw [hcov x, hcn.2], ?_⟩
      · exact Seg.wr_end hcc.1 hWa fun x hx => by
          rw [wr_other _ _ _ _ (by omega), wr_other _ _ _ _ (by omega), wr_other _ _ _ _ (by omega)]
      · rw [rd_wr_other _ _ _ _ (by omega), rd_wr_other _ _ _ _ (by omega), rd_wr_same _ _ _ (by omega)]
      · simp only; omega
      · simp only; rw [rd_wr_other _ _ _ _ (by omega), rd_wr_same _ _ _ (by omega)]
      · simp only
        refine hcn2.2.2.2.relink hWt ?_ ?_
        · rw [rd_wr_same _ _ _ htl, hcn2.2.2.2.rd_start]
        · intro x hx ht
          cases t with
          | nil => exact absurd rfl ht
          | cons q r =>
            have := hPn q (by simp)
            simp only [start] at hx
            rw [wr_other _ _ _ _ (by omega), wr_other _ _ _ _ (by omega), wr_other _ _ _ _ (by omega)]
      · intro x hx hc
        have h1 : ¬ (off ≤ x ∧ x < off + (size + nx.2)) := fun h1 =>
          hc (cov_append.2 (Or.inr (cov_cons.2 (Or.inl h1))))
        have h2 := hendx x hx (fun h => hc (cov_append.2 (Or.inl h)))
        rw [wr_other _ _ _ _ (by omega), wr_other _ _ _ _ (by omega), wr_other _ _ _ _ (by omega)]
    · rw [if_neg hcn]
      have hb'' : ∀ q ∈ b, off + size < q.1 := fun q hq => by
        have h1 := hb' q hq
        cases b with
        | nil => simp at hq
        | cons r t =>
          have hr := hWb.ok r (by simp)
          simp only [start] at hcn
          have hrr := hb' r (by simp)
          rcases List.mem_cons.1 hq with rfl | hq
          · omega
          · have := (List.pairwise_cons.1 hWb.asc).1 q hq; omega
      have hWn : WFL (a ++ (off, size) :: b) n := by
        constructor
        · refine List.pairwise_append.2 ⟨hWa.asc, List.pairwise_cons.2 ⟨fun q hq => ?_, hWb.asc⟩, fun q hq r hr => ?_⟩
          · have := hb'' q hq; simp only; omega
          · have := ha'' q hq
            rcases List.mem_cons.1 hr with rfl | hr
            · exact this
            · exact hap q hq r hr
        · intro q hq
          simp only [List.mem_append, List.mem_cons] at hq
          rcases hq with hq | rfl | hq
          · exact hWa.ok q hq
          · simp only; omega
          · exact hWb.ok q hq
      have hcov : ∀ x, Cov (a ++ (off, size) :: b) x ↔ Cov (a ++ b) x ∨ (off ≤ x ∧ x < off + size) := by
        intro x
        simp only [cov_append, cov_cons]
        grind
      have hbl : start b < 4294967296 := by
        cases b with
        | nil => simp [start]
        | cons q r => have := hWb.ok q (by simp); simp only [start]; omega
      refine ⟨_, a ++ (off, size) :: b, rfl, HS.mk' hWn (CC.append.2 ⟨?_, CC.cons.2 ⟨?_, ?_, ?_, ?_⟩⟩), hcov, ?_⟩
      · exact Seg.wr_end hcc.1 hWa fun x hx => by
          rw [wr_other _ _ _ _ (by omega), wr_other _ _ _ _ (by omega), wr_other _ _ _ _ (by omega)]
      · rw [rd_wr_other _ _ _ _ (by omega), rd_wr_other _ _ _ _ (by omega), rd_wr_same _ _ _ (by omega)]
      · simp only; omega
      · simp only; rw [rd_wr_other _ _ _ _ (by omega), rd_wr_same _ _ _ (by omega)]
      · simp only
        refine hcc.2.relink hWb ?_ ?_
        · rw [rd_wr_same _ _ _ hbl, hcc.2.rd_start]
        · intro x hx hbn
          cases b with
          | nil => exact absurd rfl hbn
          | cons q r =>
            have := hb' q (by simp)
            simp only [start] at hx
            rw [wr_other _ _ _ _ (by omega), wr_other _ _ _ _ (by omega), wr_other _ _ _ _ (by omega)]
      · intro x hx hc
        have h1 : ¬ (off ≤ x ∧ x < off + size) := fun h1 =>
          hc (cov_append.2 (Or.inr (cov_cons.2 (Or.inl h1))))
        have h2 := hendx x hx (fun h => hc (cov_append.2 (Or.inl h)))
        rw [wr_other _ _ _ _ (by omega), wr_other _ _ _ _ (by omega), wr_other _ _ _ _ (by omega)]

end Verif.ExtShm
