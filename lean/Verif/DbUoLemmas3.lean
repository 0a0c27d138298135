import Verif.DbUoLemmas2

/-! Lemmas for `DbUo`: creating, deleting and moving an instance. -/
namespace Verif.DbUo

/-- The records of one list are right. -/
structure CInv (k : Kind) (m : Nat) (db : DB) (l : LPath) (c : List (Str × Nat)) (B : Nat) : Prop where
  nd : (c.map Prod.fst).Nodup
  ne : [] ∉ c.map Prod.fst
  perm : (db.recs l).Perm (chain k [] c)
  srt : (ords c).Pairwise (· < ·)
  pos : ∀ o ∈ ords c, 0 < o
  som : (m ≠ 0 ∨ c ≠ []) → ∃ v, db.maxord l = some v
  bnd : ∀ v, db.maxord l = some v → ∀ o ∈ ords c, o ≤ if m = 0 then v else m
  gapm : m = 0 ∨ gap ≤ m
  gapv : ∀ v, db.maxord l = some v → gap ≤ v
  bm : m ≤ B
  bv : ∀ v, db.maxord l = some v → v ≤ B

theorem preds_eq (k : Kind) (c : List (Str × Nat)) : preds k c = (c.map Prod.fst).map (ownPred k) := by
  simp [preds, List.map_map, Function.comp_def]

theorem preds_nodup {k : Kind} {c : List (Str × Nat)} (h : (c.map Prod.fst).Nodup) : (preds k c).Nodup := by
  rw [preds_eq]
  exact List.Pairwise.map _ (fun a b hab he => hab (ownPred_inj he)) h

theorem nil_preds {k : Kind} {c : List (Str × Nat)} (h : (c.map Prod.fst).Nodup)
    (hn : [] ∉ c.map Prod.fst) : ([] :: preds k c).Nodup := by
  refine List.nodup_cons.2 ⟨?_, preds_nodup h⟩
  rw [preds_eq]
  intro hm
  obtain ⟨v, hv, he⟩ := List.mem_map.1 hm
  exact ownPred_ne_nil (k := k) (v := v) (fun h => hn (h ▸ hv)) he

theorem own_notMem {k : Kind} {c : List (Str × Nat)} {x : Str} (h : x ∉ c.map Prod.fst) :
    ownPred k x ∉ preds k c := by
  rw [preds_eq]
  intro hm
  obtain ⟨v, hv, he⟩ := List.mem_map.1 hm
  exact h (ownPred_inj he ▸ hv)

theorem loadNext_eq {be : Backend} {k : Kind} {db : DB} {l : LPath} {c1 c2 : List (Str × Nat)}
    (hp : (db.recs l).Perm (chain k [] (c1 ++ c2))) (hn : ([] :: preds k (c1 ++ c2)).Nodup) :
    loadNext be db l (lastP k [] c1) = ((ords c2).head?).getD 0 := by
  have hf := hp.filter (fun r => r.prev = lastP k [] c1)
  rw [filter_prev hn] at hf
  simp only [loadNext, pick_take hf]
  cases c2 with
  | nil => rfl
  | cons e t => rfl

theorem loadPrev_eq {be : Backend} {k : Kind} {db : DB} {l : LPath} {c1 c2 : List (Str × Nat)} {y : Str} {o : Nat}
    (hp : (db.recs l).Perm (chain k [] (c1 ++ (y, o) :: c2))) (hn : (preds k (c1 ++ (y, o) :: c2)).Nodup) :
    loadPrev be db l (ownPred k y) = .ok o := by
  have hmem : ({ elem := y, pred := ownPred k y, order := o, prev := lastP k [] c1 } : Rec) ∈ db.recs l := by
    rw [hp.mem_iff, chain_append]
    simp [chain]
  have huniq : ∀ r ∈ db.recs l, r.pred = ownPred k y → r.order = o := by
    intro r hr he
    rw [hp.mem_iff, chain_append, List.mem_append] at hr
    have hs : preds k (c1 ++ (y, o) :: c2) = preds k c1 ++ ownPred k y :: preds k c2 := by simp [preds]
    rw [hs] at hn
    have hn2 := List.nodup_append.1 hn
    rcases hr with hr | hr
    · exact absurd he (hn2.2.2 _ (chain_pred_mem hr) _ (by simp))
    · simp only [chain, List.mem_cons] at hr
      rcases hr with rfl | hr
      · rfl
      · have := chain_pred_mem hr
        rw [he] at this
        exact absurd this (List.nodup_cons.1 hn2.2.1).1
  simp only [loadPrev]
  cases hfi : (db.recs l).find? (fun r => r.pred = ownPred k y) with
  | none =>
    have := List.find?_eq_none.1 hfi _ hmem
    simp at this
  | some r =>
    have h1 := List.mem_of_find?_eq_some hfi
    have h2 := List.find?_some hfi
    simp only [decide_eq_true_eq] at h2
    simp only [huniq r h1 h2]

theorem changeNext_perm {be : Backend} {k : Kind} {db : DB} {l : LPath} {c1 c2 : List (Str × Nat)} {np : Str}
    (hp : (db.recs l).Perm (chain k [] (c1 ++ c2))) (hn : ([] :: preds k (c1 ++ c2)).Nodup) :
    ((changeNext be db l (lastP k [] c1) np).recs l).Perm (chain k [] c1 ++ chain k np c2) := by
  have hf := hp.filter (fun r => r.prev = lastP k [] c1)
  rw [filter_prev hn] at hf
  simp only [changeNext, pick_take hf]
  cases c2 with
  | nil => simpa [chain] using hp
  | cons e t =>
    obtain ⟨x, o⟩ := e
    simp only [chain, List.head?_cons, DB.setRecs, if_true]
    have h2 := hp.map (fun r : Rec => if r.pred = ownPred k x then { r with prev := np } else r)
    rw [map_prev (List.nodup_cons.1 hn).2] at h2
    exact h2

theorem changeNext_frame {be : Backend} {db : DB} {l l' : LPath} {p np : Str} (h : l' ≠ l) :
    (changeNext be db l p np).recs l' = db.recs l' := by
  simp only [changeNext]
  split
  · simp [DB.setRecs, h]
  · rfl

theorem changeNext_max {be : Backend} {db : DB} {l : LPath} {p np : Str} :
    (changeNext be db l p np).maxord = db.maxord := by
  simp only [changeNext]
  split <;> rfl

theorem insertRec_perm {k : Kind} {db : DB} {l : LPath} {c1 c2 : List (Str × Nat)} {x : Str} {o : Nat}
    (hp : (db.recs l).Perm (chain k [] c1 ++ chain k (ownPred k x) c2))
    (hx : ownPred k x ∉ preds k (c1 ++ c2)) :
    ((insertRec k db l x o (lastP k [] c1)).recs l).Perm (chain k [] (c1 ++ (x, o) :: c2)) := by
  simp only [insertRec, DB.setRecs, if_true]
  have h1 := hp.filter (fun r => r.pred ≠ ownPred k x)
  rw [filter_absent hx] at h1
  refine (h1.append_right _).trans ?_
  rw [chain_append, List.append_assoc]
  refine List.Perm.append_left _ ?_
  simp only [chain]
  exact List.perm_append_singleton _ _

theorem insertRec_frame {k : Kind} {db : DB} {l l' : LPath} {x q : Str} {o : Nat} (h : l' ≠ l) :
    (insertRec k db l x o q).recs l' = db.recs l' := by
  simp [insertRec, DB.setRecs, h]

/-- The order of a list with something put in between. -/
theorem sorted_insert {c1 c2 : List (Str × Nat)} {x : Str} {o : Nat}
    (hs : (ords (c1 ++ c2)).Pairwise (· < ·)) (h1 : ∀ w ∈ ords c1, w < o) (h2 : ∀ w ∈ ords c2, o < w) :
    (ords (c1 ++ (x, o) :: c2)).Pairwise (· < ·) := by
  simp only [ords, List.map_append, List.map_cons] at *
  have h' := List.pairwise_append.1 hs
  refine List.pairwise_append.2 ⟨h'.1, List.pairwise_cons.2 ⟨h2, h'.2.1⟩, ?_⟩
  intro a ha b hb
  rcases List.mem_cons.1 hb with rfl | hb
  · exact h1 a ha
  · exact h'.2.2 a ha b hb

theorem mem_insert {c1 c2 : List (Str × Nat)} {x : Str} {o w : Nat} :
    w ∈ ords (c1 ++ (x, o) :: c2) ↔ w = o ∨ w ∈ ords (c1 ++ c2) := by
  simp only [ords, List.map_append, List.map_cons, List.mem_append, List.mem_cons]
  constructor
  · rintro (h | h | h) <;> simp [h]
  · rintro (h | h | h) <;> simp [h]

theorem nodup_insert {c1 c2 : List (Str × Nat)} {x : Str} {o : Nat}
    (hn : ((c1 ++ c2).map Prod.fst).Nodup) (hx : x ∉ (c1 ++ c2).map Prod.fst) :
    ((c1 ++ (x, o) :: c2).map Prod.fst).Nodup := by
  simp only [List.map_append, List.map_cons] at *
  rw [List.nodup_append, List.nodup_cons]
  rw [List.nodup_append] at hn
  simp only [List.mem_append, not_or] at hx
  refine ⟨hn.1, ⟨hx.2, hn.2.1⟩, ?_⟩
  intro a ha b hb
  rcases List.mem_cons.1 hb with rfl | hb
  · rintro rfl; exact hx.1 ha
  · exact hn.2.2 a ha b hb

theorem ne_insert {c1 c2 : List (Str × Nat)} {x : Str} {o : Nat} (h0 : x ≠ [])
    (hn : [] ∉ (c1 ++ c2).map Prod.fst) : [] ∉ (c1 ++ (x, o) :: c2).map Prod.fst := by
  simp only [List.map_append, List.map_cons, List.mem_append, List.mem_cons, not_or] at *
  exact ⟨hn.1, fun h => h0 h.symm, hn.2⟩

/-- The last order before the place and the first one behind it. -/
theorem last_lt {c1 c2 : List (Str × Nat)} {y : Str} {o : Nat}
    (hs : (ords (c1 ++ (y, o) :: c2)).Pairwise (· < ·)) :
    (∀ w ∈ ords (c1 ++ [(y, o)]), w ≤ o) ∧ (∀ w ∈ ords c2, o < w) := by
  simp only [ords, List.map_append, List.map_cons, List.map_nil] at *
  have h' := List.pairwise_append.1 hs
  refine ⟨?_, (List.pairwise_cons.1 h'.2.1).1⟩
  intro w hw
  rcases List.mem_append.1 hw with hw | hw
  · exact Nat.le_of_lt (h'.2.2 w hw o (by simp))
  · simp at hw; omega

/-- Shifting and inserting. -/
theorem shift_insert {be : Backend} {k : Kind} {db : DB} {l : LPath} {c1 c2 : List (Str × Nat)} {B m no : Nat}
    {x : Str} (hi : CInv k m db l (c1 ++ c2) B) (hx0 : x ≠ []) (hx : x ∉ (c1 ++ c2).map Prod.fst)
    (hc2 : (ords c2).head? = some no) (h1 : ∀ w ∈ ords c1, w < no) :
    ∃ s c', shift be l ((db.recs l).length + 1) db no m = .ok s ∧
      CInv k s.2 (insertRec k (changeNext be s.1 l (lastP k [] c1) (ownPred k x)) l x no (lastP k [] c1)) l c'
        (B + gap) ∧
      c'.map Prod.fst = c1.map Prod.fst ++ x :: c2.map Prod.fst ∧
      (∀ l', l' ≠ l → s.1.recs l' = db.recs l') ∧ s.1.maxord = db.maxord := by
  have hne : c1 ++ c2 ≠ [] := by
    intro h
    have := (List.append_eq_nil_iff.1 h).2
    simp [this] at hc2
  obtain ⟨v, hv⟩ := hi.som (Or.inr hne)
  have hno : ∀ o ∈ ords c2, no ≤ o := by
    intro o ho
    cases c2 with
    | nil => simp at ho
    | cons e t =>
      simp only [ords, List.map_cons, List.head?_cons, Option.some.injEq] at hc2
      have hs := hi.srt
      simp only [ords, List.map_append, List.map_cons] at hs
      have := (List.pairwise_cons.1 (List.pairwise_append.1 hs).2.1).1
      simp only [ords, List.map_cons, List.mem_cons] at ho
      rcases ho with rfl | ho
      · omega
      · have := this o ho; omega
  have hmemno : no ∈ ords (c1 ++ c2) := by
    simp only [ords, List.map_append, List.mem_append]
    right
    exact List.mem_of_head? hc2
  have hM := hi.bnd v hv
  have hnoM := hM no hmemno
  have hgv := hi.gapv v hv
  have hgm := hi.gapm
  have hMpos : 0 < (if m = 0 then v else m) := by
    have : gap = 1024 := rfl
    split <;> omega
  have hlen : c2.length < (db.recs l).length + 1 := by
    have := hi.perm.length_eq
    have h2 : ∀ p (c : List (Str × Nat)), (chain k p c).length = c.length := by
      intro p c
      induction c generalizing p with
      | nil => rfl
      | cons e t ih => obtain ⟨x, o⟩ := e; simp [chain, ih]
    rw [h2] at this
    rw [this, List.length_append]; omega
  obtain ⟨db', m', e1, e2, e3, e4, e5, e6, e7, e8⟩ := shift_ok be k l [] v c2 c1 _ db no m _ rfl hi.perm
    (preds_nodup hi.nd) hi.srt h1 hno hv hlen hMpos
    (by intro o ho; exact hM o (by simp only [ords, List.map_append, List.mem_append]; exact Or.inr ho)) (by omega)
  have hfst : (c1 ++ bump no c2).map Prod.fst = (c1 ++ c2).map Prod.fst := by
    simp only [List.map_append, bump_fst]
  have hs2 := hi.srt
  simp only [ords, List.map_append] at hs2
  have hs2' := List.pairwise_append.1 hs2
  have hbg := bump_gt (n := no) hs2'.2.1 hno
  have hsrt : (ords (c1 ++ bump no c2)).Pairwise (· < ·) := by
    simp only [ords, List.map_append]
    refine List.pairwise_append.2 ⟨hs2'.1, bump_sorted hs2'.2.1, ?_⟩
    intro a ha b hb
    exact Nat.lt_trans (h1 a ha) (hbg b hb)
  have hnp : ([] :: preds k (c1 ++ bump no c2)).Nodup :=
    nil_preds (by rw [hfst]; exact hi.nd) (by rw [hfst]; exact hi.ne)
  have hMB : (if m = 0 then v else m) ≤ B := by
    have := hi.bm; have := hi.bv v hv
    split <;> omega
  have hg : gap = 1024 := rfl
  refine ⟨(db', m'), c1 ++ (x, no) :: bump no c2, e1, ?_, ?_, e3, e4⟩
  · have hc := changeNext_perm (be := be) (np := ownPred k x) e2 hnp
    have hin := insertRec_perm (o := no) hc (own_notMem (by rw [hfst]; exact hx))
    have hmax : (insertRec k (changeNext be db' l (lastP k [] c1) (ownPred k x)) l x no (lastP k [] c1)).maxord
        = db.maxord := by
      simp only [insertRec, DB.setRecs, changeNext_max, e4]
    refine ⟨nodup_insert (by rw [hfst]; exact hi.nd) (by rw [hfst]; exact hx),
      ne_insert hx0 (by rw [hfst]; exact hi.ne), hin, sorted_insert hsrt h1 hbg, ?_, ?_, ?_, ?_, ?_, ?_, ?_⟩
    · intro o ho
      rcases mem_insert.1 ho with rfl | ho
      · exact hi.pos _ hmemno
      · simp only [ords, List.map_append, List.mem_append] at ho
        rcases ho with ho | ho
        · exact hi.pos o (by simp only [ords, List.map_append, List.mem_append]; exact Or.inl ho)
        · have := hbg o ho; omega
    · intro _; rw [hmax]; exact ⟨v, hv⟩
    · intro v' hv' o ho
      have hm0 : m' ≠ 0 := by omega
      rw [if_neg hm0]
      rcases mem_insert.1 ho with rfl | ho
      · exact e8
      · simp only [ords, List.map_append, List.mem_append] at ho
        rcases ho with ho | ho
        · have := h1 o ho; omega
        · exact e7 o ho
    · right; show gap ≤ m'; split at e5 <;> omega
    · rw [hmax]; exact hi.gapv
    · show m' ≤ _; omega
    · rw [hmax]; intro v' hv'; have := hi.bv v' hv'; omega
  · simp [bump_fst]

/-- Creating an instance behind `c1`. -/
theorem create_ok {be : Backend} {k : Kind} {db : DB} {l : LPath} {c1 c2 : List (Str × Nat)} {B m : Nat}
    {x prev : Str} (hi : CInv k m db l (c1 ++ c2) B) (hx0 : x ≠ []) (hx : x ∉ (c1 ++ c2).map Prod.fst)
    (hp : refPred k prev = lastP k [] c1) (hc : prev = [] ↔ c1 = []) :
    ∃ db' m' c', createUo be k db l x prev m = .ok (db', m') ∧ CInv k m' db' l c' (B + gap) ∧
      c'.map Prod.fst = c1.map Prod.fst ++ x :: c2.map Prod.fst ∧
      (∀ l', l' ≠ l → db'.recs l' = db.recs l' ∧ db'.maxord l' = db.maxord l') := by
  have hnp := nil_preds (k := k) hi.nd hi.ne
  have hnext := loadNext_eq (be := be) hi.perm hnp
  have hg : gap = 1024 := rfl
  have hown := own_notMem (k := k) hx
  have hpos0 : ∀ o, (ords c2).head? = some o → 0 < o := by
    intro o ho
    apply hi.pos o
    simp only [ords, List.map_append, List.mem_append]
    exact Or.inr (List.mem_of_head? ho)
  -- inserting between without shifting
  have hmid : ∀ o, (∀ w ∈ ords c1, w < o) → (∀ w ∈ ords c2, o < w) → 0 < o → c2 ≠ [] →
      CInv k m (insertRec k (changeNext be db l (lastP k [] c1) (ownPred k x)) l x o (lastP k [] c1)) l
        (c1 ++ (x, o) :: c2) (B + gap) := by
    intro o h1 h2 h0 hc2
    have hcn := changeNext_perm (be := be) (np := ownPred k x) hi.perm hnp
    have hin := insertRec_perm (o := o) hcn hown
    have hmax : (insertRec k (changeNext be db l (lastP k [] c1) (ownPred k x)) l x o (lastP k [] c1)).maxord
        = db.maxord := by
      simp only [insertRec, DB.setRecs, changeNext_max]
    have hne : c1 ++ c2 ≠ [] := by simp [hc2]
    obtain ⟨v, hv⟩ := hi.som (Or.inr hne)
    refine ⟨nodup_insert hi.nd hx, ne_insert hx0 hi.ne, hin, sorted_insert hi.srt h1 h2, ?_, ?_, ?_, hi.gapm, ?_, ?_, ?_⟩
    · intro w hw
      rcases mem_insert.1 hw with rfl | hw
      · exact h0
      · exact hi.pos w hw
    · intro _; rw [hmax]; exact ⟨v, hv⟩
    · rw [hmax]
      intro v' hv' w hw
      rcases mem_insert.1 hw with rfl | hw
      · cases hcc : c2 with
        | nil => exact absurd hcc hc2
        | cons e t =>
          have h2' := h2 e.2 (by simp [hcc])
          have := hi.bnd v' hv' e.2 (by simp [hcc])
          omega
      · exact hi.bnd v' hv' w hw
    · rw [hmax]; exact hi.gapv
    · have := hi.bm; omega
    · rw [hmax]; intro v' hv'; have := hi.bv v' hv'; omega
  by_cases hprev : prev = []
  · -- first
    have hc1 : c1 = [] := hc.1 hprev
    subst hc1
    have hcu : createUo be k db l x prev m = (if loadNext be db l (refPred k prev) = 0 then
        R.ok (insertRec k (db.putMax l gap) l x gap (refPred k prev), m)
      else if loadNext be db l (refPred k prev) = 1 then
        (shift be l ((db.recs l).length + 1) db (loadNext be db l (refPred k prev)) m).bind fun s =>
          R.ok (insertRec k (changeNext be s.1 l (refPred k prev) (ownPred k x)) l x
            (loadNext be db l (refPred k prev)) (refPred k prev), s.2)
      else R.ok (insertRec k (changeNext be db l (refPred k prev) (ownPred k x)) l x
            (loadNext be db l (refPred k prev) / 2) (refPred k prev), m)) := by
      simp only [createUo]
      rw [if_neg (by simp [hprev])]
    rw [hcu, hp, hnext]
    cases hh : (ords c2).head? with
    | none =>
      have hc2 : c2 = [] := by
        cases c2 with
        | nil => rfl
        | cons e t => simp at hh
      subst hc2
      simp only [Option.getD_none, if_true]
      have hbase : ((db.putMax l gap).recs l).Perm (chain k [] [] ++ chain k (ownPred k x) []) := hi.perm
      have hin := insertRec_perm (c1 := []) (c2 := []) (o := gap) hbase hown
      have hmaxl : ∀ v, (insertRec k (db.putMax l gap) l x gap (lastP k [] [])).maxord l = some v → v = gap := by
        intro v hv
        simp [insertRec, DB.setRecs, DB.putMax] at hv
        omega
      refine ⟨_, _, [(x, gap)], rfl, ?_, rfl, ?_⟩
      · refine ⟨by simp, by simpa using hx0, hin, by simp, by simp [hg], ?_, ?_, hi.gapm, ?_, ?_, ?_⟩
        · intro _; exact ⟨gap, by simp [insertRec, DB.setRecs, DB.putMax]⟩
        · intro v hv w hw
          have := hmaxl v hv
          simp at hw
          subst hw
          have := hi.gapm
          split <;> omega
        · intro v hv; have := hmaxl v hv; omega
        · have := hi.bm; omega
        · intro v hv; have := hmaxl v hv; omega
      · intro l' hl'
        refine ⟨?_, ?_⟩
        · rw [insertRec_frame hl']; rfl
        · simp [insertRec, DB.setRecs, DB.putMax, hl']
    | some no =>
      have hpos := hpos0 no hh
      have hc2 : c2 ≠ [] := by rintro rfl; simp at hh
      have hfirst : ∀ w ∈ ords c2, no ≤ w := by
        intro o ho
        cases c2 with
        | nil => simp at ho
        | cons e t =>
          simp only [ords, List.map_cons, List.head?_cons, Option.some.injEq] at hh
          have hs := hi.srt
          simp only [List.nil_append, ords, List.map_cons] at hs
          have := (List.pairwise_cons.1 hs).1
          simp only [ords, List.map_cons, List.mem_cons] at ho
          rcases ho with rfl | ho
          · omega
          · have := this o ho; omega
      simp only [Option.getD_some]
      rw [if_neg (by omega)]
      by_cases h1 : no = 1
      · rw [if_pos h1]
        obtain ⟨s, c', e1, e2, e3, e4, e5⟩ := shift_insert (be := be) hi hx0 hx hh (by simp)
        rw [e1]
        refine ⟨_, _, c', rfl, e2, e3, ?_⟩
        intro l' hl'
        refine ⟨?_, ?_⟩
        · rw [insertRec_frame hl', changeNext_frame hl', e4 l' hl']
        · simp only [insertRec, DB.setRecs, changeNext_max, e5]
      · rw [if_neg h1]
        refine ⟨_, _, _, rfl, hmid (no / 2) (by simp) ?_ (by omega) hc2, by simp, ?_⟩
        · intro w hw
          have := hfirst w hw
          omega
        · intro l' hl'
          refine ⟨?_, ?_⟩
          · rw [insertRec_frame hl', changeNext_frame hl']
          · simp only [insertRec, DB.setRecs, changeNext_max]
  · -- behind an instance
    have hc1 : c1 ≠ [] := fun h => hprev (hc.2 h)
    obtain ⟨c0, ⟨y, po⟩, rfl⟩ : ∃ c0 e, c1 = c0 ++ [e] := ⟨_, _, (List.dropLast_concat_getLast hc1).symm⟩
    have hlast : lastP k [] (c0 ++ [(y, po)]) = ownPred k y := by rw [lastP_append]; rfl
    have hassoc : c0 ++ [(y, po)] ++ c2 = c0 ++ (y, po) :: c2 := by simp
    have hload : loadPrev be db l (lastP k [] (c0 ++ [(y, po)])) = .ok po := by
      rw [hlast]
      exact loadPrev_eq (c1 := c0) (c2 := c2) (hassoc ▸ hi.perm) (hassoc ▸ preds_nodup hi.nd)
    obtain ⟨hle, hlt⟩ := last_lt (c1 := c0) (y := y) (o := po) (c2 := c2) (hassoc ▸ hi.srt)
    have hcu : createUo be k db l x prev m = ((loadPrev be db l (refPred k prev)).bind fun po =>
        if loadNext be db l (refPred k prev) = 0 then
          (getMaxord be db l m).bind fun m =>
            R.ok (insertRec k db l x (m + gap) (refPred k prev), m + gap)
        else if loadNext be db l (refPred k prev) - po = 1 then
          (shift be l ((db.recs l).length + 1) db (loadNext be db l (refPred k prev)) m).bind fun s =>
            R.ok (insertRec k (changeNext be s.1 l (refPred k prev) (ownPred k x)) l x
              (loadNext be db l (refPred k prev)) (refPred k prev), s.2)
        else R.ok (insertRec k (changeNext be db l (refPred k prev) (ownPred k x)) l x
              (po + (loadNext be db l (refPred k prev) - po) / 2) (refPred k prev), m)) := by
      simp only [createUo]
      rw [if_pos hprev]
    rw [hcu, hp, hnext, hload]
    simp only [R.bind]
    cases hh : (ords c2).head? with
    | none =>
      have hc2 : c2 = [] := by
        cases c2 with
        | nil => rfl
        | cons e t => simp at hh
      subst hc2
      simp only [Option.getD_none, if_true]
      obtain ⟨v, hv⟩ := hi.som (Or.inr (by simp))
      rw [getMaxord_ok hv]
      have hM := hi.bnd v hv
      have hgv := hi.gapv v hv
      have hgm := hi.gapm
      have hMB : (if m = 0 then v else m) ≤ B := by
        have := hi.bm; have := hi.bv v hv
        split <;> omega
      generalize hMM : (if m = 0 then v else m) = M at *
      have hbase : (db.recs l).Perm (chain k [] (c0 ++ [(y, po)]) ++ chain k (ownPred k x) []) := by
        have := hi.perm
        simpa [chain] using this
      have hin := insertRec_perm (o := M + gap) hbase hown
      refine ⟨_, _, (c0 ++ [(y, po)]) ++ [(x, M + gap)], rfl, ?_, by simp, ?_⟩
      · refine ⟨nodup_insert hi.nd hx, ne_insert hx0 hi.ne, hin, sorted_insert hi.srt ?_ (by simp), ?_, ?_, ?_, ?_, ?_, ?_, ?_⟩
        · intro w hw
          have := hM w (by simpa using hw)
          omega
        · intro w hw
          rcases mem_insert.1 hw with rfl | hw
          · omega
          · exact hi.pos w hw
        · intro _; exact ⟨v, hv⟩
        · intro v' hv' w hw
          rw [if_neg (by omega)]
          rcases mem_insert.1 hw with rfl | hw
          · omega
          · have := hM w hw; omega
        · right; omega
        · exact hi.gapv
        · omega
        · intro v' hv'; have := hi.bv v' hv'; omega
      · intro l' hl'
        refine ⟨insertRec_frame hl', rfl⟩
    | some no =>
      have hpos := hpos0 no hh
      have hc2 : c2 ≠ [] := by rintro rfl; simp at hh
      have hpn : po < no := hlt no (List.mem_of_head? hh)
      have hfirst : ∀ w ∈ ords c2, no ≤ w := by
        intro o ho
        cases c2 with
        | nil => simp at ho
        | cons e t =>
          simp only [ords, List.map_cons, List.head?_cons, Option.some.injEq] at hh
          have hs := hi.srt
          simp only [ords, List.map_append, List.map_cons] at hs
          have := (List.pairwise_cons.1 (List.pairwise_append.1 hs).2.1).1
          simp only [ords, List.map_cons, List.mem_cons] at ho
          rcases ho with rfl | ho
          · omega
          · have := this o ho; omega
      simp only [Option.getD_some]
      rw [if_neg (by omega)]
      by_cases h1 : no - po = 1
      · rw [if_pos h1]
        obtain ⟨s, c', e1, e2, e3, e4, e5⟩ := shift_insert (be := be) hi hx0 hx hh
          (by intro w hw; have := hle w hw; omega)
        rw [e1]
        refine ⟨_, _, c', rfl, e2, e3, ?_⟩
        intro l' hl'
        refine ⟨?_, ?_⟩
        · rw [insertRec_frame hl', changeNext_frame hl', e4 l' hl']
        · simp only [insertRec, DB.setRecs, changeNext_max, e5]
      · rw [if_neg h1]
        refine ⟨_, _, _, rfl, hmid (po + (no - po) / 2) ?_ ?_ (by omega) hc2, by simp, ?_⟩
        · intro w hw
          have := hle w hw
          omega
        · intro w hw
          have := hfirst w hw
          omega
        · intro l' hl'
          refine ⟨?_, ?_⟩
          · rw [insertRec_frame hl', changeNext_frame hl']
          · simp only [insertRec, DB.setRecs, changeNext_max]

/-- Deleting an instance behind `c1`. -/
theorem delete_ok {be : Backend} {k : Kind} {db : DB} {l : LPath} {c1 c2 : List (Str × Nat)} {B m o : Nat}
    {x op : Str} (hi : CInv k m db l (c1 ++ (x, o) :: c2) B) (hp : refPred k op = lastP k [] c1) :
    CInv k m (deleteUo be k db l x op) l (c1 ++ c2) B ∧
      (∀ l', l' ≠ l → (deleteUo be k db l x op).recs l' = db.recs l') ∧
      (deleteUo be k db l x op).maxord = db.maxord := by
  have hassoc : c1 ++ (x, o) :: c2 = (c1 ++ [(x, o)]) ++ c2 := by simp
  have hnp := nil_preds (k := k) hi.nd hi.ne
  have hlast : lastP k [] (c1 ++ [(x, o)]) = ownPred k x := by rw [lastP_append]; rfl
  have hcn := changeNext_perm (be := be) (c1 := c1 ++ [(x, o)]) (c2 := c2) (np := refPred k op)
    (hassoc ▸ hi.perm) (hassoc ▸ hnp)
  rw [hlast] at hcn
  have hmax : (deleteUo be k db l x op).maxord = db.maxord := by
    simp only [deleteUo, DB.setRecs, changeNext_max]
  have hsub : List.Sublist (c1 ++ c2) (c1 ++ (x, o) :: c2) :=
    List.Sublist.append_left (List.sublist_cons_self _ _) _
  have hperm : ((deleteUo be k db l x op).recs l).Perm (chain k [] (c1 ++ c2)) := by
    simp only [deleteUo, DB.setRecs, if_true]
    have h2 := hcn.filter (fun r => r.pred ≠ ownPred k x)
    rw [chain_append k [] c1 [(x, o)]] at h2
    simp only [chain, List.append_assoc, List.cons_append, List.nil_append] at h2
    rw [filter_pred (List.nodup_cons.1 hnp).2] at h2
    rw [chain_append, ← hp]
    exact h2
  refine ⟨⟨hi.nd.sublist (hsub.map _), fun h => hi.ne ((hsub.map _).subset h), hperm,
    hi.srt.sublist (hsub.map _), fun w hw => hi.pos w ((hsub.map _).subset hw), ?_, ?_, hi.gapm, ?_, hi.bm, ?_⟩, ?_, hmax⟩
  · intro _; rw [hmax]; exact hi.som (Or.inr (by simp))
  · rw [hmax]; intro v hv w hw; exact hi.bnd v hv w ((hsub.map _).subset hw)
  · rw [hmax]; exact hi.gapv
  · rw [hmax]; exact hi.bv
  · intro l' hl'
    simp only [deleteUo, DB.setRecs, if_neg hl']
    exact changeNext_frame hl'

end Verif.DbUo
