import Verif.DbUoLemmas

/-! Lemmas for `DbUo`: the operations on one list. -/
namespace Verif.DbUo

abbrev ords (c : List (Str × Nat)) : List Nat := c.map Prod.snd

theorem filter_order_none {k : Kind} {p : Str} {c : List (Str × Nat)} {n : Nat} (h : n ∉ ords c) :
    (chain k p c).filter (fun r => r.order = n) = [] := by
  rw [List.filter_eq_nil_iff]
  intro r hr
  have := chain_order_mem hr
  simp only [decide_eq_true_eq]
  rintro rfl
  exact h this

theorem filter_order_one {k : Kind} {p : Str} {c d : List (Str × Nat)} {x : Str} {n : Nat}
    (h : (ords (c ++ (x, n) :: d)).Pairwise (· < ·)) :
    (chain k p (c ++ (x, n) :: d)).filter (fun r => r.order = n)
      = [{ elem := x, pred := ownPred k x, order := n, prev := lastP k p c }] := by
  simp only [ords, List.map_append, List.map_cons] at h
  have h' := List.pairwise_append.1 h
  have h2 := List.pairwise_cons.1 h'.2.1
  rw [chain_append, List.filter_append, filter_order_none (c := c), List.nil_append]
  · simp only [chain]
    rw [List.filter_cons_of_pos (by simp), filter_order_none]
    intro hm
    exact Nat.lt_irrefl _ (h2.1 n hm)
  · intro hm
    exact Nat.lt_irrefl _ (h'.2.2 n hm n (by simp))

/-- What shifting makes of the records from the order `n` on. -/
def bump : Nat → List (Str × Nat) → List (Str × Nat)
  | _, [] => []
  | n, (x, o) :: t => if o = n then (x, n + 1) :: bump (n + 1) t else (x, o) :: t

theorem bump_fst (n : Nat) (d : List (Str × Nat)) : (bump n d).map Prod.fst = d.map Prod.fst := by
  induction d generalizing n with
  | nil => rfl
  | cons e t ih =>
    obtain ⟨x, o⟩ := e
    simp only [bump]
    split
    · simp [ih]
    · rfl

theorem bump_preds (k : Kind) (n : Nat) (d : List (Str × Nat)) : preds k (bump n d) = preds k d := by
  have : ∀ c : List (Str × Nat), preds k c = (c.map Prod.fst).map (ownPred k) := by
    intro c; simp [preds, List.map_map, Function.comp_def]
  rw [this, this, bump_fst]

theorem bump_gt {n : Nat} {d : List (Str × Nat)} (hs : (ords d).Pairwise (· < ·))
    (hn : ∀ o ∈ ords d, n ≤ o) : ∀ o ∈ ords (bump n d), n < o := by
  induction d generalizing n with
  | nil => simp [bump]
  | cons e t ih =>
    obtain ⟨x, o⟩ := e
    simp only [ords, List.map_cons] at hs hn
    have hs' := List.pairwise_cons.1 hs
    have ho := hn o (by simp)
    intro w hw
    simp only [bump] at hw
    split at hw
    · rename_i he
      subst he
      simp only [ords, List.map_cons, List.mem_cons] at hw
      rcases hw with rfl | hw
      · omega
      · have := ih (n := o + 1) hs'.2 (by intro q hq; exact hs'.1 q hq) w hw
        omega
    · rename_i he
      simp only [ords, List.map_cons, List.mem_cons] at hw
      rcases hw with rfl | hw
      · omega
      · have := hs'.1 w hw; omega

theorem bump_sorted {n : Nat} {d : List (Str × Nat)} (hs : (ords d).Pairwise (· < ·)) :
    (ords (bump n d)).Pairwise (· < ·) := by
  induction d generalizing n with
  | nil => simp [bump]
  | cons e t ih =>
    obtain ⟨x, o⟩ := e
    simp only [ords, List.map_cons] at hs
    have hs' := List.pairwise_cons.1 hs
    simp only [bump]
    split
    · rename_i he
      subst he
      simp only [ords, List.map_cons]
      exact List.pairwise_cons.2 ⟨bump_gt hs'.2 (fun q hq => hs'.1 q hq), ih hs'.2⟩
    · exact hs

theorem getMaxord_ok {be : Backend} {db : DB} {l : LPath} {m v : Nat} (h : db.maxord l = some v) :
    getMaxord be db l m = .ok (if m = 0 then v else m) := by
  simp only [getMaxord]
  by_cases hm : m = 0
  · simp [hm, h]
  · simp [hm]

theorem shift_ok (be : Backend) (k : Kind) (l : LPath) (p : Str) (v : Nat) :
    ∀ (d c : List (Str × Nat)) (fuel : Nat) (db : DB) (n m M : Nat),
      (if m = 0 then v else m) = M →
      (db.recs l).Perm (chain k p (c ++ d)) → (preds k (c ++ d)).Nodup →
      (ords (c ++ d)).Pairwise (· < ·) → (∀ o ∈ ords c, o < n) →
      (∀ o ∈ ords d, n ≤ o) → db.maxord l = some v → d.length < fuel →
      0 < M → (∀ o ∈ ords d, o ≤ M) → n ≤ M + 1 →
      ∃ db' m', shift be l fuel db n m = .ok (db', m') ∧
        (db'.recs l).Perm (chain k p (c ++ bump n d)) ∧ (∀ l', l' ≠ l → db'.recs l' = db.recs l') ∧
        db'.maxord = db.maxord ∧ M ≤ m' ∧ m' ≤ M + 1 ∧
        (∀ o ∈ ords (bump n d), o ≤ m') ∧ n ≤ m' := by
  intro d
  induction d with
  | nil =>
    intro c fuel db n m M hM hp _ _ hc _ hv hf h0 _ hn
    cases fuel with
    | zero => simp at hf
    | succ fuel =>
      have hpick : pick be ((db.recs l).filter (fun r => r.order = n)) = none := by
        apply pick_perm_nil
        have := (hp.filter (fun r => r.order = n))
        rw [filter_order_none] at this
        · exact this
        · intro hm
          rw [List.append_nil] at hm
          exact Nat.lt_irrefl _ (hc n hm)
      have hg := getMaxord_ok (be := be) (m := m) hv
      rw [hM] at hg
      refine ⟨db, if M < n then n else M, ?_, ?_, ?_, rfl, ?_⟩
      · simp only [shift, hg, R.bind, hpick]
      · simpa [bump] using hp
      · intro l' _; rfl
      · split <;> simp [bump] <;> omega
  | cons e t ih =>
    obtain ⟨x, o⟩ := e
    intro c fuel db n m M hM hp hnd hs hc hd hv hf h0 hle hn
    cases fuel with
    | zero => simp at hf
    | succ fuel =>
      have hg := getMaxord_ok (be := be) (m := m) hv
      rw [hM] at hg
      by_cases hon : o = n
      · subst hon
        have hoM : o ≤ M := hle o (by simp)
        have hpick : pick be ((db.recs l).filter (fun r => r.order = o)) =
            some { elem := x, pred := ownPred k x, order := o, prev := lastP k p c } := by
          apply pick_perm
          have := (hp.filter (fun r => r.order = o))
          rw [filter_order_one hs] at this
          exact this
        have hassoc : c ++ (x, o) :: t = (c ++ [(x, o)]) ++ t := by simp
        have hst : (ords t).Pairwise (· < ·) ∧ ∀ w ∈ ords t, o < w := by
          simp only [ords, List.map_append, List.map_cons] at hs
          have := List.pairwise_cons.1 (List.pairwise_append.1 hs).2.1
          exact ⟨this.2, this.1⟩
        obtain ⟨db', m', h1, h2, h3, h4, h5, h6, h7, h8⟩ := ih (c ++ [(x, o)]) fuel db (o + 1) M M
          (by split <;> omega) (hassoc ▸ hp) (hassoc ▸ hnd) (hassoc ▸ hs)
          (by
            intro w hw
            simp only [ords, List.map_append, List.map_cons, List.map_nil, List.mem_append, List.mem_singleton] at hw
            rcases hw with hw | rfl
            · have := hc w hw; omega
            · omega)
          (by intro w hw; exact hst.2 w hw) hv (by simp at hf; omega) h0
          (by intro w hw; exact hle w (by simp only [ords, List.map_cons]; exact List.mem_cons_of_mem _ hw)) (by omega)
        refine ⟨db'.setRecs l ((db'.recs l).map fun y =>
            if y.pred = ownPred k x then { y with order := o + 1 } else y), m', ?_, ?_, ?_, ?_, h5, h6, ?_, by omega⟩
        · simp only [shift, hg, R.bind, hpick]
          rw [if_neg (by omega), h1]
        · simp only [DB.setRecs, if_true]
          have h2' := h2.map (fun y : Rec => if y.pred = ownPred k x then { y with order := o + 1 } else y)
          have he : c ++ [(x, o)] ++ bump (o + 1) t = c ++ (x, o) :: bump (o + 1) t := by simp
          rw [he, map_order] at h2'
          · simpa [bump] using h2'
          · have : preds k (c ++ (x, o) :: bump (o + 1) t) = preds k (c ++ (x, o) :: t) := by
              have hb := bump_preds k (o + 1) t
              simp only [preds] at hb
              simp [preds, hb]
            rw [this]; exact hnd
        · intro l' hl'
          simp only [DB.setRecs, if_neg hl']
          exact h3 l' hl'
        · exact h4
        · intro w hw
          simp only [bump, if_true, ords, List.map_cons, List.mem_cons] at hw
          rcases hw with rfl | hw
          · exact h8
          · exact h7 w hw
      · have hno : n < o := by have := hd o (by simp); omega
        have hpick : pick be ((db.recs l).filter (fun r => r.order = n)) = none := by
          apply pick_perm_nil
          have := (hp.filter (fun r => r.order = n))
          rw [filter_order_none] at this
          · exact this
          · intro hm
            simp only [ords, List.map_append, List.map_cons, List.mem_append, List.mem_cons] at hm
            rcases hm with hm | hm | hm
            · exact Nat.lt_irrefl _ (hc n hm)
            · exact hon hm.symm
            · simp only [ords, List.map_append, List.map_cons] at hs
              have := (List.pairwise_cons.1 (List.pairwise_append.1 hs).2.1).1 n hm
              omega
        have hoM : o ≤ M := hle o (by simp)
        refine ⟨db, M, ?_, ?_, fun _ _ => rfl, rfl, by omega, by omega, ?_, by omega⟩
        · simp only [shift, hg, R.bind, hpick]
          rw [if_neg (by omega)]
        · simpa [bump, hon] using hp
        · simpa [bump, hon] using hle

end Verif.DbUo
