import Verif.DbUo

/-! Lemmas for `DbUo`: the records of one list as a chain. -/
namespace Verif.DbUo

/-- The records of a list with the given instances and orders. -/
def chain (k : Kind) : Str → List (Str × Nat) → List Rec
  | _, [] => []
  | p, (x, o) :: t => { elem := x, pred := ownPred k x, order := o, prev := p } :: chain k (ownPred k x) t

/-- The predicate of the last instance. -/
def lastP (k : Kind) : Str → List (Str × Nat) → Str
  | p, [] => p
  | _, (x, _) :: t => lastP k (ownPred k x) t

/-- The predicates of the instances. -/
def preds (k : Kind) (c : List (Str × Nat)) : List Str := c.map fun e => ownPred k e.1

theorem ownPred_inj {k : Kind} {v w : Str} (h : ownPred k v = ownPred k w) : v = w := by
  cases k
  · exact h
  · simp only [ownPred] at h
    split at h <;> split at h <;> simp at h <;> exact h

theorem ownPred_ne_nil {k : Kind} {v : Str} (h : v ≠ []) : ownPred k v ≠ [] := by
  cases k
  · exact h
  · simp only [ownPred]; split <;> simp

theorem refPred_eq {k : Kind} {v : Str} (hn : v ≠ []) (h : k = .leaflist → '\'' ∉ v) :
    refPred k v = ownPred k v := by
  cases k
  · rfl
  · simp [refPred, ownPred, hn, h rfl]

theorem refPred_nil {k : Kind} : refPred k [] = [] := by cases k <;> rfl

theorem chain_append (k : Kind) (p : Str) (c d : List (Str × Nat)) :
    chain k p (c ++ d) = chain k p c ++ chain k (lastP k p c) d := by
  induction c generalizing p with
  | nil => rfl
  | cons e t ih => obtain ⟨x, o⟩ := e; simp [chain, lastP, ih]

theorem lastP_append (k : Kind) (p : Str) (c d : List (Str × Nat)) :
    lastP k p (c ++ d) = lastP k (lastP k p c) d := by
  induction c generalizing p with
  | nil => rfl
  | cons e t ih => obtain ⟨x, o⟩ := e; simp [lastP, ih]

theorem lastP_mem (k : Kind) (p : Str) (c : List (Str × Nat)) : lastP k p c ∈ p :: preds k c := by
  induction c generalizing p with
  | nil => simp [lastP]
  | cons e t ih =>
    obtain ⟨x, o⟩ := e
    have := ih (ownPred k x)
    simp only [lastP, preds, List.map_cons] at *
    exact List.mem_cons_of_mem _ this

theorem chain_pred_mem {k : Kind} {p : Str} {c : List (Str × Nat)} {r : Rec} (h : r ∈ chain k p c) :
    r.pred ∈ preds k c := by
  induction c generalizing p with
  | nil => simp [chain] at h
  | cons e t ih =>
    obtain ⟨x, o⟩ := e
    simp only [chain, List.mem_cons] at h
    rcases h with rfl | h
    · simp [preds]
    · exact List.mem_cons_of_mem _ (ih h)

theorem chain_order_mem {k : Kind} {p : Str} {c : List (Str × Nat)} {r : Rec} (h : r ∈ chain k p c) :
    r.order ∈ c.map Prod.snd := by
  induction c generalizing p with
  | nil => simp [chain] at h
  | cons e t ih =>
    obtain ⟨x, o⟩ := e
    simp only [chain, List.mem_cons] at h
    rcases h with rfl | h
    · simp
    · exact List.mem_cons_of_mem _ (ih h)

/-- The `prev` of a record of the chain is the start or a predicate of the chain. -/
theorem chain_prev_mem {k : Kind} {p : Str} {c : List (Str × Nat)} {r : Rec} (h : r ∈ chain k p c) :
    r.prev ∈ p :: preds k c := by
  induction c generalizing p with
  | nil => simp [chain] at h
  | cons e t ih =>
    obtain ⟨x, o⟩ := e
    simp only [chain, List.mem_cons] at h
    rcases h with rfl | h
    · simp
    · exact List.mem_cons_of_mem _ (ih h)

/-- No record of a chain has the last predicate as its `prev`. -/
theorem chain_prev_ne_last {k : Kind} {p : Str} {c : List (Str × Nat)} (hn : (p :: preds k c).Nodup)
    {r : Rec} (h : r ∈ chain k p c) : r.prev ≠ lastP k p c := by
  induction c generalizing p with
  | nil => simp [chain] at h
  | cons e t ih =>
    obtain ⟨x, o⟩ := e
    simp only [preds, List.map_cons] at hn
    have hn' := (List.nodup_cons.1 hn)
    simp only [chain, List.mem_cons] at h
    rcases h with rfl | h
    · intro hp
      have := lastP_mem k (ownPred k x) t
      simp only [lastP] at hp
      exact hn'.1 (hp ▸ this)
    · exact ih hn'.2 h

theorem filter_prev {k : Kind} {p : Str} {c d : List (Str × Nat)} (hn : (p :: preds k (c ++ d)).Nodup) :
    (chain k p (c ++ d)).filter (fun r => r.prev = lastP k p c) = (chain k (lastP k p c) d).take 1 := by
  have hn1 : (p :: preds k c).Nodup := by
    have : preds k (c ++ d) = preds k c ++ preds k d := by simp [preds]
    rw [this, ← List.cons_append] at hn
    exact (List.nodup_append.1 hn).1
  have hd : ∀ q ∈ p :: preds k c, q ∉ preds k d := by
    have : preds k (c ++ d) = preds k c ++ preds k d := by simp [preds]
    rw [this, ← List.cons_append] at hn
    intro q hq hqd
    exact (List.nodup_append.1 hn).2.2 q hq q hqd rfl
  rw [chain_append, List.filter_append]
  have h1 : (chain k p c).filter (fun r => r.prev = lastP k p c) = [] := by
    rw [List.filter_eq_nil_iff]
    intro r hr
    simpa using chain_prev_ne_last hn1 hr
  rw [h1, List.nil_append]
  cases d with
  | nil => rfl
  | cons e t =>
    obtain ⟨x, o⟩ := e
    simp only [chain, List.take_succ_cons, List.take_zero]
    rw [List.filter_cons_of_pos (by simp)]
    congr 1
    rw [List.filter_eq_nil_iff]
    intro r hr
    have := chain_prev_mem hr
    have hq := hd _ (lastP_mem k p c)
    simp only [decide_eq_true_eq]
    intro he
    rw [he] at this
    exact hq (by simpa [preds] using this)

/-- Changing the `prev` of the record behind `c`. -/
theorem map_prev {k : Kind} {p np : Str} {c d : List (Str × Nat)} {x : Str} {o : Nat}
    (hn : (preds k (c ++ (x, o) :: d)).Nodup) :
    (chain k p (c ++ (x, o) :: d)).map (fun r => if r.pred = ownPred k x then { r with prev := np } else r)
      = chain k p c ++ chain k np ((x, o) :: d) := by
  have hs : preds k (c ++ (x, o) :: d) = preds k c ++ ownPred k x :: preds k d := by simp [preds]
  rw [hs] at hn
  have hn2 := List.nodup_append.1 hn
  rw [chain_append, List.map_append]
  have h1 : (chain k p c).map (fun r => if r.pred = ownPred k x then { r with prev := np } else r)
      = chain k p c := by
    conv => rhs; rw [← List.map_id (chain k p c)]
    apply List.map_congr_left
    intro r hr
    have := chain_pred_mem hr
    rw [if_neg]; · rfl
    intro he
    exact hn2.2.2 _ this _ (by simp) he
  rw [h1]
  congr 1
  simp only [chain, List.map_cons, if_true]
  congr 1
  conv => rhs; rw [← List.map_id (chain k _ d)]
  apply List.map_congr_left
  intro r hr
  have := chain_pred_mem hr
  rw [if_neg]; · rfl
  intro he
  rw [he] at this
  exact (List.nodup_cons.1 hn2.2.1).1 this

/-- Changing the order of one record. -/
theorem map_order {k : Kind} {p : Str} {c d : List (Str × Nat)} {x : Str} {o n : Nat}
    (hn : (preds k (c ++ (x, o) :: d)).Nodup) :
    (chain k p (c ++ (x, o) :: d)).map (fun r => if r.pred = ownPred k x then { r with order := n } else r)
      = chain k p (c ++ (x, n) :: d) := by
  have hs : preds k (c ++ (x, o) :: d) = preds k c ++ ownPred k x :: preds k d := by simp [preds]
  rw [hs] at hn
  have hn2 := List.nodup_append.1 hn
  rw [chain_append, List.map_append, chain_append]
  have h1 : (chain k p c).map (fun r => if r.pred = ownPred k x then { r with order := n } else r)
      = chain k p c := by
    conv => rhs; rw [← List.map_id (chain k p c)]
    apply List.map_congr_left
    intro r hr
    have := chain_pred_mem hr
    rw [if_neg]; · rfl
    intro he
    exact hn2.2.2 _ this _ (by simp) he
  rw [h1]
  congr 1
  simp only [chain, List.map_cons, if_true]
  congr 1
  conv => rhs; rw [← List.map_id (chain k _ d)]
  apply List.map_congr_left
  intro r hr
  have := chain_pred_mem hr
  rw [if_neg]; · rfl
  intro he
  rw [he] at this
  exact (List.nodup_cons.1 hn2.2.1).1 this

/-- Removing one record by its predicate. -/
theorem filter_pred {k : Kind} {p : Str} {c d : List (Str × Nat)} {x : Str} {q : Str} {o : Nat}
    (hn : (preds k (c ++ (x, o) :: d)).Nodup) :
    (chain k p c ++ { elem := x, pred := ownPred k x, order := o, prev := lastP k p c } :: chain k q d).filter
        (fun r => r.pred ≠ ownPred k x)
      = chain k p c ++ chain k q d := by
  have hs : preds k (c ++ (x, o) :: d) = preds k c ++ ownPred k x :: preds k d := by simp [preds]
  rw [hs] at hn
  have hn2 := List.nodup_append.1 hn
  rw [List.filter_append, List.filter_cons_of_neg (by simp)]
  congr 1
  · rw [List.filter_eq_self]
    intro r hr
    have := chain_pred_mem hr
    simp only [ne_eq, decide_not, Bool.not_eq_eq_eq_not, Bool.not_true, decide_eq_false_iff_not]
    intro he
    exact hn2.2.2 _ this _ (by simp) he
  · rw [List.filter_eq_self]
    intro r hr
    have := chain_pred_mem hr
    simp only [ne_eq, decide_not, Bool.not_eq_eq_eq_not, Bool.not_true, decide_eq_false_iff_not]
    intro he
    rw [he] at this
    exact (List.nodup_cons.1 hn2.2.1).1 this

theorem filter_absent {k : Kind} {p q : Str} {c d : List (Str × Nat)} {x : Str}
    (hx : ownPred k x ∉ preds k (c ++ d)) :
    (chain k p c ++ chain k q d).filter (fun r => r.pred ≠ ownPred k x) = chain k p c ++ chain k q d := by
  rw [List.filter_eq_self]
  intro r hr
  simp only [ne_eq, decide_not, Bool.not_eq_eq_eq_not, Bool.not_true, decide_eq_false_iff_not]
  intro he
  apply hx
  rw [← he]
  simp only [preds, List.map_append, List.mem_append] at *
  rcases hr with hr | hr
  · exact Or.inl (chain_pred_mem hr)
  · exact Or.inr (chain_pred_mem hr)

/-! ## Records in any order -/

theorem pick_perm {be : Backend} {l : List Rec} {r : Rec} (h : l.Perm [r]) : pick be l = some r := by
  have := List.perm_singleton.1 h
  subst this
  cases be <;> rfl

theorem pick_perm_nil {be : Backend} {l : List Rec} (h : l.Perm []) : pick be l = none := by
  have := List.perm_nil.1 h
  subst this
  cases be <;> rfl

theorem pick_take {be : Backend} {l : List Rec} {k : Kind} {q : Str} {d : List (Str × Nat)}
    (h : l.Perm ((chain k q d).take 1)) : pick be l = (chain k q d).head? := by
  cases d with
  | nil => exact pick_perm_nil h
  | cons e t => obtain ⟨x, o⟩ := e; exact pick_perm h

end Verif.DbUo
