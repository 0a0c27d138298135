/-
Property of the options of reading operational data: C131.
-/
import Verif.OperTrim

namespace Verif.OperTrim

mutual
theorem state_only (o : Opts) (pre : List Nat) (up : Bool) : ∀ t : Tree, Valid true t → ∀ n ∈ nodes pre up t, n.state = true ∧ n.below = true
  | .mk id state key kids, h => by
    simp only [Valid] at h
    have hs := h.1 trivial
    subst hs
    intro n hn
    simp only [nodes, List.mem_cons] at hn
    rcases hn with hn | hn
    · subst hn; exact ⟨rfl, rfl⟩
    · exact state_only_all o _ _ kids h.2.2 n hn

theorem state_only_all (o : Opts) (pre : List Nat) (up : Bool) : ∀ ts : List Tree, ValidAll true ts →
    ∀ n ∈ nodesAll pre up ts, n.state = true ∧ n.below = true
  | [], _ => by intro n hn; cases hn
  | t :: ts, h => by
    simp only [ValidAll] at h
    intro n hn
    simp only [nodesAll, List.mem_append] at hn
    rcases hn with hn | hn
    · exact state_only o _ _ t h.1 n hn
    · exact state_only_all o _ _ ts h.2 n hn
end

theorem filter_all_false {p : Node → Bool} {l : List Node} (h : ∀ n ∈ l, p n = false) : l.filter p = [] :=
  List.filter_eq_nil_iff.2 (fun n hn => by simp [h n hn])

theorem filter_all_true {p : Node → Bool} {l : List Node} (h : ∀ n ∈ l, p n = true) : l.filter p = l := List.filter_eq_self.2 h

theorem paths_append (a b : List Node) : paths (a ++ b) = paths a ++ paths b := List.map_append

mutual
/-- Without state. -/
theorem no_state_tree (pre : List Nat) (up up' : Bool) : ∀ t : Tree, Valid false t →
    (match trim ⟨true, false⟩ t with | none => [] | some t' => paths (nodes pre up' t')) =
      paths ((nodes pre up t).filter (fun n => !n.state))
  | .mk id state key kids, h => by
    simp only [Valid] at h
    obtain ⟨_, hk, hv⟩ := h
    cases key with
    | true =>
      obtain ⟨h1, h2⟩ := hk rfl
      subst h1; subst h2
      simp [trim, nodes, nodesAll, paths]
    | false =>
      cases state with
      | true =>
        simp only [trim, Bool.true_or, Bool.not_true, Bool.false_eq_true, if_false, if_true]
        rw [filter_all_false (fun n hn => ?_)]
        · rfl
        · have : Valid true (.mk id true false kids) := by
            simp only [Valid]
            exact ⟨fun _ => trivial, (fun h => by cases h), hv⟩
          simp [(state_only ⟨true, false⟩ pre up _ this n hn).1]
      | false =>
        simp only [trim, Bool.true_or, Bool.not_true, Bool.false_eq_true, if_false, Bool.false_and]
        have := no_state_all (pre ++ [id]) (false || anyState kids) (false || anyState (trimAll ⟨true, false⟩ kids)) kids hv
        simp only [nodes, paths, List.map_cons, List.filter_cons, Bool.not_false, if_true] at this ⊢
        rw [this]

theorem no_state_all (pre : List Nat) (up up' : Bool) : ∀ ts : List Tree, ValidAll false ts →
    paths (nodesAll pre up' (trimAll ⟨true, false⟩ ts)) = paths ((nodesAll pre up ts).filter (fun n => !n.state))
  | [], _ => rfl
  | t :: ts, h => by
    simp only [ValidAll] at h
    have h1 := no_state_tree pre up up' t h.1
    have h2 := no_state_all pre up up' ts h.2
    simp only [trimAll, nodesAll, List.filter_append, paths_append]
    rw [← h1, ← h2]
    cases trim ⟨true, false⟩ t with
    | none => rfl
    | some t' => simp only [nodesAll, paths_append]
end

mutual
/-- What is left has state, unless it is a key. -/
theorem no_config_none : ∀ t : Tree, Valid false t → t.key = false → ((trim ⟨false, true⟩ t).isSome = hasState t)
  | .mk id state key kids, h, hk => by
    simp only [Tree.key] at hk
    subst hk
    simp only [Valid] at h
    cases state with
    | true => simp [trim, hasState]
    | false =>
      have := no_config_keys kids h.2.2
      simp only [trim, Bool.or_true, Bool.not_true, Bool.false_eq_true, if_false, Bool.true_and, hasState, Bool.false_or]
      rw [this]
      cases anyState kids <;> rfl

theorem no_config_keys : ∀ ts : List Tree, ValidAll false ts → (trimAll ⟨false, true⟩ ts).all Tree.key = !anyState ts
  | [], _ => rfl
  | t :: ts, h => by
    simp only [ValidAll] at h
    have h2 := no_config_keys ts h.2
    by_cases hk : t.key = true
    · obtain ⟨id, state, key, kids⟩ := t
      simp only [Tree.key] at hk
      subst hk
      have h1 := h.1
      simp only [Valid] at h1
      obtain ⟨h3, h4⟩ := h1.2.1 trivial
      subst h3; subst h4
      simp only [trimAll, trim, Bool.or_true, Bool.not_true, Bool.false_eq_true, if_false, if_true, List.all_cons, Tree.key, Bool.true_and, h2,
        anyState, hasState, Bool.false_or]
    · have hk : t.key = false := by simpa using hk
      have h1 := no_config_none t h.1 hk
      simp only [trimAll, anyState]
      cases ht : trim ⟨false, true⟩ t with
      | none => rw [ht] at h1; simp only [Option.isSome_none] at h1; simp only [← h1, Bool.false_or, h2]
      | some t' =>
        rw [ht] at h1
        simp only [Option.isSome_some] at h1
        have hk' : t'.key = false := by
          obtain ⟨id, state, key, kids⟩ := t
          simp only [Tree.key] at hk
          subst hk
          simp only [trim, Bool.or_true, Bool.not_true, Bool.false_eq_true, if_false] at ht
          split at ht
          · cases ht; rfl
          · split at ht
            · cases ht
            · cases ht; rfl
        simp [List.all_cons, hk', ← h1]
end

mutual
theorem no_state_in (pre : List Nat) (up : Bool) : ∀ t : Tree, hasState t = false → (t.key && up) = false → Valid false t →
    ∀ n ∈ nodes pre up t, n.below = false ∧ n.keyOf = false
  | .mk id state key kids, h, hk, hv => by
    simp only [hasState, Bool.or_eq_false_iff] at h
    simp only [Tree.key] at hk
    simp only [Valid] at hv
    obtain ⟨h1, h2⟩ := h
    subst h1
    intro n hn
    simp only [nodes, List.mem_cons, h2, Bool.or_false] at hn
    rcases hn with hn | hn
    · subst hn; exact ⟨rfl, hk⟩
    · exact no_state_in_all _ kids h2 hv.2.2 n hn

theorem no_state_in_all (pre : List Nat) : ∀ ts : List Tree, anyState ts = false → ValidAll false ts →
    ∀ n ∈ nodesAll pre false ts, n.below = false ∧ n.keyOf = false
  | [], _, _ => by intro n hn; cases hn
  | t :: ts, h, hv => by
    simp only [anyState, Bool.or_eq_false_iff] at h
    simp only [ValidAll] at hv
    intro n hn
    simp only [nodesAll, List.mem_append] at hn
    rcases hn with hn | hn
    · exact no_state_in _ _ t h.1 (by simp) hv.1 n hn
    · exact no_state_in_all _ ts h.2 hv.2 n hn
end

mutual
/-- Without configuration, a tree that is not a key or the key of an instance with state. -/
theorem no_config_tree (pre : List Nat) (up up' : Bool) : ∀ t : Tree, Valid false t → (t.key = true → up = true) →
    (match trim ⟨false, true⟩ t with | none => [] | some t' => paths (nodes pre up' t')) =
      paths ((nodes pre up t).filter (fun n => n.below || n.keyOf))
  | .mk id state key kids, h, hku => by
    have hval := h
    simp only [Valid] at h
    obtain ⟨_, hk, hv⟩ := h
    simp only [Tree.key] at hku
    cases key with
    | true =>
      obtain ⟨h1, h2⟩ := hk rfl
      have h3 := hku rfl
      subst h1; subst h2; subst h3
      simp [trim, nodes, nodesAll, paths]
    | false =>
      cases state with
      | true =>
        simp only [trim, Bool.or_true, Bool.not_true, Bool.false_eq_true, if_false, if_true]
        have hv' : Valid true (.mk id true false kids) := by
          simp only [Valid]
          exact ⟨fun _ => trivial, (fun h => by cases h), hv⟩
        rw [filter_all_true (fun n hn => by simp [(state_only ⟨true, false⟩ pre up _ hv' n hn).2])]
        simp [nodes, paths]
      | false =>
        have hn := no_config_none _ hval rfl
        cases ha : anyState kids with
        | false =>
          have hh : hasState (.mk id false false kids) = false := by simp [hasState, ha]
          rw [hh] at hn
          cases ht : trim ⟨false, true⟩ (.mk id false false kids) with
          | some t' => rw [ht] at hn; cases hn
          | none =>
            simp only
            rw [filter_all_false (fun n hn => by simp [no_state_in pre up _ hh rfl hval n hn])]
            rfl
        | true =>
          have hkeys := no_config_keys kids hv
          rw [ha] at hkeys
          have := no_config_all (pre ++ [id]) (false || anyState (trimAll ⟨false, true⟩ kids)) kids hv
          simp only [trim, Bool.or_true, Bool.not_true, Bool.false_eq_true, if_false, Bool.true_and, hkeys]
          simp only [nodes, paths, List.map_cons, List.filter_cons, ha, Bool.or_true, Bool.true_or, if_true] at this ⊢
          rw [this]

theorem no_config_all (pre : List Nat) (up' : Bool) : ∀ ts : List Tree, ValidAll false ts →
    paths (nodesAll pre up' (trimAll ⟨false, true⟩ ts)) = paths ((nodesAll pre true ts).filter (fun n => n.below || n.keyOf))
  | [], _ => rfl
  | t :: ts, h => by
    simp only [ValidAll] at h
    have h1 := no_config_tree pre true up' t h.1 (fun _ => rfl)
    have h2 := no_config_all pre up' ts h.2
    simp only [trimAll, nodesAll, List.filter_append, paths_append]
    rw [← h1, ← h2]
    cases trim ⟨false, true⟩ t with
    | none => rfl
    | some t' => simp only [nodesAll, paths_append]
end

theorem trimSet_eq (o : Opts) (ts : List Tree) : trimSet o ts = trimAll o ts := by
  induction ts with
  | nil => rfl
  | cons t ts ih => simp only [trimSet, trimAll, ih]

theorem validAll_of {up : Bool} {ts : List Tree} (h : ∀ t ∈ ts, Valid up t) : ValidAll up ts := by
  induction ts with
  | nil => trivial
  | cons t ts ih => exact ⟨h t List.mem_cons_self, ih (fun t' ht => h t' (List.mem_cons_of_mem _ ht))⟩

/-- C131 with `SR_OPER_NO_STATE`, when no key of a state list is selected directly (`Valid false` says that keys that are selected are
configuration): exactly the nodes of the selected subtrees that are not state are returned, in the same order. -/
theorem no_state_exact_partial (ts : List Tree) (h : ∀ t ∈ ts, Valid false t) :
    paths (nodesAll [] false (trimSet ⟨true, false⟩ ts)) = paths ((nodesAll [] false ts).filter (fun n => !n.state)) := by
  rw [trimSet_eq]
  exact no_state_all [] false false ts (validAll_of h)

/-- C131 with `SR_OPER_NO_CONFIG`, when no key is selected directly: exactly the state nodes, the nodes they are in, and the keys of
these list instances are returned, in the same order. -/
theorem no_config_exact_partial (ts : List Tree) (h : ∀ t ∈ ts, Valid false t) (hk : ∀ t ∈ ts, t.key = false) :
    paths (nodesAll [] false (trimSet ⟨false, true⟩ ts)) = paths ((nodesAll [] false ts).filter (fun n => n.below || n.keyOf)) := by
  rw [trimSet_eq]
  induction ts with
  | nil => rfl
  | cons t ts ih =>
    have h1 := no_config_tree [] false false t (h t List.mem_cons_self)
      (fun hc => by rw [hk t List.mem_cons_self] at hc; cases hc)
    have h2 := ih (fun t' ht => h t' (List.mem_cons_of_mem _ ht)) (fun t' ht => hk t' (List.mem_cons_of_mem _ ht))
    simp only [trimAll, nodesAll, List.filter_append, paths_append]
    rw [← h1, ← h2]
    cases trim ⟨false, true⟩ t with
    | none => rfl
    | some t' => simp only [nodesAll, paths_append]

/-- C131 without options: everything is returned. -/
theorem no_option_all (ts : List Tree) : trimSet ⟨false, false⟩ ts = ts := by
  induction ts with
  | nil => rfl
  | cons t ts ih =>
    have : trim ⟨false, false⟩ t = some t := by cases t; simp [trim]
    simp only [trimSet, this, ih]

/-- C131 of single values: exactly the selected nodes of the kind asked for, in the same order. -/
theorem items_exact (o : Opts) (ts : List Tree) :
    items o ts = ts.filter (fun t => (t.state → ¬o.noState) ∧ (¬t.state → ¬o.noConfig)) := by
  induction ts with
  | nil => rfl
  | cons t ts ih =>
    simp only [items, List.filter_cons, ih]
    cases t.state <;> cases o.noState <;> cases o.noConfig <;> simp

/-- A list instance with a key, a configuration leaf and a container with a state leaf; a configuration leaf; a state container. -/
def sample : List Tree :=
  [.mk 1 false false [.mk 2 false true [], .mk 3 false false [], .mk 4 false false [.mk 5 true false []]], .mk 6 false false [],
   .mk 7 true false [.mk 8 true false []]]

/-- They meet the hypotheses. -/
example : (∀ t ∈ sample, Valid false t) ∧ (∀ t ∈ sample, t.key = false) ∧
    paths (nodesAll [] false (trimSet ⟨true, false⟩ sample)) = [[1], [1, 2], [1, 3], [1, 4], [6]] ∧
    paths (nodesAll [] false (trimSet ⟨false, true⟩ sample)) = [[1], [1, 2], [1, 4], [1, 4, 5], [7], [7, 8]] ∧
    (items ⟨true, false⟩ sample).length = 2 := by
  refine ⟨?_, ?_, by decide, by decide, by decide⟩
  · simp [sample, Valid, ValidAll]
  · simp [sample, Tree.key]

/-- C131 is violated for keys selected directly: one of a state list is returned without state, and one of a configuration list is
returned without configuration, by `sr_get_data()`; not by `sr_get_items()`. -/
theorem selected_key_returned (id : Nat) :
    trimSet ⟨true, false⟩ [.mk id true true []] = [.mk id true true []] ∧ items ⟨true, false⟩ [.mk id true true []] = [] ∧
    trimSet ⟨false, true⟩ [.mk id false true []] = [.mk id false true []] ∧ items ⟨false, true⟩ [.mk id false true []] = [] := by
  refine ⟨?_, ?_, ?_, ?_⟩ <;> simp [trimSet, trim, items, Tree.state]

end Verif.OperTrim
