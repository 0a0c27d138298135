import Verif.EnabledLemmas3

/-!
Properties of the configuration data in the operational datastore (`Enabled.lean`).
-/

namespace Verif.Enabled

/-- What a module has in the operational datastore of its configuration: what is always there, everything for
a subscription to the whole module, what the selected nodes bring for a subscription with an XPath. -/
def Enabled (subs : List Sub) (f : List Node) (q : Path) : Prop :=
  Always f q ∨ ∃ s ∈ subs, Enables s ∧
    (s.sel = none ∧ Has f q ∨ ∃ ps, s.sel = some ps ∧ ∃ p ∈ ps, Brings f p q)

/-- A list with the entries 1, 2, 3, each with a key and a leaf, in a presence container, beside an NP
container with a leaf. -/
def demo : List Node :=
  [.mk ⟨1, 0⟩ .inner
     [.mk ⟨2, 1⟩ .inner [.mk ⟨3, 1⟩ .key [], .mk ⟨4, 7⟩ .term []],
      .mk ⟨2, 2⟩ .inner [.mk ⟨3, 2⟩ .key [], .mk ⟨4, 8⟩ .term []],
      .mk ⟨2, 3⟩ .inner [.mk ⟨3, 3⟩ .key [], .mk ⟨4, 9⟩ .term []]],
   .mk ⟨5, 0⟩ .np [.mk ⟨6, 1⟩ .term []]]

/-! C79 -/

/-- The operational datastore has exactly the configuration that subscriptions enable, whether the running
data are the cached ones, which are duplicated, or the ones read from the datastore, which are moved. -/
theorem enabled_exactly (subs : List Sub) (dup : Bool) (f : List Node)
    (hs : ∀ s ∈ subs, ∀ ps, s.sel = some ps → ∀ p ∈ ps, p ≠ []) (q : Path) :
    Has (getEnabled subs dup f) q ↔ Enabled subs f q := by
  have hne : ∀ p ∈ selected [] subs, p ≠ [] := by
    intro p hp
    rcases mem_selected.1 hp with h | ⟨s, h1, _, ps, h2, h3⟩
    · cases h
    · exact hs s h1 ps h2 p h3
  have hsel : (Has (bones f) q ∨ ∃ p ∈ selected [] subs, Brings f p q) ↔
      Always f q ∨ ∃ s ∈ subs, Enables s ∧ ∃ ps, s.sel = some ps ∧ ∃ p ∈ ps, Brings f p q := by
    rw [has_bones]
    constructor
    · rintro (h | ⟨p, hp, hb⟩)
      · exact Or.inl h
      · rcases mem_selected.1 hp with h | ⟨s, h1, h0, ps, h2, h3⟩
        · cases h
        · exact Or.inr ⟨s, h1, h0, ps, h2, p, h3, hb⟩
    · rintro (h | ⟨s, h1, h0, ps, h2, p, h3, hb⟩)
      · exact Or.inl h
      · exact Or.inr ⟨p, mem_selected.2 (Or.inr ⟨s, h1, h0, ps, h2, h3⟩), hb⟩
  have hb : ∀ q, Always f q → Has (bones f) q := fun q h => (has_bones f q).2 h
  unfold getEnabled Enabled
  by_cases he : f.isEmpty = true
  · rw [if_pos he, has_bones]
    have : f = [] := List.isEmpty_iff.1 he
    subst this
    refine ⟨Or.inl, ?_⟩
    rintro (h | ⟨s, _, _, ⟨_, h⟩ | ⟨ps, _, p, _, h⟩⟩)
    · exact h
    · cases q with
      | nil => trivial
      | cons x q => obtain ⟨n, hn, _⟩ := h; cases hn
    · cases q with
      | nil => trivial
      | cons x q => obtain ⟨n, hn, _⟩ := brings_has h; cases hn
  · rw [if_neg he]
    by_cases hw : whole subs = true
    · rw [if_pos hw, has_merge, has_bones]
      obtain ⟨s, h1, h2, h3⟩ := whole_iff.1 hw
      constructor
      · rintro (h | h)
        · exact Or.inl h
        · exact Or.inr ⟨s, h1, h2, Or.inl ⟨h3, h⟩⟩
      · rintro (h | ⟨s, _, _, ⟨_, h⟩ | ⟨ps, _, p, _, h⟩⟩)
        · exact Or.inl h
        · exact Or.inr h
        · exact Or.inr (brings_has h)
    · rw [if_neg hw]
      have hno : ∀ s ∈ subs, Enables s → s.sel ≠ none := fun s h1 h2 h3 => hw (whole_iff.2 ⟨s, h1, h2, h3⟩)
      have hfin : (Always f q ∨ ∃ s ∈ subs, Enables s ∧ ∃ ps, s.sel = some ps ∧ ∃ p ∈ ps, Brings f p q) ↔
          Always f q ∨ ∃ s ∈ subs, Enables s ∧
            (s.sel = none ∧ Has f q ∨ ∃ ps, s.sel = some ps ∧ ∃ p ∈ ps, Brings f p q) := by
        constructor
        · rintro (h | ⟨s, h1, h2, h⟩)
          · exact Or.inl h
          · exact Or.inr ⟨s, h1, h2, Or.inr h⟩
        · rintro (h | ⟨s, h1, h2, ⟨h, _⟩ | h⟩)
          · exact Or.inl h
          · exact absurd h (hno s h1 h2)
          · exact Or.inr ⟨s, h1, h2, h⟩
      rw [← hfin, ← hsel]
      cases dup with
      | true =>
        rw [if_pos rfl]
        exact has_takeDup hne hb
      | false =>
        rw [if_neg (by simp)]
        exact has_takeUnlink ⟨by simp, by simp⟩ hne hb (by simp)

example : Has (getEnabled [⟨some [[⟨1, 0⟩, ⟨2, 2⟩, ⟨4, 8⟩]], false, true⟩] false demo) [⟨1, 0⟩, ⟨2, 2⟩, ⟨3, 2⟩] ∧
    ¬ Has (getEnabled [⟨some [[⟨1, 0⟩, ⟨2, 2⟩, ⟨4, 8⟩]], false, true⟩] false demo) [⟨1, 0⟩, ⟨2, 1⟩] ∧
    Has (getEnabled [⟨some [[⟨1, 0⟩, ⟨2, 2⟩, ⟨4, 8⟩]], false, true⟩] false demo) [⟨5, 0⟩] ∧
    ¬ Has (getEnabled [⟨some [[⟨1, 0⟩, ⟨2, 2⟩, ⟨4, 8⟩]], false, true⟩] false demo) [⟨5, 0⟩, ⟨6, 1⟩] := by
  refine ⟨?_, ?_, ?_, ?_⟩ <;> simp [getEnabled, demo, whole, selected, addSet, takeUnlink, pickTop, pick, bones, bone, merge,
    put, find, isKey, unlink, Has, Node.id, Node.kids, Node.kind]

/-- Without a subscription that enables anything only what is always there is in the operational datastore:
a passive subscription, or one whose connection is dead, does not count. -/
theorem nothing_enabled (subs : List Sub) (dup : Bool) (f : List Node) (hs : ∀ s ∈ subs, s.passive = true ∨ s.alive = false)
    (q : Path) : Has (getEnabled subs dup f) q ↔ Always f q := by
  have hno : ∀ s ∈ subs, ¬ Enables s := by
    intro s h1 h2
    rcases hs s h1 with h | h
    · rw [h2.1] at h; cases h
    · rw [h2.2] at h; cases h
  have hsel : selected [] subs = [] := by
    refine List.eq_nil_iff_forall_not_mem.2 fun p hp => ?_
    rcases mem_selected.1 hp with h | ⟨s, h1, h0, _⟩
    · cases h
    · exact hno s h1 h0
  have hw : whole subs = false := by
    rw [← Bool.not_eq_true]
    intro h
    obtain ⟨s, h1, h2, _⟩ := whole_iff.1 h
    exact hno s h1 h2
  rw [← has_bones]
  unfold getEnabled
  simp only [hsel, hw, takeDup, takeUnlink, if_false, ite_self, Bool.false_eq_true]

example : ¬ Has (getEnabled [⟨none, true, true⟩, ⟨none, false, false⟩] true demo) [⟨1, 0⟩] := by
  rw [nothing_enabled _ _ _ (by simp)]
  simp [Always, demo, Node.id, Node.kind]

/-- A new subscription that wants the enabled data is given what its selected nodes bring, or everything. -/
theorem enabled_event (sel : Option (List Path)) (f : List Node) (hs : ∀ ps, sel = some ps → ∀ p ∈ ps, p ≠ []) (q : Path) :
    Has (enabledEvent sel f) q ↔
    Always f q ∨ (sel = none ∧ Has f q) ∨ ∃ ps, sel = some ps ∧ ∃ p ∈ ps, Brings f p q := by
  have hb : ∀ q, Always f q → Has (bones f) q := fun q h => (has_bones f q).2 h
  unfold enabledEvent
  by_cases he : f.isEmpty = true
  · rw [if_pos he, has_bones]
    have : f = [] := List.isEmpty_iff.1 he
    subst this
    refine ⟨Or.inl, ?_⟩
    rintro (h | ⟨_, h⟩ | ⟨ps, _, p, _, h⟩)
    · exact h
    · cases q with
      | nil => trivial
      | cons x q => obtain ⟨n, hn, _⟩ := h; cases hn
    · cases q with
      | nil => trivial
      | cons x q => obtain ⟨n, hn, _⟩ := brings_has h; cases hn
  · rw [if_neg he]
    cases sel with
    | none => simp [has_merge, has_bones]
    | some ps =>
      simp only [Option.some.injEq, exists_eq_left', reduceCtorEq, false_and, false_or]
      rw [has_takeDup ?_ hb, has_bones]
      · simp [mem_addSet]
      · intro p hp
        rcases mem_addSet.1 hp with h | h
        · cases h
        · exact hs ps rfl p h

example : Has (enabledEvent (some [[⟨1, 0⟩]]) demo) [⟨1, 0⟩, ⟨2, 3⟩, ⟨4, 9⟩] := by
  simp [enabledEvent, demo, addSet, takeDup, pickTop, pick, bones, bone, merge, put, find, Has, Node.id, Node.kids, Node.kind]

/-! C80 -/

theorem uniq_bones {f : List Node} (hu : Uniq f) : Uniq (bones f) := (bones_part f hu).uniq hu

/-- The cache of a connection changes neither the nodes nor their order. -/
theorem same_order (subs : List Sub) (f : List Node) (hu : Uniq f)
    (hs : ∀ s ∈ subs, ∀ ps, s.sel = some ps → ∀ p ∈ ps, p ≠ []) (r : Path) :
    ids (getEnabled subs false f) r = ids (getEnabled subs true f) r := by
  have hne : ∀ p ∈ selected [] subs, p ≠ [] := by
    intro p hp
    rcases mem_selected.1 hp with h | ⟨s, h1, _, ps, h2, h3⟩
    · cases h
    · exact hs s h1 ps h2 p h3
  unfold getEnabled
  split
  · rfl
  split
  · rfl
  · rw [if_neg (by simp), if_pos rfl]
    exact ids_takeUnlink hu hne ⟨by simp, by simp⟩ Part.rfl _ _ (fun _ => rfl) (uniq_bones hu) (uniq_bones hu)
      (fun q h => (has_bones f q).2 h) (by simp) r

/-- A subscription to the whole module leaves the entries of every list in their order. -/
theorem whole_order (subs : List Sub) (dup : Bool) (f : List Node) (hu : Uniq f)
    (hw : ∃ s ∈ subs, Enables s ∧ s.sel = none) (r : Path) (s : Nat) (hl : Listed f r s) :
    entries (getEnabled subs dup f) r s = entries f r s := by
  unfold getEnabled
  split
  · rename_i he
    have : f = [] := List.isEmpty_iff.1 he
    subst this
    rfl
  · rw [if_pos (whole_iff.2 hw), entries_merge hu, entries_bones hu hl, nil_new, List.nil_append]

/-- Selected nodes given in document order leave the entries of every list in their order. -/
theorem single_order_partial (subs : List Sub) (dup : Bool) (f : List Node) (hu : Uniq f)
    (hs : ∀ s ∈ subs, ∀ ps, s.sel = some ps → ∀ p ∈ ps, p ≠ [])
    (ho : (selected [] subs).Pairwise (Before f)) (r : Path) (s : Nat) (hl : Listed f r s) :
    (entries (getEnabled subs dup f) r s).Sublist (entries f r s) := by
  have hne : ∀ p ∈ selected [] subs, p ≠ [] := by
    intro p hp
    rcases mem_selected.1 hp with h | ⟨s, h1, _, ps, h2, h3⟩
    · cases h
    · exact hs s h1 ps h2 p h3
  have hd : (entries (getEnabled subs true f) r s).Sublist (entries f r s) := by
    by_cases hw : whole subs = true
    · rw [whole_order subs true f hu (whole_iff.1 hw) r s hl]; exact List.Sublist.refl _
    · unfold getEnabled
      rw [if_neg hw]
      split
      · exact entries_part (bones_part f hu) r s
      · rw [if_pos rfl]
        have hb := entries_bones hu hl
        refine order_takeDup hu hl hne ho (bones f) (by rw [hb]; exact List.nil_sublist _) ?_
        intro p hp
        rw [hb]
        exact ⟨fun _ => Or.inl rfl, by intro x _ _ _ y hy; cases hy⟩
  cases dup with
  | true => exact hd
  | false =>
    unfold entries at hd ⊢
    rw [same_order subs f hu hs]
    exact hd

/-- Two subscriptions, the first selecting the second entry of a list ordered by the user and the second one
selecting all its entries: the second entry is the first one in the operational datastore, although the running
datastore has them in the order 1, 2, 3 and each selection is in the order of the document. -/
theorem order_lost : ∃ (subs : List Sub) (f : List Node) (r : Path) (s : Nat),
    (∀ s ∈ subs, ∀ ps, s.sel = some ps → ∀ p ∈ ps, p ≠ [] ∧ Has f p) ∧
    (∀ s ∈ subs, ∀ ps, s.sel = some ps → ps.Pairwise (Before f)) ∧ (∀ s ∈ subs, Enables s) ∧
    entries f r s = [⟨2, 1⟩, ⟨2, 2⟩, ⟨2, 3⟩] ∧
    (∀ dup, entries (getEnabled subs dup f) r s = [⟨2, 2⟩, ⟨2, 1⟩, ⟨2, 3⟩]) := by
  refine ⟨[⟨some [[⟨1, 0⟩, ⟨2, 2⟩]], false, true⟩,
    ⟨some [[⟨1, 0⟩, ⟨2, 1⟩], [⟨1, 0⟩, ⟨2, 2⟩], [⟨1, 0⟩, ⟨2, 3⟩]], false, true⟩], demo, [⟨1, 0⟩], 2, ?_, ?_, ?_, ?_, ?_⟩
  · simp [demo, Has, Node.id, Node.kids]
  · have h12 : Before demo [⟨1, 0⟩, ⟨2, 1⟩] [⟨1, 0⟩, ⟨2, 2⟩] :=
      Or.inr ⟨[⟨1, 0⟩], ⟨2, 1⟩, ⟨2, 2⟩, [], [], rfl, rfl, by decide, by decide +kernel⟩
    have h13 : Before demo [⟨1, 0⟩, ⟨2, 1⟩] [⟨1, 0⟩, ⟨2, 3⟩] :=
      Or.inr ⟨[⟨1, 0⟩], ⟨2, 1⟩, ⟨2, 3⟩, [], [], rfl, rfl, by decide, by decide +kernel⟩
    have h23 : Before demo [⟨1, 0⟩, ⟨2, 2⟩] [⟨1, 0⟩, ⟨2, 3⟩] :=
      Or.inr ⟨[⟨1, 0⟩], ⟨2, 2⟩, ⟨2, 3⟩, [], [], rfl, rfl, by decide, by decide +kernel⟩
    simp [h12, h13, h23]
  · simp [Enables]
  · decide +kernel
  · intro dup
    cases dup <;> decide +kernel

/-- The demo meets the hypotheses of the theorems on the order. -/
example : Uniq demo ∧ Listed demo [⟨1, 0⟩] 2 := by
  refine ⟨?_, ?_⟩
  · have h0 : Uniq ([] : List Node) := uniq_intro List.nodup_nil (by simp)
    have h1 : ∀ a b : Nat, Uniq [.mk ⟨3, a⟩ .key [], .mk ⟨4, b⟩ .term []] := fun a b =>
      uniq_intro (by simp [Node.id]) (by simp [Node.kids, h0])
    refine uniq_intro (by decide +kernel) ?_
    simp only [demo, List.mem_cons, List.not_mem_nil, or_false, forall_eq_or_imp, forall_eq, Node.kids]
    refine ⟨uniq_intro (by decide +kernel) ?_, uniq_intro (by decide +kernel) ?_⟩
    · simp only [List.mem_cons, List.not_mem_nil, or_false, forall_eq_or_imp, forall_eq, Node.kids]
      exact ⟨h1 _ _, h1 _ _, h1 _ _⟩
    · simp only [List.mem_cons, List.not_mem_nil, or_false, forall_eq, Node.kids]
      exact h0
  · intro n hn _
    simp only [demo, kidsAt, List.find?, Node.id, decide_true, Node.kids, List.mem_cons, List.not_mem_nil, or_false] at hn
    rcases hn with rfl | rfl | rfl <;> exact Or.inl rfl

end Verif.Enabled
