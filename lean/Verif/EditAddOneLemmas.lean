import Verif.EditAddApplyLemmas
/-!
The edit of one call.
-/
namespace Verif.EditAdd
open Verif.Edit (Id Path Kind Op Tree Edit get WFs Refused)

/-- The nodes down a path: the first with the operation `h`, the last with `o`. -/
def line (o : Op) (v : Option Nat) : Option Op → Path → List ENode
  | _, [] => []
  | h, i :: q => [.mk i (if q = [] then some o else h) (if q = [] then v else some 0) (line o v none q)]

theorem setOp_chain (o : Op) (v : Option Nat) : ∀ p, setOp (some o) (chain v p) p = line o v none p
  | [] => rfl
  | i :: q => by
    have ih := setOp_chain o v q
    simp only [setOp] at ih ⊢
    cases q with
    | nil => simp [chain, alter, line, ENode.id, ENode.val, ENode.kids]
    | cons j q =>
      rw [line, ← ih]
      simp [chain, alter, ENode.id, ENode.val, ENode.kids, ENode.op]

theorem findOper_chain (v : Option Nat) : ∀ p, findOper (chain v p) none p = none
  | [] => rfl
  | i :: q => by
    have ih := findOper_chain v q
    cases q with
    | nil => simp [chain, findOper, ENode.id, ENode.op]
    | cons j q =>
      rw [chain, findOper]
      simp only [List.find?, ENode.id, decide_true, ENode.op, Option.or_none, ENode.kids]
      simpa using ih

theorem add_one (C : Cfg) (c : Call) (hp : c.path ≠ []) :
    add C [] c = (line c.op (newVal C c) (some c.defOp) c.path, true) := by
  have hn : nodeAt [] c.path = none := by cases h : c.path <;> simp [nodeAt]
  have hg : grow (newVal C c) [] c.path = chain (newVal C c) c.path := by
    cases h : c.path <;> simp [grow, chain]
  simp only [add, hn, hg, findOper_chain]
  cases h : c.path with
  | nil => exact absurd h hp
  | cons i q =>
    cases q with
    | nil => simp [chain, setOp, alter, line, ENode.id, ENode.val, ENode.kids]
    | cons j q =>
      have := setOp_chain c.op (newVal C c) (j :: q)
      rw [line]
      rw [← this]
      simp [chain, setOp, alter, ENode.id, ENode.val, ENode.kids, ENode.op]

theorem goods_line (K : Nat → Kind) (o : Op) (v : Option Nat) : ∀ (p : Path) (h inh : Option Op),
    (∀ r, r ≠ [] → r <+: p → r ≠ p → kindAt K r ≠ some .leaf ∧ kindAt K r ≠ some .leaflist) →
    (kindAt K p ≠ some .leaf → v = some 0) → o ≠ .purge ∧ o ≠ .replace →
    (∃ d, h.or inh = some d ∧ d ≠ .purge ∧ d ≠ .replace) → Goods K inh (line o v h p)
  | [], _, _, _, _, _, _ => trivial
  | i :: q, h, inh, hp, hv, ho, hi => by
    obtain ⟨d, hd, hd2⟩ := hi
    refine ⟨?_, by simp, trivial⟩
    by_cases hq : q = []
    · subst hq
      refine ⟨⟨o, by simp, ho.1, ho.2⟩, fun hk => ?_, fun _ => rfl, trivial⟩
      simpa using hv (by simpa [kindAt] using hk)
    · simp only [hq, if_false, Good]
      refine ⟨⟨d, hd, hd2⟩, fun _ => trivial, fun hk => ?_, ?_⟩
      · have := hp [i] (by simp) ⟨q, rfl⟩ (by simpa using hq)
        simp [kindAt] at this
        rcases hk with hk | hk
        · exact absurd hk this.1
        · exact absurd hk this.2
      · rw [hd]
        apply goods_line K o v q
        · intro r hr hrp hne
          have := hp (i :: r) (by simp) (List.cons_prefix_cons.mpr ⟨rfl, hrp⟩) (by simpa using hne)
          obtain ⟨a, r', rfl⟩ := List.exists_cons_of_ne_nil hr
          simpa [kindAt] using this
        · intro hk
          obtain ⟨a, r', rfl⟩ := List.exists_cons_of_ne_nil hq
          exact hv (by simpa [kindAt] using hk)
        · exact ho
        · exact ⟨d, by simp, hd2⟩

/-- The nodes of a line above the last are refused or lead to the last. -/
theorem refused_line (K : Nat → Kind) (o : Op) (v : Option Nat) (d : Op) (bad : Option (Nat × Bool) → Kind → Prop) (hd : d = .none ∨ d = .merge ∨ d = .ether)
    (hlast : ∀ (f : Data) (i : Id) inh (below : Prop), bad (f [i]) (K i.1) → Refused K inh below True f (.mk i (some o) (v.getD 0) false [])) :
    ∀ (p : Path) (f : Data) (h inh : Option Op) (below : Prop), h.or inh = some d →
      (∀ k, kindAt K p = some k → bad (f p) k) → p ≠ [] →
      (d ≠ .none → ∀ r, r ≠ [] → r <+: p → f r ≠ none) →
      ∃ e ∈ toEdits (line o v h p), Refused K inh below True f e
  | [], _, _, _, _, _, _, hp, _ => absurd rfl hp
  | [i], f, h, inh, below, hi, hb, _, _ =>
    ⟨_, by simp [line, toEdits, toEdit], hlast f i inh below (hb _ (by simp [kindAt]))⟩
  | i :: j :: q, f, h, inh, below, hi, hb, _, hf => by
    refine ⟨_, by simp only [line, toEdits, toEdit]; exact List.mem_singleton.mpr rfl, ?_⟩
    simp only [List.cons_ne_nil, if_false]
    by_cases hm : f [i] = none
    · rcases Classical.em (d = .none) with hd' | hd'
      · exact Refused.noneMissing (by rw [hi, hd']) (.inr hm)
      · exact absurd hm (hf hd' [i] (by simp) ⟨j :: q, rfl⟩)
    · obtain ⟨e, he, hr⟩ := refused_line K o v d bad hd hlast (j :: q) (fun p => f (i :: p)) none (some d)
        (below ∨ (d = .delete ∨ d = .remove) ∧ True ∧ f [i] ≠ none) (by simp)
        (fun k hk => hb k (by simpa [kindAt] using hk)) (by simp)
        (fun h r hr hp => hf h (i :: r) (by simp) (List.cons_prefix_cons.mpr ⟨rfl, hp⟩))
      refine Refused.child (c := e) hi (by simpa [line, toEdits, toEdit] using he) ?_
      have : ((d = .merge ∨ d = .replace ∨ d = .create) ∨ True ∧ f [i] ≠ none) = True := by simp [hm]
      rw [this]
      exact hr

/-- With the default operation `none` the parent has to exist. -/
theorem refused_parent (K : Nat → Kind) (o : Op) (v : Option Nat) :
    ∀ (p : Path) (f : Data) (h inh : Option Op) (below : Prop), h.or inh = some .none → p.dropLast ≠ [] → f p.dropLast = none →
      ∃ e ∈ toEdits (line o v h p), Refused K inh below True f e
  | [], _, _, _, _, _, hp, _ => absurd rfl hp
  | [i], _, _, _, _, _, hp, _ => absurd rfl hp
  | i :: j :: q, f, h, inh, below, hi, _, hn => by
    refine ⟨_, by simp only [line, toEdits, toEdit]; exact List.mem_singleton.mpr rfl, ?_⟩
    simp only [List.cons_ne_nil, if_false]
    by_cases hm : f [i] = none
    · exact Refused.noneMissing hi (.inr hm)
    · have hq : (j :: q).dropLast ≠ [] := fun h => by
        rw [List.dropLast_cons_cons, h] at hn
        exact hm hn
      obtain ⟨e, he, hr⟩ := refused_parent K o v (j :: q) (fun p => f (i :: p)) none (some .none)
        (below ∨ (Op.none = .delete ∨ Op.none = .remove) ∧ True ∧ f [i] ≠ none) (by simp) hq (by rwa [List.dropLast_cons_cons] at hn)
      refine Refused.child (c := e) hi (by simpa [line, toEdits, toEdit] using he) ?_
      have : ((Op.none = .merge ∨ Op.none = .replace ∨ Op.none = .create) ∨ True ∧ f [i] ≠ none) = True := by simp [hm]
      rw [this]
      exact hr

end Verif.EditAdd
