import Verif.EditAddOneLemmas
import Verif.EditProps
/-!
Property C20 for items at any depth: collected changes have the effect of applying them one after another.
-/
namespace Verif.EditAdd
open Verif.Edit (Id Path Kind Op Tree Edit get WFs Refused)

/-- C20, partial. Calls whose order does not matter for the items they name (`Orderly`), all accepted, and that could have been applied
one after another, can be applied together and leave at every path the same value and default flag. Missing: calls on items that were
deleted before or whose parents do not exist, for which it is not so (see the theorems below). -/
theorem collected_calls_are_sequential_partial (C : Cfg) (data : List Tree) (cs : List Call) (es : List ENode) (g : Data)
    (hd : WFs C.K data) (hv : ∀ c ∈ cs, Valid C.K c) (ho : Orderly C.K [] (get data) cs)
    (hs : sequential C.K (get data) cs = some g) (ha : adds C [] cs = some es) :
    ∃ t, apply C data es = some t ∧ ∀ q, q ≠ [] → get t q = g q := by
  have hcl := closed_get data
  have hval : Valued C.K (get data) := fun q x h hk => valued_get C.K q data hd x h hk
  obtain ⟨hist, I⟩ := steps hcl hval cs [] _ g [] es (inv_empty hcl) hv ho hs ha
  have hu := uniq_adds C cs [] es trivial ha
  have hg := inv_goods_top I hu
  obtain ⟨w1, w2, w3⟩ := goods_wf C.K es none hg
  have hne : Verif.Edit.apply C.K data (toEdits es) ≠ none := by
    rw [ne_eq, Verif.Edit.edit_refused_iff C.K data _ hd w1 w2 w3]
    rintro ⟨e, he, hr⟩
    rw [toEdits_map] at he
    obtain ⟨n, hn, rfl⟩ := List.mem_map.mp he
    exact not_refused I hcl hr [] n rfl (hu.mem hn) (by simp [nodeAt, hu.find hn]) rfl (fun h => h.elim) (fun h => absurd trivial h) (fun _ => rfl)
  obtain ⟨r, hr⟩ := Option.ne_none_iff_exists'.mp hne
  refine ⟨r.data, by simp [apply, hr], fun q hq => ?_⟩
  rw [Verif.Edit.edit_meaning_partial C.K data _ r hd w1 hr q hq, meant_out q es none _ hg hq]
  have := out_inv I q [] es (fun s hs => by simp) (by rintro ⟨t, ht, h⟩; simp at ht; subst ht; simp [Rem] at h) hq
  simpa using this

theorem item_ne {K : Nat → Kind} {c : Call} (h : Valid K c) : c.path ≠ [] := by
  cases c with
  | set s n p v => exact h.1.1
  | del s p => exact h.1

/-- C20: one call that can be carried out, alone, is accepted and does what it should. -/
theorem one_call_applied (C : Cfg) (data : List Tree) (c : Call) (g : Data) (hd : WFs C.K data) (hv : Valid C.K c)
    (hs : effect C.K (get data) c = some g) :
    (add C [] c).2 = true ∧ ∃ t, apply C data (add C [] c).1 = some t ∧ ∀ q, q ≠ [] → get t q = g q := by
  have ha := add_one C c (item_ne hv)
  refine ⟨by rw [ha], collected_calls_are_sequential_partial C data [c] _ g hd (by simpa using hv) ⟨?_, fun _ _ => trivial⟩
    (by simp [sequential, hs]) (by simp [adds, ha])⟩
  cases c with
  | set s n p v => simp [InOrder]
  | del s p => exact .inr (by simp)

/-- C20: one call that cannot be carried out, alone, is refused when applied, except for strictly creating an existing non-presence
container. -/
theorem one_call_refused_partial (C : Cfg) (data : List Tree) (c : Call) (hd : WFs C.K data) (hv : Valid C.K c)
    (hnp : kindAt C.K c.path ≠ some .npCont) (hs : effect C.K (get data) c = none) : apply C data (add C [] c).1 = none := by
  have hcl := closed_get data
  have ha := add_one C c (item_ne hv)
  have hg : Goods C.K none (line c.op (newVal C c) (some c.defOp) c.path) := by
    apply goods_line
    · cases c with
      | set s n p v => exact hv.1.2
      | del s p => exact hv.2
    · cases c with
      | set s n p v => intro hk; simpa [newVal] using hv.2 hk
      | del s p =>
        intro hk
        simp only [newVal]
        simp only [kindAt, Call.path] at hk
        cases h : p.getLast? with
        | none => rfl
        | some i => rw [h] at hk; simp at hk; simp [hk]
    · cases c with
      | set s n p v => cases s <;> simp [Call.op]
      | del s p => cases s <;> simp [Call.op]
    · refine ⟨c.defOp, rfl, ?_⟩
      cases c with
      | set s n p v => cases n <;> simp [Call.defOp]
      | del s p => cases s <;> simp [Call.defOp]
  obtain ⟨w1, w2, w3⟩ := goods_wf C.K _ none hg
  rw [ha]
  simp only [apply, Option.map_eq_none_iff]
  rw [Verif.Edit.edit_refused_iff C.K data _ hd w1 w2 w3]
  cases c with
  | set s n p v =>
    simp only [effect] at hs
    split at hs
    · rename_i h
      simp only [Bool.and_eq_true] at h
      obtain ⟨rfl, h⟩ := h
      refine refused_line C.K .create (some v) (if n then .none else .merge)
        (fun x k => k ≠ .npCont ∧ ∃ w b, x = some (w, b) ∧ ¬ (k = .leaf ∧ b = true)) (by cases n <;> simp) ?_ p _ _ _ _ (by simp [Call.defOp]) ?_ hv.1.1 ?_
      · rintro f i inh below ⟨hk, w, b, hx, hb⟩
        exact Refused.createExisting rfl trivial hx hk hb
      · intro k hk
        simp only [Call.path] at hnp
        rw [hk] at hnp h
        refine ⟨by simpa using hnp, ?_⟩
        cases hx : get data p with
        | none => rw [hx] at h; simp at h
        | some x =>
          rw [hx] at h
          refine ⟨x.1, x.2, rfl, ?_⟩
          simp at h
          rintro ⟨rfl, hb⟩
          rcases h with h | h
          · rw [h] at hb; cases hb
          · exact h rfl
      · intro _ r hr hrp
        have : get data p ≠ none := fun hx => by rw [hx] at h; simp at h
        obtain ⟨t, rfl⟩ := hrp
        intro hx
        exact this (hcl r t hr hx)
    · split at hs
      · rename_i h
        simp at h
        obtain ⟨⟨rfl, h1⟩, h2⟩ := h
        exact refused_parent C.K _ _ p _ _ none False rfl (by simpa using h1) h2
      · cases hs
  | del s p =>
    simp only [effect] at hs
    split at hs
    · rename_i h
      simp only [Bool.and_eq_true] at h
      obtain ⟨rfl, h⟩ := h
      refine refused_line C.K .delete _ .none
        (fun x k => x = none ∨ ∃ w, x = some (w, true) ∧ (k = .leaf ∨ k = .leaflist)) (by simp) ?_ p _ _ _ _ (by simp [Call.defOp]) ?_ hv.1 (by simp)
      · rintro f i inh below (hx | ⟨w, hx, hk⟩)
        · exact Refused.deleteMissing rfl (.inr hx)
        · exact Refused.deleteDefault rfl trivial hx hk
      · intro k hk
        rw [hk] at h
        cases hx : get data p with
        | none => exact .inl rfl
        | some x =>
          rw [hx] at h
          obtain ⟨w, b⟩ := x
          simp at h
          obtain ⟨rfl, h⟩ := h
          exact .inr ⟨w, rfl, h⟩
    · cases hs

/-! ## Calls whose order matters -/

/-- A non-presence container 0 with instances of list 1 and a leaf 2; an instance has leaves 2 and 3. -/
def exC : Cfg :=
  { K := fun s => if s = 0 then .npCont else if s = 1 then .list else .leaf
    emptyOk := fun _ => true
    empty := 0 }

def exData : List Tree := [.mk (0, 0) 0 false [.mk (1, 1) 0 false [.mk (2, 0) 5 false [], .mk (3, 0) 6 false []]]]

/-- What is read at a path after the calls are collected and applied, and what after they are applied one after another; outer `none` for
a failure. -/
def together (cs : List Call) (q : Path) : Option (Option (Nat × Bool)) :=
  ((adds exC [] cs).bind (apply exC exData)).map fun t => get t q
def inTurn (cs : List Call) (q : Path) : Option (Option (Nat × Bool)) :=
  (sequential exC.K (get exData) cs).map fun g => g q

theorem exData_wf : WFs exC.K exData := by simp [WFs, Verif.Edit.WF, exData, exC, Verif.Edit.Tree.id]

/-- Finding: deleting a list instance and setting a leaf of it does not delete the instance; its other leaves stay. Both calls and
applying succeed. -/
theorem deletion_lost : together [.del false [(0, 0), (1, 1)], .set false false [(0, 0), (1, 1), (2, 0)] 9] [(0, 0), (1, 1), (3, 0)] = some (some (6, false)) ∧
    inTurn [.del false [(0, 0), (1, 1)], .set false false [(0, 0), (1, 1), (2, 0)] 9] [(0, 0), (1, 1), (3, 0)] = some none := by
  decide +kernel

/-- Finding: after setting a leaf, deleting a leaf of a list instance that does not exist creates this instance. -/
theorem deletion_creates : together [.set false false [(0, 0), (2, 0)] 9, .del false [(0, 0), (1, 7), (2, 0)]] [(0, 0), (1, 7)] = some (some (0, false)) ∧
    inTurn [.set false false [(0, 0), (2, 0)] 9, .del false [(0, 0), (1, 7), (2, 0)]] [(0, 0), (1, 7)] = some none := by
  decide +kernel

/-- Finding: deleting a leaf of a list instance and then the instance deletes neither if anything was set next to it before. -/
theorem deletions_cancel : (∀ q, q = [(0, 0), (1, 1)] ∨ q = [(0, 0), (1, 1), (2, 0)] →
      together [.set false false [(0, 0), (2, 0)] 9, .del false [(0, 0), (1, 1), (2, 0)], .del false [(0, 0), (1, 1)]] q = some (get exData q) ∧ get exData q ≠ none) ∧
    inTurn [.set false false [(0, 0), (2, 0)] 9, .del false [(0, 0), (1, 1), (2, 0)], .del false [(0, 0), (1, 1)]] [(0, 0), (1, 1)] = some none := by
  refine ⟨?_, by decide +kernel⟩
  rintro q (rfl | rfl) <;> decide +kernel

/-- Finding: a non-recursive set in a missing list instance is accepted and applied if another leaf of the instance is set afterwards. -/
theorem missing_parent_accepted : together [.set false true [(0, 0), (1, 7), (2, 0)] 9, .set false false [(0, 0), (1, 7), (3, 0)] 9] [(0, 0), (1, 7), (2, 0)] = some (some (9, false)) ∧
    inTurn [.set false true [(0, 0), (1, 7), (2, 0)] 9, .set false false [(0, 0), (1, 7), (3, 0)] 9] [(0, 0), (1, 7), (2, 0)] = none := by
  decide +kernel

/-- Finding: deleting a leaf of a missing list instance and then setting it cannot be applied, although both calls are accepted and
would succeed one after another. -/
theorem deleted_then_set_fails : (adds exC [] [.del false [(0, 0), (1, 7), (2, 0)], .set false false [(0, 0), (1, 7), (2, 0)] 9]).isSome = true ∧
    together [.del false [(0, 0), (1, 7), (2, 0)], .set false false [(0, 0), (1, 7), (2, 0)] 9] [(0, 0)] = none ∧
    inTurn [.del false [(0, 0), (1, 7), (2, 0)], .set false false [(0, 0), (1, 7), (2, 0)] 9] [(0, 0), (1, 7), (2, 0)] = some (some (9, false)) := by
  decide +kernel

/-- Finding: a non-strict deletion in a missing list instance cannot be applied after a strict deletion next to it. -/
theorem missing_deletion_fails : (adds exC [] [.del true [(0, 0), (1, 1), (2, 0)], .del false [(0, 0), (1, 7), (2, 0)]]).isSome = true ∧
    together [.del true [(0, 0), (1, 1), (2, 0)], .del false [(0, 0), (1, 7), (2, 0)]] [(0, 0)] = none ∧
    inTurn [.del true [(0, 0), (1, 1), (2, 0)], .del false [(0, 0), (1, 7), (2, 0)]] [(0, 0), (1, 1), (2, 0)] = some none := by
  decide +kernel

/-- Finding: a strict set that is refused (because the leaf is set already) leaves its value in the collected edit. -/
theorem refused_set_kept :
    (add exC (add exC [] (.set false false [(0, 0), (2, 0)] 1)).1 (.set true false [(0, 0), (2, 0)] 2)).2 = false ∧
    ((apply exC exData (add exC (add exC [] (.set false false [(0, 0), (2, 0)] 1)).1 (.set true false [(0, 0), (2, 0)] 2)).1).map
      fun t => get t [(0, 0), (2, 0)]) = some (some (2, false)) := by
  decide +kernel

/-- Strictly creating an existing non-presence container is not refused. -/
theorem container_created_again : together [.set true false [(0, 0)] 0] [(0, 0)] = some (some (0, false)) ∧
    inTurn [.set true false [(0, 0)] 0] [(0, 0)] = none := by
  decide +kernel

/-! ## Examples -/

/-- Setting two leaves, one in a new instance, and deleting one next to them and a whole instance. -/
def exCalls : List Call :=
  [.set false false [(0, 0), (1, 7), (2, 0)] 9, .set false true [(0, 0), (2, 0)] 8, .del true [(0, 0), (1, 1), (2, 0)],
   .set true true [(0, 0), (1, 7), (3, 0)] 4, .set false false [(0, 0), (2, 0)] 3, .del false [(0, 0), (1, 2)]]

example : (∀ c ∈ exCalls, Valid exC.K c) ∧ (sequential exC.K (get exData) exCalls).isSome = true ∧ (adds exC [] exCalls).isSome = true ∧
    together exCalls [(0, 0), (2, 0)] = some (some (3, false)) ∧ together exCalls [(0, 0), (1, 1), (2, 0)] = some none := by
  refine ⟨?_, by decide +kernel, by decide +kernel, by decide +kernel, by decide +kernel⟩
  have h2 : ∀ a b : Id, ∀ r : Path, r <+: [a, b] → r = [] ∨ r = [a] ∨ r = [a, b] := by
    rintro a b r ⟨t, h⟩
    rcases r with _ | ⟨x, _ | ⟨y, _ | ⟨z, r⟩⟩⟩ <;> simp_all
  have h3 : ∀ a b c : Id, ∀ r : Path, r <+: [a, b, c] → r = [] ∨ r = [a] ∨ r = [a, b] ∨ r = [a, b, c] := by
    rintro a b c r ⟨t, h⟩
    rcases r with _ | ⟨x, _ | ⟨y, _ | ⟨z, _ | ⟨u, r⟩⟩⟩⟩ <;> simp_all
  intro c hc
  simp only [exCalls, List.mem_cons, List.not_mem_nil, or_false] at hc
  rcases hc with rfl | rfl | rfl | rfl | rfl | rfl <;> simp only [Valid, ItemPath] <;>
    first
    | refine ⟨⟨by simp, fun r hr hp hn => ?_⟩, by decide⟩
    | refine ⟨by simp, fun r hr hp hn => ?_⟩
  · rcases h3 _ _ _ r hp with rfl | rfl | rfl | rfl <;> first | (exact absurd rfl hr) | (exact absurd rfl hn) | decide
  · rcases h2 _ _ r hp with rfl | rfl | rfl <;> first | (exact absurd rfl hr) | (exact absurd rfl hn) | decide
  · rcases h3 _ _ _ r hp with rfl | rfl | rfl | rfl <;> first | (exact absurd rfl hr) | (exact absurd rfl hn) | decide
  · rcases h3 _ _ _ r hp with rfl | rfl | rfl | rfl <;> first | (exact absurd rfl hr) | (exact absurd rfl hn) | decide
  · rcases h2 _ _ r hp with rfl | rfl | rfl <;> first | (exact absurd rfl hr) | (exact absurd rfl hn) | decide
  · rcases h2 _ _ r hp with rfl | rfl | rfl <;> first | (exact absurd rfl hr) | (exact absurd rfl hn) | decide

theorem set_keeps {K : Nat → Kind} {f g : Data} {s n : Bool} {p q : Path} {v : Nat} (h : effect K f (.set s n p v) = some g) (hq : f q ≠ none) : g q ≠ none := by
  simp only [effect] at h
  split at h
  · cases h
  split at h
  · cases h
  obtain rfl : _ = g := by simpa using h
  by_cases h1 : q = p
  · simp [h1]
  · simp [h1, hq]

theorem del_keeps {K : Nat → Kind} {f g : Data} {s : Bool} {p q : Path} (h : effect K f (.del s p) = some g) (hq : f q ≠ none) (hp : ¬ p <+: q) : g q ≠ none := by
  simp only [effect] at h
  split at h
  · cases h
  obtain rfl : _ = g := by simpa using h
  simpa [hp] using hq

example : Orderly exC.K [] (get exData) exCalls := by
  simp only [exCalls, Orderly]
  refine ⟨by simp [InOrder], fun g1 h1 => ⟨by simp [InOrder], fun g2 h2 => ⟨.inl ⟨.inr ?_, by simp [Call.path]⟩, fun g3 h3 =>
    ⟨by simp [InOrder], fun g4 h4 => ⟨by simp [InOrder], fun g5 h5 => ⟨.inl ⟨.inr ?_, by simp [Call.path]⟩, fun _ _ => trivial⟩⟩⟩⟩⟩⟩
  · exact set_keeps h2 (set_keeps h1 (by decide))
  · exact set_keeps h5 (set_keeps h4 (del_keeps h3 (set_keeps h2 (set_keeps h1 (by decide))) (by decide)))

/-- A single call that can be carried out, and one that cannot. -/
example : (effect exC.K (get exData) (.del true [(0, 0), (1, 1)])).isSome = true ∧ (effect exC.K (get exData) (.del true [(0, 0), (1, 7)])).isNone = true ∧
    kindAt exC.K [(0, 0), (1, 7)] ≠ some .npCont := by decide +kernel

end Verif.EditAdd
