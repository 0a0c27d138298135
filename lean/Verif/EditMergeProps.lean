import Verif.EditMerge
/-!
C20: changes collected by several calls and applied at once. Specification: `effect`, `sequential` in `Verif.EditMerge`.
-/
namespace Verif.EditMerge
open Verif.Edit (Op Tree Act actMatched actMissing)

/-! ### Lemmas -/

/-- Leaves are in the edit at most once. -/
def Keys (l : Edits) : Prop := (l.map (·.1)).Nodup

theorem find_none {i : Nat} {l : Edits} : find i l = none ↔ i ∉ l.map (·.1) := by
  induction l with
  | nil => simp [find]
  | cons p l ih =>
    obtain ⟨j, e⟩ := p
    simp only [find, List.map_cons, List.mem_cons, not_or]
    split
    · rename_i h; subst h; simp
    · rename_i h; rw [ih]; simp [Ne.symm h]

theorem keys_store {i : Nat} {e : Option Entry} {l : Edits} (h : Keys l) : Keys (store i e l) ∧
    ∀ j, j ∈ (store i e l).map (·.1) → j ∈ l.map (·.1) ∨ j = i := by
  induction l with
  | nil => cases e <;> simp [store, Keys]
  | cons p l ih =>
    obtain ⟨j, e'⟩ := p
    simp only [Keys, List.map_cons, List.nodup_cons] at h
    simp only [store]
    split
    · rename_i hj; subst hj
      cases e with
      | none => exact ⟨by simpa [Keys] using h.2, fun k hk => .inl (by simp at hk ⊢; exact .inr hk)⟩
      | some e => exact ⟨by simpa [Keys] using h, fun k hk => .inl (by simpa using hk)⟩
    · rename_i hj
      obtain ⟨h1, h2⟩ := ih h.2
      refine ⟨?_, ?_⟩
      · simp only [Keys, List.map_cons, List.nodup_cons]
        refine ⟨fun hm => ?_, h1⟩
        rcases h2 j hm with h3 | h3
        · exact h.1 h3
        · exact hj h3
      · intro k hk
        simp only [List.map_cons, List.mem_cons] at hk ⊢
        rcases hk with rfl | hk
        · simp
        · rcases h2 k hk with h3 | h3 <;> simp [h3]

theorem find_store {i j : Nat} {e : Option Entry} {l : Edits} (h : Keys l) :
    find j (store i e l) = if j = i then e else find j l := by
  induction l with
  | nil => cases e <;> simp [store, find, eq_comm]
  | cons p l ih =>
    obtain ⟨k, e'⟩ := p
    simp only [Keys, List.map_cons, List.nodup_cons] at h
    simp only [store]
    by_cases hk : k = i
    · subst hk
      rw [if_pos rfl]
      have := find_none.mpr h.1
      cases e <;> by_cases hj : j = k <;> simp [find, hj, this] <;> simp [Ne.symm hj]
    · rw [if_neg hk]
      simp only [find, ih h.2]
      by_cases hj : k = j
      · subst hj; simp [hk]
      · simp [hj]

theorem apply_iff (l : Edits) : ∀ (f g : Data), Keys l → (apply f l = some g ↔
    ∀ i, match find i l with | none => g i = f i | some e => applyLeaf e (f i) = some (g i)) := by
  induction l with
  | nil => intro f g _; simp only [apply, find, Option.some.injEq]; exact ⟨fun h i => by rw [h], fun h => funext fun i => (h i).symm⟩
  | cons p l ih =>
    obtain ⟨j, e⟩ := p
    intro f g hk
    simp only [Keys, List.map_cons, List.nodup_cons] at hk
    have hn := find_none.mpr hk.1
    simp only [apply]
    cases ha : applyLeaf e (f j) with
    | none =>
      simp only [reduceCtorEq, false_iff]
      intro h
      have := h j
      simp [find, ha] at this
    | some a =>
      simp only
      rw [ih (upd f j a) g hk.2]
      constructor
      · intro h i
        have hi := h i
        by_cases hij : j = i
        · subst hij
          simp only [hn, upd, if_true] at hi
          simp only [find, if_true, ha, hi]
        · simp only [find, hij, if_false]
          simpa [upd, Ne.symm hij] using hi
      · intro h i
        have hi := h i
        by_cases hij : j = i
        · subst hij
          simp only [find, if_true, ha, Option.some.injEq] at hi
          simp only [hn, upd, if_true, hi]
        · simp only [find, hij, if_false] at hi
          simpa [upd, Ne.symm hij] using hi

/-- The call sets. -/
def Call.sets : Call → Bool
  | .set _ _ => true
  | .del _ => false

/-- What an entry stands for: `a` was there before all the calls on the leaf, `b` is there after them. -/
def Good (e : Option Entry) (a b : Option (Nat × Bool)) (wasSet : Bool) : Prop :=
  match e with
  | none => b = a ∧ wasSet = false
  | some e =>
    (∃ b0, applyLeaf e a = some b0 ∧ b0.map (·.1) = b.map (·.1) ∧ (e.op ≠ .replace → b0 = b) ∧
      ((∀ v, a ≠ some (v, true)) → b0 = b)) ∧
    ((wasSet = false ∧ e.val = none ∧ (e.op = .remove ∨ e.op = .delete)) ∨
     (wasSet = true ∧ (∃ v, e.val = some v) ∧ (e.op = .merge ∨ e.op = .create ∨ e.op = .replace)))

theorem good_step {emptyOk : Bool} {empty : Nat} {e e' : Option Entry} {a b b' : Option (Nat × Bool)} {s : Bool} {c : Call}
    (g : Good e a b s) (hc : ∀ st, c = .del st → s = false) (ha : addLeaf emptyOk empty e c = (e', true))
    (hb : effect b c = some b') : Good e' a b' (s || c.sets) := by
  cases e with
  | none =>
    obtain ⟨rfl, rfl⟩ := g
    simp only [addLeaf, Prod.mk.injEq, and_true] at ha
    subst ha
    rcases c with ⟨_ | _, v⟩ | ⟨_ | _⟩ <;> rcases b with _ | ⟨w, _ | _⟩ <;>
      simp [effect, Good, Call.sets, Call.op, applyLeaf, actMissing, actMatched, Verif.Edit.mergeMatched, Verif.Edit.replaceMatched,
        Verif.Edit.createMatched, Verif.Edit.deleteMatched, Verif.Edit.valEq, Tree.val, Tree.dflt] at hb ⊢ <;>
      subst hb <;> (try rfl)
    all_goals first | (by_cases hvw : w = v <;> simp [hvw]; done) | skip
    all_goals simp
  | some e =>
    obtain ⟨op, val⟩ := e
    obtain ⟨⟨b0, h1, h2, h3, h4⟩, h5⟩ := g
    rcases h5 with ⟨rfl, hv, hop⟩ | ⟨rfl, ⟨v, hv⟩, hop⟩
    · simp only at hv hop
      subst hv
      simp only [addLeaf, mergeOp] at ha
      have hb0 : b0 = b := h3 (by rcases hop with rfl | rfl <;> simp)
      subst hb0
      rcases hop with rfl | rfl <;> rcases c with ⟨_ | _, v⟩ | ⟨_ | _⟩ <;> rcases a with _ | ⟨w, _ | _⟩ <;>
      simp [effect, Call.op, applyLeaf, actMissing, actMatched, Verif.Edit.deleteMatched, Tree.val, Tree.dflt] at ha hb h1 ⊢ <;>
      subst ha <;> (try subst h1) <;> (try simp at hb) <;> (try subst hb) <;>
      simp [Good, Call.sets, applyLeaf, actMissing, actMatched, Verif.Edit.deleteMatched, Verif.Edit.replaceMatched, Verif.Edit.valEq,
        Tree.val, Tree.dflt] <;> (try rfl)
      all_goals (by_cases hvw : w = v <;> simp [hvw])
    · simp only at hv hop
      subst hv
      rcases c with ⟨st, v'⟩ | st
      · simp only [addLeaf, mergeOp] at ha
        rcases hop with rfl | rfl | rfl <;> rcases st with _ | _ <;> simp [Call.op] at ha
        · subst ha
          simp only [effect, Option.some.injEq] at hb
          subst hb
          rcases a with _ | ⟨w, _ | _⟩ <;>
          simp [Good, Call.sets, applyLeaf, actMissing, actMatched, Verif.Edit.mergeMatched, Verif.Edit.replaceMatched, Verif.Edit.valEq,
            Tree.val, Tree.dflt]
          all_goals (by_cases hvw : w = v' <;> simp [hvw])
        · exfalso
          have hb0 : b0 = b := h3 (by simp)
          subst hb0
          rcases a with _ | ⟨w, _ | _⟩ <;>
          simp [applyLeaf, actMissing, actMatched, Verif.Edit.createMatched, Verif.Edit.replaceMatched, Verif.Edit.valEq,
            Tree.val, Tree.dflt] at h1
          · subst h1; simp [effect] at hb
          · by_cases hvw : w = v <;> simp [hvw] at h1 <;> subst h1 <;> simp [effect] at hb
      · have := hc st rfl
        simp at this

/-- Like `NoDeleteAfterSet`, `S` says which leaves were set before. -/
def Ok (S : Nat → Bool) : List (Nat × Call) → Prop
  | [] => True
  | (i, c) :: cs =>
    (∀ st, c = .del st → S i = false) ∧
    Ok (fun j => if j = i then S i || c.sets else S j) cs

theorem ok_of (cs : List (Nat × Call)) : ∀ S : Nat → Bool,
    (∀ i, S i = true → ∀ st, (i, Call.del st) ∉ cs) → NoDeleteAfterSet cs → Ok S cs := by
  induction cs with
  | nil => intros; trivial
  | cons p cs ih =>
    obtain ⟨i, c⟩ := p
    intro S h1 h2
    refine ⟨?_, ?_⟩
    · rintro st rfl
      cases h : S i with
      | false => rfl
      | true => exact absurd (List.mem_cons_self) (h1 i h st)
    · apply ih
      · intro j hj st hm
        by_cases hji : j = i
        · subst hji
          simp only [if_true, Bool.or_eq_true] at hj
          rcases hj with hj | hj
          · exact h1 j hj st (List.mem_cons_of_mem _ hm)
          · cases c with
            | del _ => simp [Call.sets] at hj
            | set s v =>
              obtain ⟨b, d, hs⟩ := List.append_of_mem hm
              exact h2 j s v st [] b d (by simp [hs])
        · simp only [hji, if_false] at hj
          exact h1 j hj st (List.mem_cons_of_mem _ hm)
      · intro j s v s' a b d hs
        exact h2 j s v s' ((i, c) :: a) b d (by simp [hs])

theorem adds_good (emptyOk : Nat → Bool) (empty : Nat) (cs : List (Nat × Call)) : ∀ (l l' : Edits) (f g g' : Data) (S : Nat → Bool),
    Keys l → (∀ i, Good (find i l) (f i) (g i) (S i)) → Ok S cs → adds emptyOk empty l cs = some l' → sequential g cs = some g' →
    Keys l' ∧ ∃ S' : Nat → Bool, ∀ i, Good (find i l') (f i) (g' i) (S' i) := by
  induction cs with
  | nil =>
    intro l l' f g g' S hk hg _ ha hs
    simp only [adds, sequential, Option.some.injEq] at ha hs
    subst ha; subst hs
    exact ⟨hk, S, hg⟩
  | cons p cs ih =>
    obtain ⟨i, c⟩ := p
    intro l l' f g g' S hk hg ho ha hs
    simp only [adds] at ha
    split at ha
    · rename_i hok
      simp only [sequential] at hs
      cases he : effect (g i) c with
      | none => simp [he] at hs
      | some b =>
        simp only [he] at hs
        refine ih _ l' f _ g' _ (keys_store hk).1 ?_ ho.2 ha hs
        intro j
        simp only [add] at hok ⊢
        rw [find_store hk]
        by_cases hj : j = i
        · subst hj
          simp only [if_true]
          exact good_step (hg j) ho.1 (Prod.ext rfl hok) he
        · simp only [hj, if_false]
          exact hg j
    · simp at ha

/-- C20. If every call was accepted when it was made, nothing is deleted after it was set, and the calls can be applied one
after another, then the collected edit can be applied and every item gets the same value; if no item had its default value
before, then also the default flags are the same.
Missing from C20: deletions after a set (`set_then_delete_lost`) and calls that would fail one after another
(`create_twice_accepted`, `delete_then_set_accepted`). -/
theorem accumulated_is_sequential_partial (emptyOk : Nat → Bool) (empty : Nat) (cs : List (Nat × Call)) (l : Edits) (f g : Data)
    (hn : NoDeleteAfterSet cs) (ha : adds emptyOk empty [] cs = some l) (hs : sequential f cs = some g) :
    ∃ g', apply f l = some g' ∧ (∀ i, (g' i).map (·.1) = (g i).map (·.1)) ∧ ((∀ i v, f i ≠ some (v, true)) → g' = g) := by
  have hok : Ok (fun _ => false) cs := ok_of cs _ (by simp) hn
  obtain ⟨hk, S, hg⟩ := adds_good emptyOk empty cs [] l f f g (fun _ => false) (by simp [Keys]) (fun i => by simp [find, Good])
    hok ha hs
  refine ⟨fun i => match find i l with | none => f i | some e => (applyLeaf e (f i)).getD none, ?_, ?_, ?_⟩
  · rw [apply_iff l f _ hk]
    intro i
    have := hg i
    cases hf : find i l with
    | none => simp
    | some e =>
      rw [hf] at this
      obtain ⟨⟨b0, h, _⟩, _⟩ := this
      simp [h]
  · intro i
    have := hg i
    cases hf : find i l with
    | none => rw [hf] at this; simp only [hf]; simp [this.1]
    | some e =>
      rw [hf] at this
      obtain ⟨⟨b0, h, h2, _⟩, _⟩ := this
      simp only [hf]; simp [h, h2]
  · intro hd
    funext i
    have := hg i
    cases hf : find i l with
    | none => rw [hf] at this; simp only [hf]; simp [this.1]
    | some e =>
      rw [hf] at this
      obtain ⟨⟨b0, h, _, _, h4⟩, _⟩ := this
      simp only [hf]; simp [h, h4 (hd i)]

/-- C20 for a single call: it does exactly what it says, also when it is refused. -/
theorem single_call (emptyOk : Nat → Bool) (empty : Nat) (i : Nat) (c : Call) (f : Data) :
    ∃ l, adds emptyOk empty [] [(i, c)] = some l ∧ apply f l = sequential f [(i, c)] := by
  refine ⟨[(i, ⟨c.op, match c with | .set _ v => some v | .del _ => none⟩)], rfl, ?_⟩
  have : applyLeaf ⟨c.op, match c with | .set _ v => some v | .del _ => none⟩ (f i) = effect (f i) c := by
    rcases c with ⟨_ | _, v⟩ | ⟨_ | _⟩ <;> rcases f i with _ | ⟨w, _ | _⟩ <;>
      simp [effect, Call.op, applyLeaf, actMissing, actMatched, Verif.Edit.mergeMatched, Verif.Edit.replaceMatched,
        Verif.Edit.createMatched, Verif.Edit.deleteMatched, Verif.Edit.valEq, Tree.val, Tree.dflt]
    all_goals (by_cases hvw : w = v <;> simp [hvw])
  simp only [apply, sequential, this]
  cases effect (f i) c <;> rfl

/-- C20, the calls that are refused when made: a second set of the other strictness, any call after a deletion and a set, a
second deletion of the other strictness, and a deletion of a leaf in the edit whose type has no empty value. -/
theorem refused_call_iff (emptyOk : Bool) (empty : Nat) (e : Option Entry) (c : Call) :
    (addLeaf emptyOk empty e c).2 = false ↔
      ∃ x, e = some x ∧ (((∃ s, c = .del s) ∧ x.val ≠ none ∧ emptyOk = false) ∨
        (c.op ≠ x.op ∧ (x.op = .replace ∨ x.op = .purge ∨ ((x.op = .merge ∨ x.op = .create) ∧ ∃ s v, c = .set s v) ∨
          ((x.op = .remove ∨ x.op = .delete) ∧ ∃ s, c = .del s)))) := by
  cases e with
  | none => simp [addLeaf]
  | some e =>
    obtain ⟨op, val⟩ := e
    rcases c with ⟨_ | _, v⟩ | ⟨_ | _⟩ <;> cases val <;> cases op <;> cases emptyOk <;> simp [addLeaf, mergeOp, Call.op]

/-! ### Examples and findings -/

/-- Three items: one set twice, one deleted and set, one deleted. -/
example : ∃ l g, adds (fun _ => true) 0 [] [(0, .set false 5), (1, .del false), (0, .set false 6), (1, .set true 7), (2, .del true)] =
      some l ∧ l = [(0, ⟨.merge, some 6⟩), (1, ⟨.replace, some 7⟩), (2, ⟨.delete, none⟩)] ∧
    sequential (fun i => some (i, false)) [(0, .set false 5), (1, .del false), (0, .set false 6), (1, .set true 7), (2, .del true)] = some g ∧
    g 0 = some (6, false) ∧ g 1 = some (7, false) ∧ g 2 = none ∧ g 3 = some (3, false) := by
  refine ⟨_, _, rfl, rfl, rfl, rfl, rfl, rfl, rfl⟩

example : NoDeleteAfterSet [(1, .del false), (0, .set false 6), (1, .set true 7)] := by
  intro i s v s' a b d h
  rcases a with _ | ⟨x, _ | ⟨y, _ | ⟨z, a⟩⟩⟩ <;> simp at h
  · obtain ⟨⟨rfl, -⟩, h⟩ := h
    rcases b with _ | ⟨x', _ | ⟨y', b⟩⟩ <;> simp at h

/-- Finding: an item that is set and then deleted before applying keeps its old value. -/
theorem set_then_delete_lost : ∃ (f : Data) (g : Data), adds (fun _ => true) 0 [] [(0, .set false 5), (0, .del false)] = some [] ∧
    apply f [] = some f ∧ f 0 = some (4, false) ∧ sequential f [(0, .set false 5), (0, .del false)] = some g ∧ g 0 = none :=
  ⟨fun _ => some (4, false), _, rfl, rfl, rfl, rfl, rfl⟩

/-- Finding: two strict sets are accepted and applied, although one after another the second is refused. -/
theorem create_twice_accepted : ∃ (f g : Data) (l : Edits), adds (fun _ => true) 0 [] [(0, .set true 5), (0, .set true 6)] = some l ∧
    apply f l = some g ∧ g 0 = some (6, false) ∧ sequential f [(0, .set true 5), (0, .set true 6)] = none :=
  ⟨fun _ => none, _, _, rfl, rfl, rfl, rfl⟩

/-- Finding: a strict deletion of a missing item is accepted if the item is set afterwards. -/
theorem delete_then_set_accepted : ∃ (f g : Data) (l : Edits), adds (fun _ => true) 0 [] [(0, .del true), (0, .set false 6)] = some l ∧
    apply f l = some g ∧ g 0 = some (6, false) ∧ sequential f [(0, .del true), (0, .set false 6)] = none :=
  ⟨fun _ => none, _, _, rfl, rfl, rfl, rfl⟩

/-- Finding: a refused call still changes the value in the edit: delete, set 6, set 7 (refused), apply gives 7. -/
theorem refused_call_changes_value : ∃ (f g : Data) (l l' : Edits),
    adds (fun _ => true) 0 [] [(0, .del false), (0, .set false 6)] = some l ∧
    add (fun _ => true) 0 l 0 (.set false 7) = (l', false) ∧ apply f l' = some g ∧ g 0 = some (7, false) :=
  ⟨fun _ => none, _, _, _, rfl, rfl, rfl, rfl⟩

end Verif.EditMerge
