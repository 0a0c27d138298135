import Verif.OperData
/-!
C13: the session with the highest order decides.
-/
namespace Verif.OperData
open Verif.OperPush (Entry Ordered)

/-- **C13, partial.** Reading operational data of a module: the value of a node is decided by the push data of the session
with the highest order among those that set or discarded the node; without any it stays as it was. Dead connections
never count, wherever in the order they are. Holds for `discard-items` that select nodes by names and keys; for other
XPaths see `recovery_changes_result`. -/
theorem highest_order_decides_partial (alive : Nat → Bool) (stored : Nat → Push) {l : List Entry} (hl : Ordered l)
    (hs : ∀ e ∈ l, e.sid ≠ 0) (hp : ∀ e ∈ l, ByPath (stored e.sid)) (d : Data) (p : Path) :
    (∀ e, Speaks alive stored l p e → (∀ e', Speaks alive stored l p e' → e'.order ≤ e.order) →
      (∀ v, (stored e.sid).data p = some v → read alive stored l d p = some v) ∧
      ((stored e.sid).data p = none → read alive stored l d p = none)) ∧
    ((∀ e, ¬ Speaks alive stored l p e) → read alive stored l d p = d p) := by
  rw [read_eq hs hp]
  have hsp : ∀ e, Speaks alive stored l p e → says (stored e.sid) p ≠ none := fun e he h => says_none.1 h he.2.2.2
  have hpm : pushes stored (l.filter fun e => alive e.cid) = ((l.filter fun e => alive e.cid).filter (·.hasData)).map fun e => stored e.sid := rfl
  constructor
  · intro e he hmax
    have key : ∀ m' : List Entry, m'.Pairwise (fun a b => a.order < b.order) → e ∈ m' →
        (∀ e' ∈ m', says (stored e'.sid) p ≠ none → e'.order ≤ e.order) →
        lastSays p (m'.map fun e => stored e.sid) = says (stored e.sid) p := by
      intro m' hm' hin hmx
      induction m' with
      | nil => simp at hin
      | cons a t ih =>
        have hc := List.pairwise_cons.1 hm'
        simp only [List.map_cons, lastSays]
        rcases List.mem_cons.1 hin with rfl | hin'
        · have : lastSays p (t.map fun e => stored e.sid) = none := by
            rw [lastSays_none]
            intro q hq
            obtain ⟨b, hb, rfl⟩ := List.mem_map.1 hq
            cases hsb : says (stored b.sid) p with
            | none => rfl
            | some r =>
              have h1 := hc.1 b hb
              have h2 := hmx b (by simp [hb]) (by simp [hsb])
              omega
          rw [this]
        · rw [ih hc.2 hin' (fun e' he' => hmx e' (by simp [he']))]
          cases hse : says (stored e.sid) p with
          | some r => rfl
          | none => exact absurd hse (hsp e he)
    have hin : e ∈ (l.filter fun e => alive e.cid).filter (·.hasData) := by
      simp only [List.mem_filter]; exact ⟨⟨he.1, he.2.1⟩, he.2.2.1⟩
    rw [hpm, key _ ((hl.asc.filter _).filter _) hin (fun e' he' hsay => hmax e' (by
      simp only [List.mem_filter] at he'; exact ⟨he'.1.1, he'.1.2, he'.2, Classical.not_not.1 fun h => hsay (says_none.2 h)⟩))]
    constructor
    · intro v hv; simp [says, hv]
    · intro hn
      have := hsp e he
      simp only [says, hn] at this ⊢
      split <;> simp_all
  · intro hno
    have : lastSays p (pushes stored (l.filter fun e => alive e.cid)) = none := by
      rw [lastSays_none, hpm]
      intro q hq
      obtain ⟨b, hb, rfl⟩ := List.mem_map.1 hq
      cases hsb : says (stored b.sid) p with
      | none => rfl
      | some r =>
        simp only [List.mem_filter] at hb
        exact (hno b ⟨hb.1.1, hb.1.2, hb.2, Classical.not_not.1 fun h => by rw [says_none.2 h] at hsb; simp at hsb⟩).elim
    rw [this]; rfl

/-! ### Examples and witnesses -/

/-- Node 1 with its child 2. -/
def demoStored : Nat → Push
  | 10 => ⟨[], fun p => if p = [1] ∨ p = [1, 2] then some 5 else none⟩
  | 11 => ⟨[fun _ p => p == [1]], fun p => if p = [7] then some 8 else none⟩
  | 12 => ⟨[], fun p => if p = [1] ∨ p = [1, 2] then some 9 else none⟩
  | _ => ⟨[], fun _ => none⟩

/-- Session 10 sets the node, session 11 discards its parent, session 12, which sets it again, is dead. -/
def demoEntries : List Entry := [⟨1, 10, 3, true⟩, ⟨2, 12, 4, true⟩, ⟨1, 11, 6, true⟩]

example : Ordered demoEntries ∧ (∀ e ∈ demoEntries, e.sid ≠ 0) ∧ (∀ e ∈ demoEntries, ByPath (demoStored e.sid)) ∧
    Speaks (fun c => c = 1) demoStored demoEntries [1, 2] ⟨1, 11, 6, true⟩ ∧
    read (fun c => c = 1) demoStored demoEntries (fun _ => none) [1, 2] = none ∧
    read (fun c => c = 2) demoStored demoEntries (fun _ => none) [1, 2] = some 9 := by
  refine ⟨⟨?_, ?_, ?_⟩, by decide, ?_, ⟨by decide, by decide, by decide, Or.inr ⟨_, List.mem_singleton.2 rfl, [1], [2], rfl, rfl⟩⟩, by decide, by decide⟩
  · decide
  · decide
  · decide
  · intro e he x hx d d' p
    simp only [demoEntries, List.mem_cons, List.not_mem_nil, or_false] at he
    rcases he with rfl | rfl | rfl
    · simp [demoStored] at hx
    · simp [demoStored] at hx
    · simp [demoStored] at hx; subst hx; rfl

/-- Configuration: container 1 with leaf 2 = 0 and leaf 3 = 5. -/
def config : Data := fun p => if p = [1] then some 0 else if p = [1, 2] then some 0 else if p = [1, 3] then some 5 else none

/-- Session 10 discards the container if its leaf 2 is 1, session 11 sets the leaf 2 to 1. -/
def condStored : Nat → Push
  | 10 => ⟨[fun d p => p == [1] && d [1, 2] == some 1], fun _ => none⟩
  | 11 => ⟨[], fun p => if p = [1] then some 0 else if p = [1, 2] then some 1 else none⟩
  | _ => ⟨[], fun _ => none⟩

/-- **C13 is false in general.** When an entry of a dead connection is found after some data were processed, the rest starts
from the beginning on the already changed data: a discard of session 10 whose condition did not hold now removes leaf 3,
which nobody has discarded, for this one reader. The next reader gets it again. -/
theorem recovery_changes_result :
    let entries : List Entry := [⟨1, 10, 1, true⟩, ⟨1, 11, 2, true⟩, ⟨2, 12, 3, true⟩]
    let alive := fun c => c == 1
    Ordered entries ∧ read alive condStored entries config [1, 3] = none ∧
      read alive condStored (entries.filter fun e => alive e.cid) config [1, 3] = some 5 := by
  refine ⟨⟨by decide, by decide, by decide⟩, by decide, by decide⟩

/-- The data subscribers are told about are not those that are read afterwards: session 10 of a lower order stores its first
data, for the change they are put after the data of all the other sessions, though session 11 of a higher order
decides. `load` with the own data is what the change event is made of, `read` what operational data then contain. -/
theorem first_push_event_ignores_order :
    let own : Push := ⟨[], fun p => if p = [1] then some 5 else none⟩
    let stored : Nat → Push := fun s => if s = 10 then own else if s = 11 then ⟨[], fun p => if p = [1] then some 9 else none⟩ else ⟨[], fun _ => none⟩
    let before : List Entry := [⟨1, 10, 1, false⟩, ⟨1, 11, 2, true⟩]
    let after : List Entry := [⟨1, 10, 1, true⟩, ⟨1, 11, 2, true⟩]
    Ordered before ∧ load (fun _ => true) stored 10 (some own) before (fun _ => none) [1] = some 5 ∧
      read (fun _ => true) stored after (fun _ => none) [1] = some 9 := by
  refine ⟨⟨by decide, by decide, by decide⟩, by decide, by decide⟩

end Verif.OperData
