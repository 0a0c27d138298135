import Verif.LockOrder
/-!
C06: calls never wait for each other in a cycle.
-/
namespace Verif.LockOrder

/-- **C06, partial.** Whatever modules any number of concurrent reading and changing calls need, in any order they were
collected, and in any schedule, they never wait for each other in a cycle. Restricted to calls satisfying
`Disciplined`; the three theorems below show that each restriction is needed. -/
theorem no_cycle_partial {S : Schema} (hS : S.Complete) {A : Ds → Bool} {n : Nat} {s : State}
    (h : Reach S (Disciplined S A) n s) : ¬ Deadlock s := by
  rintro ⟨r, hch⟩
  obtain ⟨x, y, hx, hy, hn, hl⟩ := chain_less hS h.good hch
  rw [hx] at hy
  injection hy with hy; injection hy with hy; subst hy
  exact less_irrefl _ (hl hn)

/-- **C06, partial.** So whenever some calls are running, one of them does not wait: it can take its next lock, or has all
its locks. -/
theorem some_call_proceeds_partial {S : Schema} (hS : S.Complete) {A : Ds → Bool} {n : Nat} {s : State}
    (h : Reach S (Disciplined S A) n s) (hact : ∃ (r : Nat) (x : Run), s[r]? = some (some x)) :
    ∃ (r : Nat) (x : Run), s[r]? = some (some x) ∧ blocked s r = false ∧
      (x.cur = none ∨ ∃ s', step S s r .lock = some s' ∧ s'[r]? = some (some (grant x))) := by
  have hg := h.good
  let f : Nat → Nat × Nat × Nat := fun r => match s[r]? with | some (some x) => level x | _ => (0, 0, 0)
  let l := (List.range s.length).filter fun r => match s[r]? with | some (some _) => true | _ => false
  have hmem : ∀ r, r ∈ l ↔ ∃ x, s[r]? = some (some x) := by
    intro r
    simp only [l, List.mem_filter, List.mem_range]
    constructor
    · rintro ⟨_, h2⟩
      split at h2
      · rename_i x hx; exact ⟨x, hx⟩
      · simp at h2
    · rintro ⟨x, hx⟩
      exact ⟨lt_of_get hx, by simp [hx]⟩
  have hne : l ≠ [] := by
    obtain ⟨r, hr⟩ := hact
    intro e
    have := (hmem r).2 hr
    rw [e] at this; simp at this
  obtain ⟨r, hr, hmax⟩ := exists_max f hne
  obtain ⟨x, hx⟩ := (hmem r).1 hr
  have hf : ∀ (i : Nat) (z : Run), s[i]? = some (some z) → f i = level z := by intro i z hz; simp only [f, hz]
  have hb : blocked s r = false := by
    cases hb : blocked s r with
    | false => rfl
    | true =>
      simp only [blocked, List.any_eq_true] at hb
      obtain ⟨q, _, hw⟩ := hb
      obtain ⟨x', y, o, hne', hx', hy, ho, hcf⟩ := waits_iff hw
      rw [hx] at hx'; injection hx' with hx'; injection hx' with hx'; subst hx'
      have hq := hmax q ((hmem q).2 ⟨y, hy⟩)
      rw [hf r x hx, hf q y hy] at hq
      cases ho' : y.cur with
      | none =>
        refine (hq ?_).elim
        have h1 := cls_le o
        simp only [level, ho, ho', less]
        omega
      | some o' => exact (hq (edge hS hg hx hy hne' ho ho' hcf)).elim
  refine ⟨r, x, hx, hb, ?_⟩
  cases ho : x.cur with
  | none => exact Or.inl rfl
  | some o =>
    right
    refine ⟨s.set r (some (grant x)), by simp [step, hx, ho, hb], ?_⟩
    rw [List.getElem?_set_self (lt_of_get hx)]

/-! ### Examples and witnesses -/

/-- Run a schedule. -/
def run (S : Schema) : State → List (Nat × Act) → Option State
  | s, [] => some s
  | s, (r, a) :: t => match step S s r a with | none => none | some s => run S s t

theorem Reach.run {S : Schema} {P : Call → Prop} {n : Nat} {s s' : State} {l : List (Nat × Act)} (h : Reach S P n s)
    (hP : ∀ (r : Nat) (c : Call), (r, Act.start c) ∈ l → P c) (e : LockOrder.run S s l = some s') : Reach S P n s' := by
  induction l generalizing s with
  | nil => simp only [LockOrder.run] at e; injection e with e; exact e ▸ h
  | cons x l ih =>
    obtain ⟨r, a⟩ := x
    simp only [LockOrder.run] at e
    split at e
    · simp at e
    · rename_i s1 e1
      exact ih (.step h (fun c hc => hP r c (by simp [hc])) e1) (fun r c hc => hP r c (by simp [hc])) e

/-- Module 40 refers to module 8. -/
def demoSchema : Schema := ⟨fun m => if m = 40 then [8] else [], fun m => if m = 8 then [40] else []⟩

theorem demoSchema_complete : demoSchema.Complete := by
  intro x y h
  simp only [demoSchema] at *
  split at h
  · simp at h; subst h; simp; assumption
  · simp at h

/-- Two changes and a reader contend: change 0 of module 40 holds it and, for validation, module 8; change 1 of module 8
waits for it (module 8 also needs module 40); reader 2 collected both in the wrong order and holds the first. -/
def demoRun : List (Nat × Act) :=
  [(0, .start (.apply .running [40] fun _ => true)), (0, .lock), (0, .next), (0, .lock), (0, .next),
   (1, .start (.apply .running [8] fun _ => true)), (1, .lock), (1, .lock),
   (2, .start (.get .running [40, 8, 40])), (2, .lock), (2, .lock), (0, .lock)]

example : ∃ s, Reach demoSchema (Disciplined demoSchema fun _ => true) 3 s ∧ waits s 1 0 = true ∧ waits s 0 2 = true ∧
    blocked s 2 = false := by
  refine ⟨_, Reach.init.run (l := demoRun) ?_ rfl, rfl, rfl, rfl⟩
  intro r c hc
  simp only [demoRun, List.mem_cons, Prod.mk.injEq, Act.start.injEq, reduceCtorEq, and_false, false_or, List.not_mem_nil, or_false] at hc
  rcases hc with ⟨_, rfl⟩ | ⟨_, rfl⟩ | ⟨_, rfl⟩
  · refine ⟨?_, rfl⟩
    intro m hm
    simp [Call.mods, Call.more, withInv, Ds.checked, demoSchema] at hm
    omega
  · refine ⟨?_, rfl⟩
    intro m hm
    simp [Call.mods, Call.more, withInv, Ds.checked, demoSchema] at hm
    omega
  · refine ⟨?_, trivial⟩
    intro m hm
    simp [Call.mods, Call.more] at hm
    omega

/-- No dependencies. -/
def noDeps : Schema := ⟨fun _ => [], fun _ => []⟩

/-- **C06 is false in general (1).** Changing modules 1 and 5 (call 0), reading both (call 1) and locking module 5 with
sr_lock (call 2): each call takes its locks in the common order and still they wait in a cycle. Call 0 has both locks
READ_UPGR; the urgent WRITE request of call 2 for module 5 waits for it and stops call 1, which has READ of module 1,
at module 5; call 0 then waits for call 1 to upgrade its lock of module 1. -/
theorem sr_lock_deadlocks : ∃ s, Reach noDeps (fun c => match c with | .validate _ _ _ | .update _ _ _ => False | _ => True) 3 s ∧
    waits s 0 1 = true ∧ waits s 1 2 = true ∧ waits s 2 0 = true := by
  refine ⟨_, Reach.init.run (l := [(0, .start (.apply .running [1, 5] fun _ => false)), (0, .lock), (0, .lock), (0, .next), (0, .next),
    (1, .start (.get .running [1, 5])), (1, .lock), (2, .start (.direct .running [5])), (2, .lock), (1, .lock), (0, .lock)]) ?_ rfl,
    rfl, rfl, rfl⟩
  intro r c hc
  simp at hc
  rcases hc with ⟨_, rfl⟩ | ⟨_, rfl⟩ | ⟨_, rfl⟩ <;> trivial

/-- Module 5 refers to module 1. -/
def fiveNeedsOne : Schema := ⟨fun m => if m = 5 then [1] else [], fun m => if m = 1 then [5] else []⟩

/-- **C06 is false in general (2).** sr_validate of a change of module 5 locks module 5 and then, for its dependencies,
module 1 (call 0); sr_apply_changes changing both modules has locked module 1 (call 1). -/
theorem sr_validate_deadlocks : ∃ s, Reach fiveNeedsOne (fun c => match c with | .apply .. | .validate .. => True | _ => False) 2 s ∧
    waits s 0 1 = true ∧ waits s 1 0 = true := by
  refine ⟨_, Reach.init.run (l := [(0, .start (.validate .running [5] fun _ => true)), (0, .lock), (0, .next),
    (1, .start (.apply .running [1, 5] fun _ => false)), (1, .lock), (1, .lock), (1, .next), (1, .next), (1, .lock), (1, .lock),
    (0, .lock)]) ?_ rfl, by decide +kernel, by decide +kernel⟩
  intro r c hc
  simp at hc
  rcases hc with ⟨_, rfl⟩ | ⟨_, rfl⟩ <;> trivial

/-- **C06 is false in general (3).** An update callback changes module 1 in a change of module 5 (call 0): the module is
locked after module 5, while another change of both modules has locked module 1 and waits for module 5. -/
theorem update_callback_deadlocks : ∃ s, Reach noDeps (fun c => match c with | .apply .. | .update .. => True | _ => False) 2 s ∧
    waits s 0 1 = true ∧ waits s 1 0 = true := by
  refine ⟨_, Reach.init.run (l := [(0, .start (.update .running [5] [1])), (0, .lock), (0, .next),
    (1, .start (.apply .running [1, 5] fun _ => false)), (1, .lock), (1, .lock), (0, .lock)]) ?_ rfl, by decide +kernel, by decide +kernel⟩
  intro r c hc
  simp at hc
  rcases hc with ⟨_, rfl⟩ | ⟨_, rfl⟩ <;> trivial

end Verif.LockOrder
