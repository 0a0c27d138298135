import Verif.FutexCond
/-!
Property C05: no lost wake-up in the condition variable.
-/
namespace Verif.FutexCond

/-- **C05 (partial: fewer than 2^32 broadcasts during one wait).** In no reachable state of any number of waiters
and broadcasters, in any interleaving and with any crashes, is a thread asleep although a broadcast was finished
since it started to wait (since it read the futex word while still holding the mutex). -/
theorem no_lost_wakeup_partial {s : State} (h : Reach s) {t : Tid} {v : Nat} (ht : s.th t = .sleeping v)
    (hlt : s.stores < s.born t + 4294967296) : s.wakes = s.bornWakes t :=
  h.wf.slp t v ht hlt

/-- **C05.** A thread that was not yet asleep when the broadcast was finished does not fall asleep: its wait returns
success. -/
theorem late_sleeper_returns_partial {s : State} (h : Reach s) {t : Tid} {v : Nat} (ht : s.th t = .released v)
    (hb : s.bornWakes t < s.wakes) (hlt : s.stores < s.born t + 4294967296) :
    ∃ s', step s t .futexWait = some s' ∧ s'.th t = .woken .success := by
  have hw := h.wf
  have hv := hw.val t v (by rw [ht]; rfl)
  have hc := hw.cnt t v (by rw [ht]; rfl)
  have hne : s.futex ≠ v := by
    intro hf
    have := u32_inj (by rw [← hv.1, ← hw.fut, hf]) hv.2 hlt
    omega
  simp only [step, ht, if_neg hne]
  exact ⟨_, rfl, set_same ..⟩

/-- **C05.** Finishing a broadcast wakes every thread that is asleep, with success, and none stays asleep. -/
theorem broadcast_wakes_all {s s' : State} {b : Tid} (e : step s b .bwake = some s') :
    ∀ t v, s.th t = .sleeping v → s'.th t = .woken .success := by
  intro t v ht
  simp only [step] at e
  split at e
  · rename_i hb
    injection e with e; subst e
    have hne : t ≠ b := by rintro rfl; rw [ht] at hb; simp at hb
    simp only [set_ne _ _ hne, ht, wake]
  · simp at e

/-- **C05.** A woken thread only needs the mutex to return from its wait, and only one thread owns the mutex. -/
theorem woken_returns {s : State} (h : Reach s) {t : Tid} {r : Result} (ht : s.th t = .woken r) :
    (s.mutex = none → ∃ s', step s t .lock = some s' ∧ s'.th t = .locked) ∧
    (∀ i j, (s.th i).owns = true → (s.th j).owns = true → i = j) := by
  constructor
  · intro hm
    simp only [step, hm, ht]
    exact ⟨_, rfl, set_same ..⟩
  · intro i j hi hj
    have h1 := h.wf.own i hi
    have h2 := h.wf.own j hj
    rw [h1] at h2
    injection h2

/-- Run of steps. -/
def run : State → List (Tid × Act) → Option State
  | s, [] => some s
  | s, (t, a) :: l => match step s t a with | none => none | some s' => run s' l

theorem Reach.run {s s' : State} {l : List (Tid × Act)} (h : Reach s) (e : FutexCond.run s l = some s') : Reach s' := by
  induction l generalizing s with
  | nil => simp only [FutexCond.run] at e; injection e with e; exact e ▸ h
  | cons x l ih =>
    obtain ⟨t, a⟩ := x
    simp only [FutexCond.run] at e
    split at e
    · simp at e
    · rename_i s1 e1; exact ih (.step h e1) e

/-- The window: the broadcast happens between releasing the mutex and going to sleep; and a second waiter that is
already asleep. Both hypotheses of the theorems above are met. -/
example : ∃ s, Reach s ∧ s.th 0 = .released 1 ∧ s.th 2 = .woken .success ∧ s.bornWakes 0 < s.wakes ∧
    s.stores < s.born 0 + 4294967296 := by
  refine ⟨_, Reach.init.run (l := [(2, .lock), (2, .load), (2, .release), (2, .futexWait), (0, .lock), (0, .load),
    (0, .release), (1, .lock), (1, .bload), (1, .bstore), (1, .bwake), (1, .unlock)]) rfl, ?_⟩
  decide

example : ∃ s, Reach s ∧ s.th 0 = .sleeping 1 ∧ s.stores < s.born 0 + 4294967296 := by
  refine ⟨_, Reach.init.run (l := [(0, .lock), (0, .load), (0, .release), (0, .futexWait)]) rfl, ?_⟩
  decide

theorem many_broadcasts (k : Nat) : ∃ s, Reach s ∧ s.th 0 = .released 1 ∧ s.th 1 = .locked ∧ s.stores = k ∧ s.wakes = k ∧
    s.born 0 = 0 ∧ s.bornWakes 0 = 0 := by
  induction k with
  | zero =>
    refine ⟨_, Reach.init.run (l := [(0, .lock), (0, .load), (0, .release), (1, .lock)]) rfl, ?_⟩
    decide
  | succ k ih =>
    obtain ⟨s, hr, h0, h1, h2, h3, h4, h5⟩ := ih
    refine ⟨_, .step (.step (.step hr (t := 1) (a := .bload) (by simp only [step, h1]; rfl))
      (t := 1) (a := .bstore) (by simp only [step, set_same]; rfl)) (t := 1) (a := .bwake) (by simp only [step, set_same]; rfl), ?_⟩
    have h01 : (0 : Tid) ≠ 1 := by decide
    refine ⟨?_, ?_, ?_, ?_, ?_, ?_⟩
    · simp only [set_ne _ _ h01, h0, wake]
    · simp only [set_same]
    · simp only [h2]
    · simp only [h3]
    · exact h4
    · exact h5

/-- **C05, negation at the wrap of the 32-bit counter.** After exactly 2^32 broadcasts in the window the thread falls
asleep although broadcasts were finished since it started to wait. -/
theorem counter_wrap_loses_wakeup : ∃ s t v, Reach s ∧ s.th t = .sleeping v ∧ s.bornWakes t < s.wakes := by
  obtain ⟨s, hr, h0, h1, h2, h3, h4, h5⟩ := many_broadcasts 4294967296
  have hf : s.futex = 1 := by rw [hr.wf.fut, h2]; rfl
  refine ⟨{ s with th := set s.th 0 (.sleeping 1) }, 0, 1,
    .step hr (t := 0) (a := .futexWait) (by simp only [step, h0, hf, if_true]), by simp only [set_same], ?_⟩
  simp only; omega

/-- **C05, crash of a broadcaster.** A broadcaster that dies after its increment but before its wake-up call leaves
the waiters asleep; nobody repeats the broadcast. -/
theorem crashed_broadcaster_wakes_nobody : ∃ s, Reach s ∧ s.th 0 = .sleeping 1 ∧ s.th 1 = .dead ∧ s.futex = 2 := by
  refine ⟨_, Reach.init.run (l := [(0, .lock), (0, .load), (0, .release), (0, .futexWait), (1, .lock), (1, .bload), (1, .bstore),
    (1, .crash)]) rfl, ?_⟩
  decide

end Verif.FutexCond
