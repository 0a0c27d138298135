import Verif.SnTimer
/-!
C103: a timer does not call its callback before its time or after it was cancelled.
C104: cancelling a timer does not wait for its time.
-/
namespace Verif.SnTimer

/-- What holds in all states. -/
structure Inv (s : St) : Prop where
  nojoin : s.tid = true → s.u = .idle
  nocb : s.tid = false → s.t ≠ .cb
  idle : s.tid = false → s.u = .idle → s.t = .done
  wait : s.tid = true → ∀ t, s.t = .waiting t → t = s.trigger

theorem inv_reach {early late : Prop} {s : St} (h : Reach early late s) : Inv s := by
  induction h with
  | init now => exact ⟨by simp, by simp, by simp, by simp⟩
  | @step s s' a hr he hl hs ih =>
    obtain ⟨i1, i2, i3, i4⟩ := ih
    cases a with
    | tick => cases hs; exact ⟨i1, i2, i3, i4⟩
    | create tr iv =>
      simp only [step] at hs
      split at hs
      · rename_i hc
        cases hs
        exact ⟨fun _ => hc.1, by simp, by simp, by simp⟩
      · cases hs
    | update tr iv =>
      simp only [step] at hs
      split at hs
      · rename_i hc
        cases hs
        refine ⟨fun _ => hc.1, by simp [hc.2.1], by simp [hc.2.1], ?_⟩
        intro _ t ht
        simp only [signal] at ht
        split at ht
        · cases ht
        · rename_i hn; exact absurd ht (hn t)
      · cases hs
    | cancel =>
      simp only [step] at hs
      split at hs
      · rename_i hc
        cases hs
        have hfree : s.t ≠ .cb := by simpa [St.free] using hc.2
        refine ⟨by simp, ?_, ?_, by simp⟩
        · intro _
          simp only [signal]
          split
          · simp
          · exact hfree
        · intro _ hu
          simp only at hu
          split at hu
          · cases hu
          · rename_i ht
            have := i3 (by simpa using ht) hc.1
            simp [signal, this]
      · cases hs
    | join =>
      simp only [step] at hs
      split at hs
      · rename_i hc
        cases hs
        refine ⟨fun _ => rfl, by simp [hc.2], fun _ _ => hc.2, i4⟩
      · cases hs
    | expire =>
      simp only [step] at hs
      split at hs
      · rename_i t ht
        split at hs
        · cases hs
          refine ⟨i1, by simp, ?_, by simp⟩
          intro h1 h2
          have := i3 h1 h2
          rw [ht] at this; cases this
        · cases hs
      · cases hs
    | thread =>
      simp only [step] at hs
      split at hs
      · rename_i ht
        cases hs
        refine ⟨i1, by simp, ?_, fun _ t h => by cases h; rfl⟩
        intro h1 h2
        have := i3 h1 h2
        rw [ht] at this; cases this
      · rename_i r ht
        split at hs
        · rename_i hf
          cases hs
          exact ⟨i1, by simp, fun _ _ => rfl, by simp⟩
        · rename_i hf
          have htr : s.tid = true := by simpa using hf
          split at hs
          · cases hs
            exact ⟨i1, by simp [htr], by simp [htr], by simp⟩
          · cases hs
            exact ⟨i1, by simp, by simp [htr], fun _ t h => by cases h; rfl⟩
      · rename_i ht
        have htr : s.tid = true := by
          cases hb : s.tid with
          | true => rfl
          | false => exact absurd ht (i2 hb)
        split at hs
        · cases hs
          exact ⟨i1, by simp, by simp [htr], fun _ t h => by cases h; rfl⟩
        · cases hs
          exact ⟨i1, by simp, by simp [htr], by simp⟩
      · cases hs

/-! ## C103 -/

/-- **C103.** From the moment a call cancelling the timer has taken effect, let alone returned, the callback is not called until
the timer is created again. -/
theorem none_after_cancel {early late : Prop} {s s' : St} (h : Reach early late s) (ht : s.tid = false) {a : Act}
    (hs : step s a = some s') : s'.calls = s.calls := by
  cases a with
  | tick => cases hs; rfl
  | create tr iv => simp only [step] at hs; split at hs <;> cases hs; rfl
  | update tr iv => simp only [step] at hs; split at hs <;> cases hs; rfl
  | cancel => simp only [step] at hs; split at hs <;> cases hs; rfl
  | join => simp only [step] at hs; split at hs <;> cases hs; rfl
  | expire =>
    simp only [step] at hs
    split at hs
    · split at hs <;> cases hs; rfl
    · cases hs
  | thread =>
    simp only [step] at hs
    split at hs
    · cases hs; rfl
    · split at hs
      · cases hs; rfl
      · exact absurd ht ‹_›
    · split at hs <;> cases hs <;> rfl
    · cases hs

/-- **C103.** When a cancelling call has returned, the thread has finished. -/
theorem cancelled_finished {early late : Prop} {s : St} (h : Reach early late s) (ht : s.tid = false) (hu : s.u = .idle) : s.t = .done :=
  (inv_reach h).idle ht hu

theorem expired_reach {early : Prop} {s : St} (h : Reach early False s) : s.tid = true → s.t = .relock true → s.trigger ≤ s.now := by
  induction h with
  | init now => simp
  | @step s s' a hr he hl hs ih =>
    have hi := inv_reach hr
    cases a with
    | tick => cases hs; intro h1 h2; have := ih h1 h2; simp only; omega
    | create tr iv => simp only [step] at hs; split at hs <;> cases hs; simp
    | update tr iv =>
      have hl' := hl tr iv rfl
      simp only [step] at hs
      split at hs
      · cases hs
        intro _ h2
        simp only [signal] at h2
        split at h2
        · cases h2
        · exact absurd h2 hl'
      · cases hs
    | cancel => simp only [step] at hs; split at hs <;> cases hs; simp
    | join => simp only [step] at hs; split at hs <;> cases hs; exact ih
    | expire =>
      simp only [step] at hs
      split at hs
      · rename_i t ht
        split at hs
        · rename_i hle
          cases hs
          intro h1 _
          rw [← hi.wait h1 t ht]; exact hle
        · cases hs
      · cases hs
    | thread =>
      simp only [step] at hs
      split at hs
      · cases hs; simp
      · split at hs
        · cases hs; simp
        · split at hs <;> cases hs <;> simp
      · split at hs <;> cases hs <;> simp
      · cases hs

/-- **C103** (partial: the timer is not updated in the moment between the end of the wait and the lock; that is below). The callback
is not called before the trigger that is set. -/
theorem not_before_trigger_partial {early : Prop} {s s' : St} (h : Reach early False s) {a : Act} (hs : step s a = some s')
    (hc : s'.calls ≠ s.calls) : s.trigger ≤ s.now ∧ s'.calls = s.calls ++ [s.now] := by
  cases a with
  | tick => cases hs; exact absurd rfl hc
  | create tr iv => simp only [step] at hs; split at hs <;> cases hs; exact absurd rfl hc
  | update tr iv => simp only [step] at hs; split at hs <;> cases hs; exact absurd rfl hc
  | cancel => simp only [step] at hs; split at hs <;> cases hs; exact absurd rfl hc
  | join => simp only [step] at hs; split at hs <;> cases hs; exact absurd rfl hc
  | expire =>
    simp only [step] at hs
    split at hs
    · split at hs <;> cases hs; exact absurd rfl hc
    · cases hs
  | thread =>
    simp only [step] at hs
    split at hs
    · cases hs; exact absurd rfl hc
    · rename_i r ht
      split at hs
      · cases hs; exact absurd rfl hc
      · rename_i hf
        split at hs
        · rename_i hr
          cases hs
          exact ⟨expired_reach h (by simpa using hf) (by rw [ht, hr]), rfl⟩
        · cases hs; exact absurd rfl hc
    · split at hs <;> cases hs <;> exact absurd rfl hc
    · cases hs

/-- A schedule. -/
def exec : List Act → St → Option St
  | [], s => some s
  | a :: as, s => (step s a).bind (exec as)

theorem reach_exec {as : List Act} {s s' : St} (h : Reach True True s) (he : exec as s = some s') : Reach True True s' := by
  induction as generalizing s with
  | nil => simp only [exec, Option.some.injEq] at he; exact he ▸ h
  | cons a as ih =>
    simp only [exec] at he
    cases hs : step s a with
    | none => simp [hs] at he
    | some s1 =>
      rw [hs] at he
      exact ih (.step a h (fun _ _ => trivial) (fun _ _ _ _ => trivial) hs) he

/-- The states of a schedule, to show that nothing forbidden happens in it. -/
theorem reach_step {early late : Prop} {s s' : St} {a : Act} (h : Reach early late s) (he : a = .cancel → s.t ≠ .start)
    (hl : s.t ≠ .relock true) (hs : step s a = some s') : Reach early late s' :=
  .step a h (fun e1 e2 => absurd e2 (he e1)) (fun _ _ _ e => absurd e hl) hs

/-- The hypotheses are met: a timer of the time 2, moved to 1 while the thread waits, about to call its callback. -/
example : ∃ s s', Reach False False s ∧ step s .thread = some s' ∧ s'.calls = [1] ∧ s.calls = [] := by
  have r0 : Reach False False { now := 0 } := .init 0
  have r1 := reach_step r0 (a := .create 2 5) (by simp) (by simp) rfl
  have r2 := reach_step r1 (a := .thread) (by simp) (by simp) rfl
  have r3 := reach_step r2 (a := .update 1 5) (by simp) (by simp) rfl
  have r4 := reach_step r3 (a := .thread) (by simp) (by simp [signal]) rfl
  have r5 := reach_step r4 (a := .tick) (by simp) (by simp) rfl
  have r6 := reach_step r5 (a := .expire) (by simp) (by simp) rfl
  exact ⟨_, _, r6, rfl, rfl, rfl⟩

/-- **C103 does not hold of the code**: a trigger moved later, at the moment the old one is reached, is ignored. The callback, for
instance the termination of the subscription, is called at once, for any new trigger. -/
theorem postponed_ignored (d : Nat) : ∃ s s', Reach True True s ∧ s.trigger = s.now + 1 + d ∧ step s .thread = some s' ∧
    s'.calls = s.calls ++ [s.now] := by
  have h : exec [.create 1 0, .thread, .tick, .expire, .update (2 + d) 0] { now := 0 } =
      some { now := 1, tid := true, trigger := 2 + d, t := .relock true } := rfl
  exact ⟨_, _, reach_exec (.init 0) h, by simp, rfl, rfl⟩

/-! ## C104 -/

theorem joining_reach {late : Prop} {s : St} (h : Reach False late s) : s.u = .joining → s.t = .done ∨ ∃ r, s.t = .relock r := by
  induction h with
  | init now => simp
  | @step s s' a hr he hl hs ih =>
    have hi := inv_reach hr
    cases a with
    | tick => cases hs; exact ih
    | create tr iv => simp only [step] at hs; split at hs <;> cases hs; rename_i hc; intro h; simp [hc.1] at h
    | update tr iv => simp only [step] at hs; split at hs <;> cases hs; rename_i hc; intro h; simp [hc.1] at h
    | cancel =>
      have he' := he rfl
      simp only [step] at hs
      split at hs
      · rename_i hc
        cases hs
        intro _
        simp only [signal]
        cases ht : s.t with
        | start => exact absurd ht he'
        | waiting t => exact Or.inr ⟨_, rfl⟩
        | relock r => exact Or.inr ⟨r, rfl⟩
        | cb => simp [St.free, ht] at hc
        | done => exact Or.inl rfl
      · cases hs
    | join => simp only [step] at hs; split at hs <;> cases hs; simp
    | expire =>
      simp only [step] at hs
      split at hs
      · split at hs <;> cases hs
        intro _; exact Or.inr ⟨_, rfl⟩
      · cases hs
    | thread =>
      simp only [step] at hs
      split at hs
      · rename_i ht
        cases hs
        intro h
        rcases ih h with h | ⟨r, h⟩ <;> rw [ht] at h <;> cases h
      · split at hs
        · cases hs; intro _; exact Or.inl rfl
        · rename_i hf
          have := hi.nojoin (by simpa using hf)
          split at hs <;> cases hs <;> (intro h; simp [this] at h)
      · rename_i ht
        split at hs <;> cases hs
        · intro h
          rcases ih h with h | ⟨r, h⟩ <;> rw [ht] at h <;> cases h
        · intro _; exact Or.inl rfl
      · cases hs

/-- **C104** (partial: the thread of the timer has begun to wait before the call; the other case is below). A call cancelling a
timer waits for at most one step of the thread of the timer, no time has to pass. -/
theorem cancel_prompt_partial {late : Prop} {s : St} (h : Reach False late s) (hu : s.u = .joining) :
    (∃ s', step s .join = some s') ∨ ∃ s1 s', step s .thread = some s1 ∧ step s1 .join = some s' := by
  have hi := inv_reach h
  have hf : s.tid = false := by
    cases hb : s.tid with
    | false => rfl
    | true => rw [hi.nojoin hb] at hu; cases hu
  rcases joining_reach h hu with ht | ⟨r, ht⟩
  · left; simp only [step]; rw [if_pos ⟨hu, ht⟩]; exact ⟨_, rfl⟩
  · right
    refine ⟨{ s with t := .done }, { s with t := .done, u := .idle }, ?_, ?_⟩
    · simp only [step, ht]; rw [if_pos hf]
    · simp only [step]; simp [hu]

/-- The hypotheses are met. -/
example : ∃ s, Reach False False s ∧ s.u = .joining := by
  have r1 := reach_step (.init (early := False) (late := False) 0) (a := .create 2 5) (by simp) (by simp) rfl
  have r2 := reach_step r1 (a := .thread) (by simp) (by simp) rfl
  have r3 := reach_step r2 (a := .cancel) (by simp) (by simp) rfl
  exact ⟨_, r3, rfl⟩

/-- **C104 does not hold of the code**: a timer cancelled before its thread began to wait, for instance of a subscription with a
stop time that is terminated at once. The signal is lost, the call cannot go on until the stop time, however far it is. -/
theorem cancel_waits_for_trigger (d : Nat) : ∃ s, Reach True True s ∧ s.u = .joining ∧ s.now + d < s.trigger ∧
    ∀ n a s', step { s with now := s.now + n } a = some s' → a = .tick ∨ (a = .expire ∧ d < n) := by
  have h : exec [.create (d + 1) 0, .cancel, .thread] { now := 0 } =
      some { tid := false, trigger := d + 1, t := .waiting (d + 1), u := .joining } := rfl
  refine ⟨_, reach_exec (.init 0) h, rfl, by simp, ?_⟩
  intro n a s' hs
  cases a with
  | tick => exact Or.inl rfl
  | create tr iv => simp [step] at hs
  | update tr iv => simp [step] at hs
  | cancel => simp [step] at hs
  | join => simp [step] at hs
  | thread => simp [step] at hs
  | expire =>
    right
    simp only [step] at hs
    split at hs
    · rename_i hle; exact ⟨rfl, by omega⟩
    · cases hs

end Verif.SnTimer
