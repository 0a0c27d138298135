import Verif.NotifBuf

/-! Properties of the notification buffer: C41. -/
namespace Verif.NotifBuf

/-- Taken notifications that are not stored yet. -/
def pending : Thr → List Ntf
  | .write b _ => b
  | _ => []

structure Inv (s : St) : Prop where
  order : s.thr ≠ .dead → s.stored ++ pending s.thr ++ s.buf = s.sent
  pre : s.stored <+: s.sent
  last : s.thr = .ended → s.buf = [] ∧ s.running = false
  lastW : ∀ b, s.thr = .write b true → s.buf = [] ∧ s.running = false
  run : s.running = false ↔ s.stop ≠ .no
  hold : s.stop ≠ .no → s.holder = none
  waiting : s.thr = .wait false → s.running = true ∧ s.buf = []

theorem take_inv {s : St} (h : Inv s) (hp : pending s.thr = []) (hd : s.thr ≠ .dead) : Inv (take s) := by
  have ho := h.order hd
  rw [hp] at ho
  unfold take
  split
  · rename_i hc
    exact ⟨fun _ => by simpa [pending] using ho, h.pre, by simp, by simp, h.run, h.hold, fun _ => hc⟩
  · rename_i hc
    refine ⟨fun _ => by simpa [pending] using ho, h.pre, by simp, fun b hb => ?_, h.run, h.hold, by simp⟩
    simp at hb
    exact ⟨rfl, hb.2⟩

theorem wake_ne {t : Thr} : wake t ≠ .wait false ∧ (wake t = .dead ↔ t = .dead) ∧ (wake t = .ended ↔ t = .ended) ∧
    pending (wake t) = pending t ∧ ∀ b l, wake t = .write b l ↔ t = .write b l := by
  cases t <;> simp [wake, pending]

theorem inv_step {s s' : St} {l : Label} (h : Inv s) (hs : step s l = some s') : Inv s' := by
  have hw := @wake_ne s.thr
  cases l with
  | sendLock n =>
    simp only [step] at hs
    split at hs
    · rename_i hc; cases hs
      exact ⟨h.order, h.pre, h.last, h.lastW, h.run, fun hn => absurd hc.2 hn, h.waiting⟩
    · cases hs
  | sendPut =>
    simp only [step] at hs
    split at hs
    · cases hs
    · rename_i n hn
      cases hs
      have hst : s.stop = .no := by
        by_cases hc : s.stop = .no
        · exact hc
        · rw [h.hold hc] at hn; cases hn
      have hr : s.running = true := by
        cases hc : s.running with
        | true => rfl
        | false => exact absurd hst (h.run.1 hc)
      refine ⟨fun hd => ?_, h.pre.trans (List.prefix_append _ _), fun he => ?_, fun b hb => ?_, h.run, fun hc => rfl,
        fun hc => absurd hc hw.1⟩
      · have := h.order (fun hc => hd (hw.2.1.2 hc))
        show s.stored ++ pending (wake s.thr) ++ (s.buf ++ [n]) = s.sent ++ [n]
        rw [hw.2.2.2.1, ← List.append_assoc, this]
      · have := (h.last (hw.2.2.1.1 he)).2; rw [hr] at this; cases this
      · have := (h.lastW b ((hw.2.2.2.2 b true).1 hb)).2; rw [hr] at this; cases this
  | time => cases hs; exact ⟨h.order, h.pre, h.last, h.lastW, h.run, h.hold, h.waiting⟩
  | thrLock =>
    simp only [step] at hs
    split at hs
    · rename_i ht
      split at hs
      · cases hs; exact take_inv h (by rw [ht]; rfl) (by rw [ht]; simp)
      · split at hs
        · cases hs; exact ⟨by simp, h.pre, by simp, by simp, h.run, h.hold, by simp⟩
        · cases hs
    · cases hs
  | thrWake =>
    simp only [step] at hs
    split at hs
    · rename_i w ht
      split at hs
      · cases hs; exact take_inv h (by rw [ht]; rfl) (by rw [ht]; simp)
      · cases hs
    · cases hs
  | thrWaitFail =>
    simp only [step] at hs
    split at hs
    · cases hs; exact ⟨by simp, h.pre, by simp, by simp, h.run, h.hold, by simp⟩
    · cases hs
  | thrWrite ok =>
    simp only [step] at hs
    split at hs
    · rename_i n t last ht
      have ho := h.order (by rw [ht]; simp)
      rw [ht] at ho
      simp only [pending] at ho
      split at hs
      · cases hs
        refine ⟨fun _ => by simpa [pending] using ho, ?_, by simp, fun b hb => ?_, h.run, h.hold, by simp⟩
        · show s.stored ++ [n] <+: s.sent
          rw [← ho]; exact ⟨t ++ s.buf, by simp⟩
        · simp at hb; exact h.lastW (n :: t) (by rw [ht, hb.2])
      · cases hs; exact ⟨by simp, h.pre, by simp, by simp, h.run, h.hold, by simp⟩
    · rename_i last ht
      have ho := h.order (by rw [ht]; simp)
      rw [ht] at ho
      simp only [pending] at ho
      cases hs
      cases last with
      | true => exact ⟨fun _ => by simpa [pending] using ho, h.pre, fun _ => h.lastW [] ht, by simp, h.run, h.hold, by simp⟩
      | false => exact ⟨fun _ => by simpa [pending] using ho, h.pre, by simp, by simp, h.run, h.hold, by simp⟩
    · cases hs
  | stop =>
    simp only [step] at hs
    split at hs
    · rename_i hc; cases hs
      refine ⟨fun hd => ?_, h.pre, fun he => ?_, fun b hb => ?_, by simp, fun _ => hc.1, fun he => absurd he hw.1⟩
      · show s.stored ++ pending (wake s.thr) ++ s.buf = s.sent
        rw [hw.2.2.2.1]; exact h.order (fun hc => hd (hw.2.1.2 hc))
      · exact ⟨(h.last (hw.2.2.1.1 he)).1, rfl⟩
      · exact ⟨(h.lastW b ((hw.2.2.2.2 b true).1 hb)).1, rfl⟩
    · cases hs
  | join =>
    simp only [step] at hs
    split at hs
    · rename_i hst
      have hr := h.run.2 (by rw [hst]; simp)
      have hh := h.hold (by rw [hst]; simp)
      split at hs
      · rename_i ht; cases hs
        refine ⟨h.order, h.pre, h.last, h.lastW, ⟨fun _ => by simp, fun _ => hr⟩, fun _ => hh, h.waiting⟩
      · rename_i ht; cases hs
        refine ⟨fun hd => absurd ht hd, h.pre, fun he => ⟨rfl, hr⟩, fun b hb => ⟨rfl, hr⟩,
          ⟨fun _ => by simp, fun _ => hr⟩, fun _ => hh, fun he => ?_⟩
        have he : s.thr = .wait false := he
        rw [ht] at he; cases he
      · cases hs
    · cases hs

theorem inv_reach {s : St} (h : Reach s) : Inv s := by
  induction h with
  | init => exact ⟨fun _ => rfl, List.prefix_refl _, by simp [init], by simp [init], by simp [init], by simp [init],
      by simp [init]⟩
  | step l _ hs ih => exact inv_step ih hs

/-- What is stored is always the beginning of what was sent, so nothing is stored twice or out of order, whatever
happens. -/
theorem stored_in_order {s : St} (h : Reach s) : s.stored <+: s.sent := (inv_reach h).pre

/-- C41 (partial: the storing thread does not fail): when the session was stopped, everything sent was stored, in the
order of sending. -/
theorem all_stored_partial {s : St} (h : Reach s) {ok : Bool} (_hs : s.stop = .returned ok) (ht : s.thr = .ended) :
    s.stored = s.sent := by
  have := (inv_reach h).order (by rw [ht]; simp)
  rw [ht, ((inv_reach h).last ht).1] at this
  simpa [pending] using this

/-- The thread does not sleep when there is something to store, or when it should end. -/
theorem no_lost_wakeup {s : St} (h : Reach s) (ht : s.thr = .wait false) : s.buf = [] ∧ s.stop = .no := by
  have hi := inv_reach h
  refine ⟨(hi.waiting ht).2, ?_⟩
  by_cases hc : s.stop = .no
  · exact hc
  · have := hi.run.2 hc
    rw [(hi.waiting ht).1] at this; cases this

/-- What keeps the thread from failing: locking of the mutex not being contended after its time limit, no failure of
writing and of waiting. -/
theorem thread_fails_only {s s' : St} {l : Label} (hs : step s l = some s') (h1 : s.thr ≠ .dead) (h2 : s'.thr = .dead) :
    (l = .thrLock ∧ s.late = true ∧ s.holder ≠ none) ∨ l = .thrWrite false ∨ l = .thrWaitFail := by
  cases l with
  | sendLock n =>
    simp only [step] at hs
    split at hs <;> cases hs
    exact absurd h2 h1
  | sendPut =>
    simp only [step] at hs
    split at hs <;> cases hs
    exact absurd ((@wake_ne s.thr).2.1.1 h2) h1
  | time => cases hs; exact absurd h2 h1
  | thrLock =>
    simp only [step] at hs
    split at hs
    · split at hs
      · cases hs; unfold take at h2; split at h2 <;> cases h2
      · split at hs
        · rename_i hh hl; exact Or.inl ⟨rfl, hl, hh⟩
        · cases hs
    · cases hs
  | thrWake =>
    simp only [step] at hs
    split at hs
    · split at hs
      · cases hs; unfold take at h2; split at h2 <;> cases h2
      · cases hs
    · cases hs
  | thrWaitFail => exact Or.inr (Or.inr rfl)
  | thrWrite ok =>
    cases ok with
    | false => exact Or.inr (Or.inl rfl)
    | true =>
      simp only [step] at hs
      split at hs
      · cases hs; cases h2
      · cases hs
        simp only at h2
        split at h2 <;> cases h2
      · cases hs
  | stop =>
    simp only [step] at hs
    split at hs <;> cases hs
    exact absurd ((@wake_ne s.thr).2.1.1 h2) h1
  | join =>
    simp only [step] at hs
    split at hs
    · split at hs
      · cases hs; exact absurd h2 h1
      · rename_i ht; exact absurd ht h1
      · cases hs
    · cases hs

/-- Remaining work of the thread once the session is being stopped. -/
def work (s : St) : Nat :=
  match s.thr with
  | .lock => s.buf.length + 3
  | .wait _ => s.buf.length + 3
  | .write b true => b.length + 1
  | .write b false => b.length + s.buf.length + 5
  | .ended => 0
  | .dead => 0

/-- Stopping a session ends: until the thread has ended it can make a step, no wake-up is lost, and every step of it
reduces the work left. -/
theorem stop_ends {s : St} (h : Reach s) (hs : s.stop = .joining) :
    (s.thr = .ended ∨ s.thr = .dead ∨ ∃ l s', threadStep s l ∧ step s l = some s') ∧
    ∀ l s', threadStep s l → step s l = some s' → work s' < work s := by
  have hi := inv_reach h
  have hr := hi.run.2 (by rw [hs]; simp)
  have hh := hi.hold (by rw [hs]; simp)
  have htk : take s = { s with thr := .write s.buf true, buf := [] } := by simp [take, hr]
  constructor
  · cases ht : s.thr with
    | lock => exact Or.inr (Or.inr ⟨.thrLock, take s, trivial, by simp [step, ht, hh]⟩)
    | wait w =>
      cases w with
      | false => have := (hi.waiting ht).1; rw [hr] at this; cases this
      | true => exact Or.inr (Or.inr ⟨.thrWake, take s, ht, by simp [step, ht, hh]⟩)
    | write b last =>
      cases b with
      | nil => exact Or.inr (Or.inr ⟨.thrWrite true, _, trivial, by simp only [step, ht]; rfl⟩)
      | cons n t => exact Or.inr (Or.inr ⟨.thrWrite true, _, trivial, by simp only [step, ht]; rfl⟩)
    | ended => exact Or.inl rfl
    | dead => exact Or.inr (Or.inl rfl)
  · intro l s' hl hst
    cases l with
    | thrLock =>
      simp only [step] at hst
      split at hst
      · rename_i ht
        rw [htk] at hst; cases hst
        simp [work, ht]
      · cases hst
    | thrWake =>
      have ht : s.thr = .wait true := hl
      simp only [step, ht] at hst
      rw [if_pos hh, htk] at hst; cases hst
      simp [work, ht]
    | thrWrite ok =>
      simp only [step] at hst
      split at hst
      · rename_i n t last ht
        split at hst
        · cases hst; cases last <;> simp [work, ht] <;> omega
        · cases hst; cases last <;> simp [work, ht]
      · rename_i last ht
        cases hst; cases last <;> simp [work, ht]
      · cases hst
    | _ => exact hl.elim

/-- Run of a list of steps. -/
def exec : List Label → Option St
  | ls => ls.foldl (fun s l => s.bind (step · l)) (some init)

theorem exec_reach (ls : List Label) {s : St} (h : exec ls = some s) : Reach s := by
  have key : ∀ (ls : List Label) (s0 : St), Reach s0 →
      ls.foldl (fun s l => s.bind (step · l)) (some s0) = some s → Reach s := by
    intro ls
    induction ls with
    | nil => intro s0 h0 h; cases h; exact h0
    | cons l t ih =>
      intro s0 h0 h
      simp only [List.foldl_cons, Option.bind_some] at h
      cases hs : step s0 l with
      | none =>
        rw [hs] at h
        have hn : ∀ t : List Label, t.foldl (fun s l => s.bind (step · l)) (none : Option St) = none := by
          intro t; induction t with
          | nil => rfl
          | cons a t ih => simpa using ih
        rw [hn t] at h; cases h
      | some s1 => rw [hs] at h; exact ih s1 (.step l h0 hs) h
  exact key ls init .init h

/-- A run that stores everything, with a notification sent just before stopping. -/
example : exec [.thrLock, .sendLock 1, .sendPut, .thrWake, .sendLock 2, .thrWrite true, .sendPut, .thrWrite true,
      .thrLock, .thrWrite true, .sendLock 3, .sendPut, .stop, .thrWrite true, .thrLock, .thrWrite true, .thrWrite true, .join] =
    some ⟨[], false, none, .ended, .returned true, false, [1, 2, 3], [1, 2, 3]⟩ := by decide

/-- C41 does not hold: the thread ends with an error when the mutex happens to be locked by a sender any time after its
limit, computed when it started; then all following notifications are accepted and lost, and stopping of the session
reports success. -/
theorem late_lock_loses : ∃ s, Reach s ∧ s.stop = .returned true ∧ s.sent = [1, 2, 3] ∧ s.stored = [1] :=
  ⟨⟨[], false, none, .dead, .returned true, true, [1, 2, 3], [1]⟩,
    exec_reach [.sendLock 1, .sendPut, .thrLock, .thrWrite true, .time, .thrWrite true, .sendLock 2, .thrLock, .sendPut,
      .sendLock 3, .sendPut, .stop, .join] (by decide), rfl, rfl, rfl⟩

/-- A notification that cannot be written makes all the later ones be lost, too. -/
theorem failed_write_loses_rest : ∃ s, Reach s ∧ s.stop = .returned true ∧ s.sent = [1, 2, 3] ∧ s.stored = [1] :=
  ⟨⟨[], false, none, .dead, .returned true, false, [1, 2, 3], [1]⟩,
    exec_reach [.sendLock 1, .sendPut, .sendLock 2, .sendPut, .sendLock 3, .sendPut, .thrLock, .thrWrite true,
      .thrWrite false, .stop, .join] (by decide), rfl, rfl, rfl⟩

end Verif.NotifBuf
