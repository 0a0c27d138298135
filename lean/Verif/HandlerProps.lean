import Verif.Handler

/-!
# The handler thread of a subscription (properties, C133, C134)
-/

namespace Verif.Handler

/-! ## Helper lemmas -/

/-- What holds in all states. -/
structure Inv (s : State) : Prop where
  /-- an event is not forgotten while the thread is running -/
  awake : s.run = .on → s.pend ≠ [] → s.pc = .wait ∨ s.pc = .after → 0 < s.pipe ∨ 0 < s.owed
  /-- an event not noticed when the pipe was read is announced -/
  mid : s.run = .on → s.pc = .process → (∀ e, s.pend.count e ≤ s.snap.count e) ∨ 0 < s.pipe ∨ 0 < s.owed
  /-- `snap` is part of `pend` -/
  snap : ∀ e, s.snap.count e ≤ s.pend.count e
  /-- a thread that should end is woken up -/
  quit : s.run = .off → s.pc = .wait → 0 < s.pipe ∨ 0 < s.owed
  /-- ended only when told so -/
  fin : s.pc = .ended ∨ s.pc = .failed → s.run = .off
  /-- told so only by unsubscribing or by an error -/
  why : s.run = .off → s.unsub = true ∨ s.pc = .failed
  /-- after unsubscribing -/
  off : s.unsub = true → s.run = .off ∧ s.pend = []
  /-- joined after unsubscribing -/
  join : s.joining = true → s.unsub = true
  /-- detached while joined only with an error -/
  bad : s.bad = true → s.pc = .failed

theorem inv_start (b : Bool) : Inv (start b) := by
  cases b <;> constructor <;> simp [start]

theorem inv_step {cap : Nat} (hc : 0 < cap) {s s' : State} (a : Act) (hi : Inv s)
    (h : step cap s a = some s') : Inv s' := by
  obtain ⟨awake, mid, snap, quit, fin, why, off, join, bad⟩ := hi
  cases a with
  | post e =>
    simp only [step] at h
    split at h
    · simp at h
    · simp only [Option.some.injEq] at h; subst h
      constructor <;> first | assumption | grind
  | notify =>
    simp only [step] at h
    split at h
    · simp at h
    · simp only [Option.some.injEq] at h; subst h
      constructor <;> first | assumption | grind
  | suspend | resume | timer =>
    simp only [step] at h
    split at h
    · simp only [Option.some.injEq] at h; subst h
      constructor <;> first | assumption | grind
    · simp at h
  | unsubscribe =>
    simp only [step] at h
    split at h
    · simp at h
    · split at h
      · simp only [Option.some.injEq] at h; subst h
        constructor <;> first | assumption | grind
      · simp only [Option.some.injEq] at h; subst h
        constructor <;> first | assumption | grind
  | thread =>
    simp only [step] at h
    split at h
    · split at h
      · simp at h
      · simp only [Option.some.injEq] at h; subst h
        constructor <;> first | assumption | grind
    · split at h
      · simp only [Option.some.injEq] at h; subst h
        constructor <;> first | assumption | grind
      · simp only [Option.some.injEq] at h; subst h
        constructor <;> first | assumption | grind
    · split at h
      · simp only [Option.some.injEq] at h; subst h
        constructor <;> first | assumption | grind
      · simp only [Option.some.injEq] at h; subst h
        constructor <;> first | assumption | grind
    · simp only [Option.some.injEq] at h; subst h
      constructor <;> first | assumption | grind
    · split at h
      · rename_i hpc hsn
        simp only [Option.some.injEq] at h; subst h
        have key : s.run = .on → s.pend ≠ [] → 0 < s.pipe ∨ 0 < s.owed := by
          intro hr hp
          rcases mid hr hpc with hm | hm
          · obtain ⟨e, he⟩ := List.exists_mem_of_ne_nil _ hp
            have h1 := hm e
            have h2 := List.count_pos_iff.mpr he
            rw [hsn] at h1; simp at h1; omega
          · exact hm
        constructor <;> first | assumption | grind
      · simp at h
    · split at h
      · simp only [Option.some.injEq] at h; subst h
        constructor <;> first | assumption | grind
      · simp only [Option.some.injEq] at h; subst h
        constructor <;> first | assumption | grind
    · simp at h
    · simp at h
  | handle e =>
    simp only [step] at h
    split at h
    · rename_i hpe
      simp only [Option.some.injEq] at h; subst h
      have hsub : ∀ x, (s.snap.erase e).count x ≤ (s.pend.erase e).count x := by
        intro x
        have := snap x
        rw [List.count_erase, List.count_erase]; split <;> omega
      have hmid : s.run = .on → s.pc = .process →
          (∀ x, (s.pend.erase e).count x ≤ (s.snap.erase e).count x) ∨ 0 < s.pipe ∨ 0 < s.owed := by
        intro hr hp
        rcases mid hr hp with hm | hm
        · left; intro x
          have := hm x
          rw [List.count_erase, List.count_erase]; split <;> omega
        · exact .inr hm
      have hoff : s.unsub = true → s.run = .off ∧ s.pend.erase e = [] := by
        intro hu; have := off hu; simp [this]
      constructor <;> first | assumption | grind
    · simp at h
  | timeOut | error =>
    simp only [step] at h
    split at h
    · simp only [Option.some.injEq] at h; subst h
      constructor <;> first | assumption | grind
    · simp at h

theorem inv_exec {cap : Nat} (hc : 0 < cap) : ∀ (as : List Act) {s s' : State}, Inv s →
    exec cap s as = some s' → Inv s'
  | [], s, s', hi, h => by simp [exec] at h; exact h ▸ hi
  | a :: as, s, s', hi, h => by
    simp only [exec] at h
    cases hs : step cap s a with
    | none => simp [hs] at h
    | some t => rw [hs] at h; exact inv_exec hc as (inv_step hc a hi hs) h

theorem inv_reachable {cap : Nat} (hc : 0 < cap) {s : State} (h : Reachable cap s) : Inv s := by
  obtain ⟨b, as, h⟩ := h
  exact inv_exec hc as (inv_start b) h

/-- Bound of the number of own steps, for a thread that is not suspended. -/
def left (s : State) : Nat :=
  30 * s.owed + s.pend.length +
  match s.pc with
  | .wait => if s.pipe = 0 then 0 else 20
  | .top => 15
  | .check => 14
  | .read => 13
  | .process => (if s.pipe = 0 then 0 else 20) + 2
  | .after => (if s.pipe = 0 then 0 else 20) + 1
  | .ended | .failed => 0

theorem left_step {cap : Nat} {s s' : State} (a : Act) (ho : Own a) (hr : s.run ≠ .susp)
    (h : step cap s a = some s') : left s' < left s ∧ s'.run = s.run ∧ s'.unsub = s.unsub := by
  cases a with
  | notify =>
    simp only [step] at h
    split at h
    · simp at h
    · simp only [Option.some.injEq] at h; subst h
      refine ⟨?_, rfl, rfl⟩
      unfold left
      simp only
      cases s.pc <;> simp only <;> (repeat' split) <;> omega
  | thread =>
    simp only [step] at h
    split at h
    all_goals (try split at h)
    all_goals first
      | (simp at h; done)
      | (simp only [Option.some.injEq] at h; subst h; refine ⟨?_, rfl, rfl⟩; simp_all [left]; done)
      | (simp only [Option.some.injEq] at h; subst h; refine ⟨?_, rfl, rfl⟩; simp_all [left]; (try split) <;> omega)
  | handle e =>
    simp only [step] at h
    split at h
    · rename_i hpe
      simp only [Option.some.injEq] at h; subst h
      refine ⟨?_, rfl, rfl⟩
      have := List.length_erase_of_mem hpe.2
      have := List.length_pos_of_mem hpe.2
      simp only [left, hpe.1]; omega
    · simp at h
  | _ => exact absurd ho (by simp [Own])

/-! ## Properties -/

/-- C133.  No event is missed: in every state that can occur, a thread that is not suspended
does not sleep, without anybody about to wake it up, while an event is waiting. -/
theorem never_sleeps_with_event (cap : Nat) (hc : 0 < cap) (s : State) (h : Reachable cap s)
    (hr : s.run = .on) (ha : Asleep s) : s.pend = [] := by
  have hi := inv_reachable hc h
  cases hp : s.pend with
  | nil => rfl
  | cons e es =>
    have := hi.awake hr (by simp [hp]) (.inl ha.1)
    have := ha.2.1; have := ha.2.2
    omega

/-- C133 (partial).  Every event is processed: from every state that can occur with the thread running, the
steps of the thread without failures and the writing of bytes, in any
order, end after a number of steps known in advance, and when none of them is possible any more, all the events
are processed.

Full statement: also with errors; `error_stops_all` shows it false. -/
theorem events_processed_partial (cap : Nat) (hc : 0 < cap) (s : State) (h : Reachable cap s) (hr : s.run = .on)
    (as : List Act) (ho : ∀ a ∈ as, Own a) (s' : State) (he : exec cap s as = some s') :
    as.length ≤ left s ∧ (Rest cap s' → s'.pend = [] ∧ ∀ e ∈ s.pend, e ∈ s'.done) := by
  have main : ∀ (as : List Act) (s : State), s.run = .on → (∀ a ∈ as, Own a) → exec cap s as = some s' →
      as.length + left s' ≤ left s ∧ s'.run = .on ∧
      (∀ e ∈ s.done, e ∈ s'.done) ∧ ∀ e ∈ s.pend, e ∈ s'.pend ∨ e ∈ s'.done := by
    intro as
    induction as with
    | nil =>
      intro s hr _ h; simp [exec] at h; subst h
      exact ⟨by simp, hr, fun _ h => h, fun _ h => .inl h⟩
    | cons a as ih =>
      intro s hr ho h
      simp only [exec] at h
      cases hs : step cap s a with
      | none => simp [hs] at h
      | some t =>
        rw [hs] at h
        have hoa := ho a List.mem_cons_self
        obtain ⟨hl, hrun, _⟩ := left_step a hoa (by simp [hr]) hs
        obtain ⟨h1, h2, h3, h4⟩ := ih t (hrun ▸ hr) (fun b hb => ho b (List.mem_cons_of_mem _ hb)) h
        have hd : (∀ e ∈ s.done, e ∈ t.done) ∧ ∀ e ∈ s.pend, e ∈ t.pend ∨ e ∈ t.done := by
          cases a with
          | handle x =>
            simp only [step] at hs
            split at hs
            · simp only [Option.some.injEq] at hs; subst hs
              refine ⟨fun e he => by simp [he], fun e he => ?_⟩
              by_cases hx : e = x
              · right; simp [hx]
              · left; exact (List.mem_erase_of_ne hx).mpr he
            · simp at hs
          | notify =>
            simp only [step] at hs
            split at hs
            · simp at hs
            · simp only [Option.some.injEq] at hs; subst hs; exact ⟨fun _ h => h, fun _ h => .inl h⟩
          | thread =>
            simp only [step] at hs
            split at hs
            all_goals (try split at hs)
            all_goals first
              | (simp at hs; done)
              | (simp only [Option.some.injEq] at hs; subst hs; exact ⟨fun _ h => h, fun _ h => .inl h⟩)
          | _ => exact absurd hoa (by simp [Own])
        refine ⟨by simp only [List.length_cons]; omega, h2, fun e he => h3 e (hd.1 e he), fun e he => ?_⟩
        rcases hd.2 e he with hp | hp
        · exact h4 e hp
        · exact .inr (h3 e hp)
  obtain ⟨h1, h2, _, h4⟩ := main as s hr ho he
  refine ⟨by omega, fun hrest => ?_⟩
  have hi := inv_exec hc as (inv_reachable hc h) he
  have hpend : s'.pend = [] := by
    have ht := hrest .thread trivial
    have hn := hrest .notify trivial
    have howed : s'.owed = 0 := by
      simp only [step] at hn; split at hn
      · assumption
      · simp at hn
    cases hpc : s'.pc with
    | wait =>
      simp only [step, hpc] at ht
      have hp0 : s'.pipe = 0 := by split at ht <;> simp_all
      cases hp : s'.pend with
      | nil => rfl
      | cons e es => have := hi.awake h2 (by simp [hp]) (.inl hpc); omega
    | process =>
      simp only [step, hpc] at ht
      have hsn : s'.snap ≠ [] := by split at ht <;> simp_all
      obtain ⟨e, hes⟩ := List.exists_mem_of_ne_nil _ hsn
      have h5 := hi.snap e
      have h6 := List.count_pos_iff.mpr hes
      have hep : e ∈ s'.pend := List.count_pos_iff.mp (by omega)
      have := hrest (.handle e) trivial
      simp [step, hpc, hep] at this
    | top | check | read | after =>
      simp only [step, hpc] at ht
      (try split at ht) <;> simp at ht
    | ended => have := hi.fin (.inl hpc); simp [h2] at this
    | failed => have := hi.fin (.inr hpc); simp [h2] at this
  refine ⟨hpend, fun e he' => ?_⟩
  rcases h4 e he' with hp | hp
  · simp [hpend] at hp
  · exact hp

/-- An event made while the thread is processing another one, with the thread resumed before. -/
def exActs : List Act :=
  [.post 1, .notify, .resume, .thread, .thread, .thread, .notify, .thread, .post 2, .handle 1, .thread, .thread]

example : ∃ s, exec 4 (start true) exActs = some s ∧ s.run = .on ∧ s.pc = .wait ∧ s.pend = [2] ∧ s.pipe = 0 ∧ s.owed = 1 ∧
    ∃ s', exec 4 s [.notify, .thread, .thread, .thread, .thread, .handle 2, .thread, .thread] = some s' ∧
      s'.done = [1, 2] ∧ s'.pend = [] ∧ Asleep s' := by
  refine ⟨_, rfl, by decide, by decide, by decide, by decide, by decide, _, rfl, by decide, by decide, by decide, by decide, by decide⟩

/-- C133.  Every event is processed at most once, and none disappears: until unsubscribing, in every execution,
whatever is suspended, resumed or fails, the events processed and those waiting are together those made. -/
theorem processed_once (cap : Nat) (b : Bool) (as : List Act) (s : State) (hn : Act.unsubscribe ∉ as)
    (h : exec cap (start b) as = some s) (e : Nat) :
    s.done.count e + s.pend.count e = as.countP (fun a => a == .post e) := by
  have main : ∀ (as : List Act) (s : State), Act.unsubscribe ∉ as → ∀ s', exec cap s as = some s' →
      s'.done.count e + s'.pend.count e = s.done.count e + s.pend.count e + as.countP (fun a => a == .post e) := by
    intro as
    induction as with
    | nil => intro s _ s' h; simp [exec] at h; subst h; simp
    | cons a as ih =>
      intro s hn s' h
      simp only [List.mem_cons, not_or] at hn
      simp only [exec] at h
      cases hs : step cap s a with
      | none => simp [hs] at h
      | some t =>
        rw [hs] at h
        rw [ih t hn.2 s' h, List.countP_cons]
        have key : t.done.count e + t.pend.count e =
            s.done.count e + s.pend.count e + if (a == .post e) = true then 1 else 0 := by
          cases a with
          | post x =>
            simp only [step] at hs
            split at hs
            · simp at hs
            · simp only [Option.some.injEq] at hs; subst hs
              simp only [List.count_append, List.count_singleton, beq_iff_eq, Act.post.injEq]
              omega
          | handle x =>
            simp only [step] at hs
            split at hs
            · rename_i hpe
              simp only [Option.some.injEq] at hs; subst hs
              have := List.count_pos_iff.mpr hpe.2
              simp only [List.count_append, List.count_singleton, List.count_erase]
              grind
            · simp at hs
          | unsubscribe => exact absurd rfl hn.1
          | _ => simp only [step] at hs; grind
        omega
  have := main as (start b) hn s h
  simpa [start] using this

example : ∃ s, exec 4 (start true) exActs = some s ∧ s.done = [1] ∧ s.pend = [2] ∧ Act.unsubscribe ∉ exActs :=
  ⟨_, rfl, by decide, by decide, by decide⟩

/-- C133 is false with an error: when processing fails once, the thread ends, and nothing is processed in any
continuation, whatever is called. -/
theorem error_stops_all (cap : Nat) :
    ∃ s, exec cap (start false) [.post 1, .timer, .thread, .thread, .error] = some s ∧ s.pend = [1] ∧
      ∀ as s', exec cap s as = some s' → s'.done = [] ∧ s'.pc = .failed := by
  refine ⟨_, rfl, rfl, ?_⟩
  intro as
  have main : ∀ (as : List Act) (s s' : State), s.run = .off → s.pc = .failed → s.done = [] →
      exec cap s as = some s' → s'.done = [] ∧ s'.pc = .failed := by
    intro as
    induction as with
    | nil => intro s s' _ h2 h3 h; simp [exec] at h; subst h; exact ⟨h3, h2⟩
    | cons a as ih =>
      intro s s' h1 h2 h3 h
      simp only [exec] at h
      cases hs : step cap s a with
      | none => simp [hs] at h
      | some t =>
        rw [hs] at h
        have : t.run = .off ∧ t.pc = .failed ∧ t.done = [] := by
          cases a <;> simp only [step, h1, h2] at hs <;> grind
        exact ih t s' this.1 this.2.1 this.2.2 h
  exact fun s' h => main as _ s' rfl rfl rfl h

/-- C134.  A suspended thread processes nothing: from every state in which the thread is suspended and
not in the middle of processing, whatever happens until it is resumed or ended, no event is processed,
and every event made meanwhile is kept. -/
theorem suspended_processes_nothing (cap : Nat) (as : List Act) : ∀ (s s' : State),
    s.run = .susp → s.pc = .wait ∨ s.pc = .top ∨ s.pc = .check →
    (∀ a ∈ as, a ≠ .resume ∧ a ≠ .unsubscribe) → exec cap s as = some s' →
    s'.done = s.done ∧ s'.run = .susp ∧ (s'.pc = .wait ∨ s'.pc = .top ∨ s'.pc = .check) ∧
      s'.pend = s.pend ++ as.filterMap (fun | .post e => some e | _ => none) := by
  induction as with
  | nil => intro s s' h1 h2 _ h; simp [exec] at h; subst h; simp [h1, h2]
  | cons a as ih =>
    intro s s' h1 h2 hne h
    simp only [exec] at h
    cases hs : step cap s a with
    | none => simp [hs] at h
    | some t =>
      rw [hs] at h
      have hna := hne a List.mem_cons_self
      have key : t.done = s.done ∧ t.run = .susp ∧ (t.pc = .wait ∨ t.pc = .top ∨ t.pc = .check) ∧
          t.pend = s.pend ++ (match a with | .post e => [e] | _ => []) := by
        cases a <;> simp only [step, h1] at hs <;> grind
      obtain ⟨k1, k2, k3, k4⟩ := key
      obtain ⟨i1, i2, i3, i4⟩ := ih t s' k2 k3 (fun b hb => hne b (List.mem_cons_of_mem _ hb)) h
      refine ⟨i1.trans k1, i2, i3, ?_⟩
      rw [i4, k4]
      cases a <;> simp

example : ∃ s, exec 4 (start true) [.post 1, .notify, .thread, .thread, .post 2] = some s ∧ s.pend = [1, 2] ∧
    s.done = [] ∧ s.run = .susp := ⟨_, rfl, by decide, by decide, by decide⟩

/-- C134.  Resuming is noticed: a resumed thread is running and will be woken up. -/
theorem resume_wakes (cap : Nat) (s s' : State) (h : step cap s .resume = some s') :
    s'.run = .on ∧ 0 < s'.owed ∧ s'.pend = s.pend ∧ ¬ Asleep s' := by
  simp only [step] at h
  split at h
  · simp only [Option.some.injEq] at h; subst h; simp [Asleep]
  · simp at h

/-- C134: when suspending and resuming are refused. -/
theorem suspend_resume_refused (cap : Nat) (s : State) :
    (step cap s .suspend = none ↔ s.run ≠ .on) ∧ (step cap s .resume = none ↔ s.run ≠ .susp) := by
  simp [step]

/-- C134.  Unsubscribing returns: after it, in every state that can occur, a thread that did not end can go on or is about to be woken up,
suspended before or not, and its steps, in any order, end after a number known in advance; when none is possible any more,
the thread has ended. -/
theorem unsubscribe_ends (cap : Nat) (hc : 0 < cap) (s : State) (h : Reachable cap s) (hu : s.unsub = true)
    (as : List Act) (ho : ∀ a ∈ as, Own a) (s' : State) (he : exec cap s as = some s') :
    as.length ≤ left s ∧ (Rest cap s' → s'.pc = .ended ∨ s'.pc = .failed) := by
  have hi0 := inv_reachable hc h
  have main : ∀ (as : List Act) (s : State), s.run = .off → s.unsub = true → (∀ a ∈ as, Own a) → exec cap s as = some s' →
      as.length + left s' ≤ left s ∧ s'.run = .off ∧ s'.unsub = true := by
    intro as
    induction as with
    | nil => intro s hr hu _ h; simp [exec] at h; subst h; simp [hr, hu]
    | cons a as ih =>
      intro s hr hu ho h
      simp only [exec] at h
      cases hs : step cap s a with
      | none => simp [hs] at h
      | some t =>
        rw [hs] at h
        obtain ⟨hl, hrun, hun⟩ := left_step a (ho a List.mem_cons_self) (by simp [hr]) hs
        obtain ⟨h1, h2⟩ := ih t (hrun ▸ hr) (hun ▸ hu) (fun b hb => ho b (List.mem_cons_of_mem _ hb)) h
        exact ⟨by simp only [List.length_cons]; omega, h2⟩
  obtain ⟨h1, h2, h3⟩ := main as s (hi0.off hu).1 hu ho he
  refine ⟨by omega, fun hrest => ?_⟩
  have hi := inv_exec hc as hi0 he
  have ht := hrest .thread trivial
  have hn := hrest .notify trivial
  have howed : s'.owed = 0 := by
    simp only [step] at hn; split at hn
    · assumption
    · simp at hn
  cases hpc : s'.pc with
  | wait =>
    simp only [step, hpc] at ht
    have hp0 : s'.pipe = 0 := by split at ht <;> simp_all
    have := hi.quit h2 hpc; omega
  | process =>
    simp only [step, hpc] at ht
    have hsn : s'.snap ≠ [] := by split at ht <;> simp_all
    obtain ⟨e, hes⟩ := List.exists_mem_of_ne_nil _ hsn
    have h5 := hi.snap e
    have h6 := List.count_pos_iff.mpr hes
    rw [(hi.off h3).2] at h5
    simp at h5; omega
  | top | check | read | after =>
    simp only [step, hpc] at ht
    (try split at ht) <;> simp at ht
  | ended => exact .inl rfl
  | failed => exact .inr rfl

/-- A suspended thread with an event. -/
example : ∃ s, exec 4 (start true) [.post 1, .unsubscribe] = some s ∧ s.unsub = true ∧ s.pc = .wait ∧ s.owed = 2 ∧
    ∃ s', exec 4 s [.notify, .thread, .thread] = some s' ∧ s'.pc = .ended :=
  ⟨_, rfl, by decide, by decide, by decide, _, rfl, by decide⟩

/-- C134 (partial).  A thread that is waited for detaches itself (undefined behaviour) only after an error:
in every execution without one this does not happen.

Full statement: also with errors; `joined_and_detached` shows it false. -/
theorem not_detached_partial (cap : Nat) (hc : 0 < cap) (b : Bool) (as : List Act) (s : State)
    (hn : Act.error ∉ as) (h : exec cap (start b) as = some s) : s.bad = false ∧ s.pc ≠ .failed := by
  have main : ∀ (as : List Act) (s : State), Act.error ∉ as → s.pc ≠ .failed → ∀ s', exec cap s as = some s' → s'.pc ≠ .failed := by
    intro as
    induction as with
    | nil => intro s _ hp s' h; simp [exec] at h; exact h ▸ hp
    | cons a as ih =>
      intro s hn hp s' h
      simp only [List.mem_cons, not_or] at hn
      simp only [exec] at h
      cases hs : step cap s a with
      | none => simp [hs] at h
      | some t =>
        rw [hs] at h
        refine ih t hn.2 ?_ s' h
        cases a <;> simp only [step] at hs <;> grind
  have hp := main as (start b) hn (by simp [start]) s h
  refine ⟨?_, hp⟩
  have := (inv_exec hc as (inv_start b) h).bad
  cases hb : s.bad with
  | false => rfl
  | true => exact absurd (this hb) hp

/-- C134 is false with an error: the thread is processing events when it is unsubscribed, fails then, and detaches itself
while it is being joined. -/
theorem joined_and_detached (cap : Nat) :
    ∃ s, exec cap (start false) [.post 1, .timer, .thread, .thread, .unsubscribe, .error] = some s ∧
      s.joining = true ∧ s.bad = true := ⟨_, rfl, rfl, rfl⟩

/-- C134 is false for sleeping while suspended: with a byte in the pipe, a suspended thread that is not processing never sleeps but goes round and
round, in every continuation until it is resumed or ended, since only processing reads the pipe. -/
theorem suspended_spins (cap : Nat) (as : List Act) : ∀ (s s' : State),
    s.run = .susp → 0 < s.pipe → s.pc = .wait ∨ s.pc = .top ∨ s.pc = .check →
    (∀ a ∈ as, a ≠ .resume ∧ a ≠ .unsubscribe) → exec cap s as = some s' →
    ∃ t, step cap s' .thread = some t ∧ t.done = s'.done := by
  induction as with
  | nil =>
    intro s s' h1 h2 h3 _ h
    simp [exec] at h; subst h
    have hp : s.pipe ≠ 0 := by omega
    rcases h3 with h | h | h <;> simp [step, h, h1, hp]
  | cons a as ih =>
    intro s s' h1 h2 h3 hne h
    simp only [exec] at h
    cases hs : step cap s a with
    | none => simp [hs] at h
    | some t =>
      rw [hs] at h
      have hna := hne a List.mem_cons_self
      have key : t.run = .susp ∧ 0 < t.pipe ∧ (t.pc = .wait ∨ t.pc = .top ∨ t.pc = .check) := by
        cases a <;> simp only [step, h1] at hs <;> grind
      exact ih t s' key.1 key.2.1 key.2.2 (fun b hb => hne b (List.mem_cons_of_mem _ hb)) h

example : ∃ s, exec 4 (start true) [.post 1, .notify] = some s ∧ s.run = .susp ∧ 0 < s.pipe ∧ s.pc = .wait :=
  ⟨_, rfl, by decide, by decide, by decide⟩

end Verif.Handler
