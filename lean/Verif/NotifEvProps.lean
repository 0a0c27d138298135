/-
Properties of notification delivery: C120 (every subscriber gets every notification once), C121 (delivery does not get
stuck), C122 (a waiting sender returns when its notification was processed).
-/
import Verif.NotifEvLemmas

namespace Verif.NotifEv

/-- Final state of a run. -/
def run (dbg : Bool) (as : List Act) : Option State := exec dbg (fun _ _ => true) s0 as

theorem run_reach {dbg : Bool} {as : List Act} {s : State} (h : run dbg as = some s) : Reach dbg Any s :=
  exec_reach (fun _ _ _ => trivial) .init h

/-- Final state of a quiet run. -/
def qrun (dbg : Bool) (as : List Act) : Option State := exec dbg quietB s0 as

theorem qrun_reach {dbg : Bool} {as : List Act} {s : State} (h : qrun dbg as = some s) : Reach dbg Quiet s :=
  exec_reach quietB_quiet .init h

/-- C120, whatever happens: no subscription gets a notification twice, and only one that was subscribed when it was
published gets it. -/
theorem delivered_once {dbg : Bool} {s : State} (h : Reach dbg Any s) :
    s.got.Nodup ∧ ∀ g ∈ s.got, ∃ p ∈ s.log, p.rid = g.2 ∧ g.1 ∈ p.known :=
  ⟨(g_reach h).gotnod, (g_reach h).gotlog⟩

/-- C120 when nothing out of the way happens: a notification that is not being processed any more was delivered to all the
subscriptions that were active when it was published, except for those removed meanwhile, and to no other. -/
theorem delivered_all_partial {dbg : Bool} {s : State} (h : Reach dbg Quiet s) :
    (∀ p ∈ s.log, ¬ Pending s p → ∀ i ∈ p.to, Served s p i) ∧
    ∀ g ∈ s.got, ∃ p ∈ s.log, p.rid = g.2 ∧ g.1 ∈ p.to := by
  refine ⟨fun p hp hn i hi => ?_, (r_reach h).gotto⟩
  rcases (q_reach h).served p hp i hi with h1 | h1
  · exact h1
  · exact absurd h1.1 hn

/-- Two listeners with three subscriptions, one of them suspended and one removed during the second notification. -/
def demo : List Act :=
  [.subscribe 1, .subscribe 1, .subscribe 2, .flag 2 true, .lflag 2 true, .send, .publish 3 false, .begin_ 2, .begin_ 1,
   .finish 2, .finish 1, .send, .send, .publish 5 false, .begin_ 1, .finish 1]

/-- The notification was delivered to both active subscriptions, the second one is pending. -/
example : ∃ s, qrun true (demo ++ []) = some s ∧ Reach true Quiet s ∧ (3, 1) ∈ s.got ∧ (1, 1) ∈ s.got ∧ (2, 1) ∉ s.got ∧
    s.log.length = 2 ∧ s.ev = some 5 ∧ s.cnt = 1 := by
  refine ⟨_, rfl, qrun_reach (as := demo ++ []) rfl, ?_⟩
  decide

/-- C120 fails when a subscription made during an event is removed again: it is counted though the notification was not for
it, and a subscription that has not got the notification yet loses it. Assertions do not notice. -/
theorem unsubscribe_steals (dbg : Bool) : ∃ s p i, Reach dbg Any s ∧ p ∈ s.log ∧ ¬ Pending s p ∧ i ∈ p.to ∧ ¬ Served s p i := by
  refine ⟨_, ⟨1, [1], [1]⟩, 1, run_reach (as := [.subscribe 1, .send, .publish 1 false, .subscribe 2, .unsubscribe 2]) (by cases dbg <;> rfl), ?_⟩
  cases dbg <;> exact ⟨List.mem_cons_self, (fun h => h.1 rfl), List.mem_cons_self, (by rintro (h | h) <;> revert h <;> decide)⟩

/-- C120 fails when a notification is sent while a subscription is being suspended: it is not counted but its listener
still processes the notification, as one of the others, which then do not get it. -/
theorem suspend_steals (dbg : Bool) : ∃ s p i, Reach dbg Any s ∧ p ∈ s.log ∧ ¬ Pending s p ∧ i ∈ p.to ∧ ¬ Served s p i := by
  refine ⟨_, ⟨1, [1, 2], [2]⟩, 2, run_reach (as := [.subscribe 1, .subscribe 2, .flag 1 true, .send, .publish 2 false,
    .begin_ 1, .finish 1]) (by cases dbg <;> rfl), ?_⟩
  cases dbg <;> exact ⟨List.mem_cons_self, (fun h => h.1 rfl), List.mem_cons_self, (by rintro (h | h) <;> revert h <;> decide)⟩

/-- C120 fails for slow subscribers: a sender that has waited too long discards the notification before its own. -/
theorem slow_subscriber_loses (dbg : Bool) : ∃ s p i, Reach dbg Any s ∧ p ∈ s.log ∧ ¬ Pending s p ∧ i ∈ p.to ∧
    ¬ Served s p i := by
  refine ⟨_, ⟨1, [1], [1]⟩, 1, run_reach (as := [.subscribe 1, .send, .publish 1 false, .send, .discard, .publish 2 false])
    (by cases dbg <;> rfl), ?_⟩
  cases dbg <;> exact ⟨List.mem_cons_of_mem _ List.mem_cons_self, (fun h => absurd h.2 (by decide)), List.mem_cons_self,
    (by rintro (h | h) <;> revert h <;> decide)⟩

/-! ### Progress -/

/-- C121 when nothing out of the way happens: a pending notification always has a listener that is still to process it or
has to update the event. -/
theorem progress_partial {dbg : Bool} {s : State} (h : Reach dbg Quiet s) (he : s.ev ≠ none) :
    ∃ c, (c ∈ s.fin.map (·.1)) ∨
      ((∃ s', step dbg s (.begin_ c) = .next s') ∧ ∃ x ∈ s.subs, x.ctx = c ∧ x.off = false ∧ (x.id, s.rid) ∉ s.got) := by
  have hQ := q_reach h
  obtain ⟨t, ht⟩ := Option.ne_none_iff_exists'.1 he
  obtain ⟨h1, h2, _⟩ := hQ.cnt t ht
  by_cases hc : s.subs.countP (todo s.done s.rid t) = 0
  · have h3 : 0 < finSum s.fin s.rid := by omega
    cases hf : s.fin with
    | nil => rw [hf] at h3; exact absurd h3 (Nat.lt_irrefl 0)
    | cons f l => exact ⟨f.1, Or.inl (by simp)⟩
  · obtain ⟨x, hx, hp⟩ := List.countP_pos_iff.1 (Nat.pos_of_ne_zero hc)
    simp only [todo, Bool.and_eq_true, Bool.not_eq_true', decide_eq_true_eq] at hp
    by_cases hfin : x.ctx ∈ s.fin.map (·.1)
    · exact ⟨x.ctx, Or.inl hfin⟩
    · refine ⟨x.ctx, Or.inr ⟨?_, x, hx, rfl, hp.1.1, fun hg => hp.2 (hQ.g.gotdone _ hg rfl x hx rfl)⟩⟩
      simp only [step, ht]
      rw [if_pos ⟨Ne.symm hp.2, by rw [hQ.dead]; simp, hfin, List.mem_map.2 ⟨x, hx, rfl⟩⟩]
      exact ⟨_, rfl⟩

/-- C121, the rest of a listener's work is always possible. -/
theorem finish_possible {dbg : Bool} {s : State} (h : Reach dbg Quiet s) {c : Nat} (hc : c ∈ s.fin.map (·.1)) :
    ∃ s', step dbg s (.finish c) = .next s' := by
  have hQ := q_reach h
  simp only [step]
  cases hf : s.fin.find? (fun f => f.1 == c) with
  | none =>
    obtain ⟨f, hf', rfl⟩ := List.mem_map.1 hc
    exact absurd (List.find?_eq_none.1 hf f hf') (by simp)
  | some f =>
    simp only
    split
    · exact ⟨_, rfl⟩
    · next hn =>
      have he1 : s.ev ≠ none := fun e => hn (Or.inl e)
      have he2 : f.2.1 = s.rid := Classical.byContradiction (fun e => hn (Or.inr (Ne.symm e)))
      obtain ⟨t, ht⟩ := Option.ne_none_iff_exists'.1 he1
      obtain ⟨h1, h2, _⟩ := hQ.cnt t ht
      have := finSum_remove hQ.finnod hf s.rid
      rw [if_pos he2] at this
      unfold written
      rw [if_neg (by rintro ⟨_, h⟩; simp only at h; omega)]
      exact ⟨_, rfl⟩

/-- Nothing out of the way happens, and no subscription is suspended when a notification is published. -/
def Quieter (s : State) (a : Act) : Prop := Quiet s a ∧ ∀ t w, a = .publish t w → ∀ x ∈ s.subs, x.off = false

/-- C121 when no subscription is suspended either: every listener with a subscription that is to get the pending notification
and has not has been woken. -/
theorem woken_partial {dbg : Bool} {s : State} (h : Reach dbg Quieter s) {p : Pub} (hp : p ∈ s.log) (hpe : Pending s p)
    {x : Sub} (hx : x ∈ s.subs) (hi : x.id ∈ p.to) (hn : (x.id, p.rid) ∉ s.got) : x.ctx ∈ s.woken := by
  have hW : W s := by
    clear hp hpe hx hi hn
    induction h with
    | init => intro t h; cases h
    | step a hr hq hs ih => exact w_step ih (q_reach (reach_mono (fun _ _ h => h.1) hr)) hq.1 hq.2 hs
  have hQ := q_reach (reach_mono (fun _ _ h => h.1) h)
  obtain ⟨t, ht⟩ := Option.ne_none_iff_exists'.1 hpe.1
  have h1 := hQ.to t ht p hp hpe.2 x hx hi
  rcases hQ.served p hp x.id hi with (h2 | h2) | ⟨_, h2⟩
  · exact absurd h2 hn
  · exact absurd (List.mem_map.2 ⟨x, hx, rfl⟩) h2
  · exact hW t ht x hx h1.2 (h2 x hx rfl)

/-- A pending notification for two listeners, one of which has processed it. -/
example : ∃ s, qrun true [.subscribe 1, .subscribe 2, .send, .publish 2 false, .begin_ 2] = some s ∧ s.woken = [1] ∧
    s.fin = [(2, 1, 1)] ∧ s.ev = some 2 :=
  ⟨_, rfl, rfl, rfl, rfl⟩

/-- The same, as a run of `Quieter`. -/
example : ∃ s, Reach true Quieter s ∧ s.woken = [1] ∧ s.got = [(2, 1)] ∧ ∃ p ∈ s.log, Pending s p ∧ p.to = [1, 2] := by
  refine ⟨_, exec_reach (ok := fun s a => quietB s a && s.subs.all (fun x => !x.off))
    (as := [.subscribe 1, .subscribe 2, .send, .publish 2 false, .begin_ 2]) (A := Quieter) ?_ .init rfl, rfl, rfl,
    ⟨1, [1, 2], [1, 2]⟩, List.mem_cons_self, ⟨(fun h => by cases h), rfl⟩, rfl⟩
  intro s a h
  simp only [Bool.and_eq_true, List.all_eq_true, Bool.not_eq_true'] at h
  exact ⟨quietB_quiet s a h.1, fun _ _ _ => h.2⟩

/-- C121 fails with a suspended subscription: only the first entries are gone through, as many as there are subscribers to
be notified, so a subscription after a suspended one is not woken and does not get the notification. -/
theorem not_woken (dbg : Bool) : ∃ s p x, Reach dbg Quiet s ∧ p ∈ s.log ∧ Pending s p ∧ x ∈ s.subs ∧ x.id ∈ p.to ∧
    (x.id, p.rid) ∉ s.got ∧ s.woken = [] ∧ s.fin = [] := by
  refine ⟨_, ⟨1, [1, 2], [2]⟩, ⟨2, 2, false, false, 1⟩, qrun_reach (as := [.subscribe 1, .subscribe 2, .flag 1 true, .lflag 1 true,
    .send, .publish 2 false]) (by cases dbg <;> rfl), ?_⟩
  cases dbg <;> exact ⟨List.mem_cons_self, ⟨(fun h => by cases h), rfl⟩, List.mem_cons_of_mem _ List.mem_cons_self,
    List.mem_cons_self, (fun h => by cases h), rfl, rfl⟩

theorem begin_blocked {dbg : Bool} {s : State} (h : ∀ x ∈ s.subs, s.done x.ctx = s.rid) (c : Nat) :
    step dbg s (.begin_ c) = .blocked := by
  simp only [step]
  split
  · rfl
  · split
    · next hc =>
      obtain ⟨x, hx, hxc⟩ := List.mem_map.1 hc.2.2.2
      exact absurd (h x hx) (by rw [hxc]; exact Ne.symm hc.1)
    · rfl

/-- A notification sent while a subscription is being resumed. -/
def resumeRun : List Act := [.subscribe 1, .flag 1 true, .lflag 1 true, .flag 1 false, .send, .publish 1 false,
  .begin_ 1, .finish 1, .lflag 1 false]

/-- C121 fails when a notification is sent while a subscription is being resumed: it is counted but its listener does
not process it, so the event stays pending and nobody has anything to do, until another sender gives up. -/
theorem resume_blocks (dbg : Bool) : ∃ s, Reach dbg Any s ∧ s.ev ≠ none ∧ (∀ x ∈ s.subs, x.off = false ∧ x.loff = false) ∧
    s.fin = [] ∧ ∀ c, step dbg s (.begin_ c) = .blocked := by
  have hs : (run dbg resumeRun).isSome = true := by cases dbg <;> decide +kernel
  refine ⟨(run dbg resumeRun).getD s0, ?_, ?_, ?_, ?_, begin_blocked ?_⟩
  · obtain ⟨s, hs⟩ := Option.isSome_iff_exists.1 hs
    rw [hs]; exact run_reach hs
  all_goals (cases dbg <;> decide +kernel)

/-- C121 when nothing out of the way happens: no assertion fails, except in waiting senders. -/
theorem no_abort_partial {dbg : Bool} {s : State} (h : Reach dbg Quiet s) {a : Act} (hq : Quiet s a) (ha : ∀ r, a ≠ .return_ r) :
    step dbg s a ≠ .abort := by
  have hQ := q_reach h
  cases a with
  | return_ r => exact absurd rfl (ha r)
  | die c => exact absurd hq id
  | discard => exact absurd hq id
  | subscribe c => simp only [step]; split <;> simp
  | flag i b => simp only [step]; split <;> simp
  | lflag i b => simp only [step]; split <;> simp
  | send => simp only [step]; split <;> simp
  | begin_ c =>
    simp only [step]
    split
    · simp
    · split <;> simp
  | finish c =>
    by_cases hc : c ∈ s.fin.map (·.1)
    · obtain ⟨s', hs⟩ := finish_possible h hc
      rw [hs]; simp
    · have : s.fin.find? (fun f => f.1 == c) = none := by
        apply List.find?_eq_none.2
        intro f hf e
        exact hc (by rw [← (beq_iff_eq.1 e)]; exact List.mem_map.2 ⟨f, hf, rfl⟩)
      simp [step, this]
  | publish t w =>
    simp only [step]
    split
    case isFalse => simp
    case isTrue hc =>
    split
    case isFalse => simp
    case isTrue hz =>
    exfalso
    obtain ⟨x, hx, ho⟩ := hQ.act (by intro e; rw [e] at hc; cases hc.1)
    have : 0 < s.subs.countP (active s) := List.countP_pos_iff.2 ⟨x, hx, by simp [active, hQ.dead, ho]⟩
    omega
  | unsubscribe i =>
    simp only [step]
    split
    · simp
    · next x hx =>
      split
      case isFalse => simp
      case isTrue hc =>
      split
      case isFalse => simp
      case isTrue he =>
      obtain ⟨t, ht⟩ := Option.isSome_iff_exists.1 he.1
      obtain ⟨_, h2, _⟩ := hQ.cnt t ht
      have hw : ∀ s1 : State, s1.cnt = s.cnt → written dbg s1 1 ≠ .abort := by
        intro s1 h1
        unfold written
        rw [if_neg (by rintro ⟨_, h⟩; omega)]
        intro h; cases h
      exact hw _ rfl

/-- C121 fails when the only subscriber dies between the two checks for subscribers. -/
theorem publish_aborts : ∃ s, Reach true Any s ∧ step true s (.publish 1 false) = .abort :=
  ⟨_, run_reach (as := [.subscribe 1, .send, .die 1]) rfl, rfl⟩

/-! ### Waiting senders -/

/-- C122 when nothing out of the way happens: when a sender that waits returns, its notification was delivered to all the
subscriptions that were active when it was published, except for those removed meanwhile. -/
theorem waiting_exact_partial {dbg : Bool} {s s' : State} (h : Reach dbg Quiet s) {r : Nat}
    (hs : step dbg s (.return_ r) = .next s') : (∃ p ∈ s.log, p.rid = r) ∧ ∀ p ∈ s.log, p.rid = r → ∀ i ∈ p.to, Served s p i := by
  have hc : r ∈ s.waiters ∧ s.ev = none := by
    simp only [step] at hs
    split at hs
    case isFalse => cases hs
    case isTrue hc => exact hc
  refine ⟨((q_reach h).wait r hc.1).2, fun p hp _ i hi => ?_⟩
  exact (delivered_all_partial h).1 p hp (fun hp => hp.1 hc.2) i hi

/-- C122: it can return as soon as the notification is processed, if no other was published meanwhile. -/
theorem waiting_returns_partial {dbg : Bool} {s : State} {r : Nat} (hr : r ∈ s.waiters) (he : s.ev = none)
    (ho : s.rid = r) : ∃ s', step dbg s (.return_ r) = .next s' := by
  simp only [step]
  rw [if_pos ⟨hr, he⟩, if_neg (by rintro ⟨_, h⟩; exact h ho)]
  exact ⟨_, rfl⟩

/-- A sender waits and returns. -/
example : ∃ s, qrun true [.subscribe 1, .send, .publish 1 true, .begin_ 1, .finish 1] = some s ∧ s.waiters = [1] ∧
    s.ev = none ∧ s.rid = 1 ∧ (1, 1) ∈ s.got :=
  ⟨_, rfl, rfl, rfl, rfl, List.mem_cons_self⟩

/-- C122 fails with two senders: the event of a processed notification is cleared by the last listener, so the other sender can
publish its notification before the first one has seen that, and the assertion that the request is still its own fails. -/
theorem waiting_sender_aborts : ∃ s, Reach true Quiet s ∧ 1 ∈ s.waiters ∧ step true s (.return_ 1) = .abort :=
  ⟨_, qrun_reach (as := [.subscribe 1, .send, .send, .publish 1 true, .begin_ 1, .finish 1, .publish 2 false, .begin_ 1,
    .finish 1]) rfl, List.mem_cons_self, rfl⟩

end Verif.NotifEv
