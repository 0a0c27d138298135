import Verif.ListenerAbort
import Verif.ListenerCount

/-!
# Properties of processing change events

C23: every callback is called at most once for an event, only with events its subscription selects, and told to abort only a change it
has accepted. C24: the originator is released when all the subscribers have processed the event, or one has refused it.
-/

namespace Verif.Listener

/-! ## C23 -/

/-- The calls of the callback of subscription `i` with event `ev` of request `r`, without those that put the change off. -/
def callsFor (log : List Call) (i r : Nat) (ev : Ev) : List Call :=
  log.filter (fun x => x.sub = i ∧ x.req = r ∧ x.ev = ev ∧ x.own = false ∧ ¬ (x.ev = .change ∧ x.ret = .shelve))

/-- A callback is called at most once with an event the originator publishes, however many threads process the events and whatever the
originator does meanwhile. -/
theorem at_most_once {c : Cfg} (hc : Ok c) {st : St} (h : Reach c Fresh st) (i r : Nat) (ev : Ev) : (callsFor st.log i r ev).length ≤ 1 := by
  have := (reach_invA hc (fun _ _ x => x) h).once i r ev
  unfold cnt at this
  rw [List.countP_eq_length_filter] at this
  have e : callsFor st.log i r ev = st.log.filter (fun x => x.sub == i && x.req == r && x.ev == ev && isFinal x) := by
    apply List.filter_congr
    intro x _
    rw [Bool.eq_iff_iff]
    simp only [isFinal, decide_eq_true_eq, Bool.and_eq_true, beq_iff_eq, Bool.not_eq_true', and_assoc, Bool.and_eq_false_imp, beq_eq_false_iff_ne, not_and, ne_eq]
  rw [e]; exact this

/-- Only events that were published, with the priority of the subscription and a change it asks for, and never change or abort events for a
subscription to done events only. -/
theorem only_selected {c : Cfg} (hc : Ok c) {st : St} (h : Reach c Fresh st) (x : Call) (hx : x ∈ st.log) :
    (c.doneOnly x.sub = true → x.ev = .done) ∧
    (x.own = false → ⟨x.req, x.ev, c.prio x.sub⟩ ∈ st.pubs ∧ c.filt x.sub x.req x.ev = true) := by
  obtain ⟨h1, h2⟩ := (reach_invA hc (fun _ _ x => x) h).sel x hx
  refine ⟨?_, h2⟩
  intro hd
  cases he : x.ev with
  | done => rfl
  | change => rw [he] at h1; simp [evValid, hd] at h1
  | abort => rw [he] at h1; simp [evValid, hd] at h1

/-- A callback called with a published abort event was called with the change before and accepted it. What is missing: this needs filters that
select the change whenever they select its reverse (`late_filter_aborts_unseen`). -/
theorem abort_only_accepted_partial {c : Cfg} (hc : Ok c) (hf : ∀ i r, c.filt i r .abort = true → c.filt i r .change = true) {st : St}
    (h : Reach c Fresh st) (a b : List Call) (x : Call) (hx : st.log = a ++ x :: b) (he : x.ev = .abort) (ho : x.own = false) :
    (⟨x.sub, x.req, .change, false, .ok⟩ : Call) ∈ a :=
  (reach_invB (solo := False) hc (fun h => h.elim) hf (fun _ _ x => x) h).aborts a x b hx he (Or.inl ho)

/-- The same for the abort events subscribers generate themselves, when a listener has one subscription of the module only. What is missing:
with more of them the wrong one is told to abort (`wrong_aborted`). -/
theorem own_abort_accepted_partial {c : Cfg} (hc : Ok c) (hf : ∀ i r, c.filt i r .abort = true → c.filt i r .change = true)
    (hone : ∀ l, (c.all.filter (c.handles l)).length ≤ 1) {st : St}
    (h : Reach c Fresh st) (a b : List Call) (x : Call) (hx : st.log = a ++ x :: b) (he : x.ev = .abort) :
    (⟨x.sub, x.req, .change, false, .ok⟩ : Call) ∈ a :=
  (reach_invB (solo := True) hc (fun _ => hone) hf (fun _ _ x => x) h).aborts a x b hx he (Or.inr trivial)

/-! ## C24 -/

/-- The originator finds the event processed only when every subscriber that was to process it has done so. -/
theorem released_when_processed {c : Cfg} (hc : Ok c) {nt : Prop} {st : St} (h : Reach c (Calm c nt) st) (he : st.shm.ev = .success ∨ st.shm.ev = .finished)
    (info : Info) (hi : st.pubs.getLast? = some info) (i : Nat) (hd : i ∈ st.due) (hf : c.filt i info.req info.ev = true) :
    ∃ ret, ⟨i, info.req, info.ev, false, ret⟩ ∈ st.log ∧ (info.ev = .change → ret = .ok) := by
  have hC := (reach_invC hc h).1
  exact hC.repproc i (hC.all he i hd) info hi hf

/-- While the event is pending, some subscriber has not reported it processed, and the number left is exact. -/
theorem pending_until_reported {c : Cfg} (hc : Ok c) {nt : Prop} {st : St} (h : Reach c (Calm c nt) st) (ev : Ev) (he : st.shm.ev = .listen ev) :
    (∃ i ∈ st.due, i ∉ st.rep) ∧ st.shm.count + st.rep.length = st.due.length ∧ st.rep.Nodup ∧ ∀ i ∈ st.rep, i ∈ st.due := by
  have hC := (reach_invC hc h).1
  obtain ⟨l1, l2, l3⟩ := hC.live ev he
  refine ⟨?_, l1, hC.repnd, hC.repdue⟩
  apply Decidable.byContradiction
  intro hn
  have : ∀ i ∈ st.due, i ∈ st.rep := by
    intro i hi
    apply Decidable.byContradiction
    intro hr; exact hn ⟨i, hi, hr⟩
  have := List.Nodup.length_le_of_subset hC.duend this
  omega

/-- The originator finds an error only if a subscriber that was to process the change has refused it, or it has given up itself. -/
theorem error_when_refused {c : Cfg} (hc : Ok c) {st : St} (h : Reach c (Calm c True) st) (he : st.shm.ev = .error) :
    ∃ info, st.pubs.getLast? = some info ∧ info.ev = .change ∧ ∃ i ∈ st.due, (⟨i, info.req, .change, false, .fail⟩ : Call) ∈ st.log := by
  obtain ⟨i, h1, info, h2, h3, h4⟩ := (reach_invC hc h).1.err trivial he
  exact ⟨info, h2, h3, i, h1, h4⟩

theorem two_le_countP {α : Type} {p : α → Bool} {x y : α} (hne : x ≠ y) (hpx : p x = true) (hpy : p y = true) : ∀ {l : List α}, x ∈ l → y ∈ l → 2 ≤ l.countP p := by
  intro l
  induction l with
  | nil => intro h; simp at h
  | cons a r ih =>
    intro hx hy
    rw [List.countP_cons]
    by_cases hax : a = x
    · subst hax
      have hyr : y ∈ r := by
        rcases List.mem_cons.mp hy with h | h
        · exact absurd h.symm hne
        · exact h
      have : 0 < r.countP p := List.countP_pos_iff.mpr ⟨y, hyr, hpy⟩
      rw [if_pos hpx]; omega
    · by_cases hay : a = y
      · subst hay
        have hxr : x ∈ r := by
          rcases List.mem_cons.mp hx with h | h
          · exact absurd h hne
          · exact h
        have : 0 < r.countP p := List.countP_pos_iff.mpr ⟨x, hxr, hpx⟩
        rw [if_pos hpy]; omega
      · have hxr : x ∈ r := by
          rcases List.mem_cons.mp hx with h | h
          · exact absurd h.symm hax
          · exact h
        have hyr : y ∈ r := by
          rcases List.mem_cons.mp hy with h | h
          · exact absurd h.symm hay
          · exact h
        have := ih hxr hyr
        omega

/-- Once a subscriber has refused the pending change, the next step of its listener makes the originator find the error, whatever the others do. -/
theorem refusal_reported {c : Cfg} (hc : Ok c) (hf : ∀ i r, c.filt i r .abort = true → c.filt i r .change = true) {st : St} (h : Reach c Fresh st)
    (he : st.shm.ev = .listen .change) (i : Nat) (hp : c.prio i = st.shm.prio)
    (hr : (⟨i, st.shm.req, .change, false, .fail⟩ : Call) ∈ st.log) : ∃ l st', step c st (.finish l) = some st' ∧ st'.shm.ev = .error := by
  have hA := reach_invA hc (fun _ _ x => x) h
  have hB := reach_invB (solo := False) hc (fun h => h.elim) hf (fun _ _ x => x) h
  have hfilt := ((hA.sel _ hr).2 rfl).2
  simp only [] at hfilt
  have hpos : 0 < cnt st.log i st.shm.req .change := by
    unfold cnt
    exact List.countP_pos_iff.mpr ⟨_, hr, by simp [isFinal]⟩
  obtain ⟨_, h1 | h1 | ⟨l, v, ret, fv, h1, h2⟩⟩ := hA.over i st.shm.req .change hpos
  · have hacc := hB.mem i _ h1 hfilt
    have h2 := hA.once i st.shm.req .change
    unfold cnt at h2
    have := two_le_countP (p := fun x => x.sub == i && x.req == st.shm.req && x.ev == Ev.change && isFinal x)
      (x := acc i st.shm.req) (y := ⟨i, st.shm.req, .change, false, .fail⟩) (by simp [acc]) (by simp [acc, isFinal]) (by simp [isFinal]) hacc hr
    omega
  · rw [hp, same_iff.mpr ⟨he, rfl, rfl⟩] at h1; cases h1
  · have hs : same st.shm ⟨st.shm.req, .change, c.prio i⟩ = true := by rw [hp]; exact same_iff.mpr ⟨he, rfl, rfl⟩
    refine ⟨l, { st with pc := setPc st l .idle, shm := report st.shm v.length true, rep := st.rep ++ v }, ?_, ?_⟩
    · simp only [Listener.step, h1, hs]
      simp
    · simp [report, he]

/-- While an event is pending, some listener can go on: nothing but slow callbacks keeps the originator waiting. -/
theorem never_stuck {c : Cfg} (hc : Ok c) (hh : ∀ i ∈ c.all, ∃ l, c.handles l i = true) {nt : Prop} {st : St} (h : Reach c (Calm c nt) st) (ev : Ev)
    (he : st.shm.ev = .listen ev) : ∃ l, (step c st (.start l 0)).isSome = true ∨ (step c st (.ret l .ok)).isSome = true ∨ (step c st (.finish l)).isSome = true := by
  have hC := (reach_invC hc h).1
  obtain ⟨⟨i, hi, hr⟩, _⟩ := pending_until_reported hc h ev he
  have busy : ∀ l, st.pc l ≠ .idle → (step c st (.ret l .ok)).isSome = true ∨ (step c st (.finish l)).isSome = true := by
    intro l hl
    cases hp : st.pc l with
    | idle => exact absurd hp hl
    | cb i rest info v r => left; simp only [Listener.step, hp]; split <;> rfl
    | fin info v err last r fv => right; simp only [Listener.step, hp]; split <;> rfl
  rcases hC.pend ev he i hi hr with h1 | ⟨l, h1, _⟩
  · obtain ⟨l, hl⟩ := hh i (hC.dueall i hi)
    refine ⟨l, ?_⟩
    by_cases hp : st.pc l = .idle
    · left
      simp only [Listener.step, hp, he, List.drop_zero]
      cases hd : (mine c l).dropWhile (fun j => !isNew c st.shm st.mem st.susp j) with
      | cons => rfl
      | nil =>
        exfalso
        have : ∀ j ∈ mine c l, (!isNew c st.shm st.mem st.susp j) = true := by
          have h2 := List.takeWhile_append_dropWhile (p := fun j => !isNew c st.shm st.mem st.susp j) (l := mine c l)
          rw [hd, List.append_nil] at h2
          intro j hj
          rw [← h2] at hj
          have := List.all_takeWhile (p := fun j => !isNew c st.shm st.mem st.susp j) (l := mine c l)
          exact List.all_eq_true.mp this j hj
        have := this i (List.mem_filter.mpr ⟨hC.dueall i hi, hl⟩)
        rw [h1] at this; cases this
    · exact Or.inr (busy l hp)
  · exact ⟨l, Or.inr (busy l (by intro hp; rw [hp] at h1; cases h1))⟩

/-! ## Concrete runs -/

def st0 : St := ⟨⟨.none, 0, 0, 0⟩, fun _ => none, fun _ => false, fun _ => .idle, [], [], [], []⟩

/-- The conditions of `Calm`, without timeouts. -/
def calmB (c : Cfg) (st : St) : Label → Bool
  | .publish info n => decide (info ∉ st.pubs) && decide (0 < n) && decide (n < W) &&
      n == (dueOf c ⟨.listen info.ev, info.req, info.prio, n⟩ st.mem st.susp info).length
  | .suspend _ _ => match st.shm.ev with | .listen _ => false | _ => true
  | .timeout => false
  | _ => true

def freshB (st : St) : Label → Bool
  | .publish info _ => decide (info ∉ st.pubs)
  | _ => true

def exec (c : Cfg) (ok : St → Label → Bool) : List Label → St → Option St
  | [], st => some st
  | lb :: r, st => if ok st lb then (step c st lb).bind (exec c ok r) else none

theorem exec_reach {c : Cfg} {ok : St → Label → Bool} {allow : St → Label → Prop} (ha : ∀ st lb, ok st lb = true → allow st lb) :
    ∀ {lbs : List Label} {st st' : St}, Reach c allow st → exec c ok lbs st = some st' → Reach c allow st' := by
  intro lbs
  induction lbs with
  | nil => intro st st' h e; simp only [exec, Option.some.injEq] at e; subst e; exact h
  | cons lb r ih =>
    intro st st' h e
    simp only [exec] at e
    split at e
    · rename_i hok
      cases hs : step c st lb with
      | none => rw [hs] at e; simp at e
      | some st1 => rw [hs] at e; exact ih (Reach.step h (ha _ _ hok) hs) e
    · simp at e

theorem calmB_calm {c : Cfg} (st : St) (lb : Label) (h : calmB c st lb = true) : Calm c True st lb := by
  cases lb with
  | publish info n =>
    simp only [calmB, Bool.and_eq_true, decide_eq_true_eq, beq_iff_eq] at h
    exact ⟨h.1.1.1, h.1.1.2, h.1.2, h.2⟩
  | suspend i b =>
    intro ev he
    simp only [calmB, he] at h
    cases h
  | timeout => simp [calmB] at h
  | start l n => trivial
  | ret l r => trivial
  | finish l => trivial
  | collect => trivial

theorem freshB_fresh (st : St) (lb : Label) (h : freshB st lb = true) : Fresh st lb := by
  cases lb with
  | publish info n => simpa [freshB, Fresh] using h
  | _ => trivial

theorem reach0 {c : Cfg} {allow : St → Label → Prop} : Reach c allow st0 := Reach.init ⟨rfl, rfl, rfl, rfl, rfl, rfl, rfl⟩

theorem run {c : Cfg} {ok : St → Label → Bool} {allow : St → Label → Prop} (ha : ∀ st lb, ok st lb = true → allow st lb) (lbs : List Label) (f : St → Prop) [DecidablePred f]
    (h : (exec c ok lbs st0).any (fun st => decide (f st)) = true) : ∃ st, Reach c allow st ∧ f st := by
  cases he : exec c ok lbs st0 with
  | none => rw [he] at h; simp at h
  | some st => rw [he] at h; exact ⟨st, exec_reach ha reach0 he, by simpa using h⟩

/-- Subscriptions 0 and 1 of listener 0, subscription 2 of listener 1, all with the same priority. -/
def cfgA : Cfg := ⟨[0, 1, 2], fun l i => if i = 2 then l == 1 else l == 0, fun _ => 0, fun _ => false, fun _ => false, fun _ _ _ => true⟩
/-- Three listeners with a subscription each. -/
def cfgB : Cfg := ⟨[0, 1, 2], fun l i => l == i, fun _ => 0, fun _ => false, fun _ => false, fun _ _ _ => true⟩

theorem cfgA_ok : Ok cfgA := by
  refine ⟨by decide, ?_⟩
  intro i l l' h h'
  simp only [cfgA] at h h'
  split at h
  · rename_i e; rw [if_pos e] at h'; simp at h h'; rw [h, h']
  · rename_i e; rw [if_neg e] at h'; simp at h h'; rw [h, h']

theorem cfgB_ok : Ok cfgB := by
  refine ⟨by decide, ?_⟩
  intro i l l' h h'
  simp only [cfgB, beq_iff_eq] at h h'
  omega

/-- `at_most_once`, `released_when_processed`: a batch of two and another listener, all accept, the originator is released. -/
example : Ok cfgA ∧ ∃ st, Reach cfgA (Calm cfgA True) st ∧ (st.shm.ev = .success ∧ st.due = [0, 1, 2] ∧ st.log.length = 3 ∧ st.pubs.getLast? = some ⟨1, .change, 0⟩) :=
  ⟨cfgA_ok, run calmB_calm [.publish ⟨1, .change, 0⟩ 3, .start 0 0, .start 1 0, .ret 0 .ok, .ret 1 .ok, .ret 0 .ok, .finish 1, .finish 0] _ (by decide)⟩

/-- `pending_until_reported`, `never_stuck`: one subscription put the change off and is asked again. -/
example : (∀ i ∈ cfgA.all, ∃ l, cfgA.handles l i = true) ∧ ∃ st, Reach cfgA (Calm cfgA True) st ∧
    (st.shm.ev = .listen .change ∧ st.rep = [1] ∧ (callsFor st.log 0 1 .change).length = 0 ∧ st.log.length = 2) :=
  ⟨by intro i hi; simp only [cfgA, List.mem_cons, List.not_mem_nil, or_false] at hi; rcases hi with rfl | rfl | rfl
      · exact ⟨0, rfl⟩
      · exact ⟨0, rfl⟩
      · exact ⟨1, rfl⟩,
   run calmB_calm [.publish ⟨1, .change, 0⟩ 3, .start 0 0, .ret 0 .shelve, .ret 0 .ok, .finish 0] _ (by decide)⟩

/-- `error_when_refused`, `refusal_reported`, `abort_only_accepted_partial`, `own_abort_accepted_partial`: one refuses, the one that has accepted is
told to abort. -/
example : Ok cfgB ∧ (∀ l, (cfgB.all.filter (cfgB.handles l)).length ≤ 1) ∧
    (∃ st, Reach cfgB (Calm cfgB True) st ∧ (st.shm.ev = .listen .change ∧ (⟨1, 1, .change, false, .fail⟩ : Call) ∈ st.log)) ∧
    (∃ st, Reach cfgB (Calm cfgB True) st ∧ (st.shm.ev = .error)) ∧
    (∃ st, Reach cfgB Fresh st ∧ ((⟨0, 1, .abort, false, .ok⟩ : Call) ∈ st.log ∧ (⟨2, 1, .abort, true, .ok⟩ : Call) ∈ st.log)) := by
  refine ⟨cfgB_ok, ?_, run calmB_calm [.publish ⟨1, .change, 0⟩ 3, .start 0 0, .ret 0 .ok, .start 2 0, .finish 0, .start 1 0, .ret 1 .fail] _ (by decide),
    run calmB_calm [.publish ⟨1, .change, 0⟩ 3, .start 0 0, .ret 0 .ok, .start 2 0, .finish 0, .start 1 0, .ret 1 .fail, .finish 1] _ (by decide),
    run freshB_fresh [.publish ⟨1, .change, 0⟩ 3, .start 0 0, .ret 0 .ok, .start 2 0, .finish 0, .start 1 0, .ret 1 .fail, .finish 1, .collect,
      .publish ⟨1, .abort, 0⟩ 1, .ret 2 .ok, .start 0 0, .ret 0 .ok, .finish 0] _ (by decide)⟩
  intro l
  have : cfgB.all.filter (cfgB.handles l) = [0, 1, 2].filter (fun i => l == i) := rfl
  rw [this]
  by_cases h0 : l = 0
  · subst h0; decide
  · by_cases h1 : l = 1
    · subst h1; decide
    · by_cases h2 : l = 2
      · subst h2; decide
      · have e : [0, 1, 2].filter (fun i => l == i) = [] := by simp [h0, h1, h2]
        rw [e]; decide

/-! ## What does not hold -/

/-- A subscription in a batch accepts the change, another one of the same listener is just being called, one of another listener refuses: the number of
subscribers left is that of all of them, so that `subscriber_count - err_subscriber_count` (shm_sub.c 2058) is 0 and no abort event is published;
the listener has told only the second one to abort. -/
theorem batch_never_aborted : Ok cfgA ∧ ∃ st, Reach cfgA (Calm cfgA True) st ∧
    (st.shm.ev = .error ∧ st.due.length - st.shm.count = 0 ∧ (∀ l ∈ [0, 1], st.pc l = .idle) ∧
      (⟨0, 1, .change, false, .ok⟩ : Call) ∈ st.log ∧ ∀ x ∈ st.log, x.sub = 0 → x.ev ≠ .abort) :=
  ⟨cfgA_ok, run calmB_calm [.publish ⟨1, .change, 0⟩ 3, .start 0 0, .ret 0 .ok, .start 1 0, .ret 1 .fail, .finish 1, .ret 0 .ok] _ (by decide)⟩

/-- Subscription 0 accepts, subscription 1 accepts and reports, subscription 2 refuses. One subscriber is to abort. Subscription 0 is told to abort by
its listener, which is late to report, and once more by the event; that report ends the event and subscription 1 is never told to abort. -/
theorem aborted_twice_and_never : Ok cfgB ∧ ∃ st, Reach cfgB (Calm cfgB True) st ∧
    (st.shm.ev = .error ∧ st.due.length - st.shm.count = 1) ∧
    ∃ st', Reach cfgB Fresh st' ∧ (st'.shm.ev = .finished ∧ (∀ l ∈ [0, 1, 2], st'.pc l = .idle) ∧
      (st'.log.filter (fun x => x.sub = 0 ∧ x.ev = .abort)).length = 2 ∧
      (⟨1, 1, .change, false, .ok⟩ : Call) ∈ st'.log ∧ ∀ x ∈ st'.log, x.sub = 1 → x.ev ≠ .abort) := by
  obtain ⟨st, h1, h2⟩ := run (c := cfgB) (allow := Calm cfgB True) calmB_calm [.publish ⟨1, .change, 0⟩ 3, .start 0 0, .ret 0 .ok, .start 1 0, .ret 1 .ok, .finish 1, .start 2 0, .ret 2 .fail, .finish 2]
    (fun st => st.shm.ev = .error ∧ st.due.length - st.shm.count = 1) (by decide)
  exact ⟨cfgB_ok, st, h1, h2, run freshB_fresh [.publish ⟨1, .change, 0⟩ 3, .start 0 0, .ret 0 .ok, .start 1 0, .ret 1 .ok, .finish 1, .start 2 0, .ret 2 .fail, .finish 2,
    .collect, .publish ⟨1, .abort, 0⟩ 1, .finish 0, .start 0 0, .ret 0 .ok, .finish 0] _ (by decide)⟩

/-- Listener 0 has subscriptions 0 and 1 of different priorities. -/
def cfgC : Cfg := ⟨[0, 1, 2], fun l i => if i = 2 then l == 1 else l == 0, fun i => if i = 1 then 0 else 1, fun _ => false, fun _ => false, fun _ _ _ => true⟩

theorem cfgC_ok : Ok cfgC := ⟨cfgA_ok.nodup, cfgA_ok.one⟩

/-- The listener tells to abort the last subscription it looked at, not the last one called: it gets an abort of a change it has never seen. -/
theorem wrong_aborted : Ok cfgC ∧ ∃ st, Reach cfgC (Calm cfgC True) st ∧
    ((⟨1, 1, .abort, true, .ok⟩ : Call) ∈ st.log ∧ ∀ x ∈ st.log, x.sub = 1 → x.ev ≠ .change) :=
  ⟨cfgC_ok, run calmB_calm [.publish ⟨1, .change, 1⟩ 2, .start 0 0, .ret 0 .ok, .start 1 0, .ret 1 .fail, .finish 1, .finish 0] _ (by decide)⟩

/-- A subscription whose filter selects the reversed change only, as `/m:leaf[.='old']` does. -/
def cfgD : Cfg := ⟨[0], fun l i => l == i, fun _ => 0, fun _ => false, fun _ => false, fun _ _ ev => ev == .abort⟩

/-- A subscription whose XPath filter matches only the reversed change is called with the abort of a change it was never asked about. -/
theorem late_filter_aborts_unseen : Ok cfgD ∧ ∃ st, Reach cfgD (Calm cfgD True) st ∧ st.log = [⟨0, 1, .abort, false, .ok⟩] :=
  ⟨⟨by decide, cfgB_ok.one⟩, run calmB_calm [.publish ⟨1, .change, 0⟩ 1, .start 0 0, .ret 0 .ok, .finish 0, .collect, .publish ⟨1, .abort, 0⟩ 1, .start 0 0, .ret 0 .ok] _
    (by decide)⟩

/-- Two threads process the events of the same subscription (two calls of `sr_subscription_process_events`, sysrepo.c 5098–5208, which take the same
lock for reading only). -/
def cfgE : Cfg := ⟨[0], fun _ _ => true, fun _ => 0, fun _ => false, fun _ => false, fun _ _ _ => true⟩

/-- If two threads process the events of one subscription, its callback can be called twice with the same event. -/
theorem two_threads_call_twice : ∃ st, Reach cfgE (Calm cfgE True) st ∧ (callsFor st.log 0 1 .change).length = 2 :=
  run calmB_calm [.publish ⟨1, .change, 0⟩ 1, .start 0 0, .start 1 0, .ret 0 .ok, .ret 1 .ok] _ (by decide)

/-- A subscription suspended after it was counted: the event stays pending and no listener has anything to do. -/
theorem suspended_keeps_waiting : Ok cfgD ∧ ∃ st, Reach cfgD Fresh st ∧ st.shm.ev = .listen .change ∧
    ∀ l n r, step cfgD st (.start l n) = none ∧ step cfgD st (.ret l r) = none ∧ step cfgD st (.finish l) = none := by
  refine ⟨⟨by decide, cfgB_ok.one⟩, ?_⟩
  have hr : Reach cfgD Fresh { st0 with shm := ⟨.listen .change, 1, 0, 1⟩, pubs := [⟨1, .change, 0⟩], due := [0], susp := fun x => if x = 0 then true else false } :=
    exec_reach (ok := freshB) freshB_fresh reach0 (lbs := [.publish ⟨1, .change, 0⟩ 1, .suspend 0 true]) rfl
  refine ⟨_, hr, rfl, ?_⟩
  intro l n r
  refine ⟨?_, rfl, rfl⟩
  simp only [Listener.step, st0]
  cases hd : ((mine cfgD l).drop n).dropWhile _ with
  | nil => rfl
  | cons i rest =>
    obtain ⟨d1, d2⟩ := dropWhile_head hd
    have hi : i ∈ mine cfgD l := (d2.trans (List.drop_sublist n _)).subset (by simp)
    have := (mine_handles hi).1
    simp only [cfgD, List.mem_singleton] at this
    subst this
    simp [isNew, evValid] at d1

end Verif.Listener
