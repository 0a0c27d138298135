import Verif.NotifMod
/-!
Property C138: notification subscriptions can be modified. Specification (`wanted`, `view`) in `Verif/NotifMod.lean`.
-/
namespace Verif.NotifMod
open Verif.Time (Ts tsCmp)

theorem find_upd (id : Nat) (f : Sub → Sub) (hf : ∀ s, (f s).id = s.id) (i : Nat) : ∀ l : List Sub,
    find i (upd id f l) = if i = id then (find i l).map f else find i l := by
  intro l
  induction l with
  | nil => simp [upd, find]
  | cons s l ih =>
    simp only [upd]
    by_cases h : s.id = id <;> by_cases h2 : s.id = i <;> by_cases h3 : i = id <;> simp_all [find]

theorem find_append (i : Nat) (s : Sub) : ∀ (l : List Sub) (x : Sub), find i l = some x → find i (l ++ [s]) = some x := by
  intro l
  induction l with
  | nil => simp [find]
  | cons a l ih =>
    intro x h
    simp only [find, List.cons_append] at h ⊢
    split <;> simp_all

theorem find_map (i : Nat) (f : Sub → Sub) (hf : ∀ s, (f s).id = s.id) : ∀ l : List Sub,
    find i (l.map f) = (find i l).map f := by
  intro l
  induction l with
  | nil => simp [find]
  | cons a l ih =>
    simp only [find, List.map_cons, hf, ih]
    split <;> simp

theorem cmp_neg (a b : Ts) : tsCmp a b < 0 ↔ Earlier a b := by
  simp only [tsCmp, Earlier]
  repeat' split
  all_goals omega

theorem cmp_zero (a b : Ts) : tsCmp a b = 0 ↔ a = b := by
  obtain ⟨a1, a2⟩ := a
  obtain ⟨b1, b2⟩ := b
  simp only [tsCmp, Ts.mk.injEq]
  repeat' split
  all_goals omega

theorem time_some (b : Ts) (h : b ≠ ⟨0, 0⟩) : time b = some b := by simp [time, h]

theorem time_eq (b s : Ts) (h : b ≠ ⟨0, 0⟩) : some b = time s ↔ b = s := by
  simp only [time]
  split
  · rename_i h2; subst h2; simp [h]
  · simp

/-- One call that is fine. -/
theorem step_exact (V : Option Nat → Bool) (sel : Nat → Nat → Bool) (st : St) (id : Nat) (s : Sub) (hs : find id st.subs = some s)
    (c : Call) (hf : Fine id (view s) c) :
    ∃ s', find id (step V sel st c).1.subs = some s' ∧ view s' = (wanted V sel id (view s) c).1 := by
  cases c with
  | subscribe x start stop now =>
    simp only [step, wanted]
    split
    · exact ⟨s, hs, rfl⟩
    · split
      · exact ⟨s, hs, rfl⟩
      · exact ⟨s, find_append _ _ _ _ hs, rfl⟩
  | notif n =>
    refine ⟨if filterOk sel s.xpath n then { s with log := s.log ++ [.notif n] } else s, ?_, ?_⟩
    · simp only [step]
      rw [find_map, hs]
      · rfl
      · intro s; split <;> rfl
    · have he : filterOk sel s.xpath n = selected sel (view s).xpath n := by
        simp only [filterOk, selected, view]
        cases s.xpath <;> rfl
      rw [he]
      simp only [wanted]
      cases selected sel (view s).xpath n <;> simp [view]
  | modXpath i x f =>
    by_cases hi : i = id
    · subst hi
      have hf' : f.sess = false := hf rfl
      simp only [step, hs, wanted, ne_eq, not_true_eq_false, false_or]
      by_cases hx : x = s.xpath
      · simp only [hx, if_true, view]
        exact ⟨s, hs, rfl⟩
      · have hx' : ¬ x = (view s).xpath := hx
        rw [if_neg hx, if_neg hx']
        cases hv : V x with
        | false => simp only [Bool.not_false, if_true]; exact ⟨s, hs, rfl⟩
        | true =>
          simp only [Bool.not_true, Bool.false_eq_true, if_false, hf', reduceCtorEq]
          rw [find_upd, hs]
          · exact ⟨_, by simp; rfl, rfl⟩
          · intro s; rfl
    · refine ⟨s, ?_, by simp [wanted, hi]⟩
      have hi' : ¬ id = i := fun h => hi h.symm
      simp only [step]
      split
      · exact hs
      · repeat' split
        all_goals first
          | exact hs
          | (simp only; rw [find_upd, if_neg hi']; · exact hs
             · intro s; rfl)
  | modStop i t f =>
    by_cases hi : i = id
    · subst hi
      obtain ⟨hf1, hf2, hf3⟩ := hf rfl
      subst hf1
      simp only [step, hs, wanted, ne_eq, not_true_eq_false, if_false]
      cases t with
      | none =>
        have h2 := hf2 rfl
        have h3 : ¬ none = (view s).stop := fun h => h2 h.symm
        simp only [Bool.false_eq_true, if_false, tooEarly, if_neg h3, Option.getD_none]
        rw [find_upd, hs]
        · exact ⟨_, by simp; rfl, by simp [view, time]⟩
        · intro s; rfl
      | some b =>
        obtain ⟨h1, h2, h3⟩ := hf3 b rfl
        have hne : ¬ Earlier b ⟨0, 0⟩ := by
          obtain ⟨h4, h5⟩ := h1
          simp only [Earlier]; omega
        have hr : (isZero s.start && decide (tsCmp b s.start < 0)) = false := by
          by_cases hz : s.start = ⟨0, 0⟩
          · rw [hz]
            have : ¬ tsCmp b ⟨0, 0⟩ < 0 := fun h => hne ((cmp_neg _ _).mp h)
            simp [this]
          · have : isZero s.start = false := by
              rw [Bool.eq_false_iff]
              intro h
              simp only [isZero, Bool.and_eq_true, beq_iff_eq] at h
              exact hz (by cases hst : s.start; simp_all)
            simp [this]
        have he : tooEarly (some b) (view s).start = false := by
          simp only [tooEarly]
          split
          · rename_i b' a hb ha
            cases hb
            simpa using h3 a ha
          · rfl
        simp only [hr, he, Bool.false_eq_true, if_false]
        by_cases hq : b = s.stop
        · have : tsCmp b s.stop = 0 := (cmp_zero _ _).mpr hq
          have h4 : some b = (view s).stop := (time_eq _ _ h2).mpr hq
          rw [if_pos h4]
          simp only [this, beq_self_eq_true, if_true]
          exact ⟨s, hs, rfl⟩
        · have h4 : ¬ some b = (view s).stop := fun h => hq ((time_eq _ _ h2).mp h)
          have h5 : (tsCmp b s.stop == 0) = false := by
            rw [Bool.eq_false_iff]
            intro h
            exact hq ((cmp_zero _ _).mp (by simpa using h))
          rw [if_neg h4]
          simp only [h5, Bool.false_eq_true, if_false, Option.getD_some]
          rw [find_upd, hs]
          · exact ⟨_, by simp; rfl, by simp [view, time_some _ h2]⟩
          · intro s; rfl
    · refine ⟨s, ?_, by simp [wanted, hi]⟩
      have hi' : ¬ id = i := fun h => hi h.symm
      simp only [step]
      split
      · exact hs
      · repeat' split
        all_goals first
          | exact hs
          | (simp only; rw [find_upd, if_neg hi']; · exact hs
             · intro s; rfl)

/-- **C138 (partial: `Fine`, that is without failures, with stop times not before the start time, and removing a stop time only if there
is one).** For every subscription and every history of calls on it and on others, of subscribing and of notifications: its XPath and stop
time are those set last, the callback got exactly the notifications the XPath of the time selects, and was told of exactly the
modifications, in this order. -/
theorem calls_exact_partial (V : Option Nat → Bool) (sel : Nat → Nat → Bool) (id : Nat) : ∀ (cs : List Call) (st : St) (s : Sub),
    find id st.subs = some s → FineRun V sel id (view s) cs →
    ∃ s', find id (run V sel st cs).subs = some s' ∧ view s' = wantedRun V sel id (view s) cs := by
  intro cs
  induction cs with
  | nil => intro st s hs _; exact ⟨s, hs, rfl⟩
  | cons c cs ih =>
    intro st s hs hf
    obtain ⟨s1, h1, h2⟩ := step_exact V sel st id s hs c hf.1
    obtain ⟨s2, h3, h4⟩ := ih (step V sel st c).1 s1 h1 (by rw [h2]; exact hf.2)
    exact ⟨s2, h3, by rw [h4, h2]; rfl⟩

/-- C138. A call that is fine succeeds exactly if it is to: only a wrong XPath is refused. -/
theorem succeeds_exact_partial (V : Option Nat → Bool) (sel : Nat → Nat → Bool) (st : St) (id : Nat) (s : Sub)
    (hs : find id st.subs = some s) (x : Option Nat) (t : Option Ts) (hf : Fine id (view s) (.modStop id t ⟨false, false⟩)) :
    ((step V sel st (.modXpath id x ⟨false, false⟩)).2 = .ok ↔ (wanted V sel id (view s) (.modXpath id x ⟨false, false⟩)).2 = true) ∧
    (step V sel st (.modStop id t ⟨false, false⟩)).2 = .ok := by
  constructor
  · simp only [step, hs, wanted, view]
    by_cases hx : x = s.xpath <;> cases hv : V x <;> simp [hx]
  · obtain ⟨_, _, hf3⟩ := hf rfl
    simp only [step, hs]
    cases t with
    | none => simp
    | some b =>
      obtain ⟨h1, _, _⟩ := hf3 b rfl
      have hr : (isZero s.start && decide (tsCmp b s.start < 0)) = false := by
        rw [Bool.eq_false_iff]
        intro h
        simp only [isZero, Bool.and_eq_true, beq_iff_eq, decide_eq_true_eq, cmp_neg, Earlier] at h
        obtain ⟨h4, h5⟩ := h1
        omega
      simp only [hr, Bool.false_eq_true, if_false]
      split <;> rfl

/-- C138. Without failures a call that returns an error changes nothing at all. -/
theorem error_changes_nothing_partial (V : Option Nat → Bool) (sel : Nat → Nat → Bool) (st : St) (id : Nat) (x : Option Nat)
    (t : Option Ts) :
    ((step V sel st (.modXpath id x ⟨false, false⟩)).2 ≠ .ok → (step V sel st (.modXpath id x ⟨false, false⟩)).1 = st) ∧
    ((step V sel st (.modStop id t ⟨false, false⟩)).2 ≠ .ok → (step V sel st (.modStop id t ⟨false, false⟩)).1 = st) := by
  constructor <;> simp only [step] <;> repeat' split
  all_goals simp_all

/-- C138 is false with failures: if the event session cannot be started, the call returns an error but the XPath is changed; the callback
is not told, and neither by repeating the call, which then succeeds without doing anything. -/
theorem error_but_modified (V : Option Nat → Bool) (sel : Nat → Nat → Bool) (st : St) (id : Nat) (s : Sub)
    (hs : find id st.subs = some s) (x : Option Nat) (hx : x ≠ s.xpath) (hv : V x = true) (p q : Bool) :
    (step V sel st (.modXpath id x ⟨true, p⟩)).2 = .internal ∧
    find id (step V sel st (.modXpath id x ⟨true, p⟩)).1.subs = some { s with xpath := x } ∧
    step V sel (step V sel st (.modXpath id x ⟨true, p⟩)).1 (.modXpath id x ⟨false, q⟩) =
      ((step V sel st (.modXpath id x ⟨true, p⟩)).1, .ok) := by
  have h1 : step V sel st (.modXpath id x ⟨true, p⟩) =
      ({ st with subs := upd id (fun s => { s with xpath := x }) st.subs }, .internal) := by
    simp [step, hs, hx, hv]
  have h2 : find id (upd id (fun s => { s with xpath := x }) st.subs) = some { s with xpath := x } := by
    rw [find_upd, hs]
    · simp
    · intro s; rfl
  refine ⟨by rw [h1], by rw [h1]; exact h2, ?_⟩
  rw [h1]
  simp [step, h2]

/-- C138 is false for stop times before the start time: they are not refused, although subscribing with them is; the subscription has a
start time after its stop time then. The condition of the check is inverted, so that it compares only with start times that are not set. -/
theorem early_stop_accepted (V : Option Nat → Bool) (sel : Nat → Nat → Bool) (st : St) (id : Nat) (s : Sub)
    (hs : find id st.subs = some s) (h0 : s.start ≠ ⟨0, 0⟩) (b : Ts) (hb : Earlier b s.start) (hd : b ≠ s.stop) :
    (step V sel st (.modStop id (some b) ⟨false, false⟩)).2 = .ok ∧
    ∃ s', find id (step V sel st (.modStop id (some b) ⟨false, false⟩)).1.subs = some s' ∧ s'.start = s.start ∧ s'.stop = b := by
  have hz : isZero s.start = false := by
    rw [Bool.eq_false_iff]
    intro h
    simp only [isZero, Bool.and_eq_true, beq_iff_eq] at h
    exact h0 (by cases hst : s.start; simp_all)
  have h5 : (tsCmp b s.stop == 0) = false := by
    rw [Bool.eq_false_iff]
    intro h
    exact hd ((cmp_zero _ _).mp (by simpa using h))
  simp only [step, hs, hz, h5, Bool.false_and, Bool.false_eq_true, if_false, Option.getD_some, true_and]
  rw [find_upd, hs]
  · exact ⟨{ s with stop := b, log := s.log ++ [.modified] }, by simp, rfl, rfl⟩
  · intro s; rfl

/-- C138 is false for removing a stop time that is not there: the callback is told of a modification although nothing changed, each
time. -/
theorem told_unchanged (V : Option Nat → Bool) (sel : Nat → Nat → Bool) (st : St) (id : Nat) (s : Sub)
    (hs : find id st.subs = some s) (h0 : s.stop = ⟨0, 0⟩) :
    find id (step V sel st (.modStop id none ⟨false, false⟩)).1.subs = some { s with log := s.log ++ [.modified] } := by
  simp only [step, hs, Bool.false_eq_true, if_false, Option.getD_none]
  rw [find_upd, hs]
  · simp [← h0]
  · intro s; rfl

/-- C138. Subscribing refuses exactly a start time in the future, and a stop time before the start time or, without one, in the past; a
new subscription has the XPath and the times it was asked for and has got nothing. -/
theorem subscribe_exact (V : Option Nat → Bool) (sel : Nat → Nat → Bool) (st : St) (x : Option Nat) (start stop : Option Ts) (now : Ts)
    (hu : ∀ s ∈ st.subs, s.id < st.next) :
    ((step V sel st (.subscribe x start stop now)).2 = .inval ↔
      (∃ a, start = some a ∧ Earlier now a) ∨ (∃ a b, start = some a ∧ stop = some b ∧ Earlier b a) ∨
      (∃ b, start = none ∧ stop = some b ∧ Earlier b now)) ∧
    ((step V sel st (.subscribe x start stop now)).2 = .ok →
      find st.next (step V sel st (.subscribe x start stop now)).1.subs =
        some ⟨st.next, x, start.getD ⟨0, 0⟩, stop.getD ⟨0, 0⟩, []⟩) := by
  have hpos : ∀ a b : Ts, tsCmp a b > 0 ↔ Earlier b a := by
    intro a b
    simp only [tsCmp, Earlier]
    repeat' split
    all_goals omega
  have hbad : badTimes start stop now = true ↔ (∃ a, start = some a ∧ Earlier now a) ∨
      (∃ a b, start = some a ∧ stop = some b ∧ Earlier b a) ∨ (∃ b, start = none ∧ stop = some b ∧ Earlier b now) := by
    cases start <;> cases stop <;> simp [badTimes, cmp_neg, hpos]
    all_goals (simp only [gt_iff_lt] at hpos; simp [hpos])
  rw [← hbad]
  constructor
  · simp only [step]
    cases badTimes start stop now <;> cases V x <;> simp
  · simp only [step]
    split
    · simp
    · split
      · simp
      · intro _
        have : ∀ (l : List Sub) (s : Sub), (∀ y ∈ l, y.id < s.id) → find s.id (l ++ [s]) = some s := by
          intro l s
          induction l with
          | nil => intro _; simp [find]
          | cons a l ih =>
            intro h
            have h1 := h a (by simp)
            simp only [find, List.cons_append]
            rw [if_neg (by omega)]
            exact ih fun y hy => h y (by simp [hy])
        exact this st.subs ⟨st.next, x, start.getD ⟨0, 0⟩, stop.getD ⟨0, 0⟩, []⟩ hu

/-- IDs of subscriptions are below the next one, always. -/
theorem ids_below (V : Option Nat → Bool) (sel : Nat → Nat → Bool) : ∀ (cs : List Call) (st : St), (∀ s ∈ st.subs, s.id < st.next) →
    ∀ s ∈ (run V sel st cs).subs, s.id < (run V sel st cs).next := by
  have hu : ∀ (id : Nat) (f : Sub → Sub), (∀ s, (f s).id = s.id) → ∀ (l : List Sub) (s : Sub), s ∈ upd id f l → ∃ y ∈ l, s.id = y.id := by
    intro id f hf l
    induction l with
    | nil => simp [upd]
    | cons a l ih =>
      intro s h
      simp only [upd] at h
      split at h
      · simp only [List.mem_cons] at h
        rcases h with rfl | h
        · exact ⟨a, by simp, hf a⟩
        · exact ⟨s, by simp [h], rfl⟩
      · simp only [List.mem_cons] at h
        rcases h with rfl | h
        · exact ⟨s, by simp, rfl⟩
        · obtain ⟨y, h1, h2⟩ := ih s h
          exact ⟨y, by simp [h1], h2⟩
  intro cs
  induction cs with
  | nil => intro st h; exact h
  | cons c cs ih =>
    intro st h
    refine ih _ ?_
    cases c with
    | subscribe x start stop now =>
      simp only [step]
      repeat' split
      · exact h
      · exact h
      · intro s hs
        simp only [List.mem_append, List.mem_singleton] at hs
        rcases hs with hs | rfl
        · have := h s hs; simp only; omega
        · simp
    | notif n =>
      simp only [step]
      intro s hs
      simp only [List.mem_map] at hs
      obtain ⟨y, h1, rfl⟩ := hs
      have := h y h1
      split <;> exact this
    | modXpath i x f =>
      simp only [step]
      repeat' split
      all_goals first
        | exact h
        | (intro s hs
           obtain ⟨y, h1, h2⟩ := hu _ _ (by intro s; rfl) _ s hs
           rw [h2]; exact h y h1)
    | modStop i x f =>
      simp only [step]
      repeat' split
      all_goals first
        | exact h
        | (intro s hs
           obtain ⟨y, h1, h2⟩ := hu _ _ (by intro s; rfl) _ s hs
           rw [h2]; exact h y h1)

/-- A history: two subscriptions, the XPath and the stop time of the second are changed between notifications. -/
def exCalls : List Call := [.subscribe none none none ⟨50, 0⟩, .subscribe (some 1) (some ⟨10, 0⟩) (some ⟨90, 0⟩) ⟨50, 0⟩, .notif 5,
  .modXpath 2 (some 7) Fail.none, .notif 7, .notif 5, .modXpath 2 (some 99) Fail.none, .modStop 2 (some ⟨60, 0⟩) Fail.none,
  .modStop 2 (some ⟨60, 0⟩) Fail.none, .modStop 2 none Fail.none, .notif 7]

example : (run (fun x => x != some 99) (fun x n => x == n) ⟨[], 1⟩ exCalls).subs =
    [⟨1, none, ⟨0, 0⟩, ⟨0, 0⟩, [.notif 5, .notif 7, .notif 5, .notif 7]⟩,
     ⟨2, some 7, ⟨10, 0⟩, ⟨0, 0⟩, [.modified, .notif 7, .modified, .modified, .notif 7]⟩] := by decide

/-- The calls of it are fine for the second subscription. -/
example : FineRun (fun x => x != some 99) (fun x n => x == n) 2 ⟨some 1, some ⟨10, 0⟩, some ⟨90, 0⟩, []⟩ (exCalls.drop 2) := by
  simp [FineRun, Fine, exCalls, wanted, selected, tooEarly, Fail.none, Earlier, Normal]

/-- A stop time before the start time. -/
example : let st := (run (fun _ => true) (fun x n => x == n) ⟨[], 1⟩ [.subscribe (some 1) (some ⟨10, 0⟩) none ⟨50, 0⟩])
    find 1 (step (fun _ => true) (fun x n => x == n) st (.modStop 1 (some ⟨5, 0⟩) Fail.none)).1.subs =
      some ⟨1, some 1, ⟨10, 0⟩, ⟨5, 0⟩, [.modified]⟩ ∧
    (step (fun _ => true) (fun x n => x == n) st (.subscribe (some 1) (some ⟨10, 0⟩) (some ⟨5, 0⟩) ⟨50, 0⟩)).2 = .inval := by decide

/-- **C138, unknown IDs.** Modifying a subscription that is not there is refused and changes nothing. -/
theorem unknown_refused (V : Option Nat → Bool) (sel : Nat → Nat → Bool) (st : St) (id : Nat) (x : Option Nat) (t : Option Ts) (f : Fail)
    (h : ∀ s ∈ st.subs, s.id ≠ id) :
    step V sel st (.modXpath id x f) = (st, .notFound) ∧ step V sel st (.modStop id t f) = (st, .notFound) := by
  have hn : find id st.subs = none := by
    generalize st.subs = l at h
    induction l with
    | nil => rfl
    | cons a l ih =>
      have h1 := h a (by simp)
      simp only [find, if_neg h1]
      exact ih (fun s hs => h s (List.mem_cons_of_mem _ hs))
  simp [step, hn]

example : ∀ s ∈ (run (fun _ => true) (fun _ _ => true) ⟨[], 1⟩ [.subscribe none none none ⟨5, 0⟩, .subscribe (some 3) none none ⟨5, 0⟩]).subs,
    s.id ≠ 7 := by decide

end Verif.NotifMod
