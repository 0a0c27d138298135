import Verif.SubCtxLemmas4

/-! Properties of one subscription structure used by several threads. `A` says which steps a schedule may
have; a theorem for every `A` holds for every schedule. -/

namespace Verif.SubCtx

/-- Any schedule. -/
def Any (_ : State) (_ : Tid) (_ : Lab) : Prop := True

theorem exec_reach {A : State → Tid → Lab → Prop} (hA : ∀ s t l, A s t l) {s s' : State} (h : Reach A s)
    (r : List (Tid × Lab)) (he : exec s r = some s') : Reach A s' := by
  induction r generalizing s with
  | nil => cases he; exact h
  | cons a r ih =>
    obtain ⟨t, l⟩ := a
    simp only [exec] at he
    split at he
    · rename_i hs; exact ih (.next h (hA _ _ _) hs) he
    · cases he

/-- The state after a schedule that can be run. -/
def run (r : List (Tid × Lab)) : State := (exec init r).getD init

theorem run_reach (r : List (Tid × Lab)) (h : (exec init r).isSome = true) : Reach Any (run r) := by
  obtain ⟨s, hs⟩ := Option.isSome_iff_exists.1 h
  unfold run
  rw [hs]
  exact exec_reach (fun _ _ _ => trivial) .init r hs

instance (s : State) (id : Nat) : Decidable (Present s id) :=
  decidable_of_iff (kinds.any (fun k => (subsOf (s.arr k)).any fun x => x.id == id) = true) (by
    simp only [List.any_eq_true, beq_iff_eq, Present]
    constructor
    · rintro ⟨k, _, x, hx, hid⟩; exact ⟨k, x, hx, hid⟩
    · rintro ⟨k, x, hx, hid⟩; exact ⟨k, mem_kinds k, x, hx, hid⟩)

/-! Removing only what was asked for. -/

/-- A subscription disappears only when a thread removes it for a call that names it: its ID, its session
(also when everything is removed), or because it is a notification subscription whose stop time passed. -/
theorem removed_only_asked {A : State → Tid → Lab → Prop} {s s' : State} {t : Tid} {l : Lab}
    (h : Reach A s) (hs : step s t l = some s') {k : Kind} {x : Sub} (hx : x ∈ subsOf (s.arr k))
    (hg : x ∉ subsOf (s'.arr k)) :
    (∃ loc, s.pc t = .del (.one x.id) loc) ∨ (∃ r o loc, s.pc t = .del (.sess x.sess r o) loc) ∨
    (k = .notif ∧ ∃ i g b loc, s.pc t = .del (.stop i g b) loc) := by
  have hi := reach_inv h
  rcases (step_shape hi hs).arr with ⟨ha, _⟩ | ⟨job, loc, hp, _, hin, rfl⟩ | ⟨k', n, y, rfl⟩
  · rw [ha] at hg; exact absurd hx hg
  · obtain ⟨hm, _, hiff, _⟩ := removed_spec hi hp hin
    have he : x = loc.x := Classical.byContradiction fun hne => hg ((hiff k x).2 ⟨hx, hne⟩)
    obtain ⟨hf, _, hu⟩ := hi.fits t job loc (by rw [hp]; rfl)
    obtain ⟨hk, _⟩ := hu k x hx (by rw [he])
    subst he
    cases job with
    | one id => have hf : loc.x.id = id := hf; subst hf; exact Or.inl ⟨loc, hp⟩
    | sess y r o => have hf : loc.x.sess = y := hf; subst hf; exact Or.inr (Or.inl ⟨r, o, loc, hp⟩)
    | all r => exact absurd hf (by simp [Fits])
    | stop i g b => exact Or.inr (Or.inr ⟨by rw [hk]; exact hf.1, i, g, b, loc, hp⟩)
  · exact absurd ((subscribe_mem hs k x).2 (Or.inr hx)) hg

/-- Two subscriptions of a group, and the first removed by its ID. -/
def exTwo : List (Tid × Lab) :=
  [(0, .subscribe .change 1 1), (0, .subscribe .change 1 2), (1, .call (.one 1)), (1, .lockR), (1, .look),
   (1, .lockW)]

example : ∃ s', Reach Any (run exTwo) ∧ step (run exTwo) 1 (.del true) = some s' ∧
    (⟨1, 1⟩ : Sub) ∈ subsOf ((run exTwo).arr .change) ∧ (⟨1, 1⟩ : Sub) ∉ subsOf (s'.arr .change) ∧
    (⟨2, 2⟩ : Sub) ∈ subsOf (s'.arr .change) :=
  ⟨_, run_reach _ (by decide +kernel), rfl, by decide +kernel, by decide +kernel, by decide +kernel⟩

/-- At most one subscription disappears in a step. -/
theorem removed_one {A : State → Tid → Lab → Prop} {s s' : State} {t : Tid} {l : Lab}
    (h : Reach A s) (hs : step s t l = some s') {k k' : Kind} {x y : Sub} (hx : x ∈ subsOf (s.arr k))
    (hy : y ∈ subsOf (s.arr k')) (hne : y ≠ x) (hg : x ∉ subsOf (s'.arr k)) : y ∈ subsOf (s'.arr k') := by
  have hi := reach_inv h
  rcases (step_shape hi hs).arr with ⟨ha, _⟩ | ⟨job, loc, hp, _, hin, rfl⟩ | ⟨k2, n, z, rfl⟩
  · rw [ha]; exact hy
  · obtain ⟨hm, _, hiff, _⟩ := removed_spec hi hp hin
    have he : x = loc.x := Classical.byContradiction fun hn => hg ((hiff k x).2 ⟨hx, hn⟩)
    exact (hiff k' y).2 ⟨hy, he ▸ hne⟩
  · exact (subscribe_mem hs k' y).2 (Or.inr hy)

/-- No two subscriptions have the same ID, and an ID is never given out again. -/
theorem ids_unique {A : State → Tid → Lab → Prop} {s : State} (h : Reach A s) {k k' : Kind} {x y : Sub}
    (hx : x ∈ subsOf (s.arr k)) (hy : y ∈ subsOf (s.arr k')) (hid : x.id = y.id) : k = k' ∧ x = y :=
  (reach_inv h).uniq k k' x y hx hy hid

/-- Runs from a state. -/
inductive From (A : State → Tid → Lab → Prop) (s : State) : State → Prop where
  | refl : From A s s
  | next {s1 s2 t l} : From A s s1 → A s1 t l → step s1 t l = some s2 → From A s s2

theorem From.reach {A : State → Tid → Lab → Prop} {s s' : State} (h : Reach A s) (hf : From A s s') :
    Reach A s' := by
  induction hf with
  | refl => exact h
  | next _ ha hs ih => exact .next ih ha hs

/-- A subscription that is gone stays gone: its ID is not used for another one. -/
theorem gone_forever {A : State → Tid → Lab → Prop} {s s1 s2 : State} (h : Reach A s) (hf : From A s s1)
    (hf2 : From A s1 s2) {id : Nat} (hp : Present s id) (hg : ¬ Present s1 id) : ¬ Present s2 id := by
  have hlt : id < s1.next := by
    obtain ⟨k, x, hx, rfl⟩ := hp
    have h0 := (reach_inv h).lt k x hx
    clear hg hf2
    induction hf with
    | refl => exact h0
    | @next s1 s2 t l hf1 ha hs ih =>
      rcases (step_shape (reach_inv (hf1.reach h)) hs).arr with ⟨_, _, hn⟩ | ⟨job, loc, hp, _, hin, rfl⟩ | ⟨k', n, y, rfl⟩
      · rw [hn]; exact ih
      · rw [(removed_spec (reach_inv (hf1.reach h)) hp hin).2.2.2.1]; exact ih
      · obtain ⟨_, _, _, hn, _⟩ := subscribe_eq hs
        rw [hn]; exact Nat.lt_succ_of_lt ih
  have key : id < s2.next ∧ ¬ Present s2 id := by
    induction hf2 with
    | refl => exact ⟨hlt, hg⟩
    | next hf1 _ hs ih => exact gone_step (reach_inv (hf1.reach (hf.reach h))) hs ih.1 ih.2
  exact key.2

/-! Callbacks. -/

/-- A callback runs only while its subscription exists. -/
theorem callback_subscribed {A : State → Tid → Lab → Prop} {s : State} (h : Reach A s) {t : Tid} {id : Nat}
    (hc : s.pc t = .cb id) : Present s id :=
  (reach_inv h).cb t id hc

/-- While a callback runs, nobody changes the subscriptions. -/
theorem callback_blocks {A : State → Tid → Lab → Prop} {s s' : State} {t u : Tid} {l : Lab} {id : Nat}
    (h : Reach A s) (hc : s.pc u = .cb id) (hs : step s t l = some s') : s'.arr = s.arr := by
  have hi := reach_inv h
  have hrd : u ∈ s.rd := (hi.rd u).2 (by rw [hc]; rfl)
  rcases (step_shape hi hs).arr with ⟨ha, _⟩ | ⟨job, loc, hp, _⟩ | ⟨k, n, y, rfl⟩
  · exact ha
  · have hwr : s.wr = some t := (hi.wr t).2 (by rw [hp]; rfl)
    rw [hi.excl (by rw [hwr]; rfl)] at hrd
    cases hrd
  · obtain ⟨_, _, hr, _⟩ := subscribe_eq hs
    rw [hr] at hrd
    cases hrd

/-- A callback while another thread waits to remove the subscription. -/
def exCall : List (Tid × Lab) :=
  [(0, .subscribe .change 1 1), (1, .call (.one 1)), (1, .lockR), (1, .look), (2, .process), (2, .lockR),
   (2, .begin .change 0 0)]

example : Reach Any (run exCall) ∧ (run exCall).pc 2 = .cb 1 ∧ step (run exCall) 1 .lockW = none :=
  ⟨run_reach _ (by decide +kernel), by decide +kernel, by decide +kernel⟩

/-! The last special notification. -/

/-- A notification subscription that disappears gets the last special notification. -/
theorem last_notification_sent {A : State → Tid → Lab → Prop} {s s' : State} {t : Tid} {l : Lab}
    (h : Reach A s) (hs : step s t l = some s') {x : Sub} (hx : x ∈ subsOf (s.arr .notif))
    (hg : x ∉ subsOf (s'.arr .notif)) : s'.log = .ended x.id :: s.log := by
  have hi := reach_inv h
  rcases (step_shape hi hs).arr with ⟨ha, _⟩ | ⟨job, loc, hp, _, hin, rfl⟩ | ⟨k2, n, z, rfl⟩
  · rw [ha] at hg; exact absurd hx hg
  · obtain ⟨hm, _, hiff, _⟩ := removed_spec hi hp hin
    have he : x = loc.x := Classical.byContradiction fun hn => hg ((hiff .notif x).2 ⟨hx, hn⟩)
    obtain ⟨_, _, hu⟩ := hi.fits t job loc (by rw [hp]; rfl)
    obtain ⟨hk, _⟩ := hu .notif x hx (by rw [he])
    obtain ⟨_, _, _, _, _, _, _, _, hlog⟩ := remove_spec hi hin hu
    show (remove s loc).log = _
    rw [hlog, if_pos hk.symm, he]
  · exact absurd ((subscribe_mem hs .notif x).2 (Or.inr hx)) hg

/-- It is sent at most once, only when the subscription is gone and while none of its callbacks runs, and
the callback is not called for an event after it. -/
theorem last_notification_last {A : State → Tid → Lab → Prop} {s : State} (h : Reach A s) {id : Nat}
    {l1 l2 : List Ev} (hl : s.log = l1 ++ .ended id :: l2) :
    .ended id ∉ l1 ++ l2 ∧ .called id ∉ l1 ∧ ¬ Present s id ∧ ∀ t, s.pc t ≠ .cb id := by
  have hi := reach_inv h
  have hg := (hi.ended id (by rw [hl]; simp)).2
  refine ⟨?_, reach_order h id l1 l2 hl, hg, fun t ht => hg (hi.cb t id ht)⟩
  have ho := hi.once
  rw [hl, List.filter_append, List.filter_cons] at ho
  simp only [if_true] at ho
  have ho := List.nodup_append.1 ho
  intro hm
  rcases List.mem_append.1 hm with hm | hm
  · exact ho.2.2 _ (List.mem_filter.2 ⟨hm, rfl⟩) _ (List.mem_cons_self ..) rfl
  · exact (List.nodup_cons.1 ho.2.1).1 (List.mem_filter.2 ⟨hm, rfl⟩)

/-- A notification, then the stop time of the subscription. -/
def exStop : List (Tid × Lab) :=
  [(0, .subscribe .notif 1 1), (0, .subscribe .notif 1 1), (1, .process), (1, .lockR), (1, .begin .notif 0 0),
   (1, .finish), (1, .stop 0 0), (1, .lockW), (1, .del true), (1, .done), (1, .begin .notif 0 0)]

example : Reach Any (run exStop) ∧ (run exStop).log = [.called 2] ++ .ended 1 :: [.called 1] ∧
    (run exStop).pc 1 = .cb 2 ∧ (run exStop).ub = false :=
  ⟨run_reach _ (by decide +kernel), by decide +kernel, by decide +kernel, by decide +kernel⟩

/-! Unsubscribing one subscription. -/

/-- "Not found" is answered only when there is no such subscription. -/
theorem not_found_right {A : State → Tid → Lab → Prop} {s s' : State} {t : Tid} {l : Lab} {id : Nat}
    (h : Reach A s) (hs : step s t l = some s') (hl : s'.log = .ret (.one id) .notFound :: s.log) :
    ¬ Present s' id := by
  rcases (step_shape (reach_inv h) hs).log with h1 | ⟨job, r, h1, h2, h3, _⟩ | ⟨id', h1, _⟩ | ⟨id', h1, _⟩
  · rw [h1] at hl
    have := congrArg List.length hl
    simp at this
  · rw [h1] at hl
    simp only [List.cons.injEq, Ev.ret.injEq, and_true] at hl
    obtain ⟨rfl, rfl⟩ := hl
    obtain ⟨_, id', he, hg⟩ := h2
    cases he
    unfold Present
    rw [h3]
    exact hg
  · rw [h1] at hl; simp at hl
  · rw [h1] at hl; simp at hl

example : ∃ s', step (run (exTwo ++ [(1, .del true), (1, .done), (1, .call (.one 1)), (1, .lockR)])) 1 .look = some s' ∧
    s'.log = .ret (.one 1) .notFound ::
      (run (exTwo ++ [(1, .del true), (1, .done), (1, .call (.one 1)), (1, .lockR)])).log :=
  ⟨_, rfl, by decide +kernel⟩

/-- When removals do not overlap: after sr_unsubscribe_sub returned success, the subscription does not
exist, none of its callbacks runs and none was called since. -/
theorem unsubscribed_partial {s : State} (h : Reach Alone s) {id : Nat} {l1 l2 : List Ev}
    (hl : s.log = l1 ++ .ret (.one id) .ok :: l2) :
    ¬ Present s id ∧ (∀ t, s.pc t ≠ .cb id) ∧ .called id ∉ l1 := by
  have ha := reach_al (fun _ _ _ h => h) h
  have hg := (ha.ret id (by rw [hl]; simp)).2
  refine ⟨hg, fun t ht => hg ((reach_inv h).cb t id ht), ?_⟩
  clear ha hg
  induction h generalizing l1 with
  | init => simp [init] at hl
  | @next s s' t l hr _ hs ih =>
    have ha := reach_al (fun _ _ _ h => h) hr
    have key : ∀ e, s'.log = e :: s.log → e ≠ .called id ∨ ¬ (.ret (.one id) .ok ∈ s.log) → .called id ∉ l1 := by
      intro e he hne
      rw [he] at hl
      cases l1 with
      | nil => simp
      | cons a l1 =>
        simp only [List.cons_append, List.cons.injEq] at hl
        obtain ⟨rfl, hl⟩ := hl
        simp only [List.mem_cons, not_or]
        refine ⟨?_, ih hl⟩
        rcases hne with hne | hne
        · exact Ne.symm hne
        · exact absurd (by rw [hl]; simp) hne
    rcases (step_shape (reach_inv hr) hs).log with h1 | ⟨job, r, h1, _⟩ | ⟨id', h1, h2, _⟩ | ⟨id', h1, _⟩
    · rw [h1] at hl; exact ih hl
    · exact key _ h1 (Or.inl (by simp))
    · refine key _ h1 ?_
      by_cases hi : id' = id
      · subst hi
        exact Or.inr fun hm => (ha.ret _ hm).2 h2
      · exact Or.inl (by simpa using hi)
    · exact key _ h1 (Or.inl (by simp))

/-- A schedule of one removing thread is `Alone`. -/
theorem alone_of {s : State} {t : Tid} {l : Lab} (h : ∀ u, ¬ Removing (s.pc u) ∨ u = t) : Alone s t l := by
  intro s' _ h1 _ u hu
  rcases h u with h2 | rfl
  · exact h2 hu
  · exact h1 hu

/-- Only thread 1 removes. -/
def OnlyOne (s : State) (t : Tid) (l : Lab) : Prop :=
  t = 1 ∨ ((∀ job, l ≠ .call job) ∧ (∀ i j, l ≠ .stop i j) ∧ ∀ s', step s t l = some s' → ¬ Removing (s'.pc t))

theorem reach_mono {A B : State → Tid → Lab → Prop} {s : State} (h : Reach A s)
    (hA : ∀ s t l, Reach A s → A s t l → B s t l) : Reach B s := by
  induction h with
  | init => exact .init
  | next hr ha hs ih => exact .next ih (hA _ _ _ hr ha) hs

theorem onlyOne_alone {s : State} (h : Reach OnlyOne s) : Reach Alone s := by
  have key : ∀ s, Reach OnlyOne s → ∀ u, Removing (s.pc u) → u = 1 := by
    intro s hr
    induction hr with
    | init => rintro u ⟨job, loc, h | h⟩ <;> cases h
    | @next s s' t l hr ha hs ih =>
      intro u hu
      by_cases e : u = t
      · subst e
        rcases ha with rfl | ⟨_, _, h3⟩
        · rfl
        · exact absurd hu (h3 s' hs)
      · rw [(step_shape (reach_inv hr) hs).others u e] at hu
        exact ih u hu
  refine reach_mono h fun s t l hr ha => ?_
  rcases ha with rfl | ⟨_, _, h3⟩
  · refine alone_of fun u => ?_
    by_cases hu : Removing (s.pc u)
    · exact Or.inr (key s hr u hu)
    · exact Or.inl hu
  · intro s' hs _ hr2
    exact absurd hr2 (h3 s' hs)

/-- A step by which thread 0 or 2 neither removes nor searches. -/
def quiet : Lab → Bool
  | .subscribe _ _ _ | .process | .lockR | .begin _ _ _ | .finish | .leave => true
  | _ => false

theorem quiet_fine {s : State} {t : Tid} {l : Lab} (h : quiet l = true) : OnlyOne s t l := by
  refine Or.inr ⟨?_, ?_, ?_⟩
  · rintro job rfl; cases h
  · rintro i j rfl; cases h
  · intro s' hs
    cases l <;> simp only [quiet, Bool.false_eq_true] at h
    case subscribe k n x =>
      obtain ⟨hp, _, _, _, hpc, _⟩ := subscribe_eq hs
      rw [hpc, hp]
      rintro ⟨job, loc, hx | hx⟩ <;> cases hx
    all_goals simp only [step] at hs
    all_goals repeat' split at hs
    all_goals first | cases hs; done | skip
    all_goals (cases hs; rintro ⟨job, loc, hx | hx⟩ <;> simp [State.go, State.say] at hx)

theorem exec_onlyOne {s s' : State} (h : Reach OnlyOne s) (r : List (Tid × Lab))
    (hr : ∀ p ∈ r, p.1 = 1 ∨ quiet p.2 = true) (he : exec s r = some s') : Reach OnlyOne s' := by
  induction r generalizing s with
  | nil => cases he; exact h
  | cons a r ih =>
    obtain ⟨t, l⟩ := a
    simp only [exec] at he
    split at he
    · rename_i hs
      refine ih (.next h ?_ hs) (fun p hp => hr p (List.mem_cons_of_mem _ hp)) he
      rcases hr (t, l) (List.mem_cons_self ..) with h1 | h1
      · exact Or.inl h1
      · exact quiet_fine h1
    · cases he

/-- Thread 1 unsubscribes while thread 2 handles events. -/
def exUnsub : List (Tid × Lab) :=
  [(0, .subscribe .change 1 1), (0, .subscribe .change 1 1), (2, .process), (2, .lockR), (2, .begin .change 0 1),
   (1, .call (.one 2)), (1, .lockR), (1, .look), (2, .finish), (2, .leave), (0, .subscribe .change 1 1), (1, .lockW),
   (1, .del true), (1, .done), (2, .process), (2, .lockR), (2, .begin .change 0 1)]

example : Reach Alone (run exUnsub) ∧
    (run exUnsub).log = [.called 3] ++ .ret (.one 2) .ok :: [.called 2] ∧ Present (run exUnsub) 1 := by
  refine ⟨onlyOne_alone (exec_onlyOne .init exUnsub (by decide) ?_), by decide +kernel, by decide +kernel⟩
  unfold run
  cases h : exec init exUnsub with
  | none =>
    have : (exec init exUnsub).isSome = true := by decide +kernel
    rw [h] at this; cases this
  | some s => rfl

/-- Two overlapping removals of subscriptions of one module, and an event. -/
def badUnsub : List (Tid × Lab) :=
  [(0, .subscribe .change 1 1), (0, .subscribe .change 1 1),
   (1, .call (.one 2)), (1, .lockR), (1, .look),
   (2, .call (.one 1)), (2, .lockR), (2, .look), (2, .lockW), (2, .del true), (2, .done),
   (1, .lockW), (1, .del true), (1, .done),
   (0, .process), (0, .lockR), (0, .begin .change 0 0)]

/-- The property fails when removals overlap: thread 1 finds subscription 2 and waits for the WRITE lock,
meanwhile thread 2 removes subscription 1 of the same module and so moves subscription 2 to another index.
Thread 1 finds something else in the remembered place, removes nothing and sr_unsubscribe_sub still returns
success (subscr.c 980-987, 1642-1650). The subscription stays and its callback is called afterwards. -/
theorem unsubscribe_left_behind : Reach Any (run badUnsub) ∧
    (run badUnsub).log = .called 2 :: .ret (.one 2) .ok :: [.ret (.one 1) .ok] ∧
    Present (run badUnsub) 2 ∧ (run badUnsub).pc 0 = .cb 2 :=
  ⟨run_reach _ (by decide +kernel), by decide +kernel, by decide +kernel, by decide +kernel⟩

/-! Unsubscribing a session or everything. -/

theorem look_says {s s' : State} {t : Tid} {l : Lab} {job : Job} (h : Inv s) (hs : step s t l = some s')
    (hl : s'.log = .ret job .ok :: s.log) (hj : ∀ id, job ≠ .one id) :
    s.pc t = .look job ∧ l = .look ∧ s'.arr = s.arr := by
  rcases (step_shape h hs).log with h1 | ⟨job', r, h1, h2, h3, _⟩ | ⟨id', h1, _⟩ | ⟨id', h1, _⟩
  · rw [h1] at hl
    have := congrArg List.length hl
    simp at this
  · rw [h1] at hl
    simp only [List.cons.injEq, Ev.ret.injEq, and_true] at hl
    obtain ⟨rfl, rfl⟩ := hl
    rcases h2 with ⟨id, loc, he, _⟩ | ⟨he, hp, _⟩
    · exact absurd he (hj id)
    · exact ⟨hp, he, h3⟩
  · rw [h1] at hl; simp at hl
  · rw [h1] at hl; simp at hl

/-- When the session does not subscribe meanwhile: after sr_session_unsubscribe returned success, the
structure has no subscription of the session and the session does not have the structure, however many
other threads remove subscriptions at the same time. -/
theorem session_unsubscribed_partial {s s' : State} {t : Tid} {l : Lab} {x : Nat} (h : Reach NoLate s)
    (hs : step s t l = some s') (hl : s'.log = .ret (.sess x [] none) .ok :: s.log) :
    (∀ k, ∀ y ∈ subsOf (s'.arr k), y.sess ≠ x) ∧ s'.reg x = false := by
  obtain ⟨hp, rfl, ha⟩ := look_says (reach_inv h) hs hl (by simp)
  have he := reach_se (fun _ _ _ h => h) h
  refine ⟨?_, ?_⟩
  · rw [ha]
    intro k
    exact he.left t x [] none (by rw [hp]; rfl) k (by simp)
  · simp only [step, hp, lookStep] at hs
    cases hs
    simp [State.say, State.go, State.rdDrop, State.unreg]

/-- Every subscription of a session is known to the session, so stopping the session removes it. -/
theorem registered_partial {s : State} (h : Reach NoLate s) {k : Kind} {y : Sub} (hy : y ∈ subsOf (s.arr k)) :
    s.reg y.sess = true :=
  (reach_se (fun _ _ _ h => h) h).reg k y hy

/-- When nobody subscribes meanwhile, which sr_unsubscribe requires: after it removed everything, nothing
is left. -/
theorem all_unsubscribed {s s' : State} {t : Tid} {l : Lab} (h : Reach NoneLate s)
    (hs : step s t l = some s') (hl : s'.log = .ret (.all []) .ok :: s.log) : ∀ k, s'.arr k = [] := by
  obtain ⟨hp, rfl, ha⟩ := look_says (reach_inv h) hs hl (by simp)
  rw [ha]
  intro k
  exact reach_empty (fun _ _ _ h => h) h [] ⟨t, Or.inl (by rw [hp]; rfl)⟩ k (by simp)

/-- The search of sr_unsubscribe and the others never meets a module without subscriptions, which an assert
forbids, subscr.c 1678. -/
theorem search_goes_on {A : State → Tid → Lab → Prop} {s : State} (h : Reach A s) {t : Tid} {l : List Kind}
    (hp : s.pc t = .look (.all l)) : ∃ s', step s t .look = some s' := by
  have hf := reach_full h
  simp only [step, hp]
  cases l with
  | nil => exact ⟨_, rfl⟩
  | cons k l =>
    simp only [lookStep]
    cases ha : s.arr k with
    | nil => exact ⟨_, rfl⟩
    | cons g a =>
      cases hg : g.subs with
      | nil => exact absurd hg (hf k g (by rw [ha]; exact List.mem_cons_self ..))
      | cons y r => simp only [hg]; exact ⟨_, rfl⟩

/-- Subscriptions, then only removals. -/
theorem exec_late {A : State → Tid → Lab → Prop} (hA : ∀ s t l, (∀ k n x, l ≠ .subscribe k n x) → A s t l)
    {s s' : State} (h : Reach A s) (r : List (Tid × Lab))
    (hr : ∀ p ∈ r, ∀ k n x, p.2 ≠ .subscribe k n x) (he : exec s r = some s') : Reach A s' := by
  induction r generalizing s with
  | nil => cases he; exact h
  | cons a r ih =>
    obtain ⟨t, l⟩ := a
    simp only [exec] at he
    split at he
    · rename_i hs
      exact ih (.next h (hA _ _ _ (hr (t, l) (List.mem_cons_self ..))) hs)
        (fun p hp => hr p (List.mem_cons_of_mem _ hp)) he
    · cases he

def exSubs : List (Tid × Lab) :=
  [(0, .subscribe .change 1 1), (0, .subscribe .notif 1 2), (0, .subscribe .rpc 1 1)]

def isSub : Lab → Bool
  | .subscribe _ _ _ => true
  | _ => false

theorem exec_subs {A : State → Tid → Lab → Prop} (hA : ∀ s t k n x, (∀ u, s.pc u = .idle) → A s t (.subscribe k n x))
    {s s' : State} (h : Reach A s) (hi : ∀ u, s.pc u = .idle) (r : List (Tid × Lab))
    (hr : ∀ p ∈ r, isSub p.2 = true) (he : exec s r = some s') : Reach A s' := by
  induction r generalizing s with
  | nil => cases he; exact h
  | cons a r ih =>
    obtain ⟨t, l⟩ := a
    have hl := hr (t, l) (List.mem_cons_self ..)
    simp only [exec] at he
    split at he
    · rename_i hs
      cases l <;> simp only [isSub, Bool.false_eq_true] at hl
      rename_i k n x
      refine ih (.next h (hA _ _ _ _ _ hi) hs) ?_ (fun p hp => hr p (List.mem_cons_of_mem _ hp)) he
      intro u
      obtain ⟨_, _, _, _, hpc, _⟩ := subscribe_eq hs
      rw [hpc]; exact hi u
    · cases he

theorem reach_run {A : State → Tid → Lab → Prop} (r1 r2 : List (Tid × Lab))
    (hA : ∀ s t l, (∀ k n x, l ≠ .subscribe k n x) → A s t l)
    (hB : ∀ s t k n x, (∀ u, s.pc u = .idle) → A s t (.subscribe k n x))
    (h1 : ∀ p ∈ r1, isSub p.2 = true) (h2 : ∀ p ∈ r2, isSub p.2 = false)
    (he : (exec init r1).isSome = true) (he2 : (exec (run r1) r2).isSome = true) :
    Reach A ((exec (run r1) r2).getD init) := by
  obtain ⟨s1, hs1⟩ := Option.isSome_iff_exists.1 he
  obtain ⟨s2, hs2⟩ := Option.isSome_iff_exists.1 he2
  rw [hs2]
  refine exec_late hA (s := run r1) ?_ r2 ?_ hs2
  · have : run r1 = s1 := by unfold run; rw [hs1]; rfl
    rw [this]
    exact exec_subs hB .init (fun _ => rfl) r1 h1 hs1
  · intro p hp k n x he
    have := h2 p hp
    rw [he] at this
    cases this

def noLate_of (s : State) (t : Tid) (l : Lab) (h : ∀ k n x, l ≠ .subscribe k n x) : NoLate s t l :=
  fun k n x he => absurd he (h k n x)

theorem noLate_idle (s : State) (t : Tid) (k : Kind) (n x : Nat) (h : ∀ u, s.pc u = .idle) :
    NoLate s t (.subscribe k n x) := by
  rintro k' n' x' _ ⟨u, l, o, hu⟩
  rw [h u] at hu; cases hu

def noneLate_of (s : State) (t : Tid) (l : Lab) (h : ∀ k n x, l ≠ .subscribe k n x) : NoneLate s t l :=
  fun k n x he => absurd he (h k n x)

theorem noneLate_idle (s : State) (t : Tid) (k : Kind) (n x : Nat) (h : ∀ u, s.pc u = .idle) :
    NoneLate s t (.subscribe k n x) := by
  rintro k' n' x' _ r ⟨u, hu | ⟨y, q, hu⟩⟩ <;> rw [h u] at hu <;> cases hu

/-- Thread 1 unsubscribes session 1 up to the last search. -/
def exSess : List (Tid × Lab) :=
  [(1, .call (.sess 1 [] none)), (1, .lockR), (1, .look), (1, .lockW), (1, .del true), (1, .done), (1, .look),
   (1, .look), (1, .look), (1, .look), (1, .look), (1, .lockW), (1, .del true), (1, .done), (1, .look)]

example : ∃ s s', Reach NoLate s ∧ step s 1 .look = some s' ∧ s'.log = .ret (.sess 1 [] none) .ok :: s.log ∧
    Present s' 2 ∧ ¬ Present s' 3 ∧ s.reg 1 = true :=
  ⟨_, _, reach_run exSubs exSess noLate_of noLate_idle (by decide) (by decide) (by decide +kernel) (by decide +kernel),
    rfl, by decide +kernel, by decide +kernel, by decide +kernel, by decide +kernel⟩

/-- Thread 1 removes everything up to the last search. -/
def exAll : List (Tid × Lab) :=
  [(1, .call (.all [])), (1, .lockR), (1, .look), (1, .look), (1, .lockW), (1, .del true), (1, .done), (1, .look),
   (1, .look), (1, .look), (1, .look), (1, .look), (1, .lockW), (1, .del true), (1, .done), (1, .look), (1, .look),
   (1, .look), (1, .look), (1, .look), (1, .look), (1, .look), (1, .look), (1, .look), (1, .look), (1, .lockW),
   (1, .del true), (1, .done), (1, .look), (1, .look), (1, .look), (1, .look), (1, .look)]

example : ∃ s s', Reach NoneLate s ∧ step s 1 .look = some s' ∧ s'.log = .ret (.all []) .ok :: s.log ∧
    s.log = [.ended 2] :=
  ⟨_, _, reach_run exSubs exAll noneLate_of noneLate_idle (by decide) (by decide) (by decide +kernel)
    (by decide +kernel), rfl, by decide +kernel, by decide +kernel⟩

/-- Session 1 subscribes while its subscriptions are being removed. -/
def badSess : List (Tid × Lab) :=
  [(0, .subscribe .rpc 1 1), (1, .call (.sess 1 [] none)), (1, .lockR), (1, .look), (1, .look), (1, .look),
   (1, .look), (1, .look), (0, .subscribe .change 1 1), (1, .lockW), (1, .del true), (1, .done), (1, .look), (1, .look)]

/-- The property fails when a session subscribes while sr_session_unsubscribe is between two of its locks:
the new subscription stays although the call returns success, and the session does not know it anymore, so
sr_session_stop frees the session while a subscription still uses it (subscr.c 1445-1522). -/
theorem session_left_behind : Reach Any (run badSess) ∧ (run badSess).log = [.ret (.sess 1 [] none) .ok] ∧
    Present (run badSess) 2 ∧ (⟨2, 1⟩ : Sub) ∈ subsOf ((run badSess).arr .change) ∧ (run badSess).reg 1 = false :=
  ⟨run_reach _ (by decide +kernel), by decide +kernel, by decide +kernel, by decide +kernel, by decide +kernel⟩

/-! Stop times and memory. -/

/-- When removals do not overlap and nobody subscribes during one, event processing does not use memory
that was released. -/
theorem no_released_memory_partial {s : State} (h : Reach Calm s) : s.ub = false :=
  (reach_ca (fun _ _ _ h => h) h).ub

/-- Two notification subscriptions of a module, the stop time of the first passes, and another thread
removes the second while the first is being removed. -/
def badStop : List (Tid × Lab) :=
  [(0, .subscribe .notif 1 1), (0, .subscribe .notif 1 1), (1, .process), (1, .lockR), (1, .stop 0 0),
   (2, .call (.one 2)), (2, .lockR), (2, .look), (2, .lockW), (2, .del true), (2, .done),
   (1, .lockW), (1, .del true), (1, .done)]

/-- The property fails when another removal overlaps: the handler remembers the module in the array
(`notif_subs`), releases the lock to remove the first subscription, and the removal of the last one
releases the array (shm_sub.c 4833-4852, subscr.c 590-600). -/
theorem released_by_removal : Reach Any (run badStop) ∧ (run badStop).ub = true :=
  ⟨run_reach _ (by decide +kernel), by decide +kernel⟩

/-- The same with a new subscription to another module meanwhile. -/
def badStop2 : List (Tid × Lab) :=
  [(0, .subscribe .notif 1 1), (0, .subscribe .notif 1 1), (1, .process), (1, .lockR), (1, .stop 0 0),
   (0, .subscribe .notif 2 1), (1, .lockW), (1, .del true), (1, .done)]

/-- The property fails when a subscription to another module is created during the removal: the array is
reallocated and the remembered module is in the old one (subscr.c 462-470, shm_sub.c 4833-4852). -/
theorem released_by_subscribe : Reach Any (run badStop2) ∧ (run badStop2).ub = true :=
  ⟨run_reach _ (by decide +kernel), by decide +kernel⟩

theorem calm_of_onlyOne {s : State} {t : Tid} {l : Lab} (h : Alone s t l) (hn : ∀ k n x, l ≠ .subscribe k n x) :
    Calm s t l :=
  ⟨h, fun k n x he => absurd he (hn k n x)⟩

/-- Only thread 1 does anything besides subscribing. -/
def Single (s : State) (t : Tid) (l : Lab) : Prop :=
  (t = 1 ∧ ∀ k n x, l ≠ .subscribe k n x) ∨ ((∃ k n x, l = .subscribe k n x) ∧ ∀ u, s.pc u = .idle)

theorem single_calm {s : State} (h : Reach Single s) : Reach Calm s := by
  have key : ∀ s, Reach Single s → ∀ u, s.pc u ≠ .idle → u = 1 := by
    intro s hr
    induction hr with
    | init => intro u hu; exact absurd rfl hu
    | @next s s' t l hr ha hs ih =>
      intro u hu
      by_cases e : u = t
      · subst e
        rcases ha with ⟨rfl, _⟩ | ⟨⟨k, n, x, rfl⟩, hi⟩
        · rfl
        · obtain ⟨_, _, _, _, hpc, _⟩ := subscribe_eq hs
          rw [hpc] at hu
          exact absurd (hi u) hu
      · rw [(step_shape (reach_inv hr) hs).others u e] at hu
        exact ih u hu
  refine reach_mono h fun s t l hr ha => ?_
  rcases ha with ⟨rfl, hn⟩ | ⟨⟨k, n, x, rfl⟩, hi⟩
  · refine calm_of_onlyOne (alone_of fun u => ?_) hn
    by_cases hu : s.pc u = .idle
    · left; rw [hu]; rintro ⟨job, loc, h | h⟩ <;> cases h
    · exact Or.inr (key s hr u hu)
  · have hno : ∀ u, ¬ Removing (s.pc u) := by
      intro u; rw [hi u]; rintro ⟨job, loc, h | h⟩ <;> cases h
    exact ⟨fun _ _ _ _ => hno, fun _ _ _ _ => hno⟩

/-- Stop times of both subscriptions of a module pass, then only one more module is left. -/
def exStops : List (Tid × Lab) :=
  [(1, .process), (1, .lockR), (1, .stop 0 0), (1, .lockW), (1, .del true), (1, .done), (1, .stop 0 0), (1, .lockW),
   (1, .del true), (1, .done)]

def exNotifs : List (Tid × Lab) :=
  [(0, .subscribe .notif 1 1), (0, .subscribe .notif 1 1), (0, .subscribe .notif 2 1)]

theorem exec_single {s s' : State} (h : Reach Single s) (r : List (Tid × Lab))
    (hr : ∀ p ∈ r, p.1 = 1 ∧ isSub p.2 = false) (he : exec s r = some s') : Reach Single s' := by
  induction r generalizing s with
  | nil => cases he; exact h
  | cons a r ih =>
    obtain ⟨t, l⟩ := a
    simp only [exec] at he
    split at he
    · rename_i hs
      refine ih (.next h ?_ hs) (fun p hp => hr p (List.mem_cons_of_mem _ hp)) he
      obtain ⟨h1, h2⟩ := hr (t, l) (List.mem_cons_self ..)
      refine Or.inl ⟨h1, ?_⟩
      rintro k n x rfl
      cases h2
    · cases he

example : Reach Calm (run (exNotifs ++ exStops)) ∧ (run (exNotifs ++ exStops)).log = [.ended 2, .ended 1] ∧
    Present (run (exNotifs ++ exStops)) 3 := by
  refine ⟨single_calm ?_, by decide +kernel, by decide +kernel⟩
  have h1 : Reach Single (run exNotifs) := by
    refine exec_subs (A := Single) (fun s t k n x hi => Or.inr ⟨⟨k, n, x, rfl⟩, hi⟩) .init (fun _ => rfl) exNotifs
      (by decide) ?_
    rfl
  exact exec_single h1 exStops (by decide) rfl

end Verif.SubCtx
