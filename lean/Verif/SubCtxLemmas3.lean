import Verif.SubCtxLemmas2

/-! What one step can do, and the invariants of calmer schedules. -/

namespace Verif.SubCtx

/-- The state after a removal. -/
def removed (s : State) (t : Tid) (job : Job) (loc : Loc) : State :=
  { remove s loc with wr := none, rd := [t] }.go t (.done job loc)

/-- Why a call returned. -/
def RetWhy (s : State) (t : Tid) (l : Lab) (job : Job) (r : Res) : Prop := match r with
  | .err => True
  | .notFound => l = .look ∧ ∃ id, job = .one id ∧ ¬ Present s id
  | .ok => (∃ id loc, job = .one id ∧ l = .done ∧ s.pc t = .done job loc) ∨
    (l = .look ∧ s.pc t = .look job ∧ ((∃ x, job = .sess x [] none) ∨ job = .all []))

/-- What one step can do. -/
structure Shape (s : State) (t : Tid) (l : Lab) (s' : State) : Prop where
  others : ∀ u, u ≠ t → s'.pc u = s.pc u
  arr : (s'.arr = s.arr ∧ s'.gen = s.gen ∧ s'.next = s.next) ∨
    (∃ job loc, s.pc t = .del job loc ∧ l = .del true ∧ inPlace s loc = true ∧ s' = removed s t job loc) ∨
    ∃ k n x, l = .subscribe k n x
  enter : ∀ job loc, target (s'.pc t) = some (job, loc) → s'.arr = s.arr ∧ s'.gen = s.gen ∧
    (target (s.pc t) = some (job, loc) ∨ (target (s.pc t) = none ∧ holdsR (s.pc t) = true ∧
      subAt (s.arr loc.k) loc.i loc.j = some loc.x ∧
      ∀ i g b, job = .stop i g b → g = s.gen ∧ b = lastOf (s.arr .notif) i))
  done : ∀ job loc, s'.pc t = .done job loc → ∃ ok, l = .del ok ∧ s.pc t = .del job loc
  log : s'.log = s.log ∨ (∃ job r, s'.log = .ret job r :: s.log ∧ RetWhy s t l job r ∧ s'.arr = s.arr ∧
      s'.next = s.next) ∨
    (∃ id, s'.log = .called id :: s.log ∧ Present s id ∧ s'.pc t = .cb id) ∨
    (∃ id, s'.log = .ended id :: s.log ∧ ∃ job loc, s.pc t = .del job loc ∧ l = .del true ∧
      inPlace s loc = true ∧ loc.x.id = id ∧ loc.k = .notif)
  ub : s'.ub = s.ub ∨ ∃ i g loc, s.pc t = .done (.stop i g false) loc ∧
    ¬ (g = s.gen ∧ i < (s.arr .notif).length)

theorem look_ret {s s' : State} {t : Tid} {job : Job} (hp : s.pc t = .look job)
    (h : lookStep s t job = some s') :
    s'.log = s.log ∨ ∃ r, s'.log = .ret job r :: s.log ∧ RetWhy s t .look job r := by
  unfold lookStep at h
  split at h
  · split at h
    · cases h; exact Or.inl rfl
    · rename_i hf
      cases h
      refine Or.inr ⟨_, rfl, rfl, _, rfl, ?_⟩
      rintro ⟨k, x, hx, hid⟩
      exact findId_none hf k (mem_kinds k) x hx hid
  · cases h; exact Or.inr ⟨_, rfl, Or.inr ⟨rfl, hp, Or.inl ⟨_, rfl⟩⟩⟩
  · cases h; exact Or.inl rfl
  · split at h <;> cases h <;> exact Or.inl rfl
  · cases h; exact Or.inr ⟨_, rfl, Or.inr ⟨rfl, hp, Or.inr rfl⟩⟩
  · split at h
    · cases h; exact Or.inl rfl
    · split at h
      · cases h; exact Or.inl rfl
      · cases h
  · cases h

theorem look_not_stop {s s' : State} {t : Tid} {job : Job} (h : lookStep s t job = some s')
    (i g : Nat) (b : Bool) : job ≠ .stop i g b := by
  rintro rfl
  cases h

theorem done_ret {s : State} {t : Tid} {job : Job} {loc : Loc} (hp : s.pc t = .done job loc) :
    ((doneStep s t loc job).log = s.log ∨ ∃ r, (doneStep s t loc job).log = .ret job r :: s.log ∧
      RetWhy s t .done job r) ∧
    ((doneStep s t loc job).ub = s.ub ∨ ∃ i g, job = .stop i g false ∧
      ¬ (g = s.gen ∧ i < (s.arr .notif).length)) := by
  cases job with
  | one id =>
    refine ⟨Or.inr ⟨.ok, ?_, Or.inl ⟨id, loc, rfl, rfl, hp⟩⟩, Or.inl ?_⟩ <;>
      (simp only [doneStep]; split <;> rfl)
  | sess x l o => exact ⟨Or.inl rfl, Or.inl rfl⟩
  | all l => exact ⟨Or.inl rfl, Or.inl rfl⟩
  | stop i g last =>
    simp only [doneStep]
    cases last with
    | true =>
      refine ⟨Or.inl ?_, Or.inl ?_⟩ <;> (simp only [if_true]; split <;> rfl)
    | false =>
      simp only [Bool.false_eq_true, if_false]
      by_cases hc : g = s.gen ∧ i < (s.arr .notif).length
      · simp only [hc, and_self, if_true]
        refine ⟨Or.inl ?_, Or.inl ?_⟩ <;> (split <;> rfl)
      · simp only [hc, if_false]
        refine ⟨Or.inl ?_, Or.inr ⟨i, g, rfl, hc⟩⟩
        split <;> rfl

theorem step_shape {s s' : State} {t : Tid} {l : Lab} (h : Inv s) (hs : step s t l = some s') :
    Shape s t l s' := by
  cases l with
  | call job =>
    simp only [step] at hs
    split at hs
    · cases hs
      exact ⟨fun u hu => by simp [State.go, hu], Or.inl ⟨rfl, rfl, rfl⟩,
        fun _ _ hx => by simp [State.go, target] at hx, fun _ _ hx => by simp [State.go] at hx,
        Or.inl rfl, Or.inl rfl⟩
    · cases hs
  | process =>
    simp only [step] at hs
    split at hs
    · cases hs
      exact ⟨fun u hu => by simp [State.go, hu], Or.inl ⟨rfl, rfl, rfl⟩,
        fun _ _ hx => by simp [State.go, target] at hx, fun _ _ hx => by simp [State.go] at hx,
        Or.inl rfl, Or.inl rfl⟩
    · cases hs
  | lockR =>
    simp only [step] at hs
    split at hs
    · cases hs
    · split at hs
      all_goals first | cases hs; done | skip
      all_goals
        cases hs
        exact ⟨fun u hu => by simp [State.go, hu], Or.inl ⟨rfl, rfl, rfl⟩,
          fun _ _ hx => by simp [State.go, target] at hx, fun _ _ hx => by simp [State.go] at hx,
          Or.inl rfl, Or.inl rfl⟩
  | look =>
    simp only [step] at hs
    split at hs
    · rename_i job hp
      obtain ⟨ha, hn, hg, _, hub, hpc, _, _, hcase⟩ := lookStep_eq hs
      refine ⟨hpc, Or.inl ⟨ha, hg, hn⟩, ?_, ?_, ?_, Or.inl hub⟩
      · intro job' loc' hx
        refine ⟨ha, hg, ?_⟩
        rcases hcase with ⟨h1, _⟩ | ⟨j, h1, _⟩ | ⟨loc, h1, _, h2, h3⟩ <;> rw [h1] at hx <;> cases hx
        refine Or.inr ⟨by rw [hp]; rfl, by rw [hp]; rfl, h2, ?_⟩
        intro i g b hj
        exact absurd hj (look_not_stop hs i g b)
      · intro job' loc' hx
        rcases hcase with ⟨h1, _⟩ | ⟨j, h1, _⟩ | ⟨loc, h1, _, h2, h3⟩ <;> rw [h1] at hx <;> cases hx
      · rcases look_ret hp hs with h1 | ⟨r, h1, h2⟩
        · exact Or.inl h1
        · exact Or.inr (Or.inl ⟨job, r, h1, h2, ha, hn⟩)
    · cases hs
  | timeout =>
    simp only [step] at hs
    split at hs
    all_goals first | cases hs; done | skip
    all_goals
      cases hs
      exact ⟨fun u hu => by simp [State.go, State.say, hu], Or.inl ⟨rfl, rfl, rfl⟩,
        fun _ _ hx => by simp [State.go, State.say, target] at hx,
        fun _ _ hx => by simp [State.go, State.say] at hx,
        by first | exact Or.inl rfl | exact Or.inr (Or.inl ⟨_, .err, rfl, trivial, rfl, rfl⟩), Or.inl rfl⟩
  | lockW =>
    simp only [step] at hs
    split at hs
    · cases hs
    · split at hs
      · rename_i job loc hp
        cases hs
        refine ⟨fun u hu => by simp [State.go, hu], Or.inl ⟨rfl, rfl, rfl⟩, ?_,
          fun _ _ hx => by simp [State.go] at hx, Or.inl rfl, Or.inl rfl⟩
        intro job' loc' hx
        simp only [State.go, target, if_true] at hx
        cases hx
        exact ⟨rfl, rfl, Or.inl (by rw [hp]; rfl)⟩
      · cases hs
  | del ok =>
    simp only [step] at hs
    split at hs
    · rename_i job loc hp
      split at hs
      · rename_i hin
        split at hs
        · rename_i hok
          subst hok
          cases hs
          obtain ⟨_, _, hf⟩ := h.fits t job loc (by rw [hp]; rfl)
          obtain ⟨_, _, _, _, _, hpcs, _, hub, hlog⟩ := remove_spec h hin hf
          refine ⟨fun u hu => by simp [State.go, hu, hpcs], Or.inr (Or.inl ⟨job, loc, hp, rfl, hin, rfl⟩),
            fun _ _ hx => by simp [State.go, target] at hx, ?_, ?_, Or.inl hub⟩
          · intro job' loc' hx
            simp only [State.go, if_true] at hx
            cases hx
            exact ⟨true, rfl, hp⟩
          · simp only [State.go, hlog]
            split
            · rename_i hk
              exact Or.inr (Or.inr (Or.inr ⟨_, rfl, job, loc, hp, trivial, hin, rfl, hk⟩))
            · exact Or.inl rfl
        · cases hs
          exact ⟨fun u hu => by simp [State.go, State.say, hu], Or.inl ⟨rfl, rfl, rfl⟩,
            fun _ _ hx => by simp [State.go, State.say, target] at hx,
            fun _ _ hx => by simp [State.go, State.say] at hx,
            Or.inr (Or.inl ⟨job, .err, rfl, trivial, rfl, rfl⟩), Or.inl rfl⟩
      · cases hs
        refine ⟨fun u hu => by simp [State.go, hu], Or.inl ⟨rfl, rfl, rfl⟩,
          fun _ _ hx => by simp [State.go, target] at hx, ?_, Or.inl rfl, Or.inl rfl⟩
        intro job' loc' hx
        simp only [State.go, if_true] at hx
        cases hx
        exact ⟨ok, rfl, hp⟩
    · cases hs
  | done =>
    simp only [step] at hs
    split at hs
    · rename_i job loc hp
      cases hs
      obtain ⟨ha, hn, hg, _, hpc, _, _, hcase⟩ := doneStep_eq (s := s) (t := t) (job := job) (loc := loc)
      obtain ⟨hr, hu⟩ := done_ret hp
      refine ⟨hpc, Or.inl ⟨ha, hg, hn⟩, ?_, ?_, ?_, ?_⟩
      · intro job' loc' hx
        rcases hcase with ⟨h1, _⟩ | ⟨⟨j, h1⟩, _⟩ | ⟨h1, _⟩ <;> rw [h1] at hx <;> cases hx
      · intro job' loc' hx
        rcases hcase with ⟨h1, _⟩ | ⟨⟨j, h1⟩, _⟩ | ⟨h1, _⟩ <;> rw [h1] at hx <;> cases hx
      · rcases hr with hr | ⟨r, hr, hw⟩
        · exact Or.inl hr
        · exact Or.inr (Or.inl ⟨job, r, hr, hw, ha, hn⟩)
      · rcases hu with hu | ⟨i, g, rfl, hu⟩
        · exact Or.inl hu
        · exact Or.inr ⟨i, g, loc, hp, hu⟩
    · cases hs
  | begin k i j =>
    simp only [step] at hs
    split at hs
    · rename_i x hp hx
      cases hs
      exact ⟨fun u hu => by simp [State.go, State.say, hu], Or.inl ⟨rfl, rfl, rfl⟩,
        fun _ _ hx => by simp [State.go, State.say, target] at hx,
        fun _ _ hx => by simp [State.go, State.say] at hx,
        Or.inr (Or.inr (Or.inl ⟨x.id, rfl, ⟨k, x, subAt_mem hx, rfl⟩, by simp [State.go, State.say]⟩)),
        Or.inl rfl⟩
    · cases hs
  | finish =>
    simp only [step] at hs
    split at hs
    · cases hs
      exact ⟨fun u hu => by simp [State.go, hu], Or.inl ⟨rfl, rfl, rfl⟩,
        fun _ _ hx => by simp [State.go, target] at hx, fun _ _ hx => by simp [State.go] at hx,
        Or.inl rfl, Or.inl rfl⟩
    · cases hs
  | stop i j =>
    simp only [step] at hs
    split at hs
    · rename_i x hp hx
      cases hs
      refine ⟨fun u hu => by simp [State.go, State.rdDrop, hu], Or.inl ⟨rfl, rfl, rfl⟩, ?_,
        fun _ _ hx => by simp [State.go] at hx, Or.inl rfl, Or.inl rfl⟩
      intro job loc hy
      simp only [State.go, target, if_true] at hy
      cases hy
      refine ⟨rfl, rfl, Or.inr ⟨by rw [hp]; rfl, by rw [hp]; rfl, hx, ?_⟩⟩
      intro i' g' b' hj
      cases hj
      exact ⟨rfl, rfl⟩
    · cases hs
  | leave =>
    simp only [step] at hs
    split at hs
    · cases hs
      exact ⟨fun u hu => by simp [State.go, State.rdDrop, hu], Or.inl ⟨rfl, rfl, rfl⟩,
        fun _ _ hx => by simp [State.go, target] at hx, fun _ _ hx => by simp [State.go] at hx,
        Or.inl rfl, Or.inl rfl⟩
    · cases hs
  | subscribe k n x =>
    obtain ⟨hp, hw, hr, hn, hpc, hwr, hrd, hl, hub, ha, _, _⟩ := subscribe_eq hs
    refine ⟨fun u _ => by rw [hpc], Or.inr (Or.inr ⟨k, n, x, rfl⟩), ?_, ?_, Or.inl hl, Or.inl hub⟩
    · intro job loc hx; rw [hpc, hp] at hx; cases hx
    · intro job loc hx; rw [hpc, hp] at hx; cases hx

/-- The state after a removal in detail. -/
theorem removed_spec {s : State} {t : Tid} {job : Job} {loc : Loc} (h : Inv s)
    (hp : s.pc t = .del job loc) (hin : inPlace s loc = true) :
    loc.x ∈ subsOf (s.arr loc.k) ∧ ¬ Present (removed s t job loc) loc.x.id ∧
    (∀ k x, x ∈ subsOf ((removed s t job loc).arr k) ↔ x ∈ subsOf (s.arr k) ∧ x ≠ loc.x) ∧
    (removed s t job loc).next = s.next ∧ (removed s t job loc).gen = s.gen ∧
    (removed s t job loc).reg = s.reg ∧ (removed s t job loc).pc t = .done job loc ∧
    (∀ k, k ≠ loc.k → (removed s t job loc).arr k = s.arr k) := by
  obtain ⟨_, _, hf⟩ := h.fits t job loc (by rw [hp]; rfl)
  obtain ⟨hm, ho, hperm, hn, hg, _, hreg, _, _⟩ := remove_spec h hin hf
  have hnd := List.nodup_cons.1 (hperm.nodup_iff.2 (h.nodup loc.k))
  have hiff : ∀ k x, x ∈ subsOf ((removed s t job loc).arr k) ↔ x ∈ subsOf (s.arr k) ∧ x ≠ loc.x := by
    intro k x
    show x ∈ subsOf ((remove s loc).arr k) ↔ _
    by_cases hk : k = loc.k
    · subst hk
      rw [← hperm.mem_iff, List.mem_cons]
      constructor
      · intro hx
        exact ⟨Or.inr hx, fun he => hnd.1 (he ▸ hx)⟩
      · rintro ⟨he | hx, hne⟩
        · exact absurd he hne
        · exact hx
    · rw [ho k hk]
      constructor
      · intro hx
        refine ⟨hx, fun he => hk ?_⟩
        exact (hf k x hx (by rw [he])).1
      · exact fun hx => hx.1
  refine ⟨hm, ?_, hiff, hn, hg, hreg, by simp [removed, State.go], ho⟩
  rintro ⟨k, x, hx, hid⟩
  obtain ⟨h1, h2⟩ := (hiff k x).1 hx
  exact h2 (hf k x h1 hid).2

theorem subscribe_mem {s s' : State} {t : Tid} {k : Kind} {n x : Nat}
    (h : step s t (.subscribe k n x) = some s') (k' : Kind) (y : Sub) :
    y ∈ subsOf (s'.arr k') ↔ (k' = k ∧ y = ⟨s.next, x⟩) ∨ y ∈ subsOf (s.arr k') := by
  obtain ⟨_, _, _, _, _, _, _, _, _, ha, _, _⟩ := subscribe_eq h
  rw [ha]
  simp only
  split
  · rename_i hk
    subst hk
    rw [add_perm.mem_iff, List.mem_cons]
    simp
  · rename_i hk
    simp [hk]

/-- An ID that was given out and is gone never comes back. -/
theorem gone_step {s s' : State} {t : Tid} {l : Lab} {id : Nat} (h : Inv s) (hs : step s t l = some s')
    (hlt : id < s.next) (hg : ¬ Present s id) : id < s'.next ∧ ¬ Present s' id := by
  rcases (step_shape h hs).arr with ⟨ha, _, hn⟩ | ⟨job, loc, hp, _, hin, rfl⟩ | ⟨k, n, x, rfl⟩
  · unfold Present; rw [ha, hn]; exact ⟨hlt, hg⟩
  · obtain ⟨_, _, hiff, hn, _⟩ := removed_spec h hp hin
    refine ⟨by rw [hn]; exact hlt, ?_⟩
    rintro ⟨k, x, hx, hid⟩
    exact hg ⟨k, x, ((hiff k x).1 hx).1, hid⟩
  · obtain ⟨_, _, _, hn, _⟩ := subscribe_eq hs
    refine ⟨by rw [hn]; exact Nat.lt_succ_of_lt hlt, ?_⟩
    rintro ⟨k', y, hy, hid⟩
    rcases (subscribe_mem hs k' y).1 hy with ⟨_, rfl⟩ | hy
    · rw [← hid] at hlt; exact Nat.lt_irrefl _ hlt
    · exact hg ⟨k', y, hy, hid⟩

/-- Every group has a subscription. -/
def Full (s : State) : Prop := ∀ k, ∀ g ∈ s.arr k, g.subs ≠ []

theorem mem_swapDel {l : List α} {i : Nat} {x : α} (h : x ∈ swapDel l i) : x ∈ l := by
  unfold swapDel at h
  cases hl : l.getLast? with
  | none => rw [hl] at h; cases h
  | some y =>
    rw [hl] at h
    have h := (List.dropLast_sublist _).mem h
    rcases List.mem_or_eq_of_mem_set h with h | h
    · exact h
    · exact h ▸ List.mem_of_getLast? hl

theorem delAt_full {a : List Group} {i j : Nat} (h : ∀ g ∈ a, g.subs ≠ []) : ∀ g ∈ delAt a i j, g.subs ≠ [] := by
  unfold delAt
  intro g hg
  split at hg
  · exact h g hg
  · split at hg
    · exact h g (mem_swapDel hg)
    · rename_i hc
      rcases List.mem_or_eq_of_mem_set hg with hg | hg
      · exact h g hg
      · subst hg
        simpa using hc

theorem add_full {a : List Group} {n : Nat} {x : Sub} (h : ∀ g ∈ a, g.subs ≠ []) :
    ∀ g ∈ add a n x, g.subs ≠ [] := by
  induction a with
  | nil => intro g hg; simp [add] at hg; subst hg; simp
  | cons g0 a ih =>
    intro g hg
    simp only [add] at hg
    split at hg
    · rcases List.mem_cons.1 hg with rfl | hg
      · simp
      · exact h g (List.mem_cons_of_mem _ hg)
    · rcases List.mem_cons.1 hg with rfl | hg
      · exact h g (List.mem_cons_self ..)
      · exact ih (fun g hg => h g (List.mem_cons_of_mem _ hg)) g hg

theorem remove_arr (s : State) (loc : Loc) (k : Kind) :
    (remove s loc).arr k = s.arr k ∨ ∃ i j, (remove s loc).arr k = delAt (s.arr k) i j := by
  unfold remove
  split
  · exact Or.inl rfl
  · rename_i i j _ _
    by_cases hk : k = loc.k
    · subst hk
      refine Or.inr ⟨i, j, ?_⟩
      simp only
      split <;> simp [State.say, State.setArr]
    · refine Or.inl ?_
      simp only
      split <;> simp [State.say, State.setArr, hk]

theorem full_step {s s' : State} {t : Tid} {l : Lab} (h : Inv s) (hf : Full s) (hs : step s t l = some s') :
    Full s' := by
  intro k
  rcases (step_shape h hs).arr with ⟨ha, _, _⟩ | ⟨job, loc, _, _, _, rfl⟩ | ⟨k', n, x, rfl⟩
  · rw [ha]; exact hf k
  · show ∀ g ∈ (remove s loc).arr k, _
    rcases remove_arr s loc k with h1 | ⟨i, j, h1⟩ <;> rw [h1]
    · exact hf k
    · exact delAt_full (hf k)
  · obtain ⟨_, _, _, _, _, _, _, _, _, ha, _, _⟩ := subscribe_eq hs
    rw [ha]
    simp only
    split
    · exact add_full (hf k')
    · exact hf k

theorem reach_full {A : State → Tid → Lab → Prop} {s : State} (h : Reach A s) : Full s := by
  induction h with
  | init => intro k g hg; cases hg
  | next hr _ hs ih => exact full_step (reach_inv hr) ih hs

/-- Nothing is called after the last special notification. -/
theorem reach_order {A : State → Tid → Lab → Prop} {s : State} (h : Reach A s) (id : Nat) (l1 l2 : List Ev)
    (hl : s.log = l1 ++ .ended id :: l2) : .called id ∉ l1 := by
  induction h generalizing l1 with
  | init => simp [init] at hl
  | @next s s' t l hr _ hs ih =>
    have key : ∀ e, s'.log = e :: s.log → e ≠ .called id ∨ ¬ (.ended id ∈ s.log) → .called id ∉ l1 := by
      intro e he hne
      rw [he] at hl
      cases l1 with
      | nil => simp
      | cons a l1 =>
        simp only [List.cons_append, List.cons.injEq] at hl
        obtain ⟨rfl, hl⟩ := hl
        have h1 := ih l1 hl
        simp only [List.mem_cons, not_or]
        refine ⟨?_, h1⟩
        rcases hne with hne | hne
        · exact Ne.symm hne
        · exact absurd (by rw [hl]; simp) hne
    rcases (step_shape (reach_inv hr) hs).log with h1 | ⟨job, r, h1, _⟩ | ⟨id', h1, h2, _⟩ | ⟨id', h1, _⟩
    · rw [h1] at hl; exact ih l1 hl
    · exact key _ h1 (Or.inl (by simp))
    · refine key _ h1 ?_
      by_cases hi : id' = id
      · subst hi
        exact Or.inr fun hm => ((reach_inv hr).ended _ hm).2 h2
      · exact Or.inl (by simpa using hi)
    · exact key _ h1 (Or.inl (by simp))

end Verif.SubCtx
