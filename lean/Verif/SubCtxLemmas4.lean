import Verif.SubCtxLemmas3

/-! Invariants of calmer schedules. -/

namespace Verif.SubCtx

theorem removing_iff {p : Pc} : Removing p ↔ ∃ q, target p = some q := by
  constructor
  · rintro ⟨job, loc, rfl | rfl⟩ <;> exact ⟨_, rfl⟩
  · rintro ⟨⟨job, loc⟩, h⟩
    cases p <;> simp only [target, reduceCtorEq, Option.some.injEq, Prod.mk.injEq] at h
    · exact ⟨_, _, Or.inl rfl⟩
    · exact ⟨_, _, Or.inr rfl⟩

/-- With removals one at a time. -/
structure Al (s : State) : Prop where
  one : ∀ t u, Removing (s.pc t) → Removing (s.pc u) → t = u
  place : ∀ t job loc, target (s.pc t) = some (job, loc) → subAt (s.arr loc.k) loc.i loc.j = some loc.x
  done : ∀ t id loc, s.pc t = .done (.one id) loc → id < s.next ∧ ¬ Present s id
  ret : ∀ id, .ret (.one id) .ok ∈ s.log → id < s.next ∧ ¬ Present s id

theorem del_done {s s' : State} {t : Tid} {ok : Bool} {job : Job} {loc : Loc} (hp : s.pc t = .del job loc)
    (hin : inPlace s loc = true) (hs : step s t (.del ok) = some s') (hd : ∃ j l, s'.pc t = .done j l) :
    s' = removed s t job loc := by
  simp only [step, hp, hin, if_true] at hs
  split at hs
  · exact (Option.some.inj hs).symm
  · cases hs
    obtain ⟨j, l, hd⟩ := hd
    simp [State.go, State.say] at hd

theorem al_step {s s' : State} {t : Tid} {l : Lab} (h : Inv s) (ha : Al s) (hA : Alone s t l)
    (hs : step s t l = some s') : Al s' := by
  have sh := step_shape h hs
  refine ⟨?_, ?_, ?_, ?_⟩
  · have key : ∀ u, u ≠ t → Removing (s'.pc t) → Removing (s'.pc u) → False := by
      intro u hu ht hr
      rw [sh.others u hu] at hr
      by_cases hx : Removing (s.pc t)
      · exact hu (ha.one u t hr hx)
      · exact hA s' hs hx ht u hr
    intro t1 t2 h1 h2
    by_cases e1 : t1 = t
    · by_cases e2 : t2 = t
      · rw [e1, e2]
      · exact (key t2 e2 (e1 ▸ h1) h2).elim
    · by_cases e2 : t2 = t
      · exact (key t1 e1 (e2 ▸ h2) h1).elim
      · rw [sh.others t1 e1] at h1
        rw [sh.others t2 e2] at h2
        exact ha.one t1 t2 h1 h2
  · intro u job loc hu
    by_cases e : u = t
    · subst e
      obtain ⟨h1, _, h2⟩ := sh.enter job loc hu
      rw [h1]
      rcases h2 with h2 | ⟨_, _, h2, _⟩
      · exact ha.place u job loc h2
      · exact h2
    · rw [sh.others u e] at hu
      rcases sh.arr with ⟨h1, _⟩ | ⟨job', loc', hp, _⟩ | ⟨k, n, x, rfl⟩
      · rw [h1]; exact ha.place u job loc hu
      · exact absurd (ha.one u t (removing_iff.2 ⟨_, hu⟩) ⟨job', loc', Or.inr hp⟩) e
      · obtain ⟨_, _, _, _, _, _, _, _, _, h1, _, _⟩ := subscribe_eq hs
        rw [h1]
        simp only
        split
        · rename_i hk
          have := ha.place u job loc hu
          rw [hk] at this
          exact subAt_add this
        · exact ha.place u job loc hu
  · intro u id loc hu
    by_cases e : u = t
    · subst e
      obtain ⟨ok, rfl, hp⟩ := sh.done _ _ hu
      have hpl := ha.place u _ _ (by rw [hp]; rfl)
      have hin : inPlace s loc = true := inPlace_eq.2 ⟨_, hpl, rfl⟩
      have he := del_done hp hin hs ⟨_, _, hu⟩
      subst he
      obtain ⟨hf, hlt, _⟩ := h.fits u _ _ (by rw [hp]; rfl)
      obtain ⟨_, hg, _, hn, _⟩ := removed_spec h hp hin
      rw [hn]
      have hf : loc.x.id = id := hf
      rw [hf] at hlt hg
      exact ⟨hlt, hg⟩
    · rw [sh.others u e] at hu
      obtain ⟨h1, h2⟩ := ha.done u id loc hu
      exact gone_step h hs h1 h2
  · intro id hid
    have old : .ret (.one id) .ok ∈ s.log → id < s'.next ∧ ¬ Present s' id := by
      intro ho
      obtain ⟨h1, h2⟩ := ha.ret id ho
      exact gone_step h hs h1 h2
    rcases sh.log with h1 | ⟨job, r, h1, h2, h3, h4⟩ | ⟨id', h1, _⟩ | ⟨id', h1, _⟩
    · rw [h1] at hid; exact old hid
    · rw [h1] at hid
      rcases List.mem_cons.1 hid with hid | hid
      · cases hid
        rcases h2 with ⟨id', loc, he, _, hp⟩ | ⟨_, _, ⟨x, he⟩ | he⟩
        · cases he
          obtain ⟨h5, h6⟩ := ha.done t id loc hp
          exact gone_step h hs h5 h6
        · cases he
        · cases he
      · exact old hid
    · rw [h1] at hid
      rcases List.mem_cons.1 hid with hid | hid
      · cases hid
      · exact old hid
    · rw [h1] at hid
      rcases List.mem_cons.1 hid with hid | hid
      · cases hid
      · exact old hid

theorem reach_al {A : State → Tid → Lab → Prop} (hA : ∀ s t l, A s t l → Alone s t l) {s : State}
    (h : Reach A s) : Al s := by
  induction h with
  | init =>
    refine ⟨?_, ?_, ?_, ?_⟩
    · rintro t u ⟨job, loc, h | h⟩ <;> cases h
    · intro t job loc h; cases h
    · intro t id loc h; cases h
    · intro id h; cases h
  | next hr ha hs ih => exact al_step (reach_inv hr) ih (hA _ _ _ ha) hs

/-- How the job of a thread changes. -/
inductive JobStep (s : State) : Option Job → Job → Prop where
  | same {j} : JobStep s (some j) j
  | session {x} : JobStep s none (.sess x kinds none)
  | whole : JobStep s none (.all kinds)
  | single {o id} : JobStep s o (.one id)
  | stop {o i g b} : JobStep s o (.stop i g b)
  | nextKind {x k l o} : (∀ y ∈ subsOf (s.arr k), y.sess ≠ x) → JobStep s (some (.sess x (k :: l) o)) (.sess x l o)
  | back {x l} : JobStep s (some (.sess x [] (some l))) (.all l)
  | nextArr {k l} : s.arr k = [] → JobStep s (some (.all (k :: l))) (.all l)
  | inner {x l} : JobStep s (some (.all l)) (.sess x kinds (some l))

theorem job_look {s s' : State} {t : Tid} {job j : Job}
    (h : lookStep s t job = some s') (hj : jobOf (s'.pc t) = some j) : JobStep s (some job) j := by
  unfold lookStep at h
  split at h
  · split at h
    · cases h; simp [State.go, jobOf] at hj; subst hj; exact .same
    · cases h; simp [State.go, State.say, jobOf] at hj
  · cases h; simp [State.go, State.say, jobOf] at hj
  · cases h; simp [State.go, jobOf] at hj; subst hj; exact .back
  · split at h
    · cases h; simp [State.go, jobOf] at hj; subst hj; exact .same
    · rename_i hf
      cases h; simp [State.go, jobOf] at hj; subst hj
      refine .nextKind ?_
      intro y hy he
      have := find_none hf y hy
      simp [he] at this
  · cases h; simp [State.go, State.say, jobOf] at hj
  · split at h
    · rename_i ha
      cases h; simp [State.go, jobOf] at hj; subst hj; exact .nextArr ha
    · split at h
      · cases h; simp [State.go, jobOf] at hj; subst hj; exact .inner
      · cases h
  · cases h

theorem job_done {s : State} {t : Tid} {job j : Job} {loc : Loc}
    (hj : jobOf ((doneStep s t loc job).pc t) = some j) : j = job := by
  cases job with
  | one id => simp [doneStep, State.go, State.say, jobOf] at hj
  | sess x l o => simp [doneStep, State.go, jobOf] at hj; exact hj.symm
  | all l => simp [doneStep, State.go, jobOf] at hj; exact hj.symm
  | stop i g b =>
    simp only [doneStep] at hj
    revert hj
    repeat' split
    all_goals simp [State.go, jobOf]

theorem job_step {s s' : State} {t : Tid} {l : Lab} {j : Job} (hs : step s t l = some s')
    (hj : jobOf (s'.pc t) = some j) : JobStep s (jobOf (s.pc t)) j := by
  cases l with
  | call job =>
    simp only [step] at hs
    split at hs
    · rename_i j' hp hst
      cases hs
      simp [State.go, jobOf] at hj
      subst hj
      rw [hp]
      cases job <;> simp only [startJob, Option.some.injEq, reduceCtorEq] at hst <;> subst hst
      · exact .single
      · exact .session
      · exact .whole
    · cases hs
  | process =>
    simp only [step] at hs
    split at hs
    · cases hs; simp [State.go, jobOf] at hj
    · cases hs
  | lockR =>
    simp only [step] at hs
    split at hs
    · cases hs
    · split at hs
      · rename_i hp; cases hs; simp [State.go, jobOf] at hj; subst hj; rw [hp]; exact .same
      · cases hs; simp [State.go, jobOf] at hj
      · cases hs
  | look =>
    simp only [step] at hs
    split at hs
    · rename_i job hp
      rw [hp]
      exact job_look hs hj
    · cases hs
  | timeout =>
    simp only [step] at hs
    split at hs
    all_goals first | cases hs; done | skip
    all_goals (cases hs; simp [State.go, State.say, jobOf] at hj)
  | lockW =>
    simp only [step] at hs
    split at hs
    · cases hs
    · split at hs
      · rename_i hp; cases hs; simp [State.go, jobOf] at hj; subst hj; rw [hp]; exact .same
      · cases hs
  | del ok =>
    simp only [step] at hs
    split at hs
    · rename_i job loc hp
      split at hs
      · split at hs
        · cases hs; simp [State.go, jobOf] at hj; subst hj; rw [hp]; exact .same
        · cases hs; simp [State.go, State.say, jobOf] at hj
      · cases hs; simp [State.go, jobOf] at hj; subst hj; rw [hp]; exact .same
    · cases hs
  | done =>
    simp only [step] at hs
    split at hs
    · rename_i job loc hp
      cases hs
      have := job_done hj
      subst this
      rw [hp]; exact .same
    · cases hs
  | begin k i j' =>
    simp only [step] at hs
    split at hs
    · cases hs; simp [State.go, State.say, jobOf] at hj
    · cases hs
  | finish =>
    simp only [step] at hs
    split at hs
    · cases hs; simp [State.go, jobOf] at hj
    · cases hs
  | stop i j' =>
    simp only [step] at hs
    split at hs
    · cases hs; simp [State.go, jobOf] at hj; subst hj; exact .stop
    · cases hs
  | leave =>
    simp only [step] at hs
    split at hs
    · cases hs; simp [State.go, jobOf] at hj
    · cases hs
  | subscribe k n x =>
    obtain ⟨hp, _, _, _, hpc, _⟩ := subscribe_eq hs
    rw [hpc, hp] at hj
    cases hj

/-- The kinds a session removal has finished have no subscription of the session. -/
structure Se (s : State) : Prop where
  left : ∀ u x l o, jobOf (s.pc u) = some (.sess x l o) → ∀ k, k ∉ l → ∀ y ∈ subsOf (s.arr k), y.sess ≠ x
  reg : ∀ k, ∀ y ∈ subsOf (s.arr k), s.reg y.sess = true

theorem left_step {s s' : State} {t : Tid} {l : Lab} (h : Inv s) (he : Se s) (hA : NoLate s t l)
    (hs : step s t l = some s') (u : Tid) (x : Nat) (r : List Kind) (o : Option (List Kind))
    (hu : jobOf (s'.pc u) = some (.sess x r o)) (k : Kind) (hk : k ∉ r) :
    ∀ y ∈ subsOf (s'.arr k), y.sess ≠ x := by
  have sh := step_shape h hs
  have old : ∀ y ∈ subsOf (s.arr k), y.sess ≠ x := by
    by_cases e : u = t
    · subst e
      generalize ho : jobOf (s.pc u) = jo at *
      have hj := job_step hs hu
      rw [ho] at hj
      cases hj with
      | same => exact he.left u x r o ho k hk
      | session => exact absurd (mem_kinds k) hk
      | @nextKind _ k' _ _ hn =>
        by_cases hkk : k = k'
        · subst hkk; exact hn
        · exact he.left u x (k' :: r) o ho k (by simp [hkk, hk])
      | inner => exact absurd (mem_kinds k) hk
    · rw [sh.others u e] at hu
      exact he.left u x r o hu k hk
  rcases sh.arr with ⟨h1, _⟩ | ⟨job', loc', hp, _, hin, rfl⟩ | ⟨k', n, x', rfl⟩
  · rw [h1]; exact old
  · obtain ⟨_, _, hiff, _⟩ := removed_spec h hp hin
    intro y hy
    exact old y ((hiff k y).1 hy).1
  · intro y hy
    rcases (subscribe_mem hs k y).1 hy with ⟨_, rfl⟩ | hy
    · intro hx
      have hx : x' = x := hx
      subst hx
      refine hA k' n x' rfl ⟨u, r, o, ?_⟩
      obtain ⟨_, _, _, _, hpc, _⟩ := subscribe_eq hs
      rw [hpc] at hu
      exact hu
    · exact old y hy

theorem not_has {s : State} {x : Nat} (h : ¬ s.has x = true) (k : Kind) : ∀ y ∈ subsOf (s.arr k), y.sess ≠ x := by
  intro y hy he
  exact h (has_iff.2 ⟨k, y, hy, he⟩)

theorem unreg_ok {s s' : State} {x : Nat} (h : ∀ k, ∀ y ∈ subsOf (s.arr k), s.reg y.sess = true)
    (hn : ∀ k, ∀ y ∈ subsOf (s.arr k), y.sess ≠ x) (ha : s'.arr = s.arr) (hr : s'.reg = (s.unreg x).reg) :
    ∀ k, ∀ y ∈ subsOf (s'.arr k), s'.reg y.sess = true := by
  intro k y hy
  rw [ha] at hy
  rw [hr]
  simp [State.unreg, h k y hy, hn k y hy]

theorem reg_step {s s' : State} {t : Tid} {l : Lab} (h : Inv s) (he : Se s)
    (hs : step s t l = some s') : ∀ k, ∀ y ∈ subsOf (s'.arr k), s'.reg y.sess = true := by
  have same : s'.arr = s.arr → s'.reg = s.reg → ∀ k, ∀ y ∈ subsOf (s'.arr k), s'.reg y.sess = true := by
    intro h1 h2; rw [h1, h2]; exact he.reg
  have hl := fun x r o hp => he.left t x r o hp
  cases l with
  | subscribe k n x =>
    obtain ⟨_, _, _, _, _, _, _, _, _, _, hreg, _⟩ := subscribe_eq hs
    intro k' y hy
    rw [hreg]
    rcases (subscribe_mem hs k' y).1 hy with ⟨_, rfl⟩ | hy
    · simp
    · simp [he.reg k' y hy]
  | look =>
    simp only [step] at hs
    split at hs
    · rename_i job hp
      unfold lookStep at hs
      split at hs
      · split at hs <;> (cases hs; exact same rfl rfl)
      · cases hs
        refine unreg_ok he.reg (fun k => hl _ [] none (by rw [hp]; rfl) k (by simp)) rfl rfl
      · cases hs
        refine unreg_ok he.reg (fun k => hl _ [] _ (by rw [hp]; rfl) k (by simp)) rfl rfl
      · split at hs <;> (cases hs; exact same rfl rfl)
      · cases hs; exact same rfl rfl
      · split at hs
        · cases hs; exact same rfl rfl
        · split at hs
          · cases hs; exact same rfl rfl
          · cases hs
      · cases hs
    · cases hs
  | done =>
    simp only [step] at hs
    split at hs
    · rename_i job loc hp
      cases hs
      cases job with
      | one id =>
        by_cases hh : s.has loc.x.sess = true
        · exact same (doneStep_eq).1 (by simp [doneStep, hh]; rfl)
        · exact unreg_ok he.reg (fun k => not_has hh k) (doneStep_eq).1 (by simp [doneStep, hh]; rfl)
      | sess x r o => exact same rfl rfl
      | all r => exact same rfl rfl
      | stop i g b =>
        by_cases hh : s.has loc.x.sess = true
        · refine same (doneStep_eq).1 ?_
          simp only [doneStep, hh, if_true]
          repeat' split
          all_goals rfl
        · refine unreg_ok he.reg (fun k => not_has hh k) (doneStep_eq).1 ?_
          simp only [doneStep, hh]
          repeat' split
          all_goals first | rfl | contradiction
    · cases hs
  | del ok =>
    simp only [step] at hs
    split at hs
    · rename_i job loc hp
      split at hs
      · rename_i hin
        split at hs
        · cases hs
          obtain ⟨_, _, hiff, _, _, hreg, _⟩ := removed_spec h hp hin
          intro k y hy
          show (removed s t job loc).reg y.sess = true
          rw [hreg]
          exact he.reg k y ((hiff k y).1 hy).1
        · cases hs; exact same rfl rfl
      · cases hs; exact same rfl rfl
    · cases hs
  | call job => simp only [step] at hs; split at hs <;> cases hs; exact same rfl rfl
  | process => simp only [step] at hs; split at hs <;> cases hs; exact same rfl rfl
  | lockR =>
    simp only [step] at hs
    split at hs
    · cases hs
    · split at hs <;> cases hs <;> exact same rfl rfl
  | timeout => simp only [step] at hs; split at hs <;> cases hs <;> exact same rfl rfl
  | lockW =>
    simp only [step] at hs
    split at hs
    · cases hs
    · split at hs <;> cases hs; exact same rfl rfl
  | begin k i j => simp only [step] at hs; split at hs <;> cases hs; exact same rfl rfl
  | finish => simp only [step] at hs; split at hs <;> cases hs; exact same rfl rfl
  | stop i j => simp only [step] at hs; split at hs <;> cases hs; exact same rfl rfl
  | leave => simp only [step] at hs; split at hs <;> cases hs; exact same rfl rfl

theorem reach_se {A : State → Tid → Lab → Prop} (hA : ∀ s t l, A s t l → NoLate s t l) {s : State}
    (h : Reach A s) : Se s := by
  induction h with
  | init =>
    refine ⟨?_, ?_⟩
    · intro u x l o h; cases h
    · intro k y h; cases h
  | next hr ha hs ih =>
    exact ⟨left_step (reach_inv hr) ih (hA _ _ _ ha) hs, reg_step (reach_inv hr) ih hs⟩

theorem empty_step {s s' : State} {t : Tid} {l : Lab} (h : Inv s) (hA : NoneLate s t l)
    (he : ∀ r, Emptying s r → ∀ k, k ∉ r → s.arr k = [])
    (hs : step s t l = some s') (r : List Kind) (hr : Emptying s' r) (k : Kind) (hk : k ∉ r) : s'.arr k = [] := by
  have sh := step_shape h hs
  have old : s.arr k = [] ∧ ∀ k' n x, l ≠ .subscribe k' n x := by
    have nosub : ∀ k' n x, l ≠ .subscribe k' n x := by
      rintro k' n x rfl
      obtain ⟨_, _, _, _, hpc, _⟩ := subscribe_eq hs
      unfold Emptying at hr
      rw [hpc] at hr
      exact hA k' n x rfl r hr
    refine ⟨?_, nosub⟩
    obtain ⟨u, hu⟩ := hr
    by_cases e : u = t
    · subst e
      generalize ho : jobOf (s.pc u) = jo at *
      rcases hu with hu | ⟨x, q, hu⟩
      · have hj := job_step hs hu
        rw [ho] at hj
        cases hj with
        | same => exact he r ⟨u, Or.inl ho⟩ k hk
        | whole => exact absurd (mem_kinds k) hk
        | back => exact he r ⟨u, Or.inr ⟨_, _, ho⟩⟩ k hk
        | @nextArr k' _ hn =>
          by_cases hkk : k = k'
          · subst hkk; exact hn
          · exact he (k' :: r) ⟨u, Or.inl ho⟩ k (by simp [hkk, hk])
      · have hj := job_step hs hu
        rw [ho] at hj
        cases hj with
        | same => exact he r ⟨u, Or.inr ⟨_, _, ho⟩⟩ k hk
        | nextKind => exact he r ⟨u, Or.inr ⟨_, _, ho⟩⟩ k hk
        | inner => exact he r ⟨u, Or.inl ho⟩ k hk
    · rw [sh.others u e] at hu
      exact he r ⟨u, hu⟩ k hk
  obtain ⟨old, nosub⟩ := old
  rcases sh.arr with ⟨h1, _⟩ | ⟨job', loc', hp, _, hin, rfl⟩ | ⟨k', n, x', hl⟩
  · rw [h1]; exact old
  · obtain ⟨hm, _, _, _, _, _, _, ho⟩ := removed_spec h hp hin
    by_cases hkk : k = loc'.k
    · subst hkk; rw [old] at hm; cases hm
    · rw [ho k hkk]; exact old
  · exact absurd hl (nosub k' n x')

theorem reach_empty {A : State → Tid → Lab → Prop} (hA : ∀ s t l, A s t l → NoneLate s t l) {s : State}
    (h : Reach A s) : ∀ r, Emptying s r → ∀ k, k ∉ r → s.arr k = [] := by
  induction h with
  | init =>
    rintro r ⟨u, h | ⟨x, q, h⟩⟩ <;> cases h
  | next hr ha hs ih => exact empty_step (reach_inv hr) (hA _ _ _ ha) ih hs

theorem subAt_inj {a : List Group} (hn : (subsOf a).Nodup) {i j i' j' : Nat} {x : Sub}
    (h : subAt a i j = some x) (h' : subAt a i' j' = some x) : i = i' := by
  induction a generalizing i i' with
  | nil => simp [subAt] at h
  | cons g a ih =>
    have hs : subsOf (g :: a) = g.subs ++ subsOf a := by simp [subsOf]
    rw [hs] at hn
    have hd := List.nodup_append.1 hn
    have tl : ∀ i j, subAt (g :: a) (i + 1) j = subAt a i j := by intro i j; simp [subAt]
    have hd0 : ∀ j, subAt (g :: a) 0 j = g.subs[j]? := by intro j; simp [subAt]
    cases i with
    | zero =>
      cases i' with
      | zero => rfl
      | succ i' =>
        rw [hd0] at h
        rw [tl] at h'
        exact absurd rfl (hd.2.2 x (List.mem_of_getElem? h) x (subAt_mem h'))
    | succ i =>
      cases i' with
      | zero =>
        rw [tl] at h
        rw [hd0] at h'
        exact absurd rfl (hd.2.2 x (List.mem_of_getElem? h') x (subAt_mem h))
      | succ i' =>
        rw [tl] at h h'
        rw [ih hd.2.1 h h']

structure Ca (s : State) : Prop where
  al : Al s
  stop : ∀ t i g b loc, target (s.pc t) = some (.stop i g b, loc) → g = s.gen ∧ b = lastOf (s.arr .notif) i
  done : ∀ t i g b loc, s.pc t = .done (.stop i g b) loc → b = true ∨ (g = s.gen ∧ i < (s.arr .notif).length)
  ub : s.ub = false

theorem length_swapDel {l : List α} {i : Nat} : (swapDel l i).length = l.length - 1 := by
  unfold swapDel
  cases hl : l.getLast? with
  | none => simp [List.getLast?_eq_none_iff.1 hl]
  | some y => simp

theorem delAt_length {a : List Group} {i j : Nat} (h : lastOf a i = false) {x : Sub}
    (hx : subAt a i j = some x) : (delAt a i j).length = a.length := by
  unfold delAt
  unfold lastOf at h
  unfold subAt at hx
  cases hg : a[i]? with
  | none => rfl
  | some g =>
    rw [hg] at h hx
    simp only at h hx ⊢
    have hne : g.subs.length ≠ 1 := by simpa using h
    have hpos : 0 < g.subs.length := by
      have := (List.getElem?_eq_some_iff.1 hx).1
      omega
    split
    · rename_i hc
      have h1 := length_swapDel (l := g.subs) (i := j)
      rw [List.isEmpty_iff.1 hc] at h1
      simp at h1
      omega
    · simp

theorem ca_step {s s' : State} {t : Tid} {l : Lab} (h : Inv s) (hc : Ca s) (hA : Calm s t l)
    (hs : step s t l = some s') : Ca s' := by
  have sh := step_shape h hs
  refine ⟨al_step h hc.al hA.1 hs, ?_, ?_, ?_⟩
  · intro u i g b loc hu
    by_cases e : u = t
    · subst e
      obtain ⟨h1, h2, h3⟩ := sh.enter _ _ hu
      rw [h1, h2]
      rcases h3 with h3 | ⟨_, _, _, h3⟩
      · exact hc.stop u i g b loc h3
      · exact h3 i g b rfl
    · rw [sh.others u e] at hu
      rcases sh.arr with ⟨h1, h2, _⟩ | ⟨job', loc', hp, _⟩ | ⟨k, n, x, rfl⟩
      · rw [h1, h2]; exact hc.stop u i g b loc hu
      · exact absurd (hc.al.one u t (removing_iff.2 ⟨_, hu⟩) ⟨job', loc', Or.inr hp⟩) e
      · exact absurd (removing_iff.2 ⟨_, hu⟩) (hA.2 k n x rfl u)
  · intro u i g b loc hu
    by_cases e : u = t
    · subst e
      obtain ⟨ok, rfl, hp⟩ := sh.done _ _ hu
      have hpl := hc.al.place u _ _ (by rw [hp]; rfl)
      have hin : inPlace s loc = true := inPlace_eq.2 ⟨_, hpl, rfl⟩
      have he := del_done hp hin hs ⟨_, _, hu⟩
      subst he
      obtain ⟨hst1, hst2⟩ := hc.stop u i g b loc (by rw [hp]; rfl)
      obtain ⟨⟨hk, hi⟩, _, hf⟩ := h.fits u _ _ (by rw [hp]; rfl)
      cases b with
      | true => exact Or.inl rfl
      | false =>
        right
        obtain ⟨_, _, _, _, hg, _⟩ := removed_spec h hp hin
        rw [hg]
        refine ⟨hst1, ?_⟩
        show i < ((remove s loc).arr .notif).length
        have key : ∃ i' j', subAt (s.arr loc.k) i' j' = some loc.x ∧
            (remove s loc).arr loc.k = delAt (s.arr loc.k) i' j' := by
          rcases remove_eq h hin hf with ⟨h1, h2⟩ | ⟨_, i', j', h1, h2⟩
          · refine ⟨_, _, h1, ?_⟩
            rw [h2]; split <;> simp [State.say, State.setArr]
          · refine ⟨_, _, h1, ?_⟩
            rw [h2]; split <;> simp [State.say, State.setArr]
        obtain ⟨i', j', h1, h2⟩ := key
        have h3 := subAt_inj (h.nodup loc.k) hpl h1
        subst h3
        rw [hk] at h1 h2
        rw [hi] at h1 h2
        rw [h2, delAt_length hst2.symm h1]
        unfold subAt at h1
        split at h1
        · cases h1
        · rename_i hx; exact (List.getElem?_eq_some_iff.1 hx).1
    · rw [sh.others u e] at hu
      have hrd : u ∈ s.rd := (h.rd u).2 (by rw [hu]; rfl)
      rcases sh.arr with ⟨h1, h2, _⟩ | ⟨job', loc', hp, _⟩ | ⟨k, n, x, rfl⟩
      · rw [h1, h2]; exact hc.done u i g b loc hu
      · have hwr : s.wr = some t := (h.wr t).2 (by rw [hp]; rfl)
        rw [h.excl (by rw [hwr]; rfl)] at hrd
        cases hrd
      · obtain ⟨_, _, hr, _⟩ := subscribe_eq hs
        rw [hr] at hrd
        cases hrd
  · rcases sh.ub with h1 | ⟨i, g, loc, hp, hn⟩
    · rw [h1]; exact hc.ub
    · rcases hc.done t i g false loc hp with h1 | h1
      · cases h1
      · exact absurd h1 hn

theorem reach_ca {A : State → Tid → Lab → Prop} (hA : ∀ s t l, A s t l → Calm s t l) {s : State}
    (h : Reach A s) : Ca s := by
  induction h with
  | init =>
    refine ⟨reach_al (A := Alone) (fun _ _ _ h => h) .init, ?_, ?_, rfl⟩
    · intro t i g b loc h; cases h
    · intro t i g b loc h; cases h
  | next hr ha hs ih => exact ca_step (reach_inv hr) ih (hA _ _ _ ha) hs

end Verif.SubCtx
