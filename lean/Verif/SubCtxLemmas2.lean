import Verif.SubCtxLemmas

/-! The invariant holds in every schedule. -/

namespace Verif.SubCtx

theorem lookStep_eq {s s' : State} {t : Tid} {job : Job} (h : lookStep s t job = some s') :
    s'.arr = s.arr ∧ s'.next = s.next ∧ s'.gen = s.gen ∧ s'.wr = s.wr ∧ s'.ub = s.ub ∧
    (∀ u, u ≠ t → s'.pc u = s.pc u) ∧ (∀ u, u ≠ t → (u ∈ s'.rd ↔ u ∈ s.rd)) ∧
    (s'.log = s.log ∨ ∃ r, s'.log = .ret job r :: s.log) ∧
    ((s'.pc t = .idle ∧ t ∉ s'.rd) ∨ (∃ j, s'.pc t = .look j ∧ s'.rd = s.rd) ∨
      ∃ loc, s'.pc t = .gap job loc ∧ t ∉ s'.rd ∧ subAt (s.arr loc.k) loc.i loc.j = some loc.x ∧
        Fits job loc) := by
  unfold lookStep at h
  split at h
  · split at h
    · rename_i hf
      cases h
      obtain ⟨h1, h2⟩ := findId_some hf
      refine ⟨rfl, rfl, rfl, rfl, rfl, ?_, ?_, Or.inl rfl, Or.inr (Or.inr ⟨_, ?_, ?_, h1, h2⟩)⟩
      · intro u hu; simp [State.go, State.rdDrop, hu]
      · intro u hu; simp [State.go, State.rdDrop, hu]
      · simp [State.go]
      · simp [State.go, State.rdDrop]
    · cases h
      refine ⟨rfl, rfl, rfl, rfl, rfl, ?_, ?_, Or.inr ⟨_, rfl⟩, Or.inl ⟨?_, ?_⟩⟩
      · intro u hu; simp [State.go, State.rdDrop, State.say, hu]
      · intro u hu; simp [State.go, State.rdDrop, State.say, hu]
      · simp [State.go, State.say]
      · simp [State.go, State.rdDrop, State.say]
  · cases h
    refine ⟨rfl, rfl, rfl, rfl, rfl, ?_, ?_, Or.inr ⟨_, rfl⟩, Or.inl ⟨?_, ?_⟩⟩
    · intro u hu; simp [State.go, State.rdDrop, State.say, State.unreg, hu]
    · intro u hu; simp [State.go, State.rdDrop, State.say, State.unreg, hu]
    · simp [State.go, State.say]
    · simp [State.go, State.rdDrop, State.say, State.unreg]
  · cases h
    refine ⟨rfl, rfl, rfl, rfl, rfl, ?_, ?_, Or.inl rfl, Or.inr (Or.inl ⟨_, if_pos rfl, rfl⟩)⟩
    · intro u hu; simp [State.go, State.unreg, hu]
    · intro u hu; rfl
  · split at h
    · rename_i hf
      cases h
      obtain ⟨h1, h2⟩ := find_some hf
      refine ⟨rfl, rfl, rfl, rfl, rfl, ?_, ?_, Or.inl rfl, Or.inr (Or.inr ⟨_, if_pos rfl, ?_, h1, ?_⟩)⟩
      · intro u hu; simp [State.go, State.rdDrop, hu]
      · intro u hu; simp [State.go, State.rdDrop, hu]
      · simp [State.go, State.rdDrop]
      · simpa [Fits] using h2
    · cases h
      refine ⟨rfl, rfl, rfl, rfl, rfl, ?_, ?_, Or.inl rfl, Or.inr (Or.inl ⟨_, if_pos rfl, rfl⟩)⟩
      · intro u hu; simp [State.go, hu]
      · intro u hu; rfl
  · cases h
    refine ⟨rfl, rfl, rfl, rfl, rfl, ?_, ?_, Or.inr ⟨_, rfl⟩, Or.inl ⟨?_, ?_⟩⟩
    · intro u hu; simp [State.go, State.rdDrop, State.say, hu]
    · intro u hu; simp [State.go, State.rdDrop, State.say, hu]
    · simp [State.go, State.say]
    · simp [State.go, State.rdDrop, State.say]
  · split at h
    · cases h
      refine ⟨rfl, rfl, rfl, rfl, rfl, ?_, ?_, Or.inl rfl, Or.inr (Or.inl ⟨_, if_pos rfl, rfl⟩)⟩
      · intro u hu; simp [State.go, hu]
      · intro u hu; rfl
    · split at h
      · cases h
        refine ⟨rfl, rfl, rfl, rfl, rfl, ?_, ?_, Or.inl rfl, Or.inr (Or.inl ⟨_, if_pos rfl, rfl⟩)⟩
        · intro u hu; simp [State.go, hu]
        · intro u hu; rfl
      · cases h
  · cases h

theorem doneStep_eq {s : State} {t : Tid} {job : Job} {loc : Loc} :
    (doneStep s t loc job).arr = s.arr ∧ (doneStep s t loc job).next = s.next ∧
    (doneStep s t loc job).gen = s.gen ∧ (doneStep s t loc job).wr = s.wr ∧
    (∀ u, u ≠ t → (doneStep s t loc job).pc u = s.pc u) ∧
    (∀ u, u ≠ t → (u ∈ (doneStep s t loc job).rd ↔ u ∈ s.rd)) ∧
    ((doneStep s t loc job).log = s.log ∨ (doneStep s t loc job).log = .ret job .ok :: s.log) ∧
    (((doneStep s t loc job).pc t = .idle ∧ t ∉ (doneStep s t loc job).rd) ∨
      ((∃ j, (doneStep s t loc job).pc t = .look j) ∧ (doneStep s t loc job).rd = s.rd) ∨
      ((doneStep s t loc job).pc t = .proc ∧ (doneStep s t loc job).rd = s.rd)) := by
  unfold doneStep
  cases job with
  | one id =>
    by_cases hh : s.has loc.x.sess = true <;> simp only [hh, if_true, if_false, Bool.false_eq_true]
    all_goals
      refine ⟨rfl, rfl, rfl, rfl, ?_, ?_, Or.inr rfl, Or.inl ⟨?_, ?_⟩⟩
      · intro u hu; simp [State.go, State.rdDrop, State.say, State.unreg, hu]
      · intro u hu; simp [State.go, State.rdDrop, State.say, State.unreg, hu]
      · simp [State.go, State.say]
      · simp [State.go, State.rdDrop, State.say]
  | sess x l o =>
    refine ⟨rfl, rfl, rfl, rfl, ?_, ?_, Or.inl rfl, Or.inr (Or.inl ⟨⟨.sess x l o, ?_⟩, rfl⟩)⟩
    · intro u hu; simp [State.go, hu]
    · intro u hu; rfl
    · simp [State.go]
  | all l =>
    refine ⟨rfl, rfl, rfl, rfl, ?_, ?_, Or.inl rfl, Or.inr (Or.inl ⟨⟨.all l, ?_⟩, rfl⟩)⟩
    · intro u hu; simp [State.go, hu]
    · intro u hu; rfl
    · simp [State.go]
  | stop i g last =>
    simp only
    repeat' split
    all_goals
      refine ⟨rfl, rfl, rfl, rfl, ?_, ?_, Or.inl rfl, Or.inr (Or.inr ⟨?_, rfl⟩)⟩
      · intro u hu; simp [State.go, State.unreg, hu]
      · intro u hu; rfl
      · simp [State.go]

theorem Inv.move {s s' : State} (h : Inv s) (t : Tid) (ha : s'.arr = s.arr) (hn : s'.next = s.next)
    (hl : s'.log = s.log ∨ ∃ e, s'.log = e :: s.log ∧ ∀ id, e ≠ .ended id)
    (hpc : ∀ u, u ≠ t → s'.pc u = s.pc u) (hrd : ∀ u, u ≠ t → (u ∈ s'.rd ↔ u ∈ s.rd))
    (hrt : t ∈ s'.rd ↔ holdsR (s'.pc t) = true) (hwr : ∀ u, u ≠ t → (s'.wr = some u ↔ s.wr = some u))
    (hwt : s'.wr = some t ↔ holdsW (s'.pc t) = true) (hex : s'.wr.isSome = true → s'.rd = [])
    (hcb : ∀ id, s'.pc t = .cb id → Present s id)
    (hfit : ∀ job loc, target (s'.pc t) = some (job, loc) → Fits job loc ∧ loc.x.id < s.next ∧
      ∀ k, ∀ y ∈ subsOf (s.arr k), y.id = loc.x.id → k = loc.k ∧ y = loc.x) : Inv s' where
  rd := by
    intro u
    by_cases hu : u = t
    · subst hu; exact hrt
    · rw [hrd u hu, hpc u hu]; exact h.rd u
  wr := by
    intro u
    by_cases hu : u = t
    · subst hu; exact hwt
    · rw [hwr u hu, hpc u hu]; exact h.wr u
  excl := hex
  nodup := by rw [ha]; exact h.nodup
  uniq := by rw [ha]; exact h.uniq
  lt := by rw [ha, hn]; exact h.lt
  cb := by
    intro u id hu
    unfold Present
    rw [ha]
    by_cases hut : u = t
    · subst hut; exact hcb id hu
    · rw [hpc u hut] at hu; exact h.cb u id hu
  fits := by
    intro u job loc hu
    rw [ha, hn]
    by_cases hut : u = t
    · subst hut; exact hfit job loc hu
    · rw [hpc u hut] at hu; exact h.fits u job loc hu
  ended := by
    intro id hid
    unfold Present
    rw [ha, hn]
    refine h.ended id ?_
    rcases hl with hl | ⟨e, hl, he⟩
    · rw [hl] at hid; exact hid
    · rw [hl] at hid
      rcases List.mem_cons.1 hid with hid | hid
      · exact absurd hid.symm (he id)
      · exact hid
  once := by
    rcases hl with hl | ⟨e, hl, he⟩
    · rw [hl]; exact h.once
    · rw [hl, List.filter_cons]
      cases e with
      | ended id => exact absurd rfl (he id)
      | ret _ _ => exact h.once
      | called _ => exact h.once

theorem remove_eq {s : State} {loc : Loc} (h : Inv s) (hp : inPlace s loc = true)
    (hf : ∀ k, ∀ y ∈ subsOf (s.arr k), y.id = loc.x.id → k = loc.k ∧ y = loc.x) :
    subAt (s.arr loc.k) loc.i loc.j = some loc.x ∧
    remove s loc = (if loc.k = .notif then
      (s.setArr loc.k (delAt (s.arr loc.k) loc.i loc.j)).say (.ended loc.x.id)
      else s.setArr loc.k (delAt (s.arr loc.k) loc.i loc.j)) ∨
    subAt (s.arr loc.k) loc.i loc.j = some loc.x ∧ ∃ i j, subAt (s.arr loc.k) i j = some loc.x ∧
      remove s loc = (if loc.k = .notif then
      (s.setArr loc.k (delAt (s.arr loc.k) i j)).say (.ended loc.x.id)
      else s.setArr loc.k (delAt (s.arr loc.k) i j)) := by
  obtain ⟨x, hx, hxi⟩ := inPlace_eq.1 hp
  have hxe := (hf loc.k x (subAt_mem hx) hxi).2
  subst hxe
  right
  refine ⟨hx, ?_⟩
  unfold remove
  cases hfi : find (fun y => y.id == loc.x.id) (s.arr loc.k) 0 with
  | none =>
    have := find_none hfi loc.x (subAt_mem hx)
    simp at this
  | some q =>
    obtain ⟨i, j, y⟩ := q
    obtain ⟨h1, h2⟩ := find_some hfi
    have hy := (hf loc.k y (subAt_mem h1) (by simpa using h2)).2
    subst hy
    exact ⟨i, j, h1, rfl⟩

/-- What removing does: exactly the subscription is gone. -/
theorem remove_spec {s : State} {loc : Loc} (h : Inv s) (hp : inPlace s loc = true)
    (hf : ∀ k, ∀ y ∈ subsOf (s.arr k), y.id = loc.x.id → k = loc.k ∧ y = loc.x) :
    loc.x ∈ subsOf (s.arr loc.k) ∧
    (∀ k, k ≠ loc.k → (remove s loc).arr k = s.arr k) ∧
    (loc.x :: subsOf ((remove s loc).arr loc.k)).Perm (subsOf (s.arr loc.k)) ∧
    (remove s loc).next = s.next ∧ (remove s loc).gen = s.gen ∧ (remove s loc).pc = s.pc ∧
    (remove s loc).reg = s.reg ∧ (remove s loc).ub = s.ub ∧
    (remove s loc).log = (if loc.k = .notif then .ended loc.x.id :: s.log else s.log) := by
  have key : ∃ i j, subAt (s.arr loc.k) i j = some loc.x ∧
      remove s loc = (if loc.k = .notif then
      (s.setArr loc.k (delAt (s.arr loc.k) i j)).say (.ended loc.x.id)
      else s.setArr loc.k (delAt (s.arr loc.k) i j)) := by
    rcases remove_eq h hp hf with ⟨h1, h2⟩ | ⟨_, h2⟩
    · exact ⟨_, _, h1, h2⟩
    · exact h2
  obtain ⟨i, j, h1, h2⟩ := key
  rw [h2]
  refine ⟨subAt_mem h1, ?_, ?_, ?_, ?_, ?_, ?_, ?_, ?_⟩
  · intro k hk
    split <;> simp [State.setArr, State.say, hk]
  · have : (if loc.k = .notif then
      (s.setArr loc.k (delAt (s.arr loc.k) i j)).say (.ended loc.x.id)
      else s.setArr loc.k (delAt (s.arr loc.k) i j)).arr loc.k = delAt (s.arr loc.k) i j := by
      split <;> simp [State.setArr, State.say]
    rw [this]
    exact delAt_perm h1
  all_goals split <;> simp [State.setArr, State.say, *]

theorem Inv.removed {s : State} {t : Tid} {job : Job} {loc : Loc} (h : Inv s)
    (hpc : s.pc t = .del job loc) (hp : inPlace s loc = true) :
    Inv ({ remove s loc with wr := none, rd := [t] }.go t (.done job loc)) := by
  obtain ⟨_, hlt, hf⟩ := h.fits t job loc (by rw [hpc]; rfl)
  obtain ⟨hm, ho, hperm, hn, hg, hpcs, _, _, hlog⟩ := remove_spec h hp hf
  have hwr : s.wr = some t := (h.wr t).2 (by rw [hpc]; rfl)
  have hrd : s.rd = [] := h.excl (by rw [hwr]; rfl)
  have hno : ∀ u, holdsR (s.pc u) = false := by
    intro u
    cases hx : holdsR (s.pc u) with
    | false => rfl
    | true => have := (h.rd u).2 hx; rw [hrd] at this; cases this
  have hsub : ∀ k x, x ∈ subsOf ((remove s loc).arr k) → x ∈ subsOf (s.arr k) := by
    intro k x hx
    by_cases hk : k = loc.k
    · subst hk
      exact hperm.mem_iff.1 (List.mem_cons_of_mem _ hx)
    · rw [ho k hk] at hx; exact hx
  have hnd : loc.x ∉ subsOf ((remove s loc).arr loc.k) ∧ (subsOf ((remove s loc).arr loc.k)).Nodup := by
    have := hperm.nodup_iff.2 (h.nodup loc.k)
    exact List.nodup_cons.1 this
  have hgone : ¬ ∃ k, ∃ x ∈ subsOf ((remove s loc).arr k), x.id = loc.x.id := by
    rintro ⟨k, x, hx, hid⟩
    obtain ⟨rfl, rfl⟩ := hf k x (hsub k x hx) hid
    exact hnd.1 hx
  refine ⟨?_, ?_, ?_, ?_, ?_, ?_, ?_, ?_, ?_, ?_⟩
  · intro u
    by_cases hu : u = t
    · subst hu; simp [State.go, holdsR]
    · have h1 : ({ remove s loc with wr := none, rd := [t] }.go t (.done job loc)).pc u = s.pc u := by
        simp [State.go, hu, hpcs]
      rw [h1, hno u]
      simp [State.go, hu]
  · intro u
    by_cases hu : u = t
    · subst hu; simp [State.go, holdsW]
    · simp only [State.go, if_neg hu, hpcs]
      constructor
      · intro hx; cases hx
      · intro hx
        have := (h.wr u).2 hx
        rw [hwr] at this
        exact absurd (Option.some.inj this).symm hu
  · intro hx; cases hx
  · intro k
    by_cases hk : k = loc.k
    · subst hk; exact hnd.2
    · simp only [State.go]; rw [ho k hk]; exact h.nodup k
  · intro k k' x y hx hy hid
    exact h.uniq k k' x y (hsub k x hx) (hsub k' y hy) hid
  · intro k x hx
    simp only [State.go, hn]
    exact h.lt k x (hsub k x hx)
  · intro u id hu
    by_cases hut : u = t
    · subst hut; simp [State.go] at hu
    · simp only [State.go, if_neg hut, hpcs] at hu
      have := hno u
      rw [hu] at this; cases this
  · intro u job' loc' hu
    by_cases hut : u = t
    · subst hut; simp [State.go, target] at hu
    · simp only [State.go, if_neg hut, hpcs] at hu
      obtain ⟨h1, h2, h3⟩ := h.fits u job' loc' hu
      refine ⟨h1, by simp only [State.go, hn]; exact h2, ?_⟩
      intro k y hy hid
      exact h3 k y (hsub k y hy) hid
  · intro id hid
    simp only [State.go, hlog] at hid
    split at hid
    · rcases List.mem_cons.1 hid with hid | hid
      · cases hid
        exact ⟨by simp only [State.go, hn]; exact hlt, hgone⟩
      · obtain ⟨h1, h2⟩ := h.ended id hid
        refine ⟨by simp only [State.go, hn]; exact h1, ?_⟩
        rintro ⟨k, x, hx, hxi⟩
        exact h2 ⟨k, x, hsub k x hx, hxi⟩
    · obtain ⟨h1, h2⟩ := h.ended id hid
      refine ⟨by simp only [State.go, hn]; exact h1, ?_⟩
      rintro ⟨k, x, hx, hxi⟩
      exact h2 ⟨k, x, hsub k x hx, hxi⟩
  · simp only [State.go, hlog]
    split
    · rw [List.filter_cons]
      simp only [if_true]
      rw [List.nodup_cons]
      refine ⟨?_, h.once⟩
      intro hmem
      have hmem := (List.mem_filter.1 hmem).1
      exact (h.ended _ hmem).2 ⟨loc.k, loc.x, hm, rfl⟩
    · exact h.once

theorem subscribe_eq {s s' : State} {t : Tid} {k : Kind} {n x : Nat}
    (h : step s t (.subscribe k n x) = some s') :
    s.pc t = .idle ∧ s.wr = none ∧ s.rd = [] ∧ s'.next = s.next + 1 ∧ s'.pc = s.pc ∧ s'.wr = s.wr ∧
    s'.rd = s.rd ∧ s'.log = s.log ∧ s'.ub = s.ub ∧
    (s'.arr = fun k' => if k' = k then add (s.arr k) n ⟨s.next, x⟩ else s.arr k') ∧
    (s'.reg = fun y => s.reg y || y == x) ∧ (k ≠ .notif → s'.gen = s.gen) := by
  simp only [step] at h
  split at h
  · split at h
    · cases h
    · rename_i hp hc
      have h := Option.some.inj h
      subst h
      simp only [Bool.or_eq_true, Bool.not_eq_true', not_or, Bool.not_eq_true, Bool.not_eq_false] at hc
      refine ⟨hp, ?_, List.isEmpty_iff.1 hc.2, rfl, rfl, rfl, rfl, rfl, rfl, rfl, rfl, ?_⟩
      · cases hw : s.wr with
        | none => rfl
        | some u => rw [hw] at hc; simp at hc
      · intro hk; simp [hk, State.setArr]
  · cases h

theorem step_inv {s s' : State} {t : Tid} {l : Lab} (h : Inv s) (hs : step s t l = some s') : Inv s' := by
  have wrn : ∀ {p : Pc}, s.pc t = p → holdsW p = false → s.wr ≠ some t := by
    intro p hp hw hx
    have := (h.wr t).1 hx
    rw [hp, hw] at this; cases this
  have rdn : ∀ {p : Pc}, s.pc t = p → holdsR p = false → t ∉ s.rd := by
    intro p hp hw hx
    have := (h.rd t).1 hx
    rw [hp, hw] at this; cases this
  have rdy : ∀ {p : Pc}, s.pc t = p → holdsR p = true → t ∈ s.rd := by
    intro p hp hw
    exact (h.rd t).2 (by rw [hp]; exact hw)
  cases l with
  | call job =>
    simp only [step] at hs
    split at hs
    · rename_i j hp hj
      cases hs
      refine h.move t rfl rfl (Or.inl rfl) (fun u hu => by simp [State.go, hu]) (fun _ _ => Iff.rfl) ?_
        (fun _ _ => Iff.rfl) ?_ h.excl ?_ ?_
      · simp [State.go, holdsR, rdn hp rfl]
      · simp [State.go, holdsW, wrn hp rfl]
      · intro id hx; simp [State.go] at hx
      · intro job loc hx; simp [State.go, target] at hx
    · cases hs
  | process =>
    simp only [step] at hs
    split at hs
    · rename_i hp
      cases hs
      refine h.move t rfl rfl (Or.inl rfl) (fun u hu => by simp [State.go, hu]) (fun _ _ => Iff.rfl) ?_
        (fun _ _ => Iff.rfl) ?_ h.excl ?_ ?_
      · simp [State.go, holdsR, rdn hp rfl]
      · simp [State.go, holdsW, wrn hp rfl]
      · intro id hx; simp [State.go] at hx
      · intro job loc hx; simp [State.go, target] at hx
    · cases hs
  | lockR =>
    simp only [step] at hs
    split at hs
    · cases hs
    · rename_i hw
      split at hs
      all_goals first | cases hs; done | skip
      all_goals
        rename_i hp
        cases hs
        refine h.move t rfl rfl (Or.inl rfl) (fun u hu => by simp [State.go, hu])
          (fun u hu => by simp [State.go, hu]) ?_ (fun _ _ => Iff.rfl) ?_ ?_ ?_ ?_
        · simp [State.go, holdsR]
        · simp [State.go, holdsW, wrn hp rfl]
        · intro hx; exact absurd hx hw
        · intro id hx; simp [State.go] at hx
        · intro job loc hx; simp [State.go, target] at hx
  | look =>
    simp only [step] at hs
    split at hs
    · rename_i job hp
      obtain ⟨ha, hn, _, hwr, _, hpc, hrd, hl, hcase⟩ := lookStep_eq hs
      refine h.move t ha hn ?_ hpc hrd ?_ (fun u _ => by rw [hwr]) ?_ ?_ ?_ ?_
      · rcases hl with hl | ⟨r, hl⟩
        · exact Or.inl hl
        · exact Or.inr ⟨_, hl, by simp⟩
      · rcases hcase with ⟨h1, h2⟩ | ⟨j, h1, h2⟩ | ⟨loc, h1, h2, _⟩
        · simp [h1, h2, holdsR]
        · simp [h1, h2, holdsR, rdy hp rfl]
        · simp [h1, h2, holdsR]
      · rw [hwr]
        rcases hcase with ⟨h1, _⟩ | ⟨j, h1, _⟩ | ⟨loc, h1, _⟩ <;> simp [h1, holdsW, wrn hp rfl]
      · intro hx
        rw [hwr] at hx
        have := rdy hp rfl
        rw [h.excl hx] at this; cases this
      · intro id hx
        rcases hcase with ⟨h1, _⟩ | ⟨j, h1, _⟩ | ⟨loc, h1, _⟩ <;> rw [h1] at hx <;> cases hx
      · intro job' loc' hx
        rcases hcase with ⟨h1, _⟩ | ⟨j, h1, _⟩ | ⟨loc, h1, _, h2, h3⟩ <;> rw [h1] at hx
        · cases hx
        · cases hx
        · cases hx
          refine ⟨h3, h.lt _ _ (subAt_mem h2), ?_⟩
          intro k y hy hid
          exact h.uniq _ _ _ _ hy (subAt_mem h2) hid
    · cases hs
  | timeout =>
    simp only [step] at hs
    split at hs
    all_goals first | cases hs; done | skip
    all_goals
      rename_i hp
      cases hs
      refine h.move t rfl rfl (by first | exact Or.inl rfl | exact Or.inr ⟨_, rfl, by simp⟩)
        (fun u hu => by simp [State.go, State.say, hu])
        (fun u hu => Iff.rfl) ?_ (fun _ _ => Iff.rfl) ?_ h.excl ?_ ?_
      · simp [State.go, State.say, holdsR, rdn hp rfl]
      · simp [State.go, State.say, holdsW, wrn hp rfl]
      · intro id hx; simp [State.go, State.say] at hx
      · intro job loc hx; simp [State.go, State.say, target] at hx
  | lockW =>
    simp only [step] at hs
    split at hs
    · cases hs
    · rename_i hw
      simp only [Bool.or_eq_true, Bool.not_eq_true', not_or, Bool.not_eq_true, Bool.not_eq_false] at hw
      split at hs
      · rename_i job loc hp
        cases hs
        refine h.move t rfl rfl (Or.inl rfl) (fun u hu => by simp [State.go, hu])
          (fun u hu => Iff.rfl) ?_ ?_ ?_ ?_ ?_ ?_
        · simp [State.go, holdsR, rdn hp rfl]
        · intro u hu
          simp only [State.go, Option.some.injEq]
          constructor
          · intro hx; exact absurd hx.symm hu
          · intro hx; rw [hx] at hw; simp at hw
        · simp [State.go, holdsW]
        · intro _; exact List.isEmpty_iff.1 hw.2
        · intro id hx; simp [State.go] at hx
        · intro job' loc' hx
          simp only [State.go, target, if_true] at hx
          cases hx
          exact h.fits t job loc (by rw [hp]; rfl)
      · cases hs
  | del ok =>
    simp only [step] at hs
    split at hs
    · rename_i job loc hp
      have hwr : s.wr = some t := (h.wr t).2 (by rw [hp]; rfl)
      have hrd : s.rd = [] := h.excl (by rw [hwr]; rfl)
      split at hs
      · rename_i hin
        split at hs
        · cases hs; exact h.removed hp hin
        · cases hs
          refine h.move t rfl rfl (Or.inr ⟨_, rfl, by simp⟩) (fun u hu => by simp [State.go, State.say, hu])
            (fun u hu => Iff.rfl) ?_ ?_ ?_ ?_ ?_ ?_
          · simp [State.go, State.say, holdsR, hrd]
          · intro u hu; simp [State.go, State.say, hwr, Ne.symm hu]
          · simp [State.go, State.say, holdsW]
          · intro hx; cases hx
          · intro id hx; simp [State.go, State.say] at hx
          · intro job loc hx; simp [State.go, State.say, target] at hx
      · cases hs
        refine h.move t rfl rfl (Or.inl rfl) (fun u hu => by simp [State.go, hu])
          (fun u hu => by simp [State.go, hrd, hu]) ?_ ?_ ?_ ?_ ?_ ?_
        · simp [State.go, holdsR]
        · intro u hu; simp [State.go, hwr, Ne.symm hu]
        · simp [State.go, holdsW]
        · intro hx; cases hx
        · intro id hx; simp [State.go] at hx
        · intro job loc hx; simp [State.go, target] at hx
    · cases hs
  | done =>
    simp only [step] at hs
    split at hs
    · rename_i job loc hp
      cases hs
      obtain ⟨ha, hn, _, hwr, hpc, hrd, hl, hcase⟩ := doneStep_eq (s := s) (t := t) (job := job) (loc := loc)
      refine h.move t ha hn ?_ hpc hrd ?_ (fun u _ => by rw [hwr]) ?_ ?_ ?_ ?_
      · rcases hl with hl | hl
        · exact Or.inl hl
        · exact Or.inr ⟨_, hl, by simp⟩
      · rcases hcase with ⟨h1, h2⟩ | ⟨⟨j, h1⟩, h2⟩ | ⟨h1, h2⟩
        · simp [h1, h2, holdsR]
        · simp [h1, h2, holdsR, rdy hp rfl]
        · simp [h1, h2, holdsR, rdy hp rfl]
      · rw [hwr]
        rcases hcase with ⟨h1, _⟩ | ⟨⟨j, h1⟩, _⟩ | ⟨h1, _⟩ <;> simp [h1, holdsW, wrn hp rfl]
      · intro hx
        rw [hwr] at hx
        have := rdy hp rfl
        rw [h.excl hx] at this; cases this
      · intro id hx
        rcases hcase with ⟨h1, _⟩ | ⟨⟨j, h1⟩, _⟩ | ⟨h1, _⟩ <;> rw [h1] at hx <;> cases hx
      · intro job' loc' hx
        rcases hcase with ⟨h1, _⟩ | ⟨⟨j, h1⟩, _⟩ | ⟨h1, _⟩ <;> rw [h1] at hx <;> cases hx
    · cases hs
  | begin k i j =>
    simp only [step] at hs
    split at hs
    · rename_i x hp hx
      cases hs
      refine h.move t rfl rfl (Or.inr ⟨_, rfl, by simp⟩) (fun u hu => by simp [State.go, State.say, hu])
        (fun _ _ => Iff.rfl) ?_ (fun _ _ => Iff.rfl) ?_ h.excl ?_ ?_
      · simp [State.go, State.say, holdsR, rdy hp rfl]
      · simp [State.go, State.say, holdsW, wrn hp rfl]
      · intro id hy
        simp only [State.go, State.say, if_true] at hy
        cases hy
        exact ⟨k, x, subAt_mem hx, rfl⟩
      · intro job loc hx; simp [State.go, State.say, target] at hx
    · cases hs
  | finish =>
    simp only [step] at hs
    split at hs
    · rename_i hp
      cases hs
      refine h.move t rfl rfl (Or.inl rfl) (fun u hu => by simp [State.go, hu]) (fun _ _ => Iff.rfl) ?_
        (fun _ _ => Iff.rfl) ?_ h.excl ?_ ?_
      · simp [State.go, holdsR, rdy hp rfl]
      · simp [State.go, holdsW, wrn hp rfl]
      · intro id hx; simp [State.go] at hx
      · intro job loc hx; simp [State.go, target] at hx
    · cases hs
  | stop i j =>
    simp only [step] at hs
    split at hs
    · rename_i x hp hx
      cases hs
      refine h.move t rfl rfl (Or.inl rfl) (fun u hu => by simp [State.go, State.rdDrop, hu])
        (fun u hu => by simp [State.go, State.rdDrop, hu]) ?_ (fun _ _ => Iff.rfl) ?_ ?_ ?_ ?_
      · simp [State.go, State.rdDrop, holdsR]
      · simp [State.go, State.rdDrop, holdsW, wrn hp rfl]
      · intro hy
        have := rdy hp rfl
        rw [h.excl hy] at this; cases this
      · intro id hx; simp [State.go] at hx
      · intro job loc hy
        simp only [State.go, target, if_true] at hy
        cases hy
        refine ⟨⟨rfl, rfl⟩, h.lt _ _ (subAt_mem hx), ?_⟩
        intro k y hy hid
        exact h.uniq _ _ _ _ hy (subAt_mem hx) hid
    · cases hs
  | leave =>
    simp only [step] at hs
    split at hs
    · rename_i hp
      cases hs
      refine h.move t rfl rfl (Or.inl rfl) (fun u hu => by simp [State.go, State.rdDrop, hu])
        (fun u hu => by simp [State.go, State.rdDrop, hu]) ?_ (fun _ _ => Iff.rfl) ?_ ?_ ?_ ?_
      · simp [State.go, State.rdDrop, holdsR]
      · simp [State.go, State.rdDrop, holdsW, wrn hp rfl]
      · intro hy
        have := rdy hp rfl
        rw [h.excl hy] at this; cases this
      · intro id hx; simp [State.go] at hx
      · intro job loc hx; simp [State.go, target] at hx
    · cases hs
  | subscribe k n x =>
    obtain ⟨hp, hw, hr, hn, hpc, hwr, hrd, hl, _, ha, _, _⟩ := subscribe_eq hs
    have hmem : ∀ k' y, y ∈ subsOf (s'.arr k') → (k' = k ∧ y = ⟨s.next, x⟩) ∨ y ∈ subsOf (s.arr k') := by
      intro k' y hy
      rw [ha] at hy
      simp only at hy
      split at hy
      · rename_i hk
        rcases List.mem_cons.1 (add_perm.mem_iff.1 hy) with hy | hy
        · exact Or.inl ⟨hk, hy⟩
        · exact Or.inr (hk ▸ hy)
      · exact Or.inr hy
    have hmono : ∀ k' y, y ∈ subsOf (s.arr k') → y ∈ subsOf (s'.arr k') := by
      intro k' y hy
      rw [ha]
      simp only
      split
      · rename_i hk
        exact add_perm.mem_iff.2 (List.mem_cons_of_mem _ (hk ▸ hy))
      · exact hy
    refine ⟨?_, ?_, ?_, ?_, ?_, ?_, ?_, ?_, ?_, ?_⟩
    · intro u; rw [hrd, hpc]; exact h.rd u
    · intro u; rw [hwr, hpc]; exact h.wr u
    · rw [hwr, hrd]; exact h.excl
    · intro k'
      rw [ha]
      simp only
      split
      · refine add_perm.nodup_iff.2 (List.nodup_cons.2 ⟨?_, h.nodup k⟩)
        intro hm
        have := h.lt k _ hm
        exact Nat.lt_irrefl _ this
      · exact h.nodup k'
    · intro k1 k2 a b h1 h2 hid
      rcases hmem k1 a h1 with ⟨rfl, rfl⟩ | h1
      · rcases hmem k2 b h2 with ⟨rfl, rfl⟩ | h2
        · exact ⟨rfl, rfl⟩
        · have := h.lt k2 b h2
          rw [← hid] at this
          exact absurd this (Nat.lt_irrefl _)
      · rcases hmem k2 b h2 with ⟨rfl, rfl⟩ | h2
        · have := h.lt k1 a h1
          rw [hid] at this
          exact absurd this (Nat.lt_irrefl _)
        · exact h.uniq k1 k2 a b h1 h2 hid
    · intro k' y hy
      rw [hn]
      rcases hmem k' y hy with ⟨_, rfl⟩ | hy
      · exact Nat.lt_succ_self _
      · exact Nat.lt_succ_of_lt (h.lt k' y hy)
    · intro u id hu
      rw [hpc] at hu
      obtain ⟨k', y, hy, hid⟩ := h.cb u id hu
      exact ⟨k', y, hmono k' y hy, hid⟩
    · intro u job loc hu
      rw [hpc] at hu
      obtain ⟨h1, h2, h3⟩ := h.fits u job loc hu
      refine ⟨h1, by rw [hn]; exact Nat.lt_succ_of_lt h2, ?_⟩
      intro k' y hy hid
      rcases hmem k' y hy with ⟨_, rfl⟩ | hy
      · rw [← hid] at h2; exact absurd h2 (Nat.lt_irrefl _)
      · exact h3 k' y hy hid
    · intro id hid
      rw [hl] at hid
      obtain ⟨h1, h2⟩ := h.ended id hid
      refine ⟨by rw [hn]; exact Nat.lt_succ_of_lt h1, ?_⟩
      rintro ⟨k', y, hy, hyi⟩
      rcases hmem k' y hy with ⟨_, rfl⟩ | hy
      · rw [← hyi] at h1; exact absurd h1 (Nat.lt_irrefl _)
      · exact h2 ⟨k', y, hy, hyi⟩
    · rw [hl]; exact h.once

theorem init_inv : Inv init where
  rd := by intro t; simp [init, holdsR]
  wr := by intro t; simp [init, holdsW]
  excl := by intro h; cases h
  nodup := by intro k; exact List.nodup_nil
  uniq := by intro k k' x y hx; cases hx
  lt := by intro k x hx; cases hx
  cb := by intro t id h; cases h
  fits := by intro t job loc h; cases h
  ended := by intro id h; cases h
  once := List.nodup_nil

theorem reach_inv {A : State → Tid → Lab → Prop} {s : State} (h : Reach A s) : Inv s := by
  induction h with
  | init => exact init_inv
  | next _ _ hs ih => exact step_inv ih hs

end Verif.SubCtx
