import Verif.RWLock
/-
Properties of the process-shared read-write lock (C01-C04). Any number of threads of any connections, any schedule
of lock, wake-up, time-out, upgrade, downgrade, unlock and crash transitions.
-/
namespace Verif.RWLock

/-- Thread `t` exists, its process is alive and it is in state `st`. -/
def Is (s : Sys) (t : Nat) (st : St) : Prop := ∃ c, s.ths[t]? = some ⟨c, st⟩ ∧ s.isDead c = false

/-! ## C01: write access excludes everybody else -/

/-- While a live thread holds write access, no other live thread holds read, upgradable-read or write access (not
even while it waits for an upgrade). -/
theorem write_exclusive (cids : List Nat) (hc : ∀ c ∈ cids, c ≠ 0) (s : Sys) (h : Reach cids s)
    (t t' : Nat) (ht : Is s t .wr) (st' : St) (ht' : Is s t' st') (hne : t' ≠ t) :
    st'.reads = false ∧ st'.upgradable = false ∧ st' ≠ .wr := by
  obtain ⟨c, hg, hl⟩ := ht
  obtain ⟨c', hg', hl'⟩ := ht'
  have inv := h.inv hc
  obtain ⟨w1, w2⟩ := inv.wr t _ hg hl rfl
  have hr : st'.reads = false := by
    cases hr : st'.reads with
    | false => rfl
    | true =>
      have := rcount_pos_of_reads inv hg' hl' (Same.refl s s.lock) hr
      rw [w2] at this; simp at this
  refine ⟨hr, ?_, ?_⟩
  · cases st' <;> simp_all [St.upgradable]
  · intro e
    have := (inv.wr t' _ hg' hl' e).1
    rw [w1] at this; simp at this; exact hne this.symm

/-- Non-vacuity: a writer that waited for a reader, while a third thread waits. -/
example : ∃ s, Reach [1, 1, 2] s ∧ Is s 1 .wr ∧ Is s 2 (.wait .read false) ∧ Is s 0 .idle := by
  refine ⟨_, Reach.run [.lock 0 .read, .lock 1 .writeUrge, .lock 2 .read, .unlock 0, .wake 1] .init rfl, ?_, ?_, ?_⟩
  · exact ⟨1, rfl, rfl⟩
  · exact ⟨2, rfl, rfl⟩
  · exact ⟨1, rfl, rfl⟩

/-- Every read access is accounted for: the lock records exactly as many read locks of a live connection as its
threads hold. -/
theorem readers_accounted (cids : List Nat) (hc : ∀ c ∈ cids, c ≠ 0) (s : Sys) (h : Reach cids s) (c : Nat)
    (hl : s.isDead c = false) :
    (s.lock.readers.map (fun p => if p.1 = c then p.2 else 0)).sum
      = (s.ths.filter (fun th => th.cid == c && th.st.reads)).length := by
  have := (h.inv hc).acc c hl
  rw [nreads, List.countP_eq_length_filter] at this
  exact this

/-- The fixed-size arrays never overflow: at most 16 readers, each once, counts fit `uint8_t` and are positive. -/
theorem arrays_bounded (cids : List Nat) (hc : ∀ c ∈ cids, c ≠ 0) (s : Sys) (h : Reach cids s) :
    s.lock.readers.length ≤ 16 ∧ (∀ p ∈ s.lock.readers, p.1 ≠ 0 ∧ 1 ≤ p.2 ∧ p.2 ≤ 255) ∧
    (s.lock.readers.map (·.1)).Nodup := by
  have b := (h.binv hc).shape
  exact ⟨b.len, fun p hp => ⟨b.nz p hp, b.cnt p hp⟩, b.nodup⟩

/-! ## C02: at most one upgradable reader -/

/-- The claim for all schedules. It is false (`upgradable_not_unique`). -/
def UpgradableUnique : Prop :=
  ∀ cids, (∀ c ∈ cids, c ≠ 0) → ∀ s, Reach cids s → ∀ t t' st st', Is s t st → Is s t' st' →
    st.upgradable = true → st'.upgradable = true → t = t'

/-- Partial: it holds in all schedules in which WRITE_URGE is only used for upgrades. Missing: schedules in which
another thread requests WRITE_URGE directly. -/
theorem upgradable_unique_partial (cids : List Nat) (hc : ∀ c ∈ cids, c ≠ 0) (s : Sys) (h : ReachNU cids s)
    (t t' : Nat) (st st' : St) (ht : Is s t st) (ht' : Is s t' st') (hu : st.upgradable = true)
    (hu' : st'.upgradable = true) : t = t' := by
  obtain ⟨c, hg, hl⟩ := ht
  obtain ⟨c', hg', hl'⟩ := ht'
  exact (h.uinv hc).uniq t t' _ _ hg hg' hl hl' hu hu'

theorem ReachNU.run {cids : List Nat} {s s' : Sys} (ls : List Label) (h : ReachNU cids s)
    (hl : ∀ l ∈ ls, ∀ t, l ≠ .lock t .writeUrge) (hr : RWLock.run s ls = some s') : ReachNU cids s' := by
  induction ls generalizing s with
  | nil => simp [RWLock.run] at hr; exact hr ▸ h
  | cons l ls ih =>
    simp only [RWLock.run] at hr
    cases hs : RWLock.step s l with
    | none => simp [hs] at hr
    | some s1 =>
      rw [hs] at hr
      exact ih (.step h (hl l (by simp)) hs) (fun l' h' => hl l' (by simp [h'])) hr

/-- Non-vacuity: an upgradable reader in an urged upgrade that waits for a plain reader, another thread waits for
the upgradable access. -/
example : ∃ s, ReachNU [1, 2, 3] s ∧ Is s 0 (.waitUp true true) ∧ Is s 1 .rd ∧ Is s 2 (.wait .readUpgr false) := by
  refine ⟨_, ReachNU.run [.lock 0 .readUpgr, .lock 1 .read, .upgrade 0 true, .lock 2 .readUpgr] .init ?_ rfl, ?_, ?_, ?_⟩
  · simp
  · exact ⟨1, rfl, rfl⟩
  · exact ⟨2, rfl, rfl⟩
  · exact ⟨3, rfl, rfl⟩

/-- The code does not have the property in general: thread 0 upgrades with urge while thread 1 urges a direct write
lock; thread 1 times out, thread 2 gets the upgradable lock, thread 0 times out and marks itself upgradable again. -/
theorem upgradable_not_unique : ¬ UpgradableUnique := by
  intro h
  have hr : ∃ s, Reach [1, 2, 3] s ∧ Is s 0 .up ∧ Is s 2 .up := by
    refine ⟨_, Reach.run [.lock 0 .readUpgr, .lock 1 .writeUrge, .upgrade 0 true, .timeout 1, .lock 2 .readUpgr,
      .timeout 0] .init rfl, ?_, ?_⟩
    · exact ⟨1, rfl, rfl⟩
    · exact ⟨3, rfl, rfl⟩
  obtain ⟨s, h1, h2, h3⟩ := hr
  have := h [1, 2, 3] (by simp) s h1 0 2 _ _ h2 h3 rfl rfl
  simp at this

/-- The same two requests also block each other: whatever wake-ups happen, neither proceeds before its time-out. -/
theorem urged_requests_block : ∃ s, Reach [1, 2] s ∧ Is s 0 (.waitUp true false) ∧
    Is s 1 (.wait .writeUrge true) ∧ step s (.wake 0) = some s ∧ step s (.wake 1) = some s := by
  refine ⟨_, Reach.run [.lock 0 .readUpgr, .lock 1 .writeUrge, .upgrade 0 true] .init rfl, ?_, ?_, rfl, rfl⟩
  · exact ⟨1, rfl, rfl⟩
  · exact ⟨2, rfl, rfl⟩

/-! ## C03: failed attempts leave no trace -/

/-- Thread `t` asks for mode `m` in `s` and fails: at once, or by a time-out. -/
def FailedLock (s : Sys) (t : Nat) (m : Mode) (s' : Sys) : Prop :=
  (step s (.lock t m) = some s' ∧ Is s' t .idle) ∨
  ∃ s1 urged, step s (.lock t m) = some s1 ∧ Is s1 t (.wait m urged) ∧ step s1 (.timeout t) = some s' ∧ Is s' t .idle

theorem recover_idem (d : Nat → Bool) (lk : Lock) : recover d (recover d lk) = recover d lk := by
  have h0 : ∀ x : Nat, (if (if x ≠ 0 ∧ d x = true then 0 else x) ≠ 0 ∧
      d (if x ≠ 0 ∧ d x = true then 0 else x) = true then 0 else (if x ≠ 0 ∧ d x = true then 0 else x)) =
      if x ≠ 0 ∧ d x = true then 0 else x := by
    intro x; split <;> simp_all
  simp [recover, recoverReaders_eq]
  refine ⟨?_, ?_⟩
  · have := h0 lk.upgr; simpa using this
  · have := h0 lk.writer; simpa using this

theorem recover_maybe (d : Nat → Bool) (lk : Lock) (b : Bool) :
    recover d (if b then recover d lk else lk) = recover d lk := by
  split
  · exact recover_idem _ _
  · rfl

theorem takeMutex_recover {s : Sys} {lk : Lock} (h : takeMutex s = some lk) :
    recover s.isDead lk = recover s.isDead s.lock := by
  unfold takeMutex at h
  split at h
  · simp at h; subst h; rfl
  · split at h
    · simp at h
    · split at h
      · simp at h; subst h; exact recover_idem _ _
      · simp at h

theorem takeMutexCond_eq {s : Sys} {lk : Lock} (h : takeMutexCond s = some lk) : lk = s.lock := by
  unfold takeMutexCond at h
  split at h
  · simp at h; exact h.symm
  · split at h
    · simp at h
    · split at h
      · simp at h; exact h.symm
      · simp at h

/-- State of a thread after `put` on it. -/
theorem is_put {s : Sys} {t c : Nat} {lk : Lock} {m : Option Nat} {st st' : St} {th : Thr} {lim : Bool}
    (hg : s.ths[t]? = some th) (h : Is { put s t c lk m st with limit := lim } t st') : st' = st := by
  obtain ⟨c', h1, _⟩ := h
  simp only [put] at h1
  rw [get_set _ _ _ _ hg] at h1
  simp at h1; exact h1.2.symm

theorem is_abort {s : Sys} {t c : Nat} {lk : Lock} {st st' : St}
    (hg : s.ths[t]? = some ⟨c, st⟩) (h : Is (abort s t c lk) t st') : False := by
  obtain ⟨c', h1, h2⟩ := h
  simp only [abort] at h1
  rw [hg] at h1; simp at h1
  obtain ⟨rfl, rfl⟩ := h1
  simp [abort, Sys.isDead] at h2

/-- How `acquire` ends. -/
theorem acquire_is {s : Sys} {t c : Nat} {st st' : St} {lk : Lock} {m : Mode} {urged : Bool}
    (hg : s.ths[t]? = some ⟨c, st⟩) (h : Is (acquire s t c m urged lk) t st') :
    st' = .wr ∨ st' = .up ∨ st' = .rd ∨
    (st' = .idle ∧ (m = .readUpgr ∧ (acquire s t c m urged lk).limit = true ∨
      m = .read ∧ (acquire s t c m urged lk).lock = lk)) := by
  unfold acquire at h ⊢
  cases m with
  | write =>
    dsimp only at h ⊢
    split at h
    · exact (is_abort hg h).elim
    · exact .inl (is_put hg (lim := s.limit) h)
  | writeUrge =>
    dsimp only at h ⊢
    generalize (if urged then lk else { lk with writer := c }) = lk1 at *
    split at h
    · exact (is_abort hg h).elim
    · split at h
      · exact (is_abort hg h).elim
      · exact .inl (is_put hg (lim := s.limit) h)
  | readUpgr =>
    dsimp only at h ⊢
    split at h
    · have := is_put hg (lim := true) h
      exact .inr (.inr (.inr ⟨this, .inl ⟨rfl, rfl⟩⟩))
    · exact .inr (.inl (is_put hg (lim := s.limit) h))
  | read =>
    dsimp only at h ⊢
    split at h
    · have := is_put hg (lim := true) h
      exact .inr (.inr (.inr ⟨this, .inr ⟨rfl, rfl⟩⟩))
    · exact .inr (.inr (.inl (is_put hg (lim := s.limit) h)))

theorem acquire_idle_any {s : Sys} {t c : Nat} {st : St} {lk : Lock} {m : Mode} {urged : Bool}
    (hg : s.ths[t]? = some ⟨c, st⟩) (h : Is (acquire s t c m urged lk) t .idle)
    (hm : m ≠ .readUpgr ∨ (acquire s t c m urged lk).limit = false) :
    (acquire s t c m urged lk).lock = lk ∧ m = .read := by
  have := acquire_is hg h
  simp at this
  rcases this with ⟨h1, h2⟩ | ⟨h1, h2⟩
  · subst h1; simp [h2] at hm
  · exact ⟨h2, h1⟩

/-- Partial: a failed attempt leaves the lock as it was apart from removed crashed owners, unless READ_UPGR hit a
reader limit. Missing: that case, in which the code leaves the upgradable mark (`failed_upgr_leaks`). -/
theorem failed_lock_no_trace_partial (cids : List Nat) (hc : ∀ c ∈ cids, c ≠ 0) (s s' : Sys) (h : Reach cids s)
    (t : Nat) (m : Mode) (hf : FailedLock s t m s') (hm : m ≠ .readUpgr ∨ s'.limit = false) :
    recover s.isDead s'.lock = recover s.isDead s.lock := by
  have inv := h.inv hc
  have hlock : ∀ s1, step s (.lock t m) = some s1 → ∃ (c : Nat) (lk : Lock) (b : Bool), s.ths[t]? = some ⟨c, .idle⟩ ∧ s.isDead c = false ∧
      recover s.isDead lk = recover s.isDead s.lock ∧
      s1 = settle s t c m false (if b then recover s.isDead lk else lk) := by
    intro s1 h1
    simp only [step] at h1
    split at h1
    · rename_i c hg
      split at h1
      · simp at h1
      · rename_i hl; simp only [Bool.not_eq_true] at hl
        split at h1
        · simp at h1
        · rename_i lk hm'
          simp at h1
          exact ⟨c, lk, _, hg, hl, takeMutex_recover hm', h1.symm⟩
    · simp at h1
  rcases hf with ⟨h1, h2⟩ | ⟨s1, urged, h1, h2, h3, h4⟩
  · obtain ⟨c, lk, b, hg, hl, hr, e⟩ := hlock _ h1
    subst e
    generalize hlk : (if b then recover s.isDead lk else lk) = lk' at *
    have hr' : recover s.isDead lk' = recover s.isDead s.lock := by rw [← hlk, recover_maybe, hr]
    unfold settle at h2 hm ⊢
    split at h2
    · split at h2
      · exact absurd (is_put hg (lim := s.limit) h2) (by simp)
      · exact absurd (is_put hg (lim := s.limit) h2) (by simp)
    · rename_i hb
      rw [if_neg hb] at hm ⊢
      rw [(acquire_idle_any hg h2 hm).1, hr']
  · obtain ⟨c, lk, b, hg, hl, hr, e⟩ := hlock _ h1
    subst e
    generalize hlk : (if b then recover s.isDead lk else lk) = lk' at *
    have hr' : recover s.isDead lk' = recover s.isDead s.lock := by rw [← hlk, recover_maybe, hr]
    have hc0 : c ≠ 0 := inv.cid t _ hg
    -- the waiting state
    have hs1 : ∃ lk1, settle s t c m false lk' = put s t c lk1 none (.wait m urged) ∧
        ((urged = false ∧ lk1 = lk') ∨ (urged = true ∧ lk'.writer = 0 ∧ lk1 = { lk' with writer := c })) := by
      unfold settle at h2 ⊢
      split at h2
      · rename_i hb
        simp only [hb, if_true]
        split at h2
        · rename_i hx
          have := is_put hg (lim := s.limit) h2
          simp at this; subst this
          rw [if_pos hx]
          exact ⟨_, rfl, .inr ⟨rfl, hx.2, rfl⟩⟩
        · rename_i hx
          have := is_put hg (lim := s.limit) h2
          simp at this; subst this
          rw [if_neg hx]
          exact ⟨_, rfl, .inl ⟨rfl, rfl⟩⟩
      · have := acquire_is hg h2
        simp at this
    obtain ⟨lk1, hs1, hcase⟩ := hs1
    rw [hs1] at h3
    have hg1 : (put s t c lk1 none (.wait m urged)).ths[t]? = some ⟨c, .wait m urged⟩ := by
      simp only [put]; rw [get_set _ _ _ _ hg]; simp
    have hd1 : (put s t c lk1 none (.wait m urged)).isDead = s.isDead := rfl
    have hmx : takeMutexCond (put s t c lk1 none (.wait m urged)) = some lk1 := rfl
    simp only [step, hg1, hd1, hl, hmx] at h3
    simp only [Bool.false_eq_true, if_false] at h3
    split at h3
    · simp only [Option.some.injEq] at h3
      subst h3
      show recover s.isDead (if urged = true then _ else _) = _
      rcases hcase with ⟨hu, e⟩ | ⟨hu, hw, e⟩
      · subst hu e
        simp only [Bool.false_eq_true, if_false]
        rw [recover_idem, hr']
      · subst hu e
        simp only [if_true]
        rw [← hr']
        simp [recover, recoverReaders_eq, hw]
        grind
    · simp only [Option.some.injEq] at h3
      subst h3
      have := acquire_idle_any hg1 h4 hm
      rw [this.1, recover_idem]
      rcases hcase with ⟨hu, e⟩ | ⟨hu, hw, e⟩
      · rw [e, hr']
      · exfalso
        -- only WRITE_URGE urges, and its acquire does not end idle
        subst hu
        have hmr := this.2
        subst hmr
        unfold settle at hs1
        simp only [reduceCtorEq, false_and, if_false] at hs1
        split at hs1
        · have h5 : Is (put s t c lk' none (.wait .read false)) t (.wait .read true) := by
            rw [hs1]; exact ⟨c, hg1, hl⟩
          have := is_put hg (lim := s.limit) h5
          simp at this
        · have h5 : Is (acquire s t c .read false lk') t (.wait .read true) := by
            rw [hs1]; exact ⟨c, hg1, hl⟩
          have := acquire_is hg h5
          simp at this

/-- Non-vacuity: a failing WRITE_URGE attempt that also recovered a crashed reader. -/
example : ∃ s s', Reach [1, 2, 3] s ∧ FailedLock s 1 .writeUrge s' ∧ s.lock.readers = [(3, 1), (1, 1)] ∧
    s'.lock = ⟨[(1, 1)], 0, 0⟩ := by
  refine ⟨_, _, Reach.run [.lock 2 .read, .lock 0 .read, .crash 3] .init rfl,
    .inr ⟨_, true, rfl, ⟨2, rfl, rfl⟩, rfl, ⟨2, rfl, rfl⟩⟩, rfl, rfl⟩

/-- A failed upgrade leaves the lock as it was apart from removed crashed owners, and the thread keeps its
upgradable read access. -/
theorem failed_upgrade_no_trace (cids : List Nat) (hc : ∀ c ∈ cids, c ≠ 0) (s s1 s' : Sys) (h : Reach cids s)
    (t : Nat) (urge u : Bool) (st' : St) (h1 : step s (.upgrade t urge) = some s1) (h2 : Is s1 t (.waitUp urge u))
    (h3 : step s1 (.timeout t) = some s') (h4 : Is s' t st') (hne : st' ≠ .wr) :
    st' = .up ∧ recover s.isDead s'.lock = recover s.isDead s.lock := by
  have inv := h.inv hc
  simp only [step] at h1
  split at h1
  · rename_i c hg
    split at h1
    · simp at h1
    · rename_i hl; simp only [Bool.not_eq_true] at hl
      have hc0 : c ≠ 0 := inv.cid t _ hg
      split at h1
      · simp at h1
      · rename_i lk hm
        have hr := takeMutex_recover hm
        split at h1
        · simp at h1; subst h1; exact (is_abort hg h2).elim
        · rename_i hup
          simp only [ne_eq, Decidable.not_not] at hup
          simp only [Option.some.injEq] at h1
          subst h1
          generalize hlk0 : (if urge then { lk with upgr := 0 } else lk) = lk0 at *
          generalize hlk1 : (if busyUp false lk0 then recover s.isDead lk0 else lk0) = lk' at *
          have hr0 : recover s.isDead lk' = recover s.isDead lk0 := by rw [← hlk1, recover_maybe]
          have hs1 : ∃ lk1, settleUp s t c urge false lk' = put s t c lk1 none (.waitUp urge u) ∧
              ((u = false ∧ lk1 = lk') ∨ (u = true ∧ lk'.writer = 0 ∧ lk1 = { lk' with writer := c })) := by
            unfold settleUp at h2 ⊢
            split at h2
            · rename_i hb
              simp only [hb, if_true]
              split at h2
              · rename_i hx
                have := is_put hg (lim := s.limit) h2
                simp at this; subst this
                rw [if_pos hx]
                exact ⟨_, rfl, .inr ⟨rfl, hx.2, rfl⟩⟩
              · rename_i hx
                have := is_put hg (lim := s.limit) h2
                simp at this; subst this
                rw [if_neg hx]
                exact ⟨_, rfl, .inl ⟨rfl, rfl⟩⟩
            · exfalso
              unfold finishUp at h2
              split at h2
              · exact is_abort hg h2
              · split at h2
                · exact absurd (is_put hg (lim := s.limit) h2) (by simp)
                · exact absurd (is_put hg (lim := s.limit) h2) (by simp)
          obtain ⟨lk1, hs1, hcase⟩ := hs1
          rw [hs1] at h3
          have hg1 : (put s t c lk1 none (.waitUp urge u)).ths[t]? = some ⟨c, .waitUp urge u⟩ := by
            simp only [put]; rw [get_set _ _ _ _ hg]; simp
          have hd1 : (put s t c lk1 none (.waitUp urge u)).isDead = s.isDead := rfl
          have hmx : takeMutexCond (put s t c lk1 none (.waitUp urge u)) = some lk1 := rfl
          simp only [step, hg1, hd1, hl, hmx] at h3
          simp only [Bool.false_eq_true, if_false] at h3
          -- the thread still is a recorded reader
          have hlk1r : lk1.readers = lk'.readers := by rcases hcase with ⟨_, e⟩ | ⟨_, _, e⟩ <;> rw [e]
          have hs' : Same s s.lock lk' := by
            rw [← hlk1]; refine Same.maybe ?_ inv.dead0 _
            rw [← hlk0]; exact (takeMutex_spec inv hm).1.clearUpgr _
          have hpos1 : rcount (recover s.isDead lk1).readers c ≠ 0 := by
            simp only [recover, recoverReaders_eq]
            rw [rcount_filter _ _ _ hl, hlk1r]
            exact rcount_pos_of_reads inv hg hl hs' rfl
          have hrec0 : recover s.isDead lk0 = { recover s.isDead lk with upgr := if urge then 0 else (recover s.isDead lk).upgr } := by
            rw [← hlk0]; cases urge <;> simp [recover]
          have hup' : (recover s.isDead s.lock).upgr = c := by
            rw [← hr]; simp [recover, hup, hl]
          split at h3
          · exfalso
            simp only [Option.some.injEq] at h3
            subst h3
            obtain ⟨lk2, hd2⟩ := readerDel_some hpos1
            unfold finishUp at h4
            split at h4
            · exact is_abort hg1 h4
            · rw [hd2] at h4
              exact hne (is_put hg1 (lim := s.limit) h4)
          · simp only [Option.some.injEq] at h3
            subst h3
            refine ⟨is_put hg1 (lim := s.limit) h4, ?_⟩
            show recover s.isDead (if urge = true then _ else _) = _
            have hl2 : ∀ x : Lock, recover s.isDead { x with upgr := c } = { recover s.isDead x with upgr := c } := by
              intro x; simp [recover, hl]
            have e1 : recover s.isDead (if u = true then { recover s.isDead lk1 with writer := 0 } else recover s.isDead lk1)
                = recover s.isDead lk0 := by
              rw [← hr0]
              rcases hcase with ⟨hu, e⟩ | ⟨hu, hw, e⟩
              · subst hu e; simp [recover_idem]
              · subst hu e
                simp [recover, recoverReaders_eq, hw]
                grind
            cases urge with
            | true =>
              simp only [if_true]
              rw [hl2, e1, hrec0, hr]
              simp only
              rw [← hup']
            | false =>
              simp only [Bool.false_eq_true, if_false]
              rw [e1, hrec0, hr]
              simp
  · simp at h1

/-- Non-vacuity: an urged upgrade that timed out because of a reader. -/
example : ∃ s s1 s', Reach [1, 2] s ∧ step s (.upgrade 0 true) = some s1 ∧ Is s1 0 (.waitUp true true) ∧
    step s1 (.timeout 0) = some s' ∧ Is s' 0 .up := by
  refine ⟨_, _, _, Reach.run [.lock 0 .readUpgr, .lock 1 .read] .init rfl, rfl, ⟨1, rfl, rfl⟩, rfl, ⟨1, rfl, rfl⟩⟩

/-- Partial: after all live threads released the lock, it is free (a contender removes crashed owners). Missing:
histories in which a reader limit was hit. -/
theorem released_is_free_partial (cids : List Nat) (hc : ∀ c ∈ cids, c ≠ 0) (s : Sys) (h : Reach cids s)
    (hlim : s.limit = false) (hidle : ∀ t st, Is s t st → st = .idle) :
    recover s.isDead s.lock = Lock.free := by
  have inv := h.inv hc
  have hrd : recoverReaders s.isDead s.lock.readers = [] := by
    rw [recoverReaders_eq, List.filter_eq_nil_iff]
    intro p hp
    cases hd : s.isDead p.1 with
    | true => simp
    | false =>
      exfalso
      have h1 := inv.acc p.1 hd
      have h2 : nreads s.ths p.1 = 0 := by
        unfold nreads; rw [List.countP_eq_zero]
        intro th hth hx
        simp at hx
        obtain ⟨t, ht⟩ := List.mem_iff_getElem?.1 hth
        have := hidle t th.st ⟨th.cid, ht, by rw [hx.1]; exact hd⟩
        rw [this] at hx; simp at hx
      rw [h2] at h1
      have hge : ∀ (rs : List (Nat × Nat)), p ∈ rs → Pos rs → rcount rs p.1 ≠ 0 := by
        intro rs
        induction rs with
        | nil => simp
        | cons q rs ih =>
          intro hm hp
          simp at hm
          rcases hm with rfl | hm
          · have := hp p (by simp); simp; omega
          · have := ih hm (fun x hx => hp x (by simp [hx])); simp; omega
      exact hge _ hp inv.pos h1
  have hw : (if s.lock.writer ≠ 0 ∧ s.isDead s.lock.writer = true then 0 else s.lock.writer) = 0 := by
    split
    · rfl
    · rename_i hn
      by_cases h0 : s.lock.writer = 0
      · exact h0
      · exfalso
        have hd : s.isDead s.lock.writer = false := by
          cases hd : s.isDead s.lock.writer with
          | false => rfl
          | true => exact absurd ⟨h0, hd⟩ hn
        obtain ⟨t, st, g1, g2⟩ := inv.wback h0 hd
        have := hidle t st ⟨_, g1, hd⟩
        rw [this] at g2; simp at g2
  have hu : (if s.lock.upgr ≠ 0 ∧ s.isDead s.lock.upgr = true then 0 else s.lock.upgr) = 0 := by
    split
    · rfl
    · rename_i hn
      by_cases h0 : s.lock.upgr = 0
      · exact h0
      · exfalso
        have hd : s.isDead s.lock.upgr = false := by
          cases hd : s.isDead s.lock.upgr with
          | false => rfl
          | true => exact absurd ⟨h0, hd⟩ hn
        obtain ⟨t, st, g1, g2⟩ := inv.uback hlim h0 hd
        have := hidle t st ⟨_, g1, hd⟩
        rw [this] at g2; simp at g2
  simp only [recover, Lock.free, hrd, hw, hu]

/-- Non-vacuity: readers, a writer and a crash in the history; the crashed upgradable owner is still recorded. -/
example : ∃ s, Reach [1, 2] s ∧ s.limit = false ∧ s.lock = ⟨[(2, 1)], 2, 0⟩ ∧ (∀ t st, Is s t st → st = .idle) := by
  refine ⟨_, Reach.run [.lock 0 .write, .unlock 0, .lock 1 .readUpgr, .lock 0 .read, .unlock 0, .crash 2] .init rfl,
    rfl, rfl, ?_⟩
  intro t st ⟨c, h1, h2⟩
  match t, h1 with
  | 0, h1 =>
    have h1 : some (Thr.mk 1 .idle) = some ⟨c, st⟩ := h1
    simp at h1; exact h1.2.symm
  | 1, h1 =>
    have h1 : some (Thr.mk 2 .up) = some ⟨c, st⟩ := h1
    simp at h1
    rw [← h1.1] at h2; exact absurd h2 (by decide)

/-- The code does not have the full property: an upgradable request that hits the recursion limit (255 read locks of
one connection) leaves the upgradable mark behind; after everything is released the lock is not free and nobody can
get upgradable access any more. -/
theorem failed_upgr_leaks : ∃ cids s s', (∀ c ∈ cids, c ≠ 0) ∧ Reach cids s ∧ FailedLock s 255 .readUpgr s' ∧
    recover s.isDead s'.lock ≠ recover s.isDead s.lock ∧
    ∃ s'', Reach cids s'' ∧ (∀ th ∈ s''.ths, th.st = .idle) ∧ s''.dead = [] ∧ s''.lock = ⟨[], 1, 0⟩ := by
  have h1 : (run (initial (List.replicate 256 1)) ((List.range 255).map (Label.lock · .read))).any (fun s =>
      s.dead.isEmpty && s.lock == ⟨[(1, 255)], 0, 0⟩ && s.ths[255]? == some ⟨1, .idle⟩ &&
      (step s (.lock 255 .readUpgr)).any (fun s' => s'.lock == ⟨[(1, 255)], 1, 0⟩ && s'.ths[255]? == some ⟨1, .idle⟩ &&
        s'.dead.isEmpty &&
        (run s' ((List.range 255).map Label.unlock)).any (fun s'' => s''.ths.all (·.st == .idle) &&
          s''.dead.isEmpty && s''.lock == ⟨[], 1, 0⟩))) = true := by
    decide +kernel
  rw [Option.any_eq_true] at h1
  obtain ⟨s, hs, h1⟩ := h1
  simp only [Bool.and_eq_true, beq_iff_eq, List.isEmpty_iff] at h1
  obtain ⟨⟨⟨hd, hl⟩, ht⟩, h1⟩ := h1
  rw [Option.any_eq_true] at h1
  obtain ⟨s', hs', h1⟩ := h1
  simp only [Bool.and_eq_true, beq_iff_eq, List.isEmpty_iff] at h1
  obtain ⟨⟨⟨hl', ht'⟩, hd'⟩, h1⟩ := h1
  rw [Option.any_eq_true] at h1
  obtain ⟨s'', hs'', h1⟩ := h1
  simp only [Bool.and_eq_true, beq_iff_eq, List.isEmpty_iff, List.all_eq_true] at h1
  have r1 := Reach.run _ (.init (cids := List.replicate 256 1)) hs
  refine ⟨List.replicate 256 1, s, s', ?_, r1, ?_, ?_, s'', Reach.run _ (.step r1 hs') hs'', ?_, h1.1.2, h1.2⟩
  · intro c hc; rw [List.mem_replicate] at hc; omega
  · exact .inl ⟨hs', 1, ht', by simp [Sys.isDead, hd']⟩
  · rw [hl, hl']; simp [recover, recoverReaders_eq, Sys.isDead, hd]
  · intro th hth; exact h1.1.1 th hth

/-! ## C04: crashed owners are recovered, live ones never -/

/-- A recovery removes exactly what crashed connections hold: their read locks (all of them), upgradable mark and
write mark. What live connections hold stays, including counts and order. -/
theorem recovery_exact (dead : Nat → Bool) (lk : Lock) :
    (recover dead lk).readers = lk.readers.filter (fun p => !dead p.1) ∧
    (lk.upgr ≠ 0 → (recover dead lk).upgr = if dead lk.upgr then 0 else lk.upgr) ∧
    (lk.writer ≠ 0 → (recover dead lk).writer = if dead lk.writer then 0 else lk.writer) ∧
    (lk.upgr = 0 → (recover dead lk).upgr = 0) ∧ (lk.writer = 0 → (recover dead lk).writer = 0) := by
  refine ⟨recoverReaders_eq _ _, ?_, ?_, ?_, ?_⟩ <;> intro h <;> simp [recover, h]

/-- Non-vacuity: three readers, one crashed with two locks; the crashed one also is the upgradable owner. -/
example : recover (fun c => c == 2) ⟨[(1, 3), (2, 2), (3, 1)], 2, 3⟩ = ⟨[(1, 3), (3, 1)], 0, 3⟩ := rfl

theorem addReaders_fresh (rs : List (Nat × Nat)) (c room : Nat) (h : rs.length < room) (hc : ∀ p ∈ rs, p.1 ≠ c) :
    addReaders rs c room = some (rs ++ [(c, 1)]) := by
  fun_induction addReaders rs c room with
  | case1 => simp at h
  | case2 => rfl
  | case3 => simp at h
  | case4 => simp at hc
  | case5 => simp at hc
  | case6 c' n rs c room h1 h2 heq ih =>
    simp at h
    rw [ih (by omega) (fun p hp => hc p (by simp [hp]))] at heq; simp at heq
  | case7 c' n rs c room h1 h2 rs1 heq ih =>
    simp at h
    rw [ih (by omega) (fun p hp => hc p (by simp [hp]))] at heq
    simp at heq; simp [heq]

/-- The access a mode stands for. -/
def held : Mode → St
  | .read => .rd
  | .readUpgr => .up
  | .write | .writeUrge => .wr

/-- If whoever held or waited for the lock crashed, the next contender gets it at once, in any mode (unless a reader
limit was hit before, see `failed_upgr_leaks`). -/
theorem contender_proceeds (cids : List Nat) (hc : ∀ c ∈ cids, c ≠ 0) (s : Sys) (h : Reach cids s)
    (hlim : s.limit = false) (hidle : ∀ t st, Is s t st → st = .idle) (t : Nat) (ht : Is s t .idle) (m : Mode) :
    ∃ s', step s (.lock t m) = some s' ∧ Is s' t (held m) := by
  have inv := h.inv hc
  have hfree := released_is_free_partial cids hc s h hlim hidle
  obtain ⟨c, hg, hl⟩ := ht
  have hc0 : c ≠ 0 := inv.cid t _ hg
  have hmx : ∃ lk, takeMutex s = some lk := by
    unfold takeMutex
    split
    · exact ⟨_, rfl⟩
    · rename_i o ho
      obtain ⟨th, h1, h2⟩ := inv.mtx o ho
      rw [h1]
      dsimp only
      rcases h2 with h2 | h2
      · rw [if_pos h2]; exact ⟨_, rfl⟩
      · cases hd : s.isDead th.cid with
        | true => exact ⟨recover s.isDead s.lock, by simp⟩
        | false =>
          have := hidle o th.st ⟨th.cid, h1, hd⟩
          rw [h2] at this; simp at this
  obtain ⟨lk, hm⟩ := hmx
  have hlk : lk = s.lock ∨ lk = Lock.free := by
    unfold takeMutex at hm
    split at hm
    · simp at hm; exact .inl hm.symm
    · split at hm
      · simp at hm
      · split at hm
        · simp at hm; right; rw [← hm, hfree]
        · simp at hm
  -- no upgradable owner without a reader
  have hupgr : s.lock.readers = [] → s.lock.upgr = 0 := by
    intro hr
    by_cases h0 : s.lock.upgr = 0
    · exact h0
    · exfalso
      cases hd : s.isDead s.lock.upgr with
      | true => exact (h.binv hc).udead hlim h0 hd (by rw [hr]; rfl)
      | false =>
        obtain ⟨o, st, g1, g2⟩ := inv.uback hlim h0 hd
        have := hidle o st ⟨_, g1, hd⟩
        subst this; simp at g2
  have hfresh : ∀ p ∈ s.lock.readers, p.1 ≠ c := by
    intro p hp e
    have h1 := inv.acc c hl
    have h2 : nreads s.ths c = 0 := by
      unfold nreads; rw [List.countP_eq_zero]
      intro th hth hx
      simp at hx
      obtain ⟨o, ho⟩ := List.mem_iff_getElem?.1 hth
      have := hidle o th.st ⟨th.cid, ho, by rw [hx.1]; exact hl⟩
      rw [this] at hx; simp at hx
    rw [h2] at h1
    have hm' : p ∈ recoverReaders s.isDead s.lock.readers := by
      rw [recoverReaders_eq, List.mem_filter]; exact ⟨hp, by simp [e, hl]⟩
    have : recoverReaders s.isDead s.lock.readers = [] := congrArg Lock.readers hfree
    rw [this] at hm'; simp at hm'
  -- the lock seen by the request
  obtain ⟨lk', hlk', hb, hprop⟩ : ∃ lk', (if busy m false lk then recover s.isDead lk else lk) = lk' ∧
      busy m false lk' = false ∧ (lk'.readers = [] → lk'.upgr = 0) ∧ (∀ p ∈ lk'.readers, p.1 ≠ c) := by
    refine ⟨_, rfl, ?_⟩
    have hfr : ∀ m, busy m false Lock.free = false := by intro m; cases m <;> rfl
    have hrf : recover s.isDead lk = Lock.free := by
      rw [takeMutex_recover hm, hfree]
    by_cases hbz : busy m false lk = true
    · simp only [hbz, if_true, hrf]
      exact ⟨hfr m, by simp [Lock.free], by simp [Lock.free]⟩
    · simp only [hbz]
      refine ⟨by simpa using hbz, ?_, ?_⟩
      · rcases hlk with e | e
        · rw [e]; exact hupgr
        · rw [e]; simp [Lock.free]
      · rcases hlk with e | e
        · rw [e]; exact hfresh
        · rw [e]; simp [Lock.free]
  refine ⟨_, by simp only [step, hg, hl, hm]; rfl, ?_⟩
  rw [hlk']
  simp only [settle, hb, Bool.false_eq_true, if_false]
  have hget : ∀ (lk : Lock) (mx : Option Nat) (st : St), Is (put s t c lk mx st) t st := by
    intro lk mx st
    exact ⟨c, by simp only [put]; rw [get_set _ _ _ _ hg]; simp, hl⟩
  cases m with
  | write =>
    simp [busy] at hb
    simp only [acquire]
    rw [if_neg (by simp [hb.2, hprop.1 hb.1])]
    exact hget _ _ _
  | writeUrge =>
    simp [busy] at hb
    simp only [acquire]
    rw [if_neg (by simp [hprop.1 hb.1])]
    simp only [Bool.false_eq_true, if_false, ne_eq, not_true_eq_false]
    exact hget _ _ _
  | readUpgr =>
    simp [busy] at hb
    simp only [acquire, readerAdd]
    rw [addReaders_fresh _ _ _ hb.1.1 hprop.2]
    exact hget _ _ _
  | read =>
    simp [busy] at hb
    simp only [acquire, readerAdd]
    rw [addReaders_fresh _ _ _ hb.1 hprop.2]
    exact hget _ _ _

/-- Non-vacuity: the owner of the write lock crashed while another process was waiting and crashed as well. -/
example : ∃ s, Reach [1, 2, 3] s ∧ s.limit = false ∧ s.lock = ⟨[], 0, 1⟩ ∧ s.mutex = some 0 ∧ Is s 2 .idle := by
  refine ⟨_, Reach.run [.lock 0 .write, .crash 1, .crash 2] .init rfl, rfl, rfl, rfl, ⟨3, rfl, rfl⟩⟩

/-- Removing a reader from the 16-slot arrays (with `memmove`) is the list removal used above, in every reachable
state. -/
theorem array_removal_exact (cids : List Nat) (hc : ∀ c ∈ cids, c ≠ 0) (s : Sys) (h : Reach cids s) (c : Nat)
    (hc0 : c ≠ 0) : delArr (pad s.lock.readers) c = (delReaders s.lock.readers c).map pad := by
  have b := (h.binv hc).shape
  exact delArr_pad _ _ b.len hc0 b.nz

end Verif.RWLock
