import Verif.RunCacheLemmas

/-!
# Properties of the cache of running data (C108, C109)
-/
namespace Verif.RunCache

theorem reach_exec {A : Cfg} {s s' : State} {ls : List Label} (h : Reach A s)
    (he : exec A s ls = some s') : Reach A s' := by
  induction ls generalizing s with
  | nil => cases he; exact h
  | cons l ls ih =>
    simp only [exec] at he
    split at he
    · rename_i s1 h1; exact ih (.step l h h1) he
    · cases he

/-- Three modules with data, nothing cached, everything readable. -/
def s0 : State where
  file := fun m => [m, 7]
  cid := fun _ => 0
  n := fun _ => 0
  ver := fun _ => 1
  perm := fun _ => true
  ents := fun _ => []
  data := fun _ => []
  th := fun _ => ⟨.idle, [], [], false, none, fun _ => true, false⟩
  crash := false

theorem init_s0 : Init s0 := ⟨fun _ => rfl, fun _ => rfl, fun _ => rfl, fun _ => rfl, fun _ => rfl, rfl⟩

/-- Two threads of caching connection 0 and two of connection 1 without a cache. -/
def A0 : Cfg where
  nt := 4
  conn := fun t => if t < 2 then 0 else 1
  cached := fun c => c == 0
  runDisabled := fun _ => false
  hasVer := fun _ => false
  loadsFail := false

/-! ## C108 -/

/-- A read of running data on a connection with the cache returns, for every module it reads, exactly
the data stored at that moment, whatever the other threads and connections did before and do meanwhile.
Partial: for modules with their own running data and no version of the plugin, at most 2^32 - 2 stores
of the module, and loading that does not fail; each of these is needed, see below. -/
theorem read_current_partial {A : Cfg} (hA : A.loadsFail = false) {s : State} (h : Reach A s)
    {t m : Nat} {r : List (Nat × Nat)} (hd : (s.th t).pc = .done r) (hm : m ∈ (s.th t).ms)
    (hv : A.hasVer m = false) (hr : A.runDisabled m = false) (hn : s.n m < 2 ^ 32 - 1) :
    nodesOf r m = s.file m :=
  (inv_reach hA h).res t r m hd hm ⟨hv, hr, hn⟩

/-- A thread that cached the module reads it again after another connection changed it. -/
def runRead : List Label :=
  [.beginRead 0 [0, 1] false true, .find 0, .add 0, .check 0, .load 0, .find 0, .check 0, .load 0, .find 0,
   .fin 0, .ret 0,
   .beginWrite 2 [1] 1 (fun d => 3 :: d), .fin 2, .store 2, .bump 2,
   .beginRead 0 [1] false true, .find 0, .check 0, .lockLoad 0, .load 0, .find 0, .fin 0]

theorem runRead_ok : ∃ s, exec A0 s0 runRead = some s ∧ (s.th 0).pc = .done [(1, 3), (1, 1), (1, 7)] ∧
    (s.th 0).ms = [1] ∧ s.n 1 = 1 := ⟨_, rfl, rfl, rfl, rfl⟩

example : ∃ s, Reach A0 s ∧ (s.th 0).pc = .done [(1, 3), (1, 1), (1, 7)] ∧ 1 ∈ (s.th 0).ms ∧
    A0.hasVer 1 = false ∧ A0.runDisabled 1 = false ∧ s.n 1 < 2 ^ 32 - 1 ∧ s.file 1 = [3, 1, 7] := by
  obtain ⟨s, h, h1, h2, h3⟩ := runRead_ok
  have hr := reach_exec (.init init_s0) h
  refine ⟨s, hr, h1, by rw [h2]; simp, rfl, rfl, by rw [h3]; decide, ?_⟩
  exact (read_current_partial rfl hr h1 (by rw [h2]; simp) rfl rfl (by rw [h3]; decide)).symm

/-- A change of running data made on a connection with the cache is applied to the data stored at the
moment of the store: no change of another connection is lost because of an old cached copy.
Partial as above. -/
theorem write_from_current_partial {A : Cfg} (hA : A.loadsFail = false) {s s' : State} (h : Reach A s)
    {t m : Nat} {f : List Nat → List Nat} (hw : (s.th t).wr = some (m, f))
    (hs : step A s (.store t) = some s') (hv : A.hasVer m = false) (hr : A.runDisabled m = false)
    (hn : s.n m < 2 ^ 32 - 1) : s'.file m = f (s.file m) := by
  simp only [step] at hs
  split at hs
  · rename_i d m' f' hp hw'
    rw [hw] at hw'; cases hw'
    split at hs
    · cases hs
      show upd s.file m d m = _
      rw [upd_same]
      exact (inv_reach hA h).base t d m f hp hw ⟨hv, hr, hn⟩
    · cases hs
  · cases hs

/-- Connection 0 has module 1 cached, connection 1 changes it, then connection 0 does. -/
def runWrite : List Label :=
  [.beginRead 0 [1] false true, .find 0, .add 0, .check 0, .load 0, .find 0, .fin 0, .ret 0,
   .beginWrite 2 [1] 1 (fun d => 3 :: d), .fin 2, .store 2, .bump 2,
   .beginWrite 0 [1, 2] 1 (fun d => 4 :: d), .find 0, .check 0, .lockLoad 0, .load 0, .find 0, .check 0,
   .load 0, .find 0, .fin 0]

theorem runWrite_ok : ∃ s s', exec A0 s0 runWrite = some s ∧ step A0 s (.store 0) = some s' ∧
    (s.th 0).wr = some (1, fun d => 4 :: d) ∧ s.n 1 = 1 ∧ s'.file 1 = [4, 3, 1, 7] :=
  ⟨_, _, rfl, rfl, rfl, rfl, rfl⟩

example : ∃ s s', Reach A0 s ∧ step A0 s (.store 0) = some s' ∧ (s.th 0).wr = some (1, fun d => 4 :: d) ∧
    s.n 1 < 2 ^ 32 - 1 ∧ s'.file 1 = [4, 3, 1, 7] := by
  obtain ⟨s, s', h, h1, h2, h3, h4⟩ := runWrite_ok
  exact ⟨s, s', reach_exec (.init init_s0) h, h1, h2, by rw [h3]; decide, h4⟩

theorem n_mono {A : Cfg} {s s' : State} {l : Label} (h : step A s l = some s') (m : Nat) :
    s.n m ≤ s'.n m := by
  cases l <;> simp only [step] at h <;> (repeat' split at h) <;> cases h <;>
    first
    | exact Nat.le_refl _
    | (show s.n m ≤ upd s.n _ _ m
       unfold upd; split
       · rename_i hm; subst hm; omega
       · exact Nat.le_refl _)

/-- Storing changed data never trips over the cache of the connection: the module is always there, with an
older version.  Partial as above. -/
theorem store_no_assert_partial {A : Cfg} (hA : A.loadsFail = false) (hv : ∀ m, A.hasVer m = false)
    {s : State} (h : Reach A s) (hn : ∀ m, s.n m < 2 ^ 32 - 1) : s.crash = false := by
  induction h with
  | init h => exact h.crash
  | @step s s' l hr hs ih =>
    have ih := ih (fun m => Nat.lt_of_le_of_lt (n_mono hs m) (hn m))
    have hI := inv_reach hA hr
    cases l <;> simp only [step] at hs
    case replace t =>
      split at hs
      · rename_i d m f hp hw
        have hwm : wmod (s.th t) = some m := by rw [wmod, hw]; rfl
        have hact : (s.th t).pc ≠ .idle := by rw [hp]; simp
        have hcc := hI.cch t (by rw [hp]; rfl)
        obtain ⟨k, hk⟩ := List.getElem?_of_mem (hI.wf t m hact hwm)
        obtain ⟨e, he, hem⟩ := hI.has t k m hcc (by rw [hp]; exact (List.getElem?_eq_some_iff.mp hk).1) hk
        split at hs
        · split at hs
          · rename_i hnone
            exact absurd hem (findEnt_none hnone e he)
          · rename_i j hj
            split at hs
            · rename_i hid
              exfalso
              obtain ⟨e1, he1, hm1⟩ := findEnt_some hj
              rw [he1] at hid
              have hid : e1.2 = s.cid m := by simpa using hid
              have ho := hI.old t m e1 (by rw [hp]; rfl) hwm (List.mem_of_getElem? he1) hm1 (hv m)
              have hc := hI.cid m
              have hn' : s.n m < 2 ^ 32 - 1 := Nat.lt_of_le_of_lt (Nat.le_refl _) (by
                have := hn m; cases hs; exact this)
              simp only [idNone] at ho
              omega
            · cases hs; exact ih
        · cases hs
      · cases hs
    all_goals (repeat' split at hs) <;> cases hs <;> exact ih

theorem runStore_ok : ∃ s, exec A0 s0 (runWrite ++ [.store 0, .bump 0, .replace 0]) = some s ∧
    s.data 0 = [(2, 2), (2, 7), (1, 4), (1, 3), (1, 1), (1, 7)] ∧ s.ents 0 = [(1, 2), (2, 0)] ∧
    s.n 1 = 2 ∧ s.crash = false := ⟨_, rfl, rfl, rfl, rfl, rfl⟩

example : ∃ s, Reach A0 s ∧ s.data 0 = [(2, 2), (2, 7), (1, 4), (1, 3), (1, 1), (1, 7)] ∧ s.n 1 = 2 ∧
    s.crash = false := by
  obtain ⟨s, h, h1, -, h3, h4⟩ := runStore_ok
  exact ⟨s, reach_exec (.init init_s0) h, h1, h3, h4⟩

/-- **Violation.** Two threads find the cached copy of a module old.  The first loads the new data; the second
then removes them, without looking at the version again, and fails to load them.  The entry stays marked
current with no data, and a later read, which does not fail, returns nothing for a module that has data. -/
theorem load_failure_empties : ∃ s, Reach { A0 with loadsFail := true } s ∧ (s.th 0).pc = .done [] ∧
    (s.th 0).ms = [1] ∧ s.file 1 = [3, 1, 7] := by
  have h : ∃ s, exec { A0 with loadsFail := true } s0
      [.beginRead 0 [1] false true, .find 0, .add 0, .check 0, .load 0, .find 0, .fin 0, .ret 0,
       .beginWrite 2 [1] 1 (fun d => 3 :: d), .fin 2, .store 2, .bump 2,
       .beginRead 0 [1] false true, .find 0, .check 0, .beginRead 1 [1] false true, .find 1, .check 1,
       .lockLoad 0, .load 0, .find 0, .fin 0, .ret 0, .lockLoad 1, .loadFail 1,
       .beginRead 0 [1] false true, .find 0, .check 0, .find 0, .fin 0] = some s ∧ (s.th 0).pc = .done [] ∧
      (s.th 0).ms = [1] ∧ s.file 1 = [3, 1, 7] := ⟨_, rfl, rfl, rfl, rfl⟩
  obtain ⟨s, h, h1⟩ := h
  exact ⟨s, reach_exec (.init init_s0) h, h1⟩

/-- **Violation.** Running of a module is disabled, so its running data are its startup data.  Startup is
changed; `run_cache_id` is not, and a read of running with the cache keeps returning the old data. -/
theorem startup_edit_stale : ∃ s, Reach { A0 with runDisabled := fun m => m == 1 } s ∧
    (s.th 0).pc = .done [(1, 1), (1, 7)] ∧ (s.th 0).ms = [1] ∧ s.file 1 = [9] := by
  have h : ∃ s, exec { A0 with runDisabled := fun m => m == 1 } s0
      [.beginRead 0 [1] false true, .find 0, .add 0, .check 0, .load 0, .find 0, .fin 0, .ret 0,
       .editStartup 1 [9], .beginRead 0 [1] false true, .find 0, .check 0, .find 0, .fin 0] = some s ∧
      (s.th 0).pc = .done [(1, 1), (1, 7)] ∧ (s.th 0).ms = [1] ∧ s.file 1 = [9] := ⟨_, rfl, rfl, rfl, rfl⟩
  obtain ⟨s, h, h1⟩ := h
  exact ⟨s, reach_exec (.init init_s0) h, h1⟩

/-- **Violation.** For a plugin that tells the version of its data, a store remembers the SHM counter with the
cached data instead.  When the plugin later uses that number for other data, they are taken for the
cached ones. -/
theorem version_stale : ∃ s, Reach { A0 with hasVer := fun m => m == 1 } s ∧
    (s.th 0).pc = .done [(1, 4), (1, 1), (1, 7)] ∧ (s.th 0).ms = [1] ∧ s.file 1 = [9] := by
  have hi : Init { s0 with ver := fun _ => 5 } :=
    ⟨fun _ => rfl, fun _ => rfl, fun _ => rfl, fun _ => rfl, fun _ => rfl, rfl⟩
  have h : ∃ s, exec { A0 with hasVer := fun m => m == 1 } { s0 with ver := fun _ => 5 }
      [.beginWrite 0 [1] 1 (fun d => 4 :: d), .find 0, .add 0, .check 0, .load 0, .find 0, .fin 0,
       .store 0, .bump 0, .replace 0, .external 1 [9] 1,
       .beginRead 0 [1] false true, .find 0, .check 0, .find 0, .fin 0] = some s ∧
      (s.th 0).pc = .done [(1, 4), (1, 1), (1, 7)] ∧ (s.th 0).ms = [1] ∧ s.file 1 = [9] :=
    ⟨_, rfl, rfl, rfl, rfl⟩
  obtain ⟨s, h, h1⟩ := h
  exact ⟨s, reach_exec (.init hi) h, h1⟩

/-- **Violation.** For such a plugin the assertion that the cached data are old compares the version of the
plugin with the SHM counter, and a plain store aborts the process when they happen to be equal. -/
theorem version_assert : ∃ s, Reach { A0 with hasVer := fun m => m == 1 } s ∧ s.crash = true := by
  have h : ∃ s, exec { A0 with hasVer := fun m => m == 1 } s0
      [.beginWrite 0 [1] 1 (fun d => 4 :: d), .find 0, .add 0, .check 0, .load 0, .find 0, .fin 0,
       .store 0, .bump 0, .replace 0] = some s ∧ s.crash = true := ⟨_, rfl, rfl⟩
  obtain ⟨s, h, h1⟩ := h
  exact ⟨s, reach_exec (.init init_s0) h, h1⟩

theorem range4 : List.range 4 = [0, 1, 2, 3] := rfl

/-- One change of module 1 by connection 1, which has no cache. -/
theorem write_once {s : State} (h : Reach A0 s) (hi : ∀ t, (s.th t).pc = .idle) :
    ∃ s', Reach A0 s' ∧ (∀ t, (s'.th t).pc = .idle) ∧ s'.cid 1 = (s.cid 1 + 1) % 4294967296 ∧
      s'.ents = s.ents ∧ s'.data = s.data ∧ s'.file 1 = [9] ∧ s'.perm = s.perm := by
  obtain ⟨s1, e1, h1⟩ : ∃ s1, s1 = State.mk s.file s.cid s.n s.ver s.perm s.ents s.data
      (upd s.th 2 ⟨.fin, [1], [1], false, some (1, fun _ => [9]), s.perm, false⟩) s.crash ∧
      step A0 s (.beginWrite 2 [1] 1 (fun _ => [9])) = some s1 := by
    refine ⟨_, rfl, ?_⟩
    simp [step, hi, canR, alone, canRdMods, A0, start, range4, Pc.holdsW, Pc.storing]
  obtain ⟨s2, e2, h2⟩ : ∃ s2, s2 = s1.go 2 (.ready [9]) ∧ step A0 s1 (.fin 2) = some s2 := by
    refine ⟨_, rfl, ?_⟩
    subst e1; simp [step, upd]
  obtain ⟨s3, e3, h3⟩ : ∃ s3, s3 = { s2.go 2 (.stored [9]) with
      file := upd s2.file 1 [9], ver := upd s2.ver 1 (s2.ver 1 + 1) } ∧
      step A0 s2 (.store 2) = some s3 := by
    refine ⟨_, rfl, ?_⟩
    subst e2; subst e1
    simp [step, upd, State.go, canWrMod, A0, range4, hi]
  obtain ⟨s4, e4, h4⟩ : ∃ s4, s4 = { s3.go 2 .idle with
      cid := upd s3.cid 1 ((s3.cid 1 + 1) % 4294967296), n := upd s3.n 1 (s3.n 1 + 1) } ∧
      step A0 s3 (.bump 2) = some s4 := by
    refine ⟨_, rfl, ?_⟩
    subst e3; subst e2; subst e1
    simp [step, upd, State.go, A0]
  refine ⟨s4, .step _ (.step _ (.step _ (.step _ h h1) h2) h3) h4, ?_, ?_, ?_, ?_, ?_, ?_⟩
  all_goals subst e4; subst e3; subst e2; subst e1
  · intro t; by_cases ht : t = 2
    · simp [State.go, upd, ht]
    · simpa [State.go, upd, ht] using hi t
  · simp [State.go, upd]
  · rfl
  · rfl
  · simp [State.go, upd]
  · rfl

theorem write_many (k : Nat) : ∃ s, Reach A0 s ∧ (∀ t, (s.th t).pc = .idle) ∧
    s.cid 1 = (k + 1) % 4294967296 ∧ s.ents = s0.ents ∧ s.data = s0.data ∧ s.file 1 = [9] ∧
    s.perm = s0.perm := by
  induction k with
  | zero =>
    obtain ⟨s, h1, h2, h3, h4, h5, h6, h7⟩ := write_once (.init init_s0) (fun _ => rfl)
    exact ⟨s, h1, h2, h3, h4, h5, h6, h7⟩
  | succ k ih =>
    obtain ⟨s, h1, h2, h3, h4, h5, h6, h7⟩ := ih
    obtain ⟨s', g1, g2, g3, g4, g5, g6, g7⟩ := write_once h1 h2
    exact ⟨s', g1, g2, by rw [g3, h3]; omega, g4.trans h4, g5.trans h5, g6, g7.trans h7⟩

/-- **Violation.** The number of stores kept in SHM reaches the number that marks data not yet cached.  The
first read of the module then takes its empty entry for current and returns nothing. -/
theorem counter_unset : ∃ s, Reach A0 s ∧ (s.th 0).pc = .done [] ∧ (s.th 0).ms = [1] ∧ s.file 1 = [9] := by
  obtain ⟨s, h, hi, hc, he, hd, hf, hp⟩ := write_many 4294967294
  obtain ⟨s1, e1, h1⟩ : ∃ s1, s1 = State.mk s.file s.cid s.n s.ver s.perm s.ents s.data
      (upd s.th 0 ⟨.upd 0 .rd, [1], [1], false, none, s.perm, true⟩) s.crash ∧
      step A0 s (.beginRead 0 [1] false true) = some s1 := by
    refine ⟨_, rfl, ?_⟩
    simp [step, hi, canR, alone, canRdMods, A0, start, range4, Pc.holdsW, Pc.storing, permitted, hp, s0]
  obtain ⟨s2, e2, h2⟩ : ∃ s2, s2 = s1.go 0 (.waitAdd 0) ∧ step A0 s1 (.find 0) = some s2 := by
    refine ⟨_, rfl, ?_⟩
    subst e1; simp [step, upd, he, s0, findEnt]
  obtain ⟨s3, e3, h3⟩ : ∃ s3, s3 = { s2.go 0 (.check 0 0 .wr) with
      ents := upd s2.ents 0 [(1, idNone)] } ∧ step A0 s2 (.add 0) = some s3 := by
    refine ⟨_, rfl, ?_⟩
    subst e2; subst e1
    simp [step, upd, State.go, canW, alone, A0, range4, hi, Pc.holdsR, Pc.holdsW, he, s0]
  obtain ⟨s4, e4, h4⟩ : ∃ s4, s4 = s3.go 0 (.upd 1 .wr) ∧ step A0 s3 (.check 0) = some s4 := by
    refine ⟨_, rfl, ?_⟩
    subst e3; subst e2; subst e1
    simp [step, upd, State.go, A0, curId, hc, idNone]
  obtain ⟨s5, e5, h5⟩ : ∃ s5, s5 = s4.go 0 .fin ∧ step A0 s4 (.find 0) = some s5 := by
    refine ⟨_, rfl, ?_⟩
    subst e4; subst e3; subst e2; subst e1
    simp [step, upd, State.go]
  obtain ⟨s6, e6, h6⟩ : ∃ s6, s6 = s5.go 0 (.done []) ∧ step A0 s5 (.fin 0) = some s6 := by
    refine ⟨_, rfl, ?_⟩
    subst e5; subst e4; subst e3; subst e2; subst e1
    simp [step, upd, State.go, loaded, A0, hd, s0, select]
  refine ⟨s6, .step _ (.step _ (.step _ (.step _ (.step _ (.step _ h h1) h2) h3) h4) h5) h6, ?_, ?_, ?_⟩
  all_goals subst e6; subst e5; subst e4; subst e3; subst e2; subst e1
  · simp [State.go, upd]
  · simp [State.go, upd]
  · exact hf

/-! ## C109 -/

structure Inv2 (A : Cfg) (s : State) : Prop where
  perm : ∀ t m, (s.th t).pc ≠ .idle → (s.th t).chk = true → m ∈ (s.th t).ms → (s.th t).perm0 m = true
  unc : ∀ t r x, (s.th t).pc = .done r → A.cached (A.conn t) = false → x ∈ r → x.1 ∈ (s.th t).ms
  req : ∀ t r x, (s.th t).pc = .done r → (s.th t).noFilter = false → x ∈ r → x.1 ∈ (s.th t).req

theorem inv2_go {A : Cfg} {s s' : State} (h : Inv2 A s) {t : Nat} {p : Pc}
    (ht : s'.th = upd s.th t { s.th t with pc := p }) (hq : p ≠ .idle → (s.th t).pc ≠ .idle)
    (hu : ∀ r x, p = .done r → A.cached (A.conn t) = false → x ∈ r → x.1 ∈ (s.th t).ms)
    (hr : ∀ r x, p = .done r → (s.th t).noFilter = false → x ∈ r → x.1 ∈ (s.th t).req) : Inv2 A s' := by
  constructor
  · intro x m; rw [ht]; by_cases hx : x = t
    · subst hx; rw [upd_same]; exact fun a b c => h.perm x m (hq a) b c
    · rw [upd_other _ _ hx]; exact h.perm x m
  · intro x r y; rw [ht]; by_cases hx : x = t
    · subst hx; rw [upd_same]; exact hu r y
    · rw [upd_other _ _ hx]; exact h.unc x r y
  · intro x r y; rw [ht]; by_cases hx : x = t
    · subst hx; rw [upd_same]; exact hr r y
    · rw [upd_other _ _ hx]; exact h.req x r y

theorem inv2_same {A : Cfg} {s s' : State} (h : Inv2 A s) (ht : s'.th = s.th) : Inv2 A s' :=
  ⟨fun t => by rw [ht]; exact h.perm t, fun t => by rw [ht]; exact h.unc t, fun t => by rw [ht]; exact h.req t⟩

theorem inv2_reach {A : Cfg} {s : State} (h : Reach A s) : Inv2 A s := by
  induction h with
  | init h => exact ⟨fun t m hh => absurd (h.th t) hh, fun t r x hh => (by rw [h.th] at hh; cases hh),
      fun t r x hh => (by rw [h.th] at hh; cases hh)⟩
  | @step s s' l hr hs ih =>
    cases l <;> simp only [step] at hs
    case beginRead t req nf chk =>
      split at hs
      · cases hs
        constructor
        · intro x m; by_cases hx : x = t
          · subst hx; simp only [upd_same]
            intro _ hc hm; subst hc
            simp only [permitted, if_true] at hm
            exact (List.mem_filter.mp hm).2
          · simp only [upd_other _ _ hx]; exact ih.perm x m
        · intro x r y; by_cases hx : x = t
          · subst hx; simp only [upd_same, start]; intro hh; split at hh <;> cases hh
          · simp only [upd_other _ _ hx]; exact ih.unc x r y
        · intro x r y; by_cases hx : x = t
          · subst hx; simp only [upd_same, start]; intro hh; split at hh <;> cases hh
          · simp only [upd_other _ _ hx]; exact ih.req x r y
      · cases hs
    case beginWrite t ms m f =>
      split at hs
      · cases hs
        constructor
        · intro x m; by_cases hx : x = t
          · subst hx; simp only [upd_same]; intro _ hc; cases hc
          · simp only [upd_other _ _ hx]; exact ih.perm x m
        · intro x r y; by_cases hx : x = t
          · subst hx; simp only [upd_same, start]; intro hh; split at hh <;> cases hh
          · simp only [upd_other _ _ hx]; exact ih.unc x r y
        · intro x r y; by_cases hx : x = t
          · subst hx; simp only [upd_same, start]; intro hh; split at hh <;> cases hh
          · simp only [upd_other _ _ hx]; exact ih.req x r y
      · cases hs
    case fin t =>
      split at hs
      · rename_i hp
        split at hs
        · cases hs
          refine inv2_go ih rfl (fun _ => by rw [hp]; simp) ?_ ?_
          · intro r x hh hc hx
            cases hh
            rw [select] at hx
            have hx := (List.mem_filter.mp hx).1
            rw [loaded, hc] at hx
            simp only [Bool.false_and, Bool.false_eq_true, if_false, List.mem_flatMap, tree, List.mem_map] at hx
            obtain ⟨m, hm, v, -, rfl⟩ := hx
            exact hm
          · intro r x hh hnf hx
            cases hh
            rw [select, hnf] at hx
            simpa using (List.mem_filter.mp hx).2
        · cases hs
          exact inv2_go ih rfl (fun _ => by rw [hp]; simp) (fun r x hh => by cases hh) (fun r x hh => by cases hh)
      · cases hs
    case bump t =>
      split at hs
      · rename_i hp hw
        cases hs
        refine inv2_go ih rfl (fun _ => by rw [hp]; simp) ?_ ?_ <;>
          (intro r x hh; split at hh <;> cases hh)
      · cases hs
    all_goals
      (repeat' split at hs) <;> cases hs <;>
      first
      | exact inv2_same ih rfl
      | exact inv2_go ih rfl (fun _ => by simp_all) (fun r x hh => by cases hh) (fun r x hh => by cases hh)
      | exact inv2_go ih rfl (fun hh => absurd rfl hh) (fun r x hh => by cases hh) (fun r x hh => by cases hh)

/-- A read on a connection without the cache returns data only of modules the user could read when the call
began. -/
theorem uncached_only_permitted {A : Cfg} {s : State} (h : Reach A s) {t : Nat} {r : List (Nat × Nat)}
    (hd : (s.th t).pc = .done r) (hc : (s.th t).chk = true) (hu : A.cached (A.conn t) = false) :
    ∀ x ∈ r, (s.th t).perm0 x.1 = true :=
  fun x hx => (inv2_reach h).perm t x.1 (by rw [hd]; simp) hc ((inv2_reach h).unc t r x hd hu hx)

theorem runUncached_ok : ∃ s, exec A0 s0 [.chmod 1 false, .beginRead 2 [0, 1, 2] true true, .fin 2] = some s ∧
    (s.th 2).pc = .done [(0, 0), (0, 7), (2, 2), (2, 7)] ∧ (s.th 2).chk = true ∧
    (s.th 2).perm0 1 = false := ⟨_, rfl, rfl, rfl, rfl⟩

example : ∃ s, Reach A0 s ∧ (s.th 2).pc = .done [(0, 0), (0, 7), (2, 2), (2, 7)] ∧ (s.th 2).chk = true ∧
    A0.cached (A0.conn 2) = false ∧ (s.th 2).perm0 1 = false := by
  obtain ⟨s, h, h1, h2, h3⟩ := runUncached_ok
  exact ⟨s, reach_exec (.init init_s0) h, h1, h2, rfl, h3⟩

/-- A read on any connection returns data only of modules the user could read when the call began.
Partial: the filter is applied and selects data only of such modules; otherwise see below. -/
theorem only_permitted_partial {A : Cfg} {s : State} (h : Reach A s) {t : Nat} {r : List (Nat × Nat)}
    (hd : (s.th t).pc = .done r) (hf : (s.th t).noFilter = false)
    (hp : ∀ m ∈ (s.th t).req, (s.th t).perm0 m = true) : ∀ x ∈ r, (s.th t).perm0 x.1 = true :=
  fun x hx => hp x.1 ((inv2_reach h).req t r x hd hf hx)

theorem runCached_ok : ∃ s, exec A0 s0
    [.beginRead 0 [0, 1] false true, .find 0, .add 0, .check 0, .load 0, .find 0, .check 0, .load 0, .find 0,
     .fin 0, .ret 0, .chmod 1 false, .beginRead 0 [0] false true, .find 0, .check 0, .find 0, .fin 0] = some s ∧
    (s.th 0).pc = .done [(0, 0), (0, 7)] ∧ (s.th 0).noFilter = false ∧ (s.th 0).req = [0] ∧
    (s.th 0).perm0 0 = true ∧ (s.th 0).perm0 1 = false := ⟨_, rfl, rfl, rfl, rfl, rfl, rfl⟩

example : ∃ s, Reach A0 s ∧ (s.th 0).pc = .done [(0, 0), (0, 7)] ∧ (s.th 0).noFilter = false ∧
    (∀ m ∈ (s.th 0).req, (s.th 0).perm0 m = true) ∧ (s.th 0).perm0 1 = false := by
  obtain ⟨s, h, h1, h2, h3, h4, h5⟩ := runCached_ok
  refine ⟨s, reach_exec (.init init_s0) h, h1, h2, ?_, h5⟩
  intro m hm; rw [h3] at hm; simp at hm; rw [hm]; exact h4

/-- **Violation.** With the cache the filter is evaluated on all cached data.  A module the user may not read
any more is left out of the call, but a filter that selects also data of another module returns its
cached data. -/
theorem denied_returned : ∃ s, Reach A0 s ∧ (s.th 0).chk = true ∧ (s.th 0).perm0 1 = false ∧
    (s.th 0).pc = .done [(0, 0), (0, 7), (1, 1), (1, 7)] := by
  have h : ∃ s, exec A0 s0
      [.beginRead 0 [0, 1] false true, .find 0, .add 0, .check 0, .load 0, .find 0, .check 0, .load 0, .find 0,
       .fin 0, .ret 0, .chmod 1 false, .beginRead 0 [0, 1] false true, .find 0, .check 0, .find 0, .fin 0]
        = some s ∧ (s.th 0).chk = true ∧ (s.th 0).perm0 1 = false ∧
      (s.th 0).pc = .done [(0, 0), (0, 7), (1, 1), (1, 7)] := ⟨_, rfl, rfl, rfl, rfl⟩
  obtain ⟨s, h, h1⟩ := h
  exact ⟨s, reach_exec (.init init_s0) h, h1⟩

/-- **Violation.** The user could never read the module: its data came to the cache with a load for validation,
which checks no permissions. -/
theorem never_permitted_returned : ∃ s, Reach A0 s ∧ (s.th 0).chk = true ∧ (s.th 0).perm0 1 = false ∧
    (s.th 0).pc = .done [(1, 1), (1, 7), (0, 0), (0, 7)] := by
  have hi : Init { s0 with perm := fun m => m != 1 } :=
    ⟨fun _ => rfl, fun _ => rfl, fun _ => rfl, fun _ => rfl, fun _ => rfl, rfl⟩
  have h : ∃ s, exec A0 { s0 with perm := fun m => m != 1 }
      [.beginRead 0 [1] false false, .find 0, .add 0, .check 0, .load 0, .find 0, .fin 0, .ret 0,
       .beginRead 0 [0, 1] false true, .find 0, .add 0, .check 0, .load 0, .find 0, .fin 0]
        = some s ∧ (s.th 0).chk = true ∧ (s.th 0).perm0 1 = false ∧
      (s.th 0).pc = .done [(1, 1), (1, 7), (0, 0), (0, 7)] := ⟨_, rfl, rfl, rfl, rfl⟩
  obtain ⟨s, h, h1⟩ := h
  exact ⟨s, reach_exec (.init hi) h, h1⟩

/-- **Violation.** With `SR_GET_NO_FILTER` a read of one module returns the cached data of all, also of a module
that is not part of the call; they are not locked nor updated, and differ from the stored data. -/
theorem no_filter_stale : ∃ s, Reach A0 s ∧ (s.th 0).req = [0] ∧
    (s.th 0).pc = .done [(0, 0), (0, 7), (1, 1), (1, 7)] ∧ s.file 1 = [9] := by
  have h : ∃ s, exec A0 s0
      [.beginRead 0 [0, 1] false true, .find 0, .add 0, .check 0, .load 0, .find 0, .check 0, .load 0, .find 0,
       .fin 0, .ret 0, .beginWrite 2 [1] 1 (fun _ => [9]), .fin 2, .store 2, .bump 2,
       .beginRead 0 [0] true true, .find 0, .check 0, .find 0, .fin 0]
        = some s ∧ (s.th 0).req = [0] ∧
      (s.th 0).pc = .done [(0, 0), (0, 7), (1, 1), (1, 7)] ∧ s.file 1 = [9] := ⟨_, rfl, rfl, rfl, rfl⟩
  obtain ⟨s, h, h1⟩ := h
  exact ⟨s, reach_exec (.init init_s0) h, h1⟩

end Verif.RunCache
