import Verif.StartupLemmas

/-!
# Starting: properties

C69: connections are created one at a time and all work with the same, completely initialised shared memory.
-/

namespace Verif.Startup

/-- **C69** (partial). For all numbers of processes and threads, all schedules, failures and crashes: of all the threads that run, at most one is creating a
connection. What is missing: it holds if no thread disconnects, or fails to connect, while another thread of the same process is creating a connection
(`close_breaks_lock`). -/
theorem one_at_a_time_partial {ow : Tid → Pid} {s : State} (h : Reach ow (CloseApart ow) init s) {t u : Tid}
    (ht : s.dead (ow t) = false) (hu : s.dead (ow u) = false) (hti : Inside s t) (hui : Inside s u) : t = u :=
  excl (locks_reach (fun _ _ h => h) h) ht hu ((inside_iff s t).1 hti) ((inside_iff s u).1 hui)

theorem fine_reach {ow : Tid → Pid} {s : State} (h : Reach ow (fun s e => CloseApart ow s e ∧ InitDone ow s e) init s) : Fine ow s := by
  induction h with
  | start => constructor <;> simp [init, Pc.got, Pc.initing, Pc.spoilt]
  | next hr ha hs ih => exact fine_step ih (locks_reach (fun _ _ h => h.1) hr) ha.2 hs

/-- **C69** (partial). Every connection that was created works with the main SHM a new connection would open, it is completely initialised, and all the modules are
in the module SHM. Failures of later connections and crashes of processes at any moment after the initialisation included. What is missing: as above, and the
initialisation itself must not fail or be interrupted by a crash (`first_crash`, `failed_first_splits`). -/
theorem connected_good_partial {ow : Tid → Pid} {s : State} (h : Reach ow (fun s e => CloseApart ow s e ∧ InitDone ow s e) init s) {t : Tid} {m : Id}
    (ht : s.dead (ow t) = false) (hc : s.pc t = .connected m) : Good s m :=
  (fine_reach h).got t m ht (by rw [hc]; rfl)

/-- **C69** (partial). All the connections share the memory. -/
theorem same_memory_partial {ow : Tid → Pid} {s : State} (h : Reach ow (fun s e => CloseApart ow s e ∧ InitDone ow s e) init s) {t u : Tid} {m n : Id}
    (ht : s.dead (ow t) = false) (hu : s.dead (ow u) = false) (hc : s.pc t = .connected m) (hd : s.pc u = .connected n) : m = n := by
  have h1 := (connected_good_partial h ht hc).1
  have h2 := (connected_good_partial h hu hd).1
  rw [h1] at h2
  injection h2

/-! ## Where it fails -/

/-- A main SHM that is not initialised, and no running thread is about to initialise or to remove it. -/
def Abandoned (ow : Tid → Pid) (m : Id) (s : State) : Prop :=
  s.main = some m ∧ s.ready m = false ∧ ∀ t, s.dead (ow t) = false → (s.pc t).initing = none ∧ (s.pc t).spoilt = false

theorem abandoned_step {ow : Tid → Pid} {m : Id} {s s' : State} {e : Ev} (h : Abandoned ow m s) (hs : step ow s e = some s') : Abandoned ow m s' := by
  obtain ⟨hm, hr, ht⟩ := h
  have key : ∀ (t : Tid) (q : Pc) (mx : Pid → Option Tid) (rl : Option Pid), q.initing = none → q.spoilt = false →
      Abandoned ow m { s with pc := upd s.pc t q, mutex := mx, reclock := rl } := by
    intro t q mx rl h1 h2
    refine ⟨hm, hr, ?_⟩
    intro u hu
    simp only [upd]
    split
    · exact ⟨h1, h2⟩
    · exact ht u hu
  cases e with
  | connect t =>
    simp only [step] at hs
    split at hs <;> simp only [reduceCtorEq, Option.some.injEq] at hs
    subst hs
    exact key t _ _ _ rfl rfl
  | connNewFails t =>
    simp only [step] at hs
    split at hs <;> simp only [reduceCtorEq, Option.some.injEq] at hs
    subst hs
    exact ⟨hm, hr, ht⟩
  | disconnect t =>
    simp only [step] at hs
    split at hs
    · split at hs <;> simp only [reduceCtorEq, Option.some.injEq] at hs
      subst hs
      exact key t _ _ _ rfl rfl
    · cases hs
  | crash p =>
    simp only [step, Option.some.injEq] at hs
    subst hs
    refine ⟨hm, hr, ?_⟩
    intro u hu
    simp only [upd] at hu
    split at hu
    · cases hu
    · exact ht u hu
  | run t ok =>
    simp only [step] at hs
    split at hs
    case isFalse => cases hs
    rename_i hd
    have htt := ht t hd
    unfold run at hs
    cases hp : s.pc t <;> simp only [hp, reduceCtorEq, Option.some.injEq] at hs <;> rw [hp] at htt
    case waitM =>
      split at hs <;> simp only [reduceCtorEq, Option.some.injEq] at hs
      subst hs
      exact key t _ _ _ rfl rfl
    case haveM =>
      split at hs <;> simp only [reduceCtorEq, Option.some.injEq] at hs
      subst hs
      exact key t _ _ _ rfl rfl
    case crit =>
      split at hs
      · rename_i hn; rw [hn] at hm; cases hm
      simp only [Option.some.injEq] at hs
      subst hs
      refine key t _ _ _ ?_ ?_ <;> split <;> rfl
    case made k => cases htt.1
    case opened k cr =>
      cases cr with
      | true => cases htt.1
      | false =>
        split at hs <;> simp only [Bool.false_eq_true, if_false, Option.some.injEq] at hs <;> subst hs
        · exact key t _ _ _ rfl rfl
        · exact key t _ _ _ rfl rfl
    case leaving r cr =>
      subst hs
      refine key t _ _ _ ?_ ?_
      · cases r <;> rfl
      · have := htt.2; revert this; cases r <;> cases cr <;> simp [Pc.spoilt]
    case left r cr =>
      subst hs
      refine key t _ _ _ ?_ ?_
      · cases r <;> rfl
      · have := htt.2; revert this; cases r <;> cases cr <;> simp [Pc.spoilt]
    case closing cr =>
      cases cr with
      | true => cases htt.2
      | false => subst hs; exact key t _ _ _ rfl rfl
    case removing => cases htt.2

/-- **C69**, where it fails. Once the process that created the main SHM crashed before the end of the initialisation, nothing the API offers repairs it: whatever
connecting, disconnecting, failing and crashing follows, the memory stays uninitialised and no connection works with an initialised one. -/
theorem never_recovers {ow : Tid → Pid} {m : Id} {s0 s : State} (h0 : Abandoned ow m s0) (h : Reach ow (fun _ _ => True) s0 s) :
    s.main = some m ∧ s.ready m = false ∧ ∀ n, ¬ Good s n := by
  have ha : Abandoned ow m s := by
    induction h with
    | start => exact h0
    | next _ _ hs ih => exact abandoned_step ih hs
  refine ⟨ha.1, ha.2.1, ?_⟩
  intro n hg
  have : n = m := by have := hg.1; rw [ha.1] at this; injection this with this; exact this.symm
  subst this
  have := hg.2.1
  rw [ha.2.1] at this
  cases this

theorem exec_reach {ow : Tid → Pid} {s0 : State} (es : List Ev) : ∀ {s s' : State}, exec ow s es = some s' →
    Reach ow (fun _ _ => True) s0 s → Reach ow (fun _ _ => True) s0 s' := by
  induction es with
  | nil => intro s s' h hr; cases h; exact hr
  | cons e r ih =>
    intro s s' h hr
    simp only [exec] at h
    cases hs : step ow s e with
    | none => simp [hs] at h
    | some s1 =>
      rw [hs] at h
      exact ih h (.next hr trivial hs)

/-- Threads 0, 1 are of process 0, threads 2, 3 of process 1, and so on. -/
def exOw (t : Tid) : Pid := t / 2

def runs (t : Tid) (n : Nat) : List Ev := List.replicate n (.run t true)

/-- Process 0 creates the main SHM and crashes before the end of the initialisation (after the header is written). -/
def crashEvs : List Ev := .connect 0 :: runs 0 4 ++ [.crash 0]

/-- **C69**, where it fails: after the crash the state is abandoned, and a later `sr_connect` succeeds with memory that was never initialised. -/
theorem first_crash : ∃ s0 s, Reach exOw (fun _ _ => True) init s0 ∧ Abandoned exOw 0 s0 ∧ Reach exOw (fun _ _ => True) s0 s ∧
    s.dead (exOw 2) = false ∧ s.pc 2 = .connected 0 ∧ s.mods = false := by
  obtain ⟨s0, hs0⟩ : ∃ s, exec exOw init crashEvs = some s := ⟨_, rfl⟩
  obtain ⟨s, hs⟩ : ∃ s, exec exOw s0 (.connect 2 :: runs 2 6) = some s := by cases hs0; exact ⟨_, rfl⟩
  refine ⟨s0, s, exec_reach _ hs0 .start, ?_, exec_reach _ hs .start, ?_⟩
  · cases hs0
    refine ⟨rfl, rfl, ?_⟩
    intro t ht
    by_cases h : t = 0
    · subst h; cases ht
    · simp [upd, h, init, Pc.initing, Pc.spoilt]
  · cases hs0
    cases hs
    exact ⟨rfl, rfl, rfl⟩

/-- **C69**, where it fails: thread 0 of process 0 is creating a connection (and with it the shared memory); thread 1 of the same process, which was connected before
that, or whose connecting failed, closes its connection: the lock is released, and process 1 creates a connection at the same time. Here thread 1 fails to make a
connection structure. -/
theorem close_breaks_lock : ∃ s, Reach exOw (fun _ _ => True) init s ∧ Inside s 0 ∧ Inside s 2 ∧ s.dead 0 = false ∧ s.dead 1 = false ∧
    s.pc 0 = .made 0 ∧ s.pc 2 = .leaving none false := by
  obtain ⟨s, hs⟩ : ∃ s, exec exOw init (.connect 0 :: runs 0 3 ++ .connNewFails 1 :: .connect 2 :: runs 2 3) = some s := ⟨_, rfl⟩
  refine ⟨s, exec_reach _ hs .start, ?_⟩
  cases hs
  exact ⟨.inr (.inl ⟨0, rfl⟩), .inr (.inr (.inr ⟨none, false, rfl⟩)), rfl, rfl, rfl, rfl⟩

/-- The same by an ordinary `sr_disconnect` of a working connection: while process 0 creates a second connection and disconnects the first one, process 1 creates
a connection too. -/
theorem disconnect_breaks_lock : ∃ s, Reach exOw (fun _ _ => True) init s ∧ Inside s 0 ∧ Inside s 2 ∧ s.dead 0 = false ∧ s.dead 1 = false := by
  obtain ⟨s, hs⟩ : ∃ s, exec exOw init (.connect 1 :: runs 1 7 ++ .connect 0 :: runs 0 3 ++ .disconnect 1 :: .connect 2 :: runs 2 3) = some s := ⟨_, rfl⟩
  refine ⟨s, exec_reach _ hs .start, ?_⟩
  cases hs
  exact ⟨.inr (.inr (.inl ⟨0, false, rfl⟩)), .inr (.inr (.inl ⟨0, false, rfl⟩)), rfl, rfl⟩

/-- Process 0 creates the main SHM and then fails; it unlocks, and before it removes the files process 1 connects. Then the files are removed and process 2 connects: it
creates another main SHM and zeroes the module SHM. -/
def splitEvs : List Ev :=
  .connect 0 :: runs 0 4 ++ .run 0 false :: runs 0 2 ++ .connect 2 :: runs 2 6 ++ runs 0 2 ++ .connect 4 :: runs 4 4

/-- **C69**, where it fails: the failed first connection removes the shared memory only after it has unlocked. Two running processes work with different main SHM (their
locks do not exclude each other), one of them was never initialised, and its module SHM is being zeroed by the other. -/
theorem failed_first_splits : ∃ s, Reach exOw (fun _ _ => True) init s ∧ (∀ p, s.dead p = false) ∧ s.pc 2 = .connected 0 ∧ s.pc 4 = .opened 1 true ∧
    s.main = some 1 ∧ s.ready 0 = false ∧ s.mods = false := by
  obtain ⟨s, hs⟩ : ∃ s, exec exOw init splitEvs = some s := ⟨_, rfl⟩
  refine ⟨s, exec_reach _ hs .start, ?_⟩
  cases hs
  exact ⟨fun _ => rfl, rfl, rfl, rfl, rfl, rfl⟩

/-- The conditions of the theorems, for the processes of the examples (two threads each), as a function. -/
def okB (s : State) : Ev → Bool
  | .connect _ => true
  | .connNewFails t | .disconnect t => !(s.pc (2 * (t / 2))).inside && !(s.pc (2 * (t / 2) + 1)).inside
  | .run t ok =>
    (match s.pc t with
      | .closing _ => !(s.pc (2 * (t / 2))).inside && !(s.pc (2 * (t / 2) + 1)).inside
      | .opened _ true => ok
      | _ => true)
  | .crash p => (s.pc (2 * p)).initing.isNone && (s.pc (2 * p + 1)).initing.isNone

theorem two_threads {u p : Nat} (h : u / 2 = p) : u = 2 * p ∨ u = 2 * p + 1 := by omega

theorem okB_sound {s : State} {e : Ev} (h : okB s e = true) : CloseApart exOw s e ∧ InitDone exOw s e := by
  have two : ∀ {p : Nat}, (!(s.pc (2 * p)).inside && !(s.pc (2 * p + 1)).inside) = true → ∀ u, exOw u = p → ¬ Inside s u := by
    intro p hp u hu hi
    rw [inside_iff] at hi
    simp only [Bool.and_eq_true, Bool.not_eq_true'] at hp
    rcases two_threads hu with rfl | rfl
    · rw [hp.1] at hi; cases hi
    · rw [hp.2] at hi; cases hi
  cases e with
  | connect t => exact ⟨trivial, trivial⟩
  | connNewFails t => exact ⟨fun u hu => two h u hu, trivial⟩
  | disconnect t => exact ⟨fun u hu => two h u hu, trivial⟩
  | run t ok =>
    refine ⟨?_, ?_⟩
    · rintro ⟨cr, hc⟩ u hu
      simp only [okB, hc] at h
      exact two h u hu
    · rintro ⟨m, hm⟩
      simpa only [okB, hm] using h
  | crash p =>
    refine ⟨trivial, ?_⟩
    intro t ht hi
    rw [initialising_iff] at hi
    simp only [okB, Bool.and_eq_true, Option.isNone_iff_eq_none] at h
    rcases two_threads ht with rfl | rfl
    · exact hi h.1
    · exact hi h.2

/-- Steps one after another, with the conditions. -/
def execB : State → List Ev → Option State
  | s, [] => some s
  | s, e :: r => if okB s e = true then (step exOw s e).bind fun s' => execB s' r else none

theorem execB_reach (es : List Ev) : ∀ {s s' : State}, execB s es = some s' →
    Reach exOw (fun s e => CloseApart exOw s e ∧ InitDone exOw s e) init s → Reach exOw (fun s e => CloseApart exOw s e ∧ InitDone exOw s e) init s' := by
  induction es with
  | nil => intro s s' h hr; cases h; exact hr
  | cons e r ih =>
    intro s s' h hr
    simp only [execB] at h
    split at h
    case isFalse => cases h
    rename_i hk
    cases hs : step exOw s e with
    | none => simp [hs] at h
    | some s1 =>
      rw [hs] at h
      exact ih h (.next hr (okB_sound hk) hs)

/-- The hypotheses are met: connections of three processes, created at the same time; connecting of thread 2 fails, process 1 crashes while it connects again, thread 1
disconnects. -/
example : ∃ s, Reach exOw (fun s e => CloseApart exOw s e ∧ InitDone exOw s e) init s ∧ s.pc 0 = .connected 0 ∧ s.pc 4 = .connected 0 ∧ s.dead 1 = true ∧ Good s 0 := by
  obtain ⟨s, hs⟩ : ∃ s, execB init ([.connect 0, .connect 2, .run 2 true, .connect 1] ++ runs 0 7 ++ runs 2 2 ++ .run 2 false :: runs 2 3 ++ runs 1 6 ++
      .connect 2 :: runs 2 2 ++ .crash 1 :: .connect 4 :: runs 4 6 ++ [.disconnect 1]) = some s := ⟨_, rfl⟩
  have hr := execB_reach _ hs .start
  have h4 : s.pc 4 = .connected 0 := by cases hs; rfl
  have hd : s.dead (exOw 4) = false := by cases hs; rfl
  refine ⟨s, hr, ?_, h4, ?_, connected_good_partial hr hd h4⟩ <;> cases hs <;> rfl

end Verif.Startup
