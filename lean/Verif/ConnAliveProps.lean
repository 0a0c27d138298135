import Verif.ConnAliveLemmas

/-!
# Live and dead connections: properties

C68: a connection in use is never taken for a dead one, and a finished or crashed connection is found to be dead.
-/

namespace Verif.ConnAlive

/-- Steps one after another, all allowed by `A`. -/
inductive Path (ow : Tid → Pid) (A : State → Ev → Prop) : State → List Ev → State → Prop where
  | nil {s} : Path ow A s [] s
  | cons {s e s' es s''} : A s e → step ow s e = some s' → Path ow A s' es s'' → Path ow A s (e :: es) s''

/-- The flag of a check. -/
def Pc.flag : Pc → Option Bool
  | .chk _ g | .notOwn _ g | .opened _ _ g | .tested _ _ _ g | .unlinking _ g | .answer _ _ g => some g
  | _ => none

theorem path_reach {ow : Tid → Pid} {old : Cid → Bool} {A : State → Ev → Prop} {s s' : State} {es : List Ev} (h : Path ow A s es s')
    (hr : Reach ow old A s) : Reach ow old A s' := by
  induction h with
  | nil => exact hr
  | cons ha hs _ ih => exact ih (.next hr ha hs)

theorem flag_step {ow : Tid → Pid} {s s' : State} {e : Ev} (t : Tid) (hs : step ow s e = some s') (hne : ∀ c, e ≠ .check t c)
    (h : (s.pc t).flag ≠ some false) : (s'.pc t).flag ≠ some false := by
  cases e with
  | connect u =>
    simp only [step] at hs
    split at hs
    · injection hs with hs
      subst hs
      by_cases hu : t = u
      · subst hu; simp [upd_same, Pc.flag]
      · simpa [upd_ne _ _ hu] using h
    · cases hs
  | disconnect u c =>
    simp only [step] at hs
    split at hs
    · split at hs
      · cases hs
      injection hs with hs
      subst hs
      by_cases hu : t = u
      · subst hu; simp [upd_same, Pc.flag]
      · simpa [upd_ne _ _ hu] using h
    · cases hs
  | check u c =>
    simp only [step] at hs
    split at hs
    · injection hs with hs
      subst hs
      by_cases hu : t = u
      · subst hu; exact absurd rfl (hne c)
      · simpa [upd_ne _ _ hu] using h
    · cases hs
  | crash p =>
    simp only [step] at hs
    injection hs with hs
    subst hs
    exact h
  | run u ok =>
    simp only [step] at hs
    split at hs
    · by_cases hu : t = u
      · subst hu
        unfold run at hs
        cases hp : s.pc t <;> simp only [hp, reduceCtorEq, Option.some.injEq] at hs <;> rw [hp] at h <;>
          (try (split at hs <;> simp only [Option.some.injEq] at hs)) <;> subst hs <;> (try simp only [upd_same]) <;>
          (try (split <;> simpa [Pc.flag] using h)) <;> (try simpa [Pc.flag] using h)
      · unfold run at hs
        cases hp : s.pc u <;> simp only [hp, reduceCtorEq, Option.some.injEq] at hs <;>
          (try (split at hs <;> simp only [Option.some.injEq] at hs)) <;> subst hs <;> simpa [upd_ne _ _ hu] using h
    · cases hs

/-- The ghost `est` is what it is meant to be. -/
theorem est_live {ow : Tid → Pid} {old : Cid → Bool} {s : State} (h : Reach ow old Known s) (c : Cid) : s.est c = true ↔ Live s c := by
  have hi := inv_reach h
  constructor
  · intro he
    obtain ⟨p, i, hl⟩ := hi.glob.estR c he
    exact ⟨p, i, (hi.glob.held _ _ _ hl).1, hl⟩
  · rintro ⟨p, i, _, hl⟩
    exact hi.glob.estL _ _ _ hl

/-- **C68** (partial). For all numbers of processes and threads, all interleavings of their connecting, disconnecting and checking, all crashes of
processes and all lock files left from earlier: if a check says a connection is dead, the connection is not in use by any process. What is missing: this
is for checks of connections that already were established (owners of locks and of subscriptions); a check of a connection that is just being created is
made by the listing of connections, with it the property does not hold (`connecting_killed`, `leftover_race`). -/
theorem live_not_dead_partial {ow : Tid → Pid} {old : Cid → Bool} {s : State} (h : Reach ow old Known s) {t : Tid} {c : Cid} {g : Bool}
    (ha : s.pc t = .answer c false g) : ¬ Live s c := by
  have hi := inv_reach h
  have ht := hi.thr t
  rw [ha] at ht
  intro hl
  have := (est_live h c).2 hl
  have := (ht.1 rfl).2
  simp_all

/-- **C68** (partial). As long as a connection is in use, its lock file exists under its name and its process holds the lock; no check and no
disconnecting of anybody takes it away. Missing as above. -/
theorem live_keeps_lock_partial {ow : Tid → Pid} {old : Cid → Bool} {s : State} (h : Reach ow old Known s) {p : Pid} {c : Cid} {i : Ino}
    (hl : s.list p c = some i) : s.dead p = false ∧ s.path c = some i ∧ s.lock i = some p ∧ ∀ q j, s.list q c = some j → q = p := by
  have hi := inv_reach h
  have hh := hi.glob.held _ _ _ hl
  exact ⟨hh.1, hh.2.1, hh.2.2.1, fun q j hq => hi.glob.uniq _ _ _ _ _ hq hl⟩

/-- **C68**. A check that begins after the connection was finished, or after its process crashed, says that it is dead, whatever the others do
meanwhile. -/
theorem finished_found {ow : Tid → Pid} {old : Cid → Bool} {s s1 s2 : State} (h : Reach ow old Known s) {t : Tid} {c : Cid}
    (hw : s.was c = true) (hn : ¬ Live s c) (hs : step ow s (.check t c) = some s1) {es : List Ev} (hp : Path ow Known s1 es s2)
    (hes : ∀ e ∈ es, ∀ d, e ≠ .check t d) {d : Cid} {b g : Bool} (ha : s2.pc t = .answer d b g) : b = false := by
  have he : s.est c = false := by
    cases hx : s.est c
    · rfl
    · exact absurd ((est_live h c).1 hx) hn
  have hf : (s1.pc t).flag ≠ some false := by
    simp only [step] at hs
    split at hs
    · injection hs with hs
      subst hs
      simp [upd_same, Pc.flag, hw, he]
    · cases hs
  have hr : Reach ow old Known s1 := .next (e := .check t c) h hw hs
  have hr2 := path_reach hp hr
  have hf2 : (s2.pc t).flag ≠ some false := by
    clear ha hr2 hr hs
    induction hp with
    | nil => exact hf
    | cons _ hs' _ ih => exact ih (fun e he' => hes e (List.mem_cons_of_mem _ he')) (flag_step t hs' (hes _ (List.mem_cons_self ..)) hf)
  have ht := (inv_reach hr2).thr t
  rw [ha] at ht hf2
  cases b
  · rfl
  · have hg := ht.2 rfl
    subst hg
    exact absurd rfl hf2

/-- A connection is finished by disconnecting, and by a crash of its process. -/
theorem disconnect_ends {ow : Tid → Pid} {old : Cid → Bool} {s s' : State} (h : Reach ow old Known s) {t : Tid} {c : Cid}
    (hs : step ow s (.disconnect t c) = some s') : s'.was c = true ∧ ¬ Live s' c := by
  have hr : Reach ow old Known s' := .next (e := .disconnect t c) h trivial hs
  have hl : ¬ Live s' c ∧ s'.was c = true := by
    have hi := inv_reach h
    simp only [step] at hs
    split at hs
    · split at hs
      · cases hs
      rename_i i hl
      injection hs with hs
      subst hs
      constructor
      · intro hx
        have := (est_live hr c).2 hx
        simp [upd] at this
      · exact (hi.glob.held _ _ _ hl).2.2.2.1
    · cases hs
  exact ⟨hl.2, hl.1⟩

theorem crash_ends {ow : Tid → Pid} {old : Cid → Bool} {s s' : State} (h : Reach ow old Known s) {p : Pid} {c : Cid} {i : Ino}
    (hl : s.list p c = some i) (hs : step ow s (.crash p) = some s') : s'.was c = true ∧ ¬ Live s' c := by
  have hr : Reach ow old Known s' := .next (e := .crash p) h trivial hs
  have hi := inv_reach h
  simp only [step] at hs
  injection hs with hs
  subst hs
  refine ⟨(hi.glob.held _ _ _ hl).2.2.2.1, ?_⟩
  intro hx
  have := (est_live hr c).2 hx
  simp [hl] at this

/-- A check by itself always comes to a result: it waits for nobody. -/
theorem check_answers (ow : Tid → Pid) (s s1 : State) (t : Tid) (c : Cid) (hs : step ow s (.check t c) = some s1) :
    ∃ n s2 b g, exec ow s1 (List.replicate n (.run t true)) = some s2 ∧ s2.pc t = .answer c b g := by
  simp only [step] at hs
  split at hs
  case isFalse => cases hs
  rename_i hc
  injection hs with hs
  subst hs
  obtain ⟨g, hg⟩ : ∃ g, (s.was c && !s.est c) = g := ⟨_, rfl⟩
  rw [hg]
  cases hl : s.list (ow t) c with
  | some i => exact ⟨1, _, true, g, by simp [exec, step, hc.1, run, upd_same, hl]; rfl, by simp [upd_same]⟩
  | none =>
    cases hp : s.path c with
    | none => exact ⟨2, _, false, g, by simp [List.replicate, exec, step, hc.1, run, upd_same, hl, hp]; rfl, by simp [upd_same]⟩
    | some i =>
      by_cases hk : s.lock i = none ∨ s.lock i = some (ow t)
      · exact ⟨5, _, false, g, by simp [List.replicate, exec, step, hc.1, run, upd_same, hl, hp, hk]; rfl, by simp [upd_same]⟩
      · exact ⟨4, _, true, g, by simp [List.replicate, exec, step, hc.1, run, upd_same, hl, hp, hk]; rfl, by simp [upd_same, hk]⟩

/-! ## Where it fails -/

theorem exec_reach {ow : Tid → Pid} {old : Cid → Bool} (es : List Ev) : ∀ {s s' : State}, exec ow s es = some s' →
    Reach ow old (fun _ _ => True) s → Reach ow old (fun _ _ => True) s' := by
  induction es with
  | nil => intro s s' h hr; cases h; exact hr
  | cons e r ih =>
    intro s s' h hr
    simp only [exec] at h
    cases hs : step ow s e with
    | none => simp [hs] at h
    | some s1 =>
      rw [hs] at h
      exact ih h (.next hr trivial hs)

def knownB (s : State) : Ev → Bool
  | .check _ c => s.was c
  | _ => true

/-- Steps one after another, with checks of established connections only. -/
def execK (ow : Tid → Pid) : State → List Ev → Option State
  | s, [] => some s
  | s, e :: r =>
    if knownB s e = true then (step ow s e).bind fun s' => execK ow s' r else none

theorem execK_reach {ow : Tid → Pid} {old : Cid → Bool} (es : List Ev) : ∀ {s s' : State}, execK ow s es = some s' →
    Reach ow old Known s → Reach ow old Known s' := by
  induction es with
  | nil => intro s s' h hr; cases h; exact hr
  | cons e r ih =>
    intro s s' h hr
    simp only [execK] at h
    split at h
    case isFalse => cases h
    rename_i hk
    cases hs : step ow s e with
    | none => simp [hs] at h
    | some s1 =>
      rw [hs] at h
      refine ih h (.next hr ?_ hs)
      cases e <;> first | trivial | exact hk

/-- Threads 0, 1 are of process 0, the others of process 1. -/
def exOw (t : Tid) : Pid := if t < 2 then 0 else 1

/-- Thread 0 of process 0 connects (connection 1). When its lock file already has its name but it is not in the list yet, thread 1 of the same process lists
the connections (a read of the connections in the operational data of `sysrepo-monitoring`): not found in the list, the file is opened, the lock of the own process
is not seen, closing the file releases it, the file is removed. Then the connecting succeeds. Process 1 checks the connection. -/
def killEvs : List Ev :=
  [.connect 0, .run 0 true, .run 0 true, .run 0 true, .check 1 1, .run 1 true, .run 1 true, .run 1 true, .run 1 true, .run 1 true, .run 0 true, .run 0 true,
    .check 2 1, .run 2 true, .run 2 true]

/-- **C68**, where it fails: a connection whose `sr_connect` succeeded is in use and every other process takes it for dead from then on (they recover its
locks and remove its subscriptions), because a thread of its own process listed the connections while it was being created. -/
theorem connecting_killed : ∃ s, Reach exOw (fun _ => false) (fun _ _ => True) s ∧ Live s 1 ∧ s.user 1 = true ∧ s.pc 2 = .answer 1 false false := by
  obtain ⟨s, hs⟩ : ∃ s, exec exOw (init (fun _ => false)) killEvs = some s := ⟨_, rfl⟩
  refine ⟨s, exec_reach _ hs .start, ?_⟩
  cases hs
  exact ⟨⟨0, 0, rfl, rfl⟩, rfl, rfl⟩

/-- A lock file `conn_1.lock` is left from before a reboot. Process 1 lists the connections and opens the file; now process 0 connects, as connection 1, and renames
its new file over the old one. Process 1 finds the old file unlocked and removes the file of that name. -/
def leftEvs : List Ev :=
  [.check 2 1, .run 2 true, .run 2 true, .connect 0, .run 0 true, .run 0 true, .run 0 true, .run 0 true, .run 0 true, .run 2 true, .run 2 true, .run 2 true, .run 2 true,
    .check 2 1, .run 2 true, .run 2 true]

/-- **C68**, where it fails: the removal of the file of a dead connection races with a new connection of the same number, the comment in the code says the race
is harmless. -/
theorem leftover_race : ∃ s, Reach exOw (fun c => c == 1) (fun _ _ => True) s ∧ Live s 1 ∧ s.user 1 = true ∧ s.pc 2 = .answer 1 false false := by
  obtain ⟨s, hs⟩ : ∃ s, exec exOw (init (fun c => c == 1)) leftEvs = some s := ⟨_, rfl⟩
  refine ⟨s, exec_reach _ hs .start, ?_⟩
  cases hs
  exact ⟨⟨0, 0, rfl, rfl⟩, rfl, rfl⟩

/-- Connection 1 of process 0 is disconnected; between the closing and the removal of the lock file process 1 checks it. -/
def discEvs : List Ev :=
  [.connect 0, .run 0 true, .run 0 true, .run 0 true, .run 0 true, .run 0 true, .disconnect 0 1, .check 2 1, .run 2 true, .run 2 true, .run 2 true, .run 2 true, .run 2 true,
    .run 0 true]

/-- `sr_disconnect` fails when another process checks the connection meanwhile (it has removed the lock file already), the connection is not freed, and trying
again fails always. Only connections that were established are checked here. -/
theorem disconnect_fails : ∃ s, Reach exOw (fun _ => false) Known s ∧ s.pc 0 = .discErr 1 := by
  obtain ⟨s, hs⟩ : ∃ s, execK exOw (init (fun _ => false)) discEvs = some s := ⟨_, rfl⟩
  refine ⟨s, execK_reach _ hs .start, ?_⟩
  cases hs
  rfl

/-- A call of `sr_connect` that fails after the connection was put in the list does not take it out: the connection, which nobody has, is found alive by every check
until the process ends (its locks are never recovered). -/
theorem failed_connect_stays : ∃ s, Reach exOw (fun _ => false) (fun _ _ => True) s ∧ s.pc 0 = .idle ∧ s.user 1 = false ∧ s.pc 2 = .answer 1 true false := by
  obtain ⟨s, hs⟩ : ∃ s, exec exOw (init (fun _ => false))
      [.connect 0, .run 0 true, .run 0 true, .run 0 true, .run 0 true, .run 0 false, .check 2 1, .run 2 true, .run 2 true, .run 2 true, .run 2 true] = some s := ⟨_, rfl⟩
  refine ⟨s, exec_reach _ hs .start, ?_⟩
  cases hs
  exact ⟨rfl, rfl, rfl⟩

/-- The hypotheses are met: connections 1 and 2 of two processes, process 0 crashes, process 1 finds connection 1 dead and connection 2, its own, alive. -/
example : ∃ s, Reach exOw (fun c => c == 7) Known s ∧ s.pc 2 = .answer 1 false true ∧ s.pc 3 = .answer 2 true false ∧ ¬ Live s 1 ∧ Live s 2 := by
  obtain ⟨s, hs⟩ : ∃ s, execK exOw (init (fun c => c == 7))
      [.connect 0, .connect 2, .run 0 true, .run 2 true, .run 0 true, .run 2 true, .run 2 true, .run 0 true, .run 2 true, .run 0 true, .run 2 true, .run 0 true,
        .crash 0, .check 2 1, .check 3 2, .run 2 true, .run 3 true, .run 2 true, .run 2 true, .run 2 true, .run 2 true] = some s := ⟨_, rfl⟩
  have hr := execK_reach (old := fun c => c == 7) _ hs .start
  have ha : s.pc 2 = .answer 1 false true := by cases hs; rfl
  refine ⟨s, hr, ha, ?_, live_not_dead_partial hr ha, ?_⟩
  · cases hs
    rfl
  · cases hs
    exact ⟨1, 2, rfl, rfl⟩

end Verif.ConnAlive
