import Verif.CtxLockLemmas

/-
Properties of the schema context of connections.
-/
namespace Verif.CtxLock

/-! ### Small facts about single steps -/

/-- The agent making a step. -/
def agentOf : Label → Nat
  | .lock a | .load a _ | .lockInstall a | .lockRemove a _ | .remap a | .check a | .lockW a | .timeoutW a
  | .build a _ | .init a _ | .release a | .upgrade a | .giveUp a | .commit a | .failLock a | .badUnlock a => a

theorem pc_other {C : Cfg} {s s' : State} {l : Label} {b : Nat} (h : step C s l = some s') (hb : b ≠ agentOf l) :
    s'.pc b = s.pc b := by
  cases l <;> simp only [agentOf] at hb <;> simp only [step] at h <;> (repeat' split at h) <;>
    first
    | (cases h; done)
    | (cases h
       simp [unlockAll, failW, unlockWrite, switchTo, upd_ne, hb])

theorem heap_keep {C : Cfg} {s s' : State} {l : Label} (h : step C s l = some s') {x : Nat} (hx : x < s.next) :
    s'.heap x = s.heap x ∨ s'.heap x = none := by
  have key : ∀ c new, (switchTo s c new).heap x = s.heap x ∨ (switchTo s c new).heap x = none := by
    intro c new
    simp only [switchTo]
    rw [upd_ne _ _ (by omega)]
    by_cases e : x = (s.conn c).ctx
    · right; rw [e]; simp
    · left; rw [upd_ne _ _ e]
  cases l with
  | build a ok =>
    simp only [step] at h
    (repeat' split at h) <;> first | (cases h; done) | (cases h; first | exact key _ _ | exact .inl rfl)
  | commit a =>
    obtain ⟨k, ms, new, hk, hc, rfl⟩ := commit_eq h
    exact key (C.own a) new
  | _ =>
    simp only [step] at h
    (repeat' split at h) <;> first | (cases h; done) | (cases h; exact .inl rfl)

theorem installed_keep {C : Cfg} {s s' : State} {l : Label} (h : step C s l = some s') :
    s'.installed = s.installed ∨ ∃ a k, l = .commit a ∧ s.pc a = .write k := by
  cases l with
  | commit a =>
    obtain ⟨k, ms, new, hk, hc, rfl⟩ := commit_eq h
    exact .inr ⟨a, k, rfl, hk⟩
  | _ =>
    simp only [step] at h
    (repeat' split at h) <;> first | (cases h; done) | (cases h; exact .inl rfl)

theorem hold_only_release {C : Cfg} {s s' : State} {l : Label} {h : Nat} (hs : step C s l = some s')
    (hp : s.pc (agentOf l) = .hold h) : l = .release (agentOf l) := by
  cases l <;> simp only [agentOf] at hp ⊢ <;> simp only [step, hp] at hs <;> first | rfl | (simp at hs; done)

theorem reach_exec {C : Cfg} {A : State → Label → Prop} (hA : ∀ s l, A s l) {s s' : State} (h : Reach C A s)
    (ls : List Label) (he : exec C s ls = some s') : Reach C A s' := by
  induction ls generalizing s with
  | nil => cases he; exact h
  | cons l ls ih =>
    simp only [exec] at he
    cases hs : step C s l with
    | none => rw [hs] at he; cases he
    | some s1 => rw [hs] at he; exact ih (.step l h (hA _ _) hs) he

/-! ### A concrete system -/

/-- A hash function without collisions. -/
def flat : Schema → Cid
  | [] => []
  | x :: l => x.1 :: x.2 :: flat l

theorem flat_inj : ∀ x y, flat x = flat y → x = y
  | [], [], _ => rfl
  | [], _ :: _, h => by simp [flat] at h
  | _ :: _, [], h => by simp [flat] at h
  | (a, b) :: x, (c, d) :: y, h => by
    simp only [flat, List.cons.injEq] at h
    obtain ⟨rfl, rfl, h⟩ := h
    rw [flat_inj x y h]

/-- Agents 0-9 belong to connection 0, the others to connection 1. -/
def C0 : Cfg where
  own := fun a => if a < 10 then 0 else 1
  hash := flat

/-- Two connections with one installed module (name 1) using plugin 1. -/
def s0 (C : Cfg) : State where
  installed := [⟨1, 1, 1⟩]
  contentId := C.hash [(1, 1)]
  rd := []
  upgr := none
  writer := none
  rm := []
  rmW := fun _ => none
  conn := fun c => ⟨C.hash [(1, 1)], if c = 0 then 0 else 1, [1]⟩
  heap := fun h => if h < 2 then some [(1, 1)] else none
  next := 2
  pc := fun _ => .idle

theorem init_s0 (C : Cfg) (h : C.own = C0.own) : Init C (s0 C) where
  cidOk := rfl
  rd := rfl
  upgr := rfl
  writer := rfl
  rm := rfl
  rmW := fun _ => rfl
  conn := fun a => by
    refine ⟨rfl, ?_, ?_, ?_⟩
    · simp only [s0]; split <;> rfl
    · simp [s0]
    · simp only [s0]; split <;> decide
  inj := fun a b e => by
    rw [h] at *
    simp only [s0, C0] at *
    by_cases h1 : a < 10 <;> by_cases h2 : b < 10 <;> simp_all <;> split <;> split <;> first | rfl | omega
  pc := fun _ => rfl

/-- Connection 0: a module change of agent `a`. -/
def installBy (a : Nat) (m : Mod) : List Label :=
  [.load a m, .lockInstall a, .remap a, .check a, .upgrade a, .commit a]

/-! ### C114: contexts and data handed out stay valid -/

/-- **C114 (partial).** Whatever calls of whatever connections are running, a context (and with it all the data
created in it) handed out by the library exists and is the context of the connection, and until the holder releases
it no step of anybody destroys or changes it, replaces it in the connection or changes the installed modules.
Missing: runs in which taking the lock failed in one of the functions that unlock nevertheless, see
`unlock_without_lock`. -/
theorem context_valid_partial {C : Cfg} {s : State} (hr : Reach C Good s) {a h : Nat} (hp : s.pc a = .hold h) :
    (∃ sc, s.heap h = some sc ∧ (s.conn (C.own a)).ctx = h) ∧
    ∀ l s', Good s l → step C s l = some s' → l ≠ .release a →
      s'.pc a = .hold h ∧ s'.heap h = s.heap h ∧ (s'.conn (C.own a)).ctx = h ∧ s'.installed = s.installed := by
  have I := inv_reach (fun _ _ h => h) hr
  have hh := I.hold a h hp
  have hs := I.heapOk a
  rw [hh] at hs
  refine ⟨⟨_, (Option.some_get hs).symm, hh⟩, fun l s' hg hst hl => ?_⟩
  have I' := inv_step I hg hst
  have hne : a ≠ agentOf l := fun e => by
    subst e
    exact hl (hold_only_release hst hp)
  have hp' : s'.pc a = .hold h := by rw [pc_other hst hne]; exact hp
  have hh' := I'.hold a h hp'
  have hs' := I'.heapOk a
  rw [hh'] at hs'
  refine ⟨hp', ?_, hh', ?_⟩
  · rcases heap_keep hst (x := h) (by have := I.lt a; omega) with e | e
    · exact e
    · rw [e] at hs'; cases hs'
  · rcases installed_keep hst with e | ⟨b, k, rfl, hk⟩
    · exact e
    · have h1 := I.wrRd b ((I.wrIff b).2 (by rw [hk]; trivial))
      have h2 := (I.rdIff a).2 (by rw [hp]; trivial)
      rw [h1] at h2; cases h2

/-- **C114 (partial), changes.** Of all calls changing the modules at most one is beyond the upgradable lock, and
while the one that writes does so nobody holds a context. Missing as above. -/
theorem one_change_partial {C : Cfg} {s : State} (hr : Reach C Good s) :
    (∀ a b k k', s.pc a = .upd k → s.pc b = .upd k' → a = b) ∧
    (∀ a k, s.pc a = .write k → ∀ b, (∀ h, s.pc b ≠ .hold h) ∧ (∀ k', s.pc b ≠ .upd k') ∧
      (∀ k', s.pc b = .write k' → b = a)) := by
  have I := inv_reach (fun _ _ h => h) hr
  refine ⟨fun a b k k' ha hb => ?_, fun a k ha b => ?_⟩
  · have h1 := (I.upIff a).2 (by rw [ha]; trivial)
    have h2 := (I.upIff b).2 (by rw [hb]; trivial)
    rw [h1] at h2; exact Option.some.inj h2
  · have hw := (I.wrIff a).2 (by rw [ha]; trivial)
    have hrd := I.wrRd a hw
    refine ⟨fun h hb => ?_, fun k' hb => ?_, fun k' hb => ?_⟩
    · have := (I.rdIff b).2 (by rw [hb]; trivial)
      rw [hrd] at this; cases this
    · have := (I.rdIff b).2 (by rw [hb]; trivial)
      rw [hrd] at this; cases this
    · have := (I.wrIff b).2 (by rw [hb]; trivial)
      rw [hw] at this; exact (Option.some.inj this).symm

/-- A run in which both connections acquire a context after a module was installed, as in the theorems. -/
def run1 : List Label :=
  installBy 0 ⟨2, 1, 1⟩ ++ [.lock 10, .remap 10, .check 10, .lockW 10, .build 10 true, .init 10 true,
    .lock 1, .remap 1, .check 1]

theorem run1_ok : ∃ s, exec C0 (s0 C0) run1 = some s ∧ s.pc 1 = .hold 2 ∧ s.pc 10 = .hold 3 ∧
    s.heap 2 = some [(1, 1), (2, 1)] ∧ s.heap 3 = some [(1, 1), (2, 1)] ∧ s.heap 0 = none ∧ s.heap 1 = none :=
  ⟨_, rfl, rfl, rfl, rfl, rfl, rfl, rfl⟩

/-- Runs of allowed steps are reachable. -/
theorem reach_run {C : Cfg} {A : State → Label → Prop} {s : State} (ls : List Label) :
    ∀ s1, Reach C A s1 → exec C s1 ls = some s →
      (∀ s2 l, l ∈ ls → A s2 l) → Reach C A s := by
  induction ls with
  | nil => intro s1 h he _; cases he; exact h
  | cons l ls ih =>
    intro s1 h he hA
    simp only [exec] at he
    cases hs : step C s1 l with
    | none => rw [hs] at he; cases he
    | some s2 =>
      rw [hs] at he
      exact ih s2 (.step l h (hA _ _ (List.Mem.head _)) hs) he (fun s3 l' hl => hA s3 l' (List.Mem.tail _ hl))

example : ∃ s, Reach C0 Good s ∧ s.pc 1 = .hold 2 ∧ s.pc 10 = .hold 3 := by
  obtain ⟨s, he, h1, h2, _⟩ := run1_ok
  refine ⟨s, reach_run run1 _ (.init (init_s0 C0 rfl)) he (fun s2 l hl => ?_), h1, h2⟩
  simp only [run1, installBy, List.cons_append, List.nil_append, List.mem_cons, List.not_mem_nil, or_false] at hl
  rcases hl with rfl | rfl | rfl | rfl | rfl | rfl | rfl | rfl | rfl | rfl | rfl | rfl | rfl | rfl | rfl <;> trivial

/-- **C114 is violated.** `sr_session_start` and the discard of operational data release the context lock even when
taking it failed (sysrepo.c 621-623 with 635-637, 4639-4641 with 4664-4665). The readers are counted per connection, so
the lock released belongs to another thread of the connection. In this run a session start times out during an
installation, later another thread acquires a context, loses its lock to the late unlock, and the next installation
destroys the context while it is being used. -/
theorem unlock_without_lock : ∃ s a h, Reach C0 (fun _ _ => True) s ∧ s.pc a = .hold h ∧ s.heap h = none := by
  have key : ∃ s, exec C0 (s0 C0) ([.load 0 ⟨2, 1, 1⟩, .lockInstall 0, .remap 0, .check 0, .upgrade 0, .failLock 1,
      .commit 0, .lock 2, .remap 2, .check 2, .badUnlock 1] ++ installBy 3 ⟨3, 1, 1⟩) = some s ∧
      s.pc 2 = .hold 2 ∧ s.heap 2 = none := ⟨_, rfl, rfl, rfl⟩
  obtain ⟨s, he, h1, h2⟩ := key
  exact ⟨s, 2, 2, reach_exec (fun _ _ => trivial) (.init (init_s0 C0 rfl)) _ he, h1, h2⟩

/-! ### C115: contexts and data handed out are of the installed modules -/

/-- **C115 (partial).** If different sets of modules have different content IDs, then every context handed out is of
exactly the modules that are installed at any moment it is held. Missing: runs with an unlock without a lock, and
installations during which the modules were changed between the load of the current ones and the lock, see
`install_race`; and content IDs that collide, see `content_id_collision`. -/
theorem context_current_partial {C : Cfg} (hinj : ∀ x y, C.hash x = C.hash y → x = y) {s : State}
    (hr : Reach C NoRace s) {a h : Nat} (hp : s.pc a = .hold h) : s.heap h = some (sch s.installed) :=
  (cur_reach hinj (fun _ _ h => h) hr).2.hold a h hp

/-- **C115 is violated.** An installation loads the current modules into its new context before it takes the context
lock (sysrepo.c 1424-1432 and 1443). Another connection removes a module in between: the installation succeeds and
from then on its connection works with a context containing the removed module, while the content ID says that it
is current. -/
theorem install_race : ∃ s a h sc, Reach C0 Good s ∧ (∀ x y, C0.hash x = C0.hash y → x = y) ∧
    s.pc a = .hold h ∧ s.heap h = some sc ∧ (1, 1) ∈ sc ∧ (∀ m ∈ s.installed, m.name ≠ 1) ∧
    s.contentId = (s.conn (C0.own a)).cid := by
  let ls : List Label := [.load 0 ⟨2, 1, 1⟩, .lockRemove 10 1, .remap 10, .check 10, .upgrade 10, .commit 10,
      .lockInstall 0, .remap 0, .check 0, .lockW 0, .build 0 true, .init 0 true, .upgrade 0, .commit 0,
      .lock 1, .remap 1, .check 1]
  have key : ∃ s, exec C0 (s0 C0) ls = some s ∧ s.pc 1 = .hold 4 ∧ s.heap 4 = some [(1, 1), (2, 1)] ∧
      s.installed = [⟨2, 1, 1⟩] ∧ s.contentId = (s.conn (C0.own 1)).cid := ⟨_, rfl, rfl, rfl, rfl, rfl⟩
  obtain ⟨s, he, h1, h2, h3, h4⟩ := key
  refine ⟨s, 1, 4, _, reach_run ls _ (.init (init_s0 C0 rfl)) he (fun s2 l hl => ?_), flat_inj, h1, h2,
    List.Mem.head _, by simp [h3], h4⟩
  simp only [ls, List.mem_cons, List.not_mem_nil, or_false] at hl
  rcases hl with rfl | rfl | rfl | rfl | rfl | rfl | rfl | rfl | rfl | rfl | rfl | rfl | rfl | rfl | rfl | rfl |
    rfl <;> trivial

/-- **C115 is violated.** Content IDs are 32-bit hashes: if the modules before and after a change have the same one,
another connection goes on using the old context. -/
theorem content_id_collision : ∃ (C : Cfg) (s : State) (a h : Nat) (sc : Schema), Reach C Good s ∧
    s.pc a = .hold h ∧ s.heap h = some sc ∧ sc ≠ sch s.installed := by
  let C : Cfg := ⟨C0.own, fun _ => [7]⟩
  let ls : List Label := installBy 0 ⟨2, 1, 1⟩ ++ [.lock 10, .remap 10, .check 10]
  have key : ∃ s, exec C (s0 C) ls = some s ∧ s.pc 10 = .hold 1 ∧ s.heap 1 = some [(1, 1)] ∧
      s.installed = [⟨1, 1, 1⟩, ⟨2, 1, 1⟩] := ⟨_, rfl, rfl, rfl, rfl⟩
  obtain ⟨s, he, h1, h2, h3⟩ := key
  refine ⟨C, s, 10, 1, _, reach_run ls _ (.init (init_s0 C rfl)) he (fun s2 l hl => ?_), h1, h2, ?_⟩
  · simp only [ls, installBy, List.cons_append, List.nil_append, List.mem_cons, List.not_mem_nil, or_false] at hl
    rcases hl with rfl | rfl | rfl | rfl | rfl | rfl | rfl | rfl | rfl <;> trivial
  · simp [h3, sch]

/-- A current context is refused. A call that finds an old context releases the remap lock,
waits for it to be free for writing and does not look at the content ID again (context_change.c 64-74). If another
thread of the connection switched the context meanwhile and keeps data of it, the call fails with a time-out although
the context is current. -/
theorem current_context_times_out : ∃ s s' a, Reach C0 Good s ∧ (∃ k, s.pc a = .wantW k) ∧
    (s.conn (C0.own a)).cid = s.contentId ∧ s.heap (s.conn (C0.own a)).ctx = some (sch s.installed) ∧
    (∀ b, s.rmW b = none) ∧ step C0 s (.lockW a) = none ∧ step C0 s (.timeoutW a) = some s' := by
  let ls : List Label := installBy 0 ⟨2, 1, 1⟩ ++ [.lock 10, .remap 10, .lock 11, .remap 11, .check 10, .check 11,
    .lockW 10, .build 10 true, .init 10 true]
  have key : ∃ s, exec C0 (s0 C0) ls = some s ∧ (s.pc 11 = .wantW .read ∧
      (s.conn (C0.own 11)).cid = s.contentId ∧ s.heap (s.conn (C0.own 11)).ctx = some (sch s.installed)) ∧
      (s.rmW = upd (upd (s0 C0).rmW 1 (some 10)) 1 none) ∧ step C0 s (.lockW 11) = none ∧
      (step C0 s (.timeoutW 11)).isSome = true :=
    ⟨_, rfl, ⟨rfl, rfl, rfl⟩, rfl, rfl, rfl⟩
  obtain ⟨s, he, ⟨h1, h2, h3⟩, h4, h5, h6⟩ := key
  refine ⟨s, _, 11, reach_run ls _ (.init (init_s0 C0 rfl)) he (fun s2 l hl => ?_), ⟨_, h1⟩, h2, h3, fun b => ?_, h5,
    (Option.some_get h6).symm⟩
  · simp only [ls, installBy, List.cons_append, List.nil_append, List.mem_cons, List.not_mem_nil, or_false] at hl
    rcases hl with rfl | rfl | rfl | rfl | rfl | rfl | rfl | rfl | rfl | rfl | rfl | rfl | rfl | rfl | rfl <;> trivial
  · rw [h4]; simp only [upd, s0]; split <;> rfl

/-! ### C116: datastore plugins are initialized before they are used -/

/-- States reached from one state by steps each allowed in the state it is made. -/
inductive From (C : Cfg) (A : State → Label → Prop) (s0 : State) : State → Prop
  | refl : From C A s0 s0
  | step {s s' : State} (l : Label) : From C A s0 s → A s l → step C s l = some s' → From C A s0 s'

theorem from_run {C : Cfg} {A : State → Label → Prop} {s s0 : State} (ls : List Label) :
    ∀ s1, From C A s0 s1 → exec C s1 ls = some s → (∀ s2 l, l ∈ ls → A s2 l) → From C A s0 s := by
  induction ls with
  | nil => intro s1 h he _; cases he; exact h
  | cons l ls ih =>
    intro s1 h he hA
    simp only [exec] at he
    cases hs : step C s1 l with
    | none => rw [hs] at he; cases he
    | some s2 =>
      rw [hs] at he
      exact ih s2 (.step l h (hA _ _ (List.Mem.head _)) hs) he (fun s3 l' hl => hA s3 l' (List.Mem.tail _ hl))

theorem plug_from {C : Cfg} {P : Nat → Nat} (hinj : ∀ x y, C.hash x = C.hash y → x = y) {s0 s : State}
    (hi : Init C s0) (hP : ∀ m ∈ s0.installed, m.plug = P m.name) (hr : From C (SamePlugin P) s0 s) :
    Inv C s ∧ Cur C s ∧ Plug C P s := by
  induction hr with
  | refl => exact ⟨inv_init hi, cur_init hi, plug_init hi hP⟩
  | step l _ ha hs ih =>
    exact ⟨inv_step ih.1 ha.1.1 hs, cur_step hinj ih.1 ih.2.1 ha.1 hs, plug_step ih.1 ih.2.1 ih.2.2 ha hs⟩

/-- **C116 (partial).** If a module is always installed with the same datastore plugin, then whoever holds a context
or data finds the plugin of every installed module initialized for the connection. Missing: runs outside C115, runs
in which an initialization fails, see `failed_init_forgotten`, and modules removed and installed again with another
plugin, see `reinstall_not_initialized`. -/
theorem plugins_ready_partial {C : Cfg} {P : Nat → Nat} (hinj : ∀ x y, C.hash x = C.hash y → x = y) {s0 s : State}
    (hi : Init C s0) (hP : ∀ m ∈ s0.installed, m.plug = P m.name) (hr : From C (SamePlugin P) s0 s) {a h : Nat}
    (hp : s.pc a = .hold h) : ∀ m ∈ s.installed, m.plug ∈ (s.conn (C.own a)).inited := by
  obtain ⟨I, K, Q⟩ := plug_from hinj hi hP hr
  intro m hm
  have hh := I.hold a h hp
  have hs : s.heap (s.conn (C.own a)).ctx = some (sch s.installed) := by rw [hh]; exact K.hold a h hp
  have hset : Settled C s (C.own a) := by
    intro b k hb hk
    have hw : s.rmW (C.own b) = some b := (I.wIff b).2 (by rw [hk]; trivial)
    have hr : a ∈ s.rm := (I.rmIff a).2 (by rw [hp]; trivial)
    exact I.ex _ b hw a hr hb.symm
  rw [Q.mods m hm]
  exact Q.conn a _ hset hs (m.name, m.rev) (List.mem_map.2 ⟨m, hm, rfl⟩)

example : ∃ s, From C0 (SamePlugin (fun n => n)) (s0 C0) s ∧ s.pc 10 = .hold 3 ∧
    s.installed = [⟨1, 1, 1⟩, ⟨2, 1, 2⟩] ∧ (s.conn (C0.own 10)).inited = [1, 2, 1] := by
  have st : ∀ {A : State → Label → Prop} {s1 s2 : State} {l : Label}, From C0 A (s0 C0) s1 → A s1 l →
      step C0 s1 l = some s2 → From C0 A (s0 C0) s2 := fun h ha hs => .step _ h ha hs
  have easy : ∀ (s : State) (l : Label), (∀ a, l ≠ .commit a) → (∀ a, l ≠ .init a false) → Good s l →
      SamePlugin (fun n => n) s l := fun s l h1 h2 h3 =>
    ⟨⟨h3, fun a e => (h1 a e).elim⟩, h2, fun a e => (h1 a e).elim⟩
  let ls1 : List Label := [.load 0 ⟨2, 1, 2⟩, .lockInstall 0, .remap 0, .check 0, .upgrade 0]
  let ls2 : List Label := [.lock 10, .remap 10, .check 10, .lockW 10, .build 10 true, .init 10 true]
  have key : ∃ t t' s, exec C0 (s0 C0) ls1 = some t ∧ t.pc 0 = .write (.install ⟨2, 1, 2⟩ [(1, 1)]) ∧
      t.installed = [⟨1, 1, 1⟩] ∧ step C0 t (.commit 0) = some t' ∧ exec C0 t' ls2 = some s ∧
      s.pc 10 = .hold 3 ∧ s.installed = [⟨1, 1, 1⟩, ⟨2, 1, 2⟩] ∧ (s.conn (C0.own 10)).inited = [1, 2, 1] :=
    ⟨_, _, _, rfl, rfl, rfl, rfl, rfl, rfl, rfl, rfl⟩
  obtain ⟨t, t', s, h1, h2, h3, h4, h5, h6, h7, h8⟩ := key
  refine ⟨s, from_run ls2 t' (.step (.commit 0) (from_run ls1 _ .refl h1 (fun s2 l hl => ?_)) ?_ h4) h5
    (fun s2 l hl => ?_), h6, h7, h8⟩
  · simp only [ls1, List.mem_cons, List.not_mem_nil, or_false] at hl
    rcases hl with rfl | rfl | rfl | rfl | rfl <;> exact easy _ _ (by simp) (by simp) trivial
  · refine ⟨⟨trivial, fun a e m sc hp => ?_⟩, by simp, fun a e m sc hp => ?_⟩
    · cases e; rw [h2] at hp; cases hp; rw [h3]; rfl
    · cases e; rw [h2] at hp; cases hp; rfl
  · simp only [ls2, List.mem_cons, List.not_mem_nil, or_false] at hl
    rcases hl with rfl | rfl | rfl | rfl | rfl | rfl <;> exact easy _ _ (by simp) (by simp) trivial

/-- **C116 is violated.** A module is removed and installed again with another datastore plugin by one connection. The
content ID, computed of names, revisions and features, is the same as before, so another connection that did nothing
meanwhile never initializes the new plugin and uses it. -/
theorem reinstall_not_initialized : ∃ s a h, Reach C0 NoRace s ∧ (∀ x y, C0.hash x = C0.hash y → x = y) ∧
    s.pc a = .hold h ∧ ∃ m ∈ s.installed, m.plug ∉ (s.conn (C0.own a)).inited := by
  let ls1 : List Label := [.lockRemove 0 1, .remap 0, .check 0, .upgrade 0]
  let ls2 : List Label := [.load 0 ⟨1, 1, 2⟩, .lockInstall 0, .remap 0, .check 0, .upgrade 0]
  let ls3 : List Label := [.lock 10, .remap 10, .check 10]
  have easy : ∀ (s : State) (l : Label), (∀ a, l ≠ .commit a) → Good s l → NoRace s l := fun s l h1 h3 =>
    ⟨h3, fun a e => (h1 a e).elim⟩
  have key : ∃ t t' u u' s, exec C0 (s0 C0) ls1 = some t ∧ t.pc 0 = .write (.remove 1) ∧
      step C0 t (.commit 0) = some t' ∧ exec C0 t' ls2 = some u ∧ u.pc 0 = .write (.install ⟨1, 1, 2⟩ []) ∧
      u.installed = [] ∧ step C0 u (.commit 0) = some u' ∧ exec C0 u' ls3 = some s ∧ s.pc 10 = .hold 1 ∧
      s.installed = [⟨1, 1, 2⟩] ∧ (s.conn (C0.own 10)).inited = [1] :=
    ⟨_, _, _, _, _, rfl, rfl, rfl, rfl, rfl, rfl, rfl, rfl, rfl, rfl, rfl⟩
  obtain ⟨t, t', u, u', s, h1, h2, h3, h4, h5, h6, h7, h8, h9, h10, h11⟩ := key
  refine ⟨s, 10, 1, ?_, flat_inj, h9, ⟨1, 1, 2⟩, by rw [h10]; exact List.Mem.head _, by rw [h11]; simp⟩
  have r1 : Reach C0 NoRace t := reach_run ls1 _ (.init (init_s0 C0 rfl)) h1 (fun s2 l hl => by
    simp only [ls1, List.mem_cons, List.not_mem_nil, or_false] at hl
    rcases hl with rfl | rfl | rfl | rfl <;> exact easy _ _ (by simp) trivial)
  have r2 : Reach C0 NoRace t' := .step (.commit 0) r1 ⟨trivial, fun a e m sc hp => by
    cases e; rw [h2] at hp; cases hp⟩ h3
  have r3 : Reach C0 NoRace u := reach_run ls2 _ r2 h4 (fun s2 l hl => by
    simp only [ls2, List.mem_cons, List.not_mem_nil, or_false] at hl
    rcases hl with rfl | rfl | rfl | rfl | rfl <;> exact easy _ _ (by simp) trivial)
  have r4 : Reach C0 NoRace u' := .step (.commit 0) r3 ⟨trivial, fun a e m sc hp => by
    cases e; rw [h5] at hp; cases hp; rw [h6]; rfl⟩ h7
  exact reach_run ls3 _ r4 h8 (fun s2 l hl => by
    simp only [ls3, List.mem_cons, List.not_mem_nil, or_false] at hl
    rcases hl with rfl | rfl | rfl <;> exact easy _ _ (by simp) trivial)

/-- **C116 is violated.** The content ID of the connection is updated with the switch of the context, before the
plugins are initialized (context_change.c 81-107). If the initialization fails, the call fails, but the next one finds
the context current and succeeds with the plugin not initialized. -/
theorem failed_init_forgotten : ∃ s a h, Reach C0 Good s ∧ s.pc a = .hold h ∧
    s.heap h = some (sch s.installed) ∧ ∃ m ∈ s.installed, m.plug ∉ (s.conn (C0.own a)).inited := by
  let ls : List Label := installBy 0 ⟨2, 1, 2⟩ ++ [.lock 10, .remap 10, .check 10, .lockW 10, .build 10 true,
    .init 10 false, .lock 11, .remap 11, .check 11]
  have key : ∃ s, exec C0 (s0 C0) ls = some s ∧ s.pc 11 = .hold 3 ∧ s.heap 3 = some (sch s.installed) ∧
      s.installed = [⟨1, 1, 1⟩, ⟨2, 1, 2⟩] ∧ (s.conn (C0.own 11)).inited = [1] := ⟨_, rfl, rfl, rfl, rfl, rfl⟩
  obtain ⟨s, he, h1, h2, h3, h4⟩ := key
  refine ⟨s, 11, 3, reach_run ls _ (.init (init_s0 C0 rfl)) he (fun s2 l hl => ?_), h1, h2, ⟨2, 1, 2⟩,
    by rw [h3]; exact List.Mem.tail _ (List.Mem.head _), by rw [h4]; simp⟩
  simp only [ls, installBy, List.cons_append, List.nil_append, List.mem_cons, List.not_mem_nil, or_false] at hl
  rcases hl with rfl | rfl | rfl | rfl | rfl | rfl | rfl | rfl | rfl | rfl | rfl | rfl | rfl | rfl | rfl <;> trivial

end Verif.CtxLock
