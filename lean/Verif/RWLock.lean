/-
The process-shared read-write lock of sysrepo.

Models `/repo/src/common.c` lines 2179-2864: `sr_rwlock_init`, `sr_rwlock_reader_add`, `sr_rwlock_reader_del_`,
`sr_rwlock_reader_del`, `sr_rwlock_recover`, `sr_sub_rwlock`, `sr_rwlock`, `sr_rwlock_mutex_lock`, `sr_rwrelock`,
`sr_rwunlock`.

Granularity: a labelled transition is one section executed with `rwlock->mutex` held (or one unprotected read).
A thread that holds the WRITE lock keeps the mutex between transitions, exactly as the code does.
A process crash is a transition of its own between sections; crashes inside of a mutex-protected section are not
modelled. A failing `assert` is `abort()`, that is a crash of the process (ghost flag `asserted`).
`pthread_mutex_clocklock` time-outs return an error without any change (lock, upgrade) and are not transitions;
for the read-unlock such a time-out would need a thread holding the mutex for a long time, which only a WRITE
holder does, and C01 shows there is no other reader then.
Threads of all processes are numbered by list position; a thread belongs to a connection (CID, non-zero).
-/
namespace Verif.RWLock

/-- `SR_RWLOCK_READ_LIMIT`, common_types.h. -/
def readLimit : Nat := 16
/-- `UINT8_MAX`. -/
def u8max : Nat := 255

/-- `sr_lock_mode_t` without NONE, common_types.h. -/
inductive Mode where
  | read | readUpgr | write | writeUrge
deriving DecidableEq, Repr

/-- `sr_rwlock_t` without mutex and condition: the non-zero prefix of the arrays `readers` and `read_count`
as one list, `upgr` and `writer` (0 means none). That the arrays always are such a zero-padded prefix is
`readerDelArr_pad`. -/
structure Lock where
  readers : List (Nat × Nat)
  upgr : Nat
  writer : Nat
deriving DecidableEq, Repr

/-- `sr_rwlock_init`, common.c 2179-2197. -/
def Lock.free : Lock := ⟨[], 0, 0⟩

/-- Array update of `sr_rwlock_reader_add`, common.c 2222-2240; `none` is an error. -/
def addReaders : List (Nat × Nat) → Nat → Nat → Option (List (Nat × Nat))
  | [], c, room => if room = 0 then none else some [(c, 1)]
  | (c', n) :: rs, c, room =>
    if room = 0 then none
    else if c' = c then
      if n = u8max then none else some ((c', n + 1) :: rs)
    else
      match addReaders rs c (room - 1) with
      | none => none
      | some rs' => some ((c', n) :: rs')

/-- `sr_rwlock_reader_add`, common.c 2213-2244. -/
def readerAdd (lk : Lock) (c : Nat) : Option Lock :=
  match addReaders lk.readers c readLimit with
  | none => none
  | some rs => some { lk with readers := rs }

/-- `sr_rwlock_reader_del`, common.c 2300-2319 with `sr_rwlock_reader_del_`, 2251-2291, on the list; `none` is
the internal error "CID not found". -/
def delReaders : List (Nat × Nat) → Nat → Option (List (Nat × Nat))
  | [], _ => none
  | (c', n) :: rs, c =>
    if c' = c then
      if n - 1 = 0 then some rs else some ((c', n - 1) :: rs)
    else
      match delReaders rs c with
      | none => none
      | some rs' => some ((c', n) :: rs')

def readerDel (lk : Lock) (c : Nat) : Option Lock :=
  match delReaders lk.readers c with
  | none => none
  | some rs => some { lk with readers := rs }

/-- Readers loop of `sr_rwlock_recover`, common.c 2336-2351: a dead reader's count is decreased one by one until
the reader is removed (then the same index holds the next reader); a live reader is skipped. The number of
iterations is the fuel. -/
def recoverLoop (dead : Nat → Bool) : Nat → List (Nat × Nat) → List (Nat × Nat)
  | 0, rs => rs
  | _ + 1, [] => []
  | fuel + 1, (c, n) :: rs =>
    if dead c then
      if n - 1 = 0 then recoverLoop dead fuel rs
      else recoverLoop dead fuel ((c, n - 1) :: rs)
    else (c, n) :: recoverLoop dead fuel rs

/-- Enough iterations to finish the loop (`recoverReaders_eq`). -/
def recoverReaders (dead : Nat → Bool) (rs : List (Nat × Nat)) : List (Nat × Nat) :=
  recoverLoop dead (rs.length + (rs.map (·.2)).sum) rs

/-- `sr_rwlock_recover`, common.c 2330-2380. -/
def recover (dead : Nat → Bool) (lk : Lock) : Lock :=
  { readers := recoverReaders dead lk.readers
    upgr := if lk.upgr ≠ 0 ∧ dead lk.upgr then 0 else lk.upgr
    writer := if lk.writer ≠ 0 ∧ dead lk.writer then 0 else lk.writer }

/-- Wait conditions of `sr_sub_rwlock`, common.c: WRITE 2409/2416, WRITE_URGE 2440/2448, READ_UPGR 2485/2492,
READ 2522/2529. -/
def busy (m : Mode) (urged : Bool) (lk : Lock) : Bool :=
  match m with
  | .write => !lk.readers.isEmpty || lk.writer != 0
  | .writeUrge => !lk.readers.isEmpty || (lk.writer != 0 && !urged)
  | .readUpgr => decide (readLimit ≤ lk.readers.length) || lk.upgr != 0 || lk.writer != 0
  | .read => decide (readLimit ≤ lk.readers.length) || lk.writer != 0

/-- `rwlock->read_count[0]`. -/
def count0 (lk : Lock) : Nat := (lk.readers.head?.map (·.2)).getD 0
/-- `rwlock->readers[0]`. -/
def reader0 (lk : Lock) : Nat := (lk.readers.head?.map (·.1)).getD 0

/-- Wait condition of the upgrades in `sr_rwrelock`, common.c 2638/2646 (never urged) and 2691/2700. -/
def busyUp (urged : Bool) (lk : Lock) : Bool :=
  decide (2 ≤ lk.readers.length) || decide (1 < count0 lk) || (lk.writer != 0 && !urged)

/-- Condition after a time-out of the upgrades, common.c 2653 and 2712. -/
def okUp (urged : Bool) (lk : Lock) : Bool :=
  decide (lk.readers.length ≤ 1) && count0 lk == 1 && (lk.writer == 0 || urged)

/-- State of a thread: not using the lock, holding it in a mode, waiting in `sr_sub_rwlock` (with the local
`wr_urged`), waiting in an upgrade of `sr_rwrelock` (`urge`: WRITE_URGE, with the local `wr_urged`), or between
the unprotected test and the mutex in the READ_UPGR to READ downgrade. -/
inductive St where
  | idle
  | rd
  | up
  | upDown
  | wr
  | wait (m : Mode) (urged : Bool)
  | waitUp (urge urged : Bool)
deriving DecidableEq, Repr

structure Thr where
  cid : Nat
  st : St
deriving DecidableEq, Repr

/-- Lock, owner of its mutex, threads, crashed connections, and ghost flags: an `assert` failed / a reader limit
was hit. -/
structure Sys where
  lock : Lock
  mutex : Option Nat
  ths : List Thr
  dead : List Nat
  asserted : Bool
  limit : Bool
deriving DecidableEq, Repr

def Sys.isDead (s : Sys) (c : Nat) : Bool := s.dead.contains c

/-- `pthread_mutex_clocklock` in `sr_sub_rwlock` common.c 2390-2405, `sr_rwlock_mutex_lock` 2589-2611 and `sr_rwunlock`
2816-2830: free mutex, or dead owner with recovery; `none` when blocked. -/
def takeMutex (s : Sys) : Option Lock :=
  match s.mutex with
  | none => some s.lock
  | some o =>
    match s.ths[o]? with
    | none => none
    | some th => if s.isDead th.cid then some (recover s.isDead s.lock) else none

/-- Taking the mutex back after the condition wait, sr_cond_futex.c 94-114: a dead owner is made consistent
without recovering the lock. -/
def takeMutexCond (s : Sys) : Option Lock :=
  match s.mutex with
  | none => some s.lock
  | some o =>
    match s.ths[o]? with
    | none => none
    | some th => if s.isDead th.cid then some s.lock else none

/-- New state of the thread, lock and mutex. -/
def put (s : Sys) (t c : Nat) (lk : Lock) (m : Option Nat) (st : St) : Sys :=
  { s with lock := lk, mutex := m, ths := s.ths.set t ⟨c, st⟩ }

/-- A failed assert of a thread holding the mutex. -/
def abort (s : Sys) (t c : Nat) (lk : Lock) : Sys :=
  { s with lock := lk, mutex := some t, dead := c :: s.dead, asserted := true }

/-- Tail of the four branches of `sr_sub_rwlock` once the wait is over, common.c 2432-2436, 2474-2481, 2508-2518,
2545-2554. -/
def acquire (s : Sys) (t c : Nat) (m : Mode) (urged : Bool) (lk : Lock) : Sys :=
  match m with
  | .write =>
    if lk.upgr ≠ 0 ∨ lk.writer ≠ 0 then abort s t c lk
    else put s t c { lk with writer := c } (some t) .wr
  | .writeUrge =>
    if lk.upgr ≠ 0 then abort s t c lk
    else
      let lk := if urged then lk else { lk with writer := c }
      if lk.writer ≠ c then abort s t c lk
      else put s t c lk (some t) .wr
  | .readUpgr =>
    let lk := { lk with upgr := c }
    match readerAdd lk c with
    | none => { put s t c lk none .idle with limit := true }
    | some lk => put s t c lk none .up
  | .read =>
    match readerAdd lk c with
    | none => { put s t c lk none .idle with limit := true }
    | some lk => put s t c lk none .rd

/-- The wait loop of `sr_sub_rwlock`, common.c 2416-2419, 2448-2457, 2492-2495, 2529-2532. -/
def settle (s : Sys) (t c : Nat) (m : Mode) (urged : Bool) (lk : Lock) : Sys :=
  if busy m urged lk then
    if m = .writeUrge ∧ lk.writer = 0 then put s t c { lk with writer := c } none (.wait m true)
    else put s t c lk none (.wait m urged)
  else acquire s t c m urged lk

/-- Tail of the two upgrades of `sr_rwrelock`, common.c 2662-2673 and 2728-2745. -/
def finishUp (s : Sys) (t c : Nat) (urge urged : Bool) (lk : Lock) : Sys :=
  if (urge = false ∧ lk.upgr ≠ c) ∨ reader0 lk ≠ c then abort s t c lk
  else
    match readerDel lk c with
    | none =>
      -- error, flags restored
      put s t c { lk with writer := if urge && urged then 0 else lk.writer, upgr := if urge then c else lk.upgr }
        none .up
    | some lk =>
      put s t c { lk with upgr := if urge then lk.upgr else 0, writer := if urged then lk.writer else c }
        (some t) .wr

/-- The wait loops of the two upgrades of `sr_rwrelock`, common.c 2646-2649 and 2700-2709. -/
def settleUp (s : Sys) (t c : Nat) (urge urged : Bool) (lk : Lock) : Sys :=
  if busyUp urged lk then
    if urge = true ∧ lk.writer = 0 then put s t c { lk with writer := c } none (.waitUp urge true)
    else put s t c lk none (.waitUp urge urged)
  else finishUp s t c urge urged lk

inductive Label where
  /-- `sr_rwlock` called -/
  | lock (t : Nat) (m : Mode)
  /-- condition wait returned (broadcast or spurious) -/
  | wake (t : Nat)
  /-- condition wait timed out -/
  | timeout (t : Nat)
  /-- `sr_rwrelock` from READ_UPGR to WRITE (or WRITE_URGE) called -/
  | upgrade (t : Nat) (urge : Bool)
  /-- `sr_rwrelock` from WRITE to READ (or READ_UPGR) -/
  | downgrade (t : Nat) (toUpgr : Bool)
  /-- `sr_rwrelock` from READ_UPGR to READ, the unprotected test -/
  | downCheck (t : Nat)
  /-- `sr_rwrelock` from READ_UPGR to READ, the protected part -/
  | downFinish (t : Nat)
  /-- `sr_rwunlock` -/
  | unlock (t : Nat)
  /-- all threads of the connection disappear -/
  | crash (c : Nat)
deriving DecidableEq, Repr

/-- One transition: `sr_sub_rwlock` common.c 2382-2565 (lock, wake, timeout), `sr_rwrelock` 2614-2795 (upgrade,
wake, timeout, downgrade, downCheck, downFinish), `sr_rwunlock` 2798-2864 (unlock); `none` when not enabled (wrong thread state, dead thread, or mutex not available). -/
def step (s : Sys) : Label → Option Sys
  | .crash c => if c = 0 then none else some { s with dead := c :: s.dead }
  | .lock t m =>
    match s.ths[t]? with
    | some ⟨c, .idle⟩ =>
      if s.isDead c then none else
      match takeMutex s with
      | none => none
      | some lk =>
        let lk := if busy m false lk then recover s.isDead lk else lk
        some (settle s t c m false lk)
    | _ => none
  | .wake t =>
    match s.ths[t]? with
    | some ⟨c, .wait m urged⟩ =>
      if s.isDead c then none else
      match takeMutexCond s with
      | none => none
      | some lk => some (settle s t c m urged lk)
    | some ⟨c, .waitUp urge urged⟩ =>
      if s.isDead c then none else
      match takeMutexCond s with
      | none => none
      | some lk => some (settleUp s t c urge urged lk)
    | _ => none
  | .timeout t =>
    match s.ths[t]? with
    | some ⟨c, .wait m urged⟩ =>
      if s.isDead c then none else
      match takeMutexCond s with
      | none => none
      | some lk =>
        let lk := recover s.isDead lk
        if busy m urged lk then
          some (put s t c (if urged then { lk with writer := 0 } else lk) none .idle)
        else some (acquire s t c m urged lk)
    | some ⟨c, .waitUp urge urged⟩ =>
      if s.isDead c then none else
      match takeMutexCond s with
      | none => none
      | some lk =>
        let lk := recover s.isDead lk
        if okUp urged lk then some (finishUp s t c urge urged lk)
        else
          let lk := if urged then { lk with writer := 0 } else lk
          let lk := if urge then { lk with upgr := c } else lk
          some (put s t c lk none .up)
    | _ => none
  | .upgrade t urge =>
    match s.ths[t]? with
    | some ⟨c, .up⟩ =>
      if s.isDead c then none else
      match takeMutex s with
      | none => none
      | some lk =>
        if lk.upgr ≠ c then some (abort s t c lk)
        else
          let lk := if urge then { lk with upgr := 0 } else lk
          let lk := if busyUp false lk then recover s.isDead lk else lk
          some (settleUp s t c urge false lk)
    | _ => none
  | .downgrade t toUpgr =>
    match s.ths[t]? with
    | some ⟨c, .wr⟩ =>
      if s.isDead c then none else
      if ¬ s.lock.readers.isEmpty ∨ s.lock.upgr ≠ 0 ∨ s.lock.writer ≠ c then some (abort s t c s.lock)
      else
        match readerAdd s.lock c with
        | none => some { s with limit := true }
        | some lk =>
          some (put s t c { lk with writer := 0, upgr := if toUpgr then c else lk.upgr } none
            (if toUpgr then .up else .rd))
    | _ => none
  | .downCheck t =>
    match s.ths[t]? with
    | some ⟨c, .up⟩ =>
      if s.isDead c then none else
      if s.lock.writer = 0 then some (put s t c s.lock s.mutex .upDown)
      else if s.lock.readers.isEmpty ∧ s.lock.upgr = 0 ∧ s.lock.writer = c then none
      else some { s with dead := c :: s.dead, asserted := true }
    | _ => none
  | .downFinish t =>
    match s.ths[t]? with
    | some ⟨c, .upDown⟩ =>
      if s.isDead c then none else
      match takeMutex s with
      | none => none
      | some lk =>
        if lk.upgr ≠ c then some (abort s t c lk)
        else some (put s t c { lk with upgr := 0 } none .rd)
    | _ => none
  | .unlock t =>
    match s.ths[t]? with
    | some ⟨c, .wr⟩ =>
      if s.isDead c then none else
      if ¬ s.lock.readers.isEmpty ∨ s.lock.upgr ≠ 0 ∨ s.lock.writer ≠ c then some (abort s t c s.lock)
      else some (put s t c { s.lock with writer := 0 } none .idle)
    | some ⟨c, .rd⟩ =>
      if s.isDead c then none else
      match takeMutex s with
      | none => none
      | some lk => some (put s t c ((readerDel lk c).getD lk) none .idle)
    | some ⟨c, .up⟩ =>
      if s.isDead c then none else
      match takeMutex s with
      | none => none
      | some lk =>
        if lk.upgr ≠ c then some (abort s t c lk)
        else
          let lk := { lk with upgr := 0 }
          some (put s t c ((readerDel lk c).getD lk) none .idle)
    | _ => none

/-- Any number of threads of any connections (non-zero CIDs), nothing locked. -/
def initial (cids : List Nat) : Sys :=
  ⟨Lock.free, none, cids.map (fun c => ⟨c, .idle⟩), [], false, false⟩

/-- States reachable by any schedule. -/
inductive Reach (cids : List Nat) : Sys → Prop
  | init : Reach cids (initial cids)
  | step {s s' l} : Reach cids s → step s l = some s' → Reach cids s'

/-- Execute a list of transitions. -/
def run (s : Sys) : List Label → Option Sys
  | [] => some s
  | l :: ls => match step s l with
    | none => none
    | some s' => run s' ls

theorem Reach.run {cids : List Nat} {s s' : Sys} (ls : List Label) (h : Reach cids s)
    (hr : RWLock.run s ls = some s') : Reach cids s' := by
  induction ls generalizing s with
  | nil => simp [RWLock.run] at hr; exact hr ▸ h
  | cons l ls ih =>
    simp only [RWLock.run] at hr
    cases hs : RWLock.step s l with
    | none => simp [hs] at hr
    | some s1 => rw [hs] at hr; exact ih (.step h hs) hr

/-! ## What a thread holds (specification vocabulary) -/

/-- The thread believes to have read access (also while it waits for an upgrade). -/
def St.reads : St → Bool
  | .rd | .up | .upDown | .waitUp _ _ => true
  | _ => false
/-- The thread believes to have upgradable read access. -/
def St.upgradable : St → Bool
  | .up | .upDown | .waitUp _ _ => true
  | _ => false
/-- The thread has announced itself in `writer`. -/
def St.wlike : St → Bool
  | .wr => true
  | .wait _ urged | .waitUp _ urged => urged
  | _ => false

/-! ## Lemmas -/

@[simp] theorem reads_idle : St.idle.reads = false := rfl
@[simp] theorem reads_rd : St.rd.reads = true := rfl
@[simp] theorem reads_up : St.up.reads = true := rfl
@[simp] theorem reads_upDown : St.upDown.reads = true := rfl
@[simp] theorem reads_wr : St.wr.reads = false := rfl
@[simp] theorem reads_wait (m : Mode) (b : Bool) : (St.wait m b).reads = false := rfl
@[simp] theorem reads_waitUp (a b : Bool) : (St.waitUp a b).reads = true := rfl
@[simp] theorem wlike_idle : St.idle.wlike = false := rfl
@[simp] theorem wlike_rd : St.rd.wlike = false := rfl
@[simp] theorem wlike_up : St.up.wlike = false := rfl
@[simp] theorem wlike_upDown : St.upDown.wlike = false := rfl
@[simp] theorem wlike_wr : St.wr.wlike = true := rfl
@[simp] theorem wlike_wait (m : Mode) (b : Bool) : (St.wait m b).wlike = b := rfl
@[simp] theorem wlike_waitUp (a b : Bool) : (St.waitUp a b).wlike = b := rfl

/-- Number of recorded read locks of a connection. -/
def rcount (rs : List (Nat × Nat)) (c : Nat) : Nat :=
  (rs.map (fun p => if p.1 = c then p.2 else 0)).sum

@[simp] theorem rcount_nil (c : Nat) : rcount [] c = 0 := rfl
@[simp] theorem rcount_cons (p : Nat × Nat) (rs : List (Nat × Nat)) (c : Nat) :
    rcount (p :: rs) c = (if p.1 = c then p.2 else 0) + rcount rs c := by simp [rcount]

def Pos (rs : List (Nat × Nat)) : Prop := ∀ p ∈ rs, 1 ≤ p.2

theorem addReaders_spec (rs : List (Nat × Nat)) (c room : Nat) (rs' : List (Nat × Nat))
    (h : addReaders rs c room = some rs') (hp : Pos rs) :
    Pos rs' ∧ ∀ c', rcount rs' c' = rcount rs c' + (if c = c' then 1 else 0) := by
  fun_induction addReaders rs c room generalizing rs' with
  | case1 => simp at h
  | case2 => simp at h; subst h; simp [Pos]
  | case3 => simp at h
  | case4 => simp at h
  | case5 n rs c room h1 h2 =>
    simp at h; subst h
    constructor
    · intro p hp'; simp at hp'; rcases hp' with rfl | hp'
      · simp
      · exact hp p (by simp [hp'])
    · intro c'; simp; split <;> omega
  | case6 => simp at h
  | case7 c' n rs c room h1 h2 rs1 heq ih =>
    simp at h; subst h
    obtain ⟨ih1, ih2⟩ := ih rs1 heq (fun p hp' => hp p (by simp [hp']))
    constructor
    · intro p hp'; simp at hp'; rcases hp' with rfl | hp'
      · exact hp _ (by simp)
      · exact ih1 p hp'
    · intro x; simp [ih2]; omega

theorem delReaders_spec (rs : List (Nat × Nat)) (c : Nat) (rs' : List (Nat × Nat))
    (h : delReaders rs c = some rs') (hp : Pos rs) :
    Pos rs' ∧ ∀ c', rcount rs' c' + (if c = c' then 1 else 0) = rcount rs c' := by
  fun_induction delReaders rs c generalizing rs' with
  | case1 => simp at h
  | case2 n rs c h1 =>
    simp at h; subst h
    have := hp (c, n) (by simp)
    simp at this
    exact ⟨fun p hp' => hp p (by simp [hp']), fun c' => by simp; split <;> omega⟩
  | case3 n rs c h1 =>
    simp at h; subst h
    have := hp (c, n) (by simp)
    simp at this
    constructor
    · intro p hp'; simp at hp'; rcases hp' with rfl | hp'
      · simp; omega
      · exact hp p (by simp [hp'])
    · intro c'; simp; split <;> omega
  | case4 => simp at h
  | case5 c' n rs c h1 rs1 heq ih =>
    simp at h; subst h
    obtain ⟨ih1, ih2⟩ := ih rs1 heq (fun p hp' => hp p (by simp [hp']))
    constructor
    · intro p hp'; simp at hp'; rcases hp' with rfl | hp'
      · exact hp _ (by simp)
      · exact ih1 p hp'
    · intro x; have := ih2 x; simp; omega

theorem delReaders_some (rs : List (Nat × Nat)) (c : Nat) (h : rcount rs c ≠ 0) :
    ∃ rs', delReaders rs c = some rs' := by
  fun_induction delReaders rs c with
  | case1 => simp at h
  | case2 => exact ⟨_, rfl⟩
  | case3 => exact ⟨_, rfl⟩
  | case4 c' n rs c h1 heq ih => exfalso; simp [h1] at h; obtain ⟨_, h2⟩ := ih h; simp [h2] at heq
  | case5 => exact ⟨_, rfl⟩

theorem recoverLoop_eq (dead : Nat → Bool) (fuel : Nat) (rs : List (Nat × Nat))
    (h : rs.length + (rs.map (·.2)).sum ≤ fuel) :
    recoverLoop dead fuel rs = rs.filter (fun p => !dead p.1) := by
  fun_induction recoverLoop dead fuel rs with
  | case1 rs => cases rs <;> simp at h ⊢
  | case2 => rfl
  | case3 fuel c n rs h1 h2 ih => rw [ih (by simp at h; omega)]; simp [h1]
  | case4 fuel c n rs h1 h2 ih => rw [ih (by simp at h ⊢; omega)]; simp [h1]
  | case5 fuel c n rs h1 ih => rw [ih (by simp at h; omega)]; simp [h1]

/-- Recovering removes exactly the crashed readers, with all of their locks. -/
theorem recoverReaders_eq (dead : Nat → Bool) (rs : List (Nat × Nat)) :
    recoverReaders dead rs = rs.filter (fun p => !dead p.1) := recoverLoop_eq dead _ rs (Nat.le_refl _)

theorem rcount_filter (dead : Nat → Bool) (rs : List (Nat × Nat)) (c : Nat) (h : dead c = false) :
    rcount (rs.filter (fun p => !dead p.1)) c = rcount rs c := by
  induction rs with
  | nil => rfl
  | cons p rs ih =>
    by_cases hd : dead p.1
    · have : p.1 ≠ c := by intro e; rw [e, h] at hd; simp at hd
      simp [hd, ih, this]
    · simp [hd, ih]

/-- The parts of the lock that matter to live connections are the same. -/
structure Same (s : Sys) (a b : Lock) : Prop where
  pos : Pos a.readers → Pos b.readers
  rc : ∀ c, s.isDead c = false → rcount b.readers c = rcount a.readers c
  nil : a.readers = [] → b.readers = []
  wr : b.writer = a.writer ∨ (b.writer = 0 ∧ s.isDead a.writer = true)
  up : b.upgr = a.upgr ∨ b.upgr = 0

theorem Same.refl (s : Sys) (a : Lock) : Same s a a := ⟨id, fun _ _ => rfl, id, .inl rfl, .inl rfl⟩

theorem Same.recover (s : Sys) (a : Lock) : Same s a (recover s.isDead a) where
  pos h := by
    simp only [RWLock.recover, recoverReaders_eq]
    exact fun p hp => h p (List.mem_filter.1 hp).1
  rc c hc := by simp only [RWLock.recover, recoverReaders_eq]; exact rcount_filter _ _ _ hc
  nil h := by simp [RWLock.recover, recoverReaders_eq, h]
  wr := by simp only [RWLock.recover]; split <;> simp_all
  up := by simp only [RWLock.recover]; split <;> simp_all

theorem Same.trans {s : Sys} {a b c : Lock} (h1 : Same s a b) (h2 : Same s b c) (h0 : s.isDead 0 = false) :
    Same s a c where
  pos h := h2.pos (h1.pos h)
  rc x hx := by rw [h2.rc x hx, h1.rc x hx]
  nil h := h2.nil (h1.nil h)
  wr := by
    rcases h1.wr with h | h <;> rcases h2.wr with h' | h'
    · left; rw [h', h]
    · right; exact ⟨h'.1, by rw [← h]; exact h'.2⟩
    · right; exact ⟨by rw [h', h.1], h.2⟩
    · rw [h.1, h0] at h'; simp at h'
  up := by
    rcases h1.up with h | h <;> rcases h2.up with h' | h'
    · left; rw [h', h]
    · right; exact h'
    · right; rw [h', h]
    · right; exact h'

/-- Number of threads of a connection that read. -/
def nreads (ths : List Thr) (c : Nat) : Nat := ths.countP (fun th => th.cid == c && th.st.reads)

/-- Main invariant. -/
structure LInv (s : Sys) : Prop where
  dead0 : s.isDead 0 = false
  cid : ∀ (t : Nat) (th : Thr), s.ths[t]? = some th → th.cid ≠ 0
  pos : Pos s.lock.readers
  acc : ∀ c, s.isDead c = false → rcount s.lock.readers c = nreads s.ths c
  wst : ∀ (t : Nat) (th : Thr), s.ths[t]? = some th → s.isDead th.cid = false → th.st.wlike = true → s.lock.writer = th.cid
  wuniq : ∀ (t t' : Nat) (th th' : Thr), s.ths[t]? = some th → s.ths[t']? = some th' → s.isDead th.cid = false →
    s.isDead th'.cid = false → th.st.wlike = true → th'.st.wlike = true → t = t'
  wr : ∀ (t : Nat) (th : Thr), s.ths[t]? = some th → s.isDead th.cid = false → th.st = .wr →
    s.mutex = some t ∧ s.lock.readers = []
  mtx : ∀ o, s.mutex = some o → ∃ th : Thr, s.ths[o]? = some th ∧ (s.isDead th.cid = true ∨ th.st = .wr)
  wback : s.lock.writer ≠ 0 → s.isDead s.lock.writer = false →
    ∃ (t : Nat) (st : St), s.ths[t]? = some ⟨s.lock.writer, st⟩ ∧ st.wlike = true
  uback : s.limit = false → s.lock.upgr ≠ 0 → s.isDead s.lock.upgr = false →
    ∃ (t : Nat) (st : St), s.ths[t]? = some ⟨s.lock.upgr, st⟩ ∧ (st = .up ∨ st = .upDown ∨ ∃ b, st = .waitUp false b)

theorem nreads_set (ths : List Thr) (t c : Nat) (st st' : St) (x : Nat) (h : ths[t]? = some ⟨c, st⟩) :
    nreads (ths.set t ⟨c, st'⟩) x + (if c = x ∧ st.reads then 1 else 0)
      = nreads ths x + (if c = x ∧ st'.reads then 1 else 0) := by
  induction ths generalizing t with
  | nil => simp at h
  | cons th ths ih =>
    cases t with
    | zero =>
      simp at h; subst h
      simp only [nreads, List.set_cons_zero, List.countP_cons]
      simp only [beq_iff_eq, Bool.and_eq_true]
      omega
    | succ t =>
      simp at h
      have := ih t h
      simp only [nreads, List.set_cons_succ, List.countP_cons] at this ⊢
      omega

theorem get_set (ths : List Thr) (t : Nat) (th new : Thr) (h : ths[t]? = some th) (i : Nat) :
    (ths.set t new)[i]? = if i = t then some new else ths[i]? := by
  have hlt : t < ths.length := by
    rcases Nat.lt_or_ge t ths.length with h1 | h1
    · exact h1
    · simp [List.getElem?_eq_none h1] at h
  rw [List.getElem?_set]
  by_cases hi : t = i
  · subst hi; simp [hlt]
  · simp [hi, Ne.symm hi]

/-- Effect of a section of thread `t` on the invariant. -/
theorem LInv.put {s : Sys} (inv : LInv s) {t c : Nat} {st : St} (lk : Lock) (m : Option Nat) (st' : St) (lim : Bool)
    (hlim : lim = false → s.limit = false)
    (hg : s.ths[t]? = some ⟨c, st⟩) (hl : s.isDead c = false)
    (hnowr : ∀ (o : Nat) (th : Thr), s.ths[o]? = some th → s.isDead th.cid = false → th.st = .wr → o = t ∨ m = s.mutex ∧ lk.readers = [])
    (hpos : Pos lk.readers)
    (hrc : ∀ x, s.isDead x = false → rcount lk.readers x + (if c = x ∧ st.reads then 1 else 0)
      = rcount s.lock.readers x + (if c = x ∧ st'.reads then 1 else 0))
    (hw1 : st'.wlike = true → lk.writer = c)
    (hw2 : st.wlike = true ∨ s.lock.writer = 0 ∨ s.isDead s.lock.writer = true ∨
      lk.writer = s.lock.writer ∧ (st'.wlike = true → st.wlike = true))
    (hwr : st' = .wr → m = some t ∧ lk.readers = [])
    (hm : ∀ o, m = some o → (o = t ∧ st' = .wr) ∨ (o ≠ t ∧ s.mutex = some o))
    (hwb : lk.writer ≠ 0 → s.isDead lk.writer = false →
      (lk.writer = c ∧ st'.wlike = true) ∨ (lk.writer = s.lock.writer ∧ st.wlike = false))
    (hub : lim = false → lk.upgr ≠ 0 → s.isDead lk.upgr = false →
      (lk.upgr = c ∧ (st' = .up ∨ st' = .upDown ∨ ∃ b, st' = .waitUp false b)) ∨
      (lk.upgr = s.lock.upgr ∧ (¬(st = .up ∨ st = .upDown ∨ ∃ b, st = .waitUp false b) ∨ lk.upgr ≠ c))) :
    LInv { RWLock.put s t c lk m st' with limit := lim } where
  dead0 := inv.dead0
  cid := by
    intro i th hi
    simp only [RWLock.put] at hi
    rw [get_set _ _ _ _ hg] at hi
    split at hi
    · simp at hi; subst hi; exact inv.cid t ⟨c, st⟩ hg
    · exact inv.cid i th hi
  pos := hpos
  acc := by
    intro x hx
    have h1 := hrc x hx
    have h2 := nreads_set s.ths t c st st' x hg
    have h3 := inv.acc x hx
    show rcount lk.readers x = nreads (s.ths.set t ⟨c, st'⟩) x
    omega
  wst := by
    intro i th hi hd hw
    simp only [RWLock.put] at hi ⊢
    rw [get_set _ _ _ _ hg] at hi
    split at hi
    · simp at hi; subst hi; exact hw1 hw
    · rename_i hne
      have hs := inv.wst i th hi hd hw
      rcases hw2 with h | h | h | h
      · exact absurd (inv.wuniq i t th _ hi hg hd hl hw h) hne
      · exact absurd (hs.symm.trans h) (inv.cid i th hi)
      · rw [hs] at h; rw [show s.isDead th.cid = false from hd] at h; simp at h
      · rw [h.1, hs]
  wuniq := by
    intro i j th th' hi hj hd hd' hw hw'
    simp only [RWLock.put] at hi hj
    rw [get_set _ _ _ _ hg] at hi hj
    have key : ∀ (i : Nat) (th : Thr), i ≠ t → s.ths[i]? = some th → s.isDead th.cid = false → th.st.wlike = true →
        st'.wlike = true → False := by
      intro i th hne hi hd hw hst
      have hs := inv.wst i th hi hd hw
      rcases hw2 with h | h | h | h
      · exact hne (inv.wuniq i t th _ hi hg hd hl hw h)
      · exact absurd (hs.symm.trans h) (inv.cid i th hi)
      · rw [hs, hd] at h; simp at h
      · exact hne (inv.wuniq i t th _ hi hg hd hl hw (h.2 hst))
    split at hi <;> split at hj
    · simp_all
    · simp at hi; subst hi
      rename_i h1 h2
      exact (key j th' h2 hj hd' hw' hw).elim
    · simp at hj; subst hj
      rename_i h1 h2
      exact (key i th h1 hi hd hw hw').elim
    · exact inv.wuniq i j th th' hi hj hd hd' hw hw'
  wr := by
    intro i th hi hd hw
    simp only [RWLock.put] at hi ⊢
    rw [get_set _ _ _ _ hg] at hi
    split at hi
    · simp at hi; subst hi; subst i; exact hwr hw
    · rename_i hne
      rcases hnowr i th hi hd hw with h | h
      · exact absurd h hne
      · exact ⟨h.1.trans (inv.wr i th hi hd hw).1, h.2⟩
  mtx := by
    intro o ho
    simp only [RWLock.put] at ho ⊢
    rcases hm o ho with ⟨h, hw⟩ | ⟨h, h'⟩
    · subst h
      exact ⟨⟨c, st'⟩, by rw [get_set _ _ _ _ hg]; simp, .inr hw⟩
    · obtain ⟨th, h1, h2⟩ := inv.mtx o h'
      exact ⟨th, by rw [get_set _ _ _ _ hg]; simp [h, h1], h2⟩
  wback := by
    intro h0 hd
    simp only [RWLock.put] at h0 hd ⊢
    rcases hwb h0 hd with ⟨h1, h2⟩ | ⟨h1, h2⟩
    · exact ⟨t, st', by rw [get_set _ _ _ _ hg, h1]; simp, h2⟩
    · obtain ⟨i, sti, h3, h4⟩ := inv.wback (by rw [← h1]; exact h0) (by rw [← h1]; exact hd)
      have : i ≠ t := by
        intro e; subst e
        rw [hg] at h3; simp at h3; rw [h3.2, h4] at h2; simp at h2
      exact ⟨i, sti, by rw [get_set _ _ _ _ hg]; simp [this, h1, h3], h4⟩
  uback := by
    intro hlm h0 hd
    simp only [RWLock.put] at h0 hd ⊢
    rcases hub hlm h0 hd with ⟨h1, h2⟩ | ⟨h1, h2⟩
    · exact ⟨t, st', by rw [get_set _ _ _ _ hg, h1]; simp, h2⟩
    · obtain ⟨i, sti, h3, h4⟩ := inv.uback (hlim hlm) (by rw [← h1]; exact h0) (by rw [← h1]; exact hd)
      have : i ≠ t := by
        intro e; subst e
        rw [hg] at h3; simp at h3
        rcases h2 with h2 | h2
        · rw [h3.2] at h2; exact h2 h4
        · exact h2 (h1.trans h3.1.symm)
      exact ⟨i, sti, by rw [get_set _ _ _ _ hg]; simp [this, h1, h3], h4⟩

theorem isDead_cons (s : Sys) (c x : Nat) (lk : Lock) (m : Option Nat) (a : Bool) :
    Sys.isDead { s with lock := lk, mutex := m, dead := c :: s.dead, asserted := a } x = (x == c || s.isDead x) := by
  simp only [Sys.isDead, List.contains_cons]

/-- Effect of a crash (with the lock possibly modified by the crashed thread that holds the mutex). -/
theorem LInv.die {s : Sys} (inv : LInv s) {c : Nat} (lk : Lock) (m : Option Nat) (a : Bool) (hc : c ≠ 0)
    (hpos : Pos lk.readers)
    (hrc : ∀ x, s.isDead x = false → x ≠ c → rcount lk.readers x = rcount s.lock.readers x)
    (hnil : s.lock.readers = [] → lk.readers = [])
    (hw : lk.writer = s.lock.writer ∨ lk.writer = 0 ∧ s.isDead s.lock.writer = true)
    (hu : lk.upgr = s.lock.upgr ∨ lk.upgr = 0)
    (hm : m = s.mutex ∨ ∃ t st, m = some t ∧ s.ths[t]? = some ⟨c, st⟩ ∧
      ∀ (o : Nat) (th : Thr), s.ths[o]? = some th → s.isDead th.cid = false → th.st ≠ .wr ∨ o = t) :
    LInv { s with lock := lk, mutex := m, dead := c :: s.dead, asserted := a } where
  dead0 := by rw [isDead_cons]; simp [inv.dead0, Ne.symm hc]
  cid := inv.cid
  pos := hpos
  acc := by
    intro x hx; rw [isDead_cons] at hx; simp at hx
    exact (hrc x hx.2 hx.1).trans (inv.acc x hx.2)
  wst := by
    intro t th hi hd hw'; rw [isDead_cons] at hd; simp at hd
    have := inv.wst t th hi hd.2 hw'
    rcases hw with h | h
    · exact h.trans this
    · rw [this, hd.2] at h; simp at h
  wuniq := by
    intro t t' th th' hi hj hd hd' h1 h2
    rw [isDead_cons] at hd hd'; simp at hd hd'
    exact inv.wuniq t t' th th' hi hj hd.2 hd'.2 h1 h2
  wr := by
    intro t th hi hd hw'; rw [isDead_cons] at hd; simp at hd
    obtain ⟨h1, h2⟩ := inv.wr t th hi hd.2 hw'
    refine ⟨?_, hnil h2⟩
    rcases hm with h | ⟨t', st, h3, h4, h5⟩
    · exact h.trans h1
    · rcases h5 t th hi hd.2 with h | h
      · exact absurd hw' h
      · subst h; rw [h4] at hi; simp at hi; subst hi; simp at hd
  mtx := by
    intro o ho
    simp only at ho
    rcases hm with h | ⟨t', st, h3, h4, h5⟩
    · obtain ⟨th, h1, h2⟩ := inv.mtx o (h ▸ ho)
      refine ⟨th, h1, ?_⟩
      rw [isDead_cons]; rcases h2 with h2 | h2
      · left; simp [h2]
      · right; exact h2
    · rw [h3] at ho; simp at ho; subst ho
      exact ⟨_, h4, .inl (by rw [isDead_cons]; simp)⟩
  wback := by
    intro h0 hd; rw [isDead_cons] at hd; simp at hd h0 ⊢
    rcases hw with h | h
    · rw [h] at h0 hd ⊢; exact inv.wback h0 hd.2
    · exact absurd h.1 h0
  uback := by
    intro hl h0 hd; rw [isDead_cons] at hd; simp at hd h0; dsimp only
    rcases hu with h | h
    · rw [h] at h0 hd ⊢; exact inv.uback hl h0 hd.2
    · exact absurd h h0

/-- Nobody alive holds the WRITE lock. -/
def NoWr (s : Sys) : Prop :=
  ∀ (o : Nat) (th : Thr), s.ths[o]? = some th → s.isDead th.cid = false → th.st ≠ .wr

theorem takeMutex_spec {s : Sys} (inv : LInv s) {lk : Lock} (h : takeMutex s = some lk) :
    Same s s.lock lk ∧ NoWr s := by
  unfold takeMutex at h
  split at h
  · rename_i hm
    simp at h; subst h
    exact ⟨.refl _ _, fun o th h1 h2 h3 => by have := (inv.wr o th h1 h2 h3).1; simp [hm] at this⟩
  · rename_i o hm
    split at h
    · simp at h
    · rename_i th hg
      split at h
      · rename_i hd
        simp at h; subst h
        refine ⟨.recover _ _, fun o' th' h1 h2 h3 => ?_⟩
        have := (inv.wr o' th' h1 h2 h3).1
        rw [hm] at this; simp at this; subst this
        rw [hg] at h1; simp at h1; subst h1; simp [h2] at hd
      · simp at h

theorem takeMutexCond_spec {s : Sys} (inv : LInv s) {lk : Lock} (h : takeMutexCond s = some lk) :
    lk = s.lock ∧ NoWr s := by
  unfold takeMutexCond at h
  split at h
  · rename_i hm
    simp at h; subst h
    exact ⟨rfl, fun o th h1 h2 h3 => by have := (inv.wr o th h1 h2 h3).1; simp [hm] at this⟩
  · rename_i o hm
    split at h
    · simp at h
    · rename_i th hg
      split at h
      · rename_i hd
        simp at h; subst h
        refine ⟨rfl, fun o' th' h1 h2 h3 => ?_⟩
        have := (inv.wr o' th' h1 h2 h3).1
        rw [hm] at this; simp at this; subst this
        rw [hg] at h1; simp at h1; subst h1; simp [h2] at hd
      · simp at h

/-- Failed assert under the mutex. `lk` is the lock at that point, up to the upgradable flag. -/
theorem LInv.abort {s : Sys} (inv : LInv s) {t c : Nat} {st : St} {lk lk' : Lock}
    (hg : s.ths[t]? = some ⟨c, st⟩) (hsame : Same s s.lock lk) (hn : NoWr s)
    (h1 : lk'.readers = lk.readers) (h2 : lk'.writer = lk.writer) (h3 : lk'.upgr = lk.upgr ∨ lk'.upgr = 0) :
    LInv (RWLock.abort s t c lk') := by
  refine inv.die lk' (some t) true (inv.cid t _ hg) ?_ ?_ ?_ ?_ ?_ ?_
  · rw [h1]; exact hsame.pos inv.pos
  · intro x hx _; rw [h1]; exact hsame.rc x hx
  · intro h; rw [h1]; exact hsame.nil h
  · rw [h2]; exact hsame.wr
  · rcases h3 with h | h
    · rw [h]; rcases hsame.up with h' | h'
      · exact .inl h'
      · exact .inr h'
    · exact .inr h
  · exact .inr ⟨t, st, rfl, hg, fun o th a b => .inl (hn o th a b)⟩

theorem readerAdd_spec {lk lk' : Lock} {c : Nat} (h : readerAdd lk c = some lk') (hp : Pos lk.readers) :
    Pos lk'.readers ∧ (∀ x, rcount lk'.readers x = rcount lk.readers x + (if c = x then 1 else 0)) ∧
    lk'.writer = lk.writer ∧ lk'.upgr = lk.upgr := by
  unfold readerAdd at h
  split at h
  · simp at h
  · rename_i rs hr
    simp at h; subst h
    obtain ⟨h1, h2⟩ := addReaders_spec _ _ _ _ hr hp
    exact ⟨h1, h2, rfl, rfl⟩

theorem readerDel_spec {lk lk' : Lock} {c : Nat} (h : readerDel lk c = some lk') (hp : Pos lk.readers) :
    Pos lk'.readers ∧ (∀ x, rcount lk'.readers x + (if c = x then 1 else 0) = rcount lk.readers x) ∧
    lk'.writer = lk.writer ∧ lk'.upgr = lk.upgr := by
  unfold readerDel at h
  split at h
  · simp at h
  · rename_i rs hr
    simp at h; subst h
    obtain ⟨h1, h2⟩ := delReaders_spec _ _ _ hr hp
    exact ⟨h1, h2, rfl, rfl⟩

theorem readerDel_some {lk : Lock} {c : Nat} (h : rcount lk.readers c ≠ 0) : ∃ lk', readerDel lk c = some lk' := by
  obtain ⟨rs, h1⟩ := delReaders_some lk.readers c h
  exact ⟨{ lk with readers := rs }, by simp only [readerDel, h1]⟩

/-- With the mutex taken and nobody alive writing, `acquire` preserves the invariant. -/
theorem LInv.acquire {s : Sys} (inv : LInv s) {t c : Nat} {st : St} {lk : Lock} {m : Mode} {urged : Bool}
    (hg : s.ths[t]? = some ⟨c, st⟩) (hl : s.isDead c = false) (hsame : Same s s.lock lk) (hn : NoWr s)
    (hst : st = .idle ∧ urged = false ∨ st = .wait m urged)
    (hb : busy m urged lk = false) : LInv (RWLock.acquire s t c m urged lk) := by
  have hr : st.reads = false := by rcases hst with ⟨h, _⟩ | h <;> simp [h]
  have hwl : st.wlike = urged := by rcases hst with ⟨h, h'⟩ | h <;> simp [h]; rw [h']
  have hupn : ¬(st = .up ∨ st = .upDown ∨ ∃ b, st = .waitUp false b) := by
    rcases hst with ⟨h, _⟩ | h <;> simp [h]
  have hnowr : ∀ (m : Option Nat) (lk' : Lock) (o : Nat) (th : Thr), s.ths[o]? = some th → s.isDead th.cid = false →
      th.st = .wr → o = t ∨ m = s.mutex ∧ lk'.readers = [] := fun m lk' o th a b d => absurd d (hn o th a b)
  have hpos := hsame.pos inv.pos
  have hws : urged = true → s.lock.writer = c := fun hu => inv.wst t _ hg hl (by simp [hwl, hu])
  have hw0 : lk.writer = 0 → s.lock.writer = 0 ∨ s.isDead s.lock.writer = true := by
    intro h; rcases hsame.wr with h' | h'
    · left; rw [← h', h]
    · right; exact h'.2
  have hlw : urged = true → lk.writer = c := by
    intro hu; rcases hsame.wr with h' | h'
    · rw [h', hws hu]
    · rw [hws hu, hl] at h'; simp at h'
  have hc0 : c ≠ 0 := inv.cid t _ hg
  have hupg : ∀ x, x = lk.upgr → x ≠ 0 → x = s.lock.upgr := by
    intro x hx h0; rcases hsame.up with h' | h'
    · rw [hx, h']
    · rw [hx, h'] at h0; simp at h0
  unfold RWLock.acquire
  cases m with
  | write =>
    simp [busy] at hb
    dsimp only
    split
    · exact inv.abort hg hsame hn rfl rfl (.inl rfl)
    · rename_i hu
      simp at hu
      refine inv.put _ _ _ s.limit id hg hl (hnowr _ _) hpos ?_ ?_ ?_ ?_ ?_ ?_ ?_
      · intro x hx; simp [hr, hsame.rc x hx]
      · simp
      · rcases hw0 hb.2 with h | h <;> simp [h]
      · simp [hb.1]
      · simp
      · simp
      · simp [hu]
  | writeUrge =>
    simp [busy] at hb
    dsimp only
    split
    · exact inv.abort hg hsame hn rfl rfl (.inl rfl)
    · rename_i hu
      simp at hu
      generalize hlk1 : (if urged then lk else { lk with writer := c }) = lk1
      have hr1 : lk1.readers = lk.readers := by rw [← hlk1]; split <;> rfl
      have hu1 : lk1.upgr = 0 := by rw [← hlk1]; split <;> exact hu
      have hwu : lk1.writer = c := by
        rw [← hlk1]; split
        · rename_i hur; exact hlw hur
        · rfl
      rw [if_neg (by simp [hwu])]
      refine inv.put _ _ _ s.limit id hg hl (hnowr _ _) (hr1 ▸ hpos) ?_ ?_ ?_ ?_ ?_ ?_ ?_
      · intro x hx; simp [hr, hr1, hsame.rc x hx]
      · simp [hwu]
      · by_cases hur : urged
        · left; rw [hwl, hur]
        · have := hw0 (by simpa [hur] using hb.2)
          rcases this with h | h <;> simp [h]
      · simp [hr1, hb.1]
      · simp
      · simp [hwu]
      · simp [hu1]
  | readUpgr =>
    simp [busy] at hb
    dsimp only
    split
    · refine inv.put _ _ _ true (by simp) hg hl (hnowr _ _) hpos ?_ ?_ ?_ ?_ ?_ ?_ ?_
      · intro x hx; simp [hr, hsame.rc x hx]
      · simp
      · rcases hw0 hb.2 with h | h <;> simp [h]
      · simp
      · simp
      · simp [hb.2]
      · simp
    · rename_i lk' hadd
      obtain ⟨h1, h2, h3, h4⟩ := readerAdd_spec hadd hpos
      refine inv.put _ _ _ s.limit id hg hl (hnowr _ _) h1 ?_ ?_ ?_ ?_ ?_ ?_ ?_
      · intro x hx; simp [hr, h2, hsame.rc x hx]
      · simp
      · rcases hw0 hb.2 with h | h <;> simp [h]
      · simp
      · simp
      · simp [h3, hb.2]
      · simp [h4]
  | read =>
    simp [busy] at hb
    dsimp only
    split
    · refine inv.put _ _ _ true (by simp) hg hl (hnowr _ _) hpos ?_ ?_ ?_ ?_ ?_ ?_ ?_
      · intro x hx; simp [hr, hsame.rc x hx]
      · simp
      · rcases hw0 hb.2 with h | h <;> simp [h]
      · simp
      · simp
      · simp [hb.2]
      · simp
    · rename_i lk' hadd
      obtain ⟨h1, h2, h3, h4⟩ := readerAdd_spec hadd hpos
      refine inv.put _ _ _ s.limit id hg hl (hnowr _ _) h1 ?_ ?_ ?_ ?_ ?_ ?_ ?_
      · intro x hx; simp [hr, h2, hsame.rc x hx]
      · simp
      · rcases hw0 hb.2 with h | h <;> simp [h]
      · simp
      · simp
      · simp [h3, hb.2]
      · intro _ h0 hd; right; rw [h4] at h0 ⊢; exact ⟨hupg _ rfl h0, .inl hupn⟩

/-- Facts about a lock taken over under the mutex. -/
theorem Same.writer_zero {s : Sys} {lk : Lock} (h : Same s s.lock lk) (h0 : lk.writer = 0) :
    s.lock.writer = 0 ∨ s.isDead s.lock.writer = true := by
  rcases h.wr with h' | h'
  · left; rw [← h', h0]
  · right; exact h'.2

theorem Same.writer_urged {s : Sys} (inv : LInv s) {lk : Lock} {t c : Nat} {st : St} (h : Same s s.lock lk)
    (hg : s.ths[t]? = some ⟨c, st⟩) (hl : s.isDead c = false) (hw : st.wlike = true) : lk.writer = c := by
  have hs := inv.wst t _ hg hl hw
  rcases h.wr with h' | h'
  · rw [h', hs]
  · rw [hs, hl] at h'; simp at h'

theorem Same.upgr_ne {s : Sys} {lk : Lock} (h : Same s s.lock lk) (h0 : lk.upgr ≠ 0) : lk.upgr = s.lock.upgr := by
  rcases h.up with h' | h'
  · exact h'
  · exact absurd h' h0

theorem Same.writer_ne {s : Sys} {lk : Lock} (h : Same s s.lock lk) (h0 : lk.writer ≠ 0) :
    lk.writer = s.lock.writer := by
  rcases h.wr with h' | h'
  · exact h'
  · exact absurd h'.1 h0

theorem LInv.settle {s : Sys} (inv : LInv s) {t c : Nat} {st : St} {lk : Lock} {m : Mode} {urged : Bool}
    (hg : s.ths[t]? = some ⟨c, st⟩) (hl : s.isDead c = false) (hsame : Same s s.lock lk) (hn : NoWr s)
    (hst : st = .idle ∧ urged = false ∨ st = .wait m urged) : LInv (RWLock.settle s t c m urged lk) := by
  have hr : st.reads = false := by rcases hst with ⟨h, _⟩ | h <;> simp [h]
  have hwl : st.wlike = urged := by rcases hst with ⟨h, h'⟩ | h <;> simp [h]; rw [h']
  have hupn : ¬(st = .up ∨ st = .upDown ∨ ∃ b, st = .waitUp false b) := by
    rcases hst with ⟨h, _⟩ | h <;> simp [h]
  have hnowr : ∀ (m : Option Nat) (lk' : Lock) (o : Nat) (th : Thr), s.ths[o]? = some th → s.isDead th.cid = false →
      th.st = .wr → o = t ∨ m = s.mutex ∧ lk'.readers = [] := fun m lk' o th a b d => absurd d (hn o th a b)
  have hpos := hsame.pos inv.pos
  unfold RWLock.settle
  split
  · split
    · rename_i h
      refine inv.put _ _ _ s.limit id hg hl (hnowr _ _) hpos ?_ ?_ ?_ ?_ ?_ ?_ ?_
      · intro x hx; simp [hr, hsame.rc x hx]
      · simp
      · rcases hsame.writer_zero h.2 with h' | h' <;> simp [h']
      · simp
      · simp
      · simp
      · intro _ h0 hd; right; exact ⟨hsame.upgr_ne h0, .inl hupn⟩
    · refine inv.put _ _ _ s.limit id hg hl (hnowr _ _) hpos ?_ ?_ ?_ ?_ ?_ ?_ ?_
      · intro x hx; simp [hr, hsame.rc x hx]
      · simp; intro hu; exact hsame.writer_urged inv hg hl (by simp [hwl, hu])
      · rw [hwl]; simp
        by_cases h0 : lk.writer = 0
        · rcases hsame.writer_zero h0 with h' | h' <;> simp [h']
        · simp [hsame.writer_ne h0]
      · simp
      · simp
      · intro h0 hd
        by_cases hu : urged
        · left; exact ⟨hsame.writer_urged inv hg hl (by simp [hwl, hu]), by simp [hu]⟩
        · right; exact ⟨hsame.writer_ne h0, by simp [hwl, hu]⟩
      · intro _ h0 hd; right; exact ⟨hsame.upgr_ne h0, .inl hupn⟩
  · rename_i hb
    exact inv.acquire hg hl hsame hn hst (by simpa using hb)

theorem rcount_pos_of_reads {s : Sys} (inv : LInv s) {t c : Nat} {st : St} {lk : Lock}
    (hg : s.ths[t]? = some ⟨c, st⟩) (hl : s.isDead c = false) (hsame : Same s s.lock lk) (hr : st.reads = true) :
    rcount lk.readers c ≠ 0 := by
  rw [hsame.rc c hl, inv.acc c hl]
  have : 0 < nreads s.ths c := by
    unfold nreads; rw [List.countP_pos_iff]
    exact ⟨⟨c, st⟩, List.mem_of_getElem? hg, by simp [hr]⟩
  omega

/-- Only one reader with one lock left: no readers after its removal. -/
theorem del_single {lk lk' : Lock} {c : Nat} (h1 : lk.readers.length ≤ 1)
    (h2 : count0 lk ≤ 1) (hd : readerDel lk c = some lk') : lk'.readers = [] := by
  unfold readerDel at hd
  match hrs : lk.readers, h1 with
  | [], _ => simp [hrs, delReaders] at hd
  | [(c', n)], _ =>
    have hn : n ≤ 1 := by simpa [count0, hrs] using h2
    by_cases hc : c' = c
    · have : n - 1 = 0 := by omega
      simp [hrs, delReaders, hc, this] at hd; rw [← hd]
    · simp [hrs, delReaders, hc] at hd

theorem LInv.finishUp {s : Sys} (inv : LInv s) {t c : Nat} {st : St} {lk : Lock} {urge urged : Bool}
    (hg : s.ths[t]? = some ⟨c, st⟩) (hl : s.isDead c = false) (hsame : Same s s.lock lk) (hn : NoWr s)
    (hst : st = .up ∧ urged = false ∧ (urge = true → lk.upgr = 0) ∨ st = .waitUp urge urged)
    (hb : lk.readers.length ≤ 1 ∧ count0 lk ≤ 1 ∧ (lk.writer = 0 ∨ urged = true)) :
    LInv (RWLock.finishUp s t c urge urged lk) := by
  have hr : st.reads = true := by rcases hst with ⟨h, _⟩ | h <;> simp [h]
  have hwl : st.wlike = urged := by rcases hst with ⟨h, h', _⟩ | h <;> simp [h]; rw [h']
  have hnowr : ∀ (m : Option Nat) (lk' : Lock) (o : Nat) (th : Thr), s.ths[o]? = some th → s.isDead th.cid = false →
      th.st = .wr → o = t ∨ m = s.mutex ∧ lk'.readers = [] := fun m lk' o th a b d => absurd d (hn o th a b)
  have hpos := hsame.pos inv.pos
  unfold RWLock.finishUp
  split
  · exact inv.abort hg hsame hn rfl rfl (.inl rfl)
  · obtain ⟨lk1, h1⟩ := readerDel_some (rcount_pos_of_reads inv hg hl hsame hr)
    rw [h1]
    obtain ⟨p1, p2, p3, p4⟩ := readerDel_spec h1 hpos
    have hnil := del_single hb.1 hb.2.1 h1
    dsimp only
    refine inv.put _ _ _ s.limit id hg hl (hnowr _ _) p1 ?_ ?_ ?_ ?_ ?_ ?_ ?_
    · intro x hx
      have := p2 x
      rw [hsame.rc x hx] at this
      simpa [hr] using this
    · intro _
      by_cases hu : urged
      · simp [hu, p3]; exact hsame.writer_urged inv hg hl (by simp [hwl, hu])
      · simp [hu]
    · by_cases hu : urged
      · left; rw [hwl, hu]
      · have := hb.2.2
        simp [hu] at this
        rcases hsame.writer_zero this with h' | h' <;> simp [h']
    · intro _; exact ⟨rfl, hnil⟩
    · simp
    · intro h0 hd
      left
      by_cases hu : urged
      · simp [hu, p3]; exact hsame.writer_urged inv hg hl (by simp [hwl, hu])
      · simp [hu]
    · intro _ h0 hd
      by_cases hue : urge
      · rcases hst with ⟨h, _, h'⟩ | h
        · simp [hue, p4, h' hue] at h0
        · right
          simp [hue, p4] at h0 ⊢
          exact ⟨hsame.upgr_ne h0, .inl (by simp [h, hue])⟩
      · simp [hue] at h0

theorem LInv.settleUp {s : Sys} (inv : LInv s) {t c : Nat} {st : St} {lk : Lock} {urge urged : Bool}
    (hg : s.ths[t]? = some ⟨c, st⟩) (hl : s.isDead c = false) (hsame : Same s s.lock lk) (hn : NoWr s)
    (hst : st = .up ∧ urged = false ∧ (urge = true → lk.upgr = 0) ∨ st = .waitUp urge urged) :
    LInv (RWLock.settleUp s t c urge urged lk) := by
  have hr : st.reads = true := by rcases hst with ⟨h, _⟩ | h <;> simp [h]
  have hwl : st.wlike = urged := by rcases hst with ⟨h, h', _⟩ | h <;> simp [h]; rw [h']
  have hnowr : ∀ (m : Option Nat) (lk' : Lock) (o : Nat) (th : Thr), s.ths[o]? = some th → s.isDead th.cid = false →
      th.st = .wr → o = t ∨ m = s.mutex ∧ lk'.readers = [] := fun m lk' o th a b d => absurd d (hn o th a b)
  have hpos := hsame.pos inv.pos
  have hup : ∀ b, lk.upgr ≠ 0 →
      (lk.upgr = c ∧ (St.waitUp urge b = .up ∨ St.waitUp urge b = .upDown ∨ ∃ d, St.waitUp urge b = .waitUp false d)) ∨
      (lk.upgr = s.lock.upgr ∧ (¬(st = .up ∨ st = .upDown ∨ ∃ b, st = .waitUp false b) ∨ lk.upgr ≠ c)) := by
    intro b h0
    by_cases hc : lk.upgr = c
    · by_cases hue : urge
      · rcases hst with ⟨h, _, h'⟩ | h
        · exact absurd (h' hue) h0
        · right; exact ⟨hsame.upgr_ne h0, .inl (by simp [h, hue])⟩
      · left; simp [hc, hue]
    · right; exact ⟨hsame.upgr_ne h0, .inr hc⟩
  unfold RWLock.settleUp
  split
  · split
    · rename_i h
      refine inv.put _ _ _ s.limit id hg hl (hnowr _ _) hpos ?_ ?_ ?_ ?_ ?_ ?_ ?_
      · intro x hx; simp [hr, hsame.rc x hx]
      · simp
      · rcases hsame.writer_zero h.2 with h' | h' <;> simp [h']
      · simp
      · simp
      · simp
      · intro _ h0 hd; exact hup _ h0
    · refine inv.put _ _ _ s.limit id hg hl (hnowr _ _) hpos ?_ ?_ ?_ ?_ ?_ ?_ ?_
      · intro x hx; simp [hr, hsame.rc x hx]
      · simp; intro hu; exact hsame.writer_urged inv hg hl (by simp [hwl, hu])
      · rw [hwl]; simp
        by_cases h0 : lk.writer = 0
        · rcases hsame.writer_zero h0 with h' | h' <;> simp [h']
        · simp [hsame.writer_ne h0]
      · simp
      · simp
      · intro h0 hd
        by_cases hu : urged
        · left; exact ⟨hsame.writer_urged inv hg hl (by simp [hwl, hu]), by simp [hu]⟩
        · right; exact ⟨hsame.writer_ne h0, by simp [hwl, hu]⟩
      · intro _ h0 hd; exact hup _ h0
  · rename_i hb
    refine inv.finishUp hg hl hsame hn hst ?_
    simp [busyUp] at hb
    refine ⟨by omega, by omega, ?_⟩
    by_cases h0 : lk.writer = 0
    · exact .inl h0
    · exact .inr (hb.2 h0)

theorem Same.clearUpgr {s : Sys} {a lk : Lock} (h : Same s a lk) (b : Bool) :
    Same s a (if b then { lk with upgr := 0 } else lk) := by
  split
  · exact ⟨h.pos, h.rc, h.nil, h.wr, .inr rfl⟩
  · exact h

theorem Same.maybe {s : Sys} {a lk : Lock} (h : Same s a lk) (h0 : s.isDead 0 = false) (b : Bool) :
    Same s a (if b then RWLock.recover s.isDead lk else lk) := by
  split
  · exact h.trans (.recover _ _) h0
  · exact h

theorem recover_upgr_zero {d : Nat → Bool} {lk : Lock} (h : lk.upgr = 0) (b : Bool) :
    (if b then recover d lk else lk).upgr = 0 := by
  split
  · simp [recover, h]
  · exact h

/-- Unlocking or downgrading a reader. -/
theorem LInv.leave {s : Sys} (inv : LInv s) {t c : Nat} {st : St} {lk : Lock}
    (hg : s.ths[t]? = some ⟨c, st⟩) (hl : s.isDead c = false) (hsame : Same s s.lock lk) (hn : NoWr s)
    (hr : st.reads = true) (hwl : st.wlike = false)
    (hup : st = .rd ∨ lk.upgr = 0) : LInv (RWLock.put s t c ((readerDel lk c).getD lk) none .idle) := by
  have hpos := hsame.pos inv.pos
  obtain ⟨lk1, h1⟩ := readerDel_some (rcount_pos_of_reads inv hg hl hsame hr)
  obtain ⟨p1, p2, p3, p4⟩ := readerDel_spec h1 hpos
  rw [h1]; simp only [Option.getD_some]
  refine inv.put _ _ _ s.limit id hg hl (fun o th a b d => absurd d (hn o th a b)) p1 ?_ ?_ ?_ ?_ ?_ ?_ ?_
  · intro x hx
    have := p2 x
    rw [hsame.rc x hx] at this
    simpa [hr] using this
  · simp
  · rw [p3]
    by_cases h0 : lk.writer = 0
    · rcases hsame.writer_zero h0 with h' | h' <;> simp [h']
    · simp [hsame.writer_ne h0]
  · simp
  · simp
  · rw [p3]; intro h0 _; right; exact ⟨hsame.writer_ne h0, hwl⟩
  · rw [p4]; intro _ h0 _
    rcases hup with h | h
    · right; exact ⟨hsame.upgr_ne h0, .inl (by simp [h])⟩
    · exact absurd h h0

theorem LInv.step {s s' : Sys} {l : Label} (inv : LInv s) (h : RWLock.step s l = some s') : LInv s' := by
  have h0 := inv.dead0
  cases l with
  | crash c =>
    simp only [RWLock.step] at h
    split at h
    · simp at h
    · rename_i hc
      simp at h; subst h
      exact inv.die s.lock s.mutex s.asserted hc inv.pos (fun _ _ _ => rfl) id (.inl rfl) (.inl rfl) (.inl rfl)
  | lock t m =>
    simp only [RWLock.step] at h
    split at h
    · rename_i c hg
      split at h
      · simp at h
      · rename_i hl; simp only [Bool.not_eq_true] at hl
        split at h
        · simp at h
        · rename_i lk hm
          obtain ⟨hs, hn⟩ := takeMutex_spec inv hm
          simp at h; subst h
          exact inv.settle hg hl (hs.maybe h0 _) hn (.inl ⟨rfl, rfl⟩)
    · simp at h
  | wake t =>
    simp only [RWLock.step] at h
    split at h
    · rename_i c m urged hg
      split at h
      · simp at h
      · rename_i hl; simp only [Bool.not_eq_true] at hl
        split at h
        · simp at h
        · rename_i lk hm
          obtain ⟨hs, hn⟩ := takeMutexCond_spec inv hm
          simp at h; subst h
          exact inv.settle hg hl (hs ▸ .refl _ _) hn (.inr rfl)
    · rename_i c urge urged hg
      split at h
      · simp at h
      · rename_i hl; simp only [Bool.not_eq_true] at hl
        split at h
        · simp at h
        · rename_i lk hm
          obtain ⟨hs, hn⟩ := takeMutexCond_spec inv hm
          simp at h; subst h
          exact inv.settleUp hg hl (hs ▸ .refl _ _) hn (.inr rfl)
    · simp at h
  | timeout t =>
    simp only [RWLock.step] at h
    split at h
    · rename_i c m urged hg
      split at h
      · simp at h
      · rename_i hl; simp only [Bool.not_eq_true] at hl
        split at h
        · simp at h
        · rename_i lk hm
          obtain ⟨hs, hn⟩ := takeMutexCond_spec inv hm
          subst hs
          have hsame := Same.recover s s.lock
          split at h
          · simp at h; subst h
            generalize recover s.isDead s.lock = lk at *
            generalize hlk1 : (if urged then { lk with writer := 0 } else lk) = lk1
            have hr1 : lk1.readers = lk.readers := by rw [← hlk1]; split <;> rfl
            have hu1 : lk1.upgr = lk.upgr := by rw [← hlk1]; split <;> rfl
            have hw1 : lk1.writer = if urged then 0 else lk.writer := by rw [← hlk1]; split <;> rfl
            refine inv.put _ _ _ s.limit id hg hl (fun o th a b d => absurd d (hn o th a b)) ?_ ?_ ?_ ?_ ?_ ?_ ?_ ?_
            · rw [hr1]; exact hsame.pos inv.pos
            · intro x hx; simp [hr1, hsame.rc x hx]
            · simp
            · by_cases hu : urged
              · left; simp [hu]
              · rw [hw1]; simp [hu]
                by_cases h0 : lk.writer = 0
                · rcases hsame.writer_zero h0 with h' | h' <;> simp [h']
                · simp [hsame.writer_ne h0]
            · simp
            · simp
            · rw [hw1]
              by_cases hu : urged
              · simp [hu]
              · simp [hu]; intro h0 _; exact hsame.writer_ne h0
            · rw [hu1]; simp; intro _ h0 _; exact hsame.upgr_ne h0
          · rename_i hb
            simp at h; subst h
            exact inv.acquire hg hl hsame hn (.inr rfl) (by simpa using hb)
    · rename_i c urge urged hg
      split at h
      · simp at h
      · rename_i hl; simp only [Bool.not_eq_true] at hl
        split at h
        · simp at h
        · rename_i lk hm
          obtain ⟨hs, hn⟩ := takeMutexCond_spec inv hm
          subst hs
          have hsame := Same.recover s s.lock
          split at h
          · rename_i hok
            simp at h; subst h
            refine inv.finishUp hg hl hsame hn (.inr rfl) ?_
            simp [okUp] at hok
            exact ⟨hok.1.1, by omega, hok.2⟩
          · simp at h; subst h
            generalize recover s.isDead s.lock = lk at *
            generalize hlk0 : (if urged then { lk with writer := 0 } else lk) = lk0
            generalize hlk1 : (if urge then { lk0 with upgr := c } else lk0) = lk1
            have hr1 : lk1.readers = lk.readers := by
              rw [← hlk1, ← hlk0]; split <;> split <;> rfl
            have hu1 : lk1.upgr = if urge then c else lk.upgr := by rw [← hlk1, ← hlk0]; split <;> split <;> rfl
            have hw1 : lk1.writer = if urged then 0 else lk.writer := by rw [← hlk1, ← hlk0]; split <;> split <;> rfl
            refine inv.put _ _ _ s.limit id hg hl (fun o th a b d => absurd d (hn o th a b)) ?_ ?_ ?_ ?_ ?_ ?_ ?_ ?_
            · rw [hr1]; exact hsame.pos inv.pos
            · intro x hx; simp [hr1, hsame.rc x hx]
            · simp
            · by_cases hu : urged
              · left; simp [hu]
              · rw [hw1]; simp [hu]
                by_cases h0 : lk.writer = 0
                · rcases hsame.writer_zero h0 with h' | h' <;> simp [h']
                · simp [hsame.writer_ne h0]
            · simp
            · simp
            · rw [hw1]
              by_cases hu : urged
              · simp [hu]
              · simp [hu]; intro h0 _; exact hsame.writer_ne h0
            · rw [hu1]
              by_cases hue : urge
              · simp [hue]
              · simp [hue]; intro _ h0 _
                by_cases hc : lk.upgr = c
                · left; exact hc
                · right; exact ⟨hsame.upgr_ne h0, hc⟩
    · simp at h
  | upgrade t urge =>
    simp only [RWLock.step] at h
    split at h
    · rename_i c hg
      split at h
      · simp at h
      · rename_i hl; simp only [Bool.not_eq_true] at hl
        split at h
        · simp at h
        · rename_i lk hm
          obtain ⟨hs, hn⟩ := takeMutex_spec inv hm
          split at h
          · simp at h; subst h
            exact inv.abort hg hs hn rfl rfl (.inl rfl)
          · simp at h; subst h
            refine inv.settleUp hg hl ((hs.clearUpgr _).maybe h0 _) hn (.inl ⟨rfl, rfl, ?_⟩)
            intro hue
            exact recover_upgr_zero (by simp [hue]) _
    · simp at h
  | downgrade t b =>
    simp only [RWLock.step] at h
    split at h
    · rename_i c hg
      split at h
      · simp at h
      · rename_i hl; simp only [Bool.not_eq_true] at hl
        obtain ⟨w1, w2⟩ := inv.wr t _ hg hl rfl
        split at h
        · simp at h; subst h
          refine inv.die s.lock (some t) true (inv.cid t _ hg) inv.pos (fun _ _ _ => rfl) id (.inl rfl) (.inl rfl) ?_
          exact .inl w1.symm
        · rename_i hass
          split at h
          · rename_i hadd
            simp [readerAdd, w2, addReaders, readLimit] at hadd
          · rename_i lk hadd
            obtain ⟨p1, p2, p3, p4⟩ := readerAdd_spec hadd inv.pos
            simp at h; subst h
            simp [w2] at hass
            refine inv.put _ _ _ s.limit id hg hl ?_ p1 ?_ ?_ ?_ ?_ ?_ ?_ ?_
            · intro o th a b d
              left
              have := (inv.wr o th a b d).1
              rw [w1] at this; simpa using this.symm
            · intro x hx; cases b <;> simp [p2]
            · split <;> simp
            · left; rfl
            · split <;> simp
            · simp
            · simp
            · cases b <;> simp
              rw [p4, hass.1]; simp
    · simp at h
  | downCheck t =>
    simp only [RWLock.step] at h
    split at h
    · rename_i c hg
      split at h
      · simp at h
      · rename_i hl; simp only [Bool.not_eq_true] at hl
        split at h
        · rename_i hw
          simp at h; subst h
          refine inv.put _ _ _ s.limit id hg hl ?_ inv.pos ?_ ?_ ?_ ?_ ?_ ?_ ?_
          · intro o th a b d; right; exact ⟨rfl, (inv.wr o th a b d).2⟩
          · intro x hx; simp
          · simp
          · simp [hw]
          · simp
          · intro o ho; right
            refine ⟨?_, ho⟩
            intro e; subst e
            obtain ⟨th, m1, m2⟩ := inv.mtx o ho
            rw [hg] at m1; simp at m1; subst m1; simp [hl] at m2
          · simp [hw]
          · intro _ h0 _
            by_cases hc : s.lock.upgr = c
            · left; simp [hc]
            · right; exact ⟨rfl, .inr hc⟩
        · split at h
          · simp at h
          · simp at h; subst h
            exact inv.die s.lock s.mutex true (inv.cid t _ hg) inv.pos (fun _ _ _ => rfl) id (.inl rfl) (.inl rfl) (.inl rfl)
    · simp at h
  | downFinish t =>
    simp only [RWLock.step] at h
    split at h
    · rename_i c hg
      split at h
      · simp at h
      · rename_i hl; simp only [Bool.not_eq_true] at hl
        split at h
        · simp at h
        · rename_i lk hm
          obtain ⟨hs, hn⟩ := takeMutex_spec inv hm
          split at h
          · simp at h; subst h
            exact inv.abort hg hs hn rfl rfl (.inl rfl)
          · simp at h; subst h
            refine inv.put _ _ _ s.limit id hg hl (fun o th a b d => absurd d (hn o th a b)) (hs.pos inv.pos) ?_ ?_ ?_ ?_ ?_ ?_ ?_
            · intro x hx; simp [hs.rc x hx]
            · simp
            · by_cases h0 : lk.writer = 0
              · rcases hs.writer_zero h0 with h' | h' <;> simp [h']
              · simp [hs.writer_ne h0]
            · simp
            · simp
            · intro h0 _; right; exact ⟨hs.writer_ne h0, rfl⟩
            · simp
    · simp at h
  | unlock t =>
    simp only [RWLock.step] at h
    split at h
    · rename_i c hg
      split at h
      · simp at h
      · rename_i hl; simp only [Bool.not_eq_true] at hl
        obtain ⟨w1, w2⟩ := inv.wr t _ hg hl rfl
        split at h
        · simp at h; subst h
          refine inv.die s.lock (some t) true (inv.cid t _ hg) inv.pos (fun _ _ _ => rfl) id (.inl rfl) (.inl rfl) ?_
          exact .inl w1.symm
        · rename_i hass
          simp [w2] at hass
          simp at h; subst h
          refine inv.put _ _ _ s.limit id hg hl ?_ inv.pos ?_ ?_ ?_ ?_ ?_ ?_ ?_
          · intro o th a b d
            left
            have := (inv.wr o th a b d).1
            rw [w1] at this; simpa using this.symm
          · intro x hx; simp
          · simp
          · left; rfl
          · simp
          · simp
          · simp
          · simp [hass.1]
    · rename_i c hg
      split at h
      · simp at h
      · rename_i hl; simp only [Bool.not_eq_true] at hl
        split at h
        · simp at h
        · rename_i lk hm
          obtain ⟨hs, hn⟩ := takeMutex_spec inv hm
          simp at h; subst h
          exact inv.leave hg hl hs hn rfl rfl (.inl rfl)
    · rename_i c hg
      split at h
      · simp at h
      · rename_i hl; simp only [Bool.not_eq_true] at hl
        split at h
        · simp at h
        · rename_i lk hm
          obtain ⟨hs, hn⟩ := takeMutex_spec inv hm
          split at h
          · simp at h; subst h
            exact inv.abort hg hs hn rfl rfl (.inl rfl)
          · simp at h; subst h
            exact inv.leave hg hl (hs.clearUpgr true) hn rfl rfl (.inr rfl)
    · simp at h

theorem LInv.initial (cids : List Nat) (h : ∀ c ∈ cids, c ≠ 0) : LInv (initial cids) := by
  have key : ∀ (t : Nat) (th : Thr), (RWLock.initial cids).ths[t]? = some th → th.st = .idle ∧ th.cid ≠ 0 := by
    intro t th ht
    simp [RWLock.initial] at ht
    obtain ⟨c, h1, h2⟩ := ht
    subst h2
    exact ⟨rfl, h c (List.mem_of_getElem? h1)⟩
  refine ⟨rfl, fun t th ht => (key t th ht).2, ?_, ?_, ?_, ?_, ?_, ?_, ?_, ?_⟩
  · intro p hp; simp [RWLock.initial, Lock.free] at hp
  · intro c _
    simp only [RWLock.initial, Lock.free, nreads, rcount_nil]
    symm; rw [List.countP_eq_zero]
    intro th hth; simp at hth; obtain ⟨_, _, rfl⟩ := hth; simp
  · intro t th ht _ hw; rw [(key t th ht).1] at hw; simp at hw
  · intro t t' th th' ht _ _ _ hw; rw [(key t th ht).1] at hw; simp at hw
  · intro t th ht _ hw; rw [(key t th ht).1] at hw; simp at hw
  · intro o ho; simp [RWLock.initial] at ho
  · intro h; simp [RWLock.initial, Lock.free] at h
  · intro _ h; simp [RWLock.initial, Lock.free] at h

theorem Reach.inv {cids : List Nat} {s : Sys} (hc : ∀ c ∈ cids, c ≠ 0) (h : Reach cids s) : LInv s := by
  induction h with
  | init => exact .initial cids hc
  | step _ hs ih => exact ih.step hs

/-! ### Upgradable holders when no thread takes WRITE_URGE directly (only upgrades may be urged) -/

/-- Schedules without direct WRITE_URGE lock requests. -/
inductive ReachNU (cids : List Nat) : Sys → Prop
  | init : ReachNU cids (initial cids)
  | step {s s' l} : ReachNU cids s → (∀ t, l ≠ .lock t .writeUrge) → step s l = some s' → ReachNU cids s'

theorem ReachNU.reach {cids : List Nat} {s : Sys} (h : ReachNU cids s) : Reach cids s := by
  induction h with
  | init => exact .init
  | step _ _ hs ih => exact .step ih hs

structure UInv (s : Sys) : Prop where
  flag : ∀ (t : Nat) (th : Thr), s.ths[t]? = some th → s.isDead th.cid = false →
    (th.st = .up ∨ th.st = .upDown ∨ ∃ b, th.st = .waitUp false b) → s.lock.upgr = th.cid
  urged : ∀ (t : Nat) (th : Thr), s.ths[t]? = some th → s.isDead th.cid = false → th.st ≠ .waitUp true false
  nourge : ∀ (t : Nat) (th : Thr), s.ths[t]? = some th → s.isDead th.cid = false →
    ∀ m, th.st ≠ .wait m true ∧ th.st ≠ .wait .writeUrge false
  uniq : ∀ (t t' : Nat) (th th' : Thr), s.ths[t]? = some th → s.ths[t']? = some th' → s.isDead th.cid = false →
    s.isDead th'.cid = false → th.st.upgradable = true → th'.st.upgradable = true → t = t'

/-- No live thread other than `t` is an upgradable reader. -/
def NoUp (s : Sys) (t : Nat) : Prop :=
  ∀ (o : Nat) (th : Thr), s.ths[o]? = some th → s.isDead th.cid = false → th.st.upgradable = true → o = t

theorem UInv.put {s : Sys} (u : UInv s) {t c : Nat} {st : St} (lk : Lock) (m : Option Nat) (st' : St) (lim : Bool)
    (hg : s.ths[t]? = some ⟨c, st⟩)
    (ha : (st' = .up ∨ st' = .upDown ∨ ∃ b, st' = .waitUp false b) → lk.upgr = c)
    (hb : st' ≠ .waitUp true false) (hc : ∀ m, st' ≠ .wait m true ∧ st' ≠ .wait .writeUrge false)
    (hd : NoUp s t ∨ st'.upgradable = false ∧ (lk.upgr = s.lock.upgr ∨ s.isDead s.lock.upgr = true)) :
    UInv { RWLock.put s t c lk m st' with limit := lim } where
  flag := by
    intro i th hi hl hst
    simp only [RWLock.put] at hi ⊢
    rw [get_set _ _ _ _ hg] at hi
    split at hi
    · simp at hi; subst hi; exact ha hst
    · rename_i hne
      rcases hd with hd | ⟨h1, h2⟩
      · refine absurd (hd i th hi hl ?_) hne
        rcases hst with h | h | ⟨b, h⟩ <;> rw [h] <;> rfl
      · have hf := u.flag i th hi hl hst
        rcases h2 with h2 | h2
        · rw [h2, hf]
        · rw [hf] at h2; rw [show s.isDead th.cid = false from hl] at h2; simp at h2
  urged := by
    intro i th hi hl
    simp only [RWLock.put] at hi
    rw [get_set _ _ _ _ hg] at hi
    split at hi
    · simp at hi; subst hi; exact hb
    · exact u.urged i th hi hl
  nourge := by
    intro i th hi hl
    simp only [RWLock.put] at hi
    rw [get_set _ _ _ _ hg] at hi
    split at hi
    · simp at hi; subst hi; exact hc
    · exact u.nourge i th hi hl
  uniq := by
    intro i j th th' hi hj hl hl' h1 h2
    simp only [RWLock.put] at hi hj
    rw [get_set _ _ _ _ hg] at hi hj
    split at hi <;> split at hj
    · simp_all
    · simp at hi; subst hi
      rename_i hne
      rcases hd with hd | hd
      · exact absurd (hd j th' hj hl' h2) hne
      · rw [hd.1] at h1; simp at h1
    · simp at hj; subst hj
      rename_i hne _
      rcases hd with hd | hd
      · exact absurd (hd i th hi hl h1) hne
      · rw [hd.1] at h2; simp at h2
    · exact u.uniq i j th th' hi hj hl hl' h1 h2

theorem UInv.die {s : Sys} (u : UInv s) {c : Nat} (lk : Lock) (m : Option Nat) (a : Bool)
    (hu : ∀ (o : Nat) (th : Thr), s.ths[o]? = some th → th.cid ≠ c → s.isDead th.cid = false →
      th.st.upgradable = true → s.lock.upgr = th.cid → lk.upgr = th.cid) :
    UInv { s with lock := lk, mutex := m, dead := c :: s.dead, asserted := a } where
  flag := by
    intro t th hi hd hst; rw [isDead_cons] at hd; simp at hd
    refine hu t th hi hd.1 hd.2 ?_ (u.flag t th hi hd.2 hst)
    rcases hst with h | h | ⟨b, h⟩ <;> rw [h] <;> rfl
  urged := by
    intro t th hi hd; rw [isDead_cons] at hd; simp at hd; exact u.urged t th hi hd.2
  nourge := by
    intro t th hi hd; rw [isDead_cons] at hd; simp at hd; exact u.nourge t th hi hd.2
  uniq := by
    intro t t' th th' hi hj hd hd' h1 h2
    rw [isDead_cons] at hd hd'; simp at hd hd'
    exact u.uniq t t' th th' hi hj hd.2 hd'.2 h1 h2

/-- The upgradable flag is kept unless its owner died; the writer likewise. -/
structure Keep (s : Sys) (a b : Lock) : Prop where
  up : b.upgr = a.upgr ∨ (b.upgr = 0 ∧ s.isDead a.upgr = true)
  wr : b.writer = a.writer ∨ (b.writer = 0 ∧ s.isDead a.writer = true)

theorem Keep.refl (s : Sys) (a : Lock) : Keep s a a := ⟨.inl rfl, .inl rfl⟩
theorem Keep.recover (s : Sys) (a b : Lock) (h0 : s.isDead 0 = false) (h : Keep s a b) :
    Keep s a (recover s.isDead b) := by
  obtain ⟨h1, h2⟩ := h
  constructor
  · simp only [RWLock.recover]
    rcases h1 with h1 | h1
    · rw [h1]; split <;> simp_all
    · right; simp [h1, h0]
  · simp only [RWLock.recover]
    rcases h2 with h2 | h2
    · rw [h2]; split <;> simp_all
    · right; simp [h2, h0]

theorem Keep.maybe (s : Sys) (a b : Lock) (h0 : s.isDead 0 = false) (h : Keep s a b) (x : Bool) :
    Keep s a (if x then RWLock.recover s.isDead b else b) := by
  split
  · exact h.recover _ _ _ h0
  · exact h

theorem takeMutex_keep {s : Sys} (h0 : s.isDead 0 = false) {lk : Lock} (h : takeMutex s = some lk) :
    Keep s s.lock lk := by
  unfold takeMutex at h
  split at h
  · simp at h; subst h; exact .refl _ _
  · split at h
    · simp at h
    · split at h
      · simp at h; subst h; exact (Keep.refl _ _).recover _ _ _ h0
      · simp at h

theorem Keep.abort_up {s : Sys} {lk : Lock} (h : Keep s s.lock lk) (c : Nat) :
    ∀ (o : Nat) (th : Thr), s.ths[o]? = some th → th.cid ≠ c → s.isDead th.cid = false →
      th.st.upgradable = true → s.lock.upgr = th.cid → lk.upgr = th.cid := by
  intro o th _ _ hd _ hx
  rcases h.up with h | h
  · rw [h, hx]
  · rw [hx, hd] at h; simp at h

/-- With the flags clear nobody alive is an upgradable reader. -/
theorem UInv.noUp {s : Sys} (u : UInv s) (inv : LInv s) {lk : Lock} (hk : Keep s s.lock lk) (t : Nat)
    (h1 : lk.upgr = 0) (h2 : lk.writer = 0) : NoUp s t := by
  intro o th hi hl hst
  exfalso
  have hc := inv.cid o th hi
  have hup : (th.st = .up ∨ th.st = .upDown ∨ ∃ b, th.st = .waitUp false b) → False := by
    intro h
    have := u.flag o th hi hl h
    rcases hk.up with h' | h'
    · exact hc (by rw [← this, ← h', h1])
    · rw [this, hl] at h'; simp at h'
  cases hs : th.st with
  | up => exact hup (.inl hs)
  | upDown => exact hup (.inr (.inl hs))
  | waitUp a b =>
    cases a with
    | false => exact hup (.inr (.inr ⟨b, hs⟩))
    | true =>
      cases b with
      | false => exact u.urged o th hi hl hs
      | true =>
        have := inv.wst o th hi hl (by rw [hs]; rfl)
        rcases hk.wr with h' | h'
        · exact hc (by rw [← this, ← h', h2])
        · rw [this, hl] at h'; simp at h'
  | _ => rw [hs] at hst; simp [St.upgradable] at hst

theorem Keep.other {s : Sys} {lk : Lock} (h : Keep s s.lock lk) :
    lk.upgr = s.lock.upgr ∨ s.isDead s.lock.upgr = true := by
  rcases h.up with h | h
  · exact .inl h
  · exact .inr h.2

theorem UInv.acquire {s : Sys} (u : UInv s) (inv : LInv s) {t c : Nat} {st : St} {lk : Lock} {m : Mode}
    (hg : s.ths[t]? = some ⟨c, st⟩) (hk : Keep s s.lock lk) (hm : m ≠ .writeUrge)
    (hb : busy m false lk = false) : UInv (RWLock.acquire s t c m false lk) := by
  unfold RWLock.acquire
  cases m with
  | write =>
    dsimp only
    split
    · exact u.die _ _ _ (hk.abort_up c)
    · exact u.put _ _ _ s.limit hg (by simp) (by simp) (by simp) (.inr ⟨rfl, hk.other⟩)
  | writeUrge => exact absurd rfl hm
  | readUpgr =>
    simp [busy] at hb
    have hn := u.noUp inv hk t hb.1.2 hb.2
    dsimp only
    split
    · exact u.put _ _ _ true hg (by simp) (by simp) (by simp) (.inl hn)
    · rename_i lk' h
      have : lk'.upgr = c := by
        unfold readerAdd at h; split at h
        · simp at h
        · simp at h; rw [← h]
      exact u.put _ _ _ s.limit hg (fun _ => this) (by simp) (by simp) (.inl hn)
  | read =>
    dsimp only
    split
    · exact u.put _ _ _ true hg (by simp) (by simp) (by simp) (.inr ⟨rfl, hk.other⟩)
    · rename_i lk' h
      have : lk'.upgr = lk.upgr := by
        unfold readerAdd at h; split at h
        · simp at h
        · simp at h; rw [← h]
      exact u.put _ _ _ s.limit hg (by simp) (by simp) (by simp) (.inr ⟨rfl, by rw [this]; exact hk.other⟩)

theorem UInv.settle {s : Sys} (u : UInv s) (inv : LInv s) {t c : Nat} {st : St} {lk : Lock} {m : Mode}
    (hg : s.ths[t]? = some ⟨c, st⟩) (hk : Keep s s.lock lk) (hm : m ≠ .writeUrge) :
    UInv (RWLock.settle s t c m false lk) := by
  unfold RWLock.settle
  split
  · simp only [hm, false_and, if_false]
    exact u.put _ _ _ s.limit hg (by simp) (by simp) (by simp [hm]) (.inr ⟨rfl, hk.other⟩)
  · rename_i hb
    exact u.acquire inv hg hk hm (by simpa using hb)

/-- The upgrading thread is the only live upgradable reader. -/
theorem UInv.only {s : Sys} (u : UInv s) {t c : Nat} {st : St} (hg : s.ths[t]? = some ⟨c, st⟩)
    (hl : s.isDead c = false) (hst : st.upgradable = true) : NoUp s t :=
  fun o th hi hd h => u.uniq o t th _ hi hg hd hl h hst

theorem NoUp.die {s : Sys} {t c : Nat} {st : St} {lk : Lock} (hn : NoUp s t) (hg : s.ths[t]? = some ⟨c, st⟩) :
    ∀ (o : Nat) (th : Thr), s.ths[o]? = some th → th.cid ≠ c → s.isDead th.cid = false →
      th.st.upgradable = true → s.lock.upgr = th.cid → lk.upgr = th.cid := by
  intro o th hi hc hd hu _
  have := hn o th hi hd hu
  subst this
  rw [hg] at hi; simp at hi; subst hi; exact absurd rfl hc

theorem UInv.finishUp {s : Sys} (u : UInv s) {t c : Nat} {st : St} {lk : Lock} {urge urged : Bool}
    (hg : s.ths[t]? = some ⟨c, st⟩) (hl : s.isDead c = false) (hst : st.upgradable = true) :
    UInv (RWLock.finishUp s t c urge urged lk) := by
  have hn := u.only hg hl hst
  unfold RWLock.finishUp
  split
  · exact u.die _ _ _ (hn.die hg)
  · split
    · rename_i hcond _ _
      refine u.put _ _ _ s.limit hg ?_ (by simp) (by simp) (.inl hn)
      intro _
      cases urge
      · simp at hcond; simp [hcond.1]
      · simp
    · exact u.put _ _ _ s.limit hg (by simp) (by simp) (by simp) (.inl hn)

theorem UInv.settleUp {s : Sys} (u : UInv s) {t c : Nat} {st : St} {lk : Lock} {urge urged : Bool}
    (hg : s.ths[t]? = some ⟨c, st⟩) (hl : s.isDead c = false) (hst : st.upgradable = true)
    (hf : urge = false → lk.upgr = c) (hu : urge = true → busyUp urged lk = true → lk.writer = 0 ∨ urged = true) :
    UInv (RWLock.settleUp s t c urge urged lk) := by
  have hn := u.only hg hl hst
  unfold RWLock.settleUp
  split
  · rename_i hb
    split
    · exact u.put _ _ _ s.limit hg (by simp_all) (by simp) (by simp) (.inl hn)
    · rename_i hx
      refine u.put _ _ _ s.limit hg ?_ ?_ (by simp) (.inl hn)
      · simp; intro h; exact hf h
      · simp; intro h
        rcases hu h hb with h' | h'
        · exact absurd ⟨h, h'⟩ hx
        · exact h'
  · exact u.finishUp hg hl hst

theorem UInv.step {s s' : Sys} {l : Label} (u : UInv s) (inv : LInv s) (hlab : ∀ t, l ≠ .lock t .writeUrge)
    (h : RWLock.step s l = some s') : UInv s' := by
  have h0 := inv.dead0
  cases l with
  | crash c =>
    simp only [RWLock.step] at h
    split at h
    · simp at h
    · simp at h; subst h
      exact u.die s.lock s.mutex s.asserted (fun _ _ _ _ _ _ h => h)
  | lock t m =>
    simp only [RWLock.step] at h
    split at h
    · rename_i c hg
      split at h
      · simp at h
      · rename_i hl; simp only [Bool.not_eq_true] at hl
        split at h
        · simp at h
        · rename_i lk hm
          simp at h; subst h
          refine u.settle inv hg ((takeMutex_keep h0 hm).maybe _ _ _ h0 _) ?_
          intro e; exact hlab t (by rw [e])
    · simp at h
  | wake t =>
    simp only [RWLock.step] at h
    split at h
    · rename_i c m urged hg
      split at h
      · simp at h
      · rename_i hl; simp only [Bool.not_eq_true] at hl
        split at h
        · simp at h
        · rename_i lk hm
          obtain ⟨hs, hn⟩ := takeMutexCond_spec inv hm
          simp at h; subst h
          have hw := u.nourge t _ hg hl m
          have hu : urged = false := by cases urged <;> simp_all
          subst hu
          exact u.settle inv hg (hs ▸ .refl _ _) (by intro e; simp [e] at hw)
    · rename_i c urge urged hg
      split at h
      · simp at h
      · rename_i hl; simp only [Bool.not_eq_true] at hl
        split at h
        · simp at h
        · rename_i lk hm
          obtain ⟨hs, hn⟩ := takeMutexCond_spec inv hm
          simp at h; subst h; subst hs
          refine u.settleUp hg hl rfl ?_ ?_
          · intro e; subst e; exact u.flag t _ hg hl (.inr (.inr ⟨urged, rfl⟩))
          · intro e _; right
            have := u.urged t _ hg hl
            cases urged <;> simp_all
    · simp at h
  | timeout t =>
    simp only [RWLock.step] at h
    split at h
    · rename_i c m urged hg
      split at h
      · simp at h
      · rename_i hl; simp only [Bool.not_eq_true] at hl
        split at h
        · simp at h
        · rename_i lk hm
          obtain ⟨hs, hn⟩ := takeMutexCond_spec inv hm
          subst hs
          have hw := u.nourge t _ hg hl m
          have hu : urged = false := by cases urged <;> simp_all
          subst hu
          have hk := (Keep.refl s s.lock).recover _ _ _ h0
          split at h
          · simp at h; subst h
            exact u.put _ _ _ s.limit hg (by simp) (by simp) (by simp) (.inr ⟨rfl, hk.other⟩)
          · rename_i hb
            simp at h; subst h
            exact u.acquire inv hg hk (by intro e; simp [e] at hw) (by simpa using hb)
    · rename_i c urge urged hg
      split at h
      · simp at h
      · rename_i hl; simp only [Bool.not_eq_true] at hl
        split at h
        · simp at h
        · rename_i lk hm
          obtain ⟨hs, hn⟩ := takeMutexCond_spec inv hm
          subst hs
          have hk := (Keep.refl s s.lock).recover _ _ _ h0
          split at h
          · simp at h; subst h
            exact u.finishUp hg hl rfl
          · simp at h; subst h
            generalize recover s.isDead s.lock = lk at *
            generalize hlk0 : (if urged then { lk with writer := 0 } else lk) = lk0
            generalize hlk1 : (if urge then { lk0 with upgr := c } else lk0) = lk1
            have hu1 : lk1.upgr = if urge then c else lk.upgr := by rw [← hlk1, ← hlk0]; split <;> split <;> rfl
            refine u.put _ _ _ s.limit hg ?_ (by simp) (by simp) (.inl (u.only hg hl rfl))
            intro _
            rw [hu1]
            cases urge
            · have := u.flag t _ hg hl (.inr (.inr ⟨urged, rfl⟩))
              simp
              rcases hk.up with h | h
              · rw [h, this]
              · rw [this, hl] at h; simp at h
            · simp
    · simp at h
  | upgrade t urge =>
    simp only [RWLock.step] at h
    split at h
    · rename_i c hg
      split at h
      · simp at h
      · rename_i hl; simp only [Bool.not_eq_true] at hl
        split at h
        · simp at h
        · rename_i lk hm
          obtain ⟨hs, hn⟩ := takeMutex_spec inv hm
          have hk := takeMutex_keep h0 hm
          have hno := u.only hg hl rfl
          split at h
          · simp at h; subst h
            exact u.die _ _ _ (hno.die hg)
          · rename_i hup
            simp at hup
            simp at h; subst h
            refine u.settleUp hg hl rfl ?_ ?_
            · intro e; subst e
              simp only [Bool.false_eq_true, if_false]
              split
              · simp [recover, hup, hl]
              · exact hup
            · intro e hb
              left
              subst e
              simp only [if_true] at hb ⊢
              -- nobody alive is a writer, so recovering clears a stale one
              have hdead : lk.writer = 0 ∨ s.isDead lk.writer = true := by
                by_cases hw : lk.writer = 0
                · exact .inl hw
                · right
                  have hwe : lk.writer = s.lock.writer := hs.writer_ne hw
                  cases hd : s.isDead lk.writer with
                  | true => rfl
                  | false =>
                    exfalso
                    rw [hwe] at hw hd
                    obtain ⟨o, sto, g1, g2⟩ := inv.wback hw hd
                    cases sto with
                    | wr => exact hn o _ g1 hd rfl
                    | wait m' b =>
                      simp at g2; subst g2
                      exact (u.nourge o _ g1 hd m').1 rfl
                    | waitUp a b =>
                      have := hno o _ g1 hd rfl
                      subst this
                      rw [hg] at g1; simp at g1
                    | _ => simp at g2
              split
              · rcases hdead with h | h <;> simp [recover, h]
              · rename_i hnb
                simp only [hnb] at hb
                simp at hb
                simp [busyUp, count0] at hb hnb
                rcases hdead with h | h
                · exact h
                · exact hnb.2
    · simp at h
  | downgrade t b =>
    simp only [RWLock.step] at h
    split at h
    · rename_i c hg
      split at h
      · simp at h
      · rename_i hl; simp only [Bool.not_eq_true] at hl
        obtain ⟨w1, w2⟩ := inv.wr t _ hg hl rfl
        have hno : NoUp s t := by
          intro o th hi hd hst
          exfalso
          have hr : th.st.reads = true := by
            cases hs : th.st <;> rw [hs] at hst <;> simp [St.upgradable] at hst <;> rfl
          have := rcount_pos_of_reads inv (t := o) (c := th.cid) (st := th.st) hi hd (Same.refl s s.lock) hr
          rw [w2] at this; simp at this
        split at h
        · simp at h; subst h
          exact u.die _ _ _ (hno.die hg)
        · split at h
          · rename_i hadd
            simp [readerAdd, w2, addReaders, readLimit] at hadd
          · rename_i lk hadd
            simp at h; subst h
            refine u.put _ _ _ s.limit hg ?_ ?_ ?_ (.inl hno)
            · cases b <;> simp
            · cases b <;> simp
            · cases b <;> simp
    · simp at h
  | downCheck t =>
    simp only [RWLock.step] at h
    split at h
    · rename_i c hg
      split at h
      · simp at h
      · rename_i hl; simp only [Bool.not_eq_true] at hl
        split at h
        · simp at h; subst h
          exact u.put _ _ _ s.limit hg (fun _ => u.flag t _ hg hl (.inl rfl)) (by simp) (by simp)
            (.inl (u.only hg hl rfl))
        · split at h
          · simp at h
          · simp at h; subst h
            exact u.die s.lock s.mutex true (fun _ _ _ _ _ _ h => h)
    · simp at h
  | downFinish t =>
    simp only [RWLock.step] at h
    split at h
    · rename_i c hg
      split at h
      · simp at h
      · rename_i hl; simp only [Bool.not_eq_true] at hl
        have hno := u.only hg hl rfl
        split at h
        · simp at h
        · split at h
          · simp at h; subst h
            exact u.die _ _ _ (hno.die hg)
          · simp at h; subst h
            exact u.put _ _ _ s.limit hg (by simp) (by simp) (by simp) (.inl hno)
    · simp at h
  | unlock t =>
    simp only [RWLock.step] at h
    split at h
    · rename_i c hg
      split at h
      · simp at h
      · rename_i hl; simp only [Bool.not_eq_true] at hl
        split at h
        · simp at h; subst h
          exact u.die _ _ _ (fun _ _ _ _ _ _ h => h)
        · simp at h; subst h
          exact u.put _ _ _ s.limit hg (by simp) (by simp) (by simp) (.inr ⟨rfl, .inl rfl⟩)
    · rename_i c hg
      split at h
      · simp at h
      · rename_i hl; simp only [Bool.not_eq_true] at hl
        split at h
        · simp at h
        · rename_i lk hm
          have hk := takeMutex_keep h0 hm
          simp at h; subst h
          refine u.put _ _ _ s.limit hg (by simp) (by simp) (by simp) (.inr ⟨rfl, ?_⟩)
          have : ((readerDel lk c).getD lk).upgr = lk.upgr := by
            unfold readerDel; split <;> rfl
          show ((readerDel lk c).getD lk).upgr = _ ∨ _
          rw [this]; exact hk.other
    · rename_i c hg
      split at h
      · simp at h
      · rename_i hl; simp only [Bool.not_eq_true] at hl
        have hno := u.only hg hl rfl
        split at h
        · simp at h
        · split at h
          · simp at h; subst h
            exact u.die _ _ _ (hno.die hg)
          · simp at h; subst h
            exact u.put _ _ _ s.limit hg (by simp) (by simp) (by simp) (.inl hno)
    · simp at h

theorem ReachNU.uinv {cids : List Nat} {s : Sys} (hc : ∀ c ∈ cids, c ≠ 0) (h : ReachNU cids s) : UInv s := by
  induction h with
  | init =>
    have key : ∀ (t : Nat) (th : Thr), (RWLock.initial cids).ths[t]? = some th → th.st = .idle := by
      intro t th ht
      simp [RWLock.initial] at ht
      obtain ⟨c, h1, h2⟩ := ht
      subst h2; rfl
    refine ⟨?_, ?_, ?_, ?_⟩
    · intro t th ht _ h; rw [key t th ht] at h; simp at h
    · intro t th ht _; rw [key t th ht]; simp
    · intro t th ht _; rw [key t th ht]; simp
    · intro t t' th th' ht _ _ _ h; rw [key t th ht] at h; simp [St.upgradable] at h
  | step hr hl hs ih => exact ih.step (hr.reach.inv hc) hl hs

/-! ### The fixed-size arrays -/

/-- Number of used slots following slot `i`, common.c 2262-2265. -/
def moveCount : List (Nat × Nat) → Nat
  | [] => 0
  | p :: ps => if p.1 = 0 then 0 else moveCount ps + 1

/-- `sr_rwlock_reader_del_` on the arrays `readers`/`read_count` of 16 slots, common.c 2251-2291: decrement; if it
became 0, remember the last used slot, clear it, `memmove` the slots after `i` down by one and put the last one
to its new place. -/
def readerDelArr (arr : List (Nat × Nat)) (i : Nat) : List (Nat × Nat) :=
  match arr[i]? with
  | none => arr
  | some p =>
    if p.2 - 1 ≠ 0 then arr.set i (p.1, p.2 - 1)
    else
      let m := moveCount (arr.drop (i + 1))
      match arr[i + m]? with
      | none => arr
      | some last =>
        let arr1 := arr.set (i + m) (0, 0)
        if m = 0 then arr1
        else
          let moved := (arr1.drop (i + 1)).take m
          let arr2 := arr1.take i ++ moved ++ arr1.drop (i + m)
          arr2.set (i + m - 1) last

/-- Zero-padded arrays. -/
def pad (rs : List (Nat × Nat)) : List (Nat × Nat) := rs ++ List.replicate (readLimit - rs.length) (0, 0)

/-- Search of `sr_rwlock_reader_del`, common.c 2306-2311. -/
def findReader (arr : List (Nat × Nat)) (c : Nat) : Option Nat :=
  arr.findIdx? (fun p => p.1 == 0 || p.1 == c)

/-- `sr_rwlock_reader_del` on the arrays, common.c 2300-2319. -/
def delArr (arr : List (Nat × Nat)) (c : Nat) : Option (List (Nat × Nat)) :=
  match findReader arr c with
  | none => none
  | some i =>
    match arr[i]? with
    | none => none
    | some p => if p.1 ≠ c then none else some (readerDelArr arr i)

theorem moveCount_append (b : List (Nat × Nat)) (n : Nat) (h : ∀ p ∈ b, p.1 ≠ 0) :
    moveCount (b ++ List.replicate n (0, 0)) = b.length := by
  induction b with
  | nil => cases n <;> simp [List.replicate_succ, moveCount]
  | cons p b ih =>
    simp [moveCount, h p (by simp)]
    exact ih (fun q hq => h q (by simp [hq]))

theorem readerDelArr_mid (a b : List (Nat × Nat)) (p : Nat × Nat) (n : Nat) (h : ∀ q ∈ b, q.1 ≠ 0) :
    readerDelArr (a ++ p :: b ++ List.replicate n (0, 0)) a.length =
      if p.2 - 1 ≠ 0 then a ++ (p.1, p.2 - 1) :: b ++ List.replicate n (0, 0)
      else a ++ b ++ List.replicate (n + 1) (0, 0) := by
  unfold readerDelArr
  have hg : (a ++ p :: b ++ List.replicate n (0, 0))[a.length]? = some p := by simp
  rw [hg]
  dsimp only
  split
  · simp
  · have hd : (a ++ p :: b ++ List.replicate n (0, 0)).drop (a.length + 1) = b ++ List.replicate n (0, 0) := by
      simp [List.drop_append]
    rw [hd, moveCount_append b n h]
    rcases List.eq_nil_or_concat b with hb | ⟨b', q, hb⟩
    · subst hb
      simp [List.replicate_succ]
    · subst hb
      have hlen : (b' ++ [q]).length = b'.length + 1 := by simp
      have e1 : a ++ p :: (b' ++ [q]) ++ List.replicate n (0, 0)
          = (a ++ p :: b') ++ q :: List.replicate n (0, 0) := by simp
      have hl : a.length + (b' ++ [q]).length = (a ++ p :: b').length := by simp
      have hl1 : (a ++ p :: b').length - 1 = (a ++ b').length := by simp
      rw [List.concat_eq_append, e1, hl]
      simp only [List.getElem?_append_right (Nat.le_refl _), Nat.sub_self, List.getElem?_cons_zero]
      rw [if_neg (by simp)]
      have e2 : ((a ++ p :: b') ++ q :: List.replicate n (0, 0)).set (a ++ p :: b').length (0, 0)
          = (a ++ p :: b') ++ (0, 0) :: List.replicate n (0, 0) := by
        rw [List.set_append_right _ _ (Nat.le_refl _)]; simp
      rw [e2]
      have e3 : (((a ++ p :: b') ++ (0, 0) :: List.replicate n (0, 0)).drop (a.length + 1)).take (b' ++ [q]).length
          = b' ++ [(0, 0)] := by
        have hda : List.drop (a.length + 1) a = [] := List.drop_eq_nil_of_le (by omega)
        have htb : List.take (b'.length + 1) b' = b' := List.take_of_length_le (by omega)
        simp [List.drop_append, List.take_append, hda, htb]
      have e4 : ((a ++ p :: b') ++ (0, 0) :: List.replicate n (0, 0)).take a.length = a := by simp
      have e5 : ((a ++ p :: b') ++ (0, 0) :: List.replicate n (0, 0)).drop (a ++ p :: b').length
          = (0, 0) :: List.replicate n (0, 0) := by
        rw [List.drop_left]
      rw [e3, e4, e5, hl1]
      have e6 : a ++ (b' ++ [(0, 0)]) ++ (0, 0) :: List.replicate n (0, 0)
          = (a ++ b') ++ (0, 0) :: (0, 0) :: List.replicate n (0, 0) := by simp
      rw [e6, List.set_append_right _ _ (Nat.le_refl _)]
      simp [List.replicate_succ]

/-- Shape of a successful list removal. -/
theorem delReaders_shape (rs : List (Nat × Nat)) (c : Nat) :
    (delReaders rs c = none ∧ ∀ p ∈ rs, p.1 ≠ c) ∨
    ∃ a b n, rs = a ++ (c, n) :: b ∧ (∀ p ∈ a, p.1 ≠ c) ∧
      delReaders rs c = some (if n - 1 ≠ 0 then a ++ (c, n - 1) :: b else a ++ b) := by
  induction rs with
  | nil => left; simp [delReaders]
  | cons p rs ih =>
    obtain ⟨c', n⟩ := p
    by_cases hc : c' = c
    · right
      subst hc
      refine ⟨[], rs, n, by simp, by simp, ?_⟩
      simp [delReaders]; split <;> simp_all
    · rcases ih with ⟨h1, h2⟩ | ⟨a, b, n', h1, h2, h3⟩
      · left
        constructor
        · simp [delReaders, hc, h1]
        · intro p hp; simp at hp; rcases hp with rfl | hp
          · exact hc
          · exact h2 p hp
      · right
        refine ⟨(c', n) :: a, b, n', by simp [h1], ?_, ?_⟩
        · intro p hp; simp at hp; rcases hp with rfl | hp
          · exact hc
          · exact h2 p hp
        · simp only [delReaders, hc, if_false, h3]
          split <;> simp

/-- The removal on the 16-slot arrays is the removal on the list: the arrays stay a packed, zero-padded prefix. -/
theorem delArr_pad (rs : List (Nat × Nat)) (c : Nat) (hl : rs.length ≤ readLimit) (hc : c ≠ 0)
    (hnz : ∀ p ∈ rs, p.1 ≠ 0) : delArr (pad rs) c = (delReaders rs c).map pad := by
  rcases delReaders_shape rs c with ⟨h1, h2⟩ | ⟨a, b, n, h1, h2, h3⟩
  · rw [h1]
    unfold delArr findReader pad
    rw [List.findIdx?_append]
    have hf : rs.findIdx? (fun p => p.1 == 0 || p.1 == c) = none := by
      rw [List.findIdx?_eq_none_iff]; intro p hp; simp [hnz p hp, h2 p hp]
    rw [hf]
    cases hk : readLimit - rs.length with
    | zero => simp
    | succ k =>
      simp [List.replicate_succ, List.findIdx?_cons]
      intro h; exact absurd h.symm hc
  · rw [h3]
    subst h1
    have hf : findReader (pad (a ++ (c, n) :: b)) c = some a.length := by
      unfold findReader pad
      rw [List.findIdx?_append, List.findIdx?_append]
      have hfa : a.findIdx? (fun p => p.1 == 0 || p.1 == c) = none := by
        rw [List.findIdx?_eq_none_iff]; intro p hp
        simp [hnz p (by simp [hp]), h2 p hp]
      rw [hfa]
      simp [List.findIdx?_cons]
    unfold delArr
    rw [hf]
    have hg : (pad (a ++ (c, n) :: b))[a.length]? = some (c, n) := by simp [pad]
    dsimp only
    rw [hg]
    simp only [ne_eq, not_true_eq_false, if_false, Option.map_some, Option.some.injEq]
    rw [pad, readerDelArr_mid a b (c, n) _ (fun q hq => hnz q (by simp [hq]))]
    simp at hl
    dsimp only
    split
    · simp [pad]
    · simp only [pad, List.length_append, List.length_cons]
      rw [show readLimit - (a.length + (b.length + 1)) + 1 = readLimit - (a.length + b.length) by omega]

/-! ### Array bounds, and a dead upgradable owner is also a reader -/

/-- Array shape: at most 16 slots, counts 1..255 (`uint8_t`), non-zero and pairwise different CIDs. -/
structure Shape (rs : List (Nat × Nat)) : Prop where
  len : rs.length ≤ readLimit
  cnt : ∀ p ∈ rs, 1 ≤ p.2 ∧ p.2 ≤ u8max
  nz : ∀ p ∈ rs, p.1 ≠ 0
  nodup : (rs.map (·.1)).Nodup

structure BInv (s : Sys) : Prop where
  shape : Shape s.lock.readers
  udead : s.limit = false → s.lock.upgr ≠ 0 → s.isDead s.lock.upgr = true → rcount s.lock.readers s.lock.upgr ≠ 0

theorem rcount_eq_zero {rs : List (Nat × Nat)} {c : Nat} (h : ∀ p ∈ rs, p.1 ≠ c) : rcount rs c = 0 := by
  induction rs with
  | nil => rfl
  | cons p rs ih =>
    simp [h p (by simp), ih (fun q hq => h q (by simp [hq]))]

theorem addReaders_mem {rs rs' : List (Nat × Nat)} {c room : Nat} (h : addReaders rs c room = some rs') :
    ∀ x, x ∈ rs'.map (·.1) ↔ x ∈ rs.map (·.1) ∨ x = c := by
  fun_induction addReaders rs c room generalizing rs' with
  | case1 => simp at h
  | case2 => simp at h; subst h; simp
  | case3 => simp at h
  | case4 => simp at h
  | case5 n rs c room h1 h2 => simp at h; subst h; intro x; simp; grind
  | case6 => simp at h
  | case7 c' n rs c room h1 h2 rs1 heq ih =>
    simp at h; subst h
    intro x; have := ih heq x; simp at this ⊢; grind

theorem Shape.add {rs rs' : List (Nat × Nat)} {c room : Nat} (hs : Shape rs) (hr : rs.length ≤ room)
    (hroom : room ≤ readLimit) (hc : c ≠ 0) (h : addReaders rs c room = some rs') :
    rs'.length ≤ room ∧ Shape rs' := by
  fun_induction addReaders rs c room generalizing rs' with
  | case1 => simp at h
  | case2 c room h0 =>
    simp at h; subst h
    exact ⟨by simp; omega, ⟨by simp; omega, by simp [u8max], by simp [hc], by simp⟩⟩
  | case3 => simp at h
  | case4 => simp at h
  | case5 n rs c room h1 h2 =>
    simp at h; subst h
    refine ⟨hr, ⟨?_, ?_, ?_, hs.nodup⟩⟩
    · exact hs.len
    · intro p hp; simp at hp; rcases hp with rfl | hp
      · have := hs.cnt (c, n) (by simp)
        simp at this ⊢; omega
      · exact hs.cnt p (by simp [hp])
    · intro p hp; simp at hp; rcases hp with rfl | hp
      · exact hc
      · exact hs.nz p (by simp [hp])
  | case6 => simp at h
  | case7 c' n rs c room h1 h2 rs1 heq ih =>
    simp at h; subst h
    have hnd := hs.nodup
    simp only [List.map_cons, List.nodup_cons] at hnd
    simp only [List.length_cons] at hr
    have hs' : Shape rs := ⟨by have := hs.len; simp at this; omega, fun p hp => hs.cnt p (by simp [hp]),
      fun p hp => hs.nz p (by simp [hp]), hnd.2⟩
    obtain ⟨i1, i2⟩ := ih hs' (by omega) (by omega) hc heq
    refine ⟨by simp; omega, ⟨by simp; omega, ?_, ?_, ?_⟩⟩
    · intro p hp; simp at hp; rcases hp with rfl | hp
      · exact hs.cnt _ (by simp)
      · exact i2.cnt p hp
    · intro p hp; simp at hp; rcases hp with rfl | hp
      · exact hs.nz _ (by simp)
      · exact i2.nz p hp
    · simp only [List.map_cons, List.nodup_cons]
      refine ⟨?_, i2.nodup⟩
      intro hm
      rcases (addReaders_mem heq c').1 hm with h | h
      · exact hnd.1 h
      · exact h2 h

theorem Shape.del {rs rs' : List (Nat × Nat)} {c : Nat} (hs : Shape rs) (h : delReaders rs c = some rs') :
    Shape rs' := by
  rcases delReaders_shape rs c with ⟨h1, _⟩ | ⟨a, b, n, h1, h2, h3⟩
  · simp [h1] at h
  · rw [h3] at h; simp only [Option.some.injEq] at h
    subst h1 h
    have hl := hs.len
    simp at hl
    split
    · refine ⟨by simp; omega, ?_, ?_, ?_⟩
      · intro p hp; simp at hp
        rcases hp with hp | rfl | hp
        · exact hs.cnt p (by simp [hp])
        · have := hs.cnt (c, n) (by simp); simp at this ⊢; omega
        · exact hs.cnt p (by simp [hp])
      · intro p hp; simp at hp
        rcases hp with hp | rfl | hp
        · exact hs.nz p (by simp [hp])
        · exact hs.nz (c, n) (by simp)
        · exact hs.nz p (by simp [hp])
      · have := hs.nodup; simpa using this
    · refine ⟨by simp; omega, ?_, ?_, ?_⟩
      · intro p hp; simp at hp
        exact hs.cnt p (by simp; grind)
      · intro p hp; simp at hp
        exact hs.nz p (by simp; grind)
      · have := hs.nodup
        simp only [List.map_append, List.map_cons] at this ⊢
        exact this.sublist (by simp)

theorem Shape.filter {rs : List (Nat × Nat)} (hs : Shape rs) (f : Nat × Nat → Bool) : Shape (rs.filter f) where
  len := Nat.le_trans (List.length_filter_le _ _) hs.len
  cnt p hp := hs.cnt p (List.mem_filter.1 hp).1
  nz p hp := hs.nz p (List.mem_filter.1 hp).1
  nodup := hs.nodup.sublist (List.Sublist.map _ List.filter_sublist)

/-- What a live thread of `c` may have done to the lock, seen from dead connections and the array bounds. -/
structure Evo (s : Sys) (a b : Lock) : Prop where
  shape : Shape a.readers → Shape b.readers
  dead : ∀ x, x ≠ 0 → s.isDead x = true → b.upgr = x → a.upgr = x ∧ rcount b.readers x = rcount a.readers x

theorem Evo.refl (s : Sys) (a : Lock) : Evo s a a := ⟨id, fun _ _ _ h => ⟨h, rfl⟩⟩
theorem Evo.trans {s : Sys} {a b c : Lock} (h1 : Evo s a b) (h2 : Evo s b c) : Evo s a c where
  shape h := h2.shape (h1.shape h)
  dead x h0 hx h := by
    obtain ⟨p, q⟩ := h2.dead x h0 hx h
    obtain ⟨p', q'⟩ := h1.dead x h0 hx p
    exact ⟨p', q.trans q'⟩
theorem Evo.recover (s : Sys) (a : Lock) : Evo s a (RWLock.recover s.isDead a) where
  shape h := by simp only [RWLock.recover, recoverReaders_eq]; exact h.filter _
  dead x h0 hx h := by
    exfalso
    simp only [RWLock.recover] at h
    split at h
    · exact h0 h.symm
    · rename_i hn; rw [h] at hn; exact hn ⟨h0, hx⟩
theorem Evo.writer (s : Sys) (a : Lock) (w : Nat) : Evo s a { a with writer := w } := ⟨id, fun _ _ _ h => ⟨h, rfl⟩⟩
theorem Evo.upgr (s : Sys) (a : Lock) (u : Nat) (h : s.isDead u = false) : Evo s a { a with upgr := u } :=
  ⟨id, fun x _ hx e => by simp at e; rw [e, hx] at h; simp at h⟩
theorem Evo.add {s : Sys} {a b : Lock} {c : Nat} (hc : c ≠ 0) (hl : s.isDead c = false)
    (h : readerAdd a c = some b) (hp : Pos a.readers) : Evo s a b := by
  unfold readerAdd at h
  split at h
  · simp at h
  · rename_i rs hr
    simp at h; subst h
    refine ⟨fun hs => (hs.add hs.len (Nat.le_refl _) hc hr).2, ?_⟩
    intro x _ hx e
    refine ⟨e, ?_⟩
    have := (addReaders_spec _ _ _ _ hr hp).2 x
    rw [this, if_neg (by intro e; rw [e, hx] at hl; simp at hl)]; rfl
theorem Evo.del {s : Sys} {a b : Lock} {c : Nat} (hl : s.isDead c = false)
    (h : readerDel a c = some b) (hp : Pos a.readers) : Evo s a b := by
  unfold readerDel at h
  split at h
  · simp at h
  · rename_i rs hr
    simp at h; subst h
    refine ⟨fun hs => hs.del hr, ?_⟩
    intro x _ hx e
    refine ⟨e, ?_⟩
    have := (delReaders_spec _ _ _ hr hp).2 x
    rw [if_neg (by intro e; rw [e, hx] at hl; simp at hl)] at this; exact this
theorem Evo.maybe {s : Sys} {a lk : Lock} (h : Evo s a lk) (b : Bool) :
    Evo s a (if b then RWLock.recover s.isDead lk else lk) := by
  split
  · exact h.trans (.recover _ _)
  · exact h

theorem takeMutex_evo {s : Sys} {lk : Lock} (h : takeMutex s = some lk) : Evo s s.lock lk := by
  unfold takeMutex at h
  split at h
  · simp at h; subst h; exact .refl _ _
  · split at h
    · simp at h
    · split at h
      · simp at h; subst h; exact .recover _ _
      · simp at h

theorem BInv.put {s : Sys} (b : BInv s) {t c : Nat} {lk : Lock} {m : Option Nat} {st' : St} (lim : Bool)
    (he : Evo s s.lock lk) (hlim : lim = false → s.limit = false) :
    BInv { RWLock.put s t c lk m st' with limit := lim } where
  shape := he.shape b.shape
  udead := by
    intro hl h0 hd
    obtain ⟨p, q⟩ := he.dead lk.upgr h0 hd rfl
    show rcount lk.readers lk.upgr ≠ 0
    rw [q, ← p]
    exact b.udead (hlim hl) (by rw [p]; exact h0) (by rw [p]; exact hd)

/-- Crash of connection `c`. -/
theorem BInv.die {s : Sys} (b : BInv s) (inv : LInv s) {c : Nat} (lk : Lock) (m : Option Nat) (a : Bool)
    (he : Evo s s.lock lk) (hs : Same s s.lock lk) :
    BInv { s with lock := lk, mutex := m, dead := c :: s.dead, asserted := a } where
  shape := he.shape b.shape
  udead := by
    intro hl h0 hd
    rw [isDead_cons] at hd
    show rcount lk.readers lk.upgr ≠ 0
    cases hx : s.isDead lk.upgr with
    | true =>
      obtain ⟨p, q⟩ := he.dead lk.upgr h0 hx rfl
      rw [q, ← p]
      exact b.udead hl (by rw [p]; exact h0) (by rw [p]; exact hx)
    | false =>
      have hu := hs.upgr_ne h0
      obtain ⟨o, st, g1, g2⟩ := inv.uback hl (by rw [← hu]; exact h0) (by rw [← hu]; exact hx)
      rw [← hu] at g1
      refine rcount_pos_of_reads inv g1 hx hs ?_
      rcases g2 with g | g | ⟨_, g⟩ <;> simp [g]

theorem BInv.acquire {s : Sys} (b : BInv s) (inv : LInv s) {t c : Nat} {lk : Lock} {m : Mode} {urged : Bool}
    (hc : c ≠ 0) (hl : s.isDead c = false) (he : Evo s s.lock lk) (hs : Same s s.lock lk)
    (hw : urged = true → lk.writer = c) : BInv (RWLock.acquire s t c m urged lk) := by
  have hp := hs.pos inv.pos
  unfold RWLock.acquire
  cases m with
  | write =>
    dsimp only
    split
    · exact b.die inv _ _ _ he hs
    · exact b.put s.limit (he.trans (.writer _ _ _)) id
  | writeUrge =>
    dsimp only
    split
    · exact b.die inv _ _ _ he hs
    · generalize hlk1 : (if urged then lk else { lk with writer := c }) = lk1
      have hw1 : lk1.writer = c := by
        rw [← hlk1]; split
        · rename_i h; exact hw h
        · rfl
      have he1 : Evo s s.lock lk1 := by
        rw [← hlk1]; split
        · exact he
        · exact he.trans (.writer _ _ _)
      rw [if_neg (by simp [hw1])]
      exact b.put s.limit he1 id
  | readUpgr =>
    dsimp only
    have he1 := he.trans (Evo.upgr s lk c hl)
    split
    · exact b.put true he1 (by simp)
    · rename_i lk' h
      exact b.put s.limit (he1.trans (.add hc hl h hp)) id
  | read =>
    dsimp only
    split
    · exact b.put true he (by simp)
    · rename_i lk' h
      exact b.put s.limit (he.trans (.add hc hl h hp)) id

theorem BInv.settle {s : Sys} (b : BInv s) (inv : LInv s) {t c : Nat} {lk : Lock} {m : Mode} {urged : Bool}
    (hc : c ≠ 0) (hl : s.isDead c = false) (he : Evo s s.lock lk) (hs : Same s s.lock lk)
    (hw : urged = true → lk.writer = c) : BInv (RWLock.settle s t c m urged lk) := by
  unfold RWLock.settle
  split
  · split
    · exact b.put s.limit (he.trans (.writer _ _ _)) id
    · exact b.put s.limit he id
  · exact b.acquire inv hc hl he hs hw

theorem BInv.finishUp {s : Sys} (b : BInv s) (inv : LInv s) {t c : Nat} {lk : Lock} {urge urged : Bool}
    (hl : s.isDead c = false) (he : Evo s s.lock lk) (hs : Same s s.lock lk) :
    BInv (RWLock.finishUp s t c urge urged lk) := by
  have hp := hs.pos inv.pos
  unfold RWLock.finishUp
  split
  · exact b.die inv _ _ _ he hs
  · split
    · refine b.put s.limit ?_ id
      refine he.trans ⟨id, ?_⟩
      intro x h0 hx e
      dsimp only at e ⊢
      split at e
      · rw [e, hx] at hl; simp at hl
      · exact ⟨e, rfl⟩
    · rename_i lk' h
      refine b.put s.limit ?_ id
      refine (he.trans (.del hl h hp)).trans ⟨id, ?_⟩
      intro x h0 hx e
      dsimp only at e ⊢
      split at e
      · exact ⟨e, rfl⟩
      · exact absurd e.symm h0

theorem BInv.settleUp {s : Sys} (b : BInv s) (inv : LInv s) {t c : Nat} {lk : Lock} {urge urged : Bool}
    (hl : s.isDead c = false) (he : Evo s s.lock lk) (hs : Same s s.lock lk) :
    BInv (RWLock.settleUp s t c urge urged lk) := by
  unfold RWLock.settleUp
  split
  · split
    · exact b.put s.limit (he.trans (.writer _ _ _)) id
    · exact b.put s.limit he id
  · exact b.finishUp inv hl he hs

theorem Evo.clearUpgr {s : Sys} {a lk : Lock} (h0 : s.isDead 0 = false) (h : Evo s a lk) (b : Bool) :
    Evo s a (if b then { lk with upgr := 0 } else lk) := by
  split
  · exact h.trans (.upgr _ _ _ h0)
  · exact h

theorem Evo.delD {s : Sys} {a lk : Lock} {c : Nat} (h : Evo s a lk) (hl : s.isDead c = false) (hp : Pos lk.readers) :
    Evo s a ((readerDel lk c).getD lk) := by
  cases hd : readerDel lk c with
  | none => exact h
  | some lk' => exact h.trans (.del hl hd hp)

theorem BInv.step {s s' : Sys} {l : Label} (b : BInv s) (inv : LInv s) (h : RWLock.step s l = some s') : BInv s' := by
  have h0 := inv.dead0
  cases l with
  | crash c =>
    simp only [RWLock.step] at h
    split at h
    · simp at h
    · simp at h; subst h
      exact b.die inv s.lock s.mutex s.asserted (.refl _ _) (.refl _ _)
  | lock t m =>
    simp only [RWLock.step] at h
    split at h
    · rename_i c hg
      split at h
      · simp at h
      · rename_i hl; simp only [Bool.not_eq_true] at hl
        split at h
        · simp at h
        · rename_i lk hm
          simp at h; subst h
          exact b.settle inv (inv.cid t _ hg) hl ((takeMutex_evo hm).maybe _)
            ((takeMutex_spec inv hm).1.maybe h0 _) (by simp)
    · simp at h
  | wake t =>
    simp only [RWLock.step] at h
    split at h
    · rename_i c m urged hg
      split at h
      · simp at h
      · rename_i hl; simp only [Bool.not_eq_true] at hl
        split at h
        · simp at h
        · rename_i lk hm
          obtain ⟨hs, hn⟩ := takeMutexCond_spec inv hm
          simp at h; subst h; subst hs
          exact b.settle inv (inv.cid t _ hg) hl (.refl _ _) (.refl _ _)
            (fun hu => inv.wst t _ hg hl (by simp [hu]))
    · rename_i c urge urged hg
      split at h
      · simp at h
      · rename_i hl; simp only [Bool.not_eq_true] at hl
        split at h
        · simp at h
        · rename_i lk hm
          obtain ⟨hs, hn⟩ := takeMutexCond_spec inv hm
          simp at h; subst h; subst hs
          exact b.settleUp inv hl (.refl _ _) (.refl _ _)
    · simp at h
  | timeout t =>
    simp only [RWLock.step] at h
    split at h
    · rename_i c m urged hg
      split at h
      · simp at h
      · rename_i hl; simp only [Bool.not_eq_true] at hl
        split at h
        · simp at h
        · rename_i lk hm
          obtain ⟨hs, hn⟩ := takeMutexCond_spec inv hm
          subst hs
          have hsame := Same.recover s s.lock
          have hev := Evo.recover s s.lock
          split at h
          · simp at h; subst h
            generalize recover s.isDead s.lock = lk at *
            have he1 : Evo s s.lock (if urged then { lk with writer := 0 } else lk) := by
              split
              · exact hev.trans (.writer _ _ _)
              · exact hev
            exact b.put s.limit he1 id
          · simp at h; subst h
            exact b.acquire inv (inv.cid t _ hg) hl hev hsame
              (fun hu => hsame.writer_urged inv hg hl (by simp [hu]))
    · rename_i c urge urged hg
      split at h
      · simp at h
      · rename_i hl; simp only [Bool.not_eq_true] at hl
        split at h
        · simp at h
        · rename_i lk hm
          obtain ⟨hs, hn⟩ := takeMutexCond_spec inv hm
          subst hs
          have hsame := Same.recover s s.lock
          have hev := Evo.recover s s.lock
          split at h
          · simp at h; subst h
            exact b.finishUp inv hl hev hsame
          · simp at h; subst h
            generalize recover s.isDead s.lock = lk at *
            generalize hlk0 : (if urged then { lk with writer := 0 } else lk) = lk0
            have he0 : Evo s s.lock lk0 := by
              rw [← hlk0]; split
              · exact hev.trans (.writer _ _ _)
              · exact hev
            have he1 : Evo s s.lock (if urge then { lk0 with upgr := c } else lk0) := by
              split
              · exact he0.trans (.upgr _ _ _ hl)
              · exact he0
            exact b.put s.limit he1 id
    · simp at h
  | upgrade t urge =>
    simp only [RWLock.step] at h
    split at h
    · rename_i c hg
      split at h
      · simp at h
      · rename_i hl; simp only [Bool.not_eq_true] at hl
        split at h
        · simp at h
        · rename_i lk hm
          obtain ⟨hs, hn⟩ := takeMutex_spec inv hm
          have hev := takeMutex_evo hm
          split at h
          · simp at h; subst h
            exact b.die inv _ _ _ hev hs
          · simp at h; subst h
            exact b.settleUp inv hl ((hev.clearUpgr h0 _).maybe _) ((hs.clearUpgr _).maybe h0 _)
    · simp at h
  | downgrade t bb =>
    simp only [RWLock.step] at h
    split at h
    · rename_i c hg
      split at h
      · simp at h
      · rename_i hl; simp only [Bool.not_eq_true] at hl
        split at h
        · simp at h; subst h
          exact b.die inv _ _ _ (.refl _ _) (.refl _ _)
        · split at h
          · simp at h; subst h
            exact ⟨b.shape, by simp⟩
          · rename_i lk hadd
            simp at h; subst h
            refine b.put s.limit ?_ id
            refine (Evo.add (inv.cid t _ hg) hl hadd inv.pos).trans ⟨id, ?_⟩
            intro x h0 hx e
            dsimp only at e ⊢
            split at e
            · rw [e, hx] at hl; simp at hl
            · exact ⟨e, rfl⟩
    · simp at h
  | downCheck t =>
    simp only [RWLock.step] at h
    split at h
    · rename_i c hg
      split at h
      · simp at h
      · rename_i hl; simp only [Bool.not_eq_true] at hl
        split at h
        · simp at h; subst h
          exact b.put s.limit (.refl _ _) id
        · split at h
          · simp at h
          · simp at h; subst h
            exact b.die inv s.lock s.mutex true (.refl _ _) (.refl _ _)
    · simp at h
  | downFinish t =>
    simp only [RWLock.step] at h
    split at h
    · rename_i c hg
      split at h
      · simp at h
      · rename_i hl; simp only [Bool.not_eq_true] at hl
        split at h
        · simp at h
        · rename_i lk hm
          obtain ⟨hs, hn⟩ := takeMutex_spec inv hm
          have hev := takeMutex_evo hm
          split at h
          · simp at h; subst h
            exact b.die inv _ _ _ hev hs
          · simp at h; subst h
            exact b.put s.limit (hev.trans (.upgr _ _ _ h0)) id
    · simp at h
  | unlock t =>
    simp only [RWLock.step] at h
    split at h
    · rename_i c hg
      split at h
      · simp at h
      · rename_i hl; simp only [Bool.not_eq_true] at hl
        split at h
        · simp at h; subst h
          exact b.die inv _ _ _ (.refl _ _) (.refl _ _)
        · simp at h; subst h
          exact b.put s.limit (.writer _ _ _) id
    · rename_i c hg
      split at h
      · simp at h
      · rename_i hl; simp only [Bool.not_eq_true] at hl
        split at h
        · simp at h
        · rename_i lk hm
          simp at h; subst h
          exact b.put s.limit ((takeMutex_evo hm).delD hl ((takeMutex_spec inv hm).1.pos inv.pos)) id
    · rename_i c hg
      split at h
      · simp at h
      · rename_i hl; simp only [Bool.not_eq_true] at hl
        split at h
        · simp at h
        · rename_i lk hm
          obtain ⟨hs, hn⟩ := takeMutex_spec inv hm
          split at h
          · simp at h; subst h
            exact b.die inv _ _ _ (takeMutex_evo hm) hs
          · simp at h; subst h
            exact b.put s.limit (((takeMutex_evo hm).trans (.upgr _ _ _ h0)).delD hl (hs.pos inv.pos)) id
    · simp at h

theorem Reach.binv {cids : List Nat} {s : Sys} (hc : ∀ c ∈ cids, c ≠ 0) (h : Reach cids s) : BInv s := by
  induction h with
  | init => exact ⟨⟨by simp [initial, Lock.free], by simp [initial, Lock.free], by simp [initial, Lock.free],
      by simp [initial, Lock.free]⟩, by simp [initial, Lock.free]⟩
  | step hr hs ih => exact ih.step (hr.inv hc) hs

end Verif.RWLock
