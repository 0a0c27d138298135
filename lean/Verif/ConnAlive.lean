/-!
# Live and dead connections

Model of the lock files of connections: creating a connection, finishing it, checking whether a connection is alive, and crashes of processes at
any moment.

Code modelled (/repo/src):
* `shm_main.c` 178–276 `sr_shmmain_conn_check`
* `shm_main.c` 285–344 `sr_shmmain_conn_new_lockfile`, 346–396 `sr_shmmain_conn_list_add`
* `shm_main.c` 398–449 `sr_shmmain_conn_list_del`
* `sysrepo.c` 240–246 of `sr_connect` (the identifier and the call), 326–355 (a later failure), 391–398 of `sr_disconnect`
* `common.c` 5478–5494 of `sr_conn_info` (which identifiers it checks)

POSIX record locks: a lock on a file belongs to a process; a process does not see its own locks as conflicting (`F_GETLK`); closing any descriptor of
the file releases the locks of the process on it; a crash releases all of them.

Simplifications:
* every system call and every section with the list lock is one step, the threads of all the processes run interleaved;
* the new file (`.lock.new`) is always a new one; its creation, locking and renaming do not fail (the errors end the connecting);
* the counter of identifiers does not wrap; it begins with 1 with a new main SHM, and lock files of an earlier time (before a reboot) may exist;
* PIDs and the connection list of a forked child are left out.
-/

namespace Verif.ConnAlive

abbrev Pid := Nat
abbrev Tid := Nat
abbrev Cid := Nat
abbrev Ino := Nat

/-- Where a thread is. The flag `g` of a check is not in the program: whether the connection was already finished (or its process crashed) when
the check began. -/
inductive Pc where
  | idle
  /-- `sr_connect`: the identifier is allocated (sysrepo.c 241) -/
  | new (c : Cid)
  /-- the new file exists (shm_main.c 298) -/
  | made (c : Cid) (i : Ino)
  /-- it is locked (319) -/
  | locked (c : Cid) (i : Ino)
  /-- it has its name (328) -/
  | named (c : Cid) (i : Ino)
  /-- it is in the list of the process (373–374); `sr_connect` continues -/
  | joined (c : Cid)
  /-- `sr_disconnect`: removed from the list and closed (shm_main.c 412–434) -/
  | removed (c : Cid)
  /-- the lock file could not be removed, the call fails (443–445) -/
  | discErr (c : Cid)
  /-- the check begins -/
  | chk (c : Cid) (g : Bool)
  /-- it is not in the list of the process (199–216) -/
  | notOwn (c : Cid) (g : Bool)
  /-- the lock file is open (222) -/
  | opened (c : Cid) (i : Ino) (g : Bool)
  /-- the lock was tested, `free`: nobody else has it (241) -/
  | tested (c : Cid) (i : Ino) (free : Bool) (g : Bool)
  /-- closed, the file is to be removed (258) -/
  | unlinking (c : Cid) (g : Bool)
  /-- the result -/
  | answer (c : Cid) (alive : Bool) (g : Bool)
deriving DecidableEq, Repr

structure State where
  /-- `new_sr_cid` -/
  next : Cid
  /-- the lock files by their names -/
  path : Cid → Option Ino
  fresh : Ino
  /-- who has the lock on a file -/
  lock : Ino → Option Pid
  /-- `conn_proc.list_head` of every process with `lock_fd` -/
  list : Pid → Cid → Option Ino
  dead : Pid → Bool
  pc : Tid → Pc
  /-- not in the program: connections that were in a list, and those that are -/
  was : Cid → Bool
  est : Cid → Bool
  /-- not in the program: connections given to the caller of `sr_connect` -/
  user : Cid → Bool
  /-- not in the program: the lock file of a connection -/
  ino : Cid → Option Ino

/-- Lock files `old` of an earlier time exist. -/
def init (old : Cid → Bool) : State where
  next := 1
  path := fun c => if old c then some (2 * c + 1) else none
  fresh := 0
  lock := fun _ => none
  list := fun _ _ => none
  dead := fun _ => false
  pc := fun _ => .idle
  was := fun _ => false
  est := fun _ => false
  user := fun _ => false
  ino := fun _ => none

def upd {α : Type} (f : Nat → α) (k : Nat) (a : α) : Nat → α := fun i => if i = k then a else f i

inductive Ev where
  /-- a thread calls `sr_connect` -/
  | connect (t : Tid)
  /-- a thread calls `sr_disconnect` -/
  | disconnect (t : Tid) (c : Cid)
  /-- a thread checks a connection -/
  | check (t : Tid) (c : Cid)
  /-- a thread does its next step; `ok`: the rest of `sr_connect` succeeds -/
  | run (t : Tid) (ok : Bool)
  | crash (p : Pid)

/-- The number of the `k`-th new file (`open` with `O_CREAT`, shm_main.c 298). New files have even numbers, the files of an earlier time odd ones. -/
def inoOf (k : Nat) : Ino := 2 * k

/-- One step of a thread of process `p`, in the order of the program: shm_main.c 298, 319, 328, 373–374 (connecting), sysrepo.c 324–354 (the rest of it),
shm_main.c 443–445 (disconnecting), 199–216, 222–234, 241, 245, 258 (checking). -/
def run (s : State) (p : Pid) (t : Tid) (ok : Bool) : Option State :=
  match s.pc t with
  | .idle | .discErr _ => none
  | .new c => some { s with pc := upd s.pc t (.made c (inoOf s.fresh)), fresh := s.fresh + 1 }
  | .made c i => some { s with pc := upd s.pc t (.locked c i), lock := upd s.lock i (some p) }
  | .locked c i => some { s with pc := upd s.pc t (.named c i), path := upd s.path c (some i), ino := upd s.ino c (some i) }
  | .named c i => some { s with
      pc := upd s.pc t (.joined c)
      list := upd s.list p (upd (s.list p) c (some i))
      was := upd s.was c true
      est := upd s.est c true }
  | .joined c => some { s with pc := upd s.pc t .idle, user := if ok then upd s.user c true else s.user }
  | .removed c =>
    match s.path c with
    | none => some { s with pc := upd s.pc t (.discErr c) }
    | some _ => some { s with pc := upd s.pc t .idle, path := upd s.path c none }
  | .chk c g =>
    match s.list p c with
    | some _ => some { s with pc := upd s.pc t (.answer c true g) }
    | none => some { s with pc := upd s.pc t (.notOwn c g) }
  | .notOwn c g =>
    match s.path c with
    | none => some { s with pc := upd s.pc t (.answer c false g) }
    | some i => some { s with pc := upd s.pc t (.opened c i g) }
  | .opened c i g => some { s with pc := upd s.pc t (.tested c i (s.lock i == none || s.lock i == some p) g) }
  | .tested c i free g => some { s with
      lock := if s.lock i = some p then upd s.lock i none else s.lock
      pc := upd s.pc t (if free then .unlinking c g else .answer c true g) }
  | .unlinking c g => some { s with path := upd s.path c none, pc := upd s.pc t (.answer c false g) }
  | .answer _ _ _ => some { s with pc := upd s.pc t .idle }

/-- One step: the beginning of `sr_connect` (sysrepo.c 241), of `sr_shmmain_conn_list_del` (shm_main.c 405–437) and of `sr_shmmain_conn_check`
(shm_main.c 178), a next step of a thread, a crash. `ow` are the processes of the threads. -/
def step (ow : Tid → Pid) (s : State) : Ev → Option State
  | .connect t =>
    if s.dead (ow t) = false ∧ s.pc t = .idle then some { s with pc := upd s.pc t (.new s.next), next := s.next + 1 } else none
  | .disconnect t c =>
    if s.dead (ow t) = false ∧ s.pc t = .idle then
      match s.list (ow t) c with
      | none => none
      | some i => some { s with
          pc := upd s.pc t (.removed c)
          list := upd s.list (ow t) (upd (s.list (ow t)) c none)
          lock := if s.lock i = some (ow t) then upd s.lock i none else s.lock
          est := upd s.est c false }
    else none
  | .check t c =>
    if s.dead (ow t) = false ∧ s.pc t = .idle then some { s with pc := upd s.pc t (.chk c (s.was c && !s.est c)) } else none
  | .run t ok => if s.dead (ow t) = false then run s (ow t) t ok else none
  | .crash p => some { s with
      dead := upd s.dead p true
      list := upd s.list p (fun _ => none)
      lock := fun i => if s.lock i = some p then none else s.lock i
      est := fun c => s.est c && (s.list p c).isNone }

/-- States after any steps allowed by `A`. -/
inductive Reach (ow : Tid → Pid) (old : Cid → Bool) (A : State → Ev → Prop) : State → Prop where
  | start : Reach ow old A (init old)
  | next {s e s'} : Reach ow old A s → A s e → step ow s e = some s' → Reach ow old A s'

/-- Only connections that exist or existed are checked: the identifiers found in shared memory (owners of locks and subscriptions). `sr_conn_info`
checks also those being created, it finds them by the names of the files (common.c 5478–5492). -/
def Known (s : State) : Ev → Prop
  | .check _ c => s.was c = true
  | _ => True

/-! ## Specification -/

/-- The connection is in use: some process that runs has it. -/
def Live (s : State) (c : Cid) : Prop := ∃ p i, s.dead p = false ∧ s.list p c = some i

/-- Steps one after another. -/
def exec (ow : Tid → Pid) : State → List Ev → Option State
  | s, [] => some s
  | s, e :: r => (step ow s e).bind fun s' => exec ow s' r

end Verif.ConnAlive
