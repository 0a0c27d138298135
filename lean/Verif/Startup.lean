/-!
# Starting: who creates the shared memory

Model of connecting: the lock that serialises it, the creation and initialisation of the shared memory by the first connection, failures, disconnecting and
crashes of processes at any moment.

Code modelled (/repo/src):
* `shm_main.c` 107–176 `sr_shmmain_createlock_open`, `sr_shmmain_createlock`, `sr_shmmain_createunlock`
* `shm_main.c` 451–545 `sr_shmmain_open`
* `sysrepo.c` 71–145 `sr_conn_new` (the lock file), 152–192 `sr_conn_free` (closing it), 194–356 `sr_connect`, 391–398 of `sr_disconnect`
* `shm_mod.c` 45–110 `sr_shmmod_open` (module SHM zeroed if the main SHM was created), 776 `sr_shmmod_store_modules`

The lock of connecting is a mutex of the process and then a POSIX record lock of the process on a file that every connection has open: closing any
descriptor of the file releases the lock of the process.

Simplifications:
* a thread has at most one connection, all threads of all processes run interleaved, every line of the list of places below is one step;
* the main SHM and the extended SHM are created and removed together and are one file here; the module SHM is never removed, only zeroed and stored;
* reading the internal module data, storing the modules and initialising the datastores (sysrepo.c 248–322) is one step that succeeds or fails;
* the other file contents, the identifiers of connections (see `ConnAlive`) and the context are left out.
-/

namespace Verif.Startup

abbrev Pid := Nat
abbrev Tid := Nat
abbrev Id := Nat

/-- Where a thread is. A result `some m`: connected with the main SHM `m`; `none`: the call fails. `cr`: it created the main SHM. -/
inductive Pc where
  | idle
  /-- waits for the mutex (shm_main.c 139) -/
  | waitM
  /-- has the mutex, waits for the record lock (147) -/
  | haveM
  /-- has both -/
  | crit
  /-- created the main SHM, the header is not written yet (478) -/
  | made (m : Id)
  /-- the main SHM is open (sysrepo.c 226) -/
  | opened (m : Id) (cr : Bool)
  /-- at the label `cleanup_unlock` (sysrepo.c 326) -/
  | leaving (r : Option Id) (cr : Bool)
  /-- the record lock is released (shm_main.c 168) -/
  | left (r : Option Id) (cr : Bool)
  /-- failed, the mutex is released too (175); now `sr_conn_free` -/
  | closing (cr : Bool)
  /-- failed, the created files are to be removed (sysrepo.c 334–350) -/
  | removing
  /-- `sr_connect` succeeded -/
  | connected (m : Id)
deriving DecidableEq, Repr

structure State where
  /-- `conn_proc.create_lock` of every process -/
  mutex : Pid → Option Tid
  /-- the record lock -/
  reclock : Option Pid
  /-- the main SHM file by its name -/
  main : Option Id
  fresh : Id
  /-- its header is written: version and repository path -/
  header : Id → Bool
  /-- its initialisation was finished -/
  ready : Id → Bool
  /-- the module SHM has all the modules -/
  mods : Bool
  dead : Pid → Bool
  pc : Tid → Pc

/-- After a boot: no main SHM. -/
def init : State where
  mutex := fun _ => none
  reclock := none
  main := none
  fresh := 0
  header := fun _ => false
  ready := fun _ => false
  mods := false
  dead := fun _ => false
  pc := fun _ => .idle

def upd {α : Type} (f : Nat → α) (k : Nat) (a : α) : Nat → α := fun i => if i = k then a else f i

inductive Ev where
  /-- a thread calls `sr_connect`; the connection structure was made (sysrepo.c 214) -/
  | connect (t : Tid)
  /-- a thread calls `sr_connect` and making the structure fails after the lock file was opened (sysrepo.c 134–145) -/
  | connNewFails (t : Tid)
  /-- a thread calls `sr_disconnect` (sysrepo.c 178–180, 398) -/
  | disconnect (t : Tid)
  /-- a thread does its next step; `ok`: the rest of connecting succeeds -/
  | run (t : Tid) (ok : Bool)
  | crash (p : Pid)

/-- Closing a descriptor of the lock file, by process `p` (sysrepo.c 135, 179): the record lock of the process is released. -/
def close (l : Option Pid) (p : Pid) : Option Pid := if l = some p then none else l

/-- One step of a thread of process `p`: shm_main.c 139, 147 (locking), 464–515 (opening), sysrepo.c 229–322, shm_main.c 168, 175 (unlocking), sysrepo.c 332–350. -/
def run (s : State) (p : Pid) (t : Tid) (ok : Bool) : Option State :=
  match s.pc t with
  | .idle | .connected _ => none
  | .waitM => if s.mutex p = none then some { s with mutex := upd s.mutex p (some t), pc := upd s.pc t .haveM } else none
  | .haveM => if s.reclock = none ∨ s.reclock = some p then some { s with reclock := some p, pc := upd s.pc t .crit } else none
  | .crit =>
    match s.main with
    | none => some { s with main := some s.fresh, fresh := s.fresh + 1, pc := upd s.pc t (.made s.fresh) }
    | some m => some { s with pc := upd s.pc t (if s.header m then .opened m false else .leaving none false) }
  | .made m => some { s with header := upd s.header m true, mods := false, pc := upd s.pc t (.opened m true) }
  | .opened m cr =>
    if ok then
      if cr then some { s with mods := true, ready := upd s.ready m true, pc := upd s.pc t (.leaving (some m) true) }
      else some { s with pc := upd s.pc t (.leaving (some m) false) }
    else some { s with pc := upd s.pc t (.leaving none cr) }
  | .leaving r cr => some { s with reclock := close s.reclock p, pc := upd s.pc t (.left r cr) }
  | .left r cr => some { s with
      mutex := upd s.mutex p none
      pc := upd s.pc t (match r with
        | some m => .connected m
        | none => .closing cr) }
  | .closing cr => some { s with reclock := close s.reclock p, pc := upd s.pc t (if cr then .removing else .idle) }
  | .removing => some { s with main := none, pc := upd s.pc t .idle }

/-- One step; `ow` are the processes of the threads. -/
def step (ow : Tid → Pid) (s : State) : Ev → Option State
  | .connect t => if s.dead (ow t) = false ∧ s.pc t = .idle then some { s with pc := upd s.pc t .waitM } else none
  | .connNewFails t => if s.dead (ow t) = false ∧ s.pc t = .idle then some { s with reclock := close s.reclock (ow t) } else none
  | .disconnect t =>
    if s.dead (ow t) = false then
      match s.pc t with
      | .connected _ => some { s with reclock := close s.reclock (ow t), pc := upd s.pc t .idle }
      | _ => none
    else none
  | .run t ok => if s.dead (ow t) = false then run s (ow t) t ok else none
  | .crash p => some { s with dead := upd s.dead p true, reclock := close s.reclock p }

/-- States after any steps allowed by `A`, from `s0`. -/
inductive Reach (ow : Tid → Pid) (A : State → Ev → Prop) (s0 : State) : State → Prop where
  | start : Reach ow A s0 s0
  | next {s e s'} : Reach ow A s0 s → A s e → step ow s e = some s' → Reach ow A s0 s'

/-! ## Specification -/

/-- The thread is between locking and unlocking. -/
def Inside (s : State) (t : Tid) : Prop :=
  s.pc t = .crit ∨ (∃ m, s.pc t = .made m) ∨ (∃ m cr, s.pc t = .opened m cr) ∨ ∃ r cr, s.pc t = .leaving r cr

/-- The thread created the main SHM and has not finished its initialisation. -/
def Initialising (s : State) (t : Tid) : Prop := (∃ m, s.pc t = .made m) ∨ ∃ m, s.pc t = .opened m true

/-- The connection works with the main SHM everybody opens, which is initialised. -/
def Good (s : State) (m : Id) : Prop := s.main = some m ∧ s.ready m = true ∧ s.mods = true

/-- No descriptor of the lock file is closed in a process while another thread of it is inside. -/
def CloseApart (ow : Tid → Pid) (s : State) : Ev → Prop
  | .connNewFails t | .disconnect t => ∀ u, ow u = ow t → ¬ Inside s u
  | .run t _ => (∃ cr, s.pc t = .closing cr) → ∀ u, ow u = ow t → ¬ Inside s u
  | _ => True

/-- The initialisation neither fails nor is interrupted by a crash. -/
def InitDone (ow : Tid → Pid) (s : State) : Ev → Prop
  | .run t ok => (∃ m, s.pc t = .opened m true) → ok = true
  | .crash p => ∀ t, ow t = p → ¬ Initialising s t
  | _ => True

/-- Steps one after another. -/
def exec (ow : Tid → Pid) : State → List Ev → Option State
  | s, [] => some s
  | s, e :: r => (step ow s e).bind fun s' => exec ow s' r

end Verif.Startup
