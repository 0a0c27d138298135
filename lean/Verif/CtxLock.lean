/-
The schema context of connections and the locks guarding it.

Models `/repo/src/context_change.c` lines 42-132 (`sr_lycc_lock`), 134-147 (`sr_lycc_relock`), 149-168
(`sr_lycc_unlock`), `/repo/src/common.c` lines 3308-3340 (`sr_conn_ctx_switch`) and 3342-3385
(`sr_conn_ds_init`), and of `/repo/src/sysrepo.c` the parts that take, use and release the context:
407-425 and 3348-3362 (acquire a context or data, release it), 614-640 (`sr_session_start`), 1406-1595
(`_sr_install_modules`), 1755-1872 (`sr_remove_modules`).

An agent is one call of the API that takes the context lock, together with the context or data it returned, until
these are released. Any number of agents belongs to any number of connections; they interleave at the steps of
`sr_lycc_lock`.

Simplifications: the context lock and the remap lock of a connection are lists of the agents holding them for
reading, at most one agent holding the upgradable lock and at most one writer (the implementation of these locks
is the subject of `RWLock`). The real lock counts the readers of every connection, it does not know which thread
took which of them: releasing a lock that is not held releases the lock of another agent of that connection, and
only of it (common.c 2300-2318). A module is its name, revision and the name of one datastore plugin; features and
dependencies between modules are left out; installation of a module of the same name is an error. The lock of the
internal data (`lydmods_lock`) is left out, it is taken only together with the upgradable context lock.
-/
namespace Verif.CtxLock

/-- An installed module: the parts of `sr_mod_t`, shm_types.h, used here. -/
structure Mod where
  name : Nat
  rev : Nat
  plug : Nat
deriving DecidableEq, Repr

/-- The modules of a libyang context: names and revisions, that is all `ly_ctx_get_modules_hash` covers. -/
abbrev Schema := List (Nat × Nat)

/-- A content ID. It is an `uint32_t` in the code; here it is a list of numbers, so that hash functions without
collisions are among those considered. -/
abbrev Cid := List Nat

/-- The schema of a list of installed modules, `sr_shmmod_ctx_load_modules`, shm_mod.c 1036-1081. -/
def sch (ms : List Mod) : Schema := ms.map (fun m => (m.name, m.rev))

/-- What the call does once it has the context. -/
inductive Kind where
  /-- Acquire a context or data (READ lock). -/
  | read
  /-- Install a module; the second part is the schema the new context was loaded with (READ_UPGR lock). -/
  | install (m : Mod) (s : Schema)
  /-- Remove a module of this name (READ_UPGR lock). -/
  | remove (name : Nat)
deriving DecidableEq, Repr

/-- Where a call is. -/
inductive Pc where
  | idle
  /-- `_sr_install_modules` loaded the current modules into the new context, sysrepo.c 1425-1432, no lock is held. -/
  | loaded (m : Mod) (s : Schema)
  /-- The context lock was taken, context_change.c 51-54. -/
  | gotCtx (k : Kind)
  /-- The remap READ lock was taken, 56-61. -/
  | gotRemap (k : Kind)
  /-- The content ID differs, the remap READ lock was released, 65-67. -/
  | wantW (k : Kind)
  /-- The remap WRITE lock was taken, 69-74. -/
  | gotW (k : Kind)
  /-- The context was switched, 101. -/
  | switched (k : Kind)
  /-- The lock call returned and the caller uses this context. -/
  | hold (h : Nat)
  /-- The upgradable lock is held by a module change. -/
  | upd (k : Kind)
  /-- The module change upgraded to WRITE. -/
  | write (k : Kind)
  /-- `sr_lycc_lock` failed in a function that unlocks in spite of it, sysrepo.c 621-623, 4639-4641. -/
  | failed
deriving DecidableEq, Repr

/-- A connection, `sr_conn_ctx_t`. -/
structure Conn where
  /-- `content_id`. -/
  cid : Cid
  /-- `ly_ctx`, a number identifying the allocated context. -/
  ctx : Nat
  /-- Datastore plugins with `init` set, their `conn_init_cb` was called. -/
  inited : List Nat
deriving DecidableEq, Repr

/-- Constants of a run. -/
structure Cfg where
  /-- The connection of an agent. -/
  own : Nat → Nat
  /-- `ly_ctx_get_modules_hash`. -/
  hash : Schema → Cid

/-- State of all the processes. -/
structure State where
  /-- Installed modules (mod SHM and the internal data). -/
  installed : List Mod
  /-- `content_id` of main SHM. -/
  contentId : Cid
  /-- Agents holding `context_lock` for reading. -/
  rd : List Nat
  /-- The agent holding it READ_UPGR; it is one of the readers, too. -/
  upgr : Option Nat
  /-- The agent holding it for writing. -/
  writer : Option Nat
  /-- Agents holding `mod_remap_lock` of their connection for reading. -/
  rm : List Nat
  /-- The agent holding `mod_remap_lock` of a connection for writing. -/
  rmW : Nat → Option Nat
  conn : Nat → Conn
  /-- Contents of allocated contexts, `none` if never created or destroyed. -/
  heap : Nat → Option Schema
  /-- The next context to be created. -/
  next : Nat
  pc : Nat → Pc

/-- Pointwise update. -/
def upd {α : Type} (f : Nat → α) (i : Nat) (a : α) : Nat → α := fun j => if j = i then a else f j

/-- Release a read lock on behalf of an agent, `sr_rwlock_reader_del`, common.c 2300-2318: the count of the
connection is decreased; if this agent does not hold the lock, it is the lock of another agent of the connection. -/
def unrd (own : Nat → Nat) (l : List Nat) (a : Nat) : List Nat :=
  if a ∈ l then l.erase a else l.eraseP (fun b => own b = own a)

/-- `sr_lycc_unlock` of a reader, or of the upgradable lock, context_change.c 149-168. -/
def unlockAll (C : Cfg) (s : State) (a : Nat) : State :=
  { s with rm := unrd C.own s.rm a
           rd := unrd C.own s.rd a
           upgr := if s.upgr = some a then none else s.upgr
           pc := upd s.pc a .idle }

/-- The error path of `sr_lycc_lock` after the remap WRITE lock was taken, context_change.c 121-130. -/
def failW (C : Cfg) (s : State) (a : Nat) : State :=
  { s with rmW := upd s.rmW (C.own a) none
           rd := unrd C.own s.rd a
           upgr := if s.upgr = some a then none else s.upgr
           pc := upd s.pc a .idle }

/-- What a successful `sr_lycc_lock` leads to, with the context of the connection. -/
def enter (k : Kind) (h : Nat) : Pc :=
  match k with
  | .read => .hold h
  | k => .upd k

/-- `sr_conn_ctx_switch`, common.c 3308-3340: the old context is destroyed and the content ID is taken from SHM. -/
def switchTo (s : State) (c : Nat) (new : Schema) : State :=
  { s with heap := upd (upd s.heap (s.conn c).ctx none) s.next (some new)
           next := s.next + 1
           conn := upd s.conn c { s.conn c with cid := s.contentId, ctx := s.next } }

/-- Plugins initialized for a connection, `sr_conn_ds_init`, common.c 3352-3379. -/
def addPlugs (l : List Nat) (ms : List Mod) : List Nat := ms.map (·.plug) ++ l

/-- Steps of the agents. -/
inductive Label where
  /-- Take the context lock for reading. -/
  | lock (a : Nat)
  /-- `_sr_install_modules` loads the current modules, before any lock. -/
  | load (a : Nat) (m : Mod)
  /-- `_sr_install_modules` takes the upgradable lock. -/
  | lockInstall (a : Nat)
  /-- `sr_remove_modules` takes the upgradable lock. -/
  | lockRemove (a : Nat) (name : Nat)
  /-- Take the remap READ lock. -/
  | remap (a : Nat)
  /-- Compare the content IDs. -/
  | check (a : Nat)
  /-- Take the remap WRITE lock. -/
  | lockW (a : Nat)
  /-- The remap WRITE lock timed out. -/
  | timeoutW (a : Nat)
  /-- Create the new context and switch to it, or fail to. -/
  | build (a : Nat) (ok : Bool)
  /-- Initialize the datastore plugins, or fail to, and downgrade the remap lock. -/
  | init (a : Nat) (ok : Bool)
  /-- Release the context or data. -/
  | release (a : Nat)
  /-- Upgrade of the context lock. -/
  | upgrade (a : Nat)
  /-- A module change gives up. -/
  | giveUp (a : Nat)
  /-- Finish a module change and unlock. -/
  | commit (a : Nat)
  /-- `sr_session_start` does not get the context lock. -/
  | failLock (a : Nat)
  /-- And unlocks nevertheless. -/
  | badUnlock (a : Nat)
deriving DecidableEq, Repr

/-- Module change under the WRITE lock: the new installed modules and the schema of the new context, `none` if the
change fails. Installation (sysrepo.c 1503-1544) fails if the new context misses an installed module
(lyd_mods.c 814-815) or has the new one already; removal loads the context under the lock, 1804-1812. -/
def change (ms : List Mod) : Kind → Option (List Mod × Schema)
  | .read => none
  | .install m s =>
    if ms.any (fun x => x.name == m.name) || s.any (fun x => x.1 == m.name) then none
    else if ms.all (fun x => s.any (fun y => y.1 == x.name)) then some (ms ++ [m], s ++ [(m.name, m.rev)])
    else none
  | .remove n =>
    if ms.any (fun x => x.name == n) then
      some (ms.filter (fun x => x.name != n), sch (ms.filter (fun x => x.name != n)))
    else none

/-- The plugins initialized by the change itself, context_change.c 236-242. -/
def newPlugs : Kind → List Nat
  | .install m _ => [m.plug]
  | _ => []

/-- End of a module change, `sr_lycc_unlock` of the WRITE lock. -/
def unlockWrite (C : Cfg) (s : State) (a : Nat) : State :=
  { s with rm := unrd C.own s.rm a, writer := none, pc := upd s.pc a .idle }

/-- One step; `none` if it is not possible. -/
def step (C : Cfg) (s : State) : Label → Option State
  | .lock a =>
    if s.pc a = .idle ∧ s.writer = none then
      some { s with rd := a :: s.rd, pc := upd s.pc a (.gotCtx .read) }
    else none
  | .load a m =>
    if s.pc a = .idle then some { s with pc := upd s.pc a (.loaded m (sch s.installed)) } else none
  | .lockInstall a =>
    match s.pc a with
    | .loaded m l =>
      if s.writer = none ∧ s.upgr = none then
        some { s with rd := a :: s.rd, upgr := some a, pc := upd s.pc a (.gotCtx (.install m l)) }
      else none
    | _ => none
  | .lockRemove a n =>
    if s.pc a = .idle ∧ s.writer = none ∧ s.upgr = none then
      some { s with rd := a :: s.rd, upgr := some a, pc := upd s.pc a (.gotCtx (.remove n)) }
    else none
  | .remap a =>
    match s.pc a with
    | .gotCtx k =>
      if s.rmW (C.own a) = none then some { s with rm := a :: s.rm, pc := upd s.pc a (.gotRemap k) } else none
    | _ => none
  | .check a =>
    match s.pc a with
    | .gotRemap k =>
      if s.contentId = (s.conn (C.own a)).cid then
        some { s with pc := upd s.pc a (enter k (s.conn (C.own a)).ctx) }
      else some { s with rm := unrd C.own s.rm a, pc := upd s.pc a (.wantW k) }
    | _ => none
  | .lockW a =>
    match s.pc a with
    | .wantW k =>
      if s.rmW (C.own a) = none ∧ s.rm.all (fun b => C.own b ≠ C.own a) then
        some { s with rmW := upd s.rmW (C.own a) (some a), pc := upd s.pc a (.gotW k) }
      else none
    | _ => none
  | .timeoutW a =>
    match s.pc a with
    | .wantW _ =>
      if s.rmW (C.own a) = none ∧ s.rm.all (fun b => C.own b ≠ C.own a) then none
      else some { s with rd := unrd C.own s.rd a
                         upgr := if s.upgr = some a then none else s.upgr
                         pc := upd s.pc a .idle }
    | _ => none
  | .build a ok =>
    match s.pc a with
    | .gotW k =>
      if ok then
        let s' := switchTo s (C.own a) (sch s.installed)
        some { s' with pc := upd s'.pc a (.switched k) }
      else some (failW C s a)
    | _ => none
  | .init a ok =>
    match s.pc a with
    | .switched k =>
      if ok then
        let c := s.conn (C.own a)
        some { s with conn := upd s.conn (C.own a) { c with inited := addPlugs c.inited s.installed }
                      rmW := upd s.rmW (C.own a) none
                      rm := a :: s.rm
                      pc := upd s.pc a (enter k c.ctx) }
      else some (failW C s a)
    | _ => none
  | .release a =>
    match s.pc a with
    | .hold _ => some (unlockAll C s a)
    | _ => none
  | .upgrade a =>
    match s.pc a with
    | .upd k =>
      if s.rd = [a] then some { s with rd := [], upgr := none, writer := some a, pc := upd s.pc a (.write k) } else none
    | _ => none
  | .giveUp a =>
    match s.pc a with
    | .upd _ => some (unlockAll C s a)
    | .write _ => some (unlockWrite C s a)
    | _ => none
  | .commit a =>
    match s.pc a with
    | .write k =>
      match change s.installed k with
      | none => none
      | some (ms, new) =>
        let s1 := switchTo { s with installed := ms, contentId := C.hash new } (C.own a) new
        let c := s1.conn (C.own a)
        some (unlockWrite C { s1 with conn := upd s1.conn (C.own a) { c with inited := newPlugs k ++ c.inited } } a)
    | _ => none
  | .failLock a =>
    if s.pc a = .idle ∧ s.writer ≠ none then some { s with pc := upd s.pc a .failed } else none
  | .badUnlock a =>
    if s.pc a = .failed then some (unlockAll C s a) else none

/-- A run of the given steps. -/
def exec (C : Cfg) (s : State) : List Label → Option State
  | [] => some s
  | l :: ls => (step C s l).bind (fun s' => exec C s' ls)

/-- The initial state: the connections were created with the current modules, every one has its own context, and
nobody holds anything. -/
structure Init (C : Cfg) (s : State) : Prop where
  cidOk : s.contentId = C.hash (sch s.installed)
  rd : s.rd = []
  upgr : s.upgr = none
  writer : s.writer = none
  rm : s.rm = []
  rmW : ∀ c, s.rmW c = none
  conn : ∀ a, (s.conn (C.own a)).cid = s.contentId ∧ s.heap (s.conn (C.own a)).ctx = some (sch s.installed) ∧
    (∀ m ∈ s.installed, m.plug ∈ (s.conn (C.own a)).inited) ∧ (s.conn (C.own a)).ctx < s.next
  inj : ∀ a b, (s.conn (C.own a)).ctx = (s.conn (C.own b)).ctx → C.own a = C.own b
  pc : ∀ a, s.pc a = .idle

/-- States reachable by steps each allowed in the state it is made. -/
inductive Reach (C : Cfg) (A : State → Label → Prop) : State → Prop
  | init {s} : Init C s → Reach C A s
  | step {s s' : State} (l : Label) : Reach C A s → A s l → step C s l = some s' → Reach C A s'

end Verif.CtxLock
