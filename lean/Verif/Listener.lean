/-!
# Processing of one change subscription segment by its subscribers

Model of the sub SHM of one module and datastore: an originator publishes events in it one after another, any number of
listeners (threads of different processes) process them, each for its own change subscriptions, and report back.

Code modelled (/repo/src/shm_sub.c):
* 863–889 `sr_shmsub_change_listen_event_is_valid`
* 3144–3181 `sr_shmsub_change_listen_is_new_event`
* 3183–3243 `sr_shmsub_listen_write_event`
* 3359–3410 `sr_shmsub_change_listen_relock`
* 3412–3619 `sr_shmsub_change_listen_process_module_events`
* 796–856 `sr_shmsub_notify_write_event` and 460–634 `_sr_shmsub_notify_wait_wr` for the change, done and abort events

Simplifications:
* one step is what a process does while it holds the lock of the segment; a callback runs between two steps;
* an originator waits with the lock released, so that it is present only by its steps `publish`, `collect` and `timeout`
  (after a timeout it got the lock; the case that it did not is left out);
* update events are left out; mapping, parsing and printing do not fail; request IDs do not wrap around.
-/

namespace Verif.Listener

def W : Nat := 4294967296

inductive Ev where
  | change
  | done
  | abort
deriving DecidableEq, Repr

/-- `sr_sub_event_t` in the segment. -/
inductive ShmEv where
  | none
  | success
  | error
  | finished
  | listen (ev : Ev)
deriving DecidableEq, Repr

structure Shm where
  ev : ShmEv
  req : Nat
  prio : Nat
  count : Nat
deriving DecidableEq, Repr

/-- `struct info_sub_s`, what a listener remembers of the event it processes. -/
structure Info where
  req : Nat
  ev : Ev
  prio : Nat
deriving DecidableEq, Repr

/-- Result of a callback. -/
inductive Ret where
  | ok
  | fail
  | shelve
deriving DecidableEq, Repr

/-- Subscriptions, numbered; nothing here changes during a run. -/
structure Cfg where
  all : List Nat
  /-- the listener has the subscription among its own -/
  handles : Nat → Nat → Bool
  prio : Nat → Nat
  /-- `SR_SUBSCR_DONE_ONLY` -/
  doneOnly : Nat → Bool
  /-- `SR_SUBSCR_FILTER_ORIG` -/
  fOrig : Nat → Bool
  /-- 899–923 `sr_shmsub_change_filter_is_valid` on the diff of this request and event (reversed for abort) -/
  filt : Nat → Nat → Ev → Bool

inductive Pc where
  | idle
  /-- without the lock, subscription `i` being processed and those after it to be tried yet (3499–3511) -/
  | cb (i : Nat) (rest : List Nat) (info : Info) (valid : List Nat) (ret : Ret)
  /-- before the last lock (3600); `last` is `change_sub`, `ret` and `fv` are what the last processed subscription left -/
  | fin (info : Info) (valid : List Nat) (err : Bool) (last : Nat) (ret : Ret) (fv : Bool)
deriving DecidableEq, Repr

/-- A call of a callback. -/
structure Call where
  sub : Nat
  req : Nat
  ev : Ev
  /-- abort event generated by the subscriber itself -/
  own : Bool
  ret : Ret
deriving DecidableEq, Repr

structure St where
  shm : Shm
  /-- `request_id` and `event` of `struct modsub_changesub_s` -/
  mem : Nat → Option (Nat × Ev)
  susp : Nat → Bool
  pc : Nat → Pc
  /-- history: callbacks called -/
  log : List Call
  /-- history: events published -/
  pubs : List Info
  /-- history: subscriptions that are to process the last published event, and those that have reported -/
  due : List Nat
  rep : List Nat

/-- 863–889 -/
def evValid (c : Cfg) (ev : Ev) (i : Nat) : Bool :=
  match ev with
  | .change => !c.doneOnly i
  | .abort => !c.doneOnly i
  | .done => true

/-- 3144–3181 -/
def isNew (c : Cfg) (shm : Shm) (mem : Nat → Option (Nat × Ev)) (susp : Nat → Bool) (i : Nat) : Bool :=
  match shm.ev with
  | .listen ev =>
    mem i != some (shm.req, ev) && (ev != .abort || mem i == some (shm.req, .change)) && shm.prio == c.prio i && evValid c ev i && !susp i
  | _ => false

/-- The subscriptions of a listener, in the order of its array. -/
def mine (c : Cfg) (l : Nat) : List Nat := c.all.filter (c.handles l)

/-- The event in the segment is the one remembered (3375–3377). -/
def same (shm : Shm) (info : Info) : Bool := shm.ev == .listen info.ev && shm.req == info.req && shm.prio == info.prio

def setPc (st : St) (l : Nat) (p : Pc) : Nat → Pc := fun x => if x = l then p else st.pc x
def setMem (st : St) (i : Nat) (m : Nat × Ev) : Nat → Option (Nat × Ev) := fun x => if x = i then some m else st.mem x

/-- The abort event a subscriber generates itself, 3384–3402. -/
def ownAbort (c : Cfg) (info : Info) (ret : Ret) (fv : Bool) (i : Nat) : List Call :=
  if info.ev = .change ∧ ret = .ok ∧ fv = true ∧ evValid c .abort i = true then [⟨i, info.req, .abort, true, .ok⟩] else []

/-- 3492–3497 with the lock: the next subscription, or the end. `i` is the last one processed. -/
def goOn (c : Cfg) (shm : Shm) (mem : Nat → Option (Nat × Ev)) (susp : Nat → Bool) (i : Nat) (rest : List Nat) (info : Info) (valid : List Nat)
    (ret : Ret) (fv : Bool) : Pc :=
  match rest.dropWhile (fun j => !isNew c shm mem susp j) with
  | [] => .fin info valid false (rest.getLast?.getD i) ret fv
  | j :: rest' => .cb j rest' info valid ret

/-- 3513–3552 with the lock, after the callback. -/
def afterCb (c : Cfg) (st : St) (l i : Nat) (rest : List Nat) (info : Info) (valid : List Nat) (ret : Ret) (fv : Bool) : St :=
  if same st.shm info = false then
    { st with pc := setPc st l .idle, log := st.log ++ ownAbort c info ret fv i }
  else if fv = false ∧ c.fOrig i = true then
    { st with pc := setPc st l (goOn c st.shm st.mem st.susp i rest info valid ret fv) }
  else if info.ev = .change ∧ ret = .shelve then
    { st with pc := setPc st l (goOn c st.shm st.mem st.susp i rest info valid ret fv) }
  else if info.ev = .change ∧ ret = .fail then
    { st with pc := setPc st l (.fin info valid true i ret fv), mem := setMem st i (info.req, .abort) }
  else
    { st with pc := setPc st l (goOn c st.shm (setMem st i (info.req, info.ev)) st.susp i rest info (valid ++ [i]) ret fv),
              mem := setMem st i (info.req, info.ev) }

/-- 3183–3243 with the lock. -/
def report (shm : Shm) (n : Nat) (err : Bool) : Shm :=
  { shm with
    ev := if shm.count = n ∨ err = true then
        (match shm.ev with
        | .listen .change => if err then .error else .success
        | .listen .done => .finished
        | .listen .abort => .finished
        | e => e)
      else shm.ev,
    count := (shm.count + W - n) % W }

inductive Label where
  /-- listener `l` wakes up; without the lock it saw nothing new in its first `n` subscriptions (3431–3459) -/
  | start (l n : Nat)
  /-- the callback (if there is a change for it) returns `r` -/
  | ret (l : Nat) (r : Ret)
  | finish (l : Nat)
  | publish (info : Info) (count : Nat)
  | collect
  | timeout
  | suspend (i : Nat) (b : Bool)
deriving DecidableEq, Repr

/-- The subscriptions that are to process an event: new for them and not filtered out by the originator (949–1077). -/
def dueOf (c : Cfg) (shm : Shm) (mem : Nat → Option (Nat × Ev)) (susp : Nat → Bool) (info : Info) : List Nat :=
  c.all.filter (fun i => isNew c shm mem susp i && (c.filt i info.req info.ev || !c.fOrig i))

def step (c : Cfg) (st : St) : Label → Option St
  | .start l n =>
    match st.pc l, st.shm.ev with
    | .idle, .listen ev =>
      match ((mine c l).drop n).dropWhile (fun j => !isNew c st.shm st.mem st.susp j) with
      | [] => none
      | i :: rest => some { st with pc := setPc st l (.cb i rest ⟨st.shm.req, ev, st.shm.prio⟩ [] .ok) }
    | _, _ => none
  | .ret l r =>
    match st.pc l with
    | .cb i rest info valid stale =>
      if c.filt i info.req info.ev then
        some (afterCb c { st with log := st.log ++ [⟨i, info.req, info.ev, false, r⟩] } l i rest info valid r true)
      else some (afterCb c st l i rest info valid stale false)
    | _ => none
  | .finish l =>
    match st.pc l with
    | .fin info valid err last ret fv =>
      if same st.shm info = false then
        some { st with pc := setPc st l .idle, log := st.log ++ ownAbort c info ret fv last }
      else some { st with pc := setPc st l .idle, shm := report st.shm valid.length err, rep := st.rep ++ valid }
    | _ => none
  | .publish info n =>
    if st.shm.ev = .none then
      some { st with shm := ⟨.listen info.ev, info.req, info.prio, n⟩, pubs := st.pubs ++ [info], rep := [],
                     due := dueOf c ⟨.listen info.ev, info.req, info.prio, n⟩ st.mem st.susp info }
    else none
  | .collect =>
    match st.shm.ev with
    | .success => some { st with shm := { st.shm with ev := .none } }
    | .finished => some { st with shm := { st.shm with ev := .none } }
    | .error => some { st with shm := { st.shm with ev := .none } }
    | _ => none
  | .timeout =>
    match st.shm.ev with
    | .listen .change => some { st with shm := { st.shm with ev := .error } }
    | .listen _ => some { st with shm := { st.shm with ev := .none } }
    | _ => none
  | .suspend i b => some { st with susp := fun x => if x = i then b else st.susp x }

/-- No event was published yet. -/
def Init (st : St) : Prop :=
  st.shm = ⟨.none, 0, 0, 0⟩ ∧ st.mem = (fun _ => none) ∧ st.pc = (fun _ => .idle) ∧ st.log = [] ∧ st.pubs = [] ∧ st.due = [] ∧ st.rep = []

/-- Runs whose steps are all allowed. -/
inductive Reach (c : Cfg) (allow : St → Label → Prop) : St → Prop where
  | init {st : St} : Init st → Reach c allow st
  | step {st st' : St} {lb : Label} : Reach c allow st → allow st lb → step c st lb = some st' → Reach c allow st'

end Verif.Listener
