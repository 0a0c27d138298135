/-!
# Executing an RPC or action

Model of publishing an RPC event to the subscribers by priority, returning the reply and publishing the
abort event after a failure, together with what the subscribers do with these events.

Code modelled (/repo/src):
* `shm_sub.c` 2560–2600 `sr_shmsub_rpc_notify_has_subscription`
* `shm_sub.c` 2616–2691 `sr_shmsub_rpc_notify_next_subscription`
* `shm_sub.c` 2693–2849 `sr_shmsub_rpc_notify`
* `shm_sub.c` 2851–2979 `sr_shmsub_rpc_notify_abort`
* `shm_sub.c` 460–634 `_sr_shmsub_notify_wait_wr` (its outcomes)
* `shm_sub.c` 4294–4326, 4344–4390, 4392–4590: which events a subscriber processes and what it remembers
* `sysrepo.c` 6755–6850 `_sr_rpc_send_tree`, 6862–6958: notify, then abort after a failed callback

Simplifications:
* the table of subscriptions does not change during the call (the RPC SUB READ lock is held), but
  connections may die and subscriptions be suspended or resumed at any time: every scan of the table has
  its own `view`;
* two subscriptions of the RPC with one priority do not exist (`SubTables.rpc_unique`), so an event has one
  recipient; the number of them is still computed as in the code;
* callbacks are not shelved; allocation, printing, mapping and event pipes do not fail;
* a subscriber that finishes after the timeout generates its abort itself (`relock`); in the trace it is
  put at the end of the step.
-/

namespace Verif.Rpc

/-- 32-bit arithmetic. -/
def W : Nat := 4294967296

structure Sub where
  id : Nat
  prio : Nat
deriving DecidableEq, Repr

/-- What becomes of an RPC event published for a subscriber. -/
inductive Reply where
  /-- the callback returns `SR_ERR_OK` with this output -/
  | ok (out : Nat)
  /-- the callback returns an error -/
  | fail
  /-- no answer in time; `late`: the callback returns success later -/
  | timeout (late : Bool)
  /-- no answer in time and the sub SHM is being read (`lock_lost`) -/
  | lost
  /-- success with output that cannot be parsed -/
  | bad
deriving DecidableEq, Repr

/-- Environment of one call. -/
structure Env where
  /-- in scan number `k`: the connection is alive, the subscription is not suspended and its XPath selects
  the operation -/
  view : Nat → Nat → Bool
  reply : Nat → Reply
  /-- waiting for the end of the abort event fails -/
  abortErr : Nat → Bool
  /-- the path is `SR_RPC_FACTORY_RESET_PATH` -/
  factory : Bool

inductive Ev where
  | rpc
  | abort
deriving DecidableEq, Repr

/-- What the caller gets. -/
inductive Res where
  | success (out : Option Nat)
  /-- a callback error or timeout (`cb_err_info`) -/
  | failed
  /-- an error of sysrepo itself (`err_info`) -/
  | error
deriving DecidableEq, Repr

/-- common.h 160 `SR_RPC_FACTORY_RESET_INT_PRIO` -/
def intPrio : Nat := 10

/-- shm_sub.c 2577–2594: the highest priority of a valid subscription. -/
def scanMax (view : Nat → Bool) : List Sub → Option Nat → Option Nat
  | [], acc => acc
  | s :: r, acc =>
    if view s.id then
      scanMax view r (some (match acc with | none => s.prio | some m => if s.prio > m then s.prio else m))
    else scanMax view r acc

/-- shm_sub.c 2634–2680: the highest priority lower than `last` and the subscriptions that have it. -/
def scanNext (view : Nat → Bool) (last : Nat) : List Sub → Option (Nat × List Sub) → Option (Nat × List Sub)
  | [], acc => acc
  | s :: r, acc =>
    if view s.id && decide (last > s.prio) then
      scanNext view last r (match acc with
        | none => some (s.prio, [s])
        | some (p, l) => if p < s.prio then some (s.prio, [s]) else if s.prio = p then some (p, l ++ [s]) else some (p, l))
    else scanNext view last r acc

def next (e : Env) (k last : Nat) (subs : List Sub) : Option (Nat × List Sub) := scanNext (e.view k) last subs none

/-- Whether this priority is the internal subscription (2724, 2772). -/
def isInternal (e : Env) (p : Nat) : Bool := e.factory && p == intPrio

/-- State of the originator after `sr_shmsub_rpc_notify`. -/
structure Out where
  res : Res
  /-- callbacks called, in order -/
  trace : List (Nat × Ev)
  /-- number of scans done -/
  scans : Nat
  /-- priority and subscriber count left with the event `SR_SUB_EV_ERROR` -/
  err : Option (Nat × Nat)
  /-- the SUB WRITE lock is still held -/
  locked : Bool
deriving DecidableEq, Repr

/-- shm_sub.c 2766–2829: the loop with the sub SHM locked; `ss` are the subscribers with priority `cur`.
`none`: out of fuel. -/
def mainLoop (e : Env) (subs : List Sub) : Nat → Nat → Nat → List Sub → List (Nat × Ev) → Option Out
  | 0, _, _, _, _ => none
  | fuel + 1, k, cur, ss, tr =>
    match ss with
    | [] => none
    | s :: _ =>
      if isInternal e cur then
        match e.reply s.id with
        | .ok o =>
          match next e k cur subs with
          | none => some ⟨.success (some o), tr ++ [(s.id, .rpc)], k + 1, none, false⟩
          | some (p, ss') => mainLoop e subs fuel (k + 1) p ss' (tr ++ [(s.id, .rpc)])
        | _ => some ⟨.error, tr ++ [(s.id, .rpc)], k, none, true⟩
      else
        match e.reply s.id with
        | .ok o =>
          match next e k cur subs with
          | none => some ⟨.success (some o), tr ++ [(s.id, .rpc)], k + 1, none, false⟩
          | some (p, ss') => mainLoop e subs fuel (k + 1) p ss' (tr ++ [(s.id, .rpc)])
        | .fail => some ⟨.failed, tr ++ [(s.id, .rpc)], k, some (cur, ss.length), false⟩
        | .timeout _ => some ⟨.failed, tr ++ [(s.id, .rpc)], k, some (cur, ss.length), false⟩
        | .lost => some ⟨.error, tr ++ [(s.id, .rpc), (s.id, .abort)], k, none, false⟩
        | .bad => some ⟨.error, tr ++ [(s.id, .rpc)], k, none, false⟩

/-- shm_sub.c 2711–2736: internal subscriptions called before the sub SHM is opened. -/
def firstSub (e : Env) (subs : List Sub) : Nat → Nat → Nat → Option Nat → List (Nat × Ev) → Option Out
  | 0, _, _, _, _ => none
  | fuel + 1, k, cur, out, tr =>
    match next e k ((cur + 1) % W) subs with
    | none => some ⟨.success out, tr, k + 1, none, false⟩
    | some (p, ss) =>
      if isInternal e p then
        match ss with
        | [] => none
        | s :: _ =>
          match e.reply s.id with
          | .ok o => firstSub e subs fuel (k + 1) (p - 1) (some o) (tr ++ [(s.id, .rpc)])
          | _ => some ⟨.error, tr ++ [(s.id, .rpc)], k + 1, none, false⟩
      else mainLoop e subs (fuel + 1) (k + 1) p ss tr

/-- shm_sub.c 2693–2849 `sr_shmsub_rpc_notify`. -/
def notify (e : Env) (subs : List Sub) : Option Out :=
  match scanMax (e.view 0) subs none with
  | none => some ⟨.error, [], 1, none, false⟩
  | some m => firstSub e subs (subs.length + 1) 1 m none []

/-- The subscribers that processed the RPC event of this request successfully (they remember its ID and the
event, shm_sub.c 4529–4535), read off the callbacks called. -/
def processed (e : Env) (s : Nat) : Bool := match e.reply s with | .ok _ => true | .bad => true | _ => false

/-- A subscriber processes the abort event if it processed the RPC event of the request and not the abort
event yet (shm_sub.c 4309–4318); internal subscriptions have no listener. -/
def takesAbort (e : Env) (tr : List (Nat × Ev)) (s : Sub) : Bool :=
  tr.contains (s.id, .rpc) && processed e s.id && !tr.contains (s.id, .abort) && !isInternal e s.prio

/-- shm_sub.c 2906–2956: the loop publishing the abort event. -/
def abortLoop (e : Env) (subs : List Sub) (errPrio errCount : Nat) : Nat → Nat → Nat → List (Nat × Ev) → List (Nat × Ev)
  | 0, _, _, tr => tr
  | fuel + 1, k, cur, tr =>
    match next e k cur subs with
    | none => tr
    | some (p, ss) =>
      let cnt := if p = errPrio then (ss.length + W - errCount) % W else ss.length
      if cnt = 0 then tr
      else
        let tr' := tr ++ (ss.filter (takesAbort e tr)).map (fun s => (s.id, Ev.abort))
        if ss.any (fun s => e.abortErr s.id) then tr'
        else if p = errPrio then tr'
        else abortLoop e subs errPrio errCount fuel (k + 1) p tr'

/-- shm_sub.c 2851–2979 `sr_shmsub_rpc_notify_abort`. -/
def abort (e : Env) (subs : List Sub) (k errPrio errCount : Nat) (tr : List (Nat × Ev)) : List (Nat × Ev) :=
  match scanMax (e.view k) subs none with
  | none => tr
  | some m => abortLoop e subs errPrio errCount (subs.length + 1) (k + 1) ((m + 1) % W) tr

/-- shm_sub.c 4344–4390 `sr_shmsub_rpc_listen_relock`: the subscriber whose event timed out and whose callback
then succeeds calls it with the abort event. -/
def lateAborts (e : Env) (tr : List (Nat × Ev)) : List (Nat × Ev) :=
  (tr.filter (fun x => x.2 == Ev.rpc && e.reply x.1 == .timeout true)).map (fun x => (x.1, Ev.abort))

/-- sysrepo.c 6780–6850 of `_sr_rpc_send_tree`. -/
def send (e : Env) (subs : List Sub) : Option Out :=
  match notify e subs with
  | none => none
  | some o =>
    match o.err with
    | none => some o
    | some (p, c) => some { o with trace := abort e subs o.scans p c o.trace ++ lateAborts e o.trace }

/-! ## Specification -/

/-- The subscribers `l`, in the order of calling; `done` were called successfully. The result and the callbacks
called: on a failure every one called successfully gets the abort event, and the failed one does not; one
that succeeded too late does. -/
def expected (reply : Nat → Reply) (internal : Sub → Bool) (done : List Sub) (out : Option Nat) : List Sub → Res × List (Nat × Ev)
  | [] => (.success out, [])
  | s :: r =>
    match reply s.id with
    | .ok o => let x := expected reply internal (done ++ [s]) (some o) r
               (x.1, (s.id, .rpc) :: x.2)
    | .timeout true => (.failed, (s.id, .rpc) :: (done.filter (fun d => !internal d)).map (fun d => (d.id, Ev.abort)) ++ [(s.id, .abort)])
    | _ => (.failed, (s.id, .rpc) :: (done.filter (fun d => !internal d)).map (fun d => (d.id, Ev.abort)))

end Verif.Rpc
