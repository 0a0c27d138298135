/-!
# A notification subscription with replay

Model of sending notifications of one module, of subscribing to them with replay and of delivering
them to the subscription.

Code modelled (/repo/src):
* `sysrepo.c` 7285–7415 `sr_notif_send_tree` — lock, timestamp, publish, unlock, store
* `shm_sub.c` 2982–3131 `sr_shmsub_notif_notify` — publishing
* `shm_sub.c` 342–433 `sr_shmsub_notify_new_wrlock` — waiting for a free event, discarding the old one
* `shm_sub.c` 3184–3243 `sr_shmsub_listen_write_event` (event NOTIF)
* `sysrepo.c` 7097–7221 `_sr_notif_subscribe`
* `sysrepo.c` 5167–5196 notification part of `sr_subscription_process_events`
* `shm_sub.c` 4626–4775 `sr_shmsub_notif_listen_process_module_events`
* `shm_sub.c` 4815–4860 `sr_shmsub_notif_listen_module_stop_time`
* `shm_sub.c` 4862–4885 `sr_shmsub_notif_listen_module_replay`
* `replay.c` 298–386 `sr_replay_notify`
* `subscr.c` 528–606 `sr_subscr_notif_sub_del` (subtracting from an event)

Simplifications:
* one subscription is followed (the only one of its subscription context), all other subscriptions
  of the module are only counted;
* the stored notifications are a list and one replay reads all of it at one moment (files and their
  reading are in `NtfJson`);
* the request ID does not wrap at 2^32;
* the XPath filter is one predicate, the same for replayed and live notifications;
* timestamps are numbers, 0 is "not set";
* a sender may at any moment fail to store (crash, error).
-/

namespace Verif.Replay

/-- A notification with both timestamps taken by its sender (sysrepo.c 7394–7396). -/
structure Notif where
  id : Nat
  mono : Nat
  real : Nat
deriving DecidableEq, Repr

/-- What the callback of the subscription was called with: `SR_EV_NOTIF_REPLAY` or
`SR_EV_NOTIF_REALTIME`. -/
inductive Got where
  | replay (n : Notif)
  | live (n : Notif)
deriving DecidableEq, Repr

/-- The published event (`sr_sub_shm_t`, shm_types.h): the notification, request ID and
`subscriber_count`; `oleft` and `late` are the other subscriptions that still have to process it,
and those created after it was published (not stored in the code, they say what others may do). -/
structure Ev where
  n : Notif
  rid : Nat
  cnt : Nat
  oleft : Nat
  late : Nat
deriving DecidableEq, Repr

/-- The followed subscription (`struct modsub_notifsub_s`, common_types.h); `last` is
`notif_subs->request_id`; `busy` is the event being processed with the number to subtract. -/
structure Sub where
  start : Nat
  stop : Nat
  lmono : Nat
  lreal : Nat
  replayed : Bool
  ended : Bool
  last : Nat
  busy : Option (Nat × Nat)
deriving DecidableEq, Repr

structure St where
  /-- clocks -/
  mono : Nat
  real : Nat
  /-- identifiers of notifications used so far -/
  used : List Nat
  /-- senders that hold the NOTIF SUB READ lock and have not published yet -/
  holding : List Notif
  /-- senders that hold the lock and wait for the event to be processed -/
  waiting : List Notif
  /-- senders that released the lock and have not stored the notification -/
  unstored : List Notif
  /-- notifications stored for replay -/
  stored : List Notif
  slot : Option Ev
  /-- request ID of the last event -/
  rid : Nat
  /-- other subscriptions of the module -/
  others : Nat
  sub : Option Sub
  got : List Got
  /-- history only: notifications published before and after the subscription was made -/
  before : List Notif
  after : List Notif
deriving DecidableEq, Repr

def init : St :=
  { mono := 1, real := 1, used := [], holding := [], waiting := [], unstored := [], stored := [],
    slot := none, rid := 0, others := 0, sub := none, got := [], before := [], after := [] }

inductive Label where
  | tick (mono real : Nat)
  | begin (id : Nat)
  | publish (n : Notif) (wait : Bool)
  | waitEnd (n : Notif)
  | discard
  | store (n : Notif)
  | storeFail (n : Notif)
  | otherOn
  | otherDone
  | lateOff
  | subscribe (start stop : Nat)
  | replay
  | read
  | finish
  | stopTime
deriving DecidableEq, Repr

/-- sysrepo.c 7388–7396 `sr_notif_send_tree`: take the NOTIF SUB READ lock and remember the time. -/
def begin (s : St) (id : Nat) : Option St :=
  if id ∈ s.used then none
  else some { s with used := id :: s.used, holding := s.holding ++ [⟨id, s.mono, s.real⟩] }

/-- whether the followed subscription exists (it is in ext SHM). -/
def active (s : St) : Bool :=
  match s.sub with
  | some u => !u.ended
  | none => false

/-- The sender goes on to publishing; only the history changes. -/
def sent (s : St) (n : Notif) : St :=
  { s with holding := s.holding.erase n,
           before := if s.sub.isNone then s.before ++ [n] else s.before,
           after := if s.sub.isNone then s.after else s.after ++ [n] }

/-- subscr.c 1779–1817 `sr_notif_find_subscriber`: the number of subscriptions to notify. -/
def subscribers (s : St) : Nat := s.others + (if active s then 1 else 0)

/-- shm_sub.c 2982–3131 `sr_shmsub_notif_notify` up to releasing the lock: with no subscriber nothing
is written (3009); otherwise the event must be free (3042), it is written with a new request ID and
the number of subscribers (3063–3067). Without `wait` the lock is released at once. -/
def publish (s : St) (n : Notif) (wait : Bool) : Option St :=
  if n ∈ s.holding then
    if subscribers s = 0 then some { sent s n with unstored := s.unstored ++ [n] }
    else if s.slot.isSome then none
    else if wait then
      some { sent s n with slot := some ⟨n, s.rid + 1, subscribers s, s.others, 0⟩, rid := s.rid + 1,
                           waiting := s.waiting ++ [n] }
    else
      some { sent s n with slot := some ⟨n, s.rid + 1, subscribers s, s.others, 0⟩, rid := s.rid + 1,
                           unstored := s.unstored ++ [n] }
  else none

/-- The event of the sender was cleared: shm_sub.c 3089–3106 and sysrepo.c 7402 (the wait ends and the
lock is released). -/
def waitEnd (s : St) (n : Notif) : Option St :=
  if n ∈ s.waiting ∧ s.slot.map (·.n) ≠ some n then
    some { s with waiting := s.waiting.erase n, unstored := s.unstored ++ [n] }
  else none

/-- The event is cleared without being processed: after `SR_SUBSHM_LOCK_TIMEOUT` by the next sender
(shm_sub.c 396–404), by its own waiting sender after the timeout (536–540), or because the
connection whose ID it carries died (308–331; it is the sender's or that of one of the
subscriptions, 3062–3064). -/
def discard (s : St) : Option St :=
  if s.slot.isSome then some { s with slot := none } else none

/-- sysrepo.c 7409–7412: `sr_replay_store` after the lock was released. -/
def store (s : St) (n : Notif) : Option St :=
  if n ∈ s.unstored then some { s with unstored := s.unstored.erase n, stored := s.stored ++ [n] } else none

/-- Storing failed or the sender crashed. -/
def storeFail (s : St) (n : Notif) : Option St :=
  if n ∈ s.unstored then some { s with unstored := s.unstored.erase n } else none

/-- sysrepo.c 7159–7221 by another subscriber: NOTIF SUB WRITE lock, no sender may hold it. -/
def otherOn (s : St) : Option St :=
  if s.holding = [] ∧ s.waiting = [] then
    some { s with others := s.others + 1, slot := s.slot.map fun e => { e with late := e.late + 1 } }
  else none

/-- shm_sub.c 3184–3243 `sr_shmsub_listen_write_event` for a NOTIF event: subtract, clear it when
nobody is left. -/
def subtract (e : Ev) (k : Nat) : Option Ev :=
  if e.cnt = k then none else some { e with cnt := e.cnt - k }

/-- Another subscription processed the event (shm_sub.c 4754–4758). -/
def otherDone (s : St) : Option St :=
  match s.slot with
  | some e => if 0 < e.oleft then some { s with slot := subtract { e with oleft := e.oleft - 1 } 1 } else none
  | none => none

/-- subscr.c 559–567: another subscription, created after the event was published, is removed before
its listener looked at the event: 1 is subtracted although it was not counted. -/
def lateOff (s : St) : Option St :=
  match s.slot with
  | some e =>
    if 0 < e.late then
      some { s with others := s.others - 1, slot := subtract { e with late := e.late - 1 } 1 }
    else none
  | none => none

/-- sysrepo.c 7108–7221 `_sr_notif_subscribe`: argument checks (7110–7114), then with the NOTIF SUB
WRITE lock the current time is remembered and the subscription becomes visible. -/
def subscribe (s : St) (start stop : Nat) : Option St :=
  if s.sub = none ∧ s.holding = [] ∧ s.waiting = [] ∧ start ≤ s.real ∧
      (stop = 0 ∨ (start ≠ 0 ∧ start ≤ stop) ∨ (start = 0 ∧ s.real ≤ stop)) then
    some { s with sub := some ⟨start, stop, s.mono, s.real, false, false, 0, none⟩ }
  else none

/-- replay.c 313–318: only notifications with a smaller timestamp are replayed. -/
def replayStop (u : Sub) : Nat :=
  if u.stop ≠ 0 ∧ u.stop ≤ u.lreal then u.stop else u.lreal

/-- shm_sub.c 4869–4882 and replay.c 298–386 `sr_replay_notify`: every stored notification since the
start and before the stop that matches the filter; access control is not asked. -/
def replay (sel : Notif → Bool) (s : St) : Option St :=
  match s.sub with
  | some u =>
    if u.start ≠ 0 ∧ u.replayed = false ∧ u.ended = false ∧ u.busy = none then
      some { s with sub := some { u with replayed := true },
                    got := s.got ++ ((s.stored.filter fun n =>
                      decide (u.start ≤ n.real) && decide (n.real < replayStop u) && sel n).map .replay) }
    else none
  | none => none

/-- shm_sub.c 4641–4738: a new event (4642–4656) is read; a notification sent before the subscription
was made is ignored (4701–4706), otherwise the callback is called unless access control or the filter
forbids it (4721–4731); the request ID is remembered (4738). It happens only after the replay was
done (sysrepo.c 5170–5187). -/
def read (sel deny : Notif → Bool) (s : St) : Option St :=
  match s.sub, s.slot with
  | some u, some e =>
    if u.ended = false ∧ (u.start = 0 ∨ u.replayed = true) ∧ u.busy = none ∧ e.rid ≠ u.last then
      if u.lmono > e.n.mono then some { s with sub := some { u with last := e.rid, busy := some (e.rid, 0) } }
      else
        some { s with sub := some { u with last := e.rid, busy := some (e.rid, 1) },
                      got := s.got ++ (if !deny e.n && sel e.n then [.live e.n] else []) }
    else none
  | _, _ => none

/-- shm_sub.c 4740–4763: the event is finished unless it is another one or none by now. -/
def finish (s : St) : Option St :=
  match s.sub with
  | some u =>
    match u.busy with
    | some (r, k) =>
      some { s with sub := some { u with busy := none },
                    slot := match s.slot with
                      | some e => if e.rid = r then subtract e k else some e
                      | none => none }
    | none => none
  | none => none

/-- shm_sub.c 4831–4856 and subscr.c 559–567: the subscription ends when its stop time elapsed; a
published event not yet read is ignored. -/
def stopTime (s : St) : Option St :=
  match s.sub with
  | some u =>
    if u.stop ≠ 0 ∧ u.stop ≤ s.real ∧ u.ended = false ∧ u.busy = none ∧ (u.start = 0 ∨ u.replayed = true) then
      some { s with sub := some { u with ended := true },
                    slot := match s.slot with
                      | some e => if e.rid ≠ u.last then subtract e 1 else some e
                      | none => none }
    else none
  | none => none

/-- One step; `sel` is the filter of the subscription and `deny` the notifications access control
denies to its user. `tick` is a reading of the clocks: only the monotonic one cannot go back. -/
def step (sel deny : Notif → Bool) (s : St) : Label → Option St
  | .tick m r => if s.mono ≤ m then some { s with mono := m, real := r } else none
  | .begin id => begin s id
  | .publish n w => publish s n w
  | .waitEnd n => waitEnd s n
  | .discard => discard s
  | .store n => store s n
  | .storeFail n => storeFail s n
  | .otherOn => otherOn s
  | .otherDone => otherDone s
  | .lateOff => lateOff s
  | .subscribe a b => subscribe s a b
  | .replay => replay sel s
  | .read => read sel deny s
  | .finish => finish s
  | .stopTime => stopTime s

/-- States reachable when every step satisfies `ok`. -/
inductive Reach (sel deny : Notif → Bool) (ok : St → Label → Prop) : St → Prop where
  | init : Reach sel deny ok init
  | step {s t : St} {l : Label} : Reach sel deny ok s → ok s l → step sel deny s l = some t → Reach sel deny ok t

def exec (sel deny : Notif → Bool) : List Label → St → Option St
  | [], s => some s
  | l :: ls, s => match step sel deny s l with
    | some t => exec sel deny ls t
    | none => none

/-! ## Specification -/

/-- What has to hold in a run for the subscription to get everything:
* the real-time clock does not go back;
* when the subscription is made, all earlier notifications have smaller timestamps;
* when it replays, all notifications sent before it was made are stored;
* no event is thrown away before it was processed, and none is cut short by a subscription that was
  not counted;
* the subscription has not reached its stop time. -/
def Regular (s : St) : Label → Prop
  | .tick _ r => s.real ≤ r
  | .subscribe _ _ => ∀ n ∈ s.before, n.mono < s.mono ∧ n.real < s.real
  | .replay => ∀ n ∈ s.before, n ∈ s.stored
  | .discard => False
  | .lateOff => False
  | .stopTime => False
  | _ => True

/-- Everything may happen. -/
def Any (_ : St) (_ : Label) : Prop := True

/-- the window of the replay: since the start, before the stop if there is one -/
def InWindow (start stop : Nat) (n : Notif) : Prop := start ≤ n.real ∧ (stop = 0 ∨ n.real < stop)

instance (a b : Nat) (n : Notif) : Decidable (InWindow a b n) := by unfold InWindow; infer_instance

end Verif.Replay
