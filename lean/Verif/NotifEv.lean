/-
Delivery of notifications: the event of a module in its subscription SHM, the senders and the listening subscription
structures.

Models of `/repo/src/shm_sub.c` 301-430 (`sr_shmsub_recover`, `sr_shmsub_notify_new_wrlock`), 460-634
(`_sr_shmsub_notify_wait_wr` for notifications), 2981-3131 (`sr_shmsub_notif_notify`), 3183-3242
(`sr_shmsub_listen_write_event`), 4626-4775 (`sr_shmsub_notif_listen_process_module_events`), of `/repo/src/subscr.c`
528-612 (`sr_subscr_notif_sub_del`), 1225-1290 (`sr_notif_sub_del`), 1779-1817 (`sr_notif_find_subscriber`), of
`/repo/src/shm_ext.c` `sr_shmext_notif_sub_suspended`, and of `/repo/src/sysrepo.c` 5326-5357
(`_sr_subscription_suspend_change`), 7097-7221 (`_sr_notif_subscribe`), 7385-7403 (`sr_notif_send_tree`).

Simplifications: one module; one subscription structure per connection, both are called a listener here; the entries of a
subscription in the ext SHM and in its structure are added and removed under the same locks, so there is one table with
both flags; request IDs do not wrap; the monotonic clock advances between two operations; a listener processes
an event without an error, and a notification filtered out or denied by NACM counts as processed. The NOTIF SUB lock is
held by senders until they return, so subscriptions are added, removed, suspended and resumed (in the ext SHM) only without
any sender.
-/
namespace Verif.NotifEv

/-- A subscription. -/
structure Sub where
  id : Nat
  /-- The listener. -/
  ctx : Nat
  /-- `suspended` in the ext SHM. -/
  off : Bool
  /-- `suspended` in the subscription structure. -/
  loff : Bool
  /-- `listen_since_mono`. -/
  since : Nat
deriving DecidableEq, Repr

/-- A notification that was published: its request ID and, for the specification, the subscriptions that were there, and
those of them that were to get it. -/
structure Pub where
  rid : Nat
  known : List Nat
  to : List Nat
deriving DecidableEq, Repr

/-- State of the module. -/
structure State where
  subs : List Sub
  /-- `request_id` of the structures: the last event processed. -/
  done : Nat → Nat
  dead : List Nat
  /-- There is something in the event pipe of the listener. -/
  woken : List Nat
  /-- The pending event: the time of its notification. -/
  ev : Option Nat
  rid : Nat
  cnt : Nat
  clock : Nat
  nextId : Nat
  /-- Listeners that have called their callbacks but have not updated the event: request ID and number of callbacks. -/
  fin : List (Nat × Nat × Nat)
  /-- Times of the notifications of senders that wait to publish it. -/
  senders : List Nat
  /-- Request IDs of senders waiting until theirs is processed. -/
  waiters : List Nat
  /-- Processed notifications of subscriptions. -/
  got : List (Nat × Nat)
  log : List Pub

/-- What happens. -/
inductive Act where
  | subscribe (ctx : Nat)
  | unsubscribe (id : Nat)
  /-- The first part of suspending or resuming a subscription, in the ext SHM. -/
  | flag (id : Nat) (b : Bool)
  /-- The second part, in the subscription structure. -/
  | lflag (id : Nat) (b : Bool)
  /-- A sender learns there are subscribers and takes the time of the notification. -/
  | send
  /-- It publishes the event. -/
  | publish (t : Nat) (wait : Bool)
  /-- A listener calls the callbacks. -/
  | begin_ (ctx : Nat)
  /-- It updates the event. -/
  | finish (ctx : Nat)
  /-- A waiting sender returns. -/
  | return_ (rid : Nat)
  /-- A listener crashes. -/
  | die (ctx : Nat)
  /-- A sender gives up waiting for the pending event and discards it. -/
  | discard
deriving DecidableEq, Repr

/-- What comes of it. -/
inductive Out where
  | next (s : State)
  /-- The action is not possible now. -/
  | blocked
  /-- An assertion failed. -/
  | abort

/-- A subscriber to be notified, subscr.c 1795-1804. -/
def active (s : State) (x : Sub) : Bool := !s.dead.contains x.ctx && !x.off

/-- Update the event after some subscribers processed it, shm_sub.c 3190-3226. -/
def written (dbg : Bool) (s : State) (v : Nat) : Out :=
  if dbg ∧ s.cnt < v then .abort
  else .next { s with ev := if s.cnt = v then none else s.ev, cnt := (s.cnt + 2 ^ 32 - v % 2 ^ 32) % 2 ^ 32 }

/-- The listeners written to, shm_sub.c 3070-3085: of the first entries, as many as there are subscribers to be notified. -/
def wake (s : State) : List Nat :=
  ((s.subs.take (s.subs.countP (active s))).filter (active s)).map (·.ctx)

/-- One action. -/
def step (dbg : Bool) (s : State) : Act → Out
  | .subscribe c =>
    -- sysrepo.c 7158-7184; the number of subscriptions is a uint32_t
    if s.senders = [] ∧ s.waiters = [] ∧ c ∉ s.dead ∧ c ∉ s.fin.map (·.1) ∧ s.subs.length + 1 < 2 ^ 32 then
      .next { s with
        subs := s.subs ++ [⟨s.nextId, c, false, false, s.clock⟩]
        done := fun i => if i = c ∧ c ∉ s.subs.map (·.ctx) then 0 else s.done i
        clock := s.clock + 1
        nextId := s.nextId + 1 }
    else .blocked
  | .unsubscribe i =>
    -- subscr.c 1254-1290, 545-590
    match s.subs.find? (fun x => x.id == i) with
    | none => .blocked
    | some x =>
      if s.senders = [] ∧ s.waiters = [] ∧ x.ctx ∉ s.dead ∧ x.ctx ∉ s.fin.map (·.1) then
        if s.ev.isSome ∧ s.rid ≠ s.done x.ctx then
          written dbg { s with subs := s.subs.filter (fun y => y.id != i) } 1
        else .next { s with subs := s.subs.filter (fun y => y.id != i) }
      else .blocked
  | .flag i b =>
    -- shm_ext.c, sr_shmext_notif_sub_suspended
    if s.senders = [] ∧ s.waiters = [] ∧ s.subs.any (fun x => x.id == i && x.off != b) then
      .next { s with subs := s.subs.map (fun x => if x.id = i then { x with off := b } else x) }
    else .blocked
  | .lflag i b =>
    -- sysrepo.c 5356
    if s.subs.any (fun x => x.id == i && x.off == b) then
      .next { s with subs := s.subs.map (fun x => if x.id = i then { x with loff := b } else x) }
    else .blocked
  | .send =>
    -- sysrepo.c 7387-7396, shm_sub.c 3005-3012
    if s.subs.any (active s) then .next { s with senders := s.clock :: s.senders, clock := s.clock + 1 } else .blocked
  | .publish t w =>
    -- shm_sub.c 3041-3085
    if t ∈ s.senders ∧ s.ev = none then
      if dbg ∧ s.subs.countP (active s) = 0 then .abort
      else .next { s with
        senders := s.senders.erase t
        ev := some t
        rid := s.rid + 1
        cnt := s.subs.countP (active s)
        woken := wake s ++ s.woken
        waiters := if w then (s.rid + 1) :: s.waiters else s.waiters
        log := ⟨s.rid + 1, s.subs.map (·.id), (s.subs.filter (fun x => !s.dead.contains x.ctx && !x.off)).map (·.id)⟩ :: s.log }
    else .blocked
  | .begin_ c =>
    -- shm_sub.c 4640-4740
    match s.ev with
    | none => .blocked
    | some t =>
      if s.rid ≠ s.done c ∧ c ∉ s.dead ∧ c ∉ s.fin.map (·.1) ∧ c ∈ s.subs.map (·.ctx) then
        .next { s with
          got := (s.subs.filter (fun x => x.ctx == c && !x.loff && decide (x.since ≤ t))).map (fun x => (x.id, s.rid)) ++ s.got
          done := fun i => if i = c then s.rid else s.done i
          woken := s.woken.filter (· != c)
          fin := (c, s.rid, s.subs.countP (fun x => x.ctx == c && !x.loff && decide (x.since ≤ t))) :: s.fin }
      else .blocked
  | .finish c =>
    -- shm_sub.c 4742-4763
    match s.fin.find? (fun f => f.1 == c) with
    | none => .blocked
    | some f =>
      if s.ev = none ∨ s.rid ≠ f.2.1 then .next { s with fin := s.fin.filter (fun f => f.1 != c) }
      else written dbg { s with fin := s.fin.filter (fun f => f.1 != c) } f.2.2
  | .return_ r =>
    -- shm_sub.c 481-499, 617-622
    if r ∈ s.waiters ∧ s.ev = none then
      if dbg ∧ s.rid ≠ r then .abort else .next { s with waiters := s.waiters.erase r }
    else .blocked
  | .die c =>
    .next { s with dead := c :: s.dead, fin := s.fin.filter (fun f => f.1 != c) }
  | .discard =>
    -- shm_sub.c 354-357, 391-401
    if s.senders ≠ [] ∧ s.ev.isSome then .next { s with ev := none } else .blocked

/-- No subscription and no event. -/
def s0 : State := ⟨[], fun _ => 0, [], [], none, 0, 0, 0, 1, [], [], [], [], []⟩

/-- States after actions allowed by `A`. -/
inductive Reach (dbg : Bool) (A : State → Act → Prop) : State → Prop
  | init : Reach dbg A s0
  | step {s s' : State} (a : Act) : Reach dbg A s → A s a → step dbg s a = .next s' → Reach dbg A s'

/-! ### Specification -/

/-- Anything may happen. -/
def Any (_ : State) (_ : Act) : Prop := True

/-- Nothing out of the way happens: no listener crashes and no sender gives up; subscriptions are suspended and resumed
only between events, completely before the next one; a subscription is removed during an event only if it is to get the
notification or its listener has already processed it. -/
def Quiet (s : State) : Act → Prop
  | .die _ => False
  | .discard => False
  | .flag _ _ => s.ev = none
  | .lflag _ _ => s.ev = none
  | .publish _ _ => ∀ x ∈ s.subs, x.off = x.loff
  | .unsubscribe i => ∀ x ∈ s.subs, x.id = i → s.ev = none ∨ s.done x.ctx = s.rid ∨ ∃ p ∈ s.log, p.rid = s.rid ∧ i ∈ p.to
  | _ => True

/-- The subscription got the notification, or was removed. -/
def Served (s : State) (p : Pub) (i : Nat) : Prop := (i, p.rid) ∈ s.got ∨ i ∉ s.subs.map (·.id)

/-- The notification is still being processed. -/
def Pending (s : State) (p : Pub) : Prop := s.ev ≠ none ∧ p.rid = s.rid

end Verif.NotifEv
