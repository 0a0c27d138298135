/-!
Subscriptions to notification streams: which modules are subscribed to, what an XPath filter lets through and in what order
replayed and new notifications are sent.

Code modelled (/repo/src/utils): `srsn_stream_collect_mods` (subscribed_notifications.c 98-159), `srsn_sn_sr_subscribe`
(sn_common.c 1523-1599), `srsn_modify_xpath` (sn_common.c 1339-1373), `srsn_sn_rpc_subscribe_cb` (sn_common.c 1438-1521) with
`srsn_ntf_add_dup` (1412-1433).

Simplified: modules and names are numbers; filters are built of tests of a notification of a module (with or without a
value in it), `not`, `and`, `or` and `true()`; the callbacks of one subscription are called one after another, as all its sysrepo
subscriptions share one handler; errors of sending and NACM are left out.
-/
namespace Verif.SnStream

/-- A notification: module, name, a value in it. -/
structure Notif where
  mod : Nat
  name : Nat
  val : Nat
deriving DecidableEq

/-- XPath filters. -/
inductive X where
  | tru
  | path (mod name : Nat) (val : Option Nat)
  | not (a : X)
  | and (a b : X)
  | or (a b : X)
deriving DecidableEq

/-- A module of the context. -/
structure Mod where
  id : Nat
  implemented : Bool
  hasNotif : Bool
deriving DecidableEq

/-- The number of the module `sysrepo`. -/
def sysrepo : Nat := 0

/-- The value of a filter for a notification, `sr_shmsub_notif_listen_filter_is_valid` (shm_sub.c 4603-4622): an absolute path
finds only nodes of the notification. -/
def X.eval (n : Notif) : X → Bool
  | tru => true
  | path m k v => decide (n.mod = m) && decide (n.name = k) && (match v with | none => true | some w => decide (n.val = w))
  | not a => !a.eval n
  | and a b => a.eval n && b.eval n
  | or a b => a.eval n || b.eval n

/-- Modules of the schema nodes that occur in a filter, `lys_find_xpath_atoms`. -/
def X.atoms : X → List Nat
  | tru => []
  | path m _ _ => [m]
  | not a => a.atoms
  | and a b => a.atoms ++ b.atoms
  | or a b => a.atoms ++ b.atoms

/-- `srsn_stream_collect_mods`, utils/subscribed_notifications.c 98-159; `stream = none` is NETCONF. -/
def collectMods (stream : Option Nat) (filter : Option X) (ctx : List Mod) : Option (List Nat) :=
  match stream with
  | some m => if ctx.any (fun x => x.id = m && x.implemented) then some [m] else none
  | none =>
    match filter with
    | some x => some (x.atoms.filter (fun m => m ≠ sysrepo)).eraseDups
    | none => some ((ctx.filter (fun x => x.implemented && x.hasNotif)).map (·.id))

/-- A subscription: the modules subscribed to and their filter. -/
structure Sub where
  mods : List Nat
  filter : Option X
deriving DecidableEq

/-- `srsn_subscribe`, the part of `srsn_sn_sr_subscribe` with modules and filters, utils/sn_common.c 1538-1576. -/
def subscribe (stream : Option Nat) (filter : Option X) (ctx : List Mod) : Option Sub :=
  (collectMods stream filter ctx).map (fun ms => ⟨ms, filter⟩)

/-- `srsn_modify_xpath_filter`, utils/sn_common.c 1339-1373. -/
def modify (s : Sub) (filter : Option X) : Sub := { s with filter := filter }

/-- Whether a new notification is delivered: there is a sysrepo subscription of its module and the filter is true. -/
def delivers (s : Sub) (n : Notif) : Bool :=
  s.mods.contains n.mod && (match s.filter with | none => true | some x => x.eval n)

/-! ### Replay -/

/-- A call of the callback: `j` is the sysrepo subscription. -/
inductive Ev where
  | replay (j m : Nat)
  | complete (j : Nat)
  | realtime (j m : Nat)
deriving DecidableEq

/-- What is written to the pipe. -/
inductive Out where
  | notif (m : Nat)
  | replayCompleted
deriving DecidableEq

/-- The subscription structure: counts, buffered notifications, and what was sent. -/
structure RSt where
  count : Nat
  complete : Nat
  buf : List Nat := []
  out : List Out := []
deriving DecidableEq

/-- `srsn_sn_rpc_subscribe_cb`, utils/sn_common.c 1460-1520. -/
def cb (s : RSt) : Ev → RSt
  | .complete _ =>
    if s.complete + 1 < s.count then { s with complete := s.complete + 1 }
    else { s with complete := s.complete + 1, out := s.out ++ .replayCompleted :: s.buf.map .notif }
  | .realtime _ m => if s.complete < s.count then { s with buf := s.buf ++ [m] } else { s with out := s.out ++ [.notif m] }
  | .replay _ m => { s with out := s.out ++ [.notif m] }

/-- A subscription of `k` modules, utils/sn_common.c 1548-1550. -/
def start (k : Nat) (replay : Bool) : RSt := { count := k, complete := if replay then 0 else k }

/-- All the calls. -/
def runCb (s : RSt) (evs : List Ev) : RSt := evs.foldl cb s

/-! ### The start of the replay -/

/-- A time. -/
structure Ts where
  sec : Nat
  nsec : Nat
deriving DecidableEq

/-- `sr_time_cmp`, common.c 1388-1405: greater, and less or equal. -/
def Ts.gt (a b : Ts) : Bool := decide (a.sec > b.sec) || (decide (a.sec = b.sec) && decide (a.nsec > b.nsec))

/-- The time returned for the replay, utils/sn_common.c 1535, 1555-1563, 1578-1582; `earliest`: the earliest stored notifications
of the modules. -/
def replayStart (start : Option Ts) (earliest : List Ts) : Ts :=
  let r := earliest.foldl (fun r t => if r.gt t then t else r) ⟨0, 0⟩
  match start with
  | none => r
  | some st => if !r.gt st then ⟨0, 0⟩ else r

/-! ## Specification -/

/-- The notification is a part of the stream: of the module, or, for NETCONF, of any implemented module with notifications. -/
def InStream (stream : Option Nat) (ctx : List Mod) (n : Notif) : Prop :=
  match stream with
  | some m => n.mod = m
  | none => ∃ x ∈ ctx, x.id = n.mod ∧ x.implemented = true ∧ x.hasNotif = true

/-- What the filter lets through. -/
def Passes (filter : Option X) (n : Notif) : Prop := ∀ x, filter = some x → x.eval n = true

/-- The filter is true only of notifications of modules that it names. -/
def Named (x : X) : Prop := ∀ n, x.eval n = true → n.mod ∈ x.atoms

/-- Notifications replayed, and new ones, in order of the calls. -/
def replays (evs : List Ev) : List Nat := evs.filterMap (fun e => match e with | .replay _ m => some m | _ => none)
/-- New notifications. -/
def realtimes (evs : List Ev) : List Nat := evs.filterMap (fun e => match e with | .realtime _ m => some m | _ => none)
/-- Sysrepo subscriptions that completed their replay. -/
def completes (evs : List Ev) : List Nat := evs.filterMap (fun e => match e with | .complete j => some j | _ => none)

/-- What sysrepo guarantees of the calls for `k` subscriptions with replay: each completes at most once and is not replayed to
after that. -/
def Valid (k : Nat) : List Ev → Prop
  | [] => True
  | e :: evs =>
    (match e with
     | .complete j => j < k ∧ j ∉ completes evs ∧ ∀ m, .replay j m ∉ evs
     | .replay j _ => j < k
     | .realtime j _ => j < k) ∧ Valid k evs

end Verif.SnStream
