import Verif.Time
/-!
# Modifying notification subscriptions

Model of `sr_notif_sub_modify_xpath` (sysrepo.c 7466-7533) and `sr_notif_sub_modify_stop_time` (sysrepo.c 7535-7599), with subscribing
(`_sr_notif_subscribe`, sysrepo.c 7096-7220, `sr_subscr_notif_sub_add`, subscr.c 432-530) and the XPath filter of the listener
(`sr_shmsub_notif_listen_process_module_events`, shm_sub.c 4625-4760).

Simplifications: an XPath is a number, `V` tells which are accepted (`sr_subscr_notif_xpath_check`) and `sel` which notifications they
select; the calls and the listener exclude each other (SUBS lock), so each is one step; suspending is C124, NACM C43, ending at the stop
time C111; replay and the delivery of notifications to the listener are C37 and C120; memory allocation succeeds.
-/
namespace Verif.NotifMod
open Verif.Time (Ts tsCmp)

/-- What the callback is called with: a notification, or `SR_EV_NOTIF_MODIFIED`. -/
inductive Ev where
  | notif (n : Nat)
  | modified
deriving DecidableEq

/-- `struct modsub_notifsub_s`; zero times are no times. `log` is what the callback was called with. -/
structure Sub where
  id : Nat
  xpath : Option Nat
  start : Ts
  stop : Ts
  log : List Ev
deriving DecidableEq

/-- A subscription structure and the next ID (`new_sub_id` of the main SHM). -/
structure St where
  subs : List Sub
  next : Nat

/-- What fails in a call: starting the event session, writing to the event pipe. -/
structure Fail where
  sess : Bool
  pipe : Bool
deriving DecidableEq

/-- No failure. -/
def Fail.none : Fail := ⟨false, false⟩

/-- Calls, and a notification processed by the listener. -/
inductive Call where
  | subscribe (x : Option Nat) (start stop : Option Ts) (now : Ts)
  | modXpath (id : Nat) (x : Option Nat) (f : Fail)
  | modStop (id : Nat) (t : Option Ts) (f : Fail)
  | notif (n : Nat)

/-- Returned codes. -/
inductive Rc where
  | ok | notFound | inval | badXpath | internal
deriving DecidableEq

/-- `SR_TS_IS_ZERO`, common.h 166. -/
def isZero (t : Ts) : Bool := t.sec == 0 && t.nsec == 0

/-- `sr_subscr_notif_sub_find`, subscr.c 815-832. -/
def find (id : Nat) : List Sub → Option Sub
  | [] => none
  | s :: l => if s.id = id then some s else find id l

/-- Changing the subscription found. -/
def upd (id : Nat) (f : Sub → Sub) : List Sub → List Sub
  | [] => []
  | s :: l => if s.id = id then f s :: l else s :: upd id f l

/-- The arguments of `_sr_notif_subscribe` are refused, sysrepo.c 7110-7114. -/
def badTimes (start stop : Option Ts) (now : Ts) : Bool :=
  (match start with | some a => tsCmp a now > 0 | none => false) ||
  (match stop with
    | some b => (match start with | some a => tsCmp b a < 0 | none => tsCmp b now < 0)
    | none => false)

/-- `sr_shmsub_notif_listen_filter_is_valid`, shm_sub.c 4603-4623. -/
def filterOk (sel : Nat → Nat → Bool) (xpath : Option Nat) (n : Nat) : Bool :=
  match xpath with
  | none => true
  | some x => sel x n

/-- One call. -/
def step (V : Option Nat → Bool) (sel : Nat → Nat → Bool) (st : St) : Call → St × Rc
  | .subscribe x start stop now =>
    if badTimes start stop now then (st, .inval)
    else if !V x then (st, .badXpath)
    else (⟨st.subs ++ [⟨st.next, x, start.getD ⟨0, 0⟩, stop.getD ⟨0, 0⟩, []⟩], st.next + 1⟩, .ok)
  | .modXpath id x f =>
    match find id st.subs with
    | none => (st, .notFound)
    | some s =>
      -- sysrepo.c 7491-7496
      if x = s.xpath then (st, .ok)
      -- sysrepo.c 7502-7505
      else if !V x then (st, .badXpath)
      -- sysrepo.c 7507-7525
      else if f.sess then ({ st with subs := upd id (fun s => { s with xpath := x }) st.subs }, .internal)
      else ({ st with subs := upd id (fun s => { s with xpath := x, log := s.log ++ [.modified] }) st.subs }, .ok)
  | .modStop id t f =>
    match find id st.subs with
    | none => (st, .notFound)
    | some s =>
      -- sysrepo.c 7558-7562
      if (match t with | some b => isZero s.start && tsCmp b s.start < 0 | none => false) then (st, .inval)
      -- sysrepo.c 7564-7567
      else if (match t with | some b => tsCmp b s.stop == 0 | none => false) then (st, .ok)
      -- sysrepo.c 7569-7591
      else if f.sess then ({ st with subs := upd id (fun s => { s with stop := t.getD ⟨0, 0⟩ }) st.subs }, .internal)
      else ({ st with subs := upd id (fun s => { s with stop := t.getD ⟨0, 0⟩, log := s.log ++ [.modified] }) st.subs },
        if f.pipe then .internal else .ok)
  | .notif n =>
    -- shm_sub.c 4721-4727
    ({ st with subs := st.subs.map fun s => if filterOk sel s.xpath n then { s with log := s.log ++ [.notif n] } else s }, .ok)

/-- A history of calls. -/
def run (V : Option Nat → Bool) (sel : Nat → Nat → Bool) : St → List Call → St
  | st, [] => st
  | st, c :: cs => run V sel (step V sel st c).1 cs

/-! ## Specification -/

/-- A time before another one. -/
def Earlier (a b : Ts) : Prop := a.sec < b.sec ∨ (a.sec = b.sec ∧ a.nsec < b.nsec)

instance (a b : Ts) : Decidable (Earlier a b) := by unfold Earlier; infer_instance

/-- A time of the real-time clock. -/
def Normal (t : Ts) : Prop := 0 ≤ t.sec ∧ 0 ≤ t.nsec

/-- What a user knows of a subscription: its XPath, start and stop time, and what the callback was called with. -/
structure View where
  xpath : Option Nat
  start : Option Ts
  stop : Option Ts
  log : List Ev
deriving DecidableEq

/-- The stop time `t` is before the start time. -/
def tooEarly (t start : Option Ts) : Bool :=
  match t, start with
  | some b, some a => decide (Earlier b a)
  | _, _ => false

/-- No XPath selects everything. -/
def selected (sel : Nat → Nat → Bool) (x : Option Nat) (n : Nat) : Bool :=
  match x with
  | some x => sel x n
  | none => true

/-- What a call or notification is to do with the subscription `id`, and, for a call on it, whether it is to succeed: an XPath or stop time
that is the same changes nothing; other ones are set and the callback is told, unless the XPath is wrong or the stop time before the start
time; a notification is passed on if the XPath selects it. -/
def wanted (V : Option Nat → Bool) (sel : Nat → Nat → Bool) (id : Nat) (v : View) : Call → View × Bool
  | .subscribe .. => (v, true)
  | .modXpath i x _ =>
    if i ≠ id ∨ x = v.xpath then (v, true)
    else if V x = false then (v, false)
    else ({ v with xpath := x, log := v.log ++ [.modified] }, true)
  | .modStop i t _ =>
    if i ≠ id then (v, true)
    else if tooEarly t v.start then (v, false)
    else if t = v.stop then (v, true)
    else ({ v with stop := t, log := v.log ++ [.modified] }, true)
  | .notif n =>
    if selected sel v.xpath n then ({ v with log := v.log ++ [.notif n] }, true) else (v, true)

/-- A history of them. -/
def wantedRun (V : Option Nat → Bool) (sel : Nat → Nat → Bool) (id : Nat) : View → List Call → View
  | v, [] => v
  | v, c :: cs => wantedRun V sel id (wanted V sel id v c).1 cs

/-- A time, or none if it is zero. -/
def time (t : Ts) : Option Ts := if t = ⟨0, 0⟩ then none else some t

/-- What a user can see of a subscription (`sr_notif_sub_get_info`, sysrepo.c 7424-7464). -/
def view (s : Sub) : View := ⟨s.xpath, time s.start, time s.stop, s.log⟩

/-- The calls for which the code does what is wanted: the event session can be started and the pipe be written, a stop time is not before
the start time, and it is removed only if there is one. -/
def Fine (id : Nat) (v : View) : Call → Prop
  | .modXpath i _ f => i = id → f.sess = false
  | .modStop i t f => i = id → f = ⟨false, false⟩ ∧ (t = none → v.stop ≠ none) ∧
      ∀ b, t = some b → Normal b ∧ b ≠ ⟨0, 0⟩ ∧ ∀ a, v.start = some a → ¬ Earlier b a
  | _ => True

/-- All the calls of a history are. -/
def FineRun (V : Option Nat → Bool) (sel : Nat → Nat → Bool) (id : Nat) : View → List Call → Prop
  | _, [] => True
  | v, c :: cs => Fine id v c ∧ FineRun V sel id (wanted V sel id v c).1 cs

end Verif.NotifMod
