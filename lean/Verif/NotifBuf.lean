/-!
Model of buffering of notifications of a session: senders put notifications into a list, a thread of the session
stores them for replay (src/replay.c:80-296, src/sysrepo.c:641-735, 805-827).

The mutex of the buffer is explicit, everything done while holding it is one step. Memory allocation does not fail.
-/
namespace Verif.NotifBuf

/-- A notification with its time. -/
abbrev Ntf := Nat

/-- Where the storing thread is (`sr_notif_buf_thread`, src/replay.c:232-296). -/
inductive Thr where
  /-- about to lock the mutex -/
  | lock
  /-- in `sr_cond_wait`, woken up or not -/
  | wait (woken : Bool)
  /-- writing the taken notifications, `last_check` -/
  | write (batch : List Ntf) (last : Bool)
  /-- returned success -/
  | ended
  /-- returned an error -/
  | dead
  deriving Repr, DecidableEq

/-- Where stopping of the session is (`sr_session_notif_buf_stop`, src/sysrepo.c:647-700). -/
inductive Stop where
  | no
  /-- `thread_running` cleared, joining the thread -/
  | joining
  /-- `sr_session_stop` returned, with success or not -/
  | returned (ok : Bool)
  deriving Repr, DecidableEq

/-- State of a session with a notification buffer. -/
structure St where
  /-- buffered notifications, `notif_buf.first` to `notif_buf.last` -/
  buf : List Ntf
  /-- `notif_buf.thread_running` -/
  running : Bool
  /-- a sender that has the mutex with the notification it will buffer -/
  holder : Option Ntf
  thr : Thr
  stop : Stop
  /-- the time limit of locking by the thread (computed once when it starts, src/replay.c:244) has passed -/
  late : Bool
  /-- notifications whose sending succeeded, in the order of sending -/
  sent : List Ntf
  /-- notifications stored for replay, in the order of storing -/
  stored : List Ntf
  deriving Repr, DecidableEq

/-- `sr_session_notif_buffer` (src/sysrepo.c:805-827). -/
def init : St := ⟨[], true, none, .lock, .no, false, [], []⟩

/-- `sr_cond_broadcast`. -/
def wake : Thr → Thr
  | .wait _ => .wait true
  | t => t

/-- The part of the thread that has the mutex (src/replay.c:253-279): it waits while there is nothing to do, otherwise
takes the whole buffer. -/
def take (s : St) : St :=
  if s.running = true ∧ s.buf = [] then { s with thr := .wait false }
  else { s with thr := .write s.buf (!s.running), buf := [] }

/-- Steps. -/
inductive Label where
  /-- a sender locks the mutex (src/replay.c:157-162) -/
  | sendLock (n : Ntf)
  /-- it adds the notification and unlocks (src/replay.c:164-174) -/
  | sendPut
  /-- time passes -/
  | time
  /-- the thread locks the mutex, or fails if it is late and the mutex is not free (src/replay.c:247-251) -/
  | thrLock
  /-- the thread wakes up, also spuriously -/
  | thrWake
  /-- waiting fails (src/replay.c:259-265) -/
  | thrWaitFail
  /-- one notification is written, or fails (src/replay.c:203-233), or all were written (src/replay.c:281-292) -/
  | thrWrite (ok : Bool)
  /-- the session is being stopped (src/sysrepo.c:658-674) -/
  | stop
  /-- the thread is joined (src/sysrepo.c:676-700) and the rest of the session stopped (src/sysrepo.c:711-770): the
  result of joining is overwritten there by the result of locking the context, which succeeds here -/
  | join
  deriving Repr

/-- One step, `none` if it is not possible. -/
def step (s : St) : Label → Option St
  | .sendLock n =>
    if s.holder = none ∧ s.stop = .no then some { s with holder := some n } else none
  | .sendPut =>
    match s.holder with
    | none => none
    | some n => some { s with holder := none, buf := s.buf ++ [n], sent := s.sent ++ [n], thr := wake s.thr }
  | .time => some { s with late := true }
  | .thrLock =>
    if s.thr = .lock then
      if s.holder = none then some (take s)
      else if s.late then some { s with thr := .dead }
      else none
    else none
  | .thrWake =>
    match s.thr with
    | .wait _ => if s.holder = none then some (take s) else none
    | _ => none
  | .thrWaitFail =>
    match s.thr with
    | .wait _ => some { s with thr := .dead }
    | _ => none
  | .thrWrite ok =>
    match s.thr with
    | .write (n :: t) last =>
      if ok then some { s with thr := .write t last, stored := s.stored ++ [n] } else some { s with thr := .dead }
    | .write [] last => some { s with thr := if last then .ended else .lock }
    | _ => none
  | .stop =>
    if s.holder = none ∧ s.stop = .no then
      some { s with running := false, stop := .joining, thr := wake s.thr }
    else none
  | .join =>
    if s.stop = .joining then
      match s.thr with
      | .ended => some { s with stop := .returned true }
      | .dead => some { s with stop := .returned true, buf := [] }
      | _ => none
    else none

/-- Reachable states. -/
inductive Reach : St → Prop
  | init : Reach init
  | step {s s' : St} (l : Label) : Reach s → step s l = some s' → Reach s'

/-- Steps that the storing thread makes by itself; it does not wake up spuriously. -/
def threadStep (s : St) : Label → Prop
  | .thrLock => True
  | .thrWake => s.thr = .wait true
  | .thrWrite _ => True
  | _ => False

end Verif.NotifBuf
