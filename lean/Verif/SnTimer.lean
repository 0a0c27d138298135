/-!
Timers of subscriptions: the stop time, periodic updates and dampening.

Code modelled (/repo/src/utils/sn_common.c): `srsn_timer_thread` (1175-1228), `srsn_create_timer` (1230-1252),
`srsn_update_timer` (1254-1302).

One thread at a time creates, updates and cancels a timer. A condition variable forgets a signal nobody waits for; waking up
spuriously is left out. Waiting with a time limit may end because of the limit while another thread has the lock; then the result
is still the timeout. What is done with the lock held and without waiting is one step.

Simplified: the callback keeps the lock, as that of periodic updates does (the callback of the stop time gives it up and frees the
timer); times are numbers.
-/
namespace Verif.SnTimer

/-- Where the thread of the timer is: not started yet, waiting until a time, awake and before it gets the lock (with the result),
in the callback, finished. -/
inductive TPc where
  | start
  | waiting (t : Nat)
  | relock (timedout : Bool)
  | cb
  | done
deriving DecidableEq

/-- The user: not in a call, or waiting for the thread to finish. -/
inductive UPc where
  | idle
  | joining
deriving DecidableEq

/-- State: the time, whether the timer is set (`tid`), its trigger and interval, the thread, the user, and the times when the
callback was called. -/
structure St where
  now : Nat := 0
  tid : Bool := false
  trigger : Nat := 0
  interval : Nat := 0
  t : TPc := .done
  u : UPc := .idle
  calls : List Nat := []
deriving DecidableEq

/-- Whether the lock is free: only the callback keeps it. -/
def St.free (s : St) : Bool := s.t ≠ .cb

/-- `pthread_cond_signal`. -/
def signal (s : St) : TPc :=
  match s.t with
  | .waiting _ => .relock false
  | t => t

/-- What happens. -/
inductive Act where
  | tick
  | create (trigger interval : Nat)
  | update (trigger interval : Nat)
  | cancel
  | join
  | thread
  | expire
deriving DecidableEq

/-- One step; `none`: it cannot happen. -/
def step (s : St) : Act → Option St
  | .tick => some { s with now := s.now + 1 }
  -- lines 1237-1246
  | .create tr iv =>
    if s.u = .idle ∧ s.tid = false ∧ s.t = .done then some { s with tid := true, trigger := tr, interval := iv, t := .start } else none
  -- lines 1262, 1278-1286, 1289-1292
  | .update tr iv =>
    if s.u = .idle ∧ s.tid = true ∧ s.free then some { s with trigger := tr, interval := iv, t := signal s } else none
  -- lines 1262, 1267-1277, 1289-1292
  | .cancel =>
    if s.u = .idle ∧ s.free then
      some { s with tid := false, t := signal s, u := if s.tid then .joining else .idle }
    else none
  -- lines 1294-1300
  | .join => if s.u = .joining ∧ s.t = .done then some { s with u := .idle } else none
  -- the time limit of the wait is reached, line 1192
  | .expire =>
    match s.t with
    | .waiting t => if t ≤ s.now then some { s with t := .relock true } else none
    | _ => none
  | .thread =>
    match s.t with
    -- lines 1184-1192
    | .start => some { s with t := .waiting s.trigger }
    -- lines 1192-1202: finish, wait again, call the callback
    | .relock timedout =>
      if s.tid = false then some { s with t := .done }
      else if timedout then some { s with t := .cb, calls := s.calls ++ [s.now] }
      else some { s with t := .waiting s.trigger }
    -- lines 1209-1227
    | .cb =>
      if s.interval ≠ 0 then some { s with trigger := s.now + s.interval, t := .waiting (s.now + s.interval) }
      else some { s with t := .done }
    | _ => none

/-- The states that occur; `early`: a timer may be cancelled before its thread begins to wait; `late`: it may be updated after the
wait has ended. -/
inductive Reach (early late : Prop) : St → Prop
  | init (now : Nat) : Reach early late { now := now }
  | step {s s' : St} (a : Act) (h : Reach early late s) (he : a = .cancel → s.t = .start → early)
      (hl : ∀ tr iv, a = .update tr iv → s.t = .relock true → late) (hs : step s a = some s') : Reach early late s'

end Verif.SnTimer
