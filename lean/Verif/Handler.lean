/-!
# The handler thread of a subscription (model and specification)

The thread of a subscription context (`sr_shmsub_listen_thread`) sleeps until
a byte is in its event pipe, and processes all the events then.  It is suspended
and resumed with `sr_subscription_thread_suspend()` and
`sr_subscription_thread_resume()`, and ended by `sr_unsubscribe()`.

Every step below is one atomic access of the code.  Simplified: an event is a number and
processing it is one step (it is the subject of other components); bytes are
written to the pipe by whoever made an event, after it; writing one byte fails only when the
pipe is full.
-/

namespace Verif.Handler

/-- `thread_running`: 0, 1, 2. -/
inductive Run where
  | off | on | susp
deriving DecidableEq, Repr

/-- Where the thread is, src/shm_sub.c lines 4888–4956. -/
inductive Pc where
  /-- in `poll` (`wait_for_event`), line 4935 -/
  | wait
  /-- the condition of the loop, line 4899 -/
  | top
  /-- the check of being suspended, line 4900 -/
  | check
  /-- calling `sr_subscription_process_events()`, the pipe not read yet -/
  | read
  /-- the pipe was read, events are being processed -/
  | process
  /-- events processed, line 4918 -/
  | after
  /-- returned -/
  | ended
  /-- ended because of an error, line 4950 -/
  | failed
deriving DecidableEq, Repr

/-- The thread, its pipe and events. -/
structure State where
  run : Run
  pc : Pc
  /-- bytes in the pipe -/
  pipe : Nat
  /-- events to be processed -/
  pend : List Nat
  /-- events made before the pipe was read that are not processed yet -/
  snap : List Nat
  /-- events processed -/
  done : List Nat
  /-- bytes about to be written to the pipe -/
  owed : Nat
  /-- `sr_unsubscribe()` was called -/
  unsub : Bool
  /-- it is waiting for the thread with `pthread_join` -/
  joining : Bool
  /-- the thread detached itself while being joined (undefined behaviour) -/
  bad : Bool
deriving DecidableEq, Repr

/-- Steps. -/
inductive Act where
  /-- an event is made -/
  | post (e : Nat)
  /-- a byte is written -/
  | notify
  /-- `sr_subscription_thread_suspend()` succeeds -/
  | suspend
  /-- `sr_subscription_thread_resume()` succeeds -/
  | resume
  /-- `sr_unsubscribe()` after all the subscriptions were removed -/
  | unsubscribe
  /-- the time of the next scheduled event (`wake_up_in`) elapses in `poll` -/
  | timer
  /-- the next step of the thread -/
  | thread
  /-- the thread processes an event -/
  | handle (e : Nat)
  /-- `sr_subscription_process_events()` fails with `SR_ERR_TIME_OUT` -/
  | timeOut
  /-- it fails with another error -/
  | error
deriving DecidableEq, Repr

/-- A step, if possible; `cap` is the size of the pipe. -/
def step (cap : Nat) (s : State) : Act → Option State
  -- an event is written to the shared memory, then the pipe is notified
  -- (for example `sr_shmsub_change_notify_evpipe()`, src/shm_sub.c)
  | .post e =>
    if s.unsub then none else some { s with pend := s.pend ++ [e], owed := s.owed + 1 }
  -- `sr_shmsub_notify_evpipe()`, src/shm_sub.c lines 1082–1116: `write` fails with a full pipe
  | .notify =>
    if s.owed = 0 then none
    else some { s with owed := s.owed - 1, pipe := if s.pipe < cap then s.pipe + 1 else s.pipe }
  -- `_sr_subscription_thread_suspend()`, src/sysrepo.c lines 5438–5457
  | .suspend => if s.run = .on then some { s with run := .susp } else none
  -- `sr_subscription_thread_resume()`, src/sysrepo.c lines 5480–5510
  | .resume => if s.run = .susp then some { s with run := .on, owed := s.owed + 1 } else none
  -- `_sr_unsubscribe()`, src/sysrepo.c lines 5516–5575; the load and the store of the flag in one step
  | .unsubscribe =>
    if s.unsub then none
    else if s.run = .off then some { s with unsub := true, pend := [], snap := [] }
    else some { s with unsub := true, joining := true, pend := [], snap := [], run := .off, owed := s.owed + 1 }
  | .timer => if s.pc = .wait then some { s with pc := .top } else none
  | .thread =>
    match s.pc with
    | .wait => if s.pipe = 0 then none else some { s with pc := .top }
    | .top => if s.run = .off then some { s with pc := .ended } else some { s with pc := .check }
    | .check => if s.run = .susp then some { s with pc := .wait } else some { s with pc := .read }
    -- all the bytes are read, src/sysrepo.c lines 5123–5126
    | .read => some { s with pc := .process, pipe := 0, snap := s.pend }
    | .process => if s.snap = [] then some { s with pc := .after } else none
    | .after => if s.run = .off then some { s with pc := .ended } else some { s with pc := .wait }
    | .ended | .failed => none
  | .handle e =>
    if s.pc = .process ∧ e ∈ s.pend then
      some { s with pend := s.pend.erase e, snap := s.snap.erase e, done := s.done ++ [e] }
    else none
  | .timeOut =>
    if s.pc = .read ∨ s.pc = .process then some { s with pc := .top, snap := [] } else none
  | .error =>
    if s.pc = .read ∨ s.pc = .process then
      some { s with pc := .failed, snap := [], run := .off, bad := s.joining }
    else none

/-- Models `sr_subscr_new()`, src/sysrepo.c lines 5749–5825: the thread is started running
or suspended (`SR_SUBSCR_THREAD_SUSPEND`) and starts by waiting. -/
def start (suspended : Bool) : State :=
  { run := if suspended then .susp else .on, pc := .wait, pipe := 0, pend := [], snap := [], done := [],
    owed := 0, unsub := false, joining := false, bad := false }

/-- A sequence of steps. -/
def exec (cap : Nat) (s : State) : List Act → Option State
  | [] => some s
  | a :: as => (step cap s a).bind fun s' => exec cap s' as

/-- States that can occur. -/
def Reachable (cap : Nat) (s : State) : Prop := ∃ b as, exec cap (start b) as = some s

/-! ## Specification -/

/-- The thread sleeps and nobody is about to wake it up. -/
def Asleep (s : State) : Prop := s.pc = .wait ∧ s.pipe = 0 ∧ s.owed = 0

/-- Steps of the thread itself without failures, and of the writing of bytes. -/
def Own : Act → Prop
  | .thread => True
  | .handle _ => True
  | .notify => True
  | _ => False

/-- None of these steps is possible. -/
def Rest (cap : Nat) (s : State) : Prop := ∀ a, Own a → step cap s a = none

end Verif.Handler
