/-!
# Asking subscribers for operational data (model and specification)

A process reading operational data asks all the subscribers for an XPath
(`sr_shmsub_oper_get_notify`), every one with an event of its own, and waits for
the answers.  The subscriptions of a module in a subscription context are
processed by one call (`sr_shmsub_oper_get_listen_process_module_events`).

Data are lists of numbers, merging is appending.  Simplified: all the subscribers asked are of
one subscription context, and the parsing and printing of data and the
opening of the shared memory succeed.
-/

namespace Verif.OperAsk

/-- What a callback does. -/
inductive Cb where
  /-- returns data -/
  | data (d : List Nat)
  /-- returns an error -/
  | fail (code : Nat)
  /-- returns `SR_ERR_CALLBACK_SHELVE` -/
  | shelve
  /-- takes so long that the process asking has given up -/
  | late
deriving DecidableEq, Repr

/-- The event of a subscription. -/
inductive Ev where
  /-- `SR_SUB_EV_NONE` -/
  | none
  /-- `SR_SUB_EV_OPER`, waiting for the subscriber -/
  | oper
  /-- `SR_SUB_EV_SUCCESS` with data -/
  | success (d : List Nat)
  /-- `SR_SUB_EV_ERROR` -/
  | error (code : Nat)
deriving DecidableEq, Repr

/-- A subscription and its event. -/
structure Sub where
  id : Nat
  suspended : Bool
  cb : Cb
  ev : Ev
  /-- the request is the one processed last (`request_id`) -/
  seen : Bool
deriving DecidableEq, Repr

/-- Models the first two loops of `sr_shmsub_oper_get_notify()`, src/shm_sub.c
lines 2202–2272: an event for every subscriber that is not suspended. -/
def ask (subs : List Sub) : List Sub :=
  subs.map fun s => if s.suspended then s else { s with ev := .oper, seen := false }

/-- One subscription with a new event: the subscription afterwards, and whether the
loop goes on with the next one.
Models src/shm_sub.c lines 3701–3787: the loop condition is `err_code == SR_ERR_OK`,
also after shelving, and when the event was given up meanwhile the function is left
(`sr_shmsub_oper_get_listen_relock()`, lines 3632–3656). -/
def processOne (s : Sub) : Sub × Bool :=
  match s.cb with
  | .data d => ({ s with seen := true, ev := .success d }, true)
  | .fail c => ({ s with seen := true, ev := .error c }, false)
  | .shelve => (s, false)
  | .late => ({ s with seen := true, ev := .none }, false)

/-- The subscriptions after processing and the IDs of those whose callbacks were called, in order.
Models `sr_shmsub_oper_get_listen_process_module_events()`, src/shm_sub.c
lines 3659–3812. -/
def listen : List Sub → List Sub × List Nat
  | [] => ([], [])
  | s :: ss =>
    if s.suspended || s.ev != .oper || s.seen then
      let r := listen ss
      (s :: r.1, r.2)
    else
      let p := processOne s
      if p.2 then
        let r := listen ss
        (p.1 :: r.1, s.id :: r.2)
      else (p.1 :: ss, [s.id])

/-- Codes of errors. -/
def timeOut : Nat := 0

/-- The answers: data merged in the order of the subscriptions and the errors of
callbacks.  Models `sr_shmsub_notify_many_wait_wr()`, src/shm_sub.c lines
700–771, and the last loop of `sr_shmsub_oper_get_notify()`, lines 2274–2330: an event
still waiting, or given up, is a time-out. -/
def collect : List Sub → List Nat × List Nat
  | [] => ([], [])
  | s :: ss =>
    let r := collect ss
    if s.suspended then r
    else match s.ev with
      | .success d => (d ++ r.1, r.2)
      | .error c => (r.1, c :: r.2)
      | .oper | .none => (r.1, timeOut :: r.2)

/-- Reading the data of an XPath: with any error of a callback, no data and the
errors.  Models `sr_xpath_oper_data_get()`, src/modinfo.c lines 1085–1155, with the handler thread
woken up once by the bytes in the pipe, all read at once.  Also the callbacks called. -/
def get (subs : List Sub) : Except (List Nat) (List Nat) × List Nat :=
  let l := listen (ask subs)
  let r := collect l.1
  (if r.2 = [] then .ok r.1 else .error r.2, l.2)

/-- Processing again, any number of times. -/
def again : Nat → List Sub → List Sub × List Nat
  | 0, subs => (subs, [])
  | n + 1, subs =>
    let l := listen subs
    let r := again n l.1
    (r.1, l.2 ++ r.2)

/-! ## Specification -/

/-- What a subscriber that is called answers. -/
def answer : Cb → Except Nat (List Nat)
  | .data d => .ok d
  | .fail c => .error c
  | .shelve => .error 0
  | .late => .error 0

/-- The data of an answer. -/
def dataOf : Except Nat (List Nat) → List Nat
  | .ok d => d
  | .error _ => []

/-- The error of an answer. -/
def errOf : Except Nat (List Nat) → Option Nat
  | .ok _ => none
  | .error c => some c

/-- What is expected of reading: the callbacks of all the subscribers that are not suspended are called,
in their order; the data of all of them are returned in this order, or else all the errors. -/
structure Expected (subs : List Sub) (res : Except (List Nat) (List Nat)) (called : List Nat) : Prop where
  called : called = (subs.filter fun s => !s.suspended).map Sub.id
  data : (∀ s ∈ subs, s.suspended = false → ∃ d, answer s.cb = .ok d) →
    res = .ok ((subs.filter fun s => !s.suspended).flatMap fun s => dataOf (answer s.cb))
  errors : (∃ s ∈ subs, s.suspended = false ∧ ∃ c, answer s.cb = .error c) →
    res = .error ((subs.filter fun s => !s.suspended).filterMap fun s => errOf (answer s.cb))

end Verif.OperAsk
