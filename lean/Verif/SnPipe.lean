import Verif.Bytes
/-!
The pipe of a notification subscription: `srsn_ntf_send` (utils/sn_common.c 1133-1170) writes a notification with one
`writev`, `srsn_read_notif` (utils/subscribed_notifications.c 830-880) reads it with three `read`s.

Any number of threads write (callbacks of the sysrepo subscriptions, timers, calls of the API), one thread reads.

The kernel: a pipe holds at most `cap` bytes. A write of at most `PIPE_BUF` bytes is atomic, it waits until all of it fits
(pipe(7)). A larger one is written in pieces, as room appears, and pieces of other writes may come between them. A read
returns as many bytes as there are, up to the size asked for. Reading does not block; with a blocking descriptor there are
no results `again` and the other results are the same.

Simplified: a notification is the bytes of its LYB form, parsing them back is libyang's; out of memory is left out.
-/
namespace Verif.SnPipe
open Verif.Bytes

/-- `PIPE_BUF` of Linux. -/
def pipeBuf : Nat := 4096

/-- A notification: the bytes of its timestamp and its LYB data. -/
structure Msg where
  ts : List Nat
  body : List Nat
deriving DecidableEq

/-- What is written, utils/sn_common.c 1141-1159. -/
def encode (m : Msg) : List Nat := m.ts ++ (le32 m.body.length ++ m.body)

/-- The result of one `srsn_read_notif`. -/
inductive Res where
  | notif (m : Msg)
  | again
  | eof
  | err
deriving DecidableEq

/-- Where `srsn_read_notif` is: not called, before the read of the size, before the read of the data, in undefined behaviour. -/
inductive Pc where
  | idle
  | size (ts : List Nat)
  | data (ts : List Nat) (n : Nat)
  | ub
deriving DecidableEq

/-- State: bytes in the pipe, bytes that the calls of `writev` in progress have yet to write, whether the write end is closed,
the notifications sent so far (in the order of their writes), the reader and the results of its calls. -/
structure St where
  pipe : List Nat := []
  writing : List (List Nat) := []
  closed : Bool := false
  sent : List Msg := []
  pc : Pc := .idle
  got : List Res := []

/-- Bytes of a `uint32_t` read. -/
def num : List Nat → Nat
  | x :: y :: z :: w :: _ => x + 256 * y + 65536 * z + 16777216 * w
  | _ => 0

/-- One `read` of `srsn_read_notif`: the timestamp (lines 841-854), the size (856-860), the data (862-869). The size plus one is
computed in 32 bits (line 862), so it may be 0, and a size of 2^31 or more never equals the result of `read` (line 866). -/
def read (s : St) : St :=
  match s.pc with
  | .idle =>
    if s.pipe.isEmpty then { s with got := s.got ++ [if s.closed then .eof else .again] }
    else if s.pipe.length < 16 then { s with pipe := [], got := s.got ++ [.err] }
    else { s with pipe := s.pipe.drop 16, pc := .size (s.pipe.take 16) }
  | .size t =>
    if s.pipe.length < 4 then { s with pipe := [], pc := .idle, got := s.got ++ [.err] }
    else { s with pipe := s.pipe.drop 4, pc := .data t (num s.pipe) }
  | .data t n =>
    if u32 (n + 1) ≤ min n s.pipe.length ∧ s.pipe ≠ [] then { s with pc := .ub }
    else if s.pipe.length < n ∨ 2147483648 ≤ n then { s with pipe := s.pipe.drop n, pc := .idle, got := s.got ++ [.err] }
    else { s with pipe := s.pipe.drop n, pc := .idle, got := s.got ++ [.notif ⟨t, s.pipe.take n⟩] }
  | .ub => s

/-- What happens. -/
inductive Act where
  /-- a thread calls `srsn_ntf_send` -/
  | send (m : Msg)
  /-- the kernel takes `n` more bytes of a write in progress -/
  | write (i n : Nat)
  /-- the subscription is terminated, no write is in progress -/
  | close
  /-- the reader does its next `read` -/
  | read

/-- One step; `none`: it cannot happen. -/
def step (cap : Nat) (s : St) : Act → Option St
  | .send m =>
    if s.closed then none
    else if (encode m).length ≤ pipeBuf then
      if s.pipe.length + (encode m).length ≤ cap then some { s with pipe := s.pipe ++ encode m, sent := s.sent ++ [m] } else none
    else some { s with writing := s.writing ++ [encode m], sent := s.sent ++ [m] }
  | .write i n =>
    match s.writing[i]? with
    | none => none
    | some w =>
      if n = 0 ∨ w.length < n ∨ cap < s.pipe.length + n then none
      else some { s with pipe := s.pipe ++ w.take n,
                         writing := if n = w.length then s.writing.eraseIdx i else s.writing.set i (w.drop n) }
  | .close => if s.writing.isEmpty then some { s with closed := true } else none
  | .read => some (read s)

/-- The states that occur when the notifications sent have timestamps of 16 bytes and sizes of 32 bits. -/
inductive Reach (cap : Nat) : St → Prop
  | init : Reach cap {}
  | step {s s' : St} (a : Act) (h : Reach cap s) (hm : ∀ m, a = .send m → m.ts.length = 16 ∧ m.body.length < 4294967296)
      (hs : step cap s a = some s') : Reach cap s'

/-! ## Specification -/

/-- The notifications among the results, in order. -/
def notifs : List Res → List Msg
  | [] => []
  | .notif m :: rs => m :: notifs rs
  | _ :: rs => notifs rs

end Verif.SnPipe
