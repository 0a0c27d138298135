/-!
The thread that reads the notifications of all the subscriptions of an application and calls its callback:
`srsn_dispatch_add` (utils/sn_common.c 1711-1780), `srsn_read_dispatch_thread` (1626-1709), `srsn_dispatch_count` (1782-1803),
and the wait for it in `srsn_sub_free` (806-844), with which `srsn_terminate` ends.

The dispatch lock is held for all of `srsn_dispatch_add` and for a round of the thread, so these exclude each other. Sending,
terminating and creating subscriptions go on meanwhile.

The kernel: file descriptors are numbers, each may be open for the read end of one pipe. A closed number is used again
later. A pipe is a queue of notifications (their bytes are the model `SnPipe`); `POLLIN` is reported when it is not empty,
`POLLHUP` when its write end is closed, `POLLNVAL` when the number is not open.

Simplified: out of memory, failing `poll` and `srsn_dispatch_destroy` are left out; `srsn_dispatch_init` was called; reading
with the context lock held is one step per notification; timestamps are a part of notifications.
-/
namespace Verif.SnDispatch

/-- What `poll` reports for an item. -/
structure Rev where
  inp : Bool
  hup : Bool
  nval : Bool
deriving DecidableEq

/-- Something is reported. -/
def Rev.some (r : Rev) : Bool := r.inp || r.hup || r.nval

/-- What the thread does with the current item. -/
inductive Phase where
  | start
  | reading
  | closing
deriving DecidableEq

/-- A round of the thread: the index, the number of reported items left, what was reported. -/
structure Round where
  i : Nat
  r : Nat
  revs : List Rev
  phase : Phase

/-- The arrays: descriptors (`none` is -1), callback data, and the number of items. -/
structure Arr where
  pfds : List (Option Nat)
  data : List Nat
  count : Nat

/-- State. The kernel: which pipe a descriptor reads, the notifications in a pipe, whether its write end is closed, how many
pipes were created. The library: the arrays, the number of valid items, the round of the thread, undefined behaviour. Then
the descriptor every subscription was created with and whether `srsn_terminate` of it has returned. Kept for the statements:
the callback data every subscription was added with, the notifications sent to it, and the calls of the callback, with the
subscription read from. -/
structure St where
  fdt : Nat → Option Nat := fun _ => none
  queue : Nat → List Nat := fun _ => []
  hup : Nat → Bool := fun _ => false
  npipes : Nat := 0
  arr : Arr := ⟨[], [], 0⟩
  valid : Nat := 0
  round : Option Round := none
  ub : Bool := false
  rfd : Nat → Nat := fun _ => 0
  done : Nat → Bool := fun _ => false
  added : Nat → Option Nat := fun _ => none
  sent : Nat → List Nat := fun _ => []
  log : List (Nat × Nat × Nat) := []

/-- A function changed in one place. -/
def upd {α : Type} (f : Nat → α) (x : Nat) (v : α) : Nat → α := fun y => if y = x then v else f y

/-- The removal of invalid items, utils/sn_common.c 1736-1748; `fuel` is the number of items. -/
def compact : Nat → Nat → Arr → Arr
  | 0, _, a => a
  | fuel + 1, i, a =>
    if i < a.count then
      if a.pfds[i]? = some none then compact fuel i ⟨a.pfds.eraseIdx i, a.data.eraseIdx i, a.count - 1⟩
      else compact fuel (i + 1) a
    else a

/-- `realloc` of an array. -/
def resize {α : Type} (junk : α) (l : List α) (n : Nat) : List α := l.take n ++ List.replicate (n - l.length) junk

/-- `srsn_dispatch_add` of an open descriptor, lines 1736-1766. -/
def addArr (a : Arr) (valid fd d : Nat) : Arr :=
  let a := if valid < a.count then compact a.count 0 a else a
  ⟨(resize none a.pfds (valid + 1)).set valid (some fd), (resize 0 a.data (valid + 1)).set valid d, valid + 1⟩

/-- What the kernel reports for an item. -/
def revOf (s : St) : Option Nat → Rev
  | none => ⟨false, false, false⟩
  | some f =>
    match s.fdt f with
    | none => ⟨false, false, true⟩
    | some p => ⟨!(s.queue p).isEmpty, s.hup p, false⟩

/-- `poll`, lines 1645-1653. -/
def poll (s : St) : Option St :=
  if s.valid = 0 then none
  else
    let revs := (s.arr.pfds.take s.arr.count).map (revOf s)
    some { s with round := some ⟨0, revs.countP Rev.some, revs, .start⟩ }

/-- One step of the loop over the items, lines 1655-1685. -/
def item (s : St) (x : Round) : St :=
  if x.r = 0 then { s with round := none }
  else
    match x.revs[x.i]?, s.arr.pfds[x.i]? with
    | some v, some fd =>
      match x.phase with
      | .start =>
        if !v.some then { s with round := some { x with i := x.i + 1 } }
        else { s with round := some { x with phase := if v.inp then .reading else .closing } }
      | .reading =>
        match fd.bind s.fdt with
        | none => { s with round := some { x with phase := .closing } }
        | some p =>
          match s.queue p, s.arr.data[x.i]? with
          | [], _ => { s with round := some { x with phase := .closing } }
          | _, none => { s with ub := true }
          | m :: q, some d => { s with queue := upd s.queue p q, log := s.log ++ [(p, m, d)] }
      | .closing =>
        let x' : Round := ⟨x.i + 1, x.r - 1, x.revs, .start⟩
        if v.hup then
          { s with fdt := (match fd with | none => s.fdt | some f => upd s.fdt f none),
                   arr := { s.arr with pfds := s.arr.pfds.set x.i none }, valid := s.valid - 1, round := some x' }
        else { s with round := some x' }
    | _, _ => { s with ub := true }

/-- What happens. -/
inductive Act where
  /-- a subscription is created, its read end gets a descriptor that is not used -/
  | create (f : Nat)
  /-- a notification is sent to a subscription -/
  | send (p m : Nat)
  /-- a subscription is terminated, its write end is closed -/
  | hangup (p : Nat)
  /-- `srsn_terminate` returns because the descriptor no longer reports `POLLHUP`, lines 824-834 -/
  | finish (p : Nat)
  /-- `srsn_terminate` returns because of its timeout, lines 836-842 -/
  | timeout (p : Nat)
  /-- `srsn_read_dispatch_add` -/
  | add (f d : Nat)
  /-- the thread begins a round -/
  | poll
  /-- the thread goes on with its round -/
  | item

/-- One step; `none`: it cannot happen. A subscription is added only once. -/
def step (s : St) : Act → Option St
  | .create f =>
    if (s.fdt f).isSome then none
    else some { s with fdt := upd s.fdt f (some s.npipes), rfd := upd s.rfd s.npipes f, npipes := s.npipes + 1 }
  | .send p m =>
    if p < s.npipes ∧ s.hup p = false then
      some { s with queue := upd s.queue p (s.queue p ++ [m]), sent := upd s.sent p (s.sent p ++ [m]) }
    else none
  | .hangup p => if p < s.npipes then some { s with hup := upd s.hup p true } else none
  | .finish p =>
    if p < s.npipes ∧ s.hup p = true ∧ ((s.fdt (s.rfd p)).map s.hup).getD false = false then
      some { s with done := upd s.done p true } else none
  | .timeout p => if p < s.npipes ∧ s.hup p = true then some { s with done := upd s.done p true } else none
  | .add f d =>
    match s.round, s.fdt f with
    | none, some p =>
      if (s.added p).isSome then none
      else some { s with arr := addArr s.arr s.valid f d, valid := s.valid + 1, added := upd s.added p (some d) }
    | _, _ => none
  | .poll => match s.round with | none => poll s | some _ => none
  | .item => match s.round with | none => none | some x => if s.ub then none else some (item s x)

/-- The states that occur; `t`: whether waits in `srsn_terminate` time out. -/
inductive Reach (t : Prop) : St → Prop
  | init : Reach t {}
  | step {s s' : St} (a : Act) (h : Reach t s) (ha : ∀ p, a = .timeout p → t) (hs : step s a = some s') : Reach t s'

/-- `srsn_read_dispatch_count`, utils/sn_common.c 1782-1803. -/
def dispatchCount (s : St) : Nat := s.valid

/-! ## Specification -/

/-- The notifications of a subscription that were passed to the callback, in order. -/
def passed (log : List (Nat × Nat × Nat)) (p : Nat) : List Nat := (log.filter (fun x => x.1 = p)).map (fun x => x.2.1)

/-- The read end of a subscription is open. -/
def Open (s : St) (p : Nat) : Prop := s.fdt (s.rfd p) = some p

end Verif.SnDispatch
