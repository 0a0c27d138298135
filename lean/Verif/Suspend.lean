/-
Suspending and resuming subscriptions.

Models of `/repo/src/sysrepo.c` 5220-5271 (`sr_subscription_get_suspended`), 5281-5405 (`_sr_subscription_suspend_change`,
`sr_subscription_suspend`, `sr_subscription_resume`), of `/repo/src/shm_ext.c` 2513-2580
(`sr_shmext_change_sub_suspended`), 2582-2658 (`sr_shmext_oper_get_sub_suspended`), 2660-2866 (the same of operational
poll, notification and RPC subscriptions), and of `/repo/src/utils/subscribed_notifications.c` 498-644 (`srsn_suspend`,
`srsn_resume`) and `/repo/src/utils/sn_yang_push.c` 117-152, 777-801 (`srsn_yp_schedule_periodic_update`,
`srsn_yp_periodic_modify`).

Simplifications: calls are atomic (the subscription lock of the table is held while a flag is changed); the tables do not change
otherwise, how subscriptions are added and removed is modelled in `SubTables.lean`.
-/
namespace Verif.Suspend

/-- An entry of a subscription in the ext SHM. -/
structure Entry where
  id : Nat
  off : Bool
deriving DecidableEq, Repr

/-- Kinds of subscriptions. -/
inductive Kind where
  | change | operGet | operPoll | notif | rpc
deriving DecidableEq, Repr

/-- Subscriptions. -/
structure State where
  /-- Tables of all the kinds but `operGet`, of every module (and datastore) or path of an RPC. -/
  flat : Kind → Nat → List Entry
  /-- Tables of operational get subscriptions of every module, one for each path. -/
  oper : Nat → List (List Entry)
  /-- Flags in the subscription structure. -/
  loc : Nat → Bool
  /-- What the subscriptions of the structure are. -/
  own : Nat → Option (Kind × Nat)

/-- Return values. -/
inductive Res where
  | ok
  | okOff (off : Bool)
  | notFound
  | unsupported
  | internal
  /-- Another error. -/
  | failed
  /-- Memory outside of a table is read. -/
  | oob
deriving DecidableEq, Repr

/-- What fails: taking a lock, or something after the flag was changed: notifying operational poll subscriptions
(sysrepo.c 5317-5321) or starting a session (5347-5349). -/
inductive Fault where
  | none | lock | late
deriving DecidableEq, Repr

/-- Index of a subscription, shm_ext.c 2541-2546 and the other ones. -/
def findFlat (id : Nat) : List Entry → Option Nat
  | [] => none
  | e :: t => if e.id = id then some 0 else (findFlat id t).map (· + 1)

/-- Outcome of looking for an operational get subscription. -/
inductive Find where
  | at_ (i j : Nat)
  | missing
  | oob
deriving DecidableEq, Repr

/-- The inner loop, shm_ext.c 2614-2619: `n` entries are gone through. -/
def findRow (id i : Nat) : Nat → Nat → List Entry → Find
  | 0, _, _ => .missing
  | _ + 1, _, [] => .oob
  | n + 1, j, e :: t => if e.id = id then .at_ i j else findRow id i n (j + 1) t

/-- The outer loop, shm_ext.c 2612-2623. -/
def findRows (id n : Nat) : Nat → List (List Entry) → Find
  | _, [] => .missing
  | i, r :: t =>
    match findRow id i n 0 r with
    | .missing => findRows id n (i + 1) t
    | f => f

/-- Looking for an operational get subscription: the number of entries of the first path is used for all of them, shm_ext.c
2611-2624. -/
def findOper (id : Nat) (t : List (List Entry)) : Find := findRows id (t.headD []).length 0 t

/-- Read the flag of an operational get subscription. -/
def offAt (t : List (List Entry)) (i j : Nat) : Bool := (((t[i]?.getD [])[j]?).map (·.off)).getD false

/-- Read the flag, shm_ext.c 2564-2567 and the other ones. -/
def offFlat (l : List Entry) (i : Nat) : Bool := ((l[i]?).map (·.off)).getD false

/-- Write the flag, shm_ext.c 2561. -/
def setFlat (l : List Entry) (i : Nat) (b : Bool) : List Entry := l.modify i (fun e => { e with off := b })

/-- Write the flag, shm_ext.c 2639. -/
def setOper (t : List (List Entry)) (i j : Nat) (b : Bool) : List (List Entry) := t.modify i (fun l => setFlat l j b)

/-- The flag in the subscription structure. -/
def setLoc (s : State) (id : Nat) (b : Bool) : State := { s with loc := fun x => if x = id then b else s.loc x }

/-- `sr_subscription_get_suspended`, sysrepo.c 5220-5271. -/
def get (f : Fault) (s : State) (id : Nat) : Res :=
  if f = .lock then .failed
  else
    match s.own id with
    | none => .notFound
    | some (.operGet, key) =>
      match findOper id (s.oper key) with
      | .missing => .internal
      | .oob => .oob
      | .at_ i j => .okOff (offAt (s.oper key) i j)
    | some (k, key) =>
      match findFlat id (s.flat k key) with
      | none => .internal
      | some i => .okOff (offFlat (s.flat k key) i)

/-- `sr_subscription_suspend`, `sr_subscription_resume`, sysrepo.c 5281-5405. -/
def change (f : Fault) (s : State) (id : Nat) (b : Bool) : Res × State :=
  if f = .lock then (.failed, s)
  else
    match s.own id with
    | none => (.notFound, s)
    | some (.operGet, key) =>
      match findOper id (s.oper key) with
      | .missing => (.internal, s)
      | .oob => (.oob, s)
      | .at_ i j =>
        if offAt (s.oper key) i j = b then (.unsupported, s)
        else
          let s1 := { s with oper := fun k => if k = key then setOper (s.oper key) i j b else s.oper k }
          if f = .late then (.failed, s1) else (.ok, setLoc s1 id b)
    | some (k, key) =>
      match findFlat id (s.flat k key) with
      | none => (.internal, s)
      | some i =>
        if offFlat (s.flat k key) i = b then (.unsupported, s)
        else
          let s1 := { s with flat := fun k' key' => if k' = k ∧ key' = key then setFlat (s.flat k key) i b else s.flat k' key' }
          if f = .late ∧ k = .notif then (.failed, s1) else (.ok, setLoc s1 id b)

/-! ### Subscribed notifications -/

/-- A subscription to a stream or to changes: its sysrepo subscriptions. -/
structure Sn where
  ids : List Nat
  off : Nat → Bool

/-- Suspend or resume one of them, see `change`. -/
def one (f : Fault) (s : Sn) (i : Nat) (b : Bool) : Bool × Sn :=
  if f = .lock then (false, s)
  else if s.off i = b then (false, s)
  else
    let s1 := { s with off := fun x => if x = i then b else s.off x }
    if f = .late then (false, s1) else (true, s1)

/-- Reverting, subscribed_notifications.c 528-530, 600-602; `fs n` is what fails in the `n`-th call. -/
def revert (fs : Nat → Fault) (b : Bool) : Nat → Sn → List Nat → Sn
  | _, s, [] => s
  | n, s, i :: t => revert fs b (n + 1) (one (fs n) s i b).2 t

/-- Suspending or resuming all of them, subscribed_notifications.c 522-533, 594-605. -/
def all (fs : Nat → Fault) (b : Bool) : Nat → Sn → List Nat → List Nat → Bool × Sn
  | _, s, _, [] => (true, s)
  | n, s, done, i :: t =>
    match one (fs n) s i b with
    | (true, s') => all fs b (n + 1) s' (done ++ [i]) t
    | (false, s') => (false, revert fs (!b) (n + 1) s' done)

/-- Outcome of suspending or resuming a subscription: whether anything was done, for which a notification is sent. -/
inductive SnRes where
  | ok (done : Bool)
  | error
  /-- There is no first subscription. -/
  | oob
deriving DecidableEq, Repr

/-- `srsn_suspend`, `srsn_resume` of other than periodic subscriptions, subscribed_notifications.c 510-533, 582-605. `g` tells
whether reading the flag fails. -/
def snSet (g : Bool) (fs : Nat → Fault) (s : Sn) (b : Bool) : SnRes × Sn :=
  match s.ids with
  | [] => (.oob, s)
  | i :: _ =>
    if !g && s.off i == b then (.ok false, s)
    else
      match all fs b 0 s [] s.ids with
      | (true, s') => (.ok true, s')
      | (false, s') => (.error, s')

/-! ### Periodic subscriptions -/

/-- A periodic subscription. -/
structure Per where
  off : Bool
  period : Nat
  anchor : Option Nat
  /-- The update timer runs, with this interval and anchor. -/
  timer : Option (Nat × Option Nat)
deriving DecidableEq, Repr

/-- Calls. -/
inductive PAct where
  | suspend
  | resume
  | modify (period : Nat) (anchor : Option Nat)
deriving DecidableEq, Repr

/-- `srsn_suspend` (534-543), `srsn_resume` (606-617), `srsn_yp_periodic_modify`. -/
def pstep (s : Per) : PAct → Per
  | .suspend => if s.off then s else { s with timer := none, off := true }
  | .resume => if s.off then { s with timer := some (s.period, s.anchor), off := false } else s
  | .modify p a => if p ≠ s.period ∨ a ≠ s.anchor then { s with timer := some (p, a), period := p, anchor := a } else s

/-! ### Specification -/

/-- The subscription is in the table of its kind with this flag. -/
def Has (s : State) (k : Kind) (key id : Nat) (b : Bool) : Prop :=
  match k with
  | .operGet => ∃ l ∈ s.oper key, (⟨id, b⟩ : Entry) ∈ l
  | _ => (⟨id, b⟩ : Entry) ∈ s.flat k key

/-- IDs are unique. -/
def Unique (s : State) : Prop :=
  (∀ k key, ((s.flat k key).map (·.id)).Nodup) ∧ ∀ key, ((s.oper key).flatten.map (·.id)).Nodup

/-- All the subscriptions of the structure are in the tables. -/
def Listed (s : State) : Prop := ∀ id k key, s.own id = some (k, key) → ∃ b, Has s k key id b

/-- Paths of operational get subscriptions have all the same number of subscriptions (one, unless they are merged). -/
def Even (s : State) : Prop := ∀ key, ∀ l ∈ s.oper key, l.length = ((s.oper key).headD []).length

/-- What is to come of a call without failures. -/
def spec (susp : Nat → Bool) (known : Nat → Bool) (id : Nat) (b : Bool) : Res × (Nat → Bool) :=
  if known id = false then (.notFound, susp)
  else if susp id = b then (.unsupported, susp)
  else (.ok, fun x => if x = id then b else susp x)

/-- `susp` is what the subscriptions of the structure are. -/
def Agrees (s : State) (susp : Nat → Bool) : Prop :=
  ∀ id k key, s.own id = some (k, key) → Has s k key id (susp id) ∧ s.loc id = susp id

/-- A sequence of calls. -/
def calls : State → List (Nat × Bool) → List Res × State
  | s, [] => ([], s)
  | s, (id, b) :: t =>
    let r := change .none s id b
    let q := calls r.2 t
    (r.1 :: q.1, q.2)

/-- What is to come of it. -/
def specCalls (known : Nat → Bool) : (Nat → Bool) → List (Nat × Bool) → List Res × (Nat → Bool)
  | susp, [] => ([], susp)
  | susp, (id, b) :: t =>
    let r := spec susp known id b
    let q := specCalls known r.2 t
    (r.1 :: q.1, q.2)

end Verif.Suspend
