/-
Component: one subscription structure used by several threads.

Models subscribing (subscr.c 29-700), sr_unsubscribe_sub, sr_session_unsubscribe and sr_unsubscribe
(sysrepo.c 785-803, 5408-5425, 5514-5590) with the removal functions (subscr.c 122-175, 959-1760), and
sr_subscription_process_events (sysrepo.c 5098-5208) with the stop time of notifications
(shm_sub.c 4815-4860), as steps of any number of threads under the SUBS lock.

Simplified: the SUBS lock is exclusive as proved in RWLock; a removal that cannot get a lock ends with an
error without the READ lock that is taken only to be released again (subscr.c 996-1011); subscription IDs
do not wrap; the lock of the subscriptions in shared memory is only a further reason for a time-out; which
subscription has an event, and in which order callbacks are called, is left open (it is in Listener);
adding a subscription is one step because the WRITE lock is held all the time.
-/

namespace Verif.SubCtx

abbrev Tid := Nat

/-- The five arrays of a subscription structure, common.h 355-455, in the order they are searched. -/
inductive Kind where
  | change | operGet | operPoll | notif | rpc
  deriving DecidableEq, Repr

/-- The order in which they are searched. -/
def kinds : List Kind := [.change, .operGet, .operPoll, .notif, .rpc]

/-- A subscription: its ID and session. -/
structure Sub where
  id : Nat
  sess : Nat
  deriving DecidableEq, Repr

/-- The subscriptions of a module or operation, for example modsub_change_s common.h 356-376. -/
structure Group where
  name : Nat
  subs : List Sub
  deriving DecidableEq, Repr

/-- Replaces an item with the last and shortens the array, subscr.c 138-142. -/
def swapDel (l : List α) (i : Nat) : List α := match l.getLast? with
  | none => []
  | some x => (l.set i x).dropLast

/-- Removes a subscription; a group without subscriptions is removed too, subscr.c 136-158. -/
def delAt (a : List Group) (i j : Nat) : List Group := match a[i]? with
  | none => a
  | some g =>
    if (swapDel g.subs j).isEmpty then swapDel a i
    else a.set i { g with subs := swapDel g.subs j }

/-- The first matching subscription of a group. -/
def findIn (p : Sub → Bool) : List Sub → Nat → Option (Nat × Sub)
  | [], _ => none
  | x :: l, j => if p x then some (j, x) else findIn p l (j + 1)

/-- The first matching subscription of an array, for example subscr.c 1451-1462. -/
def find (p : Sub → Bool) : List Group → Nat → Option (Nat × Nat × Sub)
  | [], _ => none
  | g :: a, i => match findIn p g.subs 0 with
    | some (j, x) => some (i, j, x)
    | none => find p a (i + 1)

/-- Adds a subscription, subscr.c 446-508: to the group of its module or to a new one at the end. -/
def add (a : List Group) (name : Nat) (x : Sub) : List Group := match a with
  | [] => [⟨name, [x]⟩]
  | g :: a => if g.name = name then { g with subs := g.subs ++ [x] } :: a else g :: add a name x

/-- What a thread wants to remove. -/
inductive Job where
  /-- sr_subscr_del_id subscr.c 1533-1655 -/
  | one (id : Nat)
  /-- sr_subscr_del_session subscr.c 1424-1531 with the kinds it still has to search; called from
  sr_subscr_del_all with the kinds that one still has to empty -/
  | sess (s : Nat) (todo : List Kind) (all : Option (List Kind))
  /-- sr_subscr_del_all subscr.c 1657-1725 with the kinds still to empty -/
  | all (todo : List Kind)
  /-- a stop time that has passed, shm_sub.c 4833-4848: place of the group, the array it points into and
  whether the group had no other subscription -/
  | stop (i : Nat) (gen : Nat) (last : Bool)
  deriving DecidableEq, Repr

/-- A remembered place: kind, indices, ID and session of the subscription there. -/
structure Loc where
  k : Kind
  i : Nat
  j : Nat
  x : Sub
  deriving DecidableEq, Repr

/-- Where a thread is. -/
inductive Pc where
  | idle
  /-- waits for the READ lock -/
  | want (job : Job)
  /-- holds it and searches -/
  | look (job : Job)
  /-- has released it and waits for the WRITE lock -/
  | gap (job : Job) (loc : Loc)
  /-- holds the WRITE lock -/
  | del (job : Job) (loc : Loc)
  /-- holds the READ lock again -/
  | done (job : Job) (loc : Loc)
  /-- event processing waits for the READ lock -/
  | pwant
  /-- holds it and goes through the subscriptions -/
  | proc
  /-- is in a callback -/
  | cb (id : Nat)
  deriving DecidableEq, Repr

inductive Res where
  | ok | notFound | err
  deriving DecidableEq, Repr

/-- What can be seen from outside: a call returned, a callback was called for an event, a notification
subscription got its last special notification. -/
inductive Ev where
  | ret (job : Job) (r : Res)
  | called (id : Nat)
  | ended (id : Nat)
  deriving DecidableEq, Repr

structure State where
  arr : Kind → List Group
  /-- number of times the array of notification groups was reallocated -/
  gen : Nat
  /-- next subscription ID -/
  next : Nat
  /-- sessions that have the structure among their subscriptions -/
  reg : Nat → Bool
  /-- holders of the READ lock -/
  rd : List Tid
  /-- holder of the WRITE lock -/
  wr : Option Tid
  pc : Tid → Pc
  /-- events, the last first -/
  log : List Ev
  /-- released memory was used -/
  ub : Bool

def State.go (s : State) (t : Tid) (p : Pc) : State := { s with pc := fun u => if u = t then p else s.pc u }
def State.say (s : State) (e : Ev) : State := { s with log := e :: s.log }
def State.rdDrop (s : State) (t : Tid) : State := { s with rd := s.rd.filter (· ≠ t) }
def State.setArr (s : State) (k : Kind) (a : List Group) : State :=
  { s with arr := fun x => if x = k then a else s.arr x }

/-- Whether a session still has subscriptions, sr_subscr_session_count subscr.c 884-945. -/
def State.has (s : State) (sess : Nat) : Bool :=
  kinds.any fun k => (s.arr k).any fun g => g.subs.any fun x => x.sess == sess

/-- Removes the structure from a session, sr_ptr_del. -/
def State.unreg (s : State) (sess : Nat) : State := { s with reg := fun x => s.reg x && x != sess }

/-- The first subscription with an ID in any array, subscr.c 1550-1640. -/
def findId (arr : Kind → List Group) (id : Nat) : List Kind → Option Loc
  | [] => none
  | k :: l => match find (fun x => x.id == id) (arr k) 0 with
    | some (i, j, x) => some ⟨k, i, j, x⟩
    | none => findId arr id l

/-- Searching, with the READ lock held. -/
def lookStep (s : State) (t : Tid) : Job → Option State
  | .one id => match findId s.arr id kinds with
    | some loc => some ((s.rdDrop t).go t (.gap (.one id) loc))
    | none => some (((s.rdDrop t).go t .idle).say (.ret (.one id) .notFound))
  | .sess x [] none => some ((((s.unreg x).rdDrop t).go t .idle).say (.ret (.sess x [] none) .ok))
  | .sess x [] (some l) => some ((s.unreg x).go t (.look (.all l)))
  | .sess x (k :: l) o => match find (fun y => y.sess == x) (s.arr k) 0 with
    | some (i, j, y) => some ((s.rdDrop t).go t (.gap (.sess x (k :: l) o) ⟨k, i, j, y⟩))
    | none => some (s.go t (.look (.sess x l o)))
  | .all [] => some (((s.rdDrop t).go t .idle).say (.ret (.all []) .ok))
  | .all (k :: l) => match s.arr k with
    | [] => some (s.go t (.look (.all l)))
    | g :: _ => match g.subs with
      | y :: _ => some (s.go t (.look (.sess y.sess kinds (some (k :: l)))))
      | [] => none
  | .stop _ _ _ => none

/-- The subscription is still in the place it was found, subscr.c 982-989. -/
def inPlace (s : State) (loc : Loc) : Bool := match (s.arr loc.k)[loc.i]? with
  | none => false
  | some g => match g.subs[loc.j]? with
    | none => false
    | some x => x.id == loc.x.id

/-- The group at a place of an array and the subscription there. -/
def subAt (a : List Group) (i j : Nat) : Option Sub := match a[i]? with
  | none => none
  | some g => g.subs[j]?

/-- Whether a group has only one subscription, shm_sub.c 4836-4839. -/
def lastOf (a : List Group) (i : Nat) : Bool := match a[i]? with
  | none => false
  | some g => g.subs.length == 1

/-- Removes by ID from the structure, with the WRITE lock held; a notification subscription gets its last
special notification, subscr.c 527-606. -/
def remove (s : State) (loc : Loc) : State :=
  match find (fun x => x.id == loc.x.id) (s.arr loc.k) 0 with
  | none => s
  | some (i, j, _) =>
    let s' := s.setArr loc.k (delAt (s.arr loc.k) i j)
    if loc.k = .notif then s'.say (.ended loc.x.id) else s'

/-- After the removal, with the READ lock held again. -/
def doneStep (s : State) (t : Tid) (loc : Loc) : Job → State
  | .one id =>
    let s1 := if s.has loc.x.sess then s else s.unreg loc.x.sess
    ((s1.rdDrop t).go t .idle).say (.ret (.one id) .ok)
  | .sess x l o => s.go t (.look (.sess x l o))
  | .all l => s.go t (.look (.all l))
  | .stop i gen last =>
    let s1 := if s.has loc.x.sess then s else s.unreg loc.x.sess
    if last then s1.go t .proc
    else if gen = s.gen ∧ i < (s.arr .notif).length then s1.go t .proc
    else { s1 with ub := true }.go t .proc

/-- What a thread does next. -/
inductive Lab where
  | call (job : Job) | lockR | look | timeout | lockW | del (ok : Bool) | done
  | process | begin (k : Kind) (i j : Nat) | finish | stop (i j : Nat) | leave
  | subscribe (k : Kind) (name sess : Nat)
  deriving DecidableEq, Repr

/-- The calls a program makes: sr_unsubscribe_sub, sr_session_unsubscribe, sr_unsubscribe. -/
def startJob : Job → Option Job
  | .one id => some (.one id)
  | .sess x _ _ => some (.sess x kinds none)
  | .all _ => some (.all kinds)
  | .stop _ _ _ => none

/-- One step of a thread. -/
def step (s : State) (t : Tid) : Lab → Option State
  | .call job => match s.pc t, startJob job with
    | .idle, some j => some (s.go t (.want j))
    | _, _ => none
  | .process => match s.pc t with
    | .idle => some (s.go t .pwant)
    | _ => none
  | .lockR => if s.wr.isSome then none else match s.pc t with
    | .want job => some ({ s with rd := t :: s.rd }.go t (.look job))
    | .pwant => some ({ s with rd := t :: s.rd }.go t .proc)
    | _ => none
  | .look => match s.pc t with
    | .look job => lookStep s t job
    | _ => none
  | .timeout => match s.pc t with
    | .want job => some ((s.go t .idle).say (.ret job .err))
    | .gap job _ => some ((s.go t .idle).say (.ret job .err))
    | .pwant => some (s.go t .idle)
    | _ => none
  | .lockW => if s.wr.isSome || !s.rd.isEmpty then none else match s.pc t with
    | .gap job loc => some ({ s with wr := some t }.go t (.del job loc))
    | _ => none
  | .del ok => match s.pc t with
    | .del job loc =>
      if inPlace s loc then
        if ok then some ({ remove s loc with wr := none, rd := [t] }.go t (.done job loc))
        else some (({ s with wr := none }.go t .idle).say (.ret job .err))
      else some ({ s with wr := none, rd := [t] }.go t (.done job loc))
    | _ => none
  | .done => match s.pc t with
    | .done job loc => some (doneStep s t loc job)
    | _ => none
  | .begin k i j => match s.pc t, subAt (s.arr k) i j with
    | .proc, some x => some ((s.go t (.cb x.id)).say (.called x.id))
    | _, _ => none
  | .finish => match s.pc t with
    | .cb _ => some (s.go t .proc)
    | _ => none
  | .stop i j => match s.pc t, subAt (s.arr .notif) i j with
    | .proc, some x =>
      some ((s.rdDrop t).go t (.gap (.stop i s.gen (lastOf (s.arr .notif) i)) ⟨.notif, i, j, x⟩))
    | _, _ => none
  | .leave => match s.pc t with
    | .proc => some ((s.rdDrop t).go t .idle)
    | _ => none
  | .subscribe k name sess => match s.pc t with
    | .idle => if s.wr.isSome || !s.rd.isEmpty then none else some
      { s.setArr k (add (s.arr k) name ⟨s.next, sess⟩) with
        next := s.next + 1
        reg := fun x => s.reg x || x == sess
        gen := if k = .notif ∧ (s.arr k).all (fun g => g.name != name) then s.gen + 1 else s.gen }
    | _ => none

/-- No subscription and no thread doing anything. -/
def init : State where
  arr := fun _ => []
  gen := 0
  next := 1
  reg := fun _ => false
  rd := []
  wr := none
  pc := fun _ => .idle
  log := []
  ub := false

/-- States reached by steps that `A` allows. -/
inductive Reach (A : State → Tid → Lab → Prop) : State → Prop where
  | init : Reach A init
  | next {s s' t l} : Reach A s → A s t l → step s t l = some s' → Reach A s'

/-- Runs a schedule. -/
def exec (s : State) : List (Tid × Lab) → Option State
  | [] => some s
  | (t, l) :: r => match step s t l with
    | some s' => exec s' r
    | none => none

/-! Specification. -/

/-- All subscriptions of an array. -/
def subsOf (a : List Group) : List Sub := a.flatMap (·.subs)

/-- A thread is between having found a subscription and having removed it. -/
def Removing (p : Pc) : Prop := ∃ job loc, p = .gap job loc ∨ p = .del job loc

/-- A removal starts only while no other is under way. -/
def Alone (s : State) (t : Tid) (l : Lab) : Prop :=
  ∀ s', step s t l = some s' → ¬ Removing (s.pc t) → Removing (s'.pc t) → ∀ u, ¬ Removing (s.pc u)

/-- The call a thread is in. -/
def jobOf : Pc → Option Job
  | .want job | .look job | .gap job _ | .del job _ | .done job _ => some job
  | _ => none

/-- Some thread is removing all the subscriptions of a session. -/
def Stopping (s : State) (x : Nat) : Prop := ∃ u l o, jobOf (s.pc u) = some (.sess x l o)

/-- A session does not subscribe while all its subscriptions are being removed. -/
def NoLate (s : State) (_t : Tid) (l : Lab) : Prop := ∀ k n x, l = .subscribe k n x → ¬ Stopping s x

/-- Some thread is removing everything. -/
def Emptying (s : State) (l : List Kind) : Prop :=
  ∃ u, jobOf (s.pc u) = some (.all l) ∨ ∃ x r, jobOf (s.pc u) = some (.sess x r (some l))

/-- Nobody subscribes while everything is being removed. -/
def NoneLate (s : State) (_t : Tid) (l : Lab) : Prop := ∀ k n x, l = .subscribe k n x → ∀ r, ¬ Emptying s r

/-- Removals one at a time, and nobody subscribes meanwhile. -/
def Calm (s : State) (t : Tid) (l : Lab) : Prop :=
  Alone s t l ∧ ∀ k n x, l = .subscribe k n x → ∀ u, ¬ Removing (s.pc u)

/-- Whether a subscription is in the structure. -/
def Present (s : State) (id : Nat) : Prop := ∃ k, ∃ x ∈ subsOf (s.arr k), x.id = id

end Verif.SubCtx
