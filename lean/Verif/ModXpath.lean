/-!
# Changing the XPath of a subscription (model and specification)

`sr_module_change_sub_modify_xpath()` changes the XPath of a subscription in two
places: in the process (what the callback is called for) and in the memory
shared with the processes making changes (for whom the subscriptions that filter
in the originator, `SR_SUBSCR_FILTER_ORIG`, are counted).

An XPath is a number.  A change is the function saying which XPaths select
something that changes.  Simplified: all the subscriptions are on one module and
datastore, of one subscription context, with one priority, and accept every
event; the evaluation of XPaths itself is libyang's.
-/

namespace Verif.ModXpath

/-- A change: whether something selected by an XPath changes.
Models the result of `sr_lyd_find_xpath()` and the search for an operation in
`sr_shmsub_change_filter_is_valid()`, src/shm_sub.c lines 898–934. -/
abbrev Change := Nat → Bool

/-- A change subscription: `modsub_changesub_s` (src/common_types.h) in the
process and `sr_mod_change_sub_t` (src/shm_types.h) in the shared memory, with
the same ID. -/
structure Sub where
  id : Nat
  /-- `SR_SUBSCR_FILTER_ORIG` -/
  orig : Bool
  /-- XPath in the process -/
  loc : Option Nat
  /-- XPath in the shared memory, `none` is the offset 0 -/
  shm : Option Nat
deriving DecidableEq, Repr

/-- Results of calls. -/
inductive Ret where
  | ok | notFound | inval | noMem | timeOut
deriving DecidableEq, Repr

/-- What happens in a call of `sr_module_change_sub_modify_xpath()`. -/
structure Env where
  /-- the XPath selects some schema nodes -/
  valid : Bool
  /-- `strdup` succeeds -/
  mem : Bool
  /-- the locks are acquired and the shared memory is enlarged in
  `sr_shmext_change_sub_modify()` -/
  shmOk : Bool
deriving DecidableEq, Repr

/-- First subscription with an ID.
Models `sr_subscr_change_sub_find()`, src/subscr.c, and the loop in
`sr_shmext_change_sub_modify()`, src/shm_ext.c lines 639–644. -/
def find (st : List Sub) (id : Nat) : Option Sub := st.find? fun s => s.id == id

/-- Models `sr_module_change_subscribe()`, src/sysrepo.c lines 5850–5945, and
`sr_shmext_change_sub_add()`, src/shm_ext.c: both copies get the XPath, also
none with `SR_SUBSCR_FILTER_ORIG`.  Simplified: the call succeeds and the ID is
an argument. -/
def subscribe (st : List Sub) (id : Nat) (orig : Bool) (x : Option Nat) : List Sub :=
  st ++ [{ id, orig, loc := x, shm := x }]

/-- Change the subscription with an ID. -/
def upd (st : List Sub) (id : Nat) (f : Sub → Sub) : List Sub :=
  st.map fun s => if s.id == id then f s else s

/-- Models `sr_module_change_sub_modify_xpath()`, src/sysrepo.c lines 5990–6044,
with `sr_shmext_change_sub_modify()`, src/shm_ext.c lines 618–677. -/
def modify (st : List Sub) (id : Nat) (x : Option Nat) (e : Env) : Ret × List Sub :=
  match find st id with
  | none => (.notFound, st)
  | some s =>
    -- the XPath is the same, there is nothing to modify
    if s.loc = x then (.ok, st)
    else if x.isSome && !e.valid then (.inval, st)
    -- the old XPath is freed first
    else if x.isSome && !e.mem then (.noMem, upd st id fun s => { s with loc := none })
    else if !e.shmOk then (.timeOut, upd st id fun s => { s with loc := x })
    else (.ok, upd st id fun s => { s with loc := x, shm := x })

/-- Whether the originator counts a subscription.
Models the filter in `sr_shmsub_change_notify_has_subscription()` and
`sr_shmsub_change_notify_next_subscription()`, src/shm_sub.c lines 978–982 and
1042–1046.  The offset 0 of a subscription without an XPath is added to the
address of the memory, so the filter is not `NULL` but the header of the memory
(`first_hole_off`) read as a string; `hdr` is the result for this string, false
for the empty one, which is not an XPath. -/
def counted (hdr : Bool) (c : Change) (s : Sub) : Bool :=
  if s.orig then
    match s.shm with
    | none => hdr
    | some x => c x
  else true

/-- Whether the callback is called.
Models `filter_valid` in `sr_shmsub_change_listen_process_module_events()`,
src/shm_sub.c lines 3504–3508. -/
def calls (c : Change) (s : Sub) : Bool :=
  match s.loc with
  | none => true
  | some x => c x

/-- Whether the listener reports the event as processed by a subscription.
Models src/shm_sub.c lines 3521–3525. -/
def reports (c : Change) (s : Sub) : Bool :=
  if !calls c s && s.orig then false else true

/-- What becomes of a change: which callbacks are called, and whether the change
event is processed (or else it times out).
Models `sr_shmsub_change_notify_change()`, src/shm_sub.c, with the listener: the
event is written only when some subscription is counted, and it is processed
when the number reported is the number counted. -/
def deliver (hdr : Bool) (c : Change) (st : List Sub) : List Nat × Bool :=
  if st.any (counted hdr c) then
    ((st.filter (calls c)).map Sub.id, st.countP (counted hdr c) == st.countP (reports c))
  else ([], true)

/-- A call. -/
inductive Call where
  | subscribe (id : Nat) (orig : Bool) (x : Option Nat)
  | modify (id : Nat) (x : Option Nat) (e : Env)
deriving DecidableEq, Repr

/-- One call; subscribing with an ID in use does nothing, IDs are unique
(`ATOMIC_INC_RELAXED(new_sub_id)`, src/sysrepo.c line 5880). -/
def step (st : List Sub) : Call → Ret × List Sub
  | .subscribe id orig x => if (find st id).isSome then (.inval, st) else (.ok, subscribe st id orig x)
  | .modify id x e => modify st id x e

/-- A sequence of calls. -/
def run (st : List Sub) : List Call → List Sub
  | [] => st
  | c :: cs => run (step st c).2 cs

/-- The calls with their results, the last one first. -/
def results (st : List Sub) : List Call → List (Call × Ret) → List (Call × Ret)
  | [], acc => acc
  | c :: cs, acc => results (step st c).2 cs ((c, (step st c).1) :: acc)

/-! ## Specification -/

/-- The subscription a history of calls (the last one first) asks for: the options of the
successful subscribing and the XPath of the last successful call. -/
def Asked : List (Call × Ret) → Nat → Option (Bool × Option Nat)
  | [], _ => none
  | (.subscribe id o x, r) :: h, i => if r = .ok ∧ id = i then some (o, x) else Asked h i
  | (.modify id x _, r) :: h, i =>
    if r = .ok ∧ id = i then (Asked h i).map fun p => (p.1, x) else Asked h i

/-- Something a subscription without an XPath or with this one is interested in changes. -/
def Wants (c : Change) : Option Nat → Prop
  | none => True
  | some x => c x = true

/-! ## The locks -/

/-- Order of the locks of a call changing subscriptions. -/
inductive Order where
  /-- `sr_module_change_subscribe()`, src/sysrepo.c lines 5882–5896: the table
  of the module first -/
  | moduleFirst
  /-- `sr_module_change_sub_modify_xpath()`, src/sysrepo.c line 6000 and
  src/shm_ext.c line 626: the subscriptions of the process first -/
  | processFirst
deriving DecidableEq, Repr

/-- Where such a call is. -/
inductive Pc where
  | start
  /-- has its first lock -/
  | first
  /-- has both locks -/
  | both
  | done
deriving DecidableEq, Repr

/-- A process making changes, a listener and any number of calls changing the
subscriptions.  Simplified: locks are held by their definitions (`tableWriter`
and so on below), time-outs are not steps. -/
structure LS where
  /-- a change waits for the listener and holds the table of the module for reading,
  `sr_changes_notify_store()`, src/sysrepo.c line 4073 -/
  waiting : Bool
  /-- its event is not processed yet -/
  pending : Bool
  /-- the listener holds the subscriptions of the process for reading,
  `sr_subscription_process_events()` -/
  listening : Bool
  calls : List Pc
deriving DecidableEq, Repr

/-- A call holds the table of the module for writing. -/
def holdsTable : Order → Pc → Bool
  | _, .both => true
  | .moduleFirst, .first => true
  | _, _ => false

/-- A call holds the subscriptions of the process for writing. -/
def holdsSubs : Order → Pc → Bool
  | _, .both => true
  | .processFirst, .first => true
  | _, _ => false

/-- The table of the module can be locked for writing. -/
def tableFree (o : Order) (s : LS) : Bool := !s.waiting && !s.calls.any (holdsTable o)

/-- The subscriptions of the process can be locked for writing. -/
def subsFree (o : Order) (s : LS) : Bool := !s.listening && !s.calls.any (holdsSubs o)

/-- A call can make its next step. -/
def canStep (o : Order) (s : LS) : Pc → Bool
  | .start => match o with | .moduleFirst => tableFree o s | .processFirst => subsFree o s
  | .first => match o with | .moduleFirst => subsFree o s | .processFirst => tableFree o s
  | .both => true
  | .done => false

/-- The next step of a call. -/
def next : Pc → Pc
  | .start => .first
  | .first => .both
  | _ => .done

/-- Steps of the system. -/
inductive Step (o : Order) : LS → LS → Prop
  /-- a change is made and its event is written -/
  | change (s) : s.waiting = false → s.calls.any (holdsTable o) = false →
      Step o s { s with waiting := true, pending := true }
  /-- the listener locks the subscriptions, only when there is an event -/
  | listen (s) : s.pending = true → s.listening = false → s.calls.any (holdsSubs o) = false →
      Step o s { s with listening := true }
  /-- the event is processed -/
  | process (s) : s.listening = true → Step o s { s with listening := false, pending := false }
  /-- the change is finished -/
  | finish (s) : s.waiting = true → s.pending = false → Step o s { s with waiting := false }
  /-- a new call -/
  | call (s) : Step o s { s with calls := s.calls ++ [.start] }
  /-- a call goes on -/
  | go (s) (i : Nat) (p : Pc) : s.calls[i]? = some p → canStep o s p = true →
      Step o s { s with calls := s.calls.set i (next p) }

/-- States reached from a state. -/
inductive Reach (o : Order) : LS → LS → Prop
  | refl (s) : Reach o s s
  | step {a b c} : Reach o a b → Step o b c → Reach o a c

/-- Nothing is being done. -/
def idle : LS := { waiting := false, pending := false, listening := false, calls := [] }

/-- Some change or call is not finished. -/
def Unfinished (s : LS) : Prop := s.waiting = true ∨ ∃ p ∈ s.calls, p ≠ .done

/-- Something that is going on can make a step: not only a new change or a new call. -/
def Progress (o : Order) (s : LS) : Prop :=
  (∃ (i : Nat) (p : Pc), s.calls[i]? = some p ∧ canStep o s p = true) ∨
  (s.waiting = true ∧ s.pending = false) ∨ s.listening = true ∨
  (s.pending = true ∧ s.listening = false ∧ s.calls.any (holdsSubs o) = false)

end Verif.ModXpath
