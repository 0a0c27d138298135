/-!
Model of on-change YANG push subscriptions: utils/sn_yang_push.c 157-174 (`srsn_yp_ntf_change_send`), 179-191 (the dampening
timer callback), 193-238 (`srsn_yp_ntf_change_ready`), 240-300 (the operations), 302-340
(`srsn_yp_ntf_change_edit_clear_target`), 342-450 (`srsn_yp_ntf_change_edit_append`), 452-589 (`srsn_yp_on_change_cb`),
802-832 (`srsn_yp_on_change_modify`), and of the timer of a subscription, utils/sn_common.c 1170-1293
(`srsn_timer_thread`, `srsn_create_timer`, `srsn_update_timer`).

Simplified: times are whole milliseconds (their arithmetic is the subject of `Verif.Time`) and never overflow; allocations and
writes to the pipe succeed; numbers of patches and edits do not wrap. The callback and the timer callback hold the lock of the
timer, so each is one step. Removing nodes the user may not read from the value of an edit is not in this model. The path of a
node, `lyd_path()`, is the text of its steps; edits are compared by the node instead of by this text.
-/
namespace Verif.YpChange

/-- One step of a path: the name of a node with its predicates. -/
abbrev Step := List Char

/-- A data node, by the steps of its path. -/
abbrev Node := List Step

/-- Value of a node. -/
abbrev Val := List Char

/-- Content of a subtree: the value of each node of it, by the steps from its root. -/
abbrev Sub := Node → Option Val

/-- `lyd_path(node, LYD_PATH_STD)`. -/
def text (n : Node) : List Char := n.flatMap (fun s => '/' :: s)

/-- `sr_change_oper_t`. -/
inductive Op where
  | created | modified | deleted | moved
deriving DecidableEq

/-- `srsn_yp_change_t`. -/
inductive YpOp where
  | create | delete | insert | move | replace
deriving DecidableEq

/-- A change as the iterator returns it: operation, node, whether its schema node is a user-ordered list or leaf-list, whether it
is a leaf-list, the predicates or the value of the instance before it (empty: none), the content of the node in the new data. -/
structure Change where
  op : Op
  node : Node
  uo : Bool := false
  leafList : Bool := false
  prev : List Char := []
  sub : Sub := fun _ => none

/-- An edit of a YANG patch. -/
structure Edit where
  id : Nat
  op : YpOp
  node : Node
  point : Option (List Char)
  first : Bool
  value : Option Sub

/-- `srsn_yp_op_sr2yp`, utils/sn_yang_push.c 247-266. -/
def sr2yp (c : Change) : YpOp :=
  match c.op with
  | .created => if c.uo then .insert else .create
  | .modified => .replace
  | .deleted => .delete
  | .moved => .move

/-- There are both kinds of quotes in the path: the XPath of lines 313-315 is then `edit[target="…"…"…"]`, which libyang
refuses. -/
def bothQuotes (n : Node) : Bool := (text n).contains '\'' && (text n).contains '"'

/-- `srsn_yp_ntf_change_edit_clear_target`, utils/sn_yang_push.c 302-340; `none`: error. -/
def clearTarget (es : List Edit) (n : Node) : Option (List Edit) :=
  if bothQuotes n then none else some (es.eraseP (fun e => e.node == n))

/-- The point of an insert or a move, lines 385-404. -/
def pointOf (c : Change) : Option (List Char) :=
  if c.prev.isEmpty then none
  else if c.leafList then
    let q := if c.prev.contains '\'' then '"' else '\''
    some (text c.node ++ ('[' :: '.' :: '=' :: q :: c.prev) ++ [q, ']'])
  else some (text c.node ++ c.prev)

/-- The state of the timer of a subscription: `tid` is 0; the thread waits for `trigger`; the thread has ended, `tid` is still
set. -/
inductive Timer where
  | idle
  | armed (trigger : Nat)
  | spent
deriving DecidableEq

/-- A sent notification: its time, the dampening period at that time, the patch-id, the edits. -/
structure Ntf where
  ts : Nat
  damp : Nat
  patch : Nat
  edits : List Edit

/-- The notification in preparation, `change_ntf`: patch-id and edits. -/
structure Pend where
  patch : Nat
  edits : List Edit

/-- `struct srsn_sub`, and what was written to its pipe. -/
structure St where
  damp : Nat
  excl : YpOp → Bool
  pending : Option Pend := none
  patchId : Nat := 1
  editId : Nat := 0
  last : Nat := 0
  timer : Timer := .idle
  exclCount : Nat := 0
  sent : List Ntf := []
  crashed : Bool := false

/-- Lines 532-562: the notification in preparation, created if there is none. -/
def start (s : St) : St × Pend :=
  match s.pending with
  | some p => (s, p)
  | none => ({ s with patchId := s.patchId + 1, editId := 1 }, ⟨s.patchId, []⟩)

/-- The new edit, utils/sn_yang_push.c 369-440: point and where of an insert or a move, value unless moved or deleted. -/
def mkEdit (id : Nat) (c : Change) : Edit where
  id := id
  op := sr2yp c
  node := c.node
  point := if sr2yp c = .insert ∨ sr2yp c = .move then pointOf c else none
  first := decide (sr2yp c = .insert ∨ sr2yp c = .move) && c.prev.isEmpty
  value := if sr2yp c = .insert ∨ sr2yp c = .create ∨ sr2yp c = .replace then some c.sub else none

/-- `srsn_yp_ntf_change_edit_append`, utils/sn_yang_push.c 342-450; `none`: error. -/
def append (s : St) (p : Pend) (c : Change) : Option St :=
  match clearTarget p.edits c.node with
  | none => none
  | some es => some { s with editId := s.editId + 1, pending := some ⟨p.patch, es ++ [mkEdit s.editId c]⟩ }

/-- `par` is a node above `n`, line 516. -/
def above (par n : Node) : Bool := par.isPrefixOf n && par != n

/-- A created node inside the last reported created node, lines 515-520. -/
def nested (last : Option (Op × Node)) (c : Change) : Bool :=
  match c.op, last with
  | .created, some (.created, n) => above n c.node
  | _, _ => false

/-- The changes of one callback, lines 497-568, with the operation and the node of the last change not skipped; `deny`: the nodes
the user may not read. The state without a notification is kept on an error (lines 583-586). -/
def loop (deny : Node → Bool) : List Change → Option (Op × Node) → St → St × Bool
  | [], _, s => (s, true)
  | c :: cs, last, s =>
    if deny c.node then loop deny cs last s
    else if nested last c then
      loop deny cs last s
    else if s.excl (sr2yp c) then
      loop deny cs (some (c.op, c.node)) { s with exclCount := s.exclCount + 1 }
    else
      match append (start s).1 (start s).2 c with
      | none => ({ (start s).1 with pending := none }, false)
      | some s' => loop deny cs (some (c.op, c.node)) s'

/-- `srsn_yp_ntf_change_send`, utils/sn_yang_push.c 157-174; without a notification `sub->change_ntf->tree` dereferences NULL. -/
def send (s : St) (now : Nat) : St :=
  match s.pending with
  | none => { s with crashed := true }
  | some p => { s with sent := s.sent ++ [⟨now, s.damp, p.patch, p.edits⟩], pending := none, last := now }

/-- Lines 570-581 with `srsn_yp_ntf_change_ready`, utils/sn_yang_push.c 193-238. -/
def finish (s : St) (now : Nat) : St :=
  match s.pending with
  | none => s
  | some _ =>
    if s.damp = 0 then send s now
    else if s.timer ≠ .idle then s
    else if s.last + s.damp ≤ now then send s now
    else { s with timer := .armed (s.last + s.damp) }

/-- `srsn_yp_on_change_cb`, utils/sn_yang_push.c 452-589. -/
def change (deny : Node → Bool) (s : St) (now : Nat) (cs : List Change) : St :=
  match loop deny cs none s with
  | (s', false) => s'
  | (s', true) => finish s' now

/-- The wait of `srsn_timer_thread` timed out, utils/sn_common.c 1177-1219: the callback (sn_yang_push.c 179-191), then the thread
ends, the timer having no interval. -/
def fire (s : St) (now : Nat) : St :=
  match s.timer with
  | .armed tr => if tr ≤ now then { send s now with timer := .spent } else s
  | _ => s

/-- `srsn_yp_on_change_modify`, utils/sn_yang_push.c 802-832, with `srsn_update_timer`, utils/sn_common.c 1245-1293. -/
def modify (s : St) (now : Nat) (d : Nat) : St :=
  if d = s.damp then s
  else if d = 0 then
    let s1 := { s with timer := .idle, damp := d }
    match s.pending with
    | none => s1
    | some _ => send s1 now
  else
    match s.timer with
    | .idle => { s with damp := d }
    | .armed _ => { s with damp := d, timer := .armed (s.last + d) }
    | .spent => { s with damp := d }

/-- What happens to a subscription: changes of the data, its timer, a change of the dampening period, a resynchronisation
(subscribed_notifications.c 377-399). -/
inductive Ev where
  | change (now : Nat) (cs : List Change)
  | fire (now : Nat)
  | modify (now : Nat) (damp : Nat)
  | resync

/-- The time of an event. -/
def Ev.time : Ev → Nat
  | .change t _ => t
  | .fire t => t
  | .modify t _ => t
  | .resync => 0

/-- One event; nothing happens after a crash. -/
def step (deny : Node → Bool) (s : St) (e : Ev) : St :=
  if s.crashed then s
  else
    match e with
    | .change t cs => change deny s t cs
    | .fire t => fire s t
    | .modify t d => modify s t d
    | .resync => { s with patchId := 1 }

/-- A run. -/
def run (deny : Node → Bool) (s : St) (es : List Ev) : St := es.foldl (step deny) s

/-- The clock does not go back. -/
def Clock : Nat → List Ev → Prop
  | _, [] => True
  | t, .resync :: es => Clock t es
  | t, e :: es => t ≤ e.time ∧ Clock e.time es

/-! ## Specification -/

/-- The content of a datastore: the values of its nodes. -/
abbrev Data := Node → Option Val

/-- A node is there only with all the nodes above it. -/
def Tree (d : Data) : Prop := ∀ p q, (d (p ++ q)).isSome → (d p).isSome

/-- `cs` are the changes from `d` to `d'`. -/
structure Describes (d d' : Data) (cs : List Change) : Prop where
  complete : ∀ x, d x ≠ d' x → ∃ c ∈ cs, c.node = x ∧ c.op ≠ .moved
  created : ∀ c ∈ cs, c.op = .created → d c.node = none ∧ (d' c.node).isSome
  modified : ∀ c ∈ cs, c.op = .modified → (d' c.node).isSome ∧ ∀ q, q ≠ [] → d' (c.node ++ q) = none
  deleted : ∀ c ∈ cs, c.op = .deleted → d' c.node = none
  value : ∀ c ∈ cs, c.op = .created ∨ c.op = .modified → ∀ q, c.sub q = d' (c.node ++ q)
  once : (cs.map (·.node)).Nodup

/-- What a receiver makes of an edit: the node is created or replaced with the value, or deleted; whether it was there is not
looked at. The order of instances is not in the content. -/
def apply (d : Data) (e : Edit) : Data := fun x =>
  if e.node <+: x then
    match e.op with
    | .delete => none
    | .move => d x
    | _ => match e.value with
      | some v => v (x.drop e.node.length)
      | none => d x
  else d x

/-- The edits in their order. -/
def applyAll (es : List Edit) (d : Data) : Data := es.foldl apply d

/-- A receiver following RFC 8072, 2.5: what is created or inserted is not there, what is deleted or moved is; `none`: the patch
is refused. -/
def strict : List Edit → Data → Option Data
  | [], d => some d
  | e :: es, d =>
    match e.op with
    | .create | .insert => if (d e.node).isSome then none else strict es (apply d e)
    | .delete | .move => if (d e.node).isSome then strict es (apply d e) else none
    | .replace => strict es (apply d e)

/-- Everything sent and waiting. -/
def reported (s : St) : List Edit :=
  s.sent.flatMap (·.edits) ++ (match s.pending with | some p => p.edits | none => [])

/-- A subscription of everything with data changing: `d0` when it starts, `d` now. No change has both kinds of quotes in its
path, none is moved while an edit creating or deleting it waits to be sent. -/
inductive Hist (damp : Nat) (d0 : Data) : St → Data → Prop
  | init : Hist damp d0 { damp := damp, excl := fun _ => false } d0
  | change {s d} (d' : Data) (t : Nat) (cs : List Change) : Hist damp d0 s d → Tree d' → Describes d d' cs →
      (∀ c ∈ cs, bothQuotes c.node = false) →
      (∀ c ∈ cs, c.op = .moved → ∀ p, s.pending = some p → ∀ e ∈ p.edits, e.node = c.node → e.op = .move) →
      Hist damp d0 (step (fun _ => false) s (.change t cs)) d'
  | other {s d} (e : Ev) : Hist damp d0 s d → (∀ t cs, e ≠ .change t cs) → Hist damp d0 (step (fun _ => false) s e) d

end Verif.YpChange
