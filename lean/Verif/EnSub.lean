/-
Subscribing to changes with the current data reported first.

Models of `/repo/src/sysrepo.c` 5654-5738 (`sr_module_change_subscribe_enable`), 5818-5950 (`sr_module_change_subscribe`),
3971-4141 (`sr_changes_notify_store`), of `/repo/src/modinfo.c` 820-865 (`sr_modinfo_changesub_rdlock`, `sr_modinfo_changesub_rdunlock`),
3506-3631 (`sr_modinfo_change_notify_update`), and of the order in which `/repo/src/shm_sub.c` `sr_shmsub_change_notify_change` and
`sr_shmsub_change_notify_change_done` read the table of subscriptions. Any number of processes apply changes to a module and
subscribe to it, at once, with the two locks: the one of the data of the module (READ, READ_UPGR, WRITE) and the one of its table of
change subscriptions (READ, WRITE).

Simplifications: one module and one conventional datastore; data are nodes with values; the locks are those of C01 and C02, so taking
them is one step; a subscription reads the changes of the nodes its XPath selects (C64), a callback that reads no change is a call
that is not made; the delivery of one event to one subscription is one step (C23, C24); subscriptions with `SR_SUBSCR_ENABLED` that are
not suspended and get the "change" event.
-/
namespace Verif.EnSub

/-- Data of the module: the values of the existing nodes. -/
abbrev Data := Nat → Option Nat

/-- Changes a callback reads: for the changed nodes, the new value or `none` when deleted. -/
abbrev Rep := Nat → Option (Option Nat)

/-- Events a callback is called with. -/
inductive Ev where
  | enabled (r : Rep) | change (r : Rep) | done (r : Rep)

/-- The selected existing nodes as created, sysrepo.c 5672-5700. -/
def enabledRep (sel : Nat → Bool) (d : Data) : Rep := fun x => if sel x && (d x).isSome then some (d x) else none

/-- The selected changes of the diff. -/
def changeRep (sel : Nat → Bool) (old new : Data) : Rep := fun x => if sel x && old x != new x then some (new x) else none

/-- Where a process applying changes is, sysrepo.c 3971-4141: nothing; READ_UPGR lock of the data and a diff; READ lock of the table;
"change" accepted; WRITE lock of the data; stored; publishing "done". -/
inductive W where
  | idle
  | locked (old new : Data)
  | listed (old new : Data)
  | asked (old new : Data)
  | writing (old new : Data)
  | stored (old new : Data)
  | telling (old new : Data) (todo : List Nat)

/-- Where a subscribing call is, sysrepo.c 5880-5944: not called; WRITE lock of the table; READ lock of the data; callback called;
added to the table; table unlocked; finished; failed or unsubscribed. -/
inductive P where
  | fresh | cs | reading | shown | added | csFree | active | gone
deriving DecidableEq

/-- The module. -/
structure State where
  data : Data
  /-- READ_UPGR lock (or WRITE, if `wr`) of the data. -/
  up : Option Nat
  wr : Bool
  /-- READ lock of the data. -/
  rd : List Nat
  /-- READ and WRITE lock of the table. -/
  csR : List Nat
  csW : Option Nat
  /-- The table of subscriptions. -/
  table : List Nat
  w : Nat → W
  p : Nat → P
  /-- Calls of the callback of each subscription, the last one first. -/
  log : Nat → List Ev

/-- Update of one element. -/
def put {α : Type} (f : Nat → α) (i : Nat) (v : α) : Nat → α := fun j => if j = i then v else f j

/-- Steps. -/
inductive Op where
  | lock (w : Nat) (new : Data) | list (w : Nat) | update (w : Nat) (new : Data) | ask (w : Nat) | upgrade (w : Nat) | store (w : Nat)
  | downgrade (w : Nat) | tell (w i : Nat) | finish (w : Nat) | fail (w : Nat) | lateFail (w : Nat)
  | sLock (i : Nat) | sRead (i : Nat) | sShow (i : Nat) | sAdd (i : Nat) | sFree (i : Nat) | sEnd (i : Nat) | sFail (i : Nat)
  | sDel (i : Nat)

/-- All the locks of a process applying changes are released, sysrepo.c 4132-4137. -/
def release (s : State) (w : Nat) : State :=
  { s with up := none, wr := false, csR := s.csR.filter (· != w), w := put s.w w .idle }

/-- All the locks of a failed subscribing call are released, sysrepo.c 5935-5944. -/
def sRelease (s : State) (i : Nat) : State :=
  { s with csW := none, rd := s.rd.filter (· != i), p := put s.p i .gone }

/-- One step, `none` if it cannot be done (now). -/
def step (sel : Nat → Nat → Bool) (s : State) : Op → Option State
  -- modinfo consolidated with the READ_UPGR lock, the edit applied
  | .lock w new => match s.w w with
    | .idle => if s.up = none then some { s with up := some w, w := put s.w w (.locked s.data new) } else none
    | _ => none
  -- sysrepo.c 4073-4077, modinfo.c 3608-3612
  | .list w => match s.w w with
    | .locked o n => if s.csW = none then some { s with csR := w :: s.csR, w := put s.w w (.listed o n) } else none
    | _ => none
  -- modinfo.c 3536-3607: changed by an "update" callback, the table is unlocked
  | .update w new => match s.w w with
    | .listed o _ => some { s with csR := s.csR.filter (· != w), w := put s.w w (.locked o new) }
    | _ => none
  -- sysrepo.c 4090-4098
  | .ask w => match s.w w with
    | .listed o n => some { s with
        w := put s.w w (.asked o n),
        log := fun i => if i ∈ s.table then .change (changeRep (sel i) o n) :: s.log i else s.log i }
    | _ => none
  -- sysrepo.c 4106-4109
  | .upgrade w => match s.w w with
    | .asked o n => if s.rd = [] then some { s with wr := true, w := put s.w w (.writing o n) } else none
    | _ => none
  -- sysrepo.c 4111-4114
  | .store w => match s.w w with
    | .writing o n => some { s with data := n, w := put s.w w (.stored o n) }
    | _ => none
  -- sysrepo.c 4116-4119
  | .downgrade w => match s.w w with
    | .stored o n => some { s with wr := false, w := put s.w w (.telling o n s.table) }
    | _ => none
  -- sysrepo.c 4121-4124
  | .tell w i => match s.w w with
    | .telling o n todo =>
      if i ∈ todo then some { s with
        w := put s.w w (.telling o n (todo.filter (· != i))), log := put s.log i (.done (changeRep (sel i) o n) :: s.log i) }
      else none
    | _ => none
  -- sysrepo.c 4131-4137
  | .finish w => match s.w w with
    | .telling _ _ [] => some (release s w)
    | _ => none
  -- an error before the data are stored
  | .fail w => match s.w w with
    | .locked _ _ | .listed _ _ | .asked _ _ | .writing _ _ => some (release s w)
    | _ => none
  -- an error or a crash after the data are stored
  | .lateFail w => match s.w w with
    | .stored _ _ | .telling _ _ _ => some (release s w)
    | _ => none
  -- sysrepo.c 5882-5886
  | .sLock i => if s.p i = .fresh ∧ s.csW = none ∧ s.csR = [] then some { s with csW := some i, p := put s.p i .cs } else none
  -- sysrepo.c 5665-5672
  | .sRead i => if s.p i = .cs ∧ s.wr = false then some { s with rd := i :: s.rd, p := put s.p i .reading } else none
  -- sysrepo.c 5674-5732
  | .sShow i =>
    if s.p i = .reading then some { s with
      p := put s.p i .shown,
      log := put s.log i (.done (enabledRep (sel i) s.data) :: .enabled (enabledRep (sel i) s.data) :: s.log i) }
    else none
  -- sysrepo.c 5896-5919
  | .sAdd i => if s.p i = .shown then some { s with table := s.table ++ [i], p := put s.p i .added } else none
  -- sysrepo.c 5935-5936
  | .sFree i => if s.p i = .added then some { s with csW := none, p := put s.p i .csFree } else none
  -- sysrepo.c 5938-5944
  | .sEnd i => if s.p i = .csFree then some { s with rd := s.rd.filter (· != i), p := put s.p i .active } else none
  -- an error or an "enabled" event refused
  | .sFail i => if s.p i = .cs ∨ s.p i = .reading ∨ s.p i = .shown then some (sRelease s i) else none
  -- unsubscribing, with the WRITE lock of the table
  | .sDel i =>
    if s.p i = .active ∧ s.csW = none ∧ s.csR = [] then some { s with table := s.table.filter (· != i), p := put s.p i .gone } else none

/-- Nothing happens yet. -/
def init (d : Data) : State := ⟨d, none, false, [], [], none, [], fun _ => .idle, fun _ => .fresh, fun _ => []⟩

/-- The states reached by steps, with the changes stored and the data reported by the "enabled" event since a subscription was
called first: what it has to be told. -/
inductive Reach (sel : Nat → Nat → Bool) (d : Data) : State → (Nat → List Rep) → Prop
  | init : Reach sel d (init d) (fun _ => [])
  | quiet {s s' due op} : Reach sel d s due → step sel s op = some s' → (∀ w, op ≠ .store w ∧ op ≠ .lateFail w) → (∀ i, op ≠ .sShow i) →
      Reach sel d s' due
  | show {s s' due i} : Reach sel d s due → step sel s (.sShow i) = some s' →
      Reach sel d s' (fun j => if j = i then [enabledRep (sel j) s.data] else due j)
  | store {s s' due w} : Reach sel d s due → step sel s (.store w) = some s' →
      Reach sel d s' (fun j => if s.p j = .shown ∨ s.p j = .added ∨ s.p j = .csFree ∨ s.p j = .active
        then changeRep (sel j) s.data s'.data :: due j else due j)

/-! ### Specification -/

/-- What the callback was told to be done, the last one first. -/
def dones : List Ev → List Rep
  | [] => []
  | .done r :: t => r :: dones t
  | .enabled _ :: t => dones t
  | .change _ :: t => dones t

/-- The data somebody has who follows the reports. -/
def view : List Rep → Data
  | [] => fun _ => none
  | r :: t => fun x => match r x with
    | some v => v
    | none => view t x

/-- The log starts with an "enabled" event and its "done"; then there are "change" events, some of them followed by "done" with the
same changes. -/
def Fine : List Ev → Prop
  | [] => True
  | .enabled _ :: t => t = []
  | .change _ :: t => t ≠ [] ∧ Fine t
  | .done r :: .enabled r' :: t => r = r' ∧ t = []
  | .done r :: .change r' :: t => r = r' ∧ t ≠ [] ∧ Fine t
  | .done _ :: _ => False

end Verif.EnSub
