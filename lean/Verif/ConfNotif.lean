import Verif.ChangeIterProps
import Verif.EvDataProps
/-!
# Notifications about changes of the configuration

Model of `sr_modinfo_generate_config_change_notif` (modinfo.c 3633-3834), called at the end of `sr_changes_notify_store`
(sysrepo.c 4126-4129): the notification `netconf-config-change` of ietf-netconf-notifications, sent and stored for replay after changes
were stored. The diff and its reading are those of `Verif.ChangeIter`, the originator of a session is that of `Verif.EvData`.

Simplifications: sending (`sr_shmsub_notif_notify`, C120-C122) and storing for replay (`sr_replay_store`, C129) succeed or fail; locks
are got or not; the path of a target is the target itself (`lyd_path`); memory allocation succeeds.
-/
namespace Verif.ConfNotif
open Verif.ChangeIter (Node Spot MOp ChOp Got Target spotsL getNext)
open Verif.Bytes (Buf rd32 cstr)

/-- `sr_datastore_t`. -/
inductive Ds where
  | startup | running | candidate | operational
deriving DecidableEq

/-- Values of `operation` in the notification. -/
inductive EOp where
  | create | replace | delete | merge
deriving DecidableEq

/-- The notification: who, where, and the list of edits. -/
structure Notif where
  user : Buf
  sid : Nat
  ds : Ds
  edits : List (Target × EOp)
deriving DecidableEq

/-- The session that made the change: `session->user` and the originator. -/
structure Session where
  user : Buf
  orig : Verif.EvData.Sess

/-- The state outside: replay support of ietf-netconf-notifications, the subscribers to it that are alive and not suspended, and whether
getting the lock of the subscriptions, sending to the subscribers and storing for replay succeed. -/
structure Env where
  replay : Bool
  subs : Nat
  lockOk : Bool
  sendOk : Bool
  storeOk : Bool

/-- What can be seen outside. -/
inductive Act where
  | sent (n : Notif)
  | stored (n : Notif)
deriving DecidableEq

/-- Result: what was done and whether `sr_apply_changes` returns an error, or undefined behaviour or a failed assertion. -/
inductive Out where
  | ret (acts : List Act) (err : Bool)
  | crash
deriving DecidableEq

/-- The originator name that is special, `"netopeer2"`. -/
def netopeer : Buf := [110, 101, 116, 111, 112, 101, 101, 114, 50]

/-- Whether there are actual changes, modinfo.c 3650-3668: a node with an operation of its own that is not `none`
(`sr_edit_diff_find_oper` without recursion, edit_diff.c 1106-1172). -/
def hasChanges (diff : List Node) : Bool :=
  (spotsL [] diff).any fun s =>
    match s.node.m.op with
    | none => false
    | some op => op != .none

/-- `op_enum`, modinfo.c 3773-3791. -/
def opEnum : ChOp → EOp
  | .created => .create
  | .modified => .replace
  | .deleted => .delete
  | .moved => .merge

/-- The edits, modinfo.c 3756-3798; `none` is an internal error. -/
def edits : Nat → List Spot → Option (List (Target × EOp))
  | 0, _ => none
  | n + 1, set =>
    match getNext none set with
    | .err => none
    | .done => some []
    | .change s op rest => (edits n rest).map ((s.target, opEnum op) :: ·)

/-- User and NETCONF session ID, modinfo.c 3724-3749; `none` is reading out of memory or a failed assertion. -/
def changedBy (s : Session) : Option (Buf × Nat) :=
  if s.orig.name = some netopeer then
    match s.orig.data with
    | none => none
    | some d =>
      match rd32 d 0, cstr d 16, rd32 d 8 with
      | some c, some u, some i => if c = 2 then some (u, i) else none
      | _, _, _ => none
  else some (s.user, 0)

/-- Sending and storing, modinfo.c 3800-3823. `sr_shmsub_notif_notify` sends nothing without a subscriber (shm_sub.c 3009-3013) and
`sr_replay_store` stores nothing without replay support (replay.c 152-155). -/
def publish (e : Env) (n : Notif) : Out :=
  if !e.lockOk then .ret [] true
  else if e.subs != 0 && !e.sendOk then .ret [] true
  else
    let sent := if e.subs != 0 then [Act.sent n] else []
    if e.replay then
      if e.storeOk then .ret (sent ++ [.stored n]) false else .ret sent true
    else .ret sent false

/-- `sr_modinfo_generate_config_change_notif`, modinfo.c 3633-3834. -/
def generate (e : Env) (ds : Ds) (s : Session) (diff : List Node) : Out :=
  if !hasChanges diff then .ret [] false
  else if ds = .candidate || ds = .operational then .ret [] false
  else if !e.replay && e.subs == 0 then .ret [] false
  else
    let set := spotsL [] diff
    match changedBy s with
    | none => .crash
    | some (u, i) =>
      match edits (set.length + 1) set with
      | none => .ret [] true
      | some es => publish e ⟨u, i, ds, es⟩

/-! ## Specification -/

open Verif.ChangeIter (Schema see)
open Verif.Edit (Path)

/-- An edit of the notification is right for a step from data `f` to data `g`: what is created was not there and is, what is deleted was
there and is not, what is replaced has another value. -/
def IsEdit (S : Schema) (f g : Path → Option (Nat × Bool)) (x : Target × EOp) : Prop :=
  match x.2 with
  | .create => see S f x.1 = none ∧ see S g x.1 ≠ none
  | .delete => see S f x.1 ≠ none ∧ see S g x.1 = none
  | .replace => ∃ v d w b, see S f x.1 = some (v, d) ∧ see S g x.1 = some (w, b) ∧ v ≠ w
  | .merge => False

/-- Data `f` and `g` have the same nodes with the same values. -/
def Same (f g : Path → Option (Nat × Bool)) : Prop := ∀ p, (f p).map (·.1) = (g p).map (·.1)

/-- Who is to be named: with the originator `netopeer2`, which pushes two blobs, the NETCONF session ID and the user name, those; else the
user of the session. -/
inductive By (s : Session) : Buf → Nat → Prop where
  | own (h : s.orig.name ≠ some [110, 101, 116, 111, 112, 101, 101, 114, 50]) : By s s.user 0
  | client (u : Buf) (i : Nat) (hn : s.orig.name = some [110, 101, 116, 111, 112, 101, 101, 114, 50])
      (hi : Verif.EvData.evGet s.orig.data 0 = .ok (Verif.Bytes.le32 i))
      (hu : Verif.EvData.evGet s.orig.data 1 = .ok (u ++ [0])) (ht : Verif.EvData.evGet s.orig.data 2 = .notFound)
      (hs : Verif.Bytes.IsStr u) (h32 : i < 4294967296) : By s u i

end Verif.ConfNotif
