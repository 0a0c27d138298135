import Verif.ErrInfo
/-!
Model of NETCONF errors set by callbacks and read by clients: `/repo/src/utils/error_format.c` 40-92
(`_sr_session_set_netconf_error`), 94-170 (`sr_session_set_netconf_error`, `sr_session_set_netconf_error2`), 304-409
(`sr_err_get_netconf_error`). The errors are those of `Verif/ErrInfo.lean`, as is their way from a callback to
the client.

Simplifications: memory allocation succeeds; the two setting functions differ only in how the error info is passed; all
the arguments are there.
-/
namespace Verif.NetconfErr
open Verif.Bytes Verif.EvData Verif.ErrInfo

/-- A NETCONF error. -/
structure NErr where
  type : Buf
  tag : Buf
  appTag : Option Buf
  path : Option Buf
  msg : Buf
  info : List (Buf × Buf)
deriving DecidableEq

/-- A string literal. -/
def str (s : String) : Buf := s.toList.map Char.toNat

/-- `"NETCONF"`. -/
def netconf : Buf := str "NETCONF"

/-- Events, `session->ev` of an implicit session. -/
inductive Ev where
  | none | update | change | done | abort | enabled | oper | rpc | notif
deriving DecidableEq

/-- Events with errors, sysrepo.c 1015-1016. -/
def Ev.err : Ev → Bool
  | .change | .update | .oper | .rpc => true
  | _ => false

/-- Types, error_format.c 52-53. -/
def types : List Buf := ["transport", "rpc", "protocol", "application"].map str

/-- Tags, error_format.c 59-68. -/
def tags : List Buf := ["in-use", "invalid-value", "too-big", "missing-attribute", "bad-attribute", "unknown-attribute",
  "missing-element", "bad-element", "unknown-element", "unknown-namespace", "access-denied", "lock-denied",
  "resource-denied", "rollback-failed", "data-exists", "data-missing", "operation-not-supported", "operation-failed",
  "malformed-message"].map str

/-- `sr_session_push_error_data`, sysrepo.c 1010-1021: a refused call changes nothing, its result is not checked. -/
def push (junk : Nat → Nat) (ev : Ev) (errs : List Err) (d : Buf) : Option (List Err) :=
  if ev.err then ErrInfo.opStep junk errs (.pushData d) else some errs

/-- Several of them. -/
def pushes (junk : Nat → Nat) (ev : Ev) : List Err → List Buf → Option (List Err)
  | errs, [] => some errs
  | errs, d :: ds =>
    match push junk ev errs d with
    | none => none
    | some errs' => pushes junk ev errs' ds

/-- The error info, error_format.c 113-126, 151-160. -/
def infoData : List (Buf × Buf) → List Buf
  | [] => []
  | (el, v) :: t => (el ++ [0]) :: (v ++ [0]) :: infoData t

/-- Setting an error: the return code and the errors of the session. -/
def set (junk : Nat → Nat) (ev : Ev) (errs : List Err) (e : NErr) : Option (Nat × List Err) :=
  -- error_format.c 46-73, SR_ERR_INVAL_ARG
  if ev = .none then some (1, errs)
  else if e.type ∉ types then some (1, errs)
  else if e.tag ∉ tags then some (1, errs)
  else
    -- error_format.c 76-91, 110-126
    match pushes junk ev (errs ++ [⟨opFailed, some e.msg, some netconf, none⟩])
        ([e.type ++ [0], e.tag ++ [0], e.appTag.getD [] ++ [0], e.path.getD [] ++ [0], le32 (u32 e.info.length)] ++ infoData e.info) with
    | none => none
    | some errs' => some (0, errs')

/-- Several errors set by one callback. -/
def sets (junk : Nat → Nat) (ev : Ev) : List Err → List NErr → Option (List Err)
  | errs, [] => some errs
  | errs, e :: es =>
    match set junk ev errs e with
    | none => none
    | some (_, errs') => sets junk ev errs' es

/-- Outcome of reading an error. -/
inductive Got where
  | ok (e : NErr)
  | inval
  /-- Undefined behaviour. -/
  | ub
deriving DecidableEq

/-- A string of the error data, `sr_get_error_data` (sysrepo.c 1023-1031); the inner `none` is a missing one. -/
def getStr (data : Option Buf) (idx : Nat) : Option (Option Buf) :=
  match evGet data idx with
  | .notFound => some none
  | .ub => none
  | .ok d =>
    match cstrL d with
    | none => none
    | some s => some (some s)

/-- Reading the error info, error_format.c 374-390: `n` elements starting at index `idx`; the inner `none` is a missing one. -/
def getInfo (data : Option Buf) : Nat → Nat → Option (Option (List (Buf × Buf)))
  | 0, _ => some (some [])
  | n + 1, idx =>
    match getStr data idx with
    | none => none
    | some none => some none
    | some (some el) =>
      match getStr data (idx + 1) with
      | none => none
      | some none => some none
      | some (some v) =>
        match getInfo data n (idx + 2) with
        | none => none
        | some none => some none
        | some (some t) => some (some ((el, v) :: t))

/-- An empty string is none, error_format.c 349-351, 358-360. -/
def optStr (s : Buf) : Option Buf := if s = [] then none else some s

/-- `sr_err_get_netconf_error`, error_format.c 304-409. Comparing the format of an error without one and a message that is
missing are undefined behaviour here. -/
def get (e : Err) : Got :=
  match e.fmt, e.msg with
  | some fmt, some msg =>
    if fmt ≠ netconf then .inval
    else
      match getStr e.data 0 with
      | none => .ub
      | some none => .inval
      | some (some ty) =>
        match getStr e.data 1 with
        | none => .ub
        | some none => .inval
        | some (some tag) =>
          match getStr e.data 2 with
          | none => .ub
          | some none => .inval
          | some (some app) =>
            match getStr e.data 3 with
            | none => .ub
            | some none => .inval
            | some (some path) =>
              match evGet e.data 4 with
              | .ub => .ub
              | .notFound => .inval
              | .ok d =>
                match rd32 d 0 with
                | none => .ub
                | some n =>
                  match getInfo e.data n 5 with
                  | none => .ub
                  | some none => .inval
                  | some (some info) => .ok ⟨ty, tag, optStr app, optStr path, msg, info⟩
  | _, _ => .ub

/-! ### Specification -/

/-- `error-type` of RFC 6241, section 4.3. -/
def rfcTypes : List String := ["transport", "rpc", "protocol", "application"]

/-- `error-tag` of RFC 6241, appendix A. -/
def rfcTags : List String := ["in-use", "invalid-value", "too-big", "missing-attribute", "bad-attribute", "unknown-attribute",
  "missing-element", "bad-element", "unknown-element", "unknown-namespace", "access-denied", "lock-denied",
  "resource-denied", "rollback-failed", "data-exists", "data-missing", "operation-not-supported", "operation-failed",
  "malformed-message"]

/-- Events whose callback can fail. -/
def failing : List Ev := [.update, .change, .oper, .rpc]

/-- A type and a tag of RFC 6241 and C strings. -/
def Valid (e : NErr) : Prop :=
  e.type ∈ rfcTypes.map str ∧ e.tag ∈ rfcTags.map str ∧ IsStr e.type ∧ IsStr e.tag ∧ IsStr (e.appTag.getD []) ∧ IsStr (e.path.getD []) ∧ IsStr e.msg ∧
  ∀ i ∈ e.info, IsStr i.1 ∧ IsStr i.2

/-- What the client is to read: an empty application tag and an empty path are none. -/
def norm (e : NErr) : NErr :=
  { e with appTag := e.appTag.bind optStr, path := e.path.bind optStr }

/-- The size of an error: its strings with some space for each of them. -/
def size (e : NErr) : Nat :=
  100 + e.type.length + e.tag.length + (e.appTag.getD []).length + (e.path.getD []).length + e.msg.length +
    (e.info.map (fun i => i.1.length + i.2.length + 10)).sum

/-- All of them. -/
def sizes (l : List NErr) : Nat := (l.map size).sum

end Verif.NetconfErr
