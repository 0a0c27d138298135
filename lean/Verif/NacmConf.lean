import Verif.Nacm
/-!
# NACM rules kept in memory

Models how `sr_nacm_rule_list_cb` (src/utils/nacm.c:557-715) and `sr_nacm_rule_cb` (717-935) keep the
rule lists and the rules of a list in memory up to date with changes of the configuration.

The linked list of entries is a list of named entries. Changes are taken as reported by
`sr_get_change_tree_next`, one after another; `prev` is the key of the preceding entry, the text
between the first two single quotes of the predicate (src/utils/nacm.c:619-621). Failing memory
allocation is not modelled.
-/
namespace Verif.NacmConf

abbrev Str := List Char

/-- An entry, a rule list or a rule: its name and the rest of it. -/
structure Entry (α : Type) where
  name : Str
  body : α
  deriving Repr, DecidableEq

/-- A change of the user-ordered list. -/
inductive Change (α : Type) where
  | created (name : Str) (body : α) (prev : Option Str)
  | moved (name : Str) (prev : Option Str)
  | deleted (name : Str)

/-- `strncmp(a, b, strlen(b)) == 0` for `len` characters of `b` (src/utils/nacm.c:623). -/
def strncmpEq : Str → Str → Bool
  | _, [] => true
  | [], _ :: _ => false
  | a :: s, b :: t => if a = b then strncmpEq s t else false

/-- Search for the preceding entry and insertion after it (src/utils/nacm.c:617-638, 790-811); `none` =
the assertion fails, the preceding entry was not found. -/
def insertAfter (e : Entry α) (prev : Str) : List (Entry α) → Option (List (Entry α))
  | [] => none
  | x :: l =>
    if strncmpEq x.name prev then some (x :: e :: l)
    else (insertAfter e prev l).map (x :: ·)

/-- Insertion of an entry (src/utils/nacm.c:615-638, 788-811). -/
def place (e : Entry α) (prev : Option Str) (l : List (Entry α)) : Option (List (Entry α)) :=
  match prev with
  | some p => insertAfter e p l
  | none => some (e :: l)

/-- Search for an entry and unlinking it (src/utils/nacm.c:589-601, 642-661, 758-770, 814-834); `none` =
the assertion fails. -/
def unlink (name : Str) : List (Entry α) → Option (Entry α × List (Entry α))
  | [] => none
  | x :: l =>
    if x.name = name then some (x, l)
    else (unlink name l).map (fun r => (r.1, x :: r.2))

/-- One change (src/utils/nacm.c:588-672, 757-842). -/
def apply (l : List (Entry α)) : Change α → Option (List (Entry α))
  | .created n b prev => place ⟨n, b⟩ prev l
  | .moved n prev => (unlink n l).bind (fun r => place r.1 prev r.2)
  | .deleted n => (unlink n l).map Prod.snd

/-- All changes. -/
def run (l : List (Entry α)) : List (Change α) → Option (List (Entry α))
  | [] => some l
  | c :: cs => (apply l c).bind (fun l' => run l' cs)

/-! ## Target of a rule -/

/-- The leaves of the choice `rule-type`. -/
inductive Leaf where
  | rpc | notif | path
  deriving Repr, DecidableEq

/-- A change of one of these leaves. -/
inductive TChange where
  | set (l : Leaf) (value : Str)
  | del (l : Leaf)
  deriving Repr, DecidableEq

/-- One change of the target (src/utils/nacm.c:872-894). -/
def applyTarget (_ : Nacm.Target) : TChange → Nacm.Target
  | .del _ => .any none
  | .set l v =>
    let t := if v = ['*'] then none else some v
    match l with
    | .rpc => .rpc t
    | .notif => .notif t
    | .path => .data t

def runTarget (t : Nacm.Target) : List TChange → Nacm.Target
  | [] => t
  | c :: cs => runTarget (applyTarget t c) cs

/-! ## Specification -/

/-- The configured user-ordered list after a change; `none` = the change does not make sense. -/
def insertBehind (e : Entry α) (prev : Str) (l : List (Entry α)) : Option (List (Entry α)) :=
  if prev ∈ l.map Entry.name then
    some (l.takeWhile (fun x => decide (x.name ≠ prev)) ++
      (l.dropWhile (fun x => decide (x.name ≠ prev))).take 1 ++ e ::
      (l.dropWhile (fun x => decide (x.name ≠ prev))).drop 1)
  else none

def configure (l : List (Entry α)) : Change α → Option (List (Entry α))
  | .created n b prev =>
    if n ∈ l.map Entry.name then none
    else match prev with
      | none => some (⟨n, b⟩ :: l)
      | some p => insertBehind ⟨n, b⟩ p l
  | .moved n prev =>
    match l.find? (fun x => decide (x.name = n)) with
    | none => none
    | some e =>
      match prev with
      | none => some (e :: l.filter (fun x => decide (x.name ≠ n)))
      | some p => insertBehind e p (l.filter (fun x => decide (x.name ≠ n)))
  | .deleted n =>
    if n ∈ l.map Entry.name then some (l.filter (fun x => decide (x.name ≠ n))) else none

def configured (l : List (Entry α)) : List (Change α) → Option (List (Entry α))
  | [] => some l
  | c :: cs => (configure l c).bind (fun l' => configured l' cs)

/-- Names used by a change. -/
def Change.names : Change α → List Str
  | .created n _ p => n :: p.toList
  | .moved n p => n :: p.toList
  | .deleted n => [n]

/-- The target described by the leaves present in the configuration (at most one). -/
def targetOf : Option (Leaf × Str) → Nacm.Target
  | none => .any none
  | some (.rpc, v) => .rpc (if v = "*".toList then none else some v)
  | some (.notif, v) => .notif (if v = "*".toList then none else some v)
  | some (.path, v) => .data (if v = "*".toList then none else some v)

end Verif.NacmConf
