/-!
# Matching of NACM rule paths

Models `sr_nacm_allowed_path` (src/utils/nacm.c:1356-1413).

Strings are lists of characters; the end of the list is the terminating zero. Reading further than
the terminating zero or in front of the string is the outcome `oob`.
-/
namespace Verif.NacmPath

abbrev Str := List Char

/-- Result: 0, 1, 2 of the function or an access outside of a string. -/
inductive Res where
  | no      -- 0
  | yes     -- 1
  | partly  -- 2
  | oob
  deriving Repr, DecidableEq

/-- Skipping a predicate of the node path (src/utils/nacm.c:1388-1398); `q` = inside single quotes.
Returns what follows the predicate, `none` if the end of the string is passed. -/
def skipPred : Bool → Str → Option Str
  | _, [] => none
  | true, c :: t => skipPred (c ≠ '\'') t
  | false, c :: t =>
    if c = ']' then some t
    else skipPred (c = '\'') t

/-- `strchr(node_ptr, '\'')` (src/utils/nacm.c:1382): the value in front of the quote and what
follows the quote, `none` if there is no quote. -/
def upToQuote : Str → Option (Str × Str)
  | [] => none
  | c :: t => if c = '\'' then some ([], t) else (upToQuote t).map (fun p => (c :: p.1, p.2))

theorem skipPred_length : ∀ (q : Bool) (s t : Str), skipPred q s = some t → t.length < s.length
  | _, [], t, h => by simp [skipPred] at h
  | true, c :: s, t, h => by
    simp only [skipPred] at h
    have := skipPred_length _ s t h
    simp only [List.length_cons]; omega
  | false, c :: s, t, h => by
    simp only [skipPred] at h
    split at h
    · cases h; simp
    · have := skipPred_length _ s t h
      simp only [List.length_cons]; omega

theorem upToQuote_length : ∀ (s : Str) (p : Str × Str), upToQuote s = some p → p.2.length < s.length
  | [], p, h => by simp [upToQuote] at h
  | c :: s, p, h => by
    simp only [upToQuote] at h
    split at h
    · cases h; simp
    · cases hu : upToQuote s with
      | none => simp [hu] at h
      | some p' =>
        simp only [hu, Option.map_some, Option.some.injEq] at h
        subst h
        have := upToQuote_length s p' hu
        simp only [List.length_cons]; omega

/-- The loop of `sr_nacm_allowed_path` (src/utils/nacm.c:1365-1404) and its conclusion
(src/utils/nacm.c:1406-1412). `pr`, `pn` are the characters before the pointers (`rule_ptr[-1]`,
`node_ptr[-1]`), `none` in front of the strings. The message about an unknown variable
(src/utils/nacm.c:1376) is not modelled. -/
def go (user : Str) (pr pn : Option Char) (rule node : Str) : Res :=
  match rule, node with
  | [], [] => .yes
  | [], _ :: _ => .yes
  | _ :: _, [] => .partly
  | r :: rs, n :: ns =>
    if r = n then go user (some r) (some n) rs ns
    else if r = '$' ∧ pr = none then .oob
    else if r = '$' ∧ pr = some '=' ∧ n = '\'' ∧ pn = some '=' then
      if rs.take 5 ≠ ['U', 'S', 'E', 'R', ']'] then .no
      else
        match h : upToQuote ns with
        | none => .oob
        | some p => if user ≠ p.1 then .no else go user (some 'R') (some '\'') (rs.drop 4) p.2
    else if r = '/' ∧ n = '[' then
      match h : skipPred false (n :: ns) with
      | none => .oob
      | some ns' => go user pr (some ']') (r :: rs) ns'
    else .no
  termination_by rule.length + node.length
  decreasing_by
    · simp only [List.length_cons]; omega
    · have := upToQuote_length ns p h
      simp only [List.length_cons, List.length_drop]; omega
    · have := skipPred_length false (n :: ns) ns' h
      simp only [List.length_cons] at this ⊢; omega

/-- `sr_nacm_allowed_path(rule_target, node_path, user)` (src/utils/nacm.c:1356). -/
def allowedPath (rule node user : Str) : Res := go user none none rule node

/-! ## Specification: paths as structures -/

/-- A predicate of a rule path: `[key='value']` or `[key=$USER]`. -/
inductive RPred where
  | val (key value : Str)
  | user (key : Str)
  deriving Repr, DecidableEq

/-- A step of a rule path. -/
structure RSeg where
  name : Str
  preds : List RPred
  deriving Repr, DecidableEq

/-- A step of the path of a data node with the values of its keys. -/
structure NSeg where
  name : Str
  preds : List (Str × Str)
  deriving Repr, DecidableEq

def RPred.str : RPred → Str
  | .val k v => '[' :: k ++ '=' :: '\'' :: v ++ ['\'', ']']
  | .user k => '[' :: k ++ ['=', '$', 'U', 'S', 'E', 'R', ']']

def NPred.str (p : Str × Str) : Str := '[' :: p.1 ++ '=' :: '\'' :: p.2 ++ ['\'', ']']

def RSeg.str (s : RSeg) : Str := '/' :: s.name ++ (s.preds.map RPred.str).flatten
def NSeg.str (s : NSeg) : Str := '/' :: s.name ++ (s.preds.map NPred.str).flatten

/-- The text of a rule path; the root is `/`. -/
def ruleStr : List RSeg → Str
  | [] => ['/']
  | l => (l.map RSeg.str).flatten

/-- The text of the path of a node. -/
def nodeStr (l : List NSeg) : Str := (l.map NSeg.str).flatten

/-- Whether a rule predicate accepts the key of the node. -/
def predOk (user : Str) : RPred → Str × Str → Prop
  | .val k v, p => k = p.1 ∧ v = p.2
  | .user k, p => k = p.1 ∧ user = p.2

/-- Rule predicates accept the keys of a node in order; keys not mentioned may have any value. -/
def predsOk (user : Str) : List RPred → List (Str × Str) → Prop
  | [], _ => True
  | _ :: _, [] => False
  | r :: rs, n :: ns => predOk user r n ∧ predsOk user rs ns

def segOk (user : Str) (r : RSeg) (n : NSeg) : Prop := r.name = n.name ∧ predsOk user r.preds n.preds

/-- The node is the target of the rule or inside of it. -/
def Covers (user : Str) : List RSeg → List NSeg → Prop
  | [], _ => True
  | _ :: _, [] => False
  | r :: rs, n :: ns => segOk user r n ∧ Covers user rs ns

/-- The node is a proper ancestor of the target. -/
def Above (user : Str) : List RSeg → List NSeg → Prop
  | [], _ => False
  | _ :: _, [] => True
  | r :: rs, n :: ns => segOk user r n ∧ Above user rs ns

/-- Characters of names of nodes (with a module prefix) and keys. -/
def nameChar (c : Char) : Prop :=
  c ≠ '/' ∧ c ≠ '[' ∧ c ≠ ']' ∧ c ≠ '=' ∧ c ≠ '$' ∧ c ≠ '\''

instance (c : Char) : Decidable (nameChar c) := inferInstanceAs (Decidable (_ ∧ _))

def nameOk (s : Str) : Prop := ∀ c ∈ s, nameChar c

/-- Canonical rule path: values without quotes and without `$`. -/
def RPred.ok : RPred → Prop
  | .val k v => nameOk k ∧ ∀ c ∈ v, c ≠ '\'' ∧ c ≠ '$'
  | .user k => nameOk k

def RSeg.ok (s : RSeg) : Prop := nameOk s.name ∧ ∀ p ∈ s.preds, p.ok

/-- Path of a node: values without quotes and without `[`. -/
def NSeg.ok (s : NSeg) : Prop :=
  nameOk s.name ∧ ∀ p ∈ s.preds, nameOk p.1 ∧ ∀ c ∈ p.2, c ≠ '\'' ∧ c ≠ '['

end Verif.NacmPath
