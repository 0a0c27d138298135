/-!
# Which operational providers are asked for a filtered read

Model of `sr_xpath_next_identifier`, `sr_xpath_next_qname` (common.c 4755-4828), `sr_xpath_text_atom_add` (4936-4975),
`sr_xpath_text_atoms_expr` (4980-5193), `sr_xpath_get_text_atoms` (5196-5247), `sr_xpath_oper_data_text_atom_pred_match` (modinfo.c
867-920), `sr_xpath_oper_data_text_atoms_required` (922-988), `sr_xpath_oper_data_required` (990-1065), `sr_xpath_oper_data_get`
(1067-1158) and the loop over the providers in `sr_module_oper_data_update` (1443-1588).

A C string is the list of its characters; a pointer into it is the rest of the string. Reading behind the end of a string is the result
`none`. Memory allocation does not fail. XPaths are ASCII.
-/
namespace Verif.OperFilter

abbrev Str := List Char

/-! ## Text atoms -/

/-- First character, the terminating zero at the end. -/
def hd (s : Str) : Char := s.headD '\x00'

def isAlpha (c : Char) : Bool := ('a' ≤ c && c ≤ 'z') || ('A' ≤ c && c ≤ 'Z')
def isDigit (c : Char) : Bool := '0' ≤ c && c ≤ '9'
def isSpace (c : Char) : Bool := c = ' ' || ('\t' ≤ c && c ≤ '\r')

/-- `SR_IS_YANG_ID_CHAR`, common.c 64. -/
def idChar (c : Char) : Bool := isAlpha c || isDigit c || c = '_' || c = '-' || c = '.'

/-- `sr_xpath_next_identifier` with `allow_special`, common.c 4763-4782. -/
def nextIdent (s : Str) : Str :=
  if ['.', '.'].isPrefixOf s || ['/', '.'].isPrefixOf s then s.drop 2
  else if hd s = '*' || hd s = '.' then s.drop 1
  else if !isAlpha (hd s) && hd s ≠ '_' then s
  else (s.drop 1).dropWhile idChar

/-- The text between two pointers. -/
def upTo (s e : Str) : Str := s.take (s.length - e.length)

/-- `sr_xpath_next_qname`, common.c 4784-4828: module name (empty if there is none), name, rest. -/
def nextQname (s : Str) : Str × Str × Str :=
  let p := nextIdent s
  if hd p = ':' then (upTo s p, upTo (p.drop 1) (nextIdent (p.drop 1)), nextIdent (p.drop 1))
  else ([], upTo s p, p)

structure Atom where
  text : Str
  selected : Bool
deriving DecidableEq

/-- `sr_xpath_text_atom_add`, common.c 4936-4975. -/
def addAtom (t : Str) (selected : Bool) (as : List Atom) : List Atom :=
  if as.any (·.text = t) then as else as ++ [⟨t, selected⟩]

/-- `xpath_ops`, common.c 4980. -/
def ops : List Str :=
  ["or ".toList, "and ".toList, "=".toList, "!=".toList, "<".toList, ">".toList, "<=".toList, ">=".toList, "+".toList, "-".toList,
    "*".toList, "div ".toList, "mod ".toList, "|".toList]

/-- Search for an operator, common.c 5127-5133. -/
def findOp (s : Str) : Option Str := ops.find? (·.isPrefixOf s)

/-- The rest after a literal that starts at `s` with a quote, `none` if it does not end. -/
def afterLiteral (s : Str) : Option Str :=
  match (s.drop 1).dropWhile (· ≠ hd s) with
  | [] => none
  | _ :: r => some r

def isQuote (c : Char) : Bool := c = '\'' || c = '"'

/-- Whether a character ends the expression, for `end_chars`; `none` is the end of the string. -/
def ends (e : Option Str) (c : Char) : Bool :=
  match e with
  | none => c = '\x00'
  | some cs => c ≠ '\x00' && cs.contains c

mutual
/-- `sr_xpath_text_atoms_expr`, common.c 4995-5193: the atoms and `xpath_next`. -/
def expr : Nat → Str → Str → Option Str → List Atom → Option (List Atom × Str)
  | 0, _, _, _, _ => none
  | n + 1, xp, prev, e, as =>
    let s := xp.dropWhile isSpace
    if e.isSome && ends e (hd s) then some (as, s)
    else if isQuote (hd s) then (afterLiteral s).map fun r => (as, r)
    else if isDigit (hd s) then some (as, s.dropWhile isDigit)
    else if hd s = '/' then names n xp prev e [] false (s.drop 1) as
    else names n xp prev e prev false s as
/-- From the label `parse_name`, common.c 5043-5188, with `cur_atom` and `last_is_node`. -/
def names : Nat → Str → Str → Option Str → Str → Bool → Str → List Atom → Option (List Atom × Str)
  | 0, _, _, _, _, _, _, _ => none
  | n + 1, xp, prev, e, cur, node, s, as =>
    let r := (nextQname s).2.2
    if r.length = s.length then some (as, xp)
    else
      let cur' := if hd r = '(' then cur else cur ++ '/' :: upTo s r
      let node' := if hd r = '(' then node else true
      if hd r = '/' then names n xp prev e cur' node' (r.drop 1) as
      else if hd r = '(' then
        match args n cur' r as with
        | none => none
        | some (as', none) => some (as', xp)
        | some (as', some r') => after n xp prev e cur' false false r' as'
      else if hd r = '[' then
        match preds n cur' r as with
        | none => none
        | some (as', none) => some (as', xp)
        | some (as', some r') =>
          if hd r' = '/' then names n xp prev e cur' node' (r'.drop 1) as'
          else after n xp prev e cur' false (as.length < as'.length) r' as'
      else after n xp prev e cur' node' false r as
/-- The arguments of a function, common.c 5070-5084; inner `none` for an unknown expression. At the end of the string the code reads
behind it. -/
def args : Nat → Str → Str → List Atom → Option (List Atom × Option Str)
  | 0, _, _, _ => none
  | n + 1, cur, s, as =>
    match expr n (s.drop 1) cur (some [',', ')']) as with
    | none => none
    | some (as', r) =>
      if r.length = (s.drop 1).length && !(hd r = ',' || hd r = ')' || r = []) then some (as', none)
      else if hd r = ',' then args n cur r as'
      else if r = [] then none
      else some (as', some (r.drop 1))
/-- The predicates, common.c 5085-5099. -/
def preds : Nat → Str → Str → List Atom → Option (List Atom × Option Str)
  | 0, _, _, _ => none
  | n + 1, cur, s, as =>
    match expr n (s.drop 1) cur (some [']']) as with
    | none => none
    | some (as', r) =>
      if r.length = (s.drop 1).length && hd r ≠ ']' then some (as', none)
      else if r = [] then none
      else if hd (r.drop 1) = '[' then preds n cur (r.drop 1) as'
      else some (as', some (r.drop 1))
/-- The end of an expression or an operator, common.c 5113-5187. -/
def after : Nat → Str → Str → Option Str → Str → Bool → Bool → Str → List Atom → Option (List Atom × Str)
  | 0, _, _, _, _, _, _, _, _ => none
  | n + 1, xp, prev, e, cur, node, stored, r, as =>
    let s := r.dropWhile isSpace
    if ends e (hd s) then
      some (if !stored && prev.length < cur.length then addAtom cur e.isNone as else as, s)
    else match findOp s with
    | none => some (as, xp)
    | some op =>
      let s2 := s.drop op.length
      if node && e = some [']'] && op = ['='] then
        let s3 := s2.dropWhile isSpace
        if isQuote (hd s3) then
          match afterLiteral s3 with
          | none => none
          | some s4 =>
            let as' := addAtom (prev ++ '[' :: cur.drop (prev.length + 1) ++ '=' :: upTo s3 s4 ++ [']']) false as
            let s5 := s4.dropWhile isSpace
            expr n (s5.drop ((findOp s5).map List.length |>.getD 0)) prev e as'
        else expr n s3 prev e as
      else
        let as' := if !stored && prev.length < cur.length then addAtom cur false as else as
        if e.isNone && hd s = '|' then some (as', s)
        else expr n s2 prev e as'
end

/-- Enough steps for a string. -/
def fuel (s : Str) : Nat := 4 * s.length + 4

/-- `sr_xpath_get_text_atoms`, common.c 5196-5247: the atoms of the parts of a union; `some none` if nothing was found out. An unknown
expression after the first part keeps the parts before it. -/
def unions : Nat → Str → Option (List (List Atom))
  | 0, _ => none
  | n + 1, xp =>
    match expr (fuel xp) xp ['/'] none [] with
    | none => none
    | some (as, r) =>
      if r.length = xp.length then some []
      else if hd r = '|' then (unions n (r.drop 1)).map (as :: ·)
      else some [as]

def textAtoms (xp : Str) : Option (List (List Atom)) := unions (xp.length + 1) xp

/-! ## Comparison -/

/-- `sr_xpath_oper_data_text_atom_pred_match`, modinfo.c 876-920; the arguments point behind the opening bracket. The names are parsed
from one character later. -/
def predMatch : Nat → Str → Str → Option Nat
  | 0, _, _ => none
  | n + 1, a, b =>
    match nextQname (a.drop 1), nextQname (b.drop 1) with
    | (m1, n1, a'), (m2, n2, b') =>
      if m1 ≠ [] ∧ m2 ≠ [] ∧ m1 ≠ m2 then some 0
      else if n1 ≠ n2 then some 0
      else if hd a' ≠ '=' ∧ hd b' ≠ '=' then (if a' = [] ∨ b' = [] then none else predMatch n a' b')
      else if hd a' ≠ '=' ∨ hd b' ≠ '=' then some 0
      else
        match afterLiteral (a'.drop 1), afterLiteral (b'.drop 1) with
        | some r1, some r2 =>
          some (if (upTo (a'.drop 2) r1).dropLast = (upTo (b'.drop 2) r2).dropLast then 1 else 2)
        | _, _ => none

/-- A wildcard, modinfo.c 945-955. -/
def wild (name : Str) : Bool := name = ['*'] || name = ['/', '.']

/-- `sr_xpath_oper_data_text_atoms_required`, modinfo.c 931-988. -/
def atomsMatch : Nat → Str → Str → Option Nat
  | 0, _, _ => none
  | n + 1, a, b =>
    match nextQname (a.drop 1), nextQname (b.drop 1) with
    | (m1, n1, a'), (m2, n2, b') =>
      if m1 ≠ [] ∧ m2 ≠ [] ∧ m1 ≠ m2 then some 0
      else if !wild n1 && !wild n2 && n1 ≠ n2 then some 0
      else if hd a' = '[' ∧ hd b' = '[' then
        (predMatch a.length (a'.drop 1) (b'.drop 1)).map fun r => if r = 2 then 2 else 1
      else if hd a' = '[' ∨ hd b' = '[' then some 1
      else if a' ≠ [] ∧ b' ≠ [] then atomsMatch n a' b'
      else some 1

/-- The inner loop of `sr_xpath_oper_data_required`, modinfo.c 1030-1048, over the atoms of the subscription: `*required` and whether
it was left by `break`. -/
def subLoop (a : Atom) : List Atom → Bool → Option (Bool × Bool)
  | [], req => some (req, false)
  | b :: bs, req =>
    match atomsMatch a.text.length a.text b.text with
    | none => none
    | some r =>
      if r = 0 ∧ a.selected ∧ b.selected then some (false, true)
      else if r = 1 then subLoop a bs true
      else if r = 2 then some (false, true)
      else subLoop a bs req

/-- The loop over the atoms of the request, modinfo.c 1028-1053. -/
def reqLoop (bs : List Atom) : List Atom → Bool → Option Bool
  | [], req => some req
  | a :: as, req =>
    match subLoop a bs req with
    | none => none
    | some (r, true) => some r
    | some (r, false) => reqLoop bs as r

/-- The loops over the parts of the unions, modinfo.c 1026-1058. -/
def anyPart : List (List Atom × List Atom) → Option Bool
  | [] => some false
  | (as, bs) :: rest =>
    match reqLoop bs as false with
    | none => none
    | some true => some true
    | some false => anyPart rest

/-- `sr_xpath_oper_data_required`, modinfo.c 998-1065. -/
def required (request sub : Str) : Option Bool :=
  match textAtoms request with
  | none => none
  | some [] => some true
  | some us =>
    match textAtoms sub with
    | none => none
    | some [] => some true
    | some vs => anyPart (us.flatMap fun u => vs.map fun v => (u, v))

/-! ## Specification: paths and the nodes they select -/

/-- A node of an instance path: its module, name and the values of its keys. -/
structure Inst where
  mod : Str
  name : Str
  keys : List (Str × Str)

/-- `[key='value']` with the used quote. -/
structure Pred where
  key : Str
  val : Str
  quote : Char

/-- One step of a path: optional module, name (`*` for any), predicates. -/
structure Step where
  mod : Option Str
  name : Str
  preds : List Pred

abbrev XPath := List Step

def Pred.print (p : Pred) : Str := '[' :: p.key ++ '=' :: p.quote :: p.val ++ [p.quote, ']']

def Step.qname (s : Step) : Str :=
  match s.mod with
  | none => s.name
  | some m => m ++ ':' :: s.name

def Step.print (s : Step) : Str := '/' :: s.qname ++ (s.preds.map Pred.print).flatten

/-- The text of a path. -/
def XPath.print (x : XPath) : Str := (x.map Step.print).flatten

/-- A step selects a node. A name without a module is taken to be in any module. -/
def Step.Selects (s : Step) (i : Inst) : Prop :=
  (∀ m, s.mod = some m → i.mod = m) ∧ (s.name = ['*'] ∨ i.name = s.name) ∧ ∀ p ∈ s.preds, i.keys.lookup p.key = some p.val

/-- A path selects a node. -/
def XPath.Selects : XPath → List Inst → Prop
  | [], [] => True
  | s :: x, i :: n => s.Selects i ∧ XPath.Selects x n
  | _, _ => False

/-- A node is selected or is inside of a selected node. -/
def XPath.Covers (x : XPath) (n : List Inst) : Prop := ∃ k, XPath.Selects x (n.take k)

/-- A YANG identifier. -/
def Ident (s : Str) : Prop := ∃ c cs, s = c :: cs ∧ (isAlpha c = true ∨ c = '_') ∧ ∀ d ∈ cs, idChar d = true

/-- A path as an API user writes it: names or `*`, key predicates with quoted values. -/
def XPath.Valid (x : XPath) : Prop :=
  x ≠ [] ∧ ∀ s ∈ x, (∀ m, s.mod = some m → Ident m) ∧ (Ident s.name ∨ s.name = ['*']) ∧
    ∀ p ∈ s.preds, Ident p.key ∧ (p.quote = '\'' ∨ p.quote = '"') ∧ p.quote ∉ p.val

/-- Names of keys that differ also without their first character, which is followed by a letter. -/
def KeyNames (ks : List Str) : Prop :=
  (∀ k ∈ ks, Ident (k.drop 1)) ∧ ∀ k ∈ ks, ∀ l ∈ ks, k.drop 1 = l.drop 1 → k = l

/-- The keys in the predicates. -/
def XPath.keys (x : XPath) : List Str := x.flatMap fun s => s.preds.map (·.key)

/-! ## Asking the providers -/

/-- A node, by the nodes from the top. -/
abbrev Node := List Inst

/-- The nodes that exist. -/
abbrev Data := Node → Prop

/-- An operational data subscription: its path, `SR_SUBSCR_OPER_MERGE`, and the nodes returned for a request and a parent. -/
structure Provider where
  path : XPath
  merge : Bool
  answer : Option XPath → Node → Data

/-- `lyd_path` with `LYD_PATH_STD`: the module where it changes, all the keys. -/
def stdPath (parent : Option Str) : Node → XPath
  | [] => []
  | i :: n =>
    { mod := if parent = some i.mod then none else some i.mod
      name := i.name
      preds := i.keys.map fun kv => ⟨kv.1, kv.2, if '\'' ∈ kv.2 then '"' else '\''⟩ } :: stdPath (some i.mod) n

/-- The requests because of which data are required, modinfo.c 1496-1507. -/
def causes (reqs : List XPath) (sub : Str) : List XPath := reqs.filter fun r => required (XPath.print r) sub != some false

/-- The path passed to the provider, modinfo.c 1128. -/
def single : List XPath → Option XPath
  | [r] => some r
  | _ => none

/-- One provider, modinfo.c 1480-1587 and `sr_xpath_oper_data_get`, 1085-1158. `reqs` is empty if all the data are read. No data are
cached, no provider fails, options do not leave out its type of data; there is only one subscription of the path. -/
def update (reqs : List XPath) (d : Data) (p : Provider) : Data :=
  let rs := causes reqs (XPath.print p.path)
  if !reqs.isEmpty && rs.isEmpty then d
  else
    let d1 : Data := fun n => d n ∧ (p.merge = true ∨ ¬ XPath.Covers p.path n)
    fun n => d1 n ∨
      if p.path.length = 1 then p.answer (single rs) [] n
      else ∃ q, d1 q ∧ XPath.Selects p.path.dropLast q ∧ (rs.isEmpty = true ∨ (causes rs (XPath.print (stdPath none q))).isEmpty = false) ∧
        p.answer (single rs) q n

/-- All the providers in turn. -/
def readAll (reqs : List XPath) (d : Data) (ps : List Provider) : Data := ps.foldl (update reqs) d

/-! ## Specification of the read -/

/-- A node that the request returns, is needed for what it returns, or would be if it was there. -/
def Relevant (r : XPath) (n : Node) : Prop := ∃ m, n <+: m ∧ XPath.Covers r m

/-- A well-formed node with keys from `ks`. -/
def NodeOk (ks : List Str) (n : Node) : Prop :=
  ∀ i ∈ n, Ident i.mod ∧ Ident i.name ∧ (i.keys.map (·.1)).Nodup ∧
    ∀ kv ∈ i.keys, kv.1 ∈ ks ∧ Ident kv.1 ∧ ('\'' ∈ kv.2 → '"' ∉ kv.2)

/-- A provider returns nodes of its path in the given parent, for a request at least what is relevant for it. -/
def Provider.Fair (ks : List Str) (p : Provider) : Prop :=
  (∀ o q n, p.answer o q n → XPath.Covers p.path n ∧ q <+: n ∧ NodeOk ks n) ∧
  ∀ r q n, Relevant r n → (p.answer (some r) q n ↔ p.answer none q n)

end Verif.OperFilter
