/-!
Model of how a subtree filter becomes an XPath filter, `srsn_filter_subtree2xpath` (utils/subscribed_notifications.c 38-60):
utils/sn_common.c 61-103 (`srsn_is_strws`, `srsn_filter_xpath_add_filter`), 155-183 (`srsn_filter_xpath_buf_add_top_content`),
194-274 (`srsn_filter_xpath_print_node_module`), 332-384 (`srsn_filter_xpath_buf_append_content`), 398-420
(`srsn_filter_xpath_buf_append_node`), 436-499 (`srsn_filter_xpath_buf_add_r`), 511-527 (`srsn_filter_xpath_create_top`),
529-579 (`srsn_filter_create_subtree`), 581-648 (`srsn_filter_filter2xpath`).

Simplified: allocations succeed; filters have no attributes (metadata of a filter node are further predicates, attributes of opaque
nodes are refused); values of opaque nodes have prefixes of identities already replaced by module names (283-318). Buffers have the
size the code asks for; a write behind the end is a distinct outcome.

The XPath is text. Its meaning is defined by a tokenizer, a parser of the part of XPath that occurs (paths with predicates that
compare a child, the text of the node or a string with a string, joined by `or`, and unions of paths) and an evaluation: a name without
a module is in the module of the context node, as in libyang's JSON XPath. Anything else is no XPath.
-/
namespace Verif.SubFilter

/-- Text. -/
abbrev Text := List Char

/-- The namespace of a filter node: of an implemented module, of no implemented module, none. -/
inductive Ns where
  | mod (m : Text)
  | unknown (uri : Text)
  | none
deriving DecidableEq

/-- A node of the subtree filter, parsed by libyang: whether it is opaque, whether it is written with a prefix, namespace, name, value
(`lyd_get_value`, none for inner data nodes), children. -/
inductive F where
  | node (opaq pfx : Bool) (ns : Ns) (name : Text) (value : Option Text) (children : List F)

/-- Opaque. -/
def F.opaq : F → Bool
  | node o _ _ _ _ _ => o

/-- With a prefix. -/
def F.pfx : F → Bool
  | node _ p _ _ _ _ => p

/-- Namespace. -/
def F.ns : F → Ns
  | node _ _ n _ _ _ => n

/-- Name. -/
def F.name : F → Text
  | node _ _ _ n _ _ => n

/-- Value. -/
def F.value : F → Option Text
  | node _ _ _ _ v _ => v

/-- Children. -/
def F.children : F → List F
  | node _ _ _ _ _ c => c

/-- `isspace()` in the C locale. -/
def isSpace (c : Char) : Bool := c = ' ' || (9 ≤ c.toNat && c.toNat ≤ 13)

/-- `srsn_is_strws`, utils/sn_common.c 61-82. -/
def isWs (s : Text) : Bool := s.all isSpace

/-- The test of lines 457, 490 and 517: a content match node. -/
def isContent (f : F) : Bool :=
  match f.value with
  | some v => !isWs v
  | none => false

/-- Its value. -/
def valueOf (f : F) : Text := f.value.getD []

/-- What comes of the conversion: a result, an error, or undefined behaviour (NULL is dereferenced or a buffer is exceeded). -/
inductive R (α : Type) where
  | ok (a : α)
  | err
  | ub
deriving DecidableEq

/-- Sequence. -/
def R.bind {α β : Type} (r : R α) (f : α → R β) : R β :=
  match r with
  | .ok a => f a
  | .err => .err
  | .ub => .ub

/-- The buffer with its text up to the end of string and the size passed along, `buf` and `size`. -/
structure Buf where
  text : Text
  size : Nat

/-- `realloc` to `newSize` and `sprintf` of `s` at the offset `size - 1`. -/
def Buf.put (b : Buf) (s : Text) (newSize : Nat) : R Buf :=
  if b.size - 1 + s.length + 1 ≤ newSize then .ok ⟨b.text.take (b.size - 1) ++ s, newSize⟩ else .ub

/-- `srsn_filter_xpath_print_node_module`, utils/sn_common.c 194-274, with the namespace of the parent. -/
def printModule (parent : Option Ns) (topMod : Option Text) (f : F) : Option Text :=
  let m := match f.ns with
    | .mod m => some m
    | _ => none
  match parent with
  | none => match topMod with
    | some t => some t
    | none => m
  | some p => if p = f.ns then none else m

/-- Module, colon and name, lines 350 and 412. -/
def printName (mod : Option Text) (name : Text) : Text :=
  match mod with
  | some m => m ++ ':' :: name
  | none => name

/-- The length added for them. -/
def modLen (mod : Option Text) : Nat :=
  match mod with
  | some m => m.length + 1
  | none => 0

/-- Which quotes are used, lines 370-375. -/
def quot (v : Text) : Char := if v.contains '\'' then '"' else '\''

/-- `srsn_filter_xpath_buf_append_content`, utils/sn_common.c 332-384. -/
def appendContent (parent : Ns) (f : F) (b : Buf) : R Buf :=
  let mod := printModule (some parent) none f
  (b.put ('[' :: printName mod f.name) (b.size + 1 + modLen mod + f.name.length)).bind fun b1 =>
    b1.put ('=' :: quot (valueOf f) :: (valueOf f ++ [quot (valueOf f), ']'])) (b1.size + 2 + (valueOf f).length + 2)

/-- `srsn_filter_xpath_buf_append_node`, utils/sn_common.c 398-420. -/
def appendNode (parent : Option Ns) (topMod : Option Text) (f : F) (b : Buf) : R Buf :=
  let mod := printModule parent topMod f
  b.put ('/' :: printName mod f.name) (b.size + 1 + modLen mod + f.name.length)

/-- The first loop over the children, lines 455-466. -/
def contents (parent : Ns) : List F → Buf → R Buf
  | [], b => .ok b
  | c :: cs, b => if isContent c then (appendContent parent c b).bind (contents parent cs) else contents parent cs b

mutual

/-- `srsn_filter_xpath_buf_add_r`, utils/sn_common.c 436-499: the filters added, with whether they are selections. -/
def addR (parent : Option Ns) (topMod : Option Text) (b : Buf) : F → R (List (Text × Bool))
  | .node o p ns name v cs =>
    (appendNode parent topMod (.node o p ns name v cs) b).bind fun b1 =>
      if cs.isEmpty then .ok [(b1.text, true)]
      else
        (contents ns cs b1).bind fun b2 =>
          if cs.all isContent then .ok [(b2.text, false)] else addRs ns b2 cs

/-- The second loop over the children, lines 475-496. -/
def addRs (parent : Ns) (b : Buf) : List F → R (List (Text × Bool))
  | [] => .ok []
  | c :: cs =>
    (if c.children.isEmpty then (appendNode (some parent) none c b).bind fun b1 => .ok [(b1.text, !isContent c)]
      else addR (some parent) none b c).bind fun l => (addRs parent b cs).bind fun l' => .ok (l ++ l')

end

/-- The text of a content match node at the top, utils/sn_common.c 167-171, in a buffer of the size of line 167. -/
def topContent (m : Text) (f : F) : R (List (Text × Bool)) :=
  let q := quot (valueOf f)
  let s := '/' :: (m ++ ':' :: (f.name ++ ('[' :: 't' :: 'e' :: 'x' :: 't' :: '(' :: ')' :: '=' :: q :: (valueOf f ++ [q, ']']))))
  if s.length + 1 ≤ 1 + m.length + 1 + f.name.length + 9 + (valueOf f).length + 3 then .ok [(s, false)] else .ub

/-- `srsn_filter_xpath_buf_add_top_content`, utils/sn_common.c 155-183. An opaque node has no schema. -/
def addTopContent (topMod : Option Text) (f : F) : R (List (Text × Bool)) :=
  match topMod with
  | some t => topContent t f
  | none =>
    if f.opaq then .ub
    else
      match f.ns with
      | .mod m => topContent m f
      | _ => .ub

/-- `srsn_filter_xpath_create_top`, utils/sn_common.c 511-527. -/
def createTop (topMod : Option Text) (f : F) : R (List (Text × Bool)) :=
  if isContent f then addTopContent topMod f else addR none topMod ⟨[], 1⟩ f

/-- Every module with a top-level node of this name, lines 540-558; `tops`: modules and names of the top-level nodes of the
context. -/
def createEach (f : F) : List (Text × Text) → R (List (Text × Bool))
  | [] => .ok []
  | (m, n) :: tops =>
    if n = f.name then (createTop (some m) f).bind fun l => (createEach f tops).bind fun l' => .ok (l ++ l')
    else createEach f tops

/-- `srsn_filter_create_subtree`, utils/sn_common.c 529-579. -/
def createSubtree (tops : List (Text × Text)) : List F → R (List (Text × Bool))
  | [] => .ok []
  | f :: fs =>
    (if f.opaq && !f.pfx then
      (if tops.any (fun x => x.2 = f.name) then createEach f tops else .err)
    else createTop none f).bind fun l => (createSubtree tops fs).bind fun l' => .ok (l ++ l')

/-- `srsn_filter_filter2xpath`, utils/sn_common.c 609-648; `none`: no XPath. -/
def filter2xpath : List Text → Option Text
  | [] => none
  | x :: xs => some ('(' :: x ++ xs.flatMap (fun y => " | ".toList ++ y) ++ [')'])

/-- `srsn_filter_subtree2xpath`, utils/subscribed_notifications.c 38-60. -/
def subtree2xpath (tops : List (Text × Text)) (fs : List F) : R (Option Text) :=
  (createSubtree tops fs).bind fun l => .ok (filter2xpath (l.map (·.1)))

/-! ## The meaning of the XPath -/

/-- Tokens. -/
inductive Tok where
  | slash | colon | lbr | rbr | eq | lpar | rpar | bar
  | name (s : Text)
  | lit (s : Text)
deriving DecidableEq

/-- Characters of names. -/
def isNameChar (c : Char) : Bool := c.isAlphanum || c = '-' || c = '_' || c = '.'

/-- Tokens of one character. -/
def tokOf (c : Char) : Option Tok :=
  if c = '/' then some .slash else if c = ':' then some .colon else if c = '[' then some .lbr else if c = ']' then some .rbr
  else if c = '=' then some .eq else if c = '(' then some .lpar else if c = ')' then some .rpar else if c = '|' then some .bar
  else none

/-- Where the tokenizer is: between tokens, in a name, in a string that began with `q`. -/
inductive Mode where
  | plain
  | name (acc : Text)
  | lit (q : Char) (acc : Text)

/-- The name read so far. -/
def Mode.flush (m : Mode) (l : List Tok) : List Tok :=
  match m with
  | .name a => .name a.reverse :: l
  | _ => l

/-- The tokens of a text. -/
def lex : Mode → Text → Option (List Tok)
  | .lit _ _, [] => none
  | m, [] => some (m.flush [])
  | .lit q a, c :: cs => if c = q then (lex .plain cs).map (.lit a.reverse :: ·) else lex (.lit q (c :: a)) cs
  | m, c :: cs =>
    if isNameChar c then
      lex (.name (match m with | .name a => c :: a | _ => [c])) cs
    else if c = ' ' then (lex .plain cs).map m.flush
    else if c = '\'' ∨ c = '"' then (lex (.lit c []) cs).map m.flush
    else
      match tokOf c with
      | some t => (lex .plain cs).map (fun l => m.flush (t :: l))
      | none => none

/-- A comparison: of a child, of the node's text, of two strings. -/
inductive Cmp where
  | field (mod : Option Text) (name lit : Text)
  | text (lit : Text)
  | const (a b : Text)
deriving DecidableEq

/-- A step with its predicates, each of comparisons joined by `or`. -/
structure Step where
  mod : Option Text
  name : Text
  preds : List (List Cmp)
deriving DecidableEq

/-- A comparison at the beginning of the tokens, with the tokens after it. -/
def cmp : List Tok → Option (Cmp × List Tok)
  | .name a :: .lpar :: .rpar :: .eq :: .lit v :: r => if a = "text".toList then some (.text v, r) else none
  | .name m :: .colon :: .name n :: .eq :: .lit v :: r => some (.field (some m) n v, r)
  | .name n :: .eq :: .lit v :: r => some (.field none n v, r)
  | .lit a :: .eq :: .lit b :: r => some (.const a b, r)
  | _ => none

/-- The rest of a predicate, up to the bracket; `fuel` is at least the number of tokens. -/
def pred : Nat → List Tok → Option (List Cmp × List Tok)
  | 0, _ => none
  | fuel + 1, ts =>
    match cmp ts with
    | some (c, .rbr :: r) => some ([c], r)
    | some (c, .name o :: r) => if o = "or".toList then (pred fuel r).map (fun x => (c :: x.1, x.2)) else none
    | _ => none

/-- The predicates of a step. -/
def preds : Nat → List Tok → Option (List (List Cmp) × List Tok)
  | 0, _ => none
  | fuel + 1, .lbr :: ts =>
    match pred fuel ts with
    | some (p, r) => (preds fuel r).map (fun x => (p :: x.1, x.2))
    | none => none
  | _ + 1, ts => some ([], ts)

/-- The name of a step. -/
def stepName : List Tok → Option ((Option Text × Text) × List Tok)
  | .name m :: .colon :: .name n :: r => some ((some m, n), r)
  | .name n :: r => some ((none, n), r)
  | _ => none

/-- A path, at least one step. -/
def path : Nat → List Tok → Option (List Step × List Tok)
  | 0, _ => none
  | fuel + 1, .slash :: ts =>
    match stepName ts with
    | none => none
    | some ((m, n), r) =>
      match preds fuel r with
      | none => none
      | some (ps, .slash :: r') => (path fuel (.slash :: r')).map (fun x => (⟨m, n, ps⟩ :: x.1, x.2))
      | some (ps, r') => some ([⟨m, n, ps⟩], r')
  | _ + 1, _ => none

/-- Paths joined by `|`, then the closing parenthesis and nothing more. -/
def union : Nat → List Tok → Option (List (List Step))
  | 0, _ => none
  | fuel + 1, ts =>
    match path fuel ts with
    | some (p, .bar :: r) => (union fuel r).map (p :: ·)
    | some (p, [.rpar]) => some [p]
    | _ => none

/-- The paths of an XPath `( path | path … )`. -/
def parse (x : Text) : Option (List (List Step)) :=
  match lex .plain x with
  | some (.lpar :: ts) => union (3 * ts.length + 3) ts
  | _ => none

/-- A data node: module, name, value of a leaf or leaf-list instance, children. -/
inductive D where
  | node (mod name : Text) (value : Option Text) (children : List D)

/-- Module. -/
def D.mod : D → Text
  | node m _ _ _ => m

/-- Name. -/
def D.name : D → Text
  | node _ n _ _ => n

/-- Value. -/
def D.value : D → Option Text
  | node _ _ v _ => v

/-- Children. -/
def D.children : D → List D
  | node _ _ _ c => c

/-- A name test with the module of the context node. -/
def NameTest (ctx mod : Option Text) (name : Text) (n : D) : Prop :=
  n.name = name ∧ (match mod with | some m => some n.mod = some m | none => some n.mod = ctx)

/-- A comparison at node `n`. Only leaves have a text. -/
def Cmp.Holds (n : D) : Cmp → Prop
  | .field mod name lit => ∃ k ∈ n.children, NameTest (some n.mod) mod name k ∧ k.value = some lit
  | .text lit => n.value = some lit
  | .const a b => a = b

/-- A step with the predicates. -/
def Step.Takes (ctx : Option Text) (s : Step) (n : D) : Prop :=
  NameTest ctx s.mod s.name n ∧ ∀ p ∈ s.preds, ∃ c ∈ p, c.Holds n

/-- The path takes the nodes of the spine one after another. -/
def Takes (ctx : Option Text) : List Step → List D → Prop
  | [], [] => True
  | s :: ss, n :: ns => s.Takes ctx n ∧ Takes (some n.mod) ss ns
  | _, _ => False

/-! ## Specification: RFC 6241, section 6 -/

/-- A spine: a node of the list, a child of it, and so on. -/
def Spine : List D → List D → Prop
  | _, [] => True
  | l, n :: ns => n ∈ l ∧ Spine n.children ns

/-- The node at the end of the spine `s` is in the data an XPath filter lets through: it is selected, above or below a selected one. -/
def Passed (paths : List (List Step)) (data : List D) (s : List D) : Prop :=
  ∃ p ∈ paths, ∃ q, Spine data q ∧ Takes none p q ∧ (s <+: q ∨ q <+: s)

/-- Name and namespace of a filter node; without a namespace any (RFC 6241, 6.2.1). -/
def Matches (f : F) (n : D) : Prop :=
  n.name = f.name ∧ (match f.ns with | .mod m => n.mod = m | .unknown _ => False | .none => True)

/-- A content match node with value `v` (6.2.5): a leaf that is not empty. -/
def Content (f : F) (v : Text) : Prop := f.children = [] ∧ f.value = some v ∧ ∃ c ∈ v, isSpace c = false

/-- All content match nodes among the children of `f` are met at `n`. -/
def Tests (f : F) (n : D) : Prop :=
  ∀ c ∈ f.children, ∀ v, Content c v → ∃ k ∈ n.children, Matches c k ∧ k.value = some v

/-- `k` is the first node of the spine `s` below `n`, and `r` the rest; any child with nothing below if the spine is at its end. -/
def Below (n : D) (s : List D) (k : D) (r : List D) : Prop := s = k :: r ∨ (s = [] ∧ r = [] ∧ k ∈ n.children)

/-- The node at the end of the spine `s` below `n` is in the output of the filter node `f` that matches `n`: everything below a
selection node (6.2.4); everything if there are only content match nodes and all are met; otherwise, if all are met, the content
match nodes, the selection nodes with everything below and the containment nodes, as far as something in them is met (6.2.5), and
what they are in. -/
inductive Out : F → D → List D → Prop
  | selection {f n s} : f.children = [] → Out f n s
  | only_content {f n s} : f.children ≠ [] → (∀ c ∈ f.children, ∃ v, Content c v) → Tests f n → Out f n s
  | content {f n s} (c : F) (v : Text) (k : D) (r : List D) : c ∈ f.children → Content c v → Tests f n →
      (∃ c ∈ f.children, ∀ v, ¬ Content c v) → Below n s k r → Matches c k → k.value = some v → Out f n s
  | other {f n s} (c : F) (k : D) (r : List D) : c ∈ f.children → (∀ v, ¬ Content c v) → Tests f n →
      Below n s k r → Matches c k → Out c k r → Out f n s

/-- The content match nodes among the elements of the filter in the namespace of `f` are met: they are siblings (6.3). -/
def TopTests (fs : List F) (data : List D) (f : F) : Prop :=
  ∀ g ∈ fs, g.ns = f.ns → ∀ v, Content g v → ∃ n ∈ data, Matches g n ∧ n.value = some v

/-- The node at the end of the spine is in the output of the filter: below one of its elements, a content match or another one; or
there are only content match nodes of a namespace, then everything in it. -/
def Filtered (fs : List F) (data s : List D) : Prop :=
  ∃ f ∈ fs, TopTests fs data f ∧ ∃ n r, s = n :: r ∧
    ((∃ v, Content f v ∧ Matches f n ∧ n.value = some v) ∨
     ((∀ v, ¬ Content f v) ∧ Matches f n ∧ Out f n r) ∨
     ((∀ g ∈ fs, g.ns = f.ns → ∃ v, Content g v) ∧ ∀ m, f.ns = .mod m → n.mod = m))

/-! ## What is assumed where the filter is exact -/

/-- `g` is `f` or below it. -/
inductive Sub : F → F → Prop
  | self {f} : Sub f f
  | child {f g c} : Sub f g → c ∈ g.children → Sub f c

/-- `n` is in the data. -/
inductive In : List D → D → Prop
  | top {l n} : n ∈ l → In l n
  | child {l n k} : In l n → k ∈ n.children → In l k

/-- A YANG identifier, as far as it matters here. -/
def NameOk (s : Text) : Prop := s ≠ [] ∧ ∀ c ∈ s, isNameChar c = true

/-- Filters and data without the cases that go wrong. -/
structure Fits (tops : List (Text × Text)) (data : List D) (fs : List F) : Prop where
  /-- there is a filter -/
  some : fs ≠ []
  /-- names are names -/
  names : ∀ f ∈ fs, ∀ g, Sub f g → NameOk g.name ∧ ∀ m, g.ns = .mod m → NameOk m
  topNames : ∀ t ∈ tops, NameOk t.1
  /-- every namespace is known -/
  known : ∀ f ∈ fs, ∀ g, Sub f g → ∀ u, g.ns ≠ .unknown u
  /-- no node has text and children; no text has both kinds of quotes -/
  leaves : ∀ f ∈ fs, ∀ g, Sub f g → isContent g = true →
    g.children = [] ∧ ¬ ('\'' ∈ valueOf g ∧ '"' ∈ valueOf g)
  /-- no content match node at the top -/
  top : ∀ f ∈ fs, isContent f = false
  /-- at the top, nodes are written with a prefix, or their name is only in their own module, or they have no namespace -/
  prefixed : ∀ f ∈ fs, (f.opaq = false ∨ f.pfx = true) → ∃ m, f.ns = .mod m
  bare : ∀ f ∈ fs, f.opaq = true → f.pfx = false → (∃ t ∈ tops, t.2 = f.name) ∧
    ∀ m, f.ns = .mod m → ∀ t ∈ tops, t.2 = f.name → t.1 = m
  /-- top-level data are of the schema -/
  schema : ∀ n ∈ data, (n.mod, n.name) ∈ tops
  /-- below the top nodes without a namespace are only meant for nodes in the module of the parent -/
  inherit : ∀ f ∈ fs, ∀ g, Sub f g → ∀ c ∈ g.children, c.ns = .none →
    ∀ n, In data n → ∀ k ∈ n.children, k.name = c.name → k.mod = n.mod
  /-- content match nodes with other siblings are leaves, not leaf-lists -/
  leaf : ∀ f ∈ fs, ∀ g, Sub f g → ∀ c ∈ g.children, isContent c = true → g.children.all isContent = false →
    ∀ n, In data n → ∀ k ∈ n.children, ∀ k' ∈ n.children, Matches c k → Matches c k' → k.value = k'.value

end Verif.SubFilter
