/-!
# Paths and keys in the database plugins

The Redis and the MongoDB datastore plugins store every node of the data as one record.  Its key in
the database is the path of the node as text, list keys are packed into one string, and the record
also has the path with the slashes replaced by spaces (`path_modif`), by which the records are
sorted when they are loaded, so that a parent comes before its children.  Whole subtrees are
deleted (MongoDB) and loaded (both, if paths are asked for) by the beginning of the text.

The model is `common_db.c` 36–233 and 400–423, the placing of nodes in `srpds_add_conv_mod_data`
(common_db.c 526–590), the deletion of nodes (ds_mongo.c 1847–1900, 2127–2165, 2284–2290,
2330–2336; ds_redis.c 966–985, 1608–1640, 1762–1820) and the filter of loading (ds_mongo.c
405–494; ds_redis.c 2650–2750).

Simplified: a text is a list of characters and the databases compare texts by their code points
(the order of UTF-8 bytes is the same); a query for an exact text finds exactly the records with it
(see the findings by reading on the tag index of Redis); what a record holds besides its path is
left out; failures of the database itself are left out.
-/
namespace Verif.DbPath

/-- Text. -/
abbrev Str := List Char

/-! ## List keys -/

/-- The loop of `srpds_concat_key_values` (common_db.c 67–108): length in two bytes of seven bits,
then the key. -/
def addKeys : List (List UInt8) → List UInt8 → Option (List UInt8)
  | [], buf => some buf
  | k :: ks, buf =>
    if k.length > 16383 then none
    else addKeys ks (buf ++ UInt8.ofNat (k.length >>> 7) :: UInt8.ofNat (k.length &&& 0x7f) :: k)

/-- `srpds_concat_key_values` (common_db.c 36–113); `none` is an error. -/
def concatKeys (ks : List (List UInt8)) : Option (List UInt8) :=
  if ks.length > 127 then none else addKeys ks [UInt8.ofNat ks.length]

/-- A (signed) `char` converted to `uint32_t`. -/
def charToU32 (b : UInt8) : Nat := if b.toNat < 128 then b.toNat else 2 ^ 32 - 256 + b.toNat

/-- `SRPDS_DB_LIST_KEY_GET_LEN` (common_db.h 31). -/
def keyLen (hi lo : UInt8) : Nat := ((charToU32 hi <<< 7) % 2 ^ 32) ||| charToU32 lo

/-- The loop of `srpds_parse_keys` (common_db.c 134–143); `none` is reading behind the buffer. -/
def parseLoop : Nat → List UInt8 → Option (List (List UInt8))
  | 0, _ => some []
  | n + 1, hi :: lo :: rest =>
    if rest.length < keyLen hi lo then none
    else (parseLoop n (rest.drop (keyLen hi lo))).map (rest.take (keyLen hi lo) :: ·)
  | _ + 1, _ => none

/-- `srpds_parse_keys` (common_db.c 115–147). -/
def parseKeys : List UInt8 → Option (List (List UInt8))
  | [] => none
  | n :: buf => parseLoop n.toNat buf

/-! ## Paths as text -/

/-- A predicate of a path: a list key (or `.` for a leaf-list) and its value. -/
structure Pred where
  key : Str
  value : Str
  deriving DecidableEq, Repr

/-- A step of a path: the name of a node (with the module where it changes) and the predicates. -/
structure Step where
  name : Str
  preds : List Pred
  deriving DecidableEq, Repr

/-- A path of a data node. -/
abbrev Path := List Step

/-- The quotes `lyd_path` of libyang uses for a value. -/
def quoteOf (v : Str) : Char := if '\'' ∈ v then '"' else '\''

/-- A predicate written with the quotes `f` chooses for a value. -/
def predText (f : Str → Char) (p : Pred) : Str :=
  '[' :: (p.key ++ '=' :: f p.value :: (p.value ++ [f p.value, ']']))

/-- A step written with the quotes `f` chooses. -/
def stepText (f : Str → Char) (s : Step) : Str := s.name ++ s.preds.flatMap (predText f)

/-- A path written with the quotes `f` chooses. -/
def textWith (f : Str → Char) (p : Path) : Str := p.flatMap fun s => '/' :: stepText f s

/-- `lyd_path(node, LYD_PATH_STD)` (common_db.c 276): the key of the record of a node. -/
def pathText (p : Path) : Str := textWith quoteOf p

/-- `srpds_path_token` (common_db.c 149–190) forward: what is before the next slash that is not
inside a string, and what is behind it; `none` at the end of the text. -/
def token : Bool → Bool → Str → Option (Str × Str)
  | _, _, [] => none
  | sq, dq, c :: t =>
    if c = '\'' then
      (token (if sq then false else if dq then sq else true) dq t).map fun x => (c :: x.1, x.2)
    else if c = '"' then
      (token sq (if dq then false else if sq then dq else true) t).map fun x => (c :: x.1, x.2)
    else if c = '/' ∧ sq = false ∧ dq = false then some ([], t)
    else (token sq dq t).map fun x => (c :: x.1, x.2)

/-- The loop of `srpds_get_node_depth` (common_db.c 192–204); `fuel` is more than the length of the
text. -/
def depthLoop : Nat → Str → Nat
  | 0, _ => 0
  | fuel + 1, s =>
    match token false false s with
    | none => 0
    | some x => 1 + depthLoop fuel x.2

/-- `srpds_get_node_depth` (common_db.c 192–204). -/
def depth (s : Str) : Nat := depthLoop (s.length + 1) s

/-- `srpds_get_parent_path` (common_db.c 206–212): cut the text at the last slash not inside a
string, looked for from the end; `none` is running out of the text at its beginning. -/
def parentText (s : Str) : Option Str := (token false false s.reverse).map fun x => x.2.reverse

/-- The loop of `srpds_get_modif_path` (common_db.c 224–228). -/
def modifLoop : Nat → Str → Str
  | 0, s => s
  | fuel + 1, s =>
    match token false false s with
    | none => s
    | some x => x.1 ++ ' ' :: modifLoop fuel x.2

/-- `srpds_get_modif_path` (common_db.c 214–233). -/
def modif (s : Str) : Str := modifLoop (s.length + 2) (s ++ [' '])

/-- The order of the databases: `SORTBY @path_modif ASC` (ds_redis.c 3081–3084), sort by
`path_modif` (ds_mongo.c 786–794). -/
def le : Str → Str → Bool
  | [], _ => true
  | _ :: _, [] => false
  | a :: s, b :: t => decide (a.toNat < b.toNat) || (decide (a = b) && le s t)

/-! ## Loading -/

/-- The array of parent nodes and the nodes created so far, each with the node it was put below.
A node is named by the path of its record. -/
structure Load where
  arr : List Str
  out : List (Str × Option Str)
  deriving DecidableEq, Repr

/-- The beginning of `srpds_add_conv_mod_data` (common_db.c 536–590): the parent is found by the
depth of the path; `none` is an access behind the array.  `node_idx` is unsigned, so a depth of 0
is far behind any array. -/
def addNode (st : Load) (path : Str) : Option Load :=
  if depth path = 0 then none
  else if depth path = 1 then
    some { arr := if st.arr.length = 0 then [path] else st.arr.set 0 path, out := st.out ++ [(path, none)] }
  else match st.arr[depth path - 2]? with
    | none => none
    | some parent =>
      some { arr := if st.arr.length ≤ depth path - 1 then st.arr ++ [path] else st.arr.set (depth path - 1) path,
             out := st.out ++ [(path, some parent)] }

/-- The loop over the records (ds_redis.c 3114–3237, ds_mongo.c 836–1012). -/
def loadLoop : Load → List Str → Option Load
  | st, [] => some st
  | st, p :: ps => (addNode st p).bind fun st => loadLoop st ps

/-- Loading records in the order given by the database. -/
def load (paths : List Str) : Option (List (Str × Option Str)) :=
  (loadLoop { arr := [], out := [] } paths).map (·.out)

/-! ## Queries by the beginning of a text -/

/-- `srpds_escape_string` (common_db.c 399–423). -/
def escape : Str → Str
  | [] => []
  | c :: t =>
    if (' '.toNat ≤ c.toNat ∧ c.toNat ≤ '/'.toNat) ∨ (':'.toNat ≤ c.toNat ∧ c.toNat ≤ '@'.toNat) ∨
        ('['.toNat ≤ c.toNat ∧ c.toNat ≤ '`'.toNat) ∨ ('{'.toNat ≤ c.toNat ∧ c.toNat ≤ '~'.toNat)
    then '\\' :: c :: escape t
    else c :: escape t

/-- Characters with a meaning of their own in a regular expression (PCRE). -/
def special (c : Char) : Bool := c ∈ ['^', '$', '.', '[', ']', '|', '(', ')', '?', '*', '+', '{', '}']

/-- Letters and digits: a backslash before them has a meaning of its own. -/
def alnum (c : Char) : Bool :=
  (decide ('0'.toNat ≤ c.toNat) && decide (c.toNat ≤ '9'.toNat)) ||
  (decide ('A'.toNat ≤ c.toNat) && decide (c.toNat ≤ 'Z'.toNat)) ||
  (decide ('a'.toNat ≤ c.toNat) && decide (c.toNat ≤ 'z'.toNat))

/-- Whether the text begins with what the pattern `^…` says (`{"$regex": …}` of MongoDB; a prefix
`…*` of a tag of Redis is escaped in the same way); `none` if the pattern is not a plain text. -/
def literal : Str → Str → Option Bool
  | [], _ => some true
  | '\\' :: c :: p, t =>
    if alnum c then none
    else match t with
      | [] => (literal p []).map fun _ => false
      | d :: t => (literal p t).map fun b => decide (c = d) && b
  | '\\' :: [], _ => none
  | c :: p, t =>
    if special c then none
    else match t with
      | [] => (literal p []).map fun _ => false
      | d :: t => (literal p t).map fun b => decide (c = d) && b

/-- Whether a query for the beginning `p` finds a record. -/
def begins (p rec : Str) : Bool := literal (escape p) rec == some true

/-! ## Deleting -/

/-- The two plugins. -/
inductive Backend
  | redis
  | mongo
  deriving DecidableEq, Repr

/-- Changes of the data. -/
inductive Change
  /-- A node is created. -/
  | create (p : Path)
  /-- A node is deleted; the diff has the nodes below it. -/
  | delete (p : Path) (below : List Path)
  deriving DecidableEq, Repr

/-- The changes of the records.  Redis writes the record of a created node (ds_redis.c 1412–1590)
and deletes the record of each node in the deleted subtree (`DEL`, ds_redis.c 1620–1632, with the
inherited operation 1812–1816).  MongoDB deletes by the beginning of the path if the deleted node has
children in the diff (ds_mongo.c 1869–1882, 2140–2153) and the one record otherwise (1884–1889,
2155–2158). -/
def apply (be : Backend) (db : List Str) : Change → List Str
  | .create p => db.filter (· ≠ pathText p) ++ [pathText p]
  | .delete p below =>
    match be with
    | .redis => db.filter fun r => r ∉ (p :: below).map pathText
    | .mongo =>
      if below.isEmpty then db.filter (· ≠ pathText p) else db.filter fun r => !begins (pathText p) r

/-- A sequence of changes. -/
def applyAll (be : Backend) : List Str → List Change → List Str
  | db, [] => db
  | db, c :: cs => applyAll be (apply be db c) cs

/-! ## The filter of loading -/

/-- What libyang says about the XPaths asked for. -/
structure Lib where
  /-- `lyd_find_path() == LY_ENOTFOUND`: the XPath is a path of one node (ds_redis.c 2671,
  ds_mongo.c 427). -/
  isPath : Str → Bool
  /-- The node is a list key (ds_redis.c 2697, ds_mongo.c 454). -/
  isKey : Str → Bool

/-- The parents of a path (ds_redis.c 2723–2740, ds_mongo.c 478–486); `none` is an access outside of the
text; `fuel` is more than the length of the text. -/
def parents : Nat → Str → Option (List Str)
  | 0, _ => some []
  | fuel + 1, s =>
    match parentText s with
    | none => none
    | some [] => some []
    | some t => (parents fuel t).map (t :: ·)

/-- One XPath in the filter: a beginning and exact texts. -/
structure Filt where
  start : Str
  exact : List Str
  deriving DecidableEq, Repr

/-- The filter of one path (ds_redis.c 2678–2740, ds_mongo.c 434–487). -/
def filterOf (L : Lib) (x : Str) : Option Filt :=
  let path := if x.head? = some '/' then x else '/' :: x
  (if L.isKey path then parentText path else some path).bind fun path =>
    (parents (path.length + 1) path).map fun ps => { start := path, exact := ps }

/-- What a loop over the XPaths ends with: the filters collected and whether all XPaths were
paths. -/
def collect (L : Lib) : List Str → Option (List Filt × Bool)
  | [] => some ([], true)
  | x :: xs =>
    if L.isPath x then
      (filterOf L x).bind fun f => (collect L xs).map fun r => (f :: r.1, r.2)
    else some ([], false)

/-- Whether a filter lets a record through. -/
def Filt.lets (f : Filt) (r : Str) : Bool := begins f.start r || decide (r ∈ f.exact)

/-- `srpds_process_load_paths` and its use (ds_redis.c 2833–2841, 3072–3080 and 3892; ds_mongo.c
488–494): the records loaded.  MongoDB drops the filter if an XPath is not a path; Redis keeps what was
collected until then. -/
def selected (be : Backend) (L : Lib) (xpaths : List Str) (db : List Str) : Option (List Str) :=
  (collect L xpaths).map fun r =>
    match be with
    | .redis => if r.1.isEmpty then db else db.filter fun t => r.1.any fun f => f.lets t
    | .mongo => if r.2 = false ∨ xpaths.isEmpty then db else db.filter fun t => r.1.any fun f => f.lets t

/-! ## Specification -/

/-- A character of a name. -/
def NameChar (c : Char) : Prop :=
  c ≠ '/' ∧ c ≠ '\'' ∧ c ≠ '"' ∧ c ≠ ' ' ∧ c ≠ '[' ∧ c ≠ '='

instance : DecidablePred NameChar := fun c => by unfold NameChar; infer_instance

/-- A step of a path that can be written down in XPath: names are names, and no value has both
kinds of quotes. -/
def Step.Good (s : Step) : Prop :=
  s.name ≠ [] ∧ (∀ c ∈ s.name, NameChar c) ∧
  ∀ p ∈ s.preds, (∀ c ∈ p.key, NameChar c) ∧ ('\'' ∉ p.value ∨ '"' ∉ p.value)

instance (s : Step) : Decidable s.Good := by unfold Step.Good; infer_instance

/-- A path of a node that can be written down in XPath. -/
def Path.Good (p : Path) : Prop := p ≠ [] ∧ ∀ s ∈ p, s.Good

instance (p : Path) : Decidable p.Good := by unfold Path.Good; infer_instance

/-- The nodes of some data: no node twice and every node but the top ones with its parent. -/
structure Data (d : List Path) : Prop where
  good : ∀ p ∈ d, Path.Good p
  nodup : d.Nodup
  parent : ∀ p ∈ d, 1 < p.length → p.dropLast ∈ d

/-- The place of a node: below which node it is. -/
def place (p : Path) : Str × Option Str :=
  (pathText p, if p.length ≤ 1 then none else some (pathText p.dropLast))

/-- The order in which the database returns the records of the nodes `d`. -/
structure Sorted (d ps : List Path) : Prop where
  perm : ps.Perm d
  sorted : ps.Pairwise fun a b => le (modif (pathText a)) (modif (pathText b)) = true

/-- What a change does to the data. -/
def effect (d : List Path) : Change → List Path
  | .create p => d ++ [p]
  | .delete p _ => d.filter fun r => !p.isPrefixOf r

/-- A change fits the data: a created node is new and its parent is there, a deleted one is there
and the diff has exactly what is below it. -/
def Fits (d : List Path) : Change → Prop
  | .create p => Path.Good p ∧ p ∉ d ∧ (1 < p.length → p.dropLast ∈ d)
  | .delete p below => p ∈ d ∧ ∀ r, r ∈ below ↔ r ∈ d ∧ p <+: r ∧ r ≠ p

/-- All changes fit the data left by the ones before. -/
def FitsAll : List Path → List Change → Prop
  | _, [] => True
  | d, c :: cs => Fits d c ∧ FitsAll (effect d c) cs

/-- What all changes do to the data. -/
def effectAll : List Path → List Change → List Path
  | d, [] => d
  | d, c :: cs => effectAll (effect d c) cs

/-- No sibling of the node has a step whose text begins with the text of the step of the node. -/
def Alone (d : List Path) (p : Path) : Prop :=
  ∀ r ∈ d, ∀ s s', p = p.dropLast ++ [s] → p.dropLast ++ [s'] <+: r → stepText quoteOf s <+: stepText quoteOf s' →
    s' = s

/-- A deleted node with something below it is alone in this sense. -/
def AloneAt (d : List Path) : Change → Prop
  | .create _ => True
  | .delete p below => below ≠ [] → Alone d p

/-- Every deleted node with something below it is alone when it is deleted. -/
def AloneAll : List Path → List Change → Prop
  | _, [] => True
  | d, c :: cs => AloneAt d c ∧ AloneAll (effect d c) cs

/-- A text that means the path: quotes of either kind around values that do not have them. -/
def Means (t : Str) (p : Path) : Prop :=
  ∃ f : Str → Char, (∀ v, f v = '\'' ∨ f v = '"') ∧ (∀ s ∈ p, ∀ q ∈ s.preds, f q.value ∉ q.value) ∧ t = textWith f p

/-- What is needed for a node: the node, everything below it and its parents. -/
def Needed (d : List Path) (p r : Path) : Prop := r ∈ d ∧ (p <+: r ∨ r <+: p)

end Verif.DbPath
