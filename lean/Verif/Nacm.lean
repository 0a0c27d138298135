import Verif.NacmPath
import Verif.NacmGroup
/-!
# NACM decisions

Models `sr_nacm_allowed_tree` (src/utils/nacm.c:1210-1246), `sr_nacm_allowed_node` (1490-1674),
`sr_nacm_check_operation` (1677-1793), the read filters (1808-2076) and `sr_nacm_check_diff`
(2093-2214).

The configuration is what the configuration callbacks keep in memory. The user's groups are those
collected by `sr_nacm_collect_groups` (`Verif.NacmGroup`). The NACM mutex is held for the whole of
each function, so they are modelled as functions of one configuration.
-/
namespace Verif.Nacm

open Verif.NacmPath (Res allowedPath)

abbrev Str := List Char

/-- `SR_NACM_OP_*` (src/utils/nacm.h:28-33). -/
inductive Oper where
  | read | create | update | delete | exec
  deriving Repr, DecidableEq

/-- `target_type` and `target` of a rule (src/utils/nacm.h:38-43, 83-84). -/
inductive Target where
  | any (path : Option Str)
  | data (path : Option Str)
  | rpc (name : Option Str)
  | notif (name : Option Str)
  deriving Repr, DecidableEq

/-- `struct sr_nacm_rule` (src/utils/nacm.h:80-89). `ops` is the bit mask `operations`. -/
structure Rule where
  name : Str
  ops : Oper → Bool
  target : Target
  mod : Option Str
  deny : Bool

/-- `struct sr_nacm_rule_list` (src/utils/nacm.h:72-92). -/
structure RuleList where
  groups : List NacmGroup.Str
  rules : List Rule

/-- `struct sr_nacm` (src/utils/nacm.h:48-96). -/
structure Conf where
  enabled : Bool
  readDeny : Bool
  writeDeny : Bool
  execDeny : Bool
  lists : List RuleList

/-- Node types the decision distinguishes. -/
inductive Kind where
  | data | action | rpc | notif
  deriving Repr, DecidableEq

/-- What is used of a schema node: its module and name, type, whether it has no schema parent,
whether it is a list key and its extension instances (module and name). -/
structure Schema where
  mod : Str
  name : Str
  kind : Kind
  top : Bool
  key : Bool
  exts : List (Str × Str)
  deriving Repr, DecidableEq

/-- `enum sr_nacm_access` (src/utils/nacm.h:98-103). -/
inductive Access where
  | deny | partialDeny | partialPermit | permit
  deriving Repr, DecidableEq

/-- `SR_NACM_ACCESS_IS_NODE_PERMIT` (src/utils/nacm.h:123). -/
def Access.isPermit : Access → Bool
  | .deny => false
  | .partialDeny => false
  | .partialPermit => true
  | .permit => true

/-- The constants used: names of the modules and nodes in the checks. -/
def acm : Str := "ietf-netconf-acm".toList
def denyAll : Str := "default-deny-all".toList
def denyWrite : Str := "default-deny-write".toList

/-- `sr_nacm_allowed_tree` (src/utils/nacm.c:1210-1246). `recovery` is `SR_NACM_RECOVERY_USER`. -/
def allowedTree (c : Conf) (recovery user : Str) (root : Schema) : Bool :=
  if ¬ c.enabled then true
  else if user = recovery then true
  else if root.kind = .rpc ∧ root.name = "close-session".toList ∧ root.mod = "ietf-netconf".toList then
    true
  else if root.kind = .notif ∧ root.mod = "nc-notifications".toList then true
  else if root.kind = .rpc ∧
      (((root.name = "get".toList ∨ root.name = "get-config".toList) ∧ root.mod = "ietf-netconf".toList) ∨
        (root.name = "get-data".toList ∧ root.mod = "ietf-netconf-nmda".toList)) then true
  else false

/-- Outcome of checking one rule. -/
inductive Chk where
  | skip | part | hit
  deriving Repr, DecidableEq

/-- Module name matching (src/utils/nacm.c:1596-1599). -/
def modCheck (s : Schema) (r : Rule) : Chk :=
  match r.mod with
  | none => .hit
  | some m => if m ≠ s.mod then .skip else .hit

/-- Path matching of a data rule (src/utils/nacm.c:1572-1592). An access out of the strings is taken
as no match here; the theorems that depend on it exclude it. -/
def pathCheck (user path : Str) (s : Schema) (r : Rule) : Option Str → Chk
  | none => modCheck s r
  | some t =>
    match allowedPath t path user with
    | .no => .skip
    | .oob => .skip
    | .partly => .part
    | .yes => modCheck s r

/-- The checks of one rule (src/utils/nacm.c:1541-1599). -/
def ruleCheck (user path : Str) (s : Schema) (op : Oper) (r : Rule) : Chk :=
  if ¬ r.ops op then .skip
  else
    match r.target with
    | .rpc n =>
      if s.kind ≠ .rpc then .skip
      else if n.isSome ∧ n ≠ some s.name then .skip
      else modCheck s r
    | .notif n =>
      if ¬ s.top ∨ s.kind ≠ .notif then .skip
      else if n.isSome ∧ n ≠ some s.name then .skip
      else modCheck s r
    | .data p =>
      if s.kind = .rpc ∨ s.kind = .notif then .skip
      else pathCheck user path s r p
    | .any p => pathCheck user path s r p

/-- `partial_access` (src/utils/nacm.c:1508-1512). -/
structure Part where
  permit : Bool
  deny : Bool
  deriving Repr, DecidableEq

/-- The loop over the rules of a list (src/utils/nacm.c:1539-1607). -/
def rulesLoop (chk : Rule → Chk) : List Rule → Part → Part × Option Rule
  | [], p => (p, none)
  | r :: rs, p =>
    match chk r with
    | .skip => rulesLoop chk rs p
    | .part =>
      rulesLoop chk rs (if r.deny then { p with deny := true } else { p with permit := true })
    | .hit => (p, some r)

/-- The loop over the rule lists (src/utils/nacm.c:1532-1608). -/
def listsLoop (chk : Rule → Chk) (ug : List NacmGroup.Str) : List RuleList → Part → Part × Option Rule
  | [], p => (p, none)
  | l :: ls, p =>
    if NacmGroup.groupMatch l.groups ug then
      match rulesLoop chk l.rules p with
      | (p', some r) => (p', some r)
      | (p', none) => listsLoop chk ug ls p'
    else listsLoop chk ug ls p

/-- Operations checked against `default-deny-write` (src/utils/nacm.c:1622). -/
def Oper.isWrite : Oper → Bool
  | .create => true
  | .update => true
  | .delete => true
  | _ => false

/-- The loop over the extensions (src/utils/nacm.c:1614-1631): the extension that denies access. -/
def extLoop (op : Oper) : List (Str × Str) → Option Str
  | [] => none
  | e :: es =>
    if e.1 = acm then
      if e.2 = denyAll then some e.2
      else if op.isWrite ∧ e.2 = denyWrite then some e.2
      else extLoop op es
    else extLoop op es

/-- The defaults (src/utils/nacm.c:1636-1665). -/
def defaultAccess (c : Conf) : Oper → Access
  | .read => if c.readDeny then .deny else .partialPermit
  | .create => if c.writeDeny then .deny else .partialPermit
  | .update => if c.writeDeny then .deny else .partialPermit
  | .delete => if c.writeDeny then .deny else .partialPermit
  | .exec => if c.execDeny then .deny else .partialPermit

/-- The final adjustment (src/utils/nacm.c:1667-1673). -/
def adjust (a : Access) (p : Part) : Access :=
  if a = .deny ∧ p.permit then .partialDeny
  else if a = .permit ∧ p.deny then .partialPermit
  else a

/-- Steps 10-12 (src/utils/nacm.c:1612-1665): access and extension. -/
def step10 (c : Conf) (s : Schema) (op : Oper) : Access × Option Str :=
  match extLoop op s.exts with
  | some e => (.deny, some e)
  | none => (defaultAccess c op, none)

/-- What `sr_nacm_allowed_node` returns. -/
structure Dec where
  access : Access
  rule : Option Str
  ext : Option Str
  deriving Repr, DecidableEq

/-- `sr_nacm_allowed_node` (src/utils/nacm.c:1490-1674). -/
def allowedNode (c : Conf) (ug : List NacmGroup.Str) (user : Str) (op : Oper) (s : Schema) (path : Str) :
    Dec :=
  if ug.length = 0 then
    ⟨adjust (step10 c s op).1 ⟨false, false⟩, none, (step10 c s op).2⟩
  else
    match listsLoop (ruleCheck user path s op) ug c.lists ⟨false, false⟩ with
    | (p, some r) => ⟨adjust (if r.deny then .deny else .permit) p, some r.name, none⟩
    | (p, none) => ⟨adjust (step10 c s op).1 p, none, (step10 c s op).2⟩

/-- `sr_nacm_check_operation` (src/utils/nacm.c:1677-1793): `anc` are the ancestors of the operation
(schema and path, top-level first), `op` the RPC, action or notification. Returns whether it is
denied. The search for the operation node in the tree is not modelled. -/
def checkOperation (c : Conf) (ug : List NacmGroup.Str) (recovery user : Str)
    (anc : List (Schema × Str)) (op : Schema × Str) : Bool :=
  if allowedTree c recovery user ((anc ++ [op]).head?.getD op).1 then false
  else
    let o := if op.1.kind = .notif then Oper.read else Oper.exec
    if ¬ (allowedNode c ug user o op.1 op.2).access.isPermit then true
    else
      match anc.getLast? with
      | none => false
      | some a => ¬ (allowedNode c ug user .read a.1 a.2).access.isPermit

/-! ## Read filter -/

/-- A data tree: schema, step of the path (`/name[key='value']`), children. -/
inductive Tree where
  | node (s : Schema) (step : Str) (children : List Tree)

/-- A node in a subtree: indices of the children leading to it. -/
abbrev Pos := List Nat

mutual
/-- `sr_nacm_check_data_read_filter_r` (src/utils/nacm.c:1808-1863) on a node whose parent has the
path `base`: whether the access is permitted and the denied nodes in order. -/
def filterR (dec : Schema → Str → Access) (base : Str) : Tree → Bool × List Pos
  | .node s step ch =>
    let path := base ++ step
    let childRes := filterRs dec path 0 ch
    match dec s path with
    | .deny => (false, if s.key then [] else [[]])
    | .permit => (true, [])
    | .partialPermit => (true, childRes.2)
    | .partialDeny =>
      if childRes.1 then (true, childRes.2)
      else (false, childRes.2 ++ (if s.key then [] else [[]]))

/-- The loop over children (src/utils/nacm.c:1829-1837). -/
def filterRs (dec : Schema → Str → Access) (base : Str) (i : Nat) : List Tree → Bool × List Pos
  | [] => (false, [])
  | t :: ts =>
    ((filterR dec base t).1 || (filterRs dec base (i + 1) ts).1,
      (filterR dec base t).2.map (i :: ·) ++ (filterRs dec base (i + 1) ts).2)
end

/-- A node in the set of denied nodes: the top-level ancestor of the subtree or a node in it. -/
inductive DNode where
  | top
  | sub (p : Pos)
  deriving Repr, DecidableEq

/-- `sr_nacm_check_data_read_filter_select_r` (src/utils/nacm.c:1878-1921): `anc` are the ancestors
of the subtree, top-level first. -/
def selectR (dec : Schema → Str → Access) (anc : List (Schema × Str)) (base : Str) (t : Tree) :
    List DNode :=
  if anc.reverse.any (fun a => dec a.1 a.2 == .deny) then [.top]
  else
    let d := (filterR dec base t).2
    if anc ≠ [] ∧ d.getLast? = some [] then d.dropLast.map .sub ++ [.top]
    else d.map .sub

/-- The decision for reading. -/
def readDec (c : Conf) (ug : List NacmGroup.Str) (user : Str) (s : Schema) (path : Str) : Access :=
  (allowedNode c ug user .read s path).access

/-- Root schema of a tree. -/
def Tree.schema : Tree → Schema
  | .node s _ _ => s

/-- `sr_nacm_check_data_read_filter` (src/utils/nacm.c:1935-1969). -/
def readFilter (c : Conf) (ug : List NacmGroup.Str) (recovery user : Str) (anc : List (Schema × Str))
    (base : Str) (t : Tree) : List DNode :=
  if allowedTree c recovery user ((anc.map Prod.fst).head?.getD t.schema) then []
  else selectR (readDec c ug user) anc base t

/-- `sr_nacm_get_node_set_read_filter` (src/utils/nacm.c:1971-2024) for one selected node, used by
`sr_get_item`, `sr_get_items`, `sr_get_node` and `sr_get_subtree`: whether it stays in the set. -/
def nodeSetKeeps (c : Conf) (ug : List NacmGroup.Str) (recovery user : Str)
    (anc : List (Schema × Str)) (base : Str) (t : Tree) : Bool :=
  ¬ (readFilter c ug recovery user anc base t).any (fun d => d == .sub [])

/-- The loop freeing denied nodes (src/utils/nacm.c:2060-2071): `none` if the whole subtree is
denied, else the freed nodes. -/
def freeLoop : List DNode → List Pos → Option (List Pos)
  | [], freed => some freed
  | .top :: _, _ => none
  | .sub [] :: _, _ => none
  | .sub p :: ds, freed => freeLoop ds (freed ++ [p])

/-- `sr_nacm_get_subtree_read_filter` (src/utils/nacm.c:2026-2076), used by `sr_get_data`. -/
def subtreeFilter (c : Conf) (ug : List NacmGroup.Str) (recovery user : Str)
    (anc : List (Schema × Str)) (base : Str) (t : Tree) : Option (List Pos) :=
  freeLoop (readFilter c ug recovery user anc base t) []

/-! ## Diff check -/

/-- Operation of a diff node. -/
inductive DOp where
  | none | replace | create | delete
  deriving Repr, DecidableEq

/-- A diff tree: own operation, if any. -/
inductive DTree where
  | node (s : Schema) (step : Str) (op : Option DOp) (children : List DTree)

/-- Required access (src/utils/nacm.c:2122-2145). -/
def DOp.oper : DOp → Option Oper
  | .none => Option.none
  | .replace => some .update
  | .create => some .create
  | .delete => some .delete

mutual
/-- One iteration of `sr_nacm_check_diff_r` (src/utils/nacm.c:2105-2172): whether denied. -/
def checkDiffR (dec : Oper → Schema → Str → Access) (base : Str) (parentOp : DOp) : DTree → Bool
  | .node s step op ch =>
    let path := base ++ step
    let op := op.getD parentOp
    match op.oper with
    | none => checkDiffRs dec path op ch
    | some o =>
      match dec o s path with
      | .permit => false
      | .deny => true
      | .partialDeny => checkDiffRs dec path op ch
      | .partialPermit => checkDiffRs dec path op ch

/-- The loop over siblings (src/utils/nacm.c:2105). -/
def checkDiffRs (dec : Oper → Schema → Str → Access) (base : Str) (parentOp : DOp) : List DTree → Bool
  | [] => false
  | t :: ts => checkDiffR dec base parentOp t || checkDiffRs dec base parentOp ts
end

/-- Schema of a diff node. -/
def DTree.schema : DTree → Schema
  | .node s _ _ _ => s

/-- `sr_nacm_check_diff` (src/utils/nacm.c:2176-2214) on the top-level diff nodes: whether the change
is denied. Top-level nodes always have their own operation. -/
def checkDiff (c : Conf) (ug : List NacmGroup.Str) (recovery user : Str) (diff : List DTree) : Bool :=
  match diff with
  | [] => false
  | t :: ts =>
    if allowedTree c recovery user t.schema then false
    else checkDiffRs (fun o s p => (allowedNode c ug user o s p).access) [] .none (t :: ts)

/-! ## Specification -/

/-- A rule matches an access (RFC 8341, 3.4.4 step 7): the operation is among its access operations,
its module name is the module of the node or `*`, and its target is the node: the name of the RPC, the
name of the notification, or a path the node is at or below. -/
def Matches (user path : Str) (s : Schema) (op : Oper) (r : Rule) : Prop :=
  r.ops op = true ∧ (∀ m, r.mod = some m → m = s.mod) ∧
  match r.target with
  | .rpc n => s.kind = .rpc ∧ ∀ x, n = some x → x = s.name
  | .notif n => s.kind = .notif ∧ s.top = true ∧ ∀ x, n = some x → x = s.name
  | .data p => s.kind ≠ .rpc ∧ s.kind ≠ .notif ∧ ∀ t, p = some t → allowedPath t path user = .yes
  | .any p => ∀ t, p = some t → allowedPath t path user = .yes

/-- Rules for the user, in the configured order. -/
def userRules (ug : List NacmGroup.Str) (lists : List RuleList) : List Rule :=
  (lists.filter (fun l => NacmGroup.groupMatch l.groups ug)).flatMap RuleList.rules

/-- `r` is the first rule in `l` that satisfies `P`. -/
def First (P : Rule → Prop) (l : List Rule) (r : Rule) : Prop :=
  ∃ a b, l = a ++ r :: b ∧ P r ∧ ∀ x ∈ a, ¬ P x

/-- The schema node carries the extension of `ietf-netconf-acm`. -/
def hasExt (s : Schema) (e : Str) : Prop := ("ietf-netconf-acm".toList, e) ∈ s.exts

/-- Denied by the schema of the node. -/
def schemaDenies (s : Schema) (op : Oper) : Prop :=
  hasExt s "default-deny-all".toList ∨
  (hasExt s "default-deny-write".toList ∧ (op = .create ∨ op = .update ∨ op = .delete))

/-- Denied by the global default. -/
def defaultDenies (c : Conf) (op : Oper) : Prop :=
  (op = .read ∧ c.readDeny = true) ∨
  ((op = .create ∨ op = .update ∨ op = .delete) ∧ c.writeDeny = true) ∨
  (op = .exec ∧ c.execDeny = true)

/-- Access to a node as required by RFC 8341. -/
def Permitted (c : Conf) (ug : List NacmGroup.Str) (user : Str) (op : Oper) (s : Schema) (path : Str) :
    Prop :=
  (∃ r, First (Matches user path s op) (userRules ug c.lists) r ∧ r.deny = false) ∨
  ((∀ r ∈ userRules ug c.lists, ¬ Matches user path s op r) ∧ ¬ schemaDenies s op ∧ ¬ defaultDenies c op)

/-- Access explicitly permitted by a rule. -/
def RulePermits (c : Conf) (ug : List NacmGroup.Str) (user : Str) (op : Oper) (s : Schema) (path : Str) :
    Prop :=
  ∃ r, First (Matches user path s op) (userRules ug c.lists) r ∧ r.deny = false

/-- Node at a position in a tree whose root's parent has the path `base`. -/
def nodeAt (base : Str) : Tree → Pos → Option (Schema × Str)
  | .node s step _, [] => some (s, base ++ step)
  | .node _ step ch, i :: p =>
    match ch[i]? with
    | none => none
    | some t => nodeAt (base ++ step) t p

/-- A node is still in the tree after freeing subtrees. -/
def Remains (freed : List Pos) (p : Pos) : Prop := ∀ d ∈ freed, ¬ d <+: p

/-- The target path of a rule, if it has one. -/
def Rule.path? (r : Rule) : Option Str :=
  match r.target with
  | .any p => p
  | .data p => p
  | _ => none

/-- No rule path reads out of the path of the node. -/
def Safe (c : Conf) (user : Str) (path : Str) : Prop :=
  ∀ l ∈ c.lists, ∀ r ∈ l.rules, ∀ t, r.path? = some t → allowedPath t path user ≠ .oob

/-- The access a change of a node needs. -/
inductive Needs : DOp → Oper → Prop
  | created : Needs .create .create
  | deleted : Needs .delete .delete
  | replaced : Needs .replace .update

/-- A diff node with its effective operation, reached from siblings. -/
inductive DMem : Str → DOp → List DTree → Schema → Str → DOp → Prop
  | this {base pop ts s step op ch} : DTree.node s step op ch ∈ ts →
      DMem base pop ts s (base ++ step) (op.getD pop)
  | under {base pop ts s step op ch s' p' o'} : DTree.node s step op ch ∈ ts →
      DMem (base ++ step) (op.getD pop) ch s' p' o' → DMem base pop ts s' p' o'

end Verif.Nacm
