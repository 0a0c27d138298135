/-
Component: which configuration data are in the operational datastore.

Models sr_module_oper_data_get_enabled (modinfo.c 1616-1725) with sr_lyd_dup_module_np_cont,
sr_lyd_get_module_data and both variants of sr_lyd_get_enabled_xpath (common.c 4285-4567): the running
data of a module that change subscriptions enable, duplicated from the cache of the connection or unlinked
from data read from the datastore.

Simplified: the data of one module; a node is its instance among its siblings (schema node, keys or value);
an XPath is the list of the nodes it selects; state NP containers and the origin are left out; the running
data have every NP container that can exist (libyang creates them on every validation), so adding implicit
ones (common.c 4551) is adding those of the running data; merged nodes are put behind their siblings, which
matters only for the order of user-ordered lists and leaf-lists.
-/

namespace Verif.Enabled

/-- An instance: schema node and keys or value. -/
structure Id where
  sch : Nat
  inst : Nat
  deriving DecidableEq, Repr

/-- What a node is: a non-presence container, a list key, another inner node (list, presence container) or
another terminal node. -/
inductive Kind where
  | np | key | inner | term
  deriving DecidableEq, Repr

inductive Node where
  | mk (id : Id) (kind : Kind) (kids : List Node)
  deriving Repr

def Node.id : Node → Id | .mk i _ _ => i
def Node.kind : Node → Kind | .mk _ k _ => k
def Node.kids : Node → List Node | .mk _ _ l => l

abbrev Path := List Id

/-- The first sibling that is an instance, lyd_find_sibling_first. -/
def find (x : Id) : List Node → Option Node
  | [] => none
  | n :: f => if n.id = x then some n else find x f

/-- Replaces the first sibling that is an instance. -/
def replace (x : Id) (m : Node) : List Node → List Node
  | [] => []
  | n :: f => if n.id = x then m :: f else n :: replace x m f

mutual
/-- lyd_merge of one node, used at common.c 4415 and 4556: an instance that exists gets the children, another one is put
behind its siblings. -/
def put (t : List Node) : Node → List Node
  | .mk i k l => match find i t with
    | none => t ++ [.mk i k l]
    | some m => replace i (.mk m.id m.kind (merge m.kids l)) t
/-- lyd_merge of siblings, used at common.c 4415 and 4556. -/
def merge (t : List Node) : List Node → List Node
  | [] => t
  | n :: s => merge (put t n) s
end

mutual
/-- The part of a node that is there whenever its parent is: list keys, and non-presence containers
(sr_lyd_copy_config_np_cont_r common.c 4294-4346). -/
def bone : Node → Option Node
  | .mk i .key _ => some (.mk i .key [])
  | .mk i .np l => some (.mk i .np (bones l))
  | .mk _ _ _ => none
/-- The same for siblings. -/
def bones : List Node → List Node
  | [] => []
  | n :: f => match bone n with
    | some m => m :: bones f
    | none => bones f
end

/-- A selected node with its children, its parents and what they always have, common.c 4480-4490 and
4496-4536. The path is the way to the selected node. -/
def pick : List Node → Path → List Node
  | f, [] => f
  | f, x :: p => f.filterMap fun n =>
    if n.id = x then some (.mk n.id n.kind (pick n.kids p)) else bone n

/-- The top-level tree of a selected node. -/
def pickTop (f : List Node) : Path → List Node
  | [] => []
  | x :: p => (f.filter fun n => n.id = x).map fun n => .mk n.id n.kind (pick n.kids p)

/-- Every selected node is duplicated and merged, common.c 4476-4561 with `dup`. -/
def takeDup (f : List Node) (out : List Node) : List Path → List Node
  | [] => out
  | p :: l => takeDup f (merge out (pickTop f p)) l

/-- Unlinks a node, lyd_unlink_tree. -/
def unlink : List Node → Path → List Node
  | f, [] => f
  | f, [x] => f.filter fun n => n.id ≠ x
  | f, x :: p => f.map fun n => if n.id = x then .mk n.id n.kind (unlink n.kids p) else n

/-- Whether a selected node is a list key. -/
def isKey : List Node → Path → Bool
  | _, [] => false
  | f, x :: p => match find x f with
    | none => false
    | some n => match p with
      | [] => n.kind = .key
      | _ => isKey n.kids p

/-- Every selected node is unlinked and merged, common.c 4476-4561 without `dup`. A node inside an unlinked
one is skipped: it is replaced by NULL in the set when the other is unlinked (4539-4547); here the unlinked
ones are remembered instead. -/
def takeUnlink (f : List Node) (out : List Node) (gone : List Path) : List Path → List Node
  | [] => out
  | p :: l =>
    if gone.any (·.isPrefixOf p) then takeUnlink f out gone l
    else if isKey f p then takeUnlink f (merge out (pickTop f p)) gone l
    else takeUnlink (unlink f p) (merge out (pickTop f p)) (p :: gone) l

/-- A change subscription of running, modinfo.c 1655-1680: nodes selected by its XPath if it has one, the
option SR_SUBSCR_PASSIVE, whether its connection is alive. -/
structure Sub where
  sel : Option (List Path)
  passive : Bool
  alive : Bool

/-- Merges sets without duplicates, ly_set_merge, common.c 4458-4473. -/
def addSet (set : List Path) : List Path → List Path
  | [] => set
  | p :: l => if set.contains p then addSet set l else addSet (set ++ [p]) l

/-- All the selected nodes of subscriptions with an XPath that enable data, modinfo.c 1668-1681. -/
def selected (set : List Path) : List Sub → List Path
  | [] => set
  | s :: l => match s.sel with
    | none => selected set l
    | some ps => if !s.passive && s.alive then selected (addSet set ps) l else selected set l

/-- Whether a subscription to the whole module enables data, modinfo.c 1652-1664. -/
def whole (subs : List Sub) : Bool := subs.any fun s => s.sel.isNone && !s.passive && s.alive

/-- Enabled data of a module, modinfo.c 1616-1686. -/
def getEnabled (subs : List Sub) (dup : Bool) (f : List Node) : List Node :=
  if f.isEmpty then bones f
  else if whole subs then merge (bones f) f
  else if dup then takeDup f (bones f) (selected [] subs)
  else takeUnlink f (bones f) [] (selected [] subs)

/-- The data presented to a new subscription that wants them (SR_SUBSCR_ENABLED), sysrepo.c 5670-5690. -/
def enabledEvent (sel : Option (List Path)) (f : List Node) : List Node :=
  if f.isEmpty then bones f
  else match sel with
    | some ps => takeDup f (bones f) (addSet [] ps)
    | none => merge (bones f) f

/-! Specification. -/

/-- A path leads to a node. -/
def Has : List Node → Path → Prop
  | _, [] => True
  | f, x :: p => ∃ n ∈ f, n.id = x ∧ Has n.kids p

/-- All the nodes of a path are list keys or non-presence containers. -/
def Always : List Node → Path → Prop
  | _, [] => True
  | f, x :: w => ∃ n ∈ f, n.id = x ∧ (n.kind = .key ∧ w = [] ∨ n.kind = .np ∧ Always n.kids w)

/-- All the nodes of a path below another one are list keys or non-presence containers. -/
def Only : List Node → Path → Path → Prop
  | f, [], w => Always f w
  | f, x :: r, w => ∃ n ∈ f, n.id = x ∧ Only n.kids r w

/-- A selected node brings itself, everything inside it, its parents, and their keys and non-presence
containers. -/
def Brings (f : List Node) (p q : Path) : Prop :=
  (Has f q ∧ p <+: q) ∨ ∃ r w, q = r ++ w ∧ r <+: p ∧ Only f r w

/-- The siblings below a path. -/
def kidsAt : List Node → Path → List Node
  | f, [] => f
  | f, x :: r => match f.find? (fun n => n.id = x) with
    | none => []
    | some n => kidsAt n.kids r

/-- The instances below a path, in their order. -/
def ids (f : List Node) (r : Path) : List Id := (kidsAt f r).map Node.id

/-- The instances of one schema node (a list or leaf-list) below a path, in their order. -/
def entries (f : List Node) (r : Path) (s : Nat) : List Id := (ids f r).filter fun x => x.sch = s

/-- No two siblings are the same instance. -/
def Uniq (f : List Node) : Prop := ∀ r, (ids f r).Nodup

/-- The schema node is neither of a list key nor of a non-presence container. -/
def Listed (f : List Node) (r : Path) (s : Nat) : Prop :=
  ∀ n ∈ kidsAt f r, n.id.sch = s → n.kind = .inner ∨ n.kind = .term

/-- One path is before another one in the document. -/
def Before (f : List Node) (p q : Path) : Prop :=
  (p <+: q ∧ p ≠ q) ∨
  ∃ r x y p' q', p = r ++ x :: p' ∧ q = r ++ y :: q' ∧ x ≠ y ∧ [x, y].Sublist (ids f r)

/-- A subscription that enables data. -/
def Enables (s : Sub) : Prop := s.passive = false ∧ s.alive = true

end Verif.Enabled
