/-!
Model of assembling the result of `sr_get_data`: sysrepo.c 3167-3245, common.c 4231-4263 (`sr_lyd_dup_r`), 4887-4934
(`sr_xpath_set_filter_subtrees`).

A data node is identified by its path (the identities of the nodes from the top level). List keys belong to their list
instance, they are copied with it. The nodes of the result are numbered in the order of their creation; every one has the
number of its parent (`struct lyd_node *parent`).
Simplifications: the selection itself is libyang's, its nodes come in document order; what the access control removes
inside of a selected subtree is `Verif.Nacm`, here a selected subtree is denied as a whole or allowed; the trimming
of operational data (`sr_oper_data_trim`) is `Verif.OperTrim`.
-/
namespace Verif.GetData

/-- Data: identity among the siblings, children. -/
inductive Tree where
  | mk (id : Nat) (kids : List Tree)

def Tree.id : Tree → Nat | .mk i _ => i
def Tree.kids : Tree → List Tree | .mk _ k => k

abbrev Path := List Nat

/-- The node at a path. -/
def sub (ts : List Tree) : Path → Option Tree
  | [] => none
  | i :: q =>
    match ts.find? fun t => t.id = i with
    | none => none
    | some t => if q = [] then some t else sub t.kids q

/-- A node of the result: the path of its original, its parent in the result. -/
structure RNode where
  path : Path
  parent : Option Nat

/-- `sr_xpath_set_filter_subtrees`, common.c 4887-4934: a node with an ancestor among the kept nodes is dropped. -/
def filterSubtrees (kept : List Path) : List Path → List Path
  | [] => kept
  | p :: ps =>
    if (List.range p.length).any (fun n => n ≠ 0 && kept.contains (p.take n)) then filterSubtrees kept ps
    else filterSubtrees (kept ++ [p]) ps

/-- `lyd_dup_single` with `LYD_DUP_WITH_PARENTS`: the missing parents and the node, from the top; `n` nodes are missing, `k` is the
length of the path of the existing parent. -/
def chain (p : Path) : Nat → Nat → Option Nat → List RNode → List RNode × Option Nat
  | 0, _, par, st => (st, par)
  | n + 1, k, par, st => chain p n (k + 1) (some st.length) (st ++ [⟨p.take (k + 1), par⟩])

mutual
/-- `sr_lyd_dup_r`, common.c 4231-4263, `d` is `some depth`; with `none` it is `LYD_DUP_RECURSIVE`. -/
def dupNode (d : Option Nat) (q : Path) (idx : Nat) (st : List RNode) : Tree → List RNode
  | .mk _ kids => if d = some 0 then st else dupKids (d.map (· - 1)) q idx st kids
/-- The loop over the children. -/
def dupKids (d : Option Nat) (q : Path) (idx : Nat) (st : List RNode) : List Tree → List RNode
  | [] => st
  | t :: ts => dupKids d q idx (dupNode d (q ++ [t.id]) st.length (st ++ [⟨q ++ [t.id], some idx⟩]) t) ts
end

/-- The hash table of the parents in the result. -/
abbrev Ht := List (Path × Nat)

def lookup (ht : Ht) (q : Path) : Option Nat := (ht.find? fun r => r.1 = q).map (·.2)

/-- The nearest parent in the result, sysrepo.c 3186-3195; `n` is the length of its path. -/
def findParent (ht : Ht) (p : Path) : Nat → Option (Nat × Nat)
  | 0 => none
  | n + 1 =>
    match lookup ht (p.take (n + 1)) with
    | some i => some (n + 1, i)
    | none => findParent ht p n

/-- The length of its path and its number; 0 and nothing if there is none. -/
def nearest (ht : Ht) (p : Path) : Nat × Option Nat :=
  match findParent ht p (p.length - 1) with
  | none => (0, none)
  | some (k, i) => (k, some i)

/-- One selected node, sysrepo.c 3184-3243. -/
def addOne (forest : List Tree) (maxDepth : Nat) (denied : Path → Bool) (s : List RNode × Ht) (p : Path) : List RNode × Ht :=
  let st := s.1
  let kp := nearest s.2 p
  let c := chain p (p.length - kp.1) kp.1 kp.2 st
  let st2 :=
    match sub forest p, c.2 with
    | some t, some idx => dupNode (if maxDepth = 0 then none else some maxDepth) p idx c.1 t
    | _, _ => c.1
  if denied p then s  -- everything new is freed
  else (st2, s.2 ++ (List.range (p.length - kp.1 - 1)).map fun j => (p.take (kp.1 + 1 + j), st.length + j))

/-- `sr_get_data` after the selection. -/
def getData (forest : List Tree) (maxDepth : Nat) (denied : Path → Bool) (set : List Path) : List RNode :=
  ((filterSubtrees [] set).foldl (addOne forest maxDepth denied) ([], [])).1

/-! ## Specification -/

/-- The node is in the data. -/
def Exists (forest : List Tree) (q : Path) : Prop := sub forest q ≠ none

/-- Sibling identities are distinct. -/
inductive WF : List Tree → Prop
  | mk {ts : List Tree} : (ts.map Tree.id).Nodup → (∀ t ∈ ts, WF t.kids) → WF ts

/-- `p` is an ancestor of `q`. -/
def Above (p q : Path) : Prop := ∃ r, r ≠ [] ∧ q = p ++ r

/-- What a selected node `p` brings into the result: itself, its ancestors, and its descendants at most `depth` levels below
(0 for all of them). -/
def Brings (forest : List Tree) (depth : Nat) (p q : Path) : Prop :=
  q ≠ [] ∧ Exists forest q ∧ (q = p ∨ Above q p ∨ ∃ r, q = p ++ r ∧ (depth = 0 ∨ r.length ≤ depth))

/-- The selection is in document order: no node is before its ancestor, none is there twice. -/
def DocOrder (set : List Path) : Prop := set.Pairwise fun p q => p ≠ q ∧ ¬ Above q p

end Verif.GetData
