/-
Reading only the configuration or only the state of operational data.

Models of `/repo/src/sysrepo.c` 2938-3008 (`sr_oper_data_trim_r`, `sr_oper_data_trim`) with its use in `sr_get_data` (3167-3174), and
of the loop of `sr_get_items` (2887-2903).

Simplifications: the data are those found by the XPath (C52, C66), no result is inside of another one (`sr_xpath_set_filter_subtrees`,
C52); not loading data that are not needed with these options (modinfo.c) is not modelled; default flags of emptied containers
(`sr_lyd_free_tree_safe`) are not modelled.
-/
namespace Verif.OperTrim

/-- A data node: identity, whether its schema node is state (`LYS_CONFIG_R`, otherwise `LYS_CONFIG_W`), whether it is a list key. -/
inductive Tree where
  | mk (id : Nat) (state key : Bool) (kids : List Tree)

def Tree.state : Tree → Bool | .mk _ s _ _ => s
def Tree.key : Tree → Bool | .mk _ _ k _ => k

/-- Options `SR_OPER_NO_STATE` and `SR_OPER_NO_CONFIG`. -/
structure Opts where
  noState : Bool
  noConfig : Bool
deriving DecidableEq, Repr

mutual
/-- `sr_oper_data_trim_r`, sysrepo.c 2948-2983: `none` if the subtree was removed. -/
def trim (o : Opts) : Tree → Option Tree
  | .mk id state key kids =>
    if !(o.noState || o.noConfig) then some (.mk id state key kids)
    else if key then some (.mk id state key kids)
    else if state then if o.noState then none else some (.mk id state key kids)
    else if o.noConfig && (trimAll o kids).all Tree.key then none
    else some (.mk id state key (trimAll o kids))

/-- The children, sysrepo.c 2971-2973; keys are not trimmed. -/
def trimAll (o : Opts) : List Tree → List Tree
  | [] => []
  | t :: ts =>
    match trim o t with
    | none => trimAll o ts
    | some t' => t' :: trimAll o ts
end

/-- `sr_oper_data_trim`, sysrepo.c 2994-3008: all the results. -/
def trimSet (o : Opts) : List Tree → List Tree
  | [] => []
  | t :: ts =>
    match trim o t with
    | none => trimSet o ts
    | some t' => t' :: trimSet o ts

/-- The results of `sr_get_items`, sysrepo.c 2887-2903. -/
def items (o : Opts) : List Tree → List Tree
  | [] => []
  | t :: ts =>
    if t.state && o.noState then items o ts
    else if !t.state && o.noConfig then items o ts
    else t :: items o ts

/-! ### Specification -/

mutual
/-- There is state in the subtree. -/
def hasState : Tree → Bool
  | .mk _ state _ kids => state || anyState kids

def anyState : List Tree → Bool
  | [] => false
  | t :: ts => hasState t || anyState ts
end

/-- A node: the identities from the top level, and whether it is state, whether there is state in its subtree, whether it is the key
of a list instance with state. -/
structure Node where
  path : List Nat
  state : Bool
  below : Bool
  keyOf : Bool
deriving DecidableEq, Repr

mutual
/-- All the nodes of a subtree in document order, under a parent with the path `pre` and, if `up`, with state in it. -/
def nodes (pre : List Nat) (up : Bool) : Tree → List Node
  | .mk id state key kids =>
    ⟨pre ++ [id], state, state || anyState kids, key && up⟩ :: nodesAll (pre ++ [id]) (state || anyState kids) kids

def nodesAll (pre : List Nat) (up : Bool) : List Tree → List Node
  | [] => []
  | t :: ts => nodes pre up t ++ nodesAll pre up ts
end

mutual
/-- Data of a schema: there is only state in state, keys are leaves and state if and only if their list is. -/
def Valid (up : Bool) : Tree → Prop
  | .mk _ state key kids => (up = true → state = true) ∧ (key = true → kids = [] ∧ state = up) ∧ ValidAll state kids

def ValidAll (up : Bool) : List Tree → Prop
  | [] => True
  | t :: ts => Valid up t ∧ ValidAll up ts
end

/-- The paths of the nodes. -/
def paths (l : List Node) : List (List Nat) := l.map Node.path

end Verif.OperTrim
