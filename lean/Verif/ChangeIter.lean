import Verif.EditExact
/-!
# Reading the changes in a callback

Model of `_sr_get_changes_iter` (sysrepo.c 6049-6102, `sr_get_changes_iter`, `sr_dup_changes_iter`), `sr_diff_set_getnext`
(edit_diff.c 3403-3473) and `sr_get_change_next` (sysrepo.c 6213-6306), on a diff as a tree of nodes with metadata, and of how the
metadata are put on the nodes of the diff of an edit (`sr_diff_add_meta`, edit_diff.c 337-422).

Modelled: operations inherited from parents, nodes below moved instances, keys of list instances (created, deleted or not mentioned with
their instance), values before and after, default flags, places of user-ordered instances.
Simplifications: an XPath is any set of nodes, returned in document order (libyang); `sr_val_t` is the node, its value and its default
flag (their printing is left out); freeing is modelled only for the diff of the session.
-/
namespace Verif.ChangeIter
open Verif.Edit (Id Path Kind Tree DOp Diff get)

/-- Values of the metadata `yang:operation` in a diff. -/
inductive MOp where
  | none | create | delete | replace
deriving DecidableEq

/-- Metadata of a node of a diff: `yang:operation`, `yang:orig-value`, `yang:orig-default`, and the place of a user-ordered instance
(`sr_userord_anchor_meta_name`; no anchor is the empty string, the first place). -/
structure Meta where
  op : Option MOp
  origVal : Option Nat
  origDflt : Option Bool
  anchor : Option (Option Nat)

/-- Kinds of schema nodes as `sr_diff_set_getnext` distinguishes them; `leaf` also stands for anydata. -/
inductive SKind where
  | cont | list | leaflist | leaf
deriving DecidableEq

/-- `struct lyd_node` of a diff: identity, kind, `lysc_is_userordered`, `lysc_is_key`, value, default flag, metadata, children. -/
inductive Node where
  | mk (id : Id) (kind : SKind) (user key : Bool) (val : Nat) (dflt : Bool) (m : Meta) (kids : List Node)

def Node.id : Node → Id | .mk i _ _ _ _ _ _ _ => i
def Node.kind : Node → SKind | .mk _ k _ _ _ _ _ _ => k
def Node.user : Node → Bool | .mk _ _ u _ _ _ _ _ => u
def Node.key : Node → Bool | .mk _ _ _ k _ _ _ _ => k
def Node.val : Node → Nat | .mk _ _ _ _ v _ _ _ => v
def Node.dflt : Node → Bool | .mk _ _ _ _ _ d _ _ => d
def Node.m : Node → Meta | .mk _ _ _ _ _ _ m _ => m
def Node.kids : Node → List Node | .mk _ _ _ _ _ _ _ k => k

/-- A node in its place: the node and its ancestors, the parent first (`lyd_parent`). -/
structure Spot where
  node : Node
  anc : List Node

/-- Path of a node from the top level. -/
def Spot.path (s : Spot) : Path := ((s.node :: s.anc).map Node.id).reverse

/-- Path of the parent. -/
def Spot.parentPath (s : Spot) : Path := (s.anc.map Node.id).reverse

mutual
/-- All the nodes of a tree in document order, as `//.` selects them. -/
def spots (anc : List Node) : Node → List Spot
  | .mk i k u ky v d m kids => ⟨.mk i k u ky v d m kids, anc⟩ :: spotsL (.mk i k u ky v d m kids :: anc) kids
/-- The same for siblings. -/
def spotsL (anc : List Node) : List Node → List Spot
  | [] => []
  | n :: ns => spots anc n ++ spotsL anc ns
end

/-- What is reported about: a node of the data, or the key `k` of the list instance at a path. -/
inductive Target where
  | node (p : Path)
  | key (p : Path) (k : Nat)
deriving DecidableEq

def Spot.target (s : Spot) : Target := if s.node.key then .key s.parentPath s.node.id.1 else .node s.path

/-- `sr_change_oper_t`. -/
inductive ChOp where
  | created | modified | deleted | moved
deriving DecidableEq

/-- The nearest operation, edit_diff.c 3413-3424: the operation, the node that has it and whether it is the node itself. -/
def findOp : List Node → Bool → Option (MOp × Node × Bool)
  | [], _ => none
  | n :: ns, own =>
    match n.m.op with
    | some op => some (op, n, own)
    | none => findOp ns false

/-- Result of `sr_diff_set_getnext`. -/
inductive Got where
  | err
  | done
  | change (s : Spot) (op : ChOp) (rest : List Spot)

/-- `sr_diff_set_getnext`, edit_diff.c 3403-3473, from the index on. `skip` is the list whose keys are being skipped
(edit_diff.c 3440-3450). -/
def getNext (skip : Option Path) : List Spot → Got
  | [] => .done
  | s :: rest =>
    if s.node.key && skip = some s.parentPath then getNext skip rest
    else match findOp (s.node :: s.anc) true with
      | none => .err
      | some (op, holder, own) =>
        -- edit_diff.c 3426-3430
        if !own && holder.user && op = .replace then getNext none rest
        else match op with
          | .none => getNext (if s.node.kind = .list then some s.path else none) rest
          | .create => .change s .created rest
          | .delete => .change s .deleted rest
          | .replace =>
            match s.node.kind with
            | .leaf => .change s .modified rest
            | .list | .leaflist => .change s .moved rest
            | .cont => .err

/-- What one call of `sr_get_change_next` returns: operation, node, old value and its default flag, new value and its default flag;
for a created or moved user-ordered instance the old value is the instance before it (`place`). -/
structure Change where
  op : ChOp
  target : Target
  old : Option (Nat × Bool)
  new : Option (Nat × Bool)
  place : Option (Option Nat)
deriving DecidableEq

/-- The values of a change, sysrepo.c 6233-6302; `none` is an internal error. -/
def values (s : Spot) (op : ChOp) : Option Change :=
  let n := s.node
  match op with
  | .deleted => some ⟨.deleted, s.target, some (n.val, n.dflt), none, none⟩
  | .modified =>
    match n.m.origVal, n.m.origDflt with
    | some ov, some od => some ⟨.modified, s.target, some (ov, od), some (n.val, n.dflt), none⟩
    | _, _ => none
  | .created =>
    if !n.user then some ⟨.created, s.target, none, some (n.val, n.dflt), none⟩
    else match n.m.anchor with
      | some a => some ⟨.created, s.target, none, some (n.val, n.dflt), some a⟩
      | none => none
  | .moved =>
    match n.m.anchor with
    | some a => some ⟨.moved, s.target, none, some (n.val, n.dflt), some a⟩
    | none => none

/-- A callback calls `sr_get_change_next` until it returns `SR_ERR_NOT_FOUND`; `none` is any other error, or `fuel` calls were not
enough. -/
def iter : Nat → List Spot → Option (List Change)
  | 0, _ => none
  | n + 1, set =>
    match getNext none set with
    | .err => none
    | .done => some []
    | .change s op rest =>
      match values s op with
      | none => none
      | some c => (iter n rest).map (c :: ·)

/-- `sr_get_changes_iter` with an XPath selecting `sel`, and reading everything. -/
def readChanges (diff : List Node) (sel : Target → Bool) : Option (List Change) :=
  let set := (spotsL [] diff).filter fun s => sel s.target
  iter (set.length + 1) set

/-! ## The metadata of the diff of an edit -/

/-- What is not in the model of edits: the keys of the lists, which nodes are user-ordered, and the instance in front of a created
one. -/
structure Schema where
  K : Nat → Kind
  keys : Nat → List Nat
  user : Nat → Bool
  anchor : Path → Option Nat

def Schema.kind (S : Schema) (n : Nat) : SKind :=
  match S.K n with
  | .npCont | .cont => .cont
  | .list => .list
  | .leaf => .leaf
  | .leaflist => .leaflist

/-- `sr_diff_add_meta`, edit_diff.c 337-422. -/
def opMeta (a : Option (Option Nat)) : DOp → Meta
  | .none => ⟨some .none, none, none, none⟩
  | .dflt _ od => ⟨some .none, none, some od, none⟩
  | .create _ _ => ⟨some .create, none, none, a⟩
  | .replace _ _ ov od => ⟨some .replace, some ov, some od, none⟩
  | .delete _ _ => ⟨some .delete, none, none, none⟩

/-- Value and default flag of the node itself: the new ones, for a deleted node the old ones. -/
def opVal : DOp → Nat × Bool
  | .none => (0, false)
  | .dflt d _ => (0, d)
  | .create v d => (v, d)
  | .replace v d _ _ => (v, d)
  | .delete v d => (v, d)

/-- The keys of a list instance: `lyd_dup_single` copies them without metadata. -/
def keyNodes (S : Schema) (i : Id) : List Node :=
  if S.kind i.1 = .list then
    (S.keys i.1).map fun k => .mk (k, 0) .leaf false true i.2 false ⟨none, none, none, none⟩ []
  else []

mutual
/-- A node of the diff of an edit, `sr_edit_diff_add`, edit_diff.c 1333-1395. -/
def toNode (S : Schema) (pre : Path) : Diff → Node
  | .mk i op kids =>
    .mk i (S.kind i.1) (S.user i.1) false (opVal op).1 (opVal op).2
      (opMeta (if S.user i.1 then some (S.anchor (pre ++ [i])) else none) op) (keyNodes S i ++ toNodes S (pre ++ [i]) kids)
/-- The same for siblings. -/
def toNodes (S : Schema) (pre : Path) : List Diff → List Node
  | [] => []
  | d :: ds => toNode S pre d :: toNodes S pre ds
end

/-! ## Specification -/

/-- What a user sees at a target in data `f`: a node is there with its value and default flag, and a key of an instance is there if
the instance is. -/
def see (S : Schema) (f : Path → Option (Nat × Bool)) : Target → Option (Nat × Bool)
  | .node p => f p
  | .key p k =>
    match p.getLast? with
    | none => none
    | some i => if S.kind i.1 = .list ∧ k ∈ S.keys i.1 ∧ f p ≠ none then some (i.2, false) else none

/-- The operation that a change from `old` to `new` is: created, deleted or with another value. -/
def opOf : Option (Nat × Bool) → Option (Nat × Bool) → Option ChOp
  | none, none => none
  | none, some _ => some .created
  | some _, none => some .deleted
  | some (v, _), some (w, _) => if v = w then none else some .modified

/-- Path of the node, or of the list instance of a key. -/
def Target.path : Target → Path
  | .node p => p
  | .key p _ => p

/-- `a` may be reported before `b`: they are different and `b` is not a node that `a` is in. -/
def Before (a b : Target) : Prop := a ≠ b ∧ ∀ p, b = .node p → ¬ p <+: a.path

/-- Place that is to be reported for a change: for a created instance of a user-ordered list the instance before it. -/
def placeOf (S : Schema) : ChOp → Target → Option (Option Nat)
  | .created, .node p => p.getLast?.bind fun i => if S.user i.1 then some (S.anchor p) else none
  | _, _ => none

/-- `c` is a change from data `f` to data `g`, with the right operation, values and place. -/
def IsChange (S : Schema) (f g : Path → Option (Nat × Bool)) (c : Change) : Prop :=
  c.old = see S f c.target ∧ c.new = see S g c.target ∧ opOf c.old c.new = some c.op ∧ c.place = placeOf S c.op c.target

/-! ## Iterators used outside of the callback -/

/-- Who has allocated a diff: the session of the event, or the iterator (`iter->diff`). -/
inductive Owner where
  | session | iterator
deriving DecidableEq

/-- `sr_change_iter_t`: its own copy of the diff, and the found nodes with the tree they are in. -/
structure Iter where
  copy : Option (List Node)
  owner : Owner
  set : List Spot

/-- `_sr_get_changes_iter`, sysrepo.c 6049-6089: the nodes are searched in the diff of the session, also when it was copied. -/
def getIter (dup : Bool) (diff : List Node) (sel : Target → Bool) : Iter :=
  ⟨if dup then some diff else none, .session, (spotsL [] diff).filter fun s => sel s.target⟩

/-- Result of `sr_get_change_next` on an iterator, `ub` is a read of freed memory. -/
inductive Next where
  | ub
  | err
  | notFound
  | ok (c : Change) (it : Iter)

/-- `sr_get_change_next`, sysrepo.c 6213-6306; `freed`: the callback has ended and the diff of the session was freed
(shm_sub.c 3605-3610). -/
def next (freed : Bool) (it : Iter) : Next :=
  if it.set = [] then .notFound
  else if freed && it.owner = .session then .ub
  else match getNext none it.set with
    | .err => .err
    | .done => .notFound
    | .change s op rest =>
      match values s op with
      | none => .err
      | some c => .ok c { it with set := rest }

/-! ## Lemmas -/

/-- What `sr_diff_set_getnext` makes of one node if no keys are being skipped. -/
inductive Verdict where
  | err | skip | rep (op : ChOp)
deriving DecidableEq

def verdict (s : Spot) : Verdict :=
  match findOp (s.node :: s.anc) true with
  | none => .err
  | some (op, holder, own) =>
    if !own && holder.user && op = .replace then .skip
    else match op with
      | .none => .skip
      | .create => .rep .created
      | .delete => .rep .deleted
      | .replace =>
        match s.node.kind with
        | .leaf => .rep .modified
        | .list | .leaflist => .rep .moved
        | .cont => .err

/-- Key nodes agree with the list nodes of the same path: their parent has no operation if the list node has none. -/
def Agree (l : List Spot) : Prop :=
  ∀ a ∈ l, ∀ b ∈ l, a.node.key = true → b.node.kind = .list → a.parentPath = b.path → verdict b = .skip → verdict a = .skip

/-- The report of one node. -/
def report (s : Spot) : Option Change :=
  match verdict s with
  | .rep op => values s op
  | _ => none

/-- A node makes no error. -/
def Fine (s : Spot) : Prop := verdict s ≠ .err ∧ ∀ op, verdict s = .rep op → values s op ≠ none

theorem getNext_spec (l : List Spot) (hf : ∀ s ∈ l, Fine s) (ha : Agree l) : ∀ (skip : Option Path) (l' : List Spot),
    (∀ s ∈ l', s ∈ l) → (∀ p, skip = some p → ∃ b ∈ l, b.node.kind = .list ∧ b.path = p ∧ verdict b = .skip) →
    (getNext skip l' = .done ∧ l'.filterMap report = []) ∨
    ∃ s op c rest, getNext skip l' = .change s op rest ∧ values s op = some c ∧ rest.length < l'.length ∧ (∀ s ∈ rest, s ∈ l) ∧
      l'.filterMap report = c :: rest.filterMap report
  | skip, [], _, _ => .inl ⟨rfl, rfl⟩
  | skip, s :: rest, hl, hs => by
    have hsl := hl s (by simp)
    have hr : ∀ x ∈ rest, x ∈ l := fun x hx => hl x (by simp [hx])
    have lift : ∀ sk, (∀ p, sk = some p → ∃ b ∈ l, b.node.kind = .list ∧ b.path = p ∧ verdict b = .skip) → verdict s = .skip →
        getNext skip (s :: rest) = getNext sk rest →
        (getNext skip (s :: rest) = .done ∧ (s :: rest).filterMap report = []) ∨
        ∃ s' op c rest', getNext skip (s :: rest) = .change s' op rest' ∧ values s' op = some c ∧
          rest'.length < (s :: rest).length ∧ (∀ s ∈ rest', s ∈ l) ∧
          (s :: rest).filterMap report = c :: rest'.filterMap report := by
      intro sk hsk hv he
      have hrep : report s = none := by simp [report, hv]
      rcases getNext_spec l hf ha sk rest hr hsk with ⟨h1, h2⟩ | ⟨s', op, c, rest', h1, h2, h3, h4, h5⟩
      · left; rw [he]; exact ⟨h1, by simp [hrep, h2]⟩
      · right; exact ⟨s', op, c, rest', by rw [he]; exact h1, h2, by simp; omega, h4, by simp [hrep, h5]⟩
    by_cases hk : (s.node.key && decide (skip = some s.parentPath)) = true
    · simp only [Bool.and_eq_true, decide_eq_true_eq] at hk
      obtain ⟨b, hb, hbk, hbp, hbv⟩ := hs _ hk.2
      exact lift skip hs (ha s hsl b hb hk.1 hbk hbp.symm hbv) (by simp [getNext, hk.1, hk.2])
    · have hun : getNext skip (s :: rest) = match findOp (s.node :: s.anc) true with
          | none => .err
          | some (op, holder, own) =>
            if !own && holder.user && op = .replace then getNext none rest
            else match op with
              | .none => getNext (if s.node.kind = .list then some s.path else none) rest
              | .create => .change s .created rest
              | .delete => .change s .deleted rest
              | .replace =>
                match s.node.kind with
                | .leaf => .change s .modified rest
                | .list | .leaflist => .change s .moved rest
                | .cont => .err := by
        simp only [getNext]; rw [if_neg hk]
      have hfine := hf s hsl
      have rep : ∀ op, verdict s = .rep op → getNext skip (s :: rest) = .change s op rest →
          ∃ s' op c rest', getNext skip (s :: rest) = .change s' op rest' ∧ values s' op = some c ∧
          rest'.length < (s :: rest).length ∧ (∀ s ∈ rest', s ∈ l) ∧
          (s :: rest).filterMap report = c :: rest'.filterMap report := by
        intro op hv he
        obtain ⟨c, hc⟩ := Option.ne_none_iff_exists'.mp (hfine.2 op hv)
        have hrep : report s = some c := by simp [report, hv, hc]
        exact ⟨s, op, c, rest, he, hc, by simp, hr, by simp [hrep]⟩
      cases hfo : findOp (s.node :: s.anc) true with
      | none => exact absurd (by simp [verdict, hfo]) hfine.1
      | some x =>
        obtain ⟨op, holder, own⟩ := x
        simp only [hfo] at hun
        by_cases hm : (!own && holder.user && decide (op = .replace)) = true
        · rw [if_pos hm] at hun
          exact lift none (by simp) (by simp only [verdict, hfo]; rw [if_pos hm]) hun
        · rw [if_neg hm] at hun
          cases op with
          | none =>
            have hv : verdict s = .skip := by simp [verdict, hfo]
            refine lift _ ?_ hv hun
            intro p hp
            split at hp
            · rename_i hkd; simp only [Option.some.injEq] at hp; exact ⟨s, hsl, hkd, hp, hv⟩
            · simp at hp
          | create => exact .inr (rep .created (by simp [verdict, hfo]) hun)
          | delete => exact .inr (rep .deleted (by simp [verdict, hfo]) hun)
          | replace =>
            have hv : verdict s = match s.node.kind with
                | .leaf => .rep .modified
                | .list | .leaflist => .rep .moved
                | .cont => .err := by
              have hm' : ¬ (!own && holder.user) = true := by simpa using hm
              simp only [verdict, hfo, decide_true, Bool.and_true]; rw [if_neg hm']
            simp only at hun
            generalize s.node.kind = k at hv hun
            cases k with
            | cont => exact absurd hv hfine.1
            | leaf => exact .inr (rep .modified hv hun)
            | list => exact .inr (rep .moved hv hun)
            | leaflist => exact .inr (rep .moved hv hun)

theorem iter_spec (l : List Spot) (hf : ∀ s ∈ l, Fine s) (ha : Agree l) : ∀ (n : Nat) (l' : List Spot),
    (∀ s ∈ l', s ∈ l) → l'.length < n → iter n l' = some (l'.filterMap report)
  | 0, l', _, hn => by omega
  | n + 1, l', hl, hn => by
    rcases getNext_spec l hf ha none l' hl (by simp) with ⟨h1, h2⟩ | ⟨s, op, c, rest, h1, h2, h3, h4, h5⟩
    · simp [iter, h1, h2]
    · simp only [iter, h1, h2, h5]
      rw [iter_spec l hf ha n rest h4 (by omega)]
      simp

/-! ### The rows of the diff of an edit -/

/-- The keys of a list instance and the operation of the instance. -/
def keyRows (S : Schema) (p : Path) (i : Id) (op : DOp) : List (Target × DOp) :=
  if S.kind i.1 = .list then (S.keys i.1).map fun k => (.key p k, op) else []

mutual
/-- The nodes of a diff with their operations; a key has the one of its instance. -/
def rows (S : Schema) (pre : Path) : Diff → List (Target × DOp)
  | .mk i op kids => (.node (pre ++ [i]), op) :: (keyRows S (pre ++ [i]) i op ++ rowsL S (pre ++ [i]) kids)
/-- The same for siblings. -/
def rowsL (S : Schema) (pre : Path) : List Diff → List (Target × DOp)
  | [] => []
  | d :: ds => rows S pre d ++ rowsL S pre ds
end

/-- Verdict about a row. -/
def rowVerdict (S : Schema) : Target × DOp → Verdict
  | (.node p, .replace ..) =>
    match p.getLast? with
    | none => .err
    | some i =>
      match S.kind i.1 with
      | .leaf => .rep .modified
      | .list | .leaflist => .rep .moved
      | .cont => .err
  | (.key p _, .replace ..) =>
    match p.getLast? with
    | none => .err
    | some i => if S.user i.1 then .skip else .rep .modified
  | (_, .create ..) => .rep .created
  | (_, .delete ..) => .rep .deleted
  | (_, .none) => .skip
  | (_, .dflt ..) => .skip

/-- Place reported for a created node. -/
def rowPlace (S : Schema) : Target → Option (Option Nat)
  | .node p =>
    match p.getLast? with
    | none => none
    | some i => if S.user i.1 then some (S.anchor p) else none
  | .key _ _ => none

/-- Value and default flag of the node of a row. -/
def rowVal : Target × DOp → Nat × Bool
  | (.node _, op) => opVal op
  | (.key p _, _) => ((p.getLast?.map (·.2)).getD 0, false)

/-- Report about a row. -/
def rowReport (S : Schema) (x : Target × DOp) : Option Change :=
  match rowVerdict S x with
  | .rep .created => some ⟨.created, x.1, none, some (rowVal x), rowPlace S x.1⟩
  | .rep .deleted => some ⟨.deleted, x.1, some (rowVal x), none, none⟩
  | .rep .modified =>
    match x with
    | (.node p, .replace v d ov od) => some ⟨.modified, .node p, some (ov, od), some (v, d), none⟩
    | _ => none
  | _ => none

/-- Whether the row is a list. -/
def rowList (S : Schema) : Target × DOp → Bool
  | (.node p, _) => p.getLast?.any fun i => S.kind i.1 = .list
  | _ => false

/-- What matters about a node in its place. -/
def info (s : Spot) : Target × Verdict × Option Change × Bool := (s.target, verdict s, report s, s.node.kind = .list)

/-- The same from a row. -/
def rowInfo (S : Schema) (x : Target × DOp) : Target × Verdict × Option Change × Bool :=
  (x.1, rowVerdict S x, rowReport S x, rowList S x)

theorem spotsL_append (anc : List Node) (a b : List Node) : spotsL anc (a ++ b) = spotsL anc a ++ spotsL anc b := by
  induction a with
  | nil => simp [spotsL]
  | cons x xs ih => simp [spotsL, ih]

theorem spotsL_keys (S : Schema) (anc : List Node) (i : Id) (ks : List Nat) :
    spotsL anc (ks.map fun k => .mk (k, 0) .leaf false true i.2 false ⟨none, none, none, none⟩ []) =
      ks.map fun k => ⟨.mk (k, 0) .leaf false true i.2 false ⟨none, none, none, none⟩ [], anc⟩ := by
  induction ks with
  | nil => simp [spotsL]
  | cons k ks ih => simp [spotsL, spots, ih]

theorem node_info (S : Schema) (pre : Path) (i : Id) (op : DOp) (kids : List Node) (anc : List Node)
    (h : pre = (anc.map Node.id).reverse) :
    info ⟨.mk i (S.kind i.1) (S.user i.1) false (opVal op).1 (opVal op).2
      (opMeta (if S.user i.1 then some (S.anchor (pre ++ [i])) else none) op) kids, anc⟩ = rowInfo S (.node (pre ++ [i]), op) := by
  have ht : Spot.target ⟨.mk i (S.kind i.1) (S.user i.1) false (opVal op).1 (opVal op).2
      (opMeta (if S.user i.1 then some (S.anchor (pre ++ [i])) else none) op) kids, anc⟩ = .node (pre ++ [i]) := by
    simp [Spot.target, Node.key, Spot.path, h, Node.id]
  have hl : (pre ++ [i]).getLast? = some i := by simp
  cases op with
  | none =>
    simp only [info, rowInfo, ht]
    simp [verdict, report, findOp, Node.m, opMeta, rowVerdict, rowReport, rowList, Node.kind]
    try rfl
  | dflt d od =>
    simp only [info, rowInfo, ht]
    simp [verdict, report, findOp, Node.m, opMeta, rowVerdict, rowReport, rowList, Node.kind]
    try rfl
  | create v d =>
    have hv : verdict ⟨.mk i (S.kind i.1) (S.user i.1) false (opVal (.create v d)).1 (opVal (.create v d)).2
      (opMeta (if S.user i.1 then some (S.anchor (pre ++ [i])) else none) (.create v d)) kids, anc⟩ = .rep .created := by
      simp [verdict, findOp, Node.m, opMeta]
    have hr : rowVerdict S (.node (pre ++ [i]), .create v d) = .rep .created := by simp [rowVerdict]
    simp only [info, rowInfo, ht, hv, report, rowReport, hr, values, rowVal, rowPlace, hl, rowList, Option.any_some]
    cases hu : S.user i.1 <;> simp [Node.user, Node.val, Node.dflt, Node.m, opMeta, Node.kind, opVal] <;> rfl
  | replace v d ov od =>
    have hv : verdict ⟨.mk i (S.kind i.1) (S.user i.1) false (opVal (.replace v d ov od)).1 (opVal (.replace v d ov od)).2
      (opMeta (if S.user i.1 then some (S.anchor (pre ++ [i])) else none) (.replace v d ov od)) kids, anc⟩ =
      rowVerdict S (.node (pre ++ [i]), .replace v d ov od) := by
      simp [verdict, findOp, Node.m, opMeta, rowVerdict, Node.kind]
    simp only [info, rowInfo, ht, hv, report, rowReport, rowList, hl, Option.any_some]
    have hr : rowVerdict S (.node (pre ++ [i]), .replace v d ov od) = match S.kind i.1 with
        | .leaf => .rep .modified
        | .list | .leaflist => .rep .moved
        | .cont => .err := by simp [rowVerdict]
    obtain ⟨k, hk⟩ : ∃ k, S.kind i.1 = k := ⟨_, rfl⟩
    rw [hk] at hr
    cases k <;> simp only [hr, values, ht] <;> simp [Node.m, opMeta, Node.val, Node.dflt, opVal, Node.kind, hk]
  | delete v d =>
    have hv : verdict ⟨.mk i (S.kind i.1) (S.user i.1) false (opVal (.delete v d)).1 (opVal (.delete v d)).2
      (opMeta (if S.user i.1 then some (S.anchor (pre ++ [i])) else none) (.delete v d)) kids, anc⟩ = .rep .deleted := by
      simp [verdict, findOp, Node.m, opMeta]
    have hr : rowVerdict S (.node (pre ++ [i]), .delete v d) = .rep .deleted := by simp [rowVerdict]
    simp only [info, rowInfo, ht, hv, report, rowReport, hr, values, rowVal, hl, rowList, Option.any_some]
    simp [Node.val, Node.dflt, Node.kind, opVal]
    rfl

theorem key_info (S : Schema) (i : Id) (k : Nat) (op : DOp) (lk : SKind) (lv : Nat) (ld : Bool) (a : Option (Option Nat))
    (kids : List Node) (anc : List Node) (pre : Path) (h : pre = (anc.map Node.id).reverse) :
    info ⟨.mk (k, 0) .leaf false true i.2 false ⟨none, none, none, none⟩ [],
      .mk i lk (S.user i.1) false lv ld (opMeta a op) kids :: anc⟩ = rowInfo S (.key (pre ++ [i]) k, op) := by
  have ht : Spot.target ⟨.mk (k, 0) .leaf false true i.2 false ⟨none, none, none, none⟩ [],
      .mk i lk (S.user i.1) false lv ld (opMeta a op) kids :: anc⟩ = .key (pre ++ [i]) k := by
    simp [Spot.target, Node.key, Spot.parentPath, h, Node.id]
  have hl : (pre ++ [i]).getLast? = some i := by simp
  have hv : verdict ⟨.mk (k, 0) .leaf false true i.2 false ⟨none, none, none, none⟩ [],
      .mk i lk (S.user i.1) false lv ld (opMeta a op) kids :: anc⟩ = rowVerdict S (.key (pre ++ [i]) k, op) := by
    cases op <;> simp [verdict, findOp, Node.m, opMeta, rowVerdict, Node.kind, Node.user]
  simp only [info, rowInfo, ht, hv, report, rowReport, rowList]
  cases op with
  | none => simp [rowVerdict, Node.kind]
  | dflt d od => simp [rowVerdict, Node.kind]
  | create v d =>
    simp only [rowVerdict, values, ht]
    simp [Node.user, Node.val, Node.dflt, Node.kind, rowVal, rowPlace]
  | replace v d ov od =>
    simp only [rowVerdict, hl]
    cases S.user i.1 <;> simp [Node.kind, values, Node.m]
  | delete v d =>
    simp only [rowVerdict, values, ht]
    simp [Node.val, Node.dflt, Node.kind, rowVal]

theorem keys_info (S : Schema) (i : Id) (op : DOp) (lk : SKind) (lv : Nat) (ld : Bool) (a : Option (Option Nat))
    (kids : List Node) (anc : List Node) (pre : Path) (h : pre = (anc.map Node.id).reverse) :
    (spotsL (.mk i lk (S.user i.1) false lv ld (opMeta a op) kids :: anc) (keyNodes S i)).map info =
      (keyRows S (pre ++ [i]) i op).map (rowInfo S) := by
  by_cases hk : S.kind i.1 = .list
  · simp only [keyNodes, keyRows, hk, if_true]
    rw [spotsL_keys S]
    simp only [List.map_map]
    apply List.map_congr_left
    intro k _
    exact key_info S i k op _ _ _ _ _ anc pre h
  · simp [keyNodes, keyRows, hk, spotsL]

mutual
theorem spots_info (S : Schema) : ∀ (d : Diff) (pre : Path) (anc : List Node), pre = (anc.map Node.id).reverse →
    (spots anc (toNode S pre d)).map info = (rows S pre d).map (rowInfo S)
  | .mk i op kids, pre, anc, h => by
    simp only [toNode, spots, rows, List.map_cons, node_info S pre i op _ anc h, spotsL_append, List.map_append]
    congr 2
    · exact keys_info S i op _ _ _ _ _ anc pre h
    · exact spotsL_info S kids _ _ (by simp [h, Node.id])
theorem spotsL_info (S : Schema) : ∀ (ds : List Diff) (pre : Path) (anc : List Node), pre = (anc.map Node.id).reverse →
    (spotsL anc (toNodes S pre ds)).map info = (rowsL S pre ds).map (rowInfo S)
  | [], pre, anc, h => by simp [toNodes, spotsL, rowsL]
  | d :: ds, pre, anc, h => by
    simp only [toNodes, spotsL, rowsL, List.map_append, spots_info S d pre anc h, spotsL_info S ds pre anc h]
end

/-- The key of a target belongs to its list. -/
def OkKey (S : Schema) : Target → Prop
  | .node _ => True
  | .key p k => ∃ i, p.getLast? = some i ∧ S.kind i.1 = .list ∧ k ∈ S.keys i.1

theorem mem_keyRows (S : Schema) (p : Path) (i : Id) (op' op : DOp) (t : Target) :
    (t, op) ∈ keyRows S p i op' ↔ ∃ k, t = .key p k ∧ S.kind i.1 = .list ∧ k ∈ S.keys i.1 ∧ op = op' := by
  simp only [keyRows]
  split
  · rename_i hk
    simp only [List.mem_map, Prod.mk.injEq]
    constructor
    · rintro ⟨k, h, rfl, rfl⟩; exact ⟨k, rfl, hk, h, rfl⟩
    · rintro ⟨k, rfl, _, h, rfl⟩; exact ⟨k, h, rfl, rfl⟩
  · rename_i hk; simp [hk]

open Verif.Edit (opAt Tidy Tidys Says opAt_none_of)

mutual
theorem mem_rows (S : Schema) : ∀ (d : Diff) (pre : Path) (t : Target) (op : DOp), Tidy d →
    ((t, op) ∈ rows S pre d ↔ OkKey S t ∧ ∃ q, q ≠ [] ∧ t.path = pre ++ q ∧ opAt [d] q = some op)
  | .mk i op' kids, pre, t, op, w => by
    have ih := mem_rowsL S kids (pre ++ [i]) t op w.2
    simp only [rows, List.mem_cons, Prod.mk.injEq, List.mem_append, mem_keyRows, ih]
    constructor
    · rintro (⟨rfl, rfl⟩ | ⟨k, rfl, hl, hk, rfl⟩ | ⟨ho, q, hq, hp, hop⟩)
      · exact ⟨trivial, [i], by simp, rfl, by simp [opAt, Diff.id, Diff.op]⟩
      · exact ⟨⟨i, by simp, hl, hk⟩, [i], by simp, rfl, by simp [opAt, Diff.id, Diff.op]⟩
      · refine ⟨ho, i :: q, by simp, by simp [hp], ?_⟩
        simp [opAt, Diff.id, Diff.kids, hq, hop]
    · rintro ⟨ho, q, hq, hp, hop⟩
      cases q with
      | nil => simp at hq
      | cons j q =>
        by_cases hj : i = j
        · subst hj
          simp only [opAt, List.find?_cons, Diff.id, decide_true, Diff.op, Diff.kids] at hop
          by_cases hq' : q = []
          · subst hq'
            simp only [if_true, Option.some.injEq] at hop
            cases t with
            | node p => exact .inl ⟨by simpa [Target.path] using hp, hop.symm⟩
            | key p k =>
              obtain ⟨i', hi', hl, hk⟩ := ho
              simp only [Target.path] at hp
              subst hp
              simp only [List.getLast?_append, List.getLast?_singleton, Option.some_or, Option.some.injEq] at hi'
              subst hi'
              exact .inr (.inl ⟨k, rfl, hl, hk, hop.symm⟩)
          · simp only [hq', if_false] at hop
            exact .inr (.inr ⟨ho, q, hq', by simp [hp], hop⟩)
        · rw [opAt_none_of (by simpa [Diff.id] using hj)] at hop
          simp at hop
theorem mem_rowsL (S : Schema) : ∀ (ds : List Diff) (pre : Path) (t : Target) (op : DOp), Tidys ds →
    ((t, op) ∈ rowsL S pre ds ↔ OkKey S t ∧ ∃ q, q ≠ [] ∧ t.path = pre ++ q ∧ opAt ds q = some op)
  | [], pre, t, op, w => by
    simp only [rowsL, List.not_mem_nil, false_iff, not_and, not_exists]
    intro _ q hq _ h
    cases q <;> simp [opAt] at h
  | d :: ds, pre, t, op, w => by
    simp only [rowsL, List.mem_append, mem_rows S d pre t op w.1, mem_rowsL S ds pre t op w.2.2]
    constructor
    · rintro (⟨ho, q, hq, hp, hop⟩ | ⟨ho, q, hq, hp, hop⟩)
      · refine ⟨ho, q, hq, hp, ?_⟩
        cases q with
        | nil => simp at hq
        | cons j q =>
          by_cases hj : d.id = j
          · rw [show d :: ds = [d] ++ ds from rfl, Verif.Edit.opAt_append_left (a := d) (by simp) hj]; exact hop
          · rw [opAt_none_of (by simpa using hj)] at hop; simp at hop
      · refine ⟨ho, q, hq, hp, ?_⟩
        cases q with
        | nil => simp at hq
        | cons j q =>
          by_cases hj : d.id = j
          · rw [opAt_none_of (fun x hx => by rw [← hj]; exact w.2.1 x hx)] at hop; simp at hop
          · rw [show d :: ds = [d] ++ ds from rfl, Verif.Edit.opAt_append_right (by simpa using hj)]; exact hop
    · rintro ⟨ho, q, hq, hp, hop⟩
      cases q with
      | nil => simp at hq
      | cons j q =>
        by_cases hj : d.id = j
        · rw [show d :: ds = [d] ++ ds from rfl, Verif.Edit.opAt_append_left (a := d) (by simp) hj] at hop
          exact .inl ⟨ho, j :: q, by simp, hp, hop⟩
        · rw [show d :: ds = [d] ++ ds from rfl, Verif.Edit.opAt_append_right (by simpa using hj)] at hop
          exact .inr ⟨ho, j :: q, by simp, hp, hop⟩
end

mutual
theorem rows_under (S : Schema) : ∀ (d : Diff) (pre : Path) (x : Target × DOp), x ∈ rows S pre d → pre ++ [d.id] <+: x.1.path
  | .mk i op kids, pre, (t, o), h => by
    simp only [rows, List.mem_cons, Prod.mk.injEq, List.mem_append, mem_keyRows] at h
    rcases h with ⟨rfl, _⟩ | ⟨k, rfl, _⟩ | h
    · exact List.prefix_refl _
    · exact List.prefix_refl _
    · obtain ⟨d, _, hd⟩ := rowsL_under S kids (pre ++ [i]) (t, o) h
      exact (List.prefix_append _ _).trans hd
theorem rowsL_under (S : Schema) : ∀ (ds : List Diff) (pre : Path) (x : Target × DOp), x ∈ rowsL S pre ds →
    ∃ d ∈ ds, pre ++ [d.id] <+: x.1.path
  | [], pre, x, h => by simp [rowsL] at h
  | d :: ds, pre, x, h => by
    simp only [rowsL, List.mem_append] at h
    rcases h with h | h
    · exact ⟨d, by simp, rows_under S d pre x h⟩
    · obtain ⟨d', hd', h'⟩ := rowsL_under S ds pre x h
      exact ⟨d', by simp [hd'], h'⟩
end

theorem prefix_step {pre x : Path} {i j : Id} (h1 : pre ++ [i] <+: x) (h2 : pre ++ [j] <+: x) : i = j := by
  obtain ⟨a, rfl⟩ := h1
  rw [List.append_assoc, List.prefix_append_right_inj] at h2
  simp only [List.singleton_append, List.cons_prefix_cons] at h2
  exact h2.1.symm

/-- Targets in different subtrees. -/
theorem before_apart {pre : Path} {i j : Id} {a b : Target} (h : i ≠ j) (ha : pre ++ [i] <+: a.path) (hb : pre ++ [j] <+: b.path) :
    Before a b := by
  refine ⟨?_, ?_⟩
  · rintro rfl; exact h (prefix_step ha hb)
  · rintro p rfl hp
    exact h (prefix_step ha (List.IsPrefix.trans hb hp))

/-- A target in the subtree of another one. -/
theorem before_below {p : Path} {i : Id} {a b : Target} (ha : a.path = p) (hb : p ++ [i] <+: b.path) : Before a b := by
  have hlt : a.path.length < b.path.length := by
    have := hb.length_le
    rw [ha]; simp at this; omega
  refine ⟨?_, ?_⟩
  · rintro rfl; omega
  · rintro q rfl hq
    have := hq.length_le
    simp only [Target.path] at hlt this; omega

mutual
theorem rows_before (S : Schema) (hk : ∀ n, (S.keys n).Nodup) : ∀ (d : Diff) (pre : Path), Tidy d →
    (rows S pre d).Pairwise fun a b => Before a.1 b.1
  | .mk i op kids, pre, w => by
    simp only [rows, List.pairwise_cons, List.pairwise_append]
    refine ⟨?_, ?_, rowsL_before S hk kids (pre ++ [i]) w.2, ?_⟩
    · rintro ⟨t, o⟩ h
      rcases List.mem_append.mp h with h | h
      · rw [mem_keyRows] at h
        obtain ⟨k, rfl, _⟩ := h
        exact ⟨by simp, by simp⟩
      · obtain ⟨d, _, hd⟩ := rowsL_under S kids (pre ++ [i]) _ h
        exact before_below rfl hd
    · simp only [keyRows]
      split
      · rw [List.pairwise_map]
        refine List.Pairwise.imp ?_ (hk i.1)
        intro a b hab
        exact ⟨by simpa using hab, by simp⟩
      · simp
    · rintro ⟨t, o⟩ h ⟨t', o'⟩ h'
      rw [mem_keyRows] at h
      obtain ⟨k, rfl, _⟩ := h
      obtain ⟨d, _, hd⟩ := rowsL_under S kids (pre ++ [i]) _ h'
      exact before_below rfl hd
theorem rowsL_before (S : Schema) (hk : ∀ n, (S.keys n).Nodup) : ∀ (ds : List Diff) (pre : Path), Tidys ds →
    (rowsL S pre ds).Pairwise fun a b => Before a.1 b.1
  | [], pre, w => by simp [rowsL]
  | d :: ds, pre, w => by
    simp only [rowsL, List.pairwise_append]
    refine ⟨rows_before S hk d pre w.1, rowsL_before S hk ds pre w.2.2, ?_⟩
    intro a ha b hb
    obtain ⟨d', hd', h'⟩ := rowsL_under S ds pre b hb
    exact before_apart (w.2.1 d' hd').symm (rows_under S d pre a ha) h'
end

end Verif.ChangeIter
