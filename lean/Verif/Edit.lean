/-!
Model of applying an edit to the data of a module: edit_diff.c 97-170 (`sr_edit_op`), 838-940 (`sr_edit_find_match`,
`sr_edit_find`), 1333-1395 (`sr_edit_diff_add`), 1406-1470 (`sr_diff_is_redundant`), 1475-1570 (ether, none, remove),
1690-1790 (replace), 1808-1870 (create), 1880-1920 (merge), 1930-1955 (delete), 1970-2000 (default change),
2065-2254 (`sr_edit_apply_r`), 2256-2298 (`sr_edit_mod_apply`).

A node is identified among its siblings by its schema node and key (list keys, leaf-list value, nothing for containers
and leaves). Values are numbers, equal exactly if the canonical values are.
Simplifications: the position of instances (see `Verif.UserOrd`), origin metadata, opaque nodes and default leaf-list
instances are left out; a list key inside of an edit is part of the identity of its list instance; both kinds of errors
(`err_info` stops at once, `val_err_info` is collected and makes the whole edit fail) are `none`.
-/
namespace Verif.Edit

/-- Kinds of schema nodes; any anydata is a leaf. -/
inductive Kind where
  | npCont | cont | list | leaf | leaflist
deriving DecidableEq

/-- Identity of a node among its siblings: schema node, key. -/
abbrev Id := Nat × Nat

/-- Data (`struct lyd_node`): identity, value, default flag, children. -/
inductive Tree where
  | mk (id : Id) (val : Nat) (dflt : Bool) (kids : List Tree)

/-- Operations of an edit, `enum edit_op`. -/
inductive Op where
  | ether | none | merge | replace | create | delete | remove | purge
deriving DecidableEq

/-- Edit: a data tree with operations. -/
inductive Edit where
  | mk (id : Id) (op : Option Op) (val : Nat) (dflt : Bool) (kids : List Edit)

/-- Operation of a node of the diff given to subscribers. -/
inductive DOp where
  | none
  | dflt (d od : Bool)
  | create (v : Nat) (d : Bool)
  | replace (v : Nat) (d : Bool) (ov : Nat) (od : Bool)
  | delete (v : Nat) (d : Bool)
deriving DecidableEq

/-- Diff (change set). -/
inductive Diff where
  | mk (id : Id) (op : DOp) (kids : List Diff)

def Tree.id : Tree → Id | .mk i _ _ _ => i
def Tree.val : Tree → Nat | .mk _ v _ _ => v
def Tree.dflt : Tree → Bool | .mk _ _ d _ => d
def Tree.kids : Tree → List Tree | .mk _ _ _ k => k
def Edit.id : Edit → Id | .mk i _ _ _ _ => i
def Edit.op : Edit → Option Op | .mk _ o _ _ _ => o
def Edit.val : Edit → Nat | .mk _ _ v _ _ => v
def Edit.dflt : Edit → Bool | .mk _ _ _ d _ => d
def Edit.kids : Edit → List Edit | .mk _ _ _ _ k => k
def Diff.id : Diff → Id | .mk i _ _ => i
def Diff.op : Diff → DOp | .mk _ o _ => o
def Diff.kids : Diff → List Diff | .mk _ _ k => k

/-- `EDIT_APPLY_REPLACE_R`, `EDIT_APPLY_DELETE_R`. -/
structure Flags where
  repl : Bool
  del : Bool
deriving DecidableEq

/-- What is done with one node after following `next_op`. -/
inductive Act where
  | keep | set | dflt | del | new | skip | bad
deriving DecidableEq

/-- `val_equal` of `sr_edit_find`, edit_diff.c 897-935. -/
def valEq (k : Kind) (t : Tree) (v : Nat) : Bool := k ≠ .leaf || t.val = v

/-- `sr_edit_apply_replace` with a match, edit_diff.c 1726-1790. -/
def replaceMatched (k : Kind) (t : Tree) (v : Nat) : Act := if valEq k t v then .keep else .set

/-- `sr_edit_apply_create` with a match, edit_diff.c 1822-1846. -/
def createMatched (k : Kind) (t : Tree) (v : Nat) : Act :=
  if k = .npCont then .keep
  else if k = .leaf ∧ t.dflt then (if valEq k t v then .dflt else replaceMatched k t v)
  else .bad

/-- `sr_edit_apply_merge` with a match, edit_diff.c 1886-1912. -/
def mergeMatched (k : Kind) (t : Tree) (v : Nat) (d : Bool) : Act :=
  if !valEq k t v then replaceMatched k t v
  else if (k = .leaf ∨ k = .leaflist) ∧ t.dflt ≠ d then .dflt
  else .keep

/-- `sr_edit_apply_delete` with a match, edit_diff.c 1934-1950. -/
def deleteMatched (k : Kind) (t : Tree) : Act :=
  if (k = .leaf ∨ k = .leaflist) ∧ t.dflt then .bad else .del

/-- The loop of `sr_edit_apply_r`, edit_diff.c 2108-2178, when the node is in the data. -/
def actMatched (k : Kind) (op : Op) (t : Tree) (v : Nat) (d : Bool) : Act :=
  match op with
  | .ether | .none => .keep
  | .merge => mergeMatched k t v d
  | .replace => replaceMatched k t v
  | .create => createMatched k t v
  | .delete => deleteMatched k t
  | .remove => .del
  | .purge => .bad  -- handled before

/-- The same loop when the node is not in the data. -/
def actMissing (op : Op) : Act :=
  match op with
  | .ether | .remove => .skip
  | .none | .delete | .purge => .bad
  | .merge | .replace | .create => .new

/-- Operations not allowed below a deleted node, edit_diff.c 2092-2100. -/
def notBelowDelete : Op → Bool
  | .replace | .create | .merge | .none | .ether => true
  | .delete | .remove | .purge => false

/-- The diff of a removed subtree: the recursion with `EDIT_REMOVE`, edit_diff.c 2215-2226, or
`sr_edit_apply_remove_diff_subtree_add`, edit_diff.c 2010-2050. -/
def delDiff : Tree → Diff
  | .mk i v d kids => .mk i (.delete v d) (go kids)
where
  go : List Tree → List Diff
    | [] => []
    | t :: ts => delDiff t :: go ts

/-- Instances found for a purge, `sr_edit_find`, edit_diff.c 884-892: any instance of a list. -/
def purged (k : Kind) (i : Id) (t : Tree) : Bool :=
  if k = .list ∨ k = .leaflist then t.id.1 = i.1 else t.id = i

/-- Replace the instance. -/
def put (t : Tree) (sibs : List Tree) : List Tree := sibs.map fun x => if x.id = t.id then t else x

/-- Result of applying: new siblings, diff, whether something changed. -/
structure Res where
  data : List Tree
  diff : List Diff
  change : Bool

mutual
/-- `sr_edit_apply_r`, edit_diff.c 2065-2254. `inh` is the operation of the parent (`none` at the top level), `miss` says that
the parent is not in the data. -/
def applyNode (K : Nat → Kind) (inh : Option Op) (fl : Flags) (miss : Bool) (sibs : List Tree) : Edit → Option Res
  | .mk i o v d kids =>
    match o.or inh with
    | none => none
    | some op =>
      let k := K i.1
      if fl.del && notBelowDelete op then none
      else if op = .purge then
        -- all the instances one by one, edit_diff.c 884-892, 2193-2206; then the children find no parent
        let inst := sibs.filter (purged k i)
        match applyKids K (some op) ⟨fl.repl, fl.del || !inst.isEmpty⟩ true [] kids with
        | none => none
        | some _ => some ⟨sibs.filter fun t => !purged k i t, inst.map delDiff, !inst.isEmpty⟩
      else match if miss then none else sibs.find? fun t => t.id = i with
        | none =>
          match actMissing op with
          | .skip =>
            match applyKids K (some op) fl true [] kids with
            | none => none
            | some _ => some ⟨sibs, [], false⟩
          | .new =>
            -- without a parent the node cannot be inserted (libyang)
            if miss then none
            else match applyKids K (some op) fl false [] kids with
              | none => none
              | some r => some ⟨sibs ++ [.mk i v d r.data], [.mk i (.create v d) r.diff], true⟩
          | _ => none
        | some t =>
          let a := actMatched k op t v d
          match a with
          | .del =>
            let rest := t.kids.filter fun c => !(kids.map Edit.id).contains c.id
            match applyKids K (some op) ⟨fl.repl, true⟩ false (t.kids.filter fun c => (kids.map Edit.id).contains c.id) kids with
            | none => none
            | some r => some ⟨sibs.filter fun x => x.id ≠ i, [.mk i (.delete t.val t.dflt) (rest.map delDiff ++ r.diff)], true⟩
          | .keep | .set | .dflt =>
            let repl := fl.repl || op = .replace || a = .set
            let rest := if repl then t.kids.filter fun c => !(kids.map Edit.id).contains c.id else []
            let base := if repl then t.kids.filter fun c => (kids.map Edit.id).contains c.id else t.kids
            match applyKids K (some op) ⟨repl, fl.del⟩ false base kids with
            | none => none
            | some r =>
              let dk := rest.map delDiff ++ r.diff
              let ch := !rest.isEmpty || r.change
              match a with
              -- edit_diff.c 1744-1760
              | .set => some ⟨put (.mk i v false r.data) sibs, [.mk i (.replace v false t.val t.dflt) dk], true⟩
              -- edit_diff.c 1970-2000
              | .dflt =>
                some ⟨put (.mk i t.val d r.data) sibs, if t.dflt = d then dk else [.mk i (.dflt d t.dflt) dk], true⟩
              -- edit_diff.c 1490-1515, redundant nodes are removed, 1406-1470
              | _ => some ⟨put (.mk i t.val t.dflt r.data) sibs, if dk.isEmpty then [] else [.mk i .none dk], ch⟩
          | _ => none
/-- The recursion over the children, edit_diff.c 2231-2238, and over the roots, 2264-2293. -/
def applyKids (K : Nat → Kind) (inh : Option Op) (fl : Flags) (miss : Bool) (sibs : List Tree) : List Edit → Option Res
  | [] => some ⟨sibs, [], false⟩
  | e :: es =>
    match applyNode K inh fl miss sibs e with
    | none => none
    | some r =>
      match applyKids K inh fl miss r.data es with
      | none => none
      | some r' => some ⟨r'.data, r.diff ++ r'.diff, r.change || r'.change⟩
end

/-- `sr_edit_mod_apply`, edit_diff.c 2256-2298: the edit of one module. -/
def apply (K : Nat → Kind) (data : List Tree) (edit : List Edit) : Option Res :=
  applyKids K none ⟨false, false⟩ false data edit

/-! ## Specification -/

/-- A path from the top level, without the root. -/
abbrev Path := List Id

/-- Value and default flag at a path. -/
def get (ts : List Tree) : Path → Option (Nat × Bool)
  | [] => none
  | i :: q =>
    match ts.find? fun t => t.id = i with
    | none => none
    | some t => if q = [] then some (t.val, t.dflt) else get t.kids q

/-- Value at a path. -/
def value (ts : List Tree) (q : Path) : Option Nat := (get ts q).map (·.1)

mutual
/-- What an edit means (RFC 6241 section 7.2 and the sysrepo operations): the value and
default flag at every path afterwards, from what `f` says was there before. `repl` says that an ancestor is being
replaced. A new value is explicit; setting the value that is there already takes the default flag of the edit, except for
`replace`, which leaves it. -/
def meantNode (K : Nat → Kind) (inh : Option Op) (repl : Bool) (f : Path → Option (Nat × Bool)) : Edit → Path → Option (Nat × Bool)
  | .mk i o v d kids, q =>
    match o.or inh, q with
    | some .purge, j :: _ =>
      -- every instance of the list, or the node itself
      if (K i.1 = .list ∨ K i.1 = .leaflist) ∧ j.1 = i.1 ∨ j = i then none else f q
    | some op, j :: q' =>
      if j ≠ i then f q
      else match op, q' with
        | .delete, _ => none
        | .remove, _ => none
        | .none, [] => f q
        | .ether, [] => f q
        | _, [] =>
          some (v, match f q with
            | none => d
            | some (w, b) =>
              if w ≠ v then false else if (K i.1 = .leaf ∨ K i.1 = .leaflist) ∧ op ≠ .replace then d else b)
        | _, _ =>
          -- below a node that is replaced, what is not in the edit is gone
          let r := repl || op = .replace && (f [i]).isSome
          let f' := fun p => if r && !(p.head?.any fun c => (kids.map Edit.id).contains c) then none else f (i :: p)
          meantKids K (some op) r f' kids q'
    | _, _ => f q
/-- The nodes of an edit one after another. -/
def meantKids (K : Nat → Kind) (inh : Option Op) (repl : Bool) (f : Path → Option (Nat × Bool)) : List Edit → Path → Option (Nat × Bool)
  | [], q => f q
  | e :: es, q => meantKids K inh repl (meantNode K inh repl f e) es q
end

/-- Effect of a diff on what is at a path (what a subscriber concludes from it). -/
def after (f : Path → Option (Nat × Bool)) (ds : List Diff) : Path → Option (Nat × Bool)
  | [] => f []
  | i :: q =>
    match ds.find? fun d => d.id = i with
    | none => f (i :: q)
    | some d =>
      match d.op with
      | .delete _ _ => none
      | .create v b => if q = [] then some (v, b) else after (fun _ => none) d.kids q
      | .replace v b _ _ => if q = [] then some (v, b) else after (fun p => f (i :: p)) d.kids q
      | .dflt b _ => if q = [] then (f [i]).map fun x => (x.1, b) else after (fun p => f (i :: p)) d.kids q
      | .none => if q = [] then f [i] else after (fun p => f (i :: p)) d.kids q

mutual
/-- Data fit the schema: siblings have different identities, only leaves have values, leaves have no children. -/
def WF (K : Nat → Kind) : Tree → Prop
  | .mk i v _ kids => (K i.1 ≠ .leaf → v = 0) ∧ ((K i.1 = .leaf ∨ K i.1 = .leaflist) → kids = []) ∧ WFs K kids
/-- The same for siblings. -/
def WFs (K : Nat → Kind) : List Tree → Prop
  | [] => True
  | t :: ts => WF K t ∧ (∀ x ∈ ts, x.id ≠ t.id) ∧ WFs K ts
end

mutual
/-- An edit fits the schema. -/
def WFE (K : Nat → Kind) : Edit → Prop
  | .mk i _ v _ kids => (K i.1 ≠ .leaf → v = 0) ∧ ((K i.1 = .leaf ∨ K i.1 = .leaflist) → kids = []) ∧ WFEs K kids
/-- The same for siblings. -/
def WFEs (K : Nat → Kind) : List Edit → Prop
  | [] => True
  | t :: ts => WFE K t ∧ WFEs K ts
end

/-! ## Lemmas -/

theorem WFs.mem {K : Nat → Kind} {ts : List Tree} (h : WFs K ts) {t : Tree} (ht : t ∈ ts) : WF K t := by
  induction ts with
  | nil => simp at ht
  | cons x xs ih =>
    simp only [WFs] at h
    rcases List.mem_cons.mp ht with rfl | hm
    · exact h.1
    · exact ih h.2.2 hm

theorem WFs.nodup {K : Nat → Kind} {ts : List Tree} (h : WFs K ts) : (ts.map Tree.id).Nodup := by
  induction ts with
  | nil => simp
  | cons x xs ih =>
    simp only [WFs] at h
    simp only [List.map_cons, List.nodup_cons, List.mem_map, not_exists, not_and]
    exact ⟨fun y hy => h.2.1 y hy, ih h.2.2⟩

theorem WFs.intro {K : Nat → Kind} {ts : List Tree} (h : ∀ t ∈ ts, WF K t) (hn : (ts.map Tree.id).Nodup) : WFs K ts := by
  induction ts with
  | nil => trivial
  | cons x xs ih =>
    simp only [List.map_cons, List.nodup_cons, List.mem_map, not_exists, not_and] at hn
    exact ⟨h x (by simp), fun y hy => hn.1 y hy, ih (fun t ht => h t (by simp [ht])) hn.2⟩

theorem WFs.filter {K : Nat → Kind} {ts : List Tree} (h : WFs K ts) (p : Tree → Bool) : WFs K (ts.filter p) := by
  refine WFs.intro (fun t ht => h.mem (List.mem_filter.mp ht).1) ?_
  exact h.nodup.sublist ((List.filter_sublist (l := ts) (p := p)).map Tree.id)

theorem find_mem {ts : List Tree} {i : Id} {t : Tree} (h : ts.find? (fun t => t.id = i) = some t) : t ∈ ts ∧ t.id = i :=
  ⟨List.mem_of_find?_eq_some h, by simpa using List.find?_some h⟩

/-- Looking up after filtering by identity. -/
theorem get_filter {K : Nat → Kind} {ts : List Tree} (h : WFs K ts) (p : Id → Bool) (q : Path) :
    get (ts.filter fun t => p t.id) q = if q.head?.any p then get ts q else none := by
  cases q with
  | nil => simp [get]
  | cons i q =>
    simp only [get, List.head?_cons, Option.any_some]
    rw [List.find?_filter]
    by_cases hp : p i
    · simp only [hp, if_true]
      have : (ts.find? fun t => decide (p t.id = true ∧ decide (t.id = i) = true)) = ts.find? fun t => t.id = i := by
        congr 1; funext t; by_cases ht : t.id = i <;> simp [ht, hp]
      simp only [this]
    · have : (ts.find? fun t => decide (p t.id = true ∧ decide (t.id = i) = true)) = none := by
        rw [List.find?_eq_none]; intro t _; by_cases ht : t.id = i <;> simp [ht, hp]
      simp only [this, hp]; simp

/-- Looking up after adding a new node. -/
theorem get_append {ts : List Tree} {t : Tree} (h : ts.find? (fun x => x.id = t.id) = none) (q : Path) :
    get (ts ++ [t]) q = match q with
      | [] => none
      | j :: q' => if j = t.id then (if q' = [] then some (t.val, t.dflt) else get t.kids q') else get ts q := by
  cases q with
  | nil => simp [get]
  | cons j q' =>
    simp only [get, List.find?_append]
    by_cases hj : j = t.id
    · subst hj; simp [h]
    · have : [t].find? (fun x => decide (x.id = j)) = none := by simp [Ne.symm hj]
      simp only [this, Option.or_none, hj, if_false, get]

theorem find_put_ne {ts : List Tree} {t' : Tree} {j : Id} (hj : j ≠ t'.id) :
    (put t' ts).find? (fun x => x.id = j) = ts.find? fun x => x.id = j := by
  induction ts with
  | nil => simp [put]
  | cons y ys ih =>
    simp only [put, List.map_cons, List.find?_cons] at *
    by_cases hy : y.id = t'.id
    · simp [hy, Ne.symm hj, ih]
    · simp only [hy, if_false]; split <;> simp [ih]

theorem find_put {ts : List Tree} {t t' : Tree} (h : ts.find? (fun x => x.id = t'.id) = some t) (j : Id) :
    (put t' ts).find? (fun x => x.id = j) = if j = t'.id then some t' else ts.find? fun x => x.id = j := by
  by_cases hj : j = t'.id
  · subst hj
    simp only [if_true]
    induction ts with
    | nil => simp at h
    | cons x xs ih =>
      simp only [put, List.map_cons, List.find?_cons] at *
      by_cases hx : x.id = t'.id
      · simp [hx]
      · simp only [hx, if_false, decide_false] at h ⊢; exact ih h
  · simp only [hj, if_false]; exact find_put_ne hj

/-- Looking up after replacing a node. -/
theorem get_put {ts : List Tree} {t t' : Tree} (h : ts.find? (fun x => x.id = t'.id) = some t) (q : Path) :
    get (put t' ts) q = match q with
      | [] => none
      | j :: q' => if j = t'.id then (if q' = [] then some (t'.val, t'.dflt) else get t'.kids q') else get ts q := by
  cases q with
  | nil => simp [get]
  | cons j q' =>
    have key := find_put h j
    simp only [get, key]
    by_cases hj : j = t'.id <;> simp [hj]

theorem WFs.put {K : Nat → Kind} {ts : List Tree} {t' : Tree} (h : WFs K ts) (ht : WF K t') : WFs K (put t' ts) := by
  refine WFs.intro ?_ ?_
  · intro x hx
    simp only [Edit.put, List.mem_map] at hx
    obtain ⟨y, hy, rfl⟩ := hx
    split
    · exact ht
    · exact h.mem hy
  · have : (Edit.put t' ts).map Tree.id = ts.map Tree.id := by
      simp only [Edit.put, List.map_map]
      apply List.map_congr_left
      intro x _
      simp only [Function.comp]
      split <;> simp_all
    rw [this]; exact h.nodup

theorem WFs.append {K : Nat → Kind} {ts : List Tree} {t : Tree} (h : WFs K ts) (ht : WF K t)
    (hn : ts.find? (fun x => x.id = t.id) = none) : WFs K (ts ++ [t]) := by
  refine WFs.intro ?_ ?_
  · intro x hx
    rcases List.mem_append.mp hx with hx | hx
    · exact h.mem hx
    · simp at hx; subst hx; exact ht
  · simp only [List.map_append, List.map_cons, List.map_nil]
    rw [List.nodup_append]
    refine ⟨h.nodup, by simp, ?_⟩
    intro a ha b hb hab
    simp at hb; subst hb
    simp only [List.mem_map] at ha
    obtain ⟨x, hx, rfl⟩ := ha
    rw [List.find?_eq_none] at hn
    have := hn x hx
    simp [hab] at this

theorem get_head_none {ts : List Tree} {i : Id} (h : ts.find? (fun t => t.id = i) = none) (q : Path) :
    get ts (i :: q) = none := by simp [get, h]

theorem get_head {ts : List Tree} {i : Id} {t : Tree} (h : ts.find? (fun t => t.id = i) = some t) (q : Path) :
    get ts (i :: q) = if q = [] then some (t.val, t.dflt) else get t.kids q := by
  simp only [get, h]

@[simp] theorem get_empty (q : Path) : get [] q = none := by cases q <;> simp [get]

@[simp] theorem get_nil (ts : List Tree) : get ts [] = none := by simp [get]

theorem WF.kids {K : Nat → Kind} {t : Tree} (h : WF K t) : WFs K t.kids := by
  cases t; exact h.2.2

/-- Everything a successful `applyNode` can be. -/
inductive Applied (K : Nat → Kind) (fl : Flags) (miss : Bool) (sibs : List Tree) (i : Id) (v : Nat) (d : Bool)
    (kids : List Edit) : Op → Res → Prop where
  | purge (r' : Res)
      (hk : applyKids K (some .purge) ⟨fl.repl, fl.del || !(sibs.filter (purged (K i.1) i)).isEmpty⟩ true [] kids = some r') :
      Applied K fl miss sibs i v d kids .purge
        ⟨sibs.filter fun t => !purged (K i.1) i t, (sibs.filter (purged (K i.1) i)).map delDiff,
          !(sibs.filter (purged (K i.1) i)).isEmpty⟩
  | skip (op : Op) (hop : op = .ether ∨ op = .remove) (hf : miss = true ∨ sibs.find? (fun t => t.id = i) = none) (r' : Res)
      (hk : applyKids K (some op) fl true [] kids = some r') :
      Applied K fl miss sibs i v d kids op ⟨sibs, [], false⟩
  | new (op : Op) (hop : op = .merge ∨ op = .replace ∨ op = .create) (hm : miss = false)
      (hf : sibs.find? (fun t => t.id = i) = none) (r' : Res)
      (hk : applyKids K (some op) fl false [] kids = some r') :
      Applied K fl miss sibs i v d kids op ⟨sibs ++ [.mk i v d r'.data], [.mk i (.create v d) r'.diff], true⟩
  | del (op : Op) (t : Tree) (hop : op = .delete ∨ op = .remove) (hm : miss = false)
      (hf : sibs.find? (fun t => t.id = i) = some t) (ha : actMatched (K i.1) op t v d = .del) (r' : Res)
      (hk : applyKids K (some op) ⟨fl.repl, true⟩ false
        (t.kids.filter fun c => (kids.map Edit.id).contains c.id) kids = some r') :
      Applied K fl miss sibs i v d kids op ⟨sibs.filter fun x => x.id ≠ i,
        [.mk i (.delete t.val t.dflt) ((t.kids.filter fun c => !(kids.map Edit.id).contains c.id).map delDiff ++ r'.diff)], true⟩
  | stay (op : Op) (t : Tree) (a : Act) (repl : Bool) (base rest : List Tree) (nv : Nat) (nd : Bool) (diff : List Diff) (ch : Bool)
      (hop : op ≠ .delete ∧ op ≠ .remove ∧ op ≠ .purge) (hm : miss = false)
      (hf : sibs.find? (fun t => t.id = i) = some t)
      (ha : actMatched (K i.1) op t v d = a)
      (hr : repl = (fl.repl || op = .replace || a = .set))
      (hrest : rest = if repl then t.kids.filter fun c => !(kids.map Edit.id).contains c.id else [])
      (hbase : base = if repl then t.kids.filter fun c => (kids.map Edit.id).contains c.id else t.kids)
      (r' : Res) (hk : applyKids K (some op) ⟨repl, fl.del⟩ false base kids = some r')
      (hres : a = .keep ∧ nv = t.val ∧ nd = t.dflt ∧
          diff = (if (rest.map delDiff ++ r'.diff).isEmpty then [] else [.mk i .none (rest.map delDiff ++ r'.diff)]) ∧
          ch = (!rest.isEmpty || r'.change) ∨
        a = .set ∧ nv = v ∧ nd = false ∧ diff = [.mk i (.replace v false t.val t.dflt) (rest.map delDiff ++ r'.diff)] ∧ ch = true ∨
        a = .dflt ∧ nv = t.val ∧ nd = d ∧ ch = true ∧
          diff = (if t.dflt = d then rest.map delDiff ++ r'.diff else [.mk i (.dflt d t.dflt) (rest.map delDiff ++ r'.diff)])) :
      Applied K fl miss sibs i v d kids op ⟨put (.mk i nv nd r'.data) sibs, diff, ch⟩

theorem actMissing_skip {op : Op} (h : actMissing op = .skip) : op = .ether ∨ op = .remove := by
  cases op <;> simp_all [actMissing]

theorem actMissing_new {op : Op} (h : actMissing op = .new) : op = .merge ∨ op = .replace ∨ op = .create := by
  cases op <;> simp_all [actMissing]

theorem actMatched_del {k : Kind} {op : Op} {t : Tree} {v : Nat} {d : Bool} (h : actMatched k op t v d = .del) :
    op = .delete ∨ op = .remove := by
  revert h
  cases op <;> simp only [actMatched, mergeMatched, createMatched, replaceMatched] <;> (repeat' split) <;> simp

theorem actMatched_stay {k : Kind} {op : Op} {t : Tree} {v : Nat} {d : Bool}
    (h : actMatched k op t v d = .keep ∨ actMatched k op t v d = .set ∨ actMatched k op t v d = .dflt) :
    op ≠ .delete ∧ op ≠ .remove ∧ op ≠ .purge := by
  revert h
  cases op <;> simp only [actMatched, deleteMatched] <;> (repeat' split) <;> simp

theorem applyNode_inv {K : Nat → Kind} {inh : Option Op} {fl : Flags} {miss : Bool} {sibs : List Tree} {i : Id} {o : Option Op}
    {v : Nat} {d : Bool} {kids : List Edit} {r : Res} (ha : applyNode K inh fl miss sibs (.mk i o v d kids) = some r) :
    ∃ op, o.or inh = some op ∧ (fl.del && notBelowDelete op) = false ∧ Applied K fl miss sibs i v d kids op r := by
  simp only [applyNode] at ha
  cases ho : o.or inh with
  | none => simp [ho] at ha
  | some op =>
    simp only [ho] at ha
    refine ⟨op, rfl, ?_⟩
    split at ha
    · simp at ha
    rename_i hnb
    refine ⟨by simpa using hnb, ?_⟩
    split at ha
    · rename_i hp; subst hp
      split at ha
      · simp at ha
      · rename_i r' hk
        simp only [Option.some.injEq] at ha; subst ha
        exact .purge r' hk
    rename_i hp
    split at ha
    · rename_i hf
      split at ha
      · rename_i hact
        cases hk : applyKids K (some op) fl true [] kids with
        | none => simp [hk] at ha
        | some r' =>
          simp only [hk, Option.some.injEq] at ha; subst ha
          refine .skip op (actMissing_skip hact) ?_ r' hk
          cases miss
          · right; simpa using hf
          · left; rfl
      · rename_i hact
        split at ha
        · simp at ha
        rename_i hms
        cases hk : applyKids K (some op) fl false [] kids with
        | none => simp [hk] at ha
        | some r' =>
          simp only [hk, Option.some.injEq] at ha; subst ha
          simp only [Bool.not_eq_true] at hms; subst hms
          exact .new op (actMissing_new hact) rfl (by simpa using hf) r' hk
      · simp at ha
    · rename_i t hf
      have hms : miss = false := by cases miss <;> simp at hf ⊢
      subst hms
      have hf' : sibs.find? (fun t => t.id = i) = some t := by simpa using hf
      cases hact : actMatched (K i.1) op t v d with
      | del =>
        simp only [hact] at ha
        split at ha
        · simp at ha
        · rename_i r' hk
          simp only [Option.some.injEq] at ha; subst ha
          exact .del op t (actMatched_del hact) rfl hf' hact r' hk
      | keep =>
        simp only [hact] at ha
        split at ha
        · simp at ha
        · rename_i r' hk
          simp only [Option.some.injEq] at ha; subst ha
          exact .stay op t .keep _ _ _ _ _ _ _ (actMatched_stay (.inl hact)) rfl hf' hact rfl rfl rfl r' hk
            (.inl ⟨rfl, rfl, rfl, rfl, rfl⟩)
      | set =>
        simp only [hact] at ha
        split at ha
        · simp at ha
        · rename_i r' hk
          simp only [Option.some.injEq] at ha; subst ha
          exact .stay op t .set _ _ _ _ _ _ _ (actMatched_stay (.inr (.inl hact))) rfl hf' hact rfl rfl rfl r' hk
            (.inr (.inl ⟨rfl, rfl, rfl, rfl, rfl⟩))
      | dflt =>
        simp only [hact] at ha
        split at ha
        · simp at ha
        · rename_i r' hk
          simp only [Option.some.injEq] at ha; subst ha
          exact .stay op t .dflt _ _ _ _ _ _ _ (actMatched_stay (.inr (.inr hact))) rfl hf' hact rfl rfl rfl r' hk
            (.inr (.inr ⟨rfl, rfl, rfl, rfl, rfl⟩))
      | new => simp [hact] at ha
      | skip => simp [hact] at ha
      | bad => simp [hact] at ha

/-- The specification of one node that is not purged, by cases. -/
theorem meantNode_eq {K : Nat → Kind} {inh : Option Op} {repl : Bool} {i : Id} {o : Option Op} {v : Nat} {d : Bool}
    {kids : List Edit} {op : Op} (ho : o.or inh = some op) (hp : op ≠ .purge) (f : Path → Option (Nat × Bool)) (q : Path) :
    meantNode K inh repl f (.mk i o v d kids) q =
      match q with
      | [] => f []
      | j :: q' =>
        if j ≠ i then f q
        else match op, q' with
          | .delete, _ => none
          | .remove, _ => none
          | .none, [] => f q
          | .ether, [] => f q
          | _, [] =>
            some (v, match f q with
              | none => d
              | some (w, b) =>
                if w ≠ v then false else if (K i.1 = .leaf ∨ K i.1 = .leaflist) ∧ op ≠ .replace then d else b)
          | _, _ =>
            meantKids K (some op) (repl || op = .replace && (f [i]).isSome)
              (fun p => if (repl || op = .replace && (f [i]).isSome) &&
                !(p.head?.any fun c => (kids.map Edit.id).contains c) then none else f (i :: p)) kids q' := by
  simp only [meantNode, ho]
  cases q with
  | nil => cases op <;> rfl
  | cons j q' => cases op <;> cases q' <;> first | rfl | exact absurd rfl hp

/-- The value after a node of the edit that stays is the one in the edit. -/
theorem stay_value {K : Nat → Kind} {i : Id} {op : Op} {t : Tree} {v : Nat} {d : Bool}
    (hv : K i.1 ≠ .leaf → v = 0) (ht : K i.1 ≠ .leaf → t.val = 0)
    (hop : op = .merge ∨ op = .replace ∨ op = .create)
    (h : actMatched (K i.1) op t v d = .keep ∨ actMatched (K i.1) op t v d = .dflt) : t.val = v := by
  by_cases hk : K i.1 = .leaf
  · rcases hop with rfl | rfl | rfl <;>
      simp only [actMatched, mergeMatched, createMatched, replaceMatched, valEq, hk] at h <;>
      (by_cases hv' : t.val = v <;> simp [hv'] at h ⊢)
    all_goals (split at h <;> simp at h)
  · rw [hv hk, ht hk]

theorem actMatched_set {K : Nat → Kind} {i : Id} {op : Op} {t : Tree} {v : Nat} {d : Bool}
    (h : actMatched (K i.1) op t v d = .set) : K i.1 = .leaf ∧ t.val ≠ v ∧ (op = .merge ∨ op = .replace ∨ op = .create) := by
  revert h
  by_cases hk : K i.1 = .leaf <;> by_cases hv : t.val = v <;>
  cases op <;> simp only [actMatched, mergeMatched, createMatched, replaceMatched, deleteMatched, valEq, hk, hv] <;>
    (repeat' split) <;> simp_all

/-- The default flag after a node of the edit that stays. -/
theorem stay_flag {k : Kind} {op : Op} {t : Tree} {v : Nat} {d nd : Bool} {a : Act} (ha : actMatched k op t v d = a)
    (hn : a = .keep ∧ nd = t.dflt ∨ a = .set ∧ nd = false ∨ a = .dflt ∧ nd = d) (hv : k ≠ .leaf → t.val = v)
    (hop : op = .merge ∨ op = .replace ∨ op = .create) :
    nd = if t.val ≠ v then false else if (k = .leaf ∨ k = .leaflist) ∧ op ≠ .replace then d else t.dflt := by
  by_cases hk : k = .leaf
  · subst hk
    by_cases he : t.val = v
    · rcases hop with rfl | rfl | rfl
      · simp [actMatched, mergeMatched, valEq, he] at ha ⊢
        split at ha <;> subst ha <;> simp_all
      · simp [actMatched, replaceMatched, valEq, he] at ha ⊢
        subst ha; simpa using hn
      · simp [actMatched, createMatched, valEq, he] at ha ⊢
        split at ha <;> subst ha <;> simp_all
    · rcases hop with rfl | rfl | rfl
      · simp [actMatched, mergeMatched, replaceMatched, valEq, he] at ha ⊢
        subst ha; simpa using hn
      · simp [actMatched, replaceMatched, valEq, he] at ha ⊢
        subst ha; simpa using hn
      · simp [actMatched, createMatched, replaceMatched, valEq, he] at ha ⊢
        split at ha <;> subst ha <;> simp_all
  · have he := hv hk
    rcases hop with rfl | rfl | rfl
    · simp [actMatched, mergeMatched, valEq, he, hk] at ha ⊢
      split at ha <;> subst ha <;> simp_all
    · simp [actMatched, replaceMatched, valEq, he, hk] at ha ⊢
      subst ha; simpa using hn
    · simp [actMatched, createMatched, hk, he] at ha ⊢
      split at ha
      · subst ha; simp_all
      · subst ha; simp at hn

theorem applyKids_nil {K : Nat → Kind} {inh : Option Op} {fl : Flags} {miss : Bool} {sibs : List Tree} {r : Res}
    (h : applyKids K inh fl miss sibs [] = some r) : r = ⟨sibs, [], false⟩ := by
  simpa [applyKids] using h.symm

mutual
theorem meant_node (K : Nat → Kind) : ∀ (e : Edit) (inh : Option Op) (fl : Flags) (miss : Bool) (sibs : List Tree) (r : Res),
    WFE K e → WFs K sibs → (miss = true → sibs = []) → applyNode K inh fl miss sibs e = some r →
    WFs K r.data ∧ (miss = true → r.data = []) ∧
      ∀ f : Path → Option (Nat × Bool), (∀ q, q ≠ [] → f q = get sibs q) → ∀ q, q ≠ [] → meantNode K inh fl.repl f e q = get r.data q
  | .mk i o v d kids, inh, fl, miss, sibs, r, we, ws, hm, ha => by
    obtain ⟨wv, wk, wks⟩ := we
    obtain ⟨op, ho, hnb, hap⟩ := applyNode_inv ha
    cases hap with
    | purge r' hk =>
      refine ⟨ws.filter _, fun h => by simp [hm h], ?_⟩
      intro f hf q hq
      simp only [meantNode, ho]
      cases q with
      | nil => simp at hq
      | cons j q' =>
        simp only []
        have hfilt := get_filter ws
          (fun c : Id => !(if K i.1 = .list ∨ K i.1 = .leaflist then decide (c.1 = i.1) else decide (c = i))) (j :: q')
        simp only [purged, hf _ hq]
        rw [hfilt]
        simp only [List.head?_cons, Option.any_some]
        by_cases hk : K i.1 = .list ∨ K i.1 = .leaflist
        · simp only [hk, if_true, true_and]
          by_cases hj : j.1 = i.1
          · simp [hj]
          · have : j ≠ i := fun h => hj (by rw [h])
            simp [hj, this]
        · simp only [hk, if_false, false_and, false_or]
          by_cases hj : j = i <;> simp [hj]
    | skip op hop hf0 r' hk =>
      refine ⟨ws, hm, ?_⟩
      have hnone : sibs.find? (fun t => t.id = i) = none := by
        rcases hf0 with h | h
        · rw [hm h]; rfl
        · exact h
      have ih := meant_kids K kids (some op) fl true [] r' wks trivial (fun _ => rfl) hk
      intro f hf q hq
      rw [meantNode_eq ho (by rcases hop with rfl | rfl <;> simp)]
      cases q with
      | nil => simp at hq
      | cons j q' =>
        simp only []
        by_cases hj : j = i
        · subst hj
          have hfn : ∀ p, f (j :: p) = none := fun p => by rw [hf _ (by simp), get_head_none hnone]
          simp only [get_head_none hnone, ne_eq, not_true_eq_false, if_false]
          rcases hop with rfl | rfl
          · cases q' with
            | nil => simp [hfn]
            | cons c q'' =>
              have := ih.2.2 (fun p => if fl.repl &&
                !(p.head?.any fun c => (kids.map Edit.id).contains c) then none else none) (fun q _ => by simp) (c :: q'') (by simp)
              simp only [ih.2.1 rfl, get_empty] at this
              simpa [hfn] using this
          · rfl
        · simp [hj, hf _ hq]
    | new op hop hm' hf r' hk =>
      have ih := meant_kids K kids (some op) fl false [] r' wks trivial (fun h => by simp at h) hk
      have hnew : WF K (.mk i v d r'.data) := by
        refine ⟨wv, fun h => ?_, ih.1⟩
        have := wk h; subst this
        rw [applyKids_nil hk]
      have hnone' : sibs.find? (fun t => t.id = (Tree.mk i v d r'.data).id) = none := hf
      refine ⟨ws.append hnew hnone', fun h => by simp [h] at hm', ?_⟩
      intro f hf' q hq
      rw [meantNode_eq ho (by rcases hop with rfl | rfl | rfl <;> simp)]
      cases q with
      | nil => simp at hq
      | cons j q' =>
        simp only []
        rw [get_append hnone']
        by_cases hj : j = i
        · subst hj
          have hfn : ∀ p, f (j :: p) = none := fun p => by rw [hf' _ (by simp), get_head_none hf]
          simp only [ne_eq, not_true_eq_false, if_false, Tree.id, if_true]
          cases q' with
          | nil => rcases hop with rfl | rfl | rfl <;> simp [Tree.val, Tree.dflt, hfn]
          | cons c q'' =>
            have := ih.2.2 (fun p => if fl.repl &&
                !(p.head?.any fun c => (kids.map Edit.id).contains c) then none else none) (fun q _ => by simp) (c :: q'') (by simp)
            simp only [Tree.kids, reduceCtorEq, if_false, ← this]
            rcases hop with rfl | rfl | rfl <;> simp [hfn]
        · simp [hj, hf' _ hq, Tree.id]
    | del op t hop hm' hf hact r' hk =>
      refine ⟨ws.filter _, fun h => by simp [h] at hm', ?_⟩
      intro f hf' q hq
      rw [meantNode_eq ho (by rcases hop with rfl | rfl <;> simp)]
      have := get_filter ws (fun c => decide (c ≠ i)) q
      rw [this]
      cases q with
      | nil => simp at hq
      | cons j q' =>
        by_cases hj : j = i
        · rcases hop with rfl | rfl <;> simp [hj]
        · simp [hj, hf' _ hq]
    | stay op t a repl base rest nv nd diff ch hop hm' hf hact hr hrest hbase r' hk hres =>
      obtain ⟨tmem, tid⟩ := find_mem hf
      have wt := ws.mem tmem
      have wtv : K i.1 ≠ .leaf → t.val = 0 := by cases t; simp only [Tree.id] at tid; subst tid; exact wt.1
      have wtk : (K i.1 = .leaf ∨ K i.1 = .leaflist) → t.kids = [] := by
        cases t; simp only [Tree.id] at tid; subst tid; exact wt.2.1
      have wb : WFs K base := by rw [hbase]; split <;> first | exact wt.kids.filter _ | exact wt.kids
      have ih := meant_kids K kids (some op) ⟨repl, fl.del⟩ false base r' wks wb (fun h => by simp at h) hk
      have hnv : (op = .merge ∨ op = .replace ∨ op = .create) → nv = v := by
        intro hop'
        rcases hres with ⟨rfl, h, _⟩ | ⟨_, h, _⟩ | ⟨rfl, h, _⟩
        · rw [h]; exact stay_value wv wtv hop' (.inl hact)
        · exact h
        · rw [h]; exact stay_value wv wtv hop' (.inr hact)
      have hnv' : ¬(op = .merge ∨ op = .replace ∨ op = .create) → nv = t.val := by
        intro hop'
        rcases hres with ⟨rfl, h, _⟩ | ⟨rfl, h, _⟩ | ⟨rfl, h, _⟩
        · exact h
        · exact absurd (actMatched_set hact).2.2 hop'
        · exact h
      have hnew : WF K (.mk i nv nd r'.data) := by
        refine ⟨fun h => ?_, fun h => ?_, ih.1⟩
        · rcases hres with ⟨_, h', _⟩ | ⟨_, h', _⟩ | ⟨_, h', _⟩
          · rw [h', wtv h]
          · rw [h', wv h]
          · rw [h', wtv h]
        · have := wk h; subst this
          rw [applyKids_nil hk, hbase, wtk h]; simp
      refine ⟨ws.put hnew, fun h => by simp [h] at hm', ?_⟩
      intro f hf' q hq
      rw [meantNode_eq ho hop.2.2]
      cases q with
      | nil => simp at hq
      | cons j q' =>
        simp only []
        rw [get_put (t := t) (t' := .mk i nv nd r'.data) hf]
        by_cases hj : j = i
        · subst hj
          have hfs : f [j] = some (t.val, t.dflt) := by rw [hf' _ (by simp), get_head hf]; simp
          have hfk : ∀ p, p ≠ [] → f (j :: p) = get t.kids p := fun p hp => by rw [hf' _ (by simp), get_head hf]; simp [hp]
          simp only [ne_eq, not_true_eq_false, if_false, Tree.id, if_true, Tree.val, Tree.kids]
          cases q' with
          | nil =>
            simp only [if_true]
            have hflag : a = .keep ∧ nd = t.dflt ∨ a = .set ∧ nd = false ∨ a = .dflt ∧ nd = d := by
              rcases hres with ⟨h, _, h', _⟩ | ⟨h, _, h', _⟩ | ⟨h, _, h', _⟩
              · exact .inl ⟨h, h'⟩
              · exact .inr (.inl ⟨h, h'⟩)
              · exact .inr (.inr ⟨h, h'⟩)
            by_cases hop' : op = .merge ∨ op = .replace ∨ op = .create
            · have hfl := stay_flag hact hflag (fun h => by rw [wv h, wtv h]) hop'
              rw [hnv hop', hfl, hfs]
              rcases hop' with rfl | rfl | rfl <;> rfl
            · have hk : a = .keep := by
                rcases hop with ⟨h1, h2, h3⟩
                cases op <;> simp_all [actMatched]
              have hnd : nd = t.dflt := by subst hk; simpa using hflag
              rw [hnv' hop', hnd]
              cases op <;> simp at hop hop' ⊢ <;> exact hfs
          | cons c q'' =>
            simp only [reduceCtorEq, if_false]
            have h2 : (fl.repl || decide (op = .replace) && (f [j]).isSome) = (fl.repl || decide (op = .replace)) := by
              rw [hfs]; simp
            rw [h2]
            by_cases hset : a = .set
            · subst hset
              have hl := (actMatched_set hact).1
              have := wk (.inl hl); subst this
              rw [applyKids_nil hk, hbase, wtk (.inl hl)]
              cases op <;> simp [meantKids, hfk, wtk (.inl hl)] at hop ⊢
            · have hrr : repl = (fl.repl || decide (op = .replace)) := by simp [hr, hset]
              have := ih.2.2 (fun p => if (fl.repl || decide (op = .replace)) &&
                !(p.head?.any fun c => (kids.map Edit.id).contains c) then none else f (j :: p)) (by
                  intro p hp
                  rw [hfk p hp, hbase, ← hrr]
                  cases repl with
                  | false => simp
                  | true =>
                    have := get_filter wt.kids (fun c => (kids.map Edit.id).contains c) p
                    simp only [if_true]
                    rw [this]
                    by_cases hc : p.head?.any (fun c => (kids.map Edit.id).contains c) = true
                    · simp only [hc]; simp
                    · simp only [hc]; simp) (c :: q'') (by simp)
              rw [← this]
              simp only [hrr]
              cases op <;> first | rfl | (simp at hop; done)
        · simp [hj, hf' _ hq, Tree.id]
theorem meant_kids (K : Nat → Kind) : ∀ (es : List Edit) (inh : Option Op) (fl : Flags) (miss : Bool) (sibs : List Tree) (r : Res),
    WFEs K es → WFs K sibs → (miss = true → sibs = []) → applyKids K inh fl miss sibs es = some r →
    WFs K r.data ∧ (miss = true → r.data = []) ∧
      ∀ f : Path → Option (Nat × Bool), (∀ q, q ≠ [] → f q = get sibs q) → ∀ q, q ≠ [] → meantKids K inh fl.repl f es q = get r.data q
  | [], inh, fl, miss, sibs, r, we, ws, hm, ha => by
    rw [applyKids_nil ha]
    exact ⟨ws, hm, fun f hf q hq => by simp [meantKids, hf q hq]⟩
  | e :: es, inh, fl, miss, sibs, r, we, ws, hm, ha => by
    simp only [applyKids] at ha
    cases h1 : applyNode K inh fl miss sibs e with
    | none => simp [h1] at ha
    | some r1 =>
      cases h2 : applyKids K inh fl miss r1.data es with
      | none => simp [h1, h2] at ha
      | some r2 =>
        simp only [h1, h2, Option.some.injEq] at ha; subst ha
        have i1 := meant_node K e inh fl miss sibs r1 we.1 ws hm h1
        have i2 := meant_kids K es inh fl miss r1.data r2 we.2 i1.1 i1.2.1 h2
        refine ⟨i2.1, i2.2.1, fun f hf q hq => ?_⟩
        simp only [meantKids]
        exact i2.2.2 _ (fun q hq => i1.2.2 f hf q hq) q hq
end

end Verif.Edit
