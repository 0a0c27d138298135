/-!
# How the database plugins keep the order of user-ordered lists

The Redis and the MongoDB datastore plugins do not store a user-ordered list or leaf-list as a
sequence.  Every instance is one record with a number (`order`) and with the predicate of the
instance before it (`prev`).  A change is stored by finding the records of the neighbours of the
instance, choosing a number between theirs and, when there is no number left, shifting the
following records by one.  Loading sorts the records by the number.

The model is `ds_redis.c` 561–1236, 1412–1417, 1620–1626, 1660–1676, 1725–1840 and 3001–3240, the
functions of the same names of `ds_mongo.c` 1221–1900, 2186–2210, 2239–2350 (the two differ in what
they do when a record is missing or when there are two), and `common_db.c` 425–510, 735–790.

Simplified: an order is a natural number (`uint64_t` in the code, so no wrap-around: reaching it
takes 2^54 additions; the numeric index of Redis holds doubles, exact below 2^53); records are
grouped by the list they belong to, since every query of the code names the list (`path_no_pred`)
or a path in it; a query by text (`@prev:{…}`) finds exactly the records with that text (the tag
index of Redis splits a text at commas, see the findings by reading); the deletion of a node
removes the records of everything below it (Redis deletes each descendant listed in the diff,
ds_redis.c 1786–1790 with the inherited operation, MongoDB deletes by the prefix of the path,
ds_mongo.c 1871–1883: component `DbPath`); everything stored about nodes that are not user-ordered
is left out, and so are failures of the database itself.
-/
namespace Verif.DbUo

/-- Text: predicates and values. -/
abbrev Str := List Char

/-- The two plugins (`ds_redis.c`, `ds_mongo.c`). -/
inductive Backend
  | redis
  | mongo
  deriving DecidableEq, Repr

/-- What a user-ordered node is: `LYS_LIST` or `LYS_LEAFLIST` (common_db.c 757, 774). -/
inductive Kind
  | list
  | leaflist
  deriving DecidableEq, Repr

/-- Result of a function of the plugin: a value, an error reported to the caller, or undefined
behaviour (`strtoull` of the NULL `reply->str` of a missing record, ds_redis.c 622 and 654). -/
inductive R (α : Type)
  | ok (a : α)
  | err
  | ub
  deriving DecidableEq, Repr

/-- Continue after a call that succeeded (`if ((err_info = …)) goto cleanup;`). -/
def R.bind {α β : Type} : R α → (α → R β) → R β
  | .ok a, f => f a
  | .err, _ => .err
  | .ub, _ => .ub

/-- `SRPDS_DB_UO_ELEMS_GAP_SIZE` (common_db.h 32). -/
def gap : Nat := 1024

/-- The predicate of an instance in its own path, as `lyd_path` prints it and
`srpds_get_predicate` cuts it off (common_db.c 271–288).  An instance of a list is identified here
by that text; a leaf-list instance by its value, which libyang quotes with apostrophes unless the
value has one, and then with quotation marks. -/
def ownPred : Kind → Str → Str
  | .list, v => v
  | .leaflist, v =>
    if '\'' ∈ v then ['[', '.', '=', '"'] ++ v ++ ['"', ']'] else ['[', '.', '=', '\''] ++ v ++ ['\'', ']']

/-- The predicate of the previous instance made from the metadata of the diff, `srpds_get_values`
(common_db.c 757–778): for a list the metadata is the predicate, for a leaf-list the value is put
between apostrophes; no text means there is no previous instance. -/
def refPred : Kind → Str → Str
  | .list, v => v
  | .leaflist, v => if v = [] then [] else ['[', '.', '=', '\''] ++ v ++ ['\'', ']']

/-- A record of one instance (fields `value`/`keys`, the predicate part of `path`, `order` and
`prev` of the HSET of ds_redis.c 897–948, ds_mongo.c 1803–1828). -/
structure Rec where
  elem : Str
  pred : Str
  order : Nat
  prev : Str
  deriving DecidableEq, Repr

/-- A step of a data path: module, name and predicate of a node. -/
abbrev Seg := Nat × Nat × Str

/-- A list or leaf-list in the data (`path_no_pred`): the path of its parent, its module and its
name. -/
structure LPath where
  par : List Seg
  mod : Nat
  name : Nat
  deriving DecidableEq, Repr

/-- The database of one module: the records of every user-ordered list and the stored maximum
order of a list (`<mod>:meta:<path_no_pred>`, ds_redis.c 571; `#<path_no_pred>`, ds_mongo.c
1234). -/
structure DB where
  recs : LPath → List Rec
  maxord : LPath → Option Nat

/-- An empty database. -/
def DB.empty : DB := { recs := fun _ => [], maxord := fun _ => none }

/-- Replace the records of one list. -/
def DB.setRecs (db : DB) (l : LPath) (rs : List Rec) : DB :=
  { db with recs := fun k => if k = l then rs else db.recs k }

/-- Store the maximum order of one list. -/
def DB.putMax (db : DB) (l : LPath) (m : Nat) : DB :=
  { db with maxord := fun k => if k = l then some m else db.maxord k }

/-- Which of the records found is used: Redis wants exactly one (`reply->elements == 2`,
ds_redis.c 732 and 1051; `integer == 1`, 813), MongoDB takes the first (`mongoc_cursor_next`,
ds_mongo.c 1492, 1595; `update_one`, 1713, 1867). -/
def pick : Backend → List Rec → Option Rec
  | .redis, [r] => some r
  | .mongo, r :: _ => some r
  | _, _ => none

/-- `srpds_set_maxord` (ds_redis.c 560–581) and `srpds_update_maxord` (ds_mongo.c 1220–1254): only
a changed maximum is written; `update_one` of MongoDB changes nothing when there is no record. -/
def setMaxord (be : Backend) (db : DB) (l : LPath) (m : Nat) : DB :=
  if m = 0 then db
  else if be = .mongo ∧ db.maxord l = none then db
  else db.putMax l m

/-- `srpds_get_maxord` (ds_redis.c 606–627, ds_mongo.c 1325–1376): the value at hand, or the stored
one.  A missing one is a NULL string for `strtoull` in Redis and an error in MongoDB. -/
def getMaxord (be : Backend) (db : DB) (l : LPath) (m : Nat) : R Nat :=
  if m ≠ 0 then .ok m
  else match db.maxord l with
    | some v => .ok v
    | none => match be with
      | .redis => .ub
      | .mongo => .err

/-- `srpds_load_prev` (ds_redis.c 639–659, ds_mongo.c 1391–1463): the order of the record with the
predicate; a missing record is a NULL string for `strtoull` in Redis and leaves 0 in MongoDB. -/
def loadPrev (be : Backend) (db : DB) (l : LPath) (p : Str) : R Nat :=
  match (db.recs l).find? (fun r => r.pred = p) with
  | some r => .ok r.order
  | none => match be with
    | .redis => .ub
    | .mongo => .ok 0

/-- `srpds_load_next` (ds_redis.c 669–744, ds_mongo.c 1477–1552): the order of the record whose
`prev` is the predicate, 0 if there is none.  The separate field `is_prev_empty` of Redis says
whether `prev` is empty (ds_redis.c 688, 938, 1053). -/
def loadNext (be : Backend) (db : DB) (l : LPath) (p : Str) : Nat :=
  match pick be ((db.recs l).filter (fun r => r.prev = p)) with
  | some r => r.order
  | none => 0

/-- `srpds_change_next_element` (ds_redis.c 994–1063), the `update_one` of ds_mongo.c 1708–1717 and
1862–1870: the record whose `prev` is `p` gets the new `prev`. -/
def changeNext (be : Backend) (db : DB) (l : LPath) (p np : Str) : DB :=
  match pick be ((db.recs l).filter (fun r => r.prev = p)) with
  | some r => db.setRecs l ((db.recs l).map fun x => if x.pred = r.pred then { x with prev := np } else x)
  | none => db

/-- `srpds_shift_uo_list_recursively` (ds_redis.c 758–828, ds_mongo.c 1572–1648): the record with
order `n` gets order `n + 1` after the record there was moved away in the same way.  The recursion
ends because there are finitely many records: `fuel` is their number plus one. -/
def shift (be : Backend) (l : LPath) : Nat → DB → Nat → Nat → R (DB × Nat)
  | 0, db, _, m => .ok (db, m)
  | fuel + 1, db, n, m =>
    (getMaxord be db l m).bind fun m =>
      let m := if m < n then n else m
      match pick be ((db.recs l).filter (fun r => r.order = n)) with
      | none => .ok (db, m)
      | some r =>
        (shift be l fuel db (n + 1) m).bind fun x =>
          .ok (x.1.setRecs l ((x.1.recs l).map fun y =>
            if y.pred = r.pred then { y with order := n + 1 } else y), x.2)

/-- `srpds_insert_uo_element` (ds_redis.c 848–955, ds_mongo.c 1799–1832): the record is written at
the path of the instance. -/
def insertRec (k : Kind) (db : DB) (l : LPath) (x : Str) (order : Nat) (prevPred : Str) : DB :=
  db.setRecs l ((db.recs l).filter (fun r => r.pred ≠ ownPred k x) ++
    [{ elem := x, pred := ownPred k x, order := order, prev := prevPred }])

/-- `srpds_create_uo_op` (ds_redis.c 1081–1192, ds_mongo.c 1665–1840).  `m` is the maximum order
kept in a variable during the storing of the siblings, 0 if not read yet. -/
def createUo (be : Backend) (k : Kind) (db : DB) (l : LPath) (x prev : Str) (m : Nat) : R (DB × Nat) :=
  let pp := refPred k prev
  if prev ≠ [] then
    (loadPrev be db l pp).bind fun po =>
      let no := loadNext be db l pp
      if no = 0 then
        (getMaxord be db l m).bind fun m =>
          let m := m + gap
          .ok (insertRec k db l x m pp, m)
      else if no - po = 1 then
        (shift be l ((db.recs l).length + 1) db no m).bind fun s =>
          .ok (insertRec k (changeNext be s.1 l pp (ownPred k x)) l x no pp, s.2)
      else
        .ok (insertRec k (changeNext be db l pp (ownPred k x)) l x (po + (no - po) / 2) pp, m)
  else
    let no := loadNext be db l pp
    if no = 0 then
      .ok (insertRec k (db.putMax l gap) l x gap pp, m)
    else if no = 1 then
      (shift be l ((db.recs l).length + 1) db no m).bind fun s =>
        .ok (insertRec k (changeNext be s.1 l pp (ownPred k x)) l x no pp, s.2)
    else
      .ok (insertRec k (changeNext be db l pp (ownPred k x)) l x (no / 2) pp, m)

/-- `srpds_delete_uo_op` (ds_redis.c 1207–1225, ds_mongo.c 1847–1900): the next record gets the
`prev` of the deleted one, which is taken from the diff. -/
def deleteUo (be : Backend) (k : Kind) (db : DB) (l : LPath) (x origPrev : Str) : DB :=
  let db := changeNext be db l (ownPred k x) (refPred k origPrev)
  db.setRecs l ((db.recs l).filter (fun r => r.pred ≠ ownPred k x))

/-- `srpds_replace_op` of a user-ordered node (ds_redis.c 1665–1676, ds_mongo.c 2192–2207). -/
def replaceUo (be : Backend) (k : Kind) (db : DB) (l : LPath) (x prev origPrev : Str) (m : Nat) :
    R (DB × Nat) :=
  createUo be k (deleteUo be k db l x origPrev) l x prev m

/-- Operation of a diff node (`yang:operation`, the first letter is looked at: ds_redis.c
1728–1733). -/
inductive Op
  | none
  | create
  | delete
  | replace
  deriving DecidableEq, Repr

/-- A node of the diff without its children and siblings: module, name, whether it is a
user-ordered list or leaf-list, its own operation if it has one, its predicate (for the paths of
its children), its value, and the metadata `yang:key`/`yang:value` and
`yang:orig-key`/`yang:orig-value`. -/
structure ND where
  mod : Nat
  name : Nat
  uo : Option Kind
  op : Option Op
  value : Str
  prev : Str
  origPrev : Str
  deriving DecidableEq, Repr

/-- A diff: a list of siblings with their children (`lyd_child_no_keys`, `next`). -/
inductive Forest
  | nil
  | cons (d : ND) (kids rest : Forest)
  deriving DecidableEq, Repr

/-- The name of the next sibling (`sibling->next->schema->name`; names are kept in a dictionary, so
comparing the pointers compares the texts). -/
def Forest.headName : Forest → Option Nat
  | .nil => .none
  | .cons d _ _ => some d.name

/-- The list a user-ordered node belongs to, below the node with path `par`. -/
def ND.lpath (par : List Seg) (d : ND) : LPath := { par := par, mod := d.mod, name := d.name }

/-- The path of a node. -/
def ND.path (par : List Seg) (d : ND) : List Seg := par ++ [(d.mod, d.name, d.value)]

/-- Remove the records of everything below a path (see the head of this file). -/
def DB.clear (db : DB) (p : List Seg) : DB :=
  { db with recs := fun k => if p <+: k.par then [] else db.recs k }

/-- The operation on one node: the `switch` of `srpds_store_diff_recursively` (ds_redis.c
1762–1789) for a user-ordered node. -/
def doOp (be : Backend) (l : LPath) (k : Kind) (d : ND) (op : Op) (db : DB) (m : Nat) : R (DB × Nat) :=
  match op with
  | .none => .ok (db, m)
  | .create => createUo be k db l d.value d.prev m
  | .delete => .ok (deleteUo be k db l d.value d.origPrev, m)
  | .replace => replaceUo be k db l d.value d.prev d.origPrev m

/-- The operation and the handling of the maximum order of one sibling (ds_redis.c 1762–1801,
ds_mongo.c 2284–2323); `next` is the name of the next sibling. -/
def storeOne (be : Backend) (par : List Seg) (d : ND) (op : Op) (next : Option Nat) (db : DB) (m : Nat) :
    R (DB × Nat) :=
  match d.uo with
  | .none => .ok (db, m)
  | some k =>
    (doOp be (d.lpath par) k d op db m).bind fun x =>
      if next = some d.name then .ok x
      else .ok (setMaxord be x.1 (d.lpath par) x.2, 0)

/-- `srpds_store_diff_recursively` (ds_redis.c 1711–1821), `srpds_load_diff_recursively`
(ds_mongo.c 2238–2350). -/
def store (be : Backend) : List Seg → Option Op → Forest → DB → Nat → R DB
  | _, _, .nil, db, _ => .ok db
  | par, pop, .cons d kids rest, db, m =>
    match d.op.or pop with
    | .none => .err
    | some op =>
      (storeOne be par d op rest.headName db m).bind fun x =>
        (if op = .delete then R.ok (x.1.clear (d.path par))
          else store be (d.path par) (some op) kids x.1 0).bind fun db =>
          store be par pop rest db x.2

/-- Storing a diff of a module (ds_redis.c 2200–2260 calls it with no parent operation). -/
def storeDiff (be : Backend) (f : Forest) (db : DB) : R DB := store be [] .none f db 0

/-- Storing one diff after another. -/
def storeAll (be : Backend) : List Forest → DB → R DB
  | [], db => .ok db
  | f :: fs, db => (storeDiff be f db).bind fun db => storeAll be fs db

/-- `srpds_uo_elem_comp` (common_db.c 425–429): the difference of two `int64_t` returned as an
`int`. -/
def comp (a b : Nat) : Int := (((a : Int) - (b : Int)) + 2 ^ 31) % 2 ^ 32 - 2 ^ 31

/-- What `qsort` (common_db.c 499) may return: the same records, no pair of them in an order the
comparison objects to. -/
def Sorted (inp out : List Rec) : Prop :=
  out.Perm inp ∧ out.Pairwise (fun a b => comp a.order b.order ≤ 0)

/-- `lyd_insert_after(first, x)`: move `x` right behind `first`. -/
def insAfter (first x : Str) (l : List Str) : List Str :=
  (l.filter (· ≠ x)).flatMap fun y => if y = first then [y, x] else [y]

/-- The loop of `srpds_order_uo_lists` (common_db.c 500–505): the sorted instances are moved behind
the first one, the last one first. -/
def reorder (sibs : List Str) : List Str → List Str
  | [] => sibs
  | x :: xs => xs.reverse.foldl (fun s y => insAfter x y s) sibs

/-- The instances of a list in the order they are in the data after a load: they are created in
some order `sibs` (sorted by path) and then reordered by the sorted records. -/
def Loaded (db : DB) (l : LPath) (out : List Str) : Prop :=
  ∃ sibs s, sibs.Perm ((db.recs l).map Rec.elem) ∧ Sorted (db.recs l) s ∧
    out = reorder sibs (s.map Rec.elem)

/-! ## Specification

A change is described by the diff: in the order of its nodes, an instance is created behind
another one (or first), deleted, or moved behind another one (or first). -/

/-- What the lists of a module hold. -/
abbrev Cont := LPath → List Str

/-- Put `x` behind `p`, or first if `p` is empty. -/
def putAfter (p x : Str) (l : List Str) : List Str :=
  if p = [] then x :: l else l.flatMap fun y => if y = p then [y, x] else [y]

/-- Take `x` out. -/
def without (x : Str) (l : List Str) : List Str := l.filter (· ≠ x)

/-- The instance right before `x`, empty if it is the first. -/
def before (x : Str) : List Str → Str
  | a :: b :: t => if a = x then [] else if b = x then a else before x (b :: t)
  | _ => []

/-- The effect of one node on the list it belongs to. -/
def change (d : ND) (op : Op) (l : List Str) : List Str :=
  match op with
  | .none => l
  | .create => putAfter d.prev d.value l
  | .delete => without d.value l
  | .replace => putAfter d.prev d.value (without d.value l)

/-- The effect of a diff on all lists. -/
def effect : List Seg → Option Op → Forest → Cont → Cont
  | _, _, .nil, a => a
  | par, pop, .cons d kids rest, a =>
    let op := (d.op.or pop).getD .none
    let a1 : Cont := if d.uo.isSome then
      fun k => if k = d.lpath par then change d op (a k) else a k else a
    let a2 : Cont := if op = .delete then fun k => if d.path par <+: k.par then [] else a1 k
      else effect (d.path par) (some op) kids a1
    effect par pop rest a2

/-- One node of a diff fits the data it is to be applied to: a created instance is new, one deleted
or moved is there and the diff names the instance before it, and the instance it is put behind is
there. -/
def Fits (d : ND) (op : Op) (l : List Str) : Prop :=
  d.value ≠ [] ∧
  match op with
  | .none => True
  | .create => d.value ∉ l ∧ (d.prev = [] ∨ d.prev ∈ l)
  | .delete => d.value ∈ l ∧ d.origPrev = before d.value l
  | .replace => d.value ∈ l ∧ d.origPrev = before d.value l ∧
      (d.prev = [] ∨ d.prev ∈ without d.value l)

/-- Every node of a diff fits the data at the time its turn comes, and has an operation. -/
def Valid : List Seg → Option Op → Forest → Cont → Prop
  | _, _, .nil, _ => True
  | par, pop, .cons d kids rest, a =>
    (d.op.or pop).isSome ∧
    let op := (d.op.or pop).getD .none
    (d.uo.isSome → Fits d op (a (d.lpath par))) ∧
    let a1 : Cont := if d.uo.isSome then
      fun k => if k = d.lpath par then change d op (a k) else a k else a
    let a2 : Cont := if op = .delete then fun k => if d.path par <+: k.par then [] else a1 k
      else effect (d.path par) (some op) kids a1
    (op ≠ .delete → Valid (d.path par) (some op) kids a1) ∧ Valid par pop rest a2

/-- A sequence of diffs, each fitting the data left by the ones before. -/
def ValidAll : List Forest → Cont → Prop
  | [], _ => True
  | f :: fs, a => Valid [] .none f a ∧ ValidAll fs (effect [] .none f a)

/-- What the lists hold after a sequence of diffs. -/
def effectAll : List Forest → Cont → Cont
  | [], a => a
  | f :: fs, a => effectAll fs (effect [] .none f a)

/-- No lists hold anything. -/
def nothing : Cont := fun _ => []

/-- Number of nodes of a diff. -/
def size : Forest → Nat
  | .nil => 0
  | .cons _ kids rest => 1 + size kids + size rest

/-- Number of nodes of all diffs. -/
def sizeAll : List Forest → Nat
  | [] => 0
  | f :: fs => size f + sizeAll fs

/-- No apostrophe in the value of an instance that a node of a leaf-list is put behind or was
behind, anywhere in the diff. -/
def PlainRefs : Forest → Prop
  | .nil => True
  | .cons d kids rest =>
    (d.uo = some .leaflist → '\'' ∉ d.prev ∧ '\'' ∉ d.origPrev) ∧ PlainRefs kids ∧ PlainRefs rest

/-- The kind of each list is fixed by the schema. -/
def KindsAs (kind : LPath → Kind) : List Seg → Forest → Prop
  | _, .nil => True
  | par, .cons d kids rest =>
    (∀ k, d.uo = some k → kind (d.lpath par) = k) ∧ KindsAs kind (d.path par) kids ∧ KindsAs kind par rest

/-- Two neighbouring siblings of the same name are nodes of the same module: no two modules define
lists of the same name in the same place. -/
def OneModule : Forest → Prop
  | .nil => True
  | .cons d kids rest =>
    (match rest with
      | .nil => True
      | .cons e _ _ => e.name = d.name → e.mod = d.mod ∧ e.uo = d.uo) ∧ OneModule kids ∧ OneModule rest

end Verif.DbUo
