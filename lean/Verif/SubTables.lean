import Verif.XPathTrim

/-!
# Tables of subscriptions in ext SHM

Model of adding and removing change, operational (get and poll), RPC/action and notification
subscriptions, and of removing subscriptions of dead connections.

Code modelled (/repo/src):
* `shm_ext.c` 515–616, 688–756 change subscriptions
* `shm_ext.c` 800–1052 operational get subscriptions
* `shm_ext.c` 1097–1238 operational poll subscriptions
* `shm_ext.c` 1280–1436 notification subscriptions
* `shm_ext.c` 1473–1700 RPC/action subscriptions
* `sysrepo.c` 5863–5936, 6492–6566, 7159–7215, 7660–7700: the callers; a later failure removes the
  added subscription again

Simplifications:
* an array in ext SHM is a list (`ExtShm` models the memory: adding at an index and deleting with the
  order kept);
* every operation runs with the locks held, so it is one step;
* a sub SHM segment either exists or not; unlinking one does not fail; hash collisions of their names
  are not considered;
* event pipe numbers, suspending and the subscription type of operational subscriptions are left out;
* the 32-bit counter of subscription IDs and the priorities of operational subscriptions do not wrap.
-/

namespace Verif.SubTables

open Verif.XPathTrim (trimPredicates lenNoPredicates)

abbrev Path := List Char

/-- `sr_mod_change_sub_t`, `sr_mod_oper_poll_sub_t`, `sr_mod_notif_sub_t`, `sr_mod_rpc_sub_t`
(shm_types.h): subscription ID, connection, priority, whether the option `SR_SUBSCR_UPDATE` (change) or
`SR_SUBSCR_OPER_POLL_DIFF` (poll) is set, and the XPath. -/
structure Sub where
  id : Nat
  cid : Nat
  prio : Nat
  flag : Bool
  xpath : Path
deriving DecidableEq, Repr

/-- `sr_mod_oper_get_xpath_sub_t` -/
structure XSub where
  id : Nat
  cid : Nat
  prio : Nat
  merge : Bool
deriving DecidableEq, Repr

/-- `sr_mod_oper_get_sub_t` -/
structure OSub where
  path : Path
  subs : List XSub
deriving DecidableEq, Repr

/-- Subscriptions of one module (and datastore) with whether their sub SHM exists. -/
structure Tab where
  subs : List Sub
  shm : Bool
deriving DecidableEq, Repr

/-- RPC/action subscriptions, with the paths whose sub SHM exists. -/
structure RTab where
  subs : List Sub
  shm : List Path
deriving DecidableEq, Repr

/-- Result of an operation: with or without an error; `hang` never returns. -/
inductive Res (α : Type) where
  | ok (a : α)
  | err (a : α)
  | hang
deriving DecidableEq, Repr

/-! ## Change and notification subscriptions -/

/-- shm_ext.c 688–720 `sr_shmext_change_sub_free`, 1368–1400 `sr_shmext_notif_sub_free`: remove the item,
unlink the sub SHM after the last one. -/
def free (t : Tab) (i : Nat) : Tab :=
  let subs := t.subs.eraseIdx i
  ⟨subs, if subs = [] then false else t.shm⟩

/-- shm_ext.c 515–537 `sr_shmext_change_sub_remove_dead`, 1280–1298 `sr_shmext_notif_sub_remove_dead`
(the loop over the array; the sub SHM is unlinked with the last subscription). -/
def deadLoop (alive : Nat → Bool) : Nat → Nat → Tab → Tab
  | 0, _, t => t
  | fuel + 1, i, t =>
    match t.subs[i]? with
    | none => t
    | some s => if alive s.cid then deadLoop alive fuel (i + 1) t else deadLoop alive fuel i (free t i)

def removeDead (alive : Nat → Bool) (t : Tab) : Tab := deadLoop alive t.subs.length 0 t

/-- shm_ext.c 571–608, 1317–1351: allocate (`mem`: it succeeds), append, create the sub SHM for the first
subscription (`mk`: it succeeds). -/
def append (t : Tab) (s : Sub) (mem mk : Bool) : Res Tab :=
  if mem then
    let t' : Tab := { t with subs := t.subs ++ [s] }
    if t'.subs.length = 1 then
      if mk then .ok { t' with shm := true } else .err t'
    else .ok t'
  else .err t

/-- shm_ext.c 539–616 `sr_shmext_change_sub_add`. -/
def changeAdd (alive : Nat → Bool) (t : Tab) (s : Sub) (mem mk : Bool) : Res Tab :=
  let t := removeDead alive t
  if s.flag && t.subs.any (fun x => x.flag && x.prio == s.prio) then .err t
  else append t s mem mk

/-- shm_ext.c 1300–1358 `sr_shmext_notif_sub_add`. -/
def notifAdd (alive : Nat → Bool) (t : Tab) (s : Sub) (mem mk : Bool) : Res Tab :=
  append (removeDead alive t) s mem mk

/-- shm_ext.c 722–756 `sr_shmext_change_sub_del`, 1402–1436 `sr_shmext_notif_sub_del`. -/
def del (t : Tab) (id : Nat) : Tab :=
  match t.subs.findIdx? (fun s => s.id == id) with
  | none => t
  | some i => free t i

/-! ## Operational poll subscriptions -/

/-- shm_ext.c 1097–1116 `sr_shmext_oper_poll_sub_remove_dead`. -/
def pollDead (alive : Nat → Bool) : Nat → Nat → List Sub → List Sub
  | 0, _, l => l
  | fuel + 1, i, l =>
    match l[i]? with
    | none => l
    | some s => if alive s.cid then pollDead alive fuel (i + 1) l else pollDead alive fuel i (l.eraseIdx i)

/-- shm_ext.c 1118–1174 `sr_shmext_oper_poll_sub_add`. -/
def pollAdd (alive : Nat → Bool) (l : List Sub) (s : Sub) (mem : Bool) : Res (List Sub) :=
  let l := pollDead alive l.length 0 l
  if s.flag && l.any (fun x => x.flag && x.xpath == s.xpath) then .err l
  else if mem then .ok (l ++ [s]) else .err l

/-- shm_ext.c 1204–1238 `sr_shmext_oper_poll_sub_del`. -/
def pollDel (l : List Sub) (id : Nat) : List Sub :=
  match l.findIdx? (fun s => s.id == id) with
  | none => l
  | some i => l.eraseIdx i

/-! ## RPC/action subscriptions -/

/-- shm_ext.c 1629–1664 of `sr_shmext_rpc_sub_free`: unlink the sub SHM of the path when no subscription
that is not internal (connection ID 0) is left for it. A path that cannot be cut is an error that ends
the search (1638–1640). -/
def rpcUnlink (path : Path) (shm : List Path) : List Sub → List Path
  | [] => shm.filter (· != path)
  | s :: r =>
    if s.cid = 0 then rpcUnlink path shm r
    else match trimPredicates s.xpath with
      | none => shm
      | some p => if p = path then shm else rpcUnlink path shm r

/-- shm_ext.c 1611–1664 `sr_shmext_rpc_sub_free`. -/
def rpcFree (t : RTab) (path : Path) (i : Nat) : RTab :=
  let subs := t.subs.eraseIdx i
  ⟨subs, rpcUnlink path t.shm subs⟩

/-- shm_ext.c 1473–1509 `sr_shmext_rpc_sub_remove_dead`. -/
def rpcDead (alive : Nat → Bool) : Nat → Nat → RTab → RTab
  | 0, _, t => t
  | fuel + 1, i, t =>
    match t.subs[i]? with
    | none => t
    | some s =>
      if s.cid = 0 ∨ alive s.cid = true then rpcDead alive fuel (i + 1) t
      else match trimPredicates s.xpath with
        | none => rpcDead alive fuel (i + 1) t
        | some p => rpcDead alive fuel i (rpcFree t p i)

/-- shm_ext.c 1529–1553 of `sr_shmext_rpc_sub_add`: look for the same path and priority; `none` is an
error, otherwise whether a subscription of the path that is not internal exists. -/
def rpcCheck (path : Path) (prio : Nat) (found : Bool) : List Sub → Option Bool
  | [] => some found
  | s :: r =>
    match trimPredicates s.xpath with
    | none => none
    | some p =>
      if p = path then
        if s.prio = prio then none
        else rpcCheck path prio (found || s.cid != 0) r
      else rpcCheck path prio found r

/-- shm_ext.c 1511–1599 `sr_shmext_rpc_sub_add`. -/
def rpcAdd (t : RTab) (path : Path) (s : Sub) (mem mk : Bool) : Res RTab :=
  match rpcCheck path s.prio false t.subs with
  | none => .err t
  | some found =>
    if mem then
      let t' : RTab := { t with subs := t.subs ++ [s] }
      if found = false ∧ s.cid ≠ 0 then
        if mk then .ok { t' with shm := path :: t'.shm } else .err t'
      else .ok t'
    else .err t

/-- sysrepo.c 6511–6526 of `_sr_rpc_subscribe`: dead subscriptions are removed first. The path is the XPath
without predicates (sysrepo.c 6448–6452). -/
def rpcSubscribe (alive : Nat → Bool) (t : RTab) (s : Sub) (mem mk : Bool) : Res RTab :=
  match trimPredicates s.xpath with
  | none => .err t
  | some p => rpcAdd (rpcDead alive t.subs.length 0 t) p s mem mk

/-- shm_ext.c 1666–1700 `sr_shmext_rpc_sub_del`; the path is the one of the subscription. -/
def rpcDel (t : RTab) (id : Nat) : RTab :=
  match t.subs.findIdx? (fun s => s.id == id) with
  | none => t
  | some i =>
    match t.subs[i]? with
    | none => t
    | some s => match trimPredicates s.xpath with
      | none => t
      | some p => rpcFree t p i

/-! ## Operational get subscriptions -/

/-- shm_ext.c 800–826 `sr_shmext_oper_get_sub_remove_dead` with 961–1007: dead subscriptions of every path
are removed, a path whose last one was removed is removed as well. -/
def operDead (alive : Nat → Bool) : List OSub → List OSub
  | [] => []
  | o :: r =>
    let k := o.subs.filter (fun x => alive x.cid)
    if k = [] ∧ o.subs ≠ [] then operDead alive r else { o with subs := k } :: operDead alive r

/-- Where the new subscription goes. -/
inductive Pos where
  | hang
  | insert (before after : List OSub)
  | found (before : List OSub) (o : OSub) (after : List OSub)

/-- shm_ext.c 849–882: the position; a path without any subscription makes the loop never end (860–863). -/
def operPos (path : Path) (before : List OSub) : List OSub → Pos
  | [] => .insert before []
  | o :: r =>
    if o.subs = [] then .hang
    else if lenNoPredicates o.path > lenNoPredicates path then .insert before (o :: r)
    else if lenNoPredicates o.path = lenNoPredicates path ∧ o.path = path then .found before o r
    else operPos path (before ++ [o]) r

/-- shm_ext.c 884–887: priority of the last subscription + 1. -/
def nextPrio (l : List XSub) : Nat := (l.getLast?.map (·.prio)).getD 0 + 1

/-- shm_ext.c 828–951 `sr_shmext_oper_get_sub_add`; `mem1` and `mem2` are the two allocations (895–899,
915–919), `mk` the creation of the sub SHM (932–944). -/
def operAdd (alive : Nat → Bool) (l : List OSub) (path : Path) (id cid : Nat) (merge mem1 mem2 mk : Bool) :
    Res (List OSub) :=
  let l := operDead alive l
  match operPos path [] l with
  | .hang => .hang
  | .found before o after =>
    if merge then
      if mem2 then
        let l' := before ++ { o with subs := o.subs ++ [⟨id, cid, nextPrio o.subs, merge⟩] } :: after
        if mk then .ok l' else .err l'
      else .err l
    else .err l
  | .insert before after =>
    if mem1 then
      if mem2 then
        let l' := before ++ ⟨path, [⟨id, cid, 1, merge⟩]⟩ :: after
        if mk then .ok l' else .err l'
      else .err (before ++ ⟨path, []⟩ :: after)
    else .err l

/-- shm_ext.c 1009–1052 `sr_shmext_oper_get_sub_del` with 961–1007. -/
def operDel (id : Nat) : List OSub → List OSub
  | [] => []
  | o :: r =>
    match o.subs.findIdx? (fun x => x.id == id) with
    | some j =>
      let k := o.subs.eraseIdx j
      if k = [] then r else { o with subs := k } :: r
    | none => o :: operDel id r

/-! ## Histories -/

structure World where
  alive : Nat → Bool
  /-- `new_sub_id` in main SHM -/
  next : Nat
  change : Nat → Tab
  notif : Nat → Tab
  poll : Nat → List Sub
  rpc : Nat → RTab
  oper : Nat → List OSub

def init : World := ⟨fun _ => true, 1, fun _ => ⟨[], false⟩, fun _ => ⟨[], false⟩, fun _ => [], fun _ => ⟨[], []⟩, fun _ => []⟩

def upd {α : Type} (f : Nat → α) (k : Nat) (a : α) : Nat → α := fun i => if i = k then a else f i

/-- `later`: what follows in the subscribe function succeeds (otherwise the subscription is removed
again, e.g. sysrepo.c 5922–5928). -/
inductive Op where
  | die (cid : Nat)
  | subChange (k cid prio : Nat) (update : Bool) (xpath : Path) (mem mk later : Bool)
  | unsubChange (k id : Nat)
  | subNotif (k cid : Nat) (xpath : Path) (mem mk later : Bool)
  | unsubNotif (k id : Nat)
  | subPoll (k cid : Nat) (diff : Bool) (xpath : Path) (mem later : Bool)
  | unsubPoll (k id : Nat)
  | subRpc (k cid prio : Nat) (xpath : Path) (mem mk later : Bool)
  | unsubRpc (k id : Nat)
  | subOper (k cid : Nat) (merge : Bool) (path : Path) (mem1 mem2 mk later : Bool)
  | unsubOper (k id : Nat)

/-- Whether a subscribe call succeeds and what the table is after it: unchanged by it on an error, and
without the new subscription after a later failure. `none` is a call that never returns. -/
def settle {α : Type} (undo : α → α) (later : Bool) : Res α → Option (Bool × α)
  | .ok a => some (if later then (true, a) else (false, undo a))
  | .err a => some (false, a)
  | .hang => none

/-- One API call: whether it succeeds, and the world after it; `none` is a call that never returns. -/
def step (w : World) : Op → Option (Bool × World)
  | .die c => some (true, { w with alive := fun x => if x = c then false else w.alive x })
  | .subChange k cid prio u xp mem mk later =>
    (settle (fun t => del t w.next) later (changeAdd w.alive (w.change k) ⟨w.next, cid, prio, u, xp⟩ mem mk)).map
      fun t => (t.1, { w with change := upd w.change k t.2, next := w.next + 1 })
  | .unsubChange k id => some (true, { w with change := upd w.change k (del (w.change k) id) })
  | .subNotif k cid xp mem mk later =>
    (settle (fun t => del t w.next) later (notifAdd w.alive (w.notif k) ⟨w.next, cid, 0, false, xp⟩ mem mk)).map
      fun t => (t.1, { w with notif := upd w.notif k t.2, next := w.next + 1 })
  | .unsubNotif k id => some (true, { w with notif := upd w.notif k (del (w.notif k) id) })
  | .subPoll k cid d xp mem later =>
    (settle (fun t => pollDel t w.next) later (pollAdd w.alive (w.poll k) ⟨w.next, cid, 0, d, xp⟩ mem)).map
      fun t => (t.1, { w with poll := upd w.poll k t.2, next := w.next + 1 })
  | .unsubPoll k id => some (true, { w with poll := upd w.poll k (pollDel (w.poll k) id) })
  | .subRpc k cid prio xp mem mk later =>
    (settle (fun t => rpcDel t w.next) later (rpcSubscribe w.alive (w.rpc k) ⟨w.next, cid, prio, false, xp⟩ mem mk)).map
      fun t => (t.1, { w with rpc := upd w.rpc k t.2, next := w.next + 1 })
  | .unsubRpc k id => some (true, { w with rpc := upd w.rpc k (rpcDel (w.rpc k) id) })
  | .subOper k cid m p mem1 mem2 mk later =>
    (settle (fun t => operDel w.next t) later (operAdd w.alive (w.oper k) p w.next cid m mem1 mem2 mk)).map
      fun t => (t.1, { w with oper := upd w.oper k t.2, next := w.next + 1 })
  | .unsubOper k id => some (true, { w with oper := upd w.oper k (operDel id (w.oper k)) })

/-- Worlds reached by histories all of whose calls satisfy `ok`. -/
inductive Reach (ok : Op → Prop) : World → Prop where
  | init : Reach ok init
  | step {w v : World} {op : Op} {r : Bool} : Reach ok w → ok op → step w op = some (r, v) → Reach ok v

def Any (_ : Op) : Prop := True

/-! ## Specification -/

/-- No allocation and no creation of a sub SHM fails. -/
def NoFailure : Op → Prop
  | .subChange _ _ _ _ _ _ mk _ => mk = true
  | .subNotif _ _ _ _ mk _ => mk = true
  | .subRpc _ _ _ _ _ mk _ => mk = true
  | .subOper _ _ _ _ _ mem2 mk _ => mem2 = true ∧ mk = true
  | _ => True

/-- All subscriptions of an operational table, with their paths. -/
def flat (l : List OSub) : List (Path × XSub) := l.flatMap fun o => o.subs.map fun x => (o.path, x)

/-- A path with names only (no predicates). -/
def Plain (p : Path) : Prop := ∀ c ∈ p, c ≠ '\'' ∧ c ≠ '"' ∧ c ≠ '[' ∧ c ≠ ']'

/-- `q` is inside `p`. -/
def Inside (p q : Path) : Prop := ∃ r, q = p ++ '/' :: r

end Verif.SubTables
