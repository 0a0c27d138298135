/-!
# Notifying the subscribers of a change

Model of publishing the change, abort and done events of one change operation to the subscribers of all the
changed modules.

Code modelled (/repo/src/shm_sub.c):
* 863–889 `sr_shmsub_change_listen_event_is_valid`
* 949–997 `sr_shmsub_change_notify_has_subscription`
* 1014–1077 `sr_shmsub_change_notify_next_subscription`
* 1523–1558 `sr_shmsub_change_notify_nsubs_set_mod_prio`
* 1560–1758 `sr_shmsub_change_notify_change`
* 1760–1939 `sr_shmsub_change_notify_change_done`
* 1941–2183 `sr_shmsub_change_notify_change_abort`
* sysrepo.c 4086–4124 of `sr_changes_notify_store`: change, then abort or store and done

Simplifications:
* how the subscribers of one event process it concurrently is the model `Listener`; here every subscriber has
  one `Reply` and the callbacks of one round are listed in the order of the table of subscriptions;
* the subscriptions do not change (the CHANGE SUB READ lock is held) but connections may die and
  subscriptions be suspended or resumed at any time: every scan of a table has its own `view`; a filter that
  does not match is in `view` as well;
* `mods` are the modules with some changes; allocation, mapping, printing and event pipes do not fail;
* a subscriber that accepted a change in time processes the done and abort events in time.
-/

namespace Verif.ChangeNotify

/-- 32-bit arithmetic. -/
def W : Nat := 4294967296

structure Sub where
  id : Nat
  prio : Nat
  /-- `SR_SUBSCR_DONE_ONLY` -/
  doneOnly : Bool
deriving DecidableEq, Repr

structure Mod where
  id : Nat
  /-- priority of the module in the datastore, `sr_set_module_ds_priority` -/
  prio : Nat
  subs : List Sub
deriving DecidableEq, Repr

inductive Ev where
  | change
  | done
  | abort
deriving DecidableEq, Repr

/-- What a subscriber does with the change event. -/
inductive Reply where
  /-- accepts in time -/
  | ok
  /-- refuses -/
  | refuse
  /-- accepts after the event is over (timeout or failure of another); then it generates the abort event
  itself, 3373–3399 -/
  | late
  /-- not called before the event is over -/
  | silent
deriving DecidableEq, Repr

structure Env where
  /-- in scan number `k`: the connection is alive, the subscription is not suspended and not filtered out -/
  view : Nat → Nat → Bool
  reply : Nat → Reply

/-- 863–889 `sr_shmsub_change_listen_event_is_valid` -/
def evValid (ev : Ev) (s : Sub) : Bool :=
  match ev with
  | .change => !s.doneOnly
  | .abort => !s.doneOnly
  | .done => true

/-- 970–990: the highest priority of a valid subscription. -/
def scanMax (ok : Sub → Bool) : List Sub → Option Nat → Option Nat
  | [], acc => acc
  | s :: r, acc =>
    if ok s then
      scanMax ok r (some (match acc with | none => s.prio | some m => if s.prio > m then s.prio else m))
    else scanMax ok r acc

/-- 1031–1066: the highest priority lower than `last` and the subscriptions that have it. -/
def scanNext (ok : Sub → Bool) (last : Nat) : List Sub → Option (Nat × List Sub) → Option (Nat × List Sub)
  | [], acc => acc
  | s :: r, acc =>
    if ok s && decide (last > s.prio) then
      scanNext ok last r (match acc with
        | none => some (s.prio, [s])
        | some (p, l) => if p < s.prio then some (s.prio, [s]) else if s.prio = p then some (p, l ++ [s]) else some (p, l))
    else scanNext ok last r acc

/-- The test of one subscription in both scans. -/
def subOk (e : Env) (k : Nat) (ev : Ev) (s : Sub) : Bool := e.view k s.id && evValid ev s

def hasSub (e : Env) (k : Nat) (ev : Ev) (subs : List Sub) : Option Nat := scanMax (subOk e k ev) subs none
def next (e : Env) (k : Nat) (ev : Ev) (last : Nat) (subs : List Sub) : Option (Nat × List Sub) :=
  scanNext (subOk e k ev) last subs none

/-- `struct sr_shmsub_many_info_change_s`: module, consolidated module priority and current priority. -/
structure NSub where
  mod : Mod
  level : Nat
  cur : Nat
deriving DecidableEq, Repr

/-- 1535–1544: the lowest priority that is at least `cur`. -/
def minFrom (cur : Nat) : List Nat → Nat → Nat
  | [], m => m
  | p :: r, m => if p < cur then minFrom cur r m else if p < m then minFrom cur r p else minFrom cur r m

/-- 1546–1552 -/
def assign (m cur : Nat) (l : List Nat) : List Nat := l.map (fun p => if p = m then cur else p)

/-- 1534–1555; `left` is `nsubs_left`. Out of fuel: `none`. -/
def consolidate : Nat → Nat → List Nat → Nat → Option (List Nat × Nat)
  | 0, _, _, _ => none
  | fuel + 1, cur, l, left =>
    let m := minFrom cur l (W - 1)
    let left' := left - l.count m
    if left' = 0 then some (assign m cur l, cur) else consolidate fuel (cur + 1) (assign m cur l) left'

/-- 1523–1558 `sr_shmsub_change_notify_nsubs_set_mod_prio` -/
def setLevels (ns : List NSub) : Option (List NSub × Nat) :=
  match consolidate (ns.length + 1) 0 (ns.map (·.mod.prio)) ns.length with
  | none => none
  | some (l, m) => some (List.zipWith (fun n p => { n with level := p }) ns l, m)

/-- 1574–1607 and 1774–1796: the modules with a subscription for the event. -/
def collect (e : Env) (ev : Ev) : Nat → List Mod → Nat × List NSub
  | k, [] => (k, [])
  | k, m :: r =>
    match hasSub e k ev m.subs with
    | none => collect e ev (k + 1) r
    | some p => ((collect e ev (k + 1) r).1, ⟨m, 0, (p + 1) % W⟩ :: (collect e ev (k + 1) r).2)

/-- 1956–1985: the same for abort events, which looks for subscriptions for change events first. -/
def collectAbort (e : Env) : Nat → List Mod → Nat × List NSub
  | k, [] => (k, [])
  | k, m :: r =>
    match hasSub e k .change m.subs with
    | none => collectAbort e (k + 1) r
    | some _ =>
      ((collectAbort e (k + 2) r).1, ⟨m, 0, ((hasSub e (k + 1) .abort m.subs).getD 0 + 1) % W⟩ :: (collectAbort e (k + 2) r).2)

/-- The subscriptions with an event pending in a round. -/
structure Pend where
  nsub : NSub
  subs : List Sub
deriving DecidableEq, Repr

/-- 1617–1688 and 1806–1870: one round over all the modules of this priority. -/
def roundScan (e : Env) (ev : Ev) (level : Nat) : Nat → List NSub → Nat × List NSub × List Pend
  | k, [] => (k, [], [])
  | k, n :: r =>
    if n.level ≠ level then
      let x := roundScan e ev level k r
      (x.1, n :: x.2.1, x.2.2)
    else
      let x := roundScan e ev level (k + 1) r
      match next e k ev n.cur n.mod.subs with
      | none => (x.1, n :: x.2.1, x.2.2)
      | some (p, ss) => (x.1, { n with cur := p } :: x.2.1, ⟨{ n with cur := p }, ss⟩ :: x.2.2)

/-- A callback call: module and subscription. -/
structure Item where
  mod : Mod
  sub : Sub
deriving DecidableEq, Repr

/-- The subscribers called with the change event. -/
def calls (e : Env) (p : Pend) : List Item := (p.subs.filter (fun s => e.reply s.id != .silent)).map (fun s => ⟨p.nsub.mod, s⟩)

/-- Subscribers that have not reported success (`subscriber_count` left in the sub SHM). -/
def badCount (e : Env) (p : Pend) : Nat := p.subs.countP (fun s => e.reply s.id != .ok)

/-- Module, priority and subscriber count left in its sub SHM with `SR_SUB_EV_ERROR`. -/
structure Err where
  mod : Nat
  prio : Nat
  count : Nat
deriving DecidableEq, Repr

/-- 2009–2013: what a failed round leaves. -/
def errsOf (e : Env) (ps : List Pend) : List Err :=
  (ps.filter (fun p => badCount e p != 0)).map (fun p => ⟨p.nsub.mod.id, p.nsub.cur, badCount e p⟩)

/-- 1615–1730: the loop of the change event. Result: number of scans, callbacks called, what failed. -/
def changeLoop (e : Env) : Nat → Nat → Nat → List NSub → List Item → Option (Nat × List Item × List Err)
  | 0, _, _, _, _ => none
  | fuel + 1, k, level, ns, tr =>
    let x := roundScan e .change level k ns
    if x.2.2 = [] then
      if level = 0 then some (x.1, tr, []) else changeLoop e fuel x.1 (level - 1) x.2.1 tr
    else
      let tr' := tr ++ x.2.2.flatMap (calls e)
      if errsOf e x.2.2 = [] then changeLoop e fuel x.1 level x.2.1 tr'
      else some (x.1, tr', errsOf e x.2.2)

/-- 1804–1912: the loop of the done event. -/
def doneLoop (e : Env) : Nat → Nat → Nat → List NSub → List Item → Option (Nat × List Item)
  | 0, _, _, _, _ => none
  | fuel + 1, k, level, ns, tr =>
    let x := roundScan e .done level k ns
    if x.2.2 = [] then
      if level = 0 then some (x.1, tr) else doneLoop e fuel x.1 (level - 1) x.2.1 tr
    else doneLoop e fuel x.1 level x.2.1 (tr ++ x.2.2.flatMap (fun p => p.subs.map (fun s => ⟨p.nsub.mod, s⟩)))

/-- 2061–2072: whether the failed priority of the module was reached, and the number of subscribers. -/
def abortCount (errs : List Err) (m cur cnt : Nat) : Bool × Nat :=
  match errs.find? (fun x => x.mod == m) with
  | none => (false, cnt)
  | some x => if x.prio = cur then (true, if cnt = 0 then 0 else (cnt + W - x.count) % W) else (false, cnt)

/-- 2045–2130: one round of the abort event; also whether `last_priority` is set. -/
def abortScan (e : Env) (errs : List Err) (level : Nat) : Nat → List NSub → Nat × List NSub × List Pend × Bool
  | k, [] => (k, [], [], false)
  | k, n :: r =>
    if n.level ≠ level then
      let x := abortScan e errs level k r
      (x.1, n :: x.2.1, x.2.2.1, x.2.2.2)
    else
      let x := abortScan e errs level (k + 1) r
      match next e k .abort n.cur n.mod.subs with
      | none => (x.1, n :: x.2.1, x.2.2.1, (abortCount errs n.mod.id n.cur 0).1 || x.2.2.2)
      | some (p, ss) =>
        (x.1, { n with cur := p } :: x.2.1,
          if (abortCount errs n.mod.id p ss.length).2 = 0 then x.2.2.1 else ⟨{ n with cur := p }, ss⟩ :: x.2.2.1,
          (abortCount errs n.mod.id p ss.length).1 || x.2.2.2)

/-- A subscriber processes the abort event if it processed the change event successfully (3162–3165). -/
def takesAbort (e : Env) (chg : List Item) (p : Pend) : List Item :=
  (p.subs.map (fun s => (⟨p.nsub.mod, s⟩ : Item))).filter (fun i => chg.contains i && e.reply i.sub.id == .ok)

/-- 2043–2160: the loop of the abort event. -/
def abortLoop (e : Env) (errs : List Err) (chg : List Item) : Nat → Nat → Nat → List NSub → List Item → Option (List Item)
  | 0, _, _, _, _ => none
  | fuel + 1, k, level, ns, tr =>
    let x := abortScan e errs level k ns
    if x.2.2.1 = [] then
      if level = 0 then some tr
      else if x.2.2.2 then some tr else abortLoop e errs chg fuel x.1 (level - 1) x.2.1 tr
    else
      let tr' := tr ++ x.2.2.1.flatMap (takesAbort e chg)
      if x.2.2.2 then some tr' else abortLoop e errs chg fuel x.1 level x.2.1 tr'

/-- Enough rounds. -/
def fuelFor (ns : List NSub) (level : Nat) : Nat := (ns.map (fun n => n.mod.subs.length)).sum + level + 1

/-- 1560–1758 `sr_shmsub_change_notify_change` -/
def changePhase (e : Env) (k : Nat) (mods : List Mod) : Option (Nat × List Item × List Err) :=
  let c := collect e .change k mods
  if c.2 = [] then some (c.1, [], [])
  else
    match setLevels c.2 with
    | none => none
    | some (ns, level) => changeLoop e (fuelFor ns level) c.1 level ns []

/-- 1760–1939 `sr_shmsub_change_notify_change_done` -/
def donePhase (e : Env) (k : Nat) (mods : List Mod) : Option (List Item) :=
  let c := collect e .done k mods
  if c.2 = [] then some []
  else
    match setLevels c.2 with
    | none => none
    | some (ns, level) => (doneLoop e (fuelFor ns level) c.1 level ns []).map (·.2)

/-- 1941–2183 `sr_shmsub_change_notify_change_abort` -/
def abortPhase (e : Env) (k : Nat) (mods : List Mod) (chg : List Item) (errs : List Err) : Option (List Item) :=
  let c := collectAbort e k mods
  if c.2 = [] then some []
  else
    match setLevels c.2 with
    | none => none
    | some (ns, level) => abortLoop e errs chg (fuelFor ns level) c.1 level ns []

/-- How the operation ends. -/
inductive Res where
  /-- refused by a subscriber (or timeout) -/
  | refused
  /-- the data could not be stored -/
  | storeError
  | stored
deriving DecidableEq, Repr

structure Out where
  res : Res
  /-- callbacks called with the change, abort and done event, in order -/
  chg : List Item
  abt : List Item
  done : List Item
deriving DecidableEq, Repr

/-- sysrepo.c 4086–4124; `storeOk`: upgrading the locks and storing succeeds. -/
def apply (e : Env) (mods : List Mod) (storeOk : Bool) : Option Out :=
  match changePhase e 0 mods with
  | none => none
  | some (k, chg, errs) =>
    if errs ≠ [] then
      match abortPhase e k mods chg errs with
      | none => none
      | some a => some ⟨.refused, chg, a ++ chg.filter (fun i => e.reply i.sub.id == .late), []⟩
    else if !storeOk then some ⟨.storeError, chg, [], []⟩
    else
      match donePhase e k mods with
      | none => none
      | some d => some ⟨.stored, chg, [], d⟩

end Verif.ChangeNotify
