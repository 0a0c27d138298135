import Verif.Time
/-!
Model of operational poll subscriptions: shm_sub.c 3840-3890 (`sr_shmsub_oper_poll_listen_find_get_sub`), 3899-3924
(`sr_shmsub_oper_poll_listen_is_cache_valid`), 3926-4114 (`sr_shmsub_oper_poll_listen_process_module_events`), 4887-4960
(`sr_shmsub_listen_thread`); subscr.c 307-382 (`sr_subscr_oper_poll_sub_add`); common.c 2947-2993 (`sr_conn_oper_cache_add`),
2995- (`sr_conn_oper_cache_del`), 3265-3306 (`sr_conn_oper_cache_flush`); modinfo.c 1161-1230
(`sr_module_oper_data_update_cached`); sysrepo.c 5098-5208 (`sr_subscription_process_events`, its poll subscriptions), 7724-7850
(`sr_oper_poll_subscribe`).

One connection with one subscription structure. Data are lists of leaf instances with values, the empty list is the pointer
`NULL`. What comes from outside during one visit of a subscription (`Env`) is arbitrary: whether the data have a provider, what
it answers, whether callbacks fail, what the clock shows. Locks (C01-C06), the merge of the data into the rest of the
operational data and "update" callbacks that change the data are not modelled. Subscription IDs do not wrap around.
-/
namespace Verif.OperPoll
open Verif.Time

/-- Leaf instances and their values. -/
abbrev Data := List (Nat × Nat)

/-- One change of a diff: a value set or a node deleted. -/
abbrev Change := Nat × Option Nat

/-- `struct sr_oper_poll_cache_s`. -/
structure Cache where
  subId : Nat
  module : String
  path : List Char
  data : Data
  ts : Ts
deriving DecidableEq

/-- `struct modsub_operpollsub_s`. -/
structure Sub where
  id : Nat
  path : List Char
  validMs : Nat
  diff : Bool
  suspended : Bool
deriving DecidableEq

/-- Error codes as told apart by the listening thread. -/
inductive Code where
  | timeout
  | other
deriving DecidableEq

/-- What a visit of one subscription meets: a provider of the data that is not suspended, the time when the validity is checked,
the answer of `sr_get_data`, a failed "update" callback, the time of the store, a failure to publish the change. -/
structure Env where
  found : Bool
  now : Ts
  answer : Except Code Data
  updErr : Bool
  stored : Ts
  pubErr : Bool

/-- State of processing: caches of the connection, `wake_up_in` (`none` for a `NULL` pointer), published changes. -/
structure St where
  caches : List Cache
  wake : Option Ts
  events : List (Nat × List Change)

/-- Outcome of processing: success, error, a crash (`NULL` dereference or failed assert), undefined arithmetic. -/
inductive Out where
  | ok (s : St)
  | err (c : Code) (s : St)
  | crash
  | undef

/-- Value of a leaf instance. -/
def get (d : Data) (k : Nat) : Option Nat := (d.find? (·.1 == k)).map (·.2)

/-- `sr_lyd_diff_siblings`: deleted nodes, then created and changed ones. -/
def diff (old new : Data) : List Change :=
  (old.filter (fun x => (get new x.1).isNone)).map (fun x => (x.1, none)) ++
    (new.filter (fun x => get old x.1 ≠ get new x.1)).map (fun x => (x.1, get new x.1))

/-- Update of `wake_up_in`, shm_sub.c 4001-4004 and 4064-4067. -/
def offer (w : Option Ts) (t : Ts) : Option Ts :=
  match w with
  | none => none
  | some w => if w.sec = 0 ∨ tsCmp t w < 0 then some t else some w

/-- `sr_shmsub_oper_poll_listen_is_cache_valid`, shm_sub.c 3899-3924: `some none` is invalid, `some (some t)` valid for `t`,
`none` undefined arithmetic. -/
def cacheValid (c : Cache) (validMs : Nat) (now : Ts) : Option (Option Ts) :=
  if c.ts.sec = 0 then some none
  else
    match tsAdd (some c.ts) validMs with
    | none => none
    | some timeout =>
      if tsCmp timeout now ≤ 0 then some none
      else
        match tsSub timeout now with
        | none => none
        | some r => some (some r)

/-- Look up the cache entry of a subscription, shm_sub.c 3971-3978. -/
def findCache (cs : List Cache) (id : Nat) : Option Cache := cs.find? (·.subId == id)

/-- Data and timestamp stored in the cache entry of a subscription. -/
def setCache (cs : List Cache) (id : Nat) (d : Data) (t : Ts) : List Cache :=
  cs.map (fun c => if c.subId = id then { c with data := d, ts := t } else c)

/-- The visit of one subscription, shm_sub.c 3963-4093. -/
def pollSub (e : Env) (s : St) (p : Sub) : Out :=
  if p.suspended then .ok s
  else
    match findCache s.caches p.id with
    | none => .crash
    | some c =>
      if e.found = false then .ok { s with caches := setCache s.caches p.id [] ⟨0, 0⟩ }
      else
        match cacheValid c p.validMs e.now with
        | none => .undef
        | some (some inv) => .ok { s with wake := offer s.wake inv }
        | some none =>
          match e.answer with
          | .error code => .err code s
          | .ok d =>
            if p.diff ∧ d = [] then .crash
            else
              let ch := if p.diff then diff c.data d else []
              if ch ≠ [] ∧ e.updErr then .err .other s
              else
                match tsAdd none p.validMs with
                | none => .undef
                | some inv =>
                  let s1 : St := ⟨setCache s.caches p.id d e.stored, offer s.wake inv, s.events⟩
                  if ch = [] then .ok s1
                  else if e.pubErr then .err .other s1
                  else .ok { s1 with events := s1.events ++ [(p.id, ch)] }

/-- `sr_shmsub_oper_poll_listen_process_module_events`: the subscriptions one after another, the first failure ends it. -/
def pollSubs (env : Nat → Env) (s : St) : List Sub → Out
  | [] => .ok s
  | p :: ps =>
    match pollSub (env p.id) s p with
    | .ok s1 => pollSubs env s1 ps
    | r => r

/-- The poll subscriptions in `sr_subscription_process_events`, sysrepo.c 5156-5162: module by module. -/
def pollMods (env : Nat → Env) (s : St) : List (String × List Sub) → Out
  | [] => .ok s
  | m :: ms =>
    match pollSubs env s m.2 with
    | .ok s1 => pollMods env s1 ms
    | r => r

/-- What the listening thread does next, shm_sub.c 4903-4950: process the events again, wait for the given milliseconds, wait
without a limit, end. -/
inductive Next where
  | again
  | wait (ms : Nat)
  | forever
  | ended
deriving DecidableEq

/-- The timeout of `poll()`, shm_sub.c 4926-4939; an `int`, `poll()` takes a negative one as no timeout. -/
def waitFor (w : Ts) : Option Next :=
  if w.sec = 0 ∧ w.nsec = 0 then some (.wait 10000)
  else if ¬ fits (w.sec * 1000) then none
  else
    let ms := toInt (toInt (w.sec * 1000) + w.nsec / 1000000)
    some (if ms < 0 then .forever else .wait ms.toNat)

/-- The thread after processing, shm_sub.c 4907-4939; `none` if it crashed. -/
def threadNext : Out → Option Next
  | .ok s => waitFor (s.wake.getD ⟨0, 0⟩)
  | .err .timeout _ => some .again
  | .err .other _ => some .ended
  | _ => none

/-- `sr_module_oper_data_update_cached`, modinfo.c 1161-1230: data of the first cache entry of the module with the path of the
provider or of an ancestor; `none` if there is none and the provider is asked. -/
def readCached (cs : List Cache) (module : String) (path : List Char) : Option Data :=
  (cs.find? (fun c => c.module == module && c.path.isPrefixOf path &&
    ((path.drop c.path.length).isEmpty || (path.drop c.path.length).head? == some '/'))).map (·.data)

/-- Connection and subscription structure between the calls. -/
structure Conn where
  caches : List Cache
  mods : List (String × List Sub)
  events : List (Nat × List Change)

/-- `sr_conn_oper_cache_flush`, common.c 3265-3306, on a switch of the context. -/
def flush (c : Conn) : Conn := { c with caches := c.caches.map (fun x => { x with data := [], ts := ⟨0, 0⟩ }) }

/-- `sr_subscr_oper_poll_sub_add`, subscr.c 323-367. -/
def addSub (mods : List (String × List Sub)) (module : String) (p : Sub) : List (String × List Sub) :=
  if mods.any (·.1 == module) then mods.map (fun m => if m.1 = module then (m.1, m.2 ++ [p]) else m)
  else mods ++ [(module, [p])]

/-- `sr_oper_poll_subscribe`, sysrepo.c 7785-7826: the cache entry and the subscription are added, the first update is that of the
last module of the structure. Failed calls, which remove both again, are not modelled. -/
def subscribe (env : Nat → Env) (c : Conn) (module : String) (p : Sub) : Option Conn :=
  if c.caches.any (·.path == p.path) then none
  else
    let caches := c.caches ++ [⟨p.id, module, p.path, [], ⟨0, 0⟩⟩]
    let mods := addSub c.mods module p
    match mods.getLast? with
    | none => none
    | some m =>
      match pollSubs env ⟨caches, none, c.events⟩ m.2 with
      | .ok s => some ⟨s.caches, mods, s.events⟩
      | _ => none

/-- What happens to the connection: subscribing, a pass of event processing, a switch of the context, suspending or resuming, and
unsubscribing (the order of the remaining subscriptions is not modelled). -/
inductive Op where
  | subscribe (env : Nat → Env) (module : String) (p : Sub)
  | pass (env : Nat → Env)
  | flush
  | suspend (id : Nat) (on : Bool)
  | unsubscribe (id : Nat)

/-- Effect of one operation; a failed pass leaves what it did until then. -/
def step (c : Conn) : Op → Option Conn
  | .subscribe env m p => subscribe env c m p
  | .pass env =>
    match pollMods env ⟨c.caches, some ⟨0, 0⟩, c.events⟩ c.mods with
    | .ok s => some { c with caches := s.caches, events := s.events }
    | .err _ s => some { c with caches := s.caches, events := s.events }
    | _ => none
  | .flush => some (flush c)
  | .suspend id on =>
    some { c with mods := c.mods.map (fun m => (m.1, m.2.map (fun p => if p.id = id then { p with suspended := on } else p))) }
  | .unsubscribe id =>
    some { c with
           caches := c.caches.filter (·.subId != id),
           mods := (c.mods.map (fun m => (m.1, m.2.filter (·.id != id)))).filter (fun m => !m.2.isEmpty) }

/-- A history. -/
def run (c : Conn) : List Op → Option Conn
  | [] => some c
  | o :: os =>
    match step c o with
    | none => none
    | some c1 => run c1 os

/-! ## Specification -/

/-- A subscription that is polled: not suspended and with a provider. -/
def Live (env : Nat → Env) (p : Sub) : Prop := p.suspended = false ∧ (env p.id).found = true

/-- The instant in nanoseconds when data cached at `t` expire. -/
def expiry (t : Ts) (p : Sub) : Int := t.ns + p.validMs * 1000000

/-- What the theorem on wake-up times assumes of a live subscription and its cache, as the visit `e` finds it: a validity of a
second or more and below 49 days, times as clocks return them, not before `start`, no clock set back, and, if the cached data are
still valid, a second or more left. -/
def Slow (start : Int) (e : Env) (p : Sub) (c : Cache) : Prop :=
  1000 ≤ p.validMs ∧ p.validMs + 999 < 2 ^ 32 ∧ Clock e.now ∧ Clock e.stored ∧ Clock c.ts ∧
  start ≤ e.now.ns ∧ start ≤ e.stored.ns ∧ c.ts.ns ≤ e.now.ns ∧
  (c.ts.sec = 0 ∨ expiry c.ts p ≤ e.now.ns ∨ e.now.ns + 1000000000 ≤ expiry c.ts p)

/-- Applying one change to a replica. -/
def applyChange (d : Nat → Option Nat) (c : Change) : Nat → Option Nat := fun k => if k = c.1 then c.2 else d k

/-- What a subscriber to the changes of a polled subtree knows: all published changes of it applied from nothing. -/
def replica (ev : List (Nat × List Change)) (id : Nat) : Nat → Option Nat :=
  ((ev.filter (·.1 == id)).flatMap (·.2)).foldl applyChange (fun _ => none)

/-- Value of a leaf instance of data in a history. -/
def value : Data → Nat → Option Nat
  | [], _ => none
  | x :: xs, k => if x.1 = k then some x.2 else value xs k

/-- The answers of the provider to subscription `id` in an operation. -/
def Answered (id : Nat) (d : Data) : Op → Prop
  | .subscribe env _ _ => (env id).answer = .ok d ∧ (env id).found = true
  | .pass env => (env id).answer = .ok d ∧ (env id).found = true
  | _ => False

end Verif.OperPoll
