import Verif.OperPoll
/-!
Model of stop times of notification subscriptions: shm_sub.c 4777-4810 (`sr_shmsub_notif_listen_module_get_stop_time_in`),
4812-4860 (`sr_shmsub_notif_listen_module_stop_time`); subscr.c 529-612 (`sr_subscr_notif_sub_del`), 1225-1290
(`sr_notif_sub_del`), 1747-1776 (`sr_subscr_notif_del_stop_time`); sysrepo.c 5170-5198 (the notification subscriptions in
`sr_subscription_process_events`). The wait of the listening thread is `waitFor` of `Verif.OperPoll`.

A pointer to an element of the array of modules is its generation and index; the generation changes when the array is
reallocated or freed, access with an old one is `uaf`. While a subscription is removed, the READ lock of the structure is released
and the WRITE lock taken; what other threads do in between is the function `itf`. The clock is read twice for a module, before its
stop times are checked and before the next one is looked for (`clk`). Failed locks and replay (C42) are not modelled.
-/
namespace Verif.StopTime
open Verif.Time

/-- `struct modsub_notifsub_s`; the zero time is no stop time. -/
structure Sub where
  id : Nat
  stop : Ts
deriving DecidableEq

/-- `struct modsub_notif_s`. -/
structure Mod where
  name : String
  subs : List Sub
deriving DecidableEq

/-- `notif_subs` of the subscription structure, the generation of the array, and the subscriptions that got their last
notification, "stop time". -/
structure St where
  mods : List Mod
  gen : Nat
  stopped : List Nat
deriving DecidableEq

/-- Removal from an array: the last element is moved to the place, subscr.c 577-582 and 584-592. -/
def swapRemove (l : List α) (i : Nat) : List α :=
  match l.getLast? with
  | none => []
  | some y => if i + 1 < l.length then (l.set i y).dropLast else l.dropLast

/-- The condition at shm_sub.c 4835. -/
def isDue (p : Sub) (now : Ts) : Bool := !(p.stop.sec == 0 && p.stop.nsec == 0) && decide (tsCmp p.stop now < 1)

/-- `sr_notif_sub_del` after the WRITE lock was taken, subscr.c 1265-1281, with `sr_subscr_notif_sub_del`. The array is freed with
its last module, 594-598. -/
def delSub (s : St) (idx i id : Nat) : St :=
  match s.mods[idx]? with
  | none => s
  | some m =>
    match m.subs[i]? with
    | none => s
    | some p =>
      if p.id ≠ id then s
      else
        let subs := swapRemove m.subs i
        let stopped := s.stopped ++ [id]
        if subs = [] then
          let mods := swapRemove s.mods idx
          ⟨mods, if mods = [] then s.gen + 1 else s.gen, stopped⟩
        else ⟨s.mods.set idx { m with subs := subs }, s.gen, stopped⟩

/-- Outcome of the loop over the subscriptions of a module: done, with whether the module is finished; access to freed memory; out
of fuel (`stop_exact` shows the given fuel suffices). -/
inductive LoopOut where
  | ok (s : St) (fin : Bool)
  | uaf
  | fuel
deriving DecidableEq

/-- `sr_shmsub_notif_listen_module_stop_time`, shm_sub.c 4829-4856; `g` and `idx` are the pointer `notif_subs`. -/
def stopLoop (itf : Nat → St → St) (now : Ts) (idx g : Nat) : Nat → Nat → St → LoopOut
  | 0, _, _ => .fuel
  | f + 1, i, s =>
    if s.gen ≠ g then .uaf
    else
      match s.mods[idx]? with
      | none => .uaf
      | some m =>
        match m.subs[i]? with
        | none => .ok s false
        | some p =>
          if isDue p now then
            let s1 := delSub (itf p.id s) idx i p.id
            if m.subs.length = 1 then .ok s1 true else stopLoop itf now idx g f i s1
          else stopLoop itf now idx g f (i + 1) s

/-- The nearest stop time of a module, shm_sub.c 4788-4796. -/
def nearest (next : Ts) : List Sub → Ts
  | [] => next
  | p :: ps =>
    if p.stop.sec = 0 ∧ p.stop.nsec = 0 then nearest next ps
    else if (next.sec = 0 ∧ next.nsec = 0) ∨ tsCmp p.stop next < 0 then nearest p.stop ps
    else nearest next ps

/-- `sr_shmsub_notif_listen_module_get_stop_time_in`, shm_sub.c 4777-4810; `none` is undefined arithmetic. -/
def stopIn (subs : List Sub) (now : Ts) (wake : Ts) : Option Ts :=
  let next := nearest ⟨0, 0⟩ subs
  if next.sec = 0 ∧ next.nsec = 0 then some wake
  else if tsCmp now next > -1 then some { wake with nsec := 1 }
  else
    match tsSub next now with
    | none => none
    | some t => if (wake.sec = 0 ∧ wake.nsec = 0) ∨ tsCmp wake t > 0 then some t else some wake

/-- Outcome of the loop over the modules. -/
inductive Out where
  | ok (s : St) (wake : Ts)
  | uaf
  | undef
  | fuel
deriving DecidableEq

/-- The notification subscriptions in `sr_subscription_process_events`, sysrepo.c 5170-5198, without replay and the delivery of
notifications. -/
def notifLoop (itf : Nat → St → St) (clk : String → Ts × Ts) (f0 : Nat) : Nat → Nat → St → Ts → Out
  | 0, _, _, _ => .fuel
  | f + 1, i, s, w =>
    match s.mods[i]? with
    | none => .ok s w
    | some m =>
      match stopLoop itf (clk m.name).1 i s.gen f0 0 s with
      | .uaf => .uaf
      | .fuel => .fuel
      | .ok s1 true => notifLoop itf clk f0 f i s1 w
      | .ok s1 false =>
        match s1.mods[i]? with
        | none => .uaf
        | some m1 =>
          match stopIn m1.subs (clk m.name).2 w with
          | none => .undef
          | some w1 => notifLoop itf clk f0 f (i + 1) s1 w1

/-- Another thread subscribes to notifications of a new module, subscr.c 456-459: the array is reallocated. -/
def addModule (m : Mod) (s : St) : St := { s with mods := s.mods ++ [m], gen := s.gen + 1 }

/-! ## Specification -/

/-- The subscriptions with the names of their modules. -/
def all (mods : List Mod) : List (String × Sub) := mods.flatMap (fun m => m.subs.map (fun p => (m.name, p)))

/-- The subscription has a stop time that is not after `now`. -/
def Due (p : Sub) (now : Ts) : Prop := p.stop ≠ ⟨0, 0⟩ ∧ p.stop.ns ≤ now.ns

instance (p : Sub) (now : Ts) : Decidable (Due p now) := by unfold Due; infer_instance

end Verif.StopTime
