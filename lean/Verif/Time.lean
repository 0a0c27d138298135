/-!
Model of the time arithmetic: common.c 1365-1386 (`sr_time_ts_add`), 1387-1405 (`sr_time_cmp`), 1407-1429 (`sr_time_sub`),
1431-1441 (`sr_time_sub_ms`); of the anchor time of periodic YANG push subscriptions, utils/sn_yang_push.c 117-155
(`srsn_yp_schedule_periodic_update`), and of their dampening, 203-238.

`time_t` and `long` have 64 bits, `int` 32. Signed overflow, undefined in C, is `none`.
-/
namespace Verif.Time

/-- `struct timespec`. -/
structure Ts where
  sec : Int
  nsec : Int
deriving DecidableEq

/-- A value of a 64-bit signed type. -/
def fits (x : Int) : Prop := -2 ^ 63 ≤ x ∧ x < 2 ^ 63

instance (x : Int) : Decidable (fits x) := by unfold fits; infer_instance

/-- `sr_time_ts_add`, common.c 1365-1386; `addMs` is a `uint32_t`, the sum with the milliseconds of `ts` wraps around. -/
def tsAdd (ts : Option Ts) (addMs : Nat) : Option Ts :=
  let ret := ts.getD ⟨0, 0⟩
  if addMs = 0 then some ret
  else
    let ms := if ret.nsec ≠ 0 then (addMs + (ret.nsec / 1000000).toNat) % 2 ^ 32 else addMs
    let ns := if ret.nsec ≠ 0 then ret.nsec % 1000000 else ret.nsec
    if fits (ret.sec + (ms / 1000 : Nat)) then
      some ⟨ret.sec + (ms / 1000 : Nat), ns + ((ms % 1000) * 1000000 : Nat)⟩
    else none

/-- `sr_time_cmp`, common.c 1387-1405. -/
def tsCmp (a b : Ts) : Int :=
  if a.sec > b.sec then 1 else if a.sec < b.sec then -1
  else if a.nsec > b.nsec then 1 else if a.nsec < b.nsec then -1 else 0

/-- `sr_time_sub`, common.c 1407-1429. -/
def tsSub (a b : Ts) : Option Ts :=
  if a.sec < b.sec ∨ (a.sec = b.sec ∧ a.nsec < b.nsec) then some ⟨0, -1⟩
  else if ¬ fits (a.sec - b.sec) then none
  else if a.nsec < b.nsec then some ⟨a.sec - b.sec - 1, a.nsec + 1000000000 - b.nsec⟩
  else some ⟨a.sec - b.sec, a.nsec - b.nsec⟩

/-- Conversion of a `long` to an `int`. -/
def toInt (x : Int) : Int := (x + 2 ^ 31) % 2 ^ 32 - 2 ^ 31

/-- `sr_time_sub_ms`, common.c 1431-1441. -/
def tsSubMs (a b : Ts) : Option Int :=
  match tsSub a b with
  | none => none
  | some r =>
    if r.sec = 0 ∧ r.nsec = -1 then some (-1)
    else if ¬ fits (r.sec * 1000) then none
    else some (toInt (r.sec * 1000 + r.nsec / 1000000))

/-- The first update of a periodic subscription, utils/sn_yang_push.c 124-135; `now` is the current time. For a positive
`anchor_ms` the remainder is that of unsigned numbers. -/
def firstUpdate (now : Ts) (anchor : Option Ts) (periodMs : Nat) : Option Ts :=
  match anchor with
  | none => some now
  | some a =>
    match tsSubMs now a with
    | none => none
    | some ms => tsAdd (some now) (ms.natAbs % periodMs)

/-- Whether a change may be sent now, utils/sn_yang_push.c 203-238 (no timer is set). -/
def dampReady (last : Ts) (dampMs : Nat) (now : Ts) : Option Bool :=
  if dampMs = 0 then some true
  else
    match tsAdd (some last) dampMs with
    | none => none
    | some next =>
      match tsSubMs next now with
      | none => none
      | some ms => some (ms ≤ 0)

/-! ## Specification -/

/-- Nanoseconds since the epoch. -/
def Ts.ns (t : Ts) : Int := t.sec * 1000000000 + t.nsec

/-- Nanoseconds are below a second. -/
def Normal (t : Ts) : Prop := 0 ≤ t.nsec ∧ t.nsec < 1000000000

/-- Any normal time since 1970. -/
def Wide (t : Ts) : Prop := Normal t ∧ 0 ≤ t.sec ∧ t.sec < 2 ^ 63

/-- A time between 1970 and year 146 billion, as the clock returns it. -/
def Clock (t : Ts) : Prop := Normal t ∧ 0 ≤ t.sec ∧ t.sec < 2 ^ 62

end Verif.Time
