/-!
Model of the rotation of notification files (src/executables/srpd_rotation.c): which files of the notification directory
are moved to the archive. Strings are lists of characters without the terminating zero.
-/
namespace Verif.Rotation

abbrev Str := List Char

/-- Characters from the first occurrence of `c` on, `strchr`. -/
def strchr (c : Char) : Str → Option Str
  | [] => none
  | x :: t => if x = c then some (x :: t) else strchr c t

/-- Is it a decimal digit? -/
def isDig (c : Char) : Bool := '0' ≤ c ∧ c ≤ '9'

/-- Value of a digit. -/
def digVal (c : Char) : Nat := c.toNat - 48

/-- Digits of `strtoul(…, 10)` from a given value. -/
def digits (acc : Nat) : Str → Nat × Str
  | [] => (acc, [])
  | c :: t => if isDig c then digits (10 * acc + digVal c) t else (acc, c :: t)

/-- Largest `unsigned long`. -/
def ulongMax : Nat := 18446744073709551615

/-- An optional sign: is it a minus, the rest. -/
def sign : Str → Bool × Str
  | [] => (false, [])
  | c :: t => if c = '-' then (true, t) else if c = '+' then (false, t) else (false, c :: t)

/-- `strtoul(s, &end, 10)`: the value and the rest, `none` if there is no number. Blanks and a sign before the number
are accepted. -/
def strtoul (s : Str) : Option (Nat × Str) :=
  let s1 := s.dropWhile fun c => c = ' ' ∨ c = '\t' ∨ c = '\n' ∨ c = '\x0b' ∨ c = '\x0c' ∨ c = '\r'
  let s2 := sign s1
  match s2.2 with
  | [] => none
  | c :: _ =>
    if isDig c then
      let r := digits 0 s2.2
      if r.1 > ulongMax then some (ulongMax, r.2)
      else some (if s2.1 then (ulongMax + 1 - r.1) % (ulongMax + 1) else r.1, r.2)
    else none

/-- `srpd_format_check` (src/executables/srpd_rotation.c:109-150): both times of a file name. -/
def formatCheck (name : Str) : Option (Nat × Nat) :=
  match strchr '.' name with
  | none => none
  | some x =>
    if (x.drop 1).take 6 ≠ ['n', 'o', 't', 'i', 'f', '.'] then none
    else
      match strchr '.' (x.drop 1) with
      | none => none
      | some y =>
        match strtoul (y.drop 1) with
        | none => none
        | some (t1, _) =>
          match strchr '-' (y.drop 1) with
          | none => none
          | some z =>
            match strtoul (z.drop 1) with
            | none => none
            | some (t2, _) => some (t1, t2)

/-- The test in `srpd_rotation_loop` (src/executables/srpd_rotation.c:187-198): is the file moved, at time `now` with the
configured age? -/
def rotated (now age : Nat) (name : Str) : Bool :=
  if name = ['.'] ∨ name = ['.', '.'] then false
  else
    match formatCheck name with
    | none => false
    | some (_, t2) => now ≥ age ∧ t2 < now - age

/-- `older-than` in seconds (src/executables/srpd_rotation.c:298-330), without overflow. -/
def olderThan (value : Str) : Nat :=
  match strtoul value with
  | none => 0
  | some (n, u) =>
    let c := u.headD '\x00'
    let d := if c = 'Y' then n * 365 else if c = 'M' then n * 30 else if c = 'W' then n * 7 else n
    if c = 's' then d
    else if c = 'm' then d * 60
    else if c = 'h' then d * 60 * 60
    else d * 24 * 60 * 60

/-! ## Specification -/

/-- A number written in decimal digits. -/
def decimal : Str → Nat
  | ds => ds.foldl (fun n c => 10 * n + (c.toNat - '0'.toNat)) 0

/-- Only digits, at least one. -/
def IsNum (ds : Str) : Prop := ds ≠ [] ∧ ∀ c ∈ ds, '0' ≤ c ∧ c ≤ '9'

/-- Name of a notification file (src/plugins/common_json.c, `srpjson_get_notif_path`). -/
def notifFile (mod lo hi : Str) : Str := mod ++ ['.', 'n', 'o', 't', 'i', 'f', '.'] ++ lo ++ ['-'] ++ hi

/-- Seconds of a unit. -/
def unitSeconds : Char → Option Nat
  | 's' => some 1
  | 'm' => some 60
  | 'h' => some 3600
  | 'D' => some 86400
  | 'W' => some 604800
  | 'M' => some 2592000
  | 'Y' => some 31536000
  | _ => none

end Verif.Rotation
