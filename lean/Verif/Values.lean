/-!
# Values of leaves: reading and writing (`sr_val_t`)

`sr_get_item()` returns a leaf as an `sr_val_t` made by `sr_val_ly2sr` (src/common.c 3949-4128);
`sr_set_item()`, `sr_rpc_send()` and `sr_notif_send()` turn an `sr_val_t` into text with
`sr_val_sr2ly_str` (4130-4207) and have libyang parse the text.

Modelled: the conversion of every type of a leaf in both directions; `strtod` and `sprintf("%.*f")`
on doubles, exactly; the buffer of 22 bytes the callers provide (src/sysrepo.c 3428, 6597, 7247); the
lookup of the number of fraction digits in leafrefs and unions.

Simplified: strings are lists of characters. A double is the integer number of units of 2^-1074 it
is made of: every finite double is such a number, NaN, the infinities and the sign of zero are left
out. `strtod` of the canonical text of a decimal64 is taken as the double nearest to the number the
text denotes. libyang's parsing of types with strings inside (string, binary, bits, enumeration,
identityref, instance-identifier) is a parameter. Anydata, lists and containers have no text to
convert and are left out.
-/
namespace Verif.Values

abbrev Str := List Char

/-! ## Doubles -/

/-- Division rounded to the nearest number, halves to the even one: the default rounding of C
    arithmetic, of `strtod` and of `printf`. -/
def roundDiv (a b : Nat) : Nat :=
  if 2 * (a % b) < b then a / b
  else if b < 2 * (a % b) then a / b + 1
  else if a / b % 2 = 0 then a / b else a / b + 1

/-- One in the units doubles are counted in: every finite double is a multiple of 2^-1074. -/
def one : Nat := 2 ^ 1074

/-- The double nearest to `p / q`: 53 binary digits starting at the first one that is set. It is
    what `strtod` returns (src/common.c 3988). Numbers of decimal64 are never denormal or too large
    for a double. -/
def nearest (p q : Nat) : Nat :=
  roundDiv (p * one) (q * 2 ^ (Nat.log2 (p * one / q) - 52)) * 2 ^ (Nat.log2 (p * one / q) - 52)

/-- A finite double, in units of 2^-1074. -/
abbrev Dbl := Int

/-- `strtod` of the text of the decimal64 number `n` with `fd` fraction digits. -/
def strtod (fd : Nat) (n : Int) : Dbl :=
  if n < 0 then - (nearest n.natAbs (10 ^ fd) : Int) else nearest n.natAbs (10 ^ fd)

/-! ## Texts of numbers -/

/-- `r` in exactly `k` decimal digits. -/
def frac : Nat → Nat → Str
  | 0, _ => []
  | k + 1, r => frac k (r / 10) ++ [Nat.digitChar (r % 10)]

/-- The text of `N / 10^fd`. -/
def fixed (fd N : Nat) : Str := Nat.toDigits 10 (N / 10 ^ fd) ++ '.' :: frac fd (N % 10 ^ fd)

/-- `sprintf("%.*f", fd, x)`, src/common.c 4178. -/
def fmtF (fd : Nat) (x : Dbl) : Str :=
  if x < 0 then '-' :: fixed fd (roundDiv (x.natAbs * 10 ^ fd) one)
  else fixed fd (roundDiv (x.natAbs * 10 ^ fd) one)

/-- `sprintf("%" PRId64)` and the others, src/common.c 4180-4203. -/
def fmtInt (v : Int) : Str :=
  if v < 0 then '-' :: Nat.toDigits 10 v.natAbs else Nat.toDigits 10 v.natAbs

/-! ## Types and values of libyang -/

/-- The types with a string inside. -/
inductive SK | binary | bits | enum | ident | inst | string
  deriving DecidableEq, Repr

/-- The integer types. -/
inductive IK | i8 | i16 | i32 | i64 | u8 | u16 | u32 | u64
  deriving DecidableEq, Repr

/-- The type of a leaf. `str k i` is some type of kind `k` (its patterns, enums etc. are told by
    `i`), `int k lo hi` an integer type with a range, `leafref t` a leafref to a leaf of type `t`. -/
inductive Ty
  | str (k : SK) (i : Nat) | bool | empty | int (k : IK) (lo hi : Int) | dec (fd : Nat)
  | leafref (t : Ty) | union (ts : List Ty)

/-- The value of a leaf in libyang (`lyd_value`): a canonical string, a number, or a value of a
    member type of a union. A decimal64 is the number without the decimal point. -/
inductive LyVal
  | str (k : SK) (s : Str) | bool (b : Bool) | empty | int (k : IK) (v : Int) | dec (fd : Nat) (n : Int)
  | union (v : LyVal)
  deriving DecidableEq, Repr

/-- libyang's decisions on types with strings: the canonical form, if the string is accepted. -/
abbrev Lib := SK → Nat → Str → Option Str

/-- The number written in digits. -/
def natOf (s : Str) : Option Nat :=
  if s ≠ [] ∧ s.all Char.isDigit then some (Nat.ofDigitChars 10 s 0) else none

/-- libyang's parsing of an integer. -/
def parseInt : Str → Option Int
  | '-' :: s => (natOf s).map (fun (n : Nat) => - (n : Int))
  | s => (natOf s).map (fun (n : Nat) => (n : Int))

/-- libyang's parsing of a decimal64 without the sign: digits, and perhaps a point and at most `fd`
    digits. -/
def parseDecAbs (fd : Nat) (s : Str) : Option Nat :=
  match s.dropWhile (fun c => c ≠ '.') with
  | [] => (natOf s).map (fun n => n * 10 ^ fd)
  | _ :: f =>
    if f.length ≤ fd then
      match natOf (s.takeWhile (fun c => c ≠ '.')), natOf f with
      | some n, some m => some (n * 10 ^ fd + m * 10 ^ (fd - f.length))
      | _, _ => none
    else none

/-- The sign of a decimal64. -/
def parseSign (fd : Nat) : Str → Option Int
  | '-' :: s => (parseDecAbs fd s).map (fun (n : Nat) => - (n : Int))
  | s => (parseDecAbs fd s).map (fun (n : Nat) => (n : Int))

/-- libyang's parsing of a decimal64: the sign and the range of 64 bits. -/
def parseDec (fd : Nat) (s : Str) : Option Int :=
  match parseSign fd s with
  | some n => if -9223372036854775808 ≤ n ∧ n ≤ 9223372036854775807 then some n else none
  | none => none

mutual
/-- libyang's parsing of the text of a leaf. -/
def parse (L : Lib) : Ty → Str → Option LyVal
  | .str k i, s => (L k i s).map (.str k)
  | .bool, s => if s = "true".toList then some (.bool true) else if s = "false".toList then some (.bool false) else none
  | .empty, s => if s = [] then some .empty else none
  | .int k lo hi, s =>
    match parseInt s with
    | some v => if lo ≤ v ∧ v ≤ hi then some (.int k v) else none
    | none => none
  | .dec fd, s => (parseDec fd s).map (.dec fd)
  | .leafref t, s => parse L t s
  | .union ts, s => (parseFirst L ts s).map .union
/-- The first member type of a union that accepts the text. -/
def parseFirst (L : Lib) : List Ty → Str → Option LyVal
  | [], _ => none
  | t :: ts, s =>
    match parse L t s with
    | some v => some v
    | none => parseFirst L ts s
end

/-! ## The conversions -/

/-- The type and data of an `sr_val_t`, src/sysrepo_types.h 215-267. -/
inductive Val
  | str (k : SK) (s : Str) | bool (b : Bool) | empty | int (k : IK) (v : Int) | dec (x : Dbl)
  deriving DecidableEq, Repr

/-- `sr_val_ly2sr` for a leaf, src/common.c 3965-4058. -/
def ly2sr : LyVal → Val
  | .str k s => .str k s                 -- lines 3972-3981, 3999-4013, 4030-4034
  | .bool b => .bool b                   -- lines 3982-3985
  | .dec fd n => .dec (strtod fd n)      -- lines 3986-3994
  | .empty => .empty                     -- lines 3995-3998
  | .int k v => .int k v                 -- lines 4014-4029, 4035-4050
  | .union v => ly2sr v                  -- lines 4051-4053

/-- What happens in `sr_val_sr2ly_str`. -/
inductive Text
  /-- The text returned, or `NULL`. -/
  | text (s : Option Str)
  /-- The text is written behind the end of the buffer of 22 bytes. -/
  | overflow
  /-- Another structure is read as if it was the structure of a decimal64 type. -/
  | confused
  deriving DecidableEq, Repr

/-- `sprintf` to the buffer of the caller, `char str[22]`. -/
def toBuf (s : Str) : Text := if s.length + 1 ≤ 22 then .text (some s) else .overflow

/-- The decimal64 type looked up by `sr_val_sr2ly_str`: the result is a type, `NULL`, or a type that
    is no decimal64 and is used like one. -/
inductive Found | digits (fd : Nat) | null | other
  deriving DecidableEq, Repr

/-- src/common.c 4165-4174: the first decimal64 in a union. -/
def firstDec : List Ty → Found
  | [] => .null
  | .dec fd :: _ => .digits fd
  | _ :: ts => firstDec ts

/-- The type with the leafref resolved, src/common.c 4162-4164. -/
def deref : Ty → Ty
  | .leafref t => deref t
  | t => t

/-- src/common.c 4157-4177. The realtype of a leafref is never a leafref. -/
def findDec (t : Ty) : Found :=
  match deref t with
  | .dec fd => .digits fd
  | .union ts => firstDec ts
  | _ => .other

/-- `sr_val_sr2ly_str`, src/common.c 4130-4207, for a leaf of type `t`. -/
def sr2lyStr (t : Ty) : Val → Text
  | .str _ s => .text (some s)
  | .empty => .text none
  | .bool b => .text (some (if b then "true".toList else "false".toList))
  | .dec x =>
    match findDec t with
    | .digits fd => toBuf (fmtF fd x)
    | .null => .text none
    | .other => .confused
  | .int _ v => toBuf (fmtInt v)

/-- `sr_set_item()` of a leaf (src/sysrepo.c 3425-3449): the value stored, if any. No text is an
    empty text for libyang. -/
def setItem (L : Lib) (t : Ty) (v : Val) : Option LyVal :=
  match sr2lyStr t v with
  | .text (some s) => parse L t s
  | .text none => parse L t []
  | _ => none

/-! ## Specification -/

/-- The leaf has a value that was parsed by libyang. -/
def Stored (L : Lib) (t : Ty) (v : LyVal) : Prop := ∃ s, parse L t s = some v

/-- libyang accepts canonical strings and does not change them. -/
def Canonical (L : Lib) : Prop := ∀ k i s c, L k i s = some c → L k i c = some c

/-- The type has no union. -/
def NoUnion : Ty → Prop
  | .leafref t => NoUnion t
  | .union _ => False
  | _ => True

/-- Fraction digits are as YANG allows, and integer types within their 64 bits. -/
def Valid : Ty → Prop
  | .dec fd => 1 ≤ fd ∧ fd ≤ 18
  | .int _ lo hi => -9223372036854775808 ≤ lo ∧ hi ≤ 18446744073709551615
  | .leafref t => Valid t
  | _ => True

/-- The canonical text of a value that is no decimal64. -/
def canonical : LyVal → Option Str
  | .str _ s => some s
  | .bool b => some (if b then "true".toList else "false".toList)
  | .empty => some []
  | .int _ v => some (if v < 0 then '-' :: Nat.toDigits 10 v.natAbs else Nat.toDigits 10 v.natAbs)
  | .dec _ _ => none
  | .union v => canonical v

/-- A decimal64 has few enough digits: the number without the point is below 2^52. -/
def Small : LyVal → Prop
  | .dec _ n => n.natAbs < 2 ^ 52
  | .union v => Small v
  | _ => True

/-- The integer is one of the 64-bit types. -/
def Range : LyVal → Prop
  | .int _ v => -9223372036854775808 ≤ v ∧ v ≤ 18446744073709551615
  | .union v => Range v
  | _ => True

end Verif.Values
