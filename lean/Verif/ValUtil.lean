import Verif.Values
/-!
# Functions on values (`sr_val_t`)

`sr_dup_val()`, `sr_dup_values()`, `sr_val_set_str_data()`, `sr_equal_val()`, `sr_print_val_mem()`,
`sr_val_to_str()` and `sr_val_to_buff()` (src/utils/values.c).

Modelled: strings with the size of their memory, so that writing behind it is an outcome; `NULL`;
the union with the data, which is read as a pointer whatever was stored there before; the growing
buffer printed to.

Simplified: memory never runs out. Integers in the union are the bytes stored, as a number, and
comparing a member of the union compares its low bytes (a little-endian machine). Doubles are finite
(see `Verif.Values`). That copies use memory of their own is by construction.
-/
namespace Verif.ValUtil
open Verif.Values (Str Dbl roundDiv one frac)

/-- An allocated C string: the size of its memory and the characters before the terminating zero. -/
structure Buf where
  cap : Nat
  s : Str
  deriving DecidableEq, Repr

/-- The content of `sr_val_data_t`: a pointer to a string, an integer, or a double. -/
inductive Raw | ptr (p : Option Buf) | word (w : Nat) | dbl (x : Dbl)
  deriving DecidableEq, Repr

/-- `sr_val_type_t`, src/sysrepo_types.h. -/
inductive T
  | unknown | list | container | presence | emptyLeaf | notification
  | binary | bits | bool | dec | enum | ident | inst
  | i8 | i16 | i32 | i64 | string | u8 | u16 | u32 | u64 | anyxml | anydata
  deriving DecidableEq, Repr

/-- `sr_val_t`. -/
structure Val where
  xpath : Option Buf := none
  origin : Option Buf := none
  dflt : Bool := false
  type : T := .unknown
  data : Raw := .ptr none
  deriving DecidableEq, Repr

/-- What a function does. -/
inductive Res (α : Type)
  | ok (a : α)
  /-- `SR_ERR_INVAL_ARG`. -/
  | inval
  /-- A `NULL` or a number is used as the address of a string. -/
  | badPtr
  /-- Memory behind an allocated string is written. -/
  | overflow
  deriving DecidableEq, Repr

def Res.bind {α β : Type} (r : Res α) (f : α → Res β) : Res β :=
  match r with
  | .ok a => f a
  | .inval => .inval
  | .badPtr => .badPtr
  | .overflow => .overflow

/-- `strdup`. -/
def strdup (s : Str) : Buf := ⟨s.length + 1, s⟩

/-- `sr_mem_edit_string`, values.c 160-180: the new string is written over the old one if that is
    not shorter. `strlen` and `strdup` of `NULL` are undefined. -/
def editString (p : Option Buf) (new : Option Str) : Res (Option Buf) :=
  match new with
  | none => .badPtr
  | some n =>
    match p with
    | some b =>
      if n.length ≤ b.s.length then
        if n.length + 1 ≤ b.cap then .ok (some { b with s := n }) else .overflow
      else .ok (some (strdup n))
    | none => .ok (some (strdup n))

/-- The union read as a pointer. All zero bytes are `NULL`. -/
def asPtr : Raw → Res (Option Buf)
  | .ptr p => .ok p
  | .word w => if w = 0 then .ok none else .badPtr
  | .dbl x => if x = 0 then .ok none else .badPtr

/-- The types of `sr_val_str_data_ptr`, values.c 67-92. -/
def T.isStr : T → Bool
  | .binary | .bits | .enum | .ident | .inst | .string => true
  | _ => false

/-- `sr_val_set_str_data`, values.c 231-243. -/
def setStrData (v : Val) (t : T) (s : Option Str) : Res Val :=
  if t.isStr then
    (asPtr v.data).bind (fun p => (editString p s).bind (fun q => .ok { v with type := t, data := .ptr q }))
  else .inval

/-- `sr_val_set_xpath`, values.c 182-186. -/
def setXpath (v : Val) (s : Option Str) : Res Val :=
  (editString v.xpath s).bind (fun q => .ok { v with xpath := q })

/-- The types whose data are copied by assignment, values.c 301-313. -/
def T.isNum : T → Bool
  | .bool | .dec | .i8 | .i16 | .i32 | .i64 | .u8 | .u16 | .u32 | .u64 => true
  | _ => false

/-- `sr_dup_val_data`, values.c 275-320. -/
def dupData (dest src : Val) : Res Val :=
  let dest := { dest with dflt := src.dflt }
  if src.type.isStr then
    (asPtr src.data).bind (fun p => setStrData dest src.type (p.map (·.s)))
  else if src.type.isNum then .ok { dest with data := src.data, type := src.type }
  else .ok { dest with type := src.type }

/-- `sr_dup_val`, values.c 322-346. -/
def dupVal (v : Val) : Res Val :=
  match v.xpath with
  | some b => (setXpath {} (some b.s)).bind (fun d => dupData d v)
  | none => dupData {} v

/-- `sr_dup_values`, values.c 348-378. -/
def dupValues : List Val → Res (List Val)
  | [] => .ok []
  | v :: vs =>
    (setXpath {} (v.xpath.map (·.s))).bind (fun d => (dupData d v).bind (fun d => (dupValues vs).bind (fun ds => .ok (d :: ds))))

/-- `sr_cmp_str`, values.c 380-392: whether it returns 0. -/
def cmpStr (a b : Option Str) : Bool :=
  match a, b with
  | none, none => true
  | some a, some b => a = b
  | _, _ => false

/-- The bits of a numeric member of the union that are compared. -/
def T.width : T → Nat
  | .i8 | .u8 => 8
  | .i16 | .u16 => 16
  | .i32 | .u32 | .bool => 32
  | _ => 64

/-- The data compared by `sr_equal_val`, values.c 405-449. -/
def equalData (t : T) (a b : Raw) : Res Bool :=
  if t.isStr || t = .anyxml || t = .anydata then
    (asPtr a).bind (fun p => (asPtr b).bind (fun q => .ok (cmpStr (p.map (·.s)) (q.map (·.s)))))
  else if t.isNum then
    match a, b with
    | .word x, .word y => .ok (x % 2 ^ t.width = y % 2 ^ t.width)
    | .dbl x, .dbl y => .ok (x = y)
    | _, _ => .badPtr
  else .ok true

/-- `sr_equal_val`, values.c 394-452. -/
def equalVal (a b : Val) : Res Bool :=
  if a.type ≠ b.type ∨ cmpStr (a.origin.map (·.s)) (b.origin.map (·.s)) = false ∨
      cmpStr (a.xpath.map (·.s)) (b.xpath.map (·.s)) = false ∨ a.dflt ≠ b.dflt then .ok false
  else equalData a.type a.data b.data

/-! ## Printing -/

/-- The memory of `sr_print_ctx_t`, values.c 48-62: the size allocated, the length printed and the
    characters. -/
structure Mem where
  size : Nat := 0
  len : Nat := 0
  s : Str := []
  deriving DecidableEq, Repr

/-- `sr_print` to memory, values.c 477-507: the buffer grows to twice its size or to what is needed. -/
def print (m : Mem) (piece : Str) : Res Mem :=
  let size := if m.size < m.len + piece.length + 1 then max (2 * m.size) (m.len + piece.length + 1) else m.size
  if m.len + piece.length + 1 ≤ size then .ok ⟨size, m.len + piece.length, m.s.take m.len ++ piece⟩ else .overflow

/-- Several calls of `sr_print`. -/
def printAll (m : Mem) : List Str → Res Mem
  | [] => .ok m
  | p :: ps => (print m p).bind (fun m => printAll m ps)

/-! ## Texts of values -/

/-- A number of at most six significant digits, `m / 10^5 * 10^e`: the digits are rounded first.
    Used by `%g`. The number is `p / q`, not zero, between `10^e` and `10^(e+1)`. -/
def sixDigits (p q : Nat) (e : Int) : Nat × Int :=
  let m := if e ≤ 5 then roundDiv (p * 10 ^ (5 - e).toNat) q else roundDiv p (q * 10 ^ (e - 5).toNat)
  if m = 1000000 then (100000, e + 1) else (m, e)

/-- The largest `e` with `10^e ≤ p / q`, searched downwards. -/
def expo (p q : Nat) : Nat → Int → Int
  | 0, e => e
  | fuel + 1, e =>
    if (if 0 ≤ e then q * 10 ^ e.toNat ≤ p else q ≤ p * 10 ^ (-e).toNat) then e else expo p q fuel (e - 1)

/-- Zeros at the end are left out by `%g`, and then a point at the end. -/
def stripZeros (s : Str) : Str :=
  let t := (s.reverse.dropWhile (· = '0'))
  (match t with | '.' :: t => t | t => t).reverse

/-- `printf("%g")`. -/
def fmtG (x : Dbl) : Str :=
  let p := x.natAbs
  let body :=
    if p = 0 then ['0']
    else
      let (m, e) := sixDigits p one (expo p one 700 320)
      if -4 ≤ e ∧ e < 6 then
        -- %f with 5 - e digits behind the point
        let fd := (5 - e).toNat
        if fd = 0 then Nat.toDigits 10 m
        else stripZeros (Nat.toDigits 10 (m / 10 ^ fd) ++ '.' :: frac fd (m % 10 ^ fd))
      else
        stripZeros (Nat.toDigits 10 (m / 100000) ++ '.' :: frac 5 (m % 100000)) ++
          'e' :: (if e < 0 then '-' else '+') :: (if e.natAbs < 10 then ['0'] else []) ++ Nat.toDigits 10 e.natAbs
  if x < 0 then '-' :: body else body

/-- The member of the union as a signed number. -/
def signed (w bits : Nat) : Int :=
  if w % 2 ^ bits < 2 ^ (bits - 1) then (w % 2 ^ bits : Nat) else (w % 2 ^ bits : Nat) - (2 ^ bits : Nat)

/-- The text of the data, or `NULL`: `sr_val_to_str`, values.c 706-825. -/
def toStr (v : Val) : Res (Option Str) :=
  match v.type with
  | .binary | .bits | .enum | .ident | .inst | .string | .anyxml | .anydata => (asPtr v.data).bind (fun p => .ok (p.map (·.s)))
  | .list | .container | .presence | .emptyLeaf => .ok (some [])
  | .unknown | .notification => .ok none
  | .bool => match v.data with
    | .word w => .ok (some (if w % 2 ^ 32 ≠ 0 then "true".toList else "false".toList)) | _ => .badPtr
  | .dec => match v.data with | .dbl x => .ok (some (fmtG x)) | _ => .badPtr
  | .i8 => match v.data with | .word w => .ok (some (Values.fmtInt (signed w 8))) | _ => .badPtr
  | .i16 => match v.data with | .word w => .ok (some (Values.fmtInt (signed w 16))) | _ => .badPtr
  | .i32 => match v.data with | .word w => .ok (some (Values.fmtInt (signed w 32))) | _ => .badPtr
  | .i64 => match v.data with | .word w => .ok (some (Values.fmtInt (signed w 64))) | _ => .badPtr
  | .u8 => match v.data with | .word w => .ok (some (Nat.toDigits 10 (w % 2 ^ 8))) | _ => .badPtr
  | .u16 => match v.data with | .word w => .ok (some (Nat.toDigits 10 (w % 2 ^ 16))) | _ => .badPtr
  | .u32 => match v.data with | .word w => .ok (some (Nat.toDigits 10 (w % 2 ^ 32))) | _ => .badPtr
  | .u64 => match v.data with | .word w => .ok (some (Nat.toDigits 10 (w % 2 ^ 64))) | _ => .badPtr

/-- `snprintf(buffer, size, "%s", s)`: what the buffer begins with (`none`: not written). -/
def snprintf (size : Nat) (s : Str) : Option Str := if size = 0 then none else some (s.take (size - 1))

/-- `sr_val_to_buff`, values.c 827-918: the string in the buffer, if it is written, and the number
    returned. It has the same cases as `sr_val_to_str`. -/
def toBuff (v : Val) (size : Nat) : Res (Option Str × Nat) :=
  (toStr v).bind (fun t =>
    match t with
    | some s => .ok (snprintf size s, s.length)
    | none => .ok (none, 0))

/-- `printf("%s")`, `NULL` is printed by the C library. -/
def percentS (p : Option Str) : Str := p.getD "(null)".toList

/-- What `sr_print_val_ctx` prints, piece by piece, values.c 516-608. -/
def pieces (v : Val) : Res (List Str) :=
  let head := percentS (v.xpath.map (·.s)) ++ [' ']
  let tail : Str := match v.type with
    | .unknown | .container | .presence | .list | .emptyLeaf => ['\n']
    | _ => (if v.dflt then " [default]".toList else []) ++ ['\n']
  match v.type with
  | .container | .presence => .ok [head, "(container)".toList, tail]
  | .list => .ok [head, "(list instance)".toList, tail]
  | .emptyLeaf => .ok [head, "(empty leaf)".toList, tail]
  | .unknown | .notification | .anyxml | .anydata => .ok [head, "(unprintable)".toList, tail]
  | _ => (toStr v).bind (fun s => .ok [head, "= ".toList ++ percentS s, tail])

/-- `sr_print_val_mem`, values.c 643-661. -/
def printVal (v : Val) : Res Str := (pieces v).bind (fun ps => (printAll {} ps).bind (fun m => .ok m.s))

/-! ## Specification -/

/-- A string in memory of sufficient size. -/
def BufOk (p : Option Buf) : Prop := ∀ b, p = some b → b.s.length + 1 ≤ b.cap

/-- The data belong to the type: values of string types have a string, values of numeric types a
    number. -/
def DataOk (t : T) (d : Raw) : Prop :=
  match t with
  | .binary | .bits | .enum | .ident | .inst | .string => ∃ b, d = .ptr (some b) ∧ BufOk (some b)
  | .anyxml | .anydata => ∃ p, d = .ptr p ∧ BufOk p
  | .dec => ∃ x, d = .dbl x
  | .bool | .i8 | .i16 | .i32 | .i64 | .u8 | .u16 | .u32 | .u64 => ∃ w, d = .word w
  | _ => True

/-- A value as sysrepo makes them and documents them. -/
def Ok (v : Val) : Prop := BufOk v.xpath ∧ BufOk v.origin ∧ DataOk v.type v.data

/-- What a value means to a user: texts, and numbers of the width of their type. -/
inductive Meaning | text (s : Option Str) | num (n : Nat) | dbl (x : Dbl) | nothing
  deriving DecidableEq, Repr

def meaning (t : T) (d : Raw) : Meaning :=
  match t, d with
  | .binary, .ptr p | .bits, .ptr p | .enum, .ptr p | .ident, .ptr p | .inst, .ptr p | .string, .ptr p
  | .anyxml, .ptr p | .anydata, .ptr p => .text (p.map (·.s))
  | .dec, .dbl x => .dbl x
  | .i8, .word w | .u8, .word w => .num (w % 256)
  | .i16, .word w | .u16, .word w => .num (w % 65536)
  | .i32, .word w | .u32, .word w | .bool, .word w => .num (w % 4294967296)
  | .i64, .word w | .u64, .word w => .num (w % 18446744073709551616)
  | _, _ => .nothing

/-- All a user can see of a value. -/
def view (v : Val) : Option Str × Option Str × Bool × T × Meaning :=
  (v.xpath.map (·.s), v.origin.map (·.s), v.dflt, v.type, meaning v.type v.data)

end Verif.ValUtil
