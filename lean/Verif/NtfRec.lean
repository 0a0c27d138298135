import Verif.Bytes

/-!
Bytes of a notification file (src/plugins/ntf_json.c:41-166). A record is a `struct timespec` (two 64-bit numbers), a
32-bit length and the notification printed in JSON. A read at the end of the file returns fewer bytes and is still a
success (src/plugins/common_json.c, `srpjson_read`); the rest of the buffer keeps its previous content: zeros for the
time stamp (`memset`), indeterminate values otherwise.
-/
namespace Verif.NtfRec
open Verif.Bytes

/-- A notification with its time stamp. -/
structure Notif where
  sec : Nat
  nsec : Nat
  json : Buf
  deriving Repr, DecidableEq

/-- Bytes of a 64-bit number. -/
def le64 (n : Nat) : Buf := le32 (n % 4294967296) ++ le32 (n / 4294967296)

/-- `srpntf_writev_notif` (src/plugins/ntf_json.c:50-79). -/
def enc (x : Notif) : Buf := le64 x.sec ++ le64 x.nsec ++ le32 (u32 x.json.length) ++ x.json

/-- Value of bytes. -/
def val : Buf → Nat
  | [] => 0
  | b :: t => b + 256 * val t

/-- `srpjson_read` of `n` bytes into a buffer with the content `old`; also the rest of the file. -/
def readN (old : Nat → Nat) (f : Buf) (n : Nat) : Buf × Buf :=
  ((f.take n) ++ (List.range (n - f.length)).map old, f.drop n)

/-- `srpntf_read_ts` (src/plugins/ntf_json.c:89-94). -/
def readTs (f : Buf) : (Nat × Nat) × Buf :=
  let r := readN (fun _ => 0) f 16
  ((val (r.1.take 8), val (r.1.drop 8)), r.2)

/-- `srpntf_read_notif` (src/plugins/ntf_json.c:105-140) without parsing. -/
def readNotif (old : Nat → Nat) (f : Buf) : Buf × Buf :=
  let l := readN old f 4
  readN old l.2 (val l.1)

/-- `srpntf_skip_notif` (src/plugins/ntf_json.c:149-166): `lseek` may go beyond the end. -/
def skipNotif (old : Nat → Nat) (f : Buf) : Buf :=
  let l := readN old f 4
  l.2.drop (val l.1)

/-- Reading of records until a zero time stamp (src/plugins/ntf_json.c:554-565), at most `n`. -/
def readAll (old : Nat → Nat) : Nat → Buf → List Notif
  | 0, _ => []
  | n + 1, f =>
    let t := readTs f
    if t.1.1 = 0 then []
    else
      let j := readNotif old t.2
      ⟨t.1.1, t.1.2, j.1⟩ :: readAll old n j.2

/-- A notification the file format can hold. -/
def Notif.Fits (x : Notif) : Prop :=
  0 < x.sec ∧ x.sec < 2 ^ 64 ∧ x.nsec < 2 ^ 64 ∧ x.json.length < 2 ^ 32

end Verif.NtfRec
