/-!
Model of the notification plugin that keeps notifications in files (src/plugins/ntf_json.c).

A file is `<module>.notif.<lo>-<hi>` in the notification directory; `lo` and `hi` are the seconds of the earliest
and the latest notification in it. A record is a time stamp, a length and the notification in JSON
(src/plugins/ntf_json.c:50-79); here it is the time stamp, the length and an identity of the content. Writing and
reading of the bytes of a record is in `Verif.Writev`, system calls on the directory do not fail here.
-/
namespace Verif.NtfJson

/-- `struct timespec`. -/
structure Ts where
  sec : Nat
  nsec : Nat
  deriving Repr, DecidableEq

/-- `srpjson_time_cmp` (src/plugins/common_json.c:579-596). -/
def timeCmp (a b : Ts) : Int :=
  if a.sec > b.sec then 1
  else if a.sec < b.sec then -1
  else if a.nsec > b.nsec then 1
  else if a.nsec < b.nsec then -1
  else 0

/-- A stored notification. -/
structure Rec where
  ts : Ts
  len : Nat
  id : Nat
  deriving Repr, DecidableEq

/-- A notification file. -/
structure File where
  lo : Nat
  hi : Nat
  recs : List Rec
  ino : Nat
  deriving Repr, DecidableEq

/-- The notification directory: files of the module in the order `readdir` gives them, number of the next new file
(its inode). -/
structure Dir where
  files : List File
  next : Nat
  deriving Repr, DecidableEq

/-- One iteration of the loop in `srpntf_find_file` (src/plugins/ntf_json.c:272-307). -/
def findStep (fr to : Nat) (cur : Nat × Nat) (f : File) : Nat × Nat :=
  if f.lo > f.hi then cur
  else if fr ≠ 0 ∧ to ≠ 0 then
    if fr > f.lo ∨ to > f.hi ∨ (fr = f.lo ∧ to = f.hi) then cur
    else if (cur.1 ≠ 0 ∧ f.lo ≥ cur.1) ∧ (cur.2 ≠ 0 ∧ f.hi ≥ cur.2) then cur
    else (f.lo, f.hi)
  else if fr ≠ 0 then
    if fr > f.hi then cur
    else if (cur.1 ≠ 0 ∧ f.lo ≥ cur.1) ∧ (cur.2 ≠ 0 ∧ f.hi ≥ cur.2) then cur
    else (f.lo, f.hi)
  else if (cur.1 ≠ 0 ∧ f.lo ≤ cur.1) ∧ (cur.2 ≠ 0 ∧ f.hi ≤ cur.2) then cur
  else (f.lo, f.hi)

/-- `srpntf_find_file` (src/plugins/ntf_json.c:220-317): found names, zeros if there is no such file. Names that
are not two numbers are skipped there and are not in the model. -/
def findFile (fs : List File) (fr to : Nat) : Nat × Nat := fs.foldl (findStep fr to) (0, 0)

/-- Opening a file by its name (src/plugins/ntf_json.c:179-204). -/
def byName (fs : List File) (lo hi : Nat) : Option File := fs.find? fun f => f.lo = lo ∧ f.hi = hi

/-- `SRPJSON_NOTIF_FILE_MAX_SIZE * 1024` (src/plugins/common_json.h:39, src/plugins/ntf_json.c:446). -/
def maxSize : Nat := 1048576

/-- Size of a record: `sizeof(struct timespec)`, `sizeof(uint32_t)` and the notification. -/
def recSize (r : Rec) : Nat := 16 + 4 + r.len

/-- `st.st_size`. -/
def fileSize (f : File) : Nat := (f.recs.map recSize).sum

/-- Write at the end of a file and change its name (src/plugins/ntf_json.c:448-455, 329-365): the name is kept
if the time stamp is not later, otherwise `rename` replaces any file that has the new name. -/
def append (fs : List File) (lo hi : Nat) (r : Rec) : List File :=
  if hi ≥ r.ts.sec then
    fs.map fun f => if f.lo = lo ∧ f.hi = hi then { f with recs := f.recs ++ [r] } else f
  else
    (fs.filter fun f => ¬ (f.lo = lo ∧ f.hi = r.ts.sec)).map fun f =>
      if f.lo = lo ∧ f.hi = hi then { f with hi := r.ts.sec, recs := f.recs ++ [r] } else f

/-- Create a new file (src/plugins/ntf_json.c:466-475), `O_CREAT | O_EXCL`. -/
def create (d : Dir) (r : Rec) : Option Dir :=
  match byName d.files r.ts.sec r.ts.sec with
  | some _ => none
  | none => some ⟨d.files ++ [⟨r.ts.sec, r.ts.sec, [r], d.next⟩], d.next + 1⟩

/-- `srpntf_json_store` (src/plugins/ntf_json.c:402-484), `none` is an error. -/
def store (d : Dir) (r : Rec) : Option Dir :=
  let c := findFile d.files 0 0
  if c.1 ≠ 0 ∧ c.2 ≠ 0 then
    match byName d.files c.1 c.2 with
    | none => none
    | some f =>
      if fileSize f + 16 + 4 + r.len ≤ maxSize then some ⟨append d.files c.1 c.2 r, d.next⟩
      else create d r
  else create d r

/-- Where a replay is in `srpntf_json_replay_next` (src/plugins/ntf_json.c:493-593). -/
inductive Pc where
  /-- at `next_file`, with the names of the previous file -/
  | find (lo hi : Nat)
  /-- the name is known, the file is not opened yet (529-532) -/
  | opening (lo hi : Nat)
  /-- skipping of earlier notifications (535-551) -/
  | skipping (lo hi ino off : Nat)
  /-- a notification was returned, at `next_notif` when called again -/
  | reading (lo hi ino off : Nat)
  /-- no more notifications -/
  | done
  /-- an error was returned -/
  | failed
  deriving Repr, DecidableEq

/-- Zero time stamp that is read at the end of a file (src/plugins/ntf_json.c:89-94). -/
def zeroTs : Ts := ⟨0, 0⟩

/-- Time stamp at a position of a file. -/
def tsAt : Option Rec → Ts
  | some r => r.ts
  | none => zeroTs

/-- What is done with a time stamp that was read (src/plugins/ntf_json.c:554-578): the notification is returned, or
the replay ends, or another file is needed. -/
def afterTs (stop : Ts) (lo hi ino off : Nat) (x : Option Rec) : Pc × Option Rec :=
  if (tsAt x).sec ≠ 0 ∧ timeCmp (tsAt x) stop < 0 then (.reading lo hi ino (off + 1), x)
  else if timeCmp (tsAt x) stop > -1 then (.done, none)
  else (.find lo hi, none)

/-- Record at a position of an open file, `none` is the end of the file. -/
def readAt (d : Dir) (ino off : Nat) : Option Rec :=
  match d.files.find? fun f => f.ino = ino with
  | none => none
  | some f => f.recs[off]?

/-- A part of `srpntf_json_replay_next` that sees one state of the directory; the directory can be changed by other
processes between two parts. The second result is a returned notification. -/
def rstep (start stop : Ts) (d : Dir) : Pc → Pc × Option Rec
  | .find lo hi =>
    let c := findFile d.files lo hi
    if c.1 ≠ 0 ∧ c.2 ≠ 0 ∧ c.1 ≤ stop.sec then (.opening c.1 c.2, none) else (.done, none)
  | .opening lo hi =>
    match byName d.files lo hi with
    | none => (.failed, none)
    | some f => (.skipping lo hi f.ino 0, none)
  | .skipping lo hi ino off =>
    let x := readAt d ino off
    if (tsAt x).sec = 0 ∨ timeCmp (tsAt x) start > -1 then afterTs stop lo hi ino off x
    else (.skipping lo hi ino (off + 1), none)
  | .reading lo hi ino off => afterTs stop lo hi ino off (readAt d ino off)
  | .done => (.done, none)
  | .failed => (.failed, none)

/-- First part of a replay (src/plugins/ntf_json.c:503-517). -/
def rinit (start : Ts) : Pc := .find start.sec 0

/-- A replay with no changes of the directory: `n` parts and everything returned by them. -/
def run (start stop : Ts) (d : Dir) : Nat → Pc × List Rec
  | 0 => (rinit start, [])
  | n + 1 =>
    let s := run start stop d n
    let t := rstep start stop d s.1
    (t.1, s.2 ++ t.2.toList)

/-- `srpntf_json_earliest_get` (src/plugins/ntf_json.c:596-635): zero if nothing is stored, `none` is an error. -/
def earliest (d : Dir) : Option Ts :=
  let c := findFile d.files 1 0
  if c.1 = 0 then some zeroTs
  else
    match byName d.files c.1 c.2 with
    | none => none
    | some f => if (tsAt f.recs[0]?).sec = 0 then none else some (tsAt f.recs[0]?)

/-- `srpntf_json_access_set` (src/plugins/ntf_json.c:638-664) after `n` iterations of its loop; `ok i` is the result
of changing the permissions the `i`-th time. The first result says whether it has returned (and with success),
the second lists the names of changed files. -/
def accessSet (d : Dir) (ok : Nat → Bool) : Nat → Option Bool × List (Nat × Nat)
  | 0 =>
    let c := findFile d.files 1 1
    if c.1 ≠ 0 ∧ c.2 ≠ 0 then (none, []) else (some true, [])
  | n + 1 =>
    match accessSet d ok n with
    | (some b, l) => (some b, l)
    | (none, l) =>
      let c := findFile d.files 1 1
      if ok n then (none, l ++ [c]) else (some false, l)

/-! ## Specification -/

/-- `a` is earlier than `b`. -/
def Ts.Before (a b : Ts) : Prop := a.sec < b.sec ∨ (a.sec = b.sec ∧ a.nsec < b.nsec)

instance (a b : Ts) : Decidable (Ts.Before a b) := inferInstanceAs (Decidable (_ ∨ _))

/-- Notifications of a window: not before `start`, before `stop`. -/
def window (start stop : Ts) (h : List Rec) : List Rec :=
  h.filter fun r => ¬ r.ts.Before start ∧ r.ts.Before stop

/-- The directory after storing the notifications `h` in this order, while the time was not going back (it is after
the epoch). The order of files in the directory can change at any time. -/
inductive Hist : Dir → List Rec → Prop
  | empty (n : Nat) : Hist ⟨[], n⟩ []
  | store {d d' : Dir} {h : List Rec} (r : Rec) : Hist d h → 0 < r.ts.sec →
      (∀ x ∈ h, ¬ r.ts.Before x.ts) → store d r = some d' → Hist d' (h ++ [r])
  | relist {d : Dir} {h : List Rec} (fs : List File) : Hist d h → fs.Perm d.files → Hist ⟨fs, d.next⟩ h

/-- A notification can be stored now: the replay has the file it reads open. -/
def Pc.inFile : Pc → Bool
  | .skipping .. => true
  | .reading .. => true
  | _ => false

/-- A replay together with other processes that store notifications not before `stop`, while the replay has a
file open. State: directory, everything stored, where the replay is, what it returned. -/
inductive Exec (start stop : Ts) (d0 : Dir) (h0 : List Rec) : Dir → List Rec → Pc → List Rec → Prop
  | init : Exec start stop d0 h0 d0 h0 (rinit start) []
  | replay {d : Dir} {h : List Rec} {pc : Pc} {out : List Rec} : Exec start stop d0 h0 d h pc out →
      Exec start stop d0 h0 d h (rstep start stop d pc).1 (out ++ (rstep start stop d pc).2.toList)
  | store {d d' : Dir} {h : List Rec} {pc : Pc} {out : List Rec} (r : Rec) : Exec start stop d0 h0 d h pc out →
      pc.inFile = true → 0 < r.ts.sec → (∀ x ∈ h, ¬ r.ts.Before x.ts) → ¬ r.ts.Before stop →
      NtfJson.store d r = some d' → Exec start stop d0 h0 d' (h ++ [r]) pc out
  | relist {d : Dir} {h : List Rec} {pc : Pc} {out : List Rec} (fs : List File) :
      Exec start stop d0 h0 d h pc out → fs.Perm d.files → Exec start stop d0 h0 ⟨fs, d.next⟩ h pc out

end Verif.NtfJson
