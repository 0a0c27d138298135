/-
Allocator of the external shared memory segment ("ext SHM").

Models `/repo/src/common.c` lines 1498-1612 (holes), 1647-1670 (`sr_shmrealloc_use_hole`), 1680-1964
(`sr_shmrealloc_add`, `sr_shmrealloc`, `sr_shmrealloc_del`), `sr_shm_remap` 1443-1481 and the shrinking part of
`sr_shmext_conn_remap_unlock`, `/repo/src/shm_ext.c` 128-157.

The segment is a byte memory; the hole list is a linked list whose headers (`sr_ext_hole_t`, shm_types.h
300-303) are stored in the holes themselves, exactly as in the code, so that a header written to a wrong place
destroys data of the model too.

Simplifications: pointers are offsets (a remapped address is not modelled); `(int)off` casts are ignored, which
is right for segments smaller than 2 GiB (a hypothesis of the history steps); the variables holding the array
offset/count live outside of the segment (flag `in_ext_shm` only concerns pointer updates after a remap).
-/
namespace Verif.ExtShm

/-! ## Memory -/

/-- Content of the segment, a byte for every offset. -/
abbrev Mem := Nat → Nat

/-- Load of a little-endian `uint32_t`. -/
def rd32 (m : Mem) (a : Nat) : Nat :=
  m a + 256 * m (a + 1) + 65536 * m (a + 2) + 16777216 * m (a + 3)

/-- Store of a little-endian `uint32_t`. -/
def wr32 (m : Mem) (a v : Nat) : Mem := fun x =>
  if x = a then v % 256
  else if x = a + 1 then v / 256 % 256
  else if x = a + 2 then v / 65536 % 256
  else if x = a + 3 then v / 16777216 % 256
  else m x

/-- `memmove` of `n` bytes (also `memcpy` for ranges that do not overlap). -/
def move (m : Mem) (dst src n : Nat) : Mem := fun x =>
  if dst ≤ x ∧ x < dst + n then m (src + (x - dst)) else m x

/-- `sr_shm_t`: mapped segment with its size. -/
structure Shm where
  mem : Mem
  size : Nat

/-- `SR_SHM_SIZE`, common.h 55: round up to a multiple of 8. -/
def shmSize (n : Nat) : Nat := (n + 7) / 8 * 8

/-- `sr_shm_remap`, common.c 1443-1481, with a new size: the file is truncated to it, new bytes are zero. -/
def remap (sh : Shm) (n : Nat) : Shm := ⟨fun x => if x < sh.size then sh.mem x else 0, n⟩

/-! ## Holes -/

/-- `sr_ext_hole_next`, common.c 1498-1511, for `last == NULL`; offset 0 is `NULL`. -/
def holeFirst (m : Mem) : Nat := rd32 m 0

/-- `sr_ext_hole_next`, common.c 1498-1511, for a hole. -/
def holeNext (m : Mem) (h : Nat) : Nat := rd32 m (h + 4)

/-- Member `size` of a hole. -/
def holeSize (m : Mem) (h : Nat) : Nat := rd32 m h

/-- The loop of `sr_ext_hole_find`, common.c 1518-1530; `none` when it does not end in `fuel` steps. -/
def findLoop (m : Mem) (off minSize : Nat) : Nat → Nat → Option Nat
  | 0, _ => none
  | f + 1, h =>
    if h = 0 then some 0
    else if off ≠ 0 then
      if h = off ∧ minSize ≤ holeSize m h then some h
      else if off < h then some 0
      else findLoop m off minSize f (holeNext m h)
    else if minSize ≤ holeSize m h then some h
    else findLoop m off minSize f (holeNext m h)

/-- `sr_ext_hole_find`, common.c 1513-1533. -/
def holeFind (sh : Shm) (off minSize : Nat) : Option Nat :=
  findLoop sh.mem off minSize (sh.size + 1) (holeFirst sh.mem)

/-- The loop of `sr_ext_hole_del`, common.c 1540-1548, returns `prev`; `none` is the failed `assert(h)`. -/
def delLoop (m : Mem) (hole : Nat) : Nat → Nat → Nat → Option Nat
  | 0, _, _ => none
  | f + 1, prev, h =>
    if h = 0 then none
    else if h = hole then some prev
    else delLoop m hole f h (holeNext m h)

/-- `sr_ext_hole_del`, common.c 1535-1556. -/
def holeDel (sh : Shm) (hole : Nat) : Option Shm :=
  match delLoop sh.mem hole (sh.size + 1) 0 (holeFirst sh.mem) with
  | none => none
  | some prev =>
    some { sh with mem := wr32 sh.mem (if prev ≠ 0 then prev + 4 else 0) (holeNext sh.mem hole) }

/-- The loop of `sr_ext_hole_add`, common.c 1569-1576, returns `prev` and `next`. -/
def addLoop (m : Mem) (off : Nat) : Nat → Nat → Nat → Option (Nat × Nat)
  | 0, _, _ => none
  | f + 1, prev, next =>
    if next = 0 then some (prev, 0)
    else if off < next then some (prev, next)
    else addLoop m off f next (holeNext m next)

/-- `sr_ext_hole_add`, common.c 1558-1622. -/
def holeAdd (sh : Shm) (off size : Nat) : Option Shm :=
  if size = 0 then some sh
  else
    match addLoop sh.mem off (sh.size + 1) 0 (holeFirst sh.mem) with
    | none => none
    | some (prev, next) =>
      let m := sh.mem
      let conPrev := prev ≠ 0 ∧ prev + holeSize m prev = off
      let conNext := next ≠ 0 ∧ off + size = next
      let cell := if prev ≠ 0 then prev + 4 else 0
      if conPrev ∧ conNext then
        let m1 := wr32 m prev (holeSize m prev + size + holeSize m next)
        some { sh with mem := wr32 m1 (prev + 4) (holeNext m1 next) }
      else if conPrev then
        some { sh with mem := wr32 m prev (holeSize m prev + size) }
      else if conNext then
        let m1 := wr32 m cell off
        let m2 := wr32 m1 off (size + holeSize m1 next)
        some { sh with mem := wr32 m2 (off + 4) (holeNext m2 next) }
      else
        let m1 := wr32 m cell off
        let m2 := wr32 m1 off size
        some { sh with mem := wr32 m2 (off + 4) next }

/-- `sr_shmrealloc_use_hole`, common.c 1664-1678. -/
def useHole (sh : Shm) (hole used : Nat) : Option Shm :=
  let newSize := holeSize sh.mem hole - used
  match holeDel sh hole with
  | none => none
  | some sh1 => if newSize ≠ 0 then holeAdd sh1 (hole + used) newSize else some sh1

/-! ## Reallocation -/

/-- Outcome of an operation that may have to enlarge the segment. `sysErr` is the failed `ftruncate`/`mmap`, it
carries the segment as other processes see it; `ub` is a failed assert, an endless loop or an access out of the
segment. -/
inductive Res (α : Type) where
  | ok (a : α)
  | sysErr (sh : Shm)
  | ub

/-- Find space for `n` bytes in a hole or at the end of the (future) segment of size `newSize`: common.c
1719-1727, 1733-1741 and 1849-1856. Returns the segment, the offset and the new size of the segment. -/
def place (sh : Shm) (newSize n : Nat) : Option (Shm × Nat × Nat) :=
  match holeFind sh 0 n with
  | none => none
  | some 0 => some (sh, newSize, newSize + n)
  | some hole =>
    match useHole sh hole n with
    | none => none
    | some sh1 => some (sh1, hole, newSize)

/-- Find a hole of size `n` at `off` and use it, common.c 1714-1717/1729 and 1845-1848/1858; the result tells
whether there was one. -/
def extend (sh : Shm) (off n : Nat) : Option (Shm × Bool) :=
  match holeFind sh off n with
  | none => none
  | some 0 => some (sh, false)
  | some hole =>
    match useHole sh hole n with
    | none => none
    | some sh1 => some (sh1, true)

/-- What `sr_shmrealloc_add` returns in its out parameters. -/
structure AddOut where
  sh : Shm
  arrayOff : Nat
  count : Nat
  attrOff : Nat
  itemOff : Nat

/-- Where the grown array is going to be, common.c 1711-1731: segment, offset, new segment size, moved. -/
def addArray (sh : Shm) (aoff count item : Nat) : Option (Shm × Nat × Nat × Bool) :=
  let newArr := shmSize ((count + 1) * item)
  let diff := newArr - shmSize (count * item)
  if diff = 0 then some (sh, aoff, sh.size, false)
  else
    match (if aoff ≠ 0 then extend sh (aoff + diff) diff else some (sh, false)) with
    | none => none
    | some (sh1, true) => some (sh1, aoff, sh.size, false)
    | some (sh1, false) =>
      match place sh1 sh.size newArr with
      | none => none
      | some (sh2, off, sz) => some (sh2, off, sz, true)

/-- Where the attribute is going to be, common.c 1732-1742 (`attrLen` not yet aligned). -/
def addAttr (sh : Shm) (newSize attrLen : Nat) : Option (Shm × Nat × Nat) :=
  if shmSize attrLen = 0 then some (sh, 0, newSize) else place sh newSize (shmSize attrLen)

/-- Copying of the items, common.c 1794-1811. -/
def addCopy (m : Mem) (aoff newOff count item idx : Nat) (moved : Bool) : Mem :=
  let m1 := if moved ∧ idx ≠ 0 then move m newOff aoff (idx * item) else m
  if idx < count then move m1 (newOff + (idx + 1) * item) (aoff + idx * item) ((count - idx) * item) else m1

/-- `sr_shmrealloc_add`, common.c 1680-1820; `idx` is already resolved from -1 (line 1702), `grow` tells whether
`ftruncate`/`mmap` succeed. -/
def shmreallocAdd (sh : Shm) (aoff count item idx attrLen : Nat) (grow : Bool) : Res AddOut :=
  if ¬((aoff ≠ 0 ∧ count ≠ 0) ∨ (aoff = 0 ∧ count = 0)) ∨ ¬ idx ≤ count then .ub
  else
    match addArray sh aoff count item with
    | none => .ub
    | some (sh1, newOff, sz1, moved) =>
      match addAttr sh1 sz1 attrLen with
      | none => .ub
      | some (sh2, attrOff, sz2) =>
        if sz2 > sh.size ∧ grow = false then .sysErr sh2
        else
          let sh3 := if sz2 > sh.size then remap sh2 sz2 else sh2
          if newOff = 0 ∨ (shmSize attrLen ≠ 0 ∧ attrOff = 0) then .ub
          else
            let sh4 := { sh3 with mem := addCopy sh3.mem aoff newOff count item idx moved }
            match (if moved ∧ aoff ≠ 0 then holeAdd sh4 aoff (shmSize (count * item)) else some sh4) with
            | none => .ub
            | some sh5 => .ok ⟨sh5, newOff, count + 1, attrOff, newOff + idx * item⟩

/-- `sr_shmrealloc`, common.c 1822-1915. Returns the segment and the new offset. -/
def shmrealloc (sh : Shm) (off curLen newLen : Nat) (grow : Bool) : Res (Shm × Nat) :=
  if ¬(off = 0 ∨ curLen ≠ 0) then .ub
  else
    let cur := shmSize curLen
    let new := shmSize newLen
    if cur < new then
      match (if cur ≠ 0 then extend sh (off + cur) (new - cur) else some (sh, false)) with
      | none => .ub
      | some (sh1, true) => if off = 0 then .ub else .ok (sh1, off)
      | some (sh1, false) =>
        match place sh1 sh.size new with
        | none => .ub
        | some (sh2, newOff, sz) =>
          if sz > sh.size ∧ grow = false then .sysErr sh2
          else
            let sh3 := if sz > sh.size then remap sh2 sz else sh2
            if newOff = 0 then .ub
            else
              match holeAdd { sh3 with mem := move sh3.mem newOff off cur } off cur with
              | none => .ub
              | some sh4 => .ok (sh4, newOff)
    else if new < cur then
      match holeAdd sh (off + new) (cur - new) with
      | none => .ub
      | some sh1 => if off = 0 then .ub else .ok (sh1, off)
    else if off = 0 then .ub
    else .ok (sh, off)

/-- `sr_shmrealloc_del`, common.c 1917-1964: segment, array offset and count. -/
def shmreallocDel (sh : Shm) (aoff count item idx attrSize attrOff : Nat) : Option (Shm × Nat × Nat) :=
  if ¬((attrSize = 0 ∧ attrOff = 0) ∨ (attrSize ≠ 0 ∧ attrOff ≠ 0)) ∨ attrSize ≠ shmSize attrSize ∨ count = 0 then none
  else
    let diff := shmSize (count * item) - shmSize ((count - 1) * item)
    let holeOff := aoff + shmSize ((count - 1) * item)
    let m := if count - 1 ≠ 0 ∧ idx < count - 1 then
        move sh.mem (aoff + idx * item) (aoff + (idx + 1) * item) ((count - 1 - idx) * item)
      else sh.mem
    match (if diff ≠ 0 then holeAdd { sh with mem := m } holeOff diff else some { sh with mem := m }) with
    | none => none
    | some sh1 =>
      match (if attrSize ≠ 0 then holeAdd sh1 attrOff attrSize else some sh1) with
      | none => none
      | some sh2 => some (sh2, if count - 1 = 0 then 0 else aoff, count - 1)

/-- Last hole of the list, the loop of shm_ext.c 138-140. -/
def lastLoop (m : Mem) : Nat → Nat → Nat → Option Nat
  | 0, _, _ => none
  | f + 1, last, h => if h = 0 then some last else lastLoop m f h (holeNext m h)

/-- Shrinking of the segment on unlock, shm_ext.c 136-156 (`ftruncate` succeeds). -/
def trim (sh : Shm) : Option Shm :=
  match lastLoop sh.mem (sh.size + 1) 0 (holeFirst sh.mem) with
  | none => none
  | some last =>
    if last ≠ 0 ∧ last + holeSize sh.mem last = sh.size then
      match holeDel sh last with
      | none => none
      | some sh1 => some (remap sh1 (sh.size - holeSize sh.mem last))
    else some sh

/-! ## Clients: arrays and attributes -/

/-- An array in the segment (e.g. all change subscriptions of a module), `off` 0 when empty. -/
structure Arr where
  off : Nat
  count : Nat
deriving DecidableEq

/-- A dynamic attribute in the segment (e.g. an XPath), `off` 0 when there is none, `len` its length in bytes. -/
structure Attr where
  off : Nat
  len : Nat
deriving DecidableEq

/-- All the clients of the segment. Array `k` has items of `isz k` bytes. -/
structure World where
  sh : Shm
  arr : Nat → Arr
  attr : Nat → Attr

/-- Name of an allocation. -/
inductive Id where
  | arr (k : Nat)
  | attr (j : Nat)
deriving DecidableEq

/-- Operations of the clients: every caller of the allocator listed in DESIGN.md uses one of them. -/
inductive Op where
  /-- add an item to array `k` at index `idx` with an attribute of length `len` (0: none) stored as `j` -/
  | add (k idx j len : Nat)
  /-- delete the item `idx` of array `k` with the attribute `j`, if any -/
  | del (k idx : Nat) (j : Option Nat)
  /-- change the length of the attribute `j` -/
  | resize (j len : Nat)
  /-- store one byte into an allocation -/
  | store (id : Id) (rel val : Nat)
  /-- unlock, shrink the segment -/
  | trim

/-- Update of one entry. -/
def upd {α : Type} (f : Nat → α) (k : Nat) (a : α) : Nat → α := fun i => if i = k then a else f i

/-- Range (offset and aligned length) of an allocation. -/
def rng (isz : Nat → Nat) (w : World) : Id → Nat × Nat
  | .arr k => ((w.arr k).off, shmSize ((w.arr k).count * isz k))
  | .attr j => ((w.attr j).off, shmSize (w.attr j).len)

/-- Preconditions of the operations (the contract of the allocator, kept by its callers). -/
def Pre (isz : Nat → Nat) (w : World) : Op → Prop
  | .add k idx j len => idx ≤ (w.arr k).count ∧ (len ≠ 0 → (w.attr j).len = 0)
  | .del k idx none => idx < (w.arr k).count
  | .del k idx (some j) => idx < (w.arr k).count ∧ (w.attr j).len ≠ 0
  | .resize j len => ¬((w.attr j).len = 0 ∧ len = 0)
  | .store id rel _ => rel < (rng isz w id).2
  | .trim => True

/-- One operation; `grow` tells whether the segment can be enlarged. -/
def step (isz : Nat → Nat) (w : World) (op : Op) (grow : Bool) : Res World :=
  match op with
  | .add k idx j len =>
    match shmreallocAdd w.sh (w.arr k).off (w.arr k).count (isz k) idx len grow with
    | .ub => .ub
    | .sysErr sh => .sysErr sh
    | .ok o => .ok { sh := o.sh, arr := upd w.arr k ⟨o.arrayOff, o.count⟩,
                     attr := if len = 0 then w.attr else upd w.attr j ⟨o.attrOff, len⟩ }
  | .del k idx none =>
    match shmreallocDel w.sh (w.arr k).off (w.arr k).count (isz k) idx 0 0 with
    | none => .ub
    | some (sh, off, count) => .ok { w with sh := sh, arr := upd w.arr k ⟨off, count⟩ }
  | .del k idx (some j) =>
    match shmreallocDel w.sh (w.arr k).off (w.arr k).count (isz k) idx (shmSize (w.attr j).len) (w.attr j).off with
    | none => .ub
    | some (sh, off, count) =>
      .ok { sh := sh, arr := upd w.arr k ⟨off, count⟩, attr := upd w.attr j ⟨0, 0⟩ }
  | .resize j len =>
    match shmrealloc w.sh (w.attr j).off (w.attr j).len len grow with
    | .ub => .ub
    | .sysErr sh => .sysErr sh
    -- sr_shmext_change_sub_modify, shm_ext.c 652-661, sets the offset to 0 if there is no new value
    | .ok (sh, off) => .ok { w with sh := sh, attr := upd w.attr j ⟨if len = 0 then 0 else off, len⟩ }
  | .store id rel val =>
    .ok { w with sh := { w.sh with mem := fun x => if x = (rng isz w id).1 + rel then val else w.sh.mem x } }
  | .trim =>
    match trim w.sh with
    | none => .ub
    | some sh => .ok { w with sh := sh }

/-- Segment after `sr_shmext_open`, shm_ext.c 171-196: only the header. -/
def init : World := ⟨⟨fun _ => 0, 8⟩, fun _ => ⟨0, 0⟩, fun _ => ⟨0, 0⟩⟩

/-! ## Specification -/

/-- Byte `x` belongs to the allocation `id`. -/
def Owns (isz : Nat → Nat) (w : World) (id : Id) (x : Nat) : Prop :=
  (rng isz w id).1 ≤ x ∧ x < (rng isz w id).1 + (rng isz w id).2

/-- Hole list as recorded in the memory: every (offset, size) from the pointer stored at `cell`. -/
def holesFrom (m : Mem) : Nat → Nat → Option (List (Nat × Nat))
  | 0, _ => none
  | f + 1, cell =>
    let h := rd32 m cell
    if h = 0 then some []
    else (holesFrom m f (h + 4)).map ((h, rd32 m h) :: ·)

/-- Recorded free space of a segment. -/
def holes (sh : Shm) : Option (List (Nat × Nat)) := holesFrom sh.mem (sh.size + 1) 0

/-- Byte `x` is recorded as free. -/
def Free (sh : Shm) (x : Nat) : Prop := ∃ l, holes sh = some l ∧ ∃ h ∈ l, h.1 ≤ x ∧ x < h.1 + h.2

/-- Byte `r` of an allocation. -/
def byteOf (isz : Nat → Nat) (w : World) (id : Id) (r : Nat) : Nat := w.sh.mem ((rng isz w id).1 + r)

/-- Histories of operations that respect the contract of the allocator, in a segment smaller than 2 GiB. -/
inductive Hist (isz : Nat → Nat) : World → Prop
  | init : Hist isz init
  | step {w w' : World} {op : Op} {g : Bool} : Hist isz w → Pre isz w op → step isz w op g = .ok w' →
      w'.sh.size < 2147483648 → Hist isz w'

end Verif.ExtShm
