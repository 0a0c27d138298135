/-!
Byte buffers shared by the models of the serialisation code: bounds-checked reads and writes. An access out of the
buffer has no result (`none`), it is undefined behaviour in C.
-/
namespace Verif.Bytes

/-- A buffer; every element is meant to be a byte. -/
abbrev Buf := List Nat

/-- Bytes of a `uint32_t` (little endian, the byte order does not matter as long as both sides agree). -/
def le32 (n : Nat) : Buf := [n % 256, n / 256 % 256, n / 65536 % 256, n / 16777216 % 256]

/-- `memcpy(&n, buf + off, 4)`. -/
def rd32 (b : Buf) (off : Nat) : Option Nat :=
  match b[off]?, b[off + 1]?, b[off + 2]?, b[off + 3]? with
  | some x, some y, some z, some w => some (x + 256 * y + 65536 * z + 16777216 * w)
  | _, _, _, _ => none

/-- `memcpy(buf + off, bs, len)`. -/
def write (b : Buf) (off : Nat) (bs : Buf) : Option Buf :=
  if off + bs.length ≤ b.length then some (b.take off ++ bs ++ b.drop (off + bs.length)) else none

/-- `memcpy(out, buf + off, n)`. -/
def slice (b : Buf) (off n : Nat) : Option Buf :=
  if off + n ≤ b.length then some ((b.drop off).take n) else none

/-- String up to its terminating zero. -/
def cstrL : Buf → Option Buf
  | [] => none
  | c :: t => if c = 0 then some [] else (cstrL t).map (c :: ·)

/-- String at `buf + off`. -/
def cstr (b : Buf) (off : Nat) : Option Buf := cstrL (b.drop off)

/-- A C string has no zero byte inside. -/
def IsStr (s : Buf) : Prop := ∀ c ∈ s, c ≠ 0

/-- `uint32_t` arithmetic. -/
def u32 (n : Nat) : Nat := n % 4294967296

/-- `SR_SHM_SIZE`, common.h 55. -/
def align8 (n : Nat) : Nat := (n + 7) / 8 * 8

/-- `realloc(b, n)`, new bytes have an arbitrary value. -/
def resize (junk : Nat → Nat) (b : Buf) (n : Nat) : Buf :=
  b.take n ++ (List.range (n - b.length)).map junk

/-! ## Lemmas -/

/-- The bytes `bs` are at `off`. -/
def At (b : Buf) (off : Nat) (bs : Buf) : Prop := ∀ i, i < bs.length → b[off + i]? = bs[i]?

theorem le32_length (n : Nat) : (le32 n).length = 4 := rfl

theorem align8_ge (n : Nat) : n ≤ align8 n := by unfold align8; omega
theorem align8_mod (n : Nat) : align8 n % 8 = 0 := by unfold align8; omega
theorem align8_lt (n : Nat) : align8 n < n + 8 := by unfold align8; omega

theorem At.nil (b : Buf) (off : Nat) : At b off [] := fun i hi => by simp at hi

theorem At.le {b : Buf} {off : Nat} {bs : Buf} (h : At b off bs) (hne : bs ≠ []) : off + bs.length ≤ b.length := by
  have h0 : 0 < bs.length := List.length_pos_iff.2 hne
  have := h (bs.length - 1) (by omega)
  rw [List.getElem?_eq_getElem (l := bs) (by omega)] at this
  have := (List.getElem?_eq_some_iff.1 this).1
  omega

theorem At.append {b : Buf} {off : Nat} {x y : Buf} : At b off (x ++ y) ↔ At b off x ∧ At b (off + x.length) y := by
  constructor
  · intro h
    refine ⟨fun i hi => ?_, fun i hi => ?_⟩
    · rw [h i (by simp; omega), List.getElem?_append_left hi]
    · have := h (x.length + i) (by simp; omega)
      rw [Nat.add_assoc, this, List.getElem?_append_right (by omega)]
      congr 1; omega
  · rintro ⟨h1, h2⟩ i hi
    rcases Nat.lt_or_ge i x.length with hlt | hge
    · rw [h1 i hlt, List.getElem?_append_left hlt]
    · have := h2 (i - x.length) (by simp at hi; omega)
      rw [show off + x.length + (i - x.length) = off + i by omega] at this
      rw [this, List.getElem?_append_right hge]

theorem At.mid (a bs c : Buf) : At (a ++ bs ++ c) a.length bs := by
  intro i hi
  rw [List.append_assoc, List.getElem?_append_right (by omega), List.getElem?_append_left (by omega)]
  congr 1; omega

theorem At.ext {b : Buf} {off : Nat} {bs : Buf} (h : At b off bs) (c : Buf) : At (b ++ c) off bs := by
  intro i hi
  have := h i hi
  rw [List.getElem?_eq_getElem hi] at this
  have hlt := (List.getElem?_eq_some_iff.1 this).1
  rw [List.getElem?_append_left hlt, h i hi]

theorem At.trans {b c : Buf} {off o2 : Nat} {bs : Buf} (h : At b off bs) (h2 : At c o2 b) : At c (o2 + off) bs := by
  intro i hi
  have h3 := h i hi
  have h4 := h3
  rw [List.getElem?_eq_getElem hi] at h4
  have hlt := (List.getElem?_eq_some_iff.1 h4).1
  rw [show o2 + off + i = o2 + (off + i) by omega, h2 _ hlt, h3]

theorem At.rd32 {b : Buf} {off n : Nat} (h : At b off (le32 n)) (hn : n < 4294967296) : rd32 b off = some n := by
  have h0 := h 0 (by simp [le32])
  have h1 := h 1 (by simp [le32])
  have h2 := h 2 (by simp [le32])
  have h3 := h 3 (by simp [le32])
  simp [le32] at h0 h1 h2 h3
  simp only [Bytes.rd32, h0, h1, h2, h3]
  congr 1; omega

theorem slice_at {b : Buf} {off : Nat} {bs : Buf} (h : At b off bs) (hl : off + bs.length ≤ b.length) :
    slice b off bs.length = some bs := by
  unfold slice
  rw [if_pos hl]
  congr 1
  apply List.ext_getElem?
  intro i
  rw [List.getElem?_take]
  split
  · rename_i hi
    rw [List.getElem?_drop, h i hi]
  · rename_i hi
    rw [List.getElem?_eq_none (by omega)]

theorem At.slice {b : Buf} {off : Nat} {bs : Buf} (h : At b off bs) (hne : bs ≠ []) : slice b off bs.length = some bs :=
  slice_at h (h.le hne)

theorem write_some {b : Buf} {off : Nat} {bs : Buf} (h : off + bs.length ≤ b.length) :
    ∃ b', write b off bs = some b' ∧ b'.length = b.length ∧ At b' off bs ∧
      ∀ i, i < off ∨ off + bs.length ≤ i → b'[i]? = b[i]? := by
  refine ⟨b.take off ++ bs ++ b.drop (off + bs.length), by simp [write, h], ?_, ?_, ?_⟩
  · simp; omega
  · have := At.mid (b.take off) bs (b.drop (off + bs.length))
    rwa [List.length_take, Nat.min_eq_left (by omega)] at this
  · intro i hi
    rcases hi with hi | hi
    · rw [List.append_assoc, List.getElem?_append_left (by simp; omega), List.getElem?_take, if_pos hi]
    · rw [List.getElem?_append_right (by simp; omega), List.getElem?_drop]
      congr 1; simp; omega

theorem write_length {b b' : Buf} {off : Nat} {bs : Buf} (h : write b off bs = some b') : b'.length = b.length := by
  unfold write at h
  split at h
  · injection h with h; subst h; simp; omega
  · simp at h

theorem At.frame {b b' : Buf} {off : Nat} {bs : Buf} (h : At b off bs) {o n : Nat}
    (hf : ∀ i, i < o ∨ o + n ≤ i → b'[i]? = b[i]?) (hd : off + bs.length ≤ o ∨ o + n ≤ off) : At b' off bs := by
  intro i hi
  rw [hf _ (by omega), h i hi]

theorem cstrL_append {s : Buf} (hs : IsStr s) (t : Buf) : cstrL (s ++ 0 :: t) = some s := by
  induction s with
  | nil => simp [cstrL]
  | cons c s ih =>
    have hc : c ≠ 0 := hs c (by simp)
    simp [cstrL, hc, ih (fun x hx => hs x (by simp [hx]))]

theorem At.drop {b : Buf} {off : Nat} {bs : Buf} (h : At b off bs) : ∃ t, b.drop off = bs ++ t ∨ bs = [] := by
  by_cases hne : bs = []
  · exact ⟨[], Or.inr hne⟩
  refine ⟨b.drop (off + bs.length), Or.inl ?_⟩
  have hl := h.le hne
  apply List.ext_getElem?
  intro i
  rw [List.getElem?_drop]
  rcases Nat.lt_or_ge i bs.length with hi | hi
  · rw [List.getElem?_append_left hi, h i hi]
  · rw [List.getElem?_append_right hi, List.getElem?_drop]
    congr 1; omega

theorem At.cstr {b : Buf} {off : Nat} {s : Buf} (h : At b off (s ++ [0])) (hs : IsStr s) : cstr b off = some s := by
  obtain ⟨t, ht⟩ := h.drop
  rcases ht with ht | ht
  · unfold Bytes.cstr
    rw [ht, List.append_assoc]
    exact cstrL_append hs t
  · simp at ht

theorem resize_ge (junk : Nat → Nat) {b : Buf} {n : Nat} (h : b.length ≤ n) :
    ∃ t, resize junk b n = b ++ t ∧ t.length = n - b.length := by
  refine ⟨(List.range (n - b.length)).map junk, ?_, by simp⟩
  rw [resize, List.take_of_length_le h]

theorem resize_length (junk : Nat → Nat) (b : Buf) (n : Nat) : (resize junk b n).length = n := by
  simp [resize]; omega

/-- Writing right after the end of the previous content of a just enlarged buffer. -/
theorem write_resize (junk : Nat → Nat) (b bs : Buf) {n : Nat} (h : b.length + bs.length ≤ n) :
    ∃ t, write (resize junk b n) b.length bs = some (b ++ bs ++ t) ∧ t.length = n - b.length - bs.length := by
  obtain ⟨t, e, ht⟩ := resize_ge junk (b := b) (n := n) (by omega)
  refine ⟨t.drop bs.length, ?_, by simp; omega⟩
  rw [e, write, if_pos (by simp; omega), List.take_left', List.drop_append]
  · congr 2
    rw [List.drop_of_length_le (by omega)]
    simp
  · rfl

end Verif.Bytes
