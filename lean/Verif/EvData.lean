import Verif.Bytes
/-!
Model of the opaque data attached to events: `sr_ev_data_*` (common.c), writing of an event by its originator
(`sr_shmsub_notify_write_event`, shm_sub.c) and reading of it by the event session of a subscriber
(`_sr_session_start`, `sr_session_set_orig`, sysrepo.c).

Memory allocation succeeds. The data part of the event itself (LYB) is an opaque byte string.
-/
namespace Verif.EvData
open Verif.Bytes

/-- The loop of `sr_ev_data_size` and `sr_ev_data_get`: skip `n` chunks from `ptr`, common.c 1976-1980, 2042-2046. -/
def skip (b : Buf) : Nat → Nat → Option Nat
  | 0, ptr => some ptr
  | n + 1, ptr =>
    match rd32 b ptr with
    | none => none
    | some sz => skip b n (ptr + 4 + sz)

/-- `sr_ev_data_size(b + off)`, common.c 1966-1983. -/
def evSize (b : Buf) (off : Nat) : Option Nat :=
  match rd32 b off with
  | none => none
  | some count =>
    match skip b count (off + 4) with
    | none => none
    | some ptr => some (u32 (ptr - off))

/-- `sr_ev_data_push`, common.c 1985-2022; `none` is an access out of the allocated memory. -/
def evPush (junk : Nat → Nat) (ev : Option Buf) (data : Buf) : Option Buf :=
  match (match ev with
      | some b => (evSize b 0).map fun s => u32 (s + 4 + data.length)
      | none => some (u32 (4 + 4 + data.length))) with
  | none => none
  | some newSize =>
    let mem := resize junk (ev.getD []) newSize
    match (match ev with | some _ => some mem | none => write mem 0 [0, 0, 0, 0]) with
    | none => none
    | some mem1 =>
      match evSize mem1 0, rd32 mem1 0 with
      | some ptr, some count =>
        match write mem1 0 (le32 (u32 (count + 1))) with
        | none => none
        | some mem2 =>
          match write mem2 ptr (le32 data.length) with
          | none => none
          | some mem3 => write mem3 (ptr + 4) data
      | _, _ => none

/-- Result of `sr_ev_data_get`: not found, or the chunk (its size and the bytes the returned pointer points to). -/
inductive Get where
  | notFound
  | ok (data : Buf)
  | ub
deriving DecidableEq

/-- `sr_ev_data_get`, common.c 2024-2057. -/
def evGet (ev : Option Buf) (idx : Nat) : Get :=
  match ev with
  | none => .notFound
  | some b =>
    match rd32 b 0 with
    | none => .ub
    | some count =>
      if count ≤ idx then .notFound
      else
        match skip b idx 4 with
        | none => .ub
        | some ptr =>
          match rd32 b ptr with
          | none => .ub
          | some sz =>
            match slice b (ptr + 4) sz with
            | none => .ub
            | some d => .ok d

/-! ## The session of the originator -/

/-- Originator part of a session. -/
structure Sess where
  name : Option Buf
  data : Option Buf

/-- API calls on it. -/
inductive Op where
  | setName (s : Option Buf)
  | push (data : Buf)
  | del

/-- `sr_session_set_orig_name`, `sr_session_push_orig_data`, `sr_session_del_orig_data`, sysrepo.c 850-901.
The pushed size is a `uint32_t`; a refused push changes nothing. -/
def opStep (junk : Nat → Nat) (s : Sess) : Op → Option Sess
  | .setName n => some { s with name := n }
  | .push d =>
    if s.name = none ∨ d = [] then some s
    else
      match evPush junk s.data d with
      | none => none
      | some b => some { s with data := some b }
  | .del => some { s with data := none }

/-- A sequence of calls. -/
def runOps (junk : Nat → Nat) : Sess → List Op → Option Sess
  | s, [] => some s
  | s, o :: os =>
    match opStep junk s o with
    | none => none
    | some s' => runOps junk s' os

/-! ## The event -/

/-- `sr_strshmlen`, common.c 1651-1656. -/
def strshmlen (s : Buf) : Nat := align8 (s.length + 1)

/-- `empty_data`, shm_sub.c 803. -/
def emptyData : Buf := [0, 0, 0, 0]

/-- Sequence of writes. -/
def writes (b : Buf) : List (Nat × Buf) → Option Buf
  | [] => some b
  | (off, d) :: t =>
    match write b off d with
    | none => none
    | some b1 => writes b1 t

/-- Data part of `sr_shmsub_notify_write_event`, shm_sub.c 803-848, when there is an XPath or event data. `shm` is
the data SHM after it was remapped to at least the computed size (line 823), with its old content.
Simplification: writing the event fields of the subscription SHM is in the model of the notifications. -/
def writeEvent (shm : Buf) (name data : Option Buf) (xpath : Option Buf) (ev : Buf) : Option Buf :=
  let n := name.getD []
  let d := data.getD emptyData
  match evSize d 0 with
  | none => none
  | some ds =>
    match slice d 0 ds with
    | none => none
    | some dd =>
      let p1 := strshmlen n
      let p2 := p1 + align8 ds
      let x := match xpath with | some x => [(p2, x ++ [0])] | none => []
      let p3 := p2 + match xpath with | some x => strshmlen x | none => 0
      writes shm ([(0, n ++ [0]), (p1, dd)] ++ x ++ [(p3, ev)])

/-- Size computed for the remap, shm_sub.c 812 and 822-823. -/
def eventSize (name data : Option Buf) (xpath : Option Buf) (ev : Buf) : Option Nat :=
  match evSize (data.getD emptyData) 0 with
  | none => none
  | some ds =>
    some (u32 (strshmlen (name.getD []) + align8 ds) + (match xpath with | some x => strshmlen x | none => 0) + ev.length)

/-- `_sr_session_start` with event data, sysrepo.c 590-596, and `sr_session_set_orig`, sysrepo.c 532-555: name and
data of the event session, and the pointer to the rest of the event. -/
def readOrig (shm : Buf) : Option (Buf × Buf × Nat) :=
  match cstr shm 0 with
  | none => none
  | some n =>
    let p := strshmlen n
    match evSize shm p with
    | none => none
    | some ds =>
      match slice shm p ds with
      | none => none
      | some d => some (n, d, p + align8 ds)

/-! ## Specification -/

/-- The list of blobs the originator means: later pushes are appended, `del` empties it, pushes without a name or
without data are refused. -/
def specStep (s : Option Buf × List Buf) : Op → Option Buf × List Buf
  | .setName n => (n, s.2)
  | .push d => if s.1 = none ∨ d = [] then s else (s.1, s.2 ++ [d])
  | .del => (s.1, [])

/-- Name and blobs after a sequence of API calls. -/
def spec (ops : List Op) : Option Buf × List Buf := ops.foldl specStep (none, [])

/-- What asking for the blob `idx` has to return. -/
def wanted (blobs : List Buf) (idx : Nat) : Get :=
  match blobs[idx]? with
  | some b => .ok b
  | none => .notFound

/-- Memory needed for the blobs. -/
def blobsLen (blobs : List Buf) : Nat := 4 + (blobs.map fun b => 4 + b.length).sum

/-! ## Lemmas -/

/-- Encoding of the chunks. -/
def chunks : List Buf → Buf
  | [] => []
  | b :: t => le32 b.length ++ b ++ chunks t

/-- Encoding of the whole data. -/
def enc (bs : List Buf) : Buf := le32 bs.length ++ chunks bs

theorem chunks_length (bs : List Buf) : (chunks bs).length = (bs.map fun b => 4 + b.length).sum := by
  induction bs with
  | nil => rfl
  | cons b t ih => simp [chunks, le32_length, ih]; omega

theorem enc_length (bs : List Buf) : (enc bs).length = blobsLen bs := by
  simp [enc, le32_length, chunks_length, blobsLen]

theorem chunks_append (a b : List Buf) : chunks (a ++ b) = chunks a ++ chunks b := by
  induction a with
  | nil => rfl
  | cons x t ih => simp [chunks, ih]

theorem length_le_chunks (bs : List Buf) : bs.length ≤ (chunks bs).length := by
  induction bs with
  | nil => simp
  | cons b t ih => simp [chunks, le32_length]; omega

theorem skip_at {b : Buf} {bs : List Buf} {ptr : Nat} (h : At b ptr (chunks bs)) (hl : (chunks bs).length < 4294967296) :
    skip b bs.length ptr = some (ptr + (chunks bs).length) := by
  induction bs generalizing ptr with
  | nil => simp [skip, chunks]
  | cons x t ih =>
    simp only [chunks] at h
    rw [At.append, At.append] at h
    simp only [chunks, List.length_append, le32_length] at hl
    simp only [List.length_cons, skip, h.1.1.rd32 (by omega)]
    have h2 := h.2
    simp only [List.length_append, le32_length] at h2
    rw [show ptr + 4 + x.length = ptr + (4 + x.length) by omega, ih h2 (by omega)]
    simp [chunks, le32_length]; omega

theorem evSize_at {b : Buf} {bs : List Buf} {off : Nat} (h : At b off (enc bs)) (hl : blobsLen bs < 4294967296) :
    evSize b off = some (blobsLen bs) := by
  have h' := h
  unfold enc at h'
  rw [At.append] at h'
  have hc := length_le_chunks bs
  have he := enc_length bs
  simp only [enc, List.length_append, le32_length] at he
  simp only [le32_length] at h'
  simp only [evSize, h'.1.rd32 (by omega), skip_at h'.2 (by omega)]
  rw [show off + 4 + (chunks bs).length - off = blobsLen bs by omega, u32, Nat.mod_eq_of_lt hl]

theorem At.of_append_left (a b : Buf) : At (a ++ b) 0 a := by
  have := At.mid [] a b
  simpa using this

theorem evGet_at {b : Buf} {bs : List Buf} (h : At b 0 (enc bs)) (hl : blobsLen bs < 4294967296) (idx : Nat) :
    evGet (some b) idx = wanted bs idx := by
  have hle := h.le (by simp [enc, le32])
  have h' := h
  unfold enc at h'
  rw [At.append] at h'
  have hc := length_le_chunks bs
  have he := enc_length bs
  simp only [enc, List.length_append, le32_length] at he hle
  simp only [le32_length, Nat.zero_add] at h'
  simp only [evGet, h'.1.rd32 (by omega), wanted]
  split
  · rename_i hle
    rw [List.getElem?_eq_none hle]
  · rename_i hgt
    have hlt : idx < bs.length := by omega
    rw [List.getElem?_eq_getElem hlt]
    have hsplit : bs = bs.take idx ++ bs[idx] :: bs.drop (idx + 1) := by
      rw [List.getElem_cons_drop, List.take_append_drop]
    have h2 := h'.2
    have hch : chunks bs = chunks (bs.take idx) ++ (le32 bs[idx].length ++ bs[idx] ++ chunks (bs.drop (idx + 1))) := by
      conv => lhs; rw [hsplit]
      rw [chunks_append]; rfl
    have hlen : (chunks bs).length = (chunks (bs.take idx)).length + 4 + bs[idx].length + (chunks (bs.drop (idx + 1))).length := by
      rw [hch]
      simp [le32_length]; omega
    rw [hch, At.append] at h2
    have h3 := skip_at h2.1 (by omega)
    rw [List.length_take, Nat.min_eq_left (by omega)] at h3
    simp only [h3]
    have h4 := h2.2
    rw [At.append, At.append] at h4
    simp only [h4.1.1.rd32 (by omega)]
    have h5 := h4.1.2
    simp only [le32_length] at h5
    rw [slice_at h5 (by omega)]

theorem evPush_enc (junk : Nat → Nat) {bs : List Buf} {d : Buf} (hl : blobsLen (bs ++ [d]) < 4294967296) :
    evPush junk (some (enc bs)) d = some (enc (bs ++ [d])) := by
  have hb : blobsLen (bs ++ [d]) = blobsLen bs + 4 + d.length := by simp [blobsLen]; omega
  have he := enc_length bs
  have hc := length_le_chunks bs
  have he' := he
  simp only [enc, List.length_append, le32_length] at he'
  have h0 : evSize (enc bs) 0 = some (blobsLen bs) := by
    have := evSize_at (b := enc bs) (off := 0) (bs := bs) (by have := At.of_append_left (enc bs) []; simpa using this) (by omega)
    exact this
  simp only [evPush, h0, Option.map_some, Option.getD_some]
  have hn : u32 (blobsLen bs + 4 + d.length) = blobsLen bs + 4 + d.length := Nat.mod_eq_of_lt (by omega)
  rw [hn]
  obtain ⟨t, e, ht⟩ := resize_ge junk (b := enc bs) (n := blobsLen bs + 4 + d.length) (by omega)
  rw [e]
  have hAt := At.of_append_left (enc bs) t
  have hAt' := hAt
  unfold enc at hAt'
  rw [At.append] at hAt'
  rw [evSize_at hAt (by omega)]
  have : rd32 (enc bs ++ t) 0 = some bs.length := hAt'.1.rd32 (by omega)
  simp only [this]
  have hcnt : u32 (bs.length + 1) = bs.length + 1 := Nat.mod_eq_of_lt (by omega)
  rw [hcnt]
  have w1 : write (enc bs ++ t) 0 (le32 (bs.length + 1)) = some (le32 (bs.length + 1) ++ chunks bs ++ t) := by
    rw [write, if_pos (by simp [le32_length]; omega)]
    simp [enc, le32]
  rw [w1]
  simp only
  have hpl : (le32 (bs.length + 1) ++ chunks bs).length = blobsLen bs := by
    simp only [List.length_append, le32_length]; omega
  have w2 : write (le32 (bs.length + 1) ++ chunks bs ++ t) (blobsLen bs) (le32 d.length) =
      some (le32 (bs.length + 1) ++ chunks bs ++ le32 d.length ++ t.drop 4) := by
    rw [write, if_pos (by simp [le32_length] at hpl ⊢; omega), ← hpl, List.take_left', List.drop_append]
    · simp [le32_length]
    · rfl
  rw [w2]
  simp only
  have hpl2 : (le32 (bs.length + 1) ++ chunks bs ++ le32 d.length).length = blobsLen bs + 4 := by
    simp only [List.length_append, le32_length] at hpl ⊢; omega
  rw [write, if_pos (by simp [le32_length] at hpl ⊢; omega), ← hpl2, List.take_left', List.drop_append]
  · rw [List.drop_of_length_le (l := t.drop 4) (by simp; omega)]
    rw [List.drop_of_length_le (by simp)]
    simp [enc, chunks_append, chunks]
  · rfl

theorem evPush_none (junk : Nat → Nat) {d : Buf} (hl : blobsLen [d] < 4294967296) :
    evPush junk none d = some (enc [d]) := by
  have hb : blobsLen [d] = 8 + d.length := by simp [blobsLen]; omega
  have hn : u32 (4 + 4 + d.length) = 8 + d.length := Nat.mod_eq_of_lt (by omega)
  simp only [evPush, hn, Option.getD_none]
  obtain ⟨t, e, ht⟩ := resize_ge junk (b := []) (n := 8 + d.length) (by simp)
  rw [e]
  simp only [List.nil_append]
  simp only [List.length_nil] at ht
  have w0 : write t 0 [0, 0, 0, 0] = some ([0, 0, 0, 0] ++ t.drop 4) := by
    rw [write, if_pos (by simp; omega)]; simp
  rw [w0]
  simp only
  have h0 : enc [] = [0, 0, 0, 0] := rfl
  have hAt : At ([0, 0, 0, 0] ++ t.drop 4) 0 (enc []) := h0 ▸ At.of_append_left _ _
  rw [evSize_at hAt (by decide)]
  have : rd32 ([0, 0, 0, 0] ++ t.drop 4) 0 = some 0 := by
    have : At ([0, 0, 0, 0] ++ t.drop 4) 0 (le32 0) := hAt
    exact this.rd32 (by omega)
  simp only [this]
  have hcnt : u32 (0 + 1) = 1 := by decide
  have hbl : blobsLen [] = 4 := by decide
  rw [hcnt, hbl]
  have w1 : write ([0, 0, 0, 0] ++ t.drop 4) 0 (le32 1) = some (le32 1 ++ t.drop 4) := by
    rw [write, if_pos (by simp [le32_length])]; simp [le32]
  rw [w1]
  simp only
  have w2 : write (le32 1 ++ t.drop 4) 4 (le32 d.length) = some (le32 1 ++ le32 d.length ++ t.drop 8) := by
    rw [write, if_pos (by simp [le32_length]; omega)]; simp [le32]
  rw [w2]
  simp only
  rw [write, if_pos (by simp [le32_length]; omega)]
  rw [show (4 + 4) = (le32 1 ++ le32 d.length).length by simp [le32_length], List.take_left' rfl, List.drop_append]
  rw [List.drop_of_length_le (l := t.drop 8) (by simp [le32_length]; omega)]
  rw [List.drop_of_length_le (by simp)]
  simp [enc, chunks]

/-- Blobs of the encoded data of a session. -/
def encOpt (bs : List Buf) (o : Option Buf) : Prop := (o = none ∧ bs = []) ∨ (o = some (enc bs) ∧ bs ≠ [])

theorem blobsLen_append (a b : List Buf) : blobsLen (a ++ b) = blobsLen a + (chunks b).length := by
  simp [blobsLen, chunks_length]; omega

theorem opStep_enc (junk : Nat → Nat) {s : Sess} {sp : Option Buf × List Buf} {o : Op} (hn : s.name = sp.1)
    (he : encOpt sp.2 s.data) (hl : blobsLen (specStep sp o).2 < 4294967296) :
    ∃ s', opStep junk s o = some s' ∧ s'.name = (specStep sp o).1 ∧ encOpt (specStep sp o).2 s'.data := by
  obtain ⟨nm, bs⟩ := sp
  simp only at hn he
  cases o with
  | setName n => exact ⟨_, rfl, rfl, he⟩
  | del => exact ⟨_, rfl, hn, Or.inl ⟨rfl, rfl⟩⟩
  | push d =>
    simp only [opStep, specStep, hn] at hl ⊢
    split
    · exact ⟨s, rfl, hn, he⟩
    · rename_i hc
      rw [if_neg hc] at hl
      rcases he with ⟨h1, h2⟩ | ⟨h1, h2⟩
      · subst h2
        simp only [h1, evPush_none junk (by simpa using hl)]
        exact ⟨_, rfl, rfl, Or.inr ⟨rfl, by simp⟩⟩
      · simp only [h1, evPush_enc junk hl]
        exact ⟨_, rfl, rfl, Or.inr ⟨rfl, by simp⟩⟩

theorem runOps_enc (junk : Nat → Nat) {ops : List Op} {s : Sess} {sp : Option Buf × List Buf} (hn : s.name = sp.1)
    (he : encOpt sp.2 s.data) (hl : ∀ k, blobsLen ((ops.take k).foldl specStep sp).2 < 4294967296) :
    ∃ s', runOps junk s ops = some s' ∧ s'.name = (ops.foldl specStep sp).1 ∧ encOpt (ops.foldl specStep sp).2 s'.data := by
  induction ops generalizing s sp with
  | nil => exact ⟨s, rfl, hn, he⟩
  | cons o t ih =>
    obtain ⟨s1, e1, h1, h2⟩ := opStep_enc junk (o := o) hn he (by simpa using hl 1)
    simp only [runOps, e1]
    exact ih h1 h2 (fun k => by simpa using hl (k + 1))

theorem IsStr.name {n : Option Buf} (h : ∀ s, n = some s → IsStr s) : IsStr (n.getD []) := by
  cases n with
  | none => intro c hc; simp at hc
  | some s => exact h s rfl

/-- Chained disjoint writes. -/
theorem write_keep {b : Buf} {off : Nat} {bs : Buf} (h : off + bs.length ≤ b.length) :
    ∃ b', write b off bs = some b' ∧ b'.length = b.length ∧ At b' off bs ∧
      ∀ o x, o + List.length x ≤ off → At b o x → At b' o x := by
  obtain ⟨b', e, hl, ha, hf⟩ := write_some h
  exact ⟨b', e, hl, ha, fun o x ho hx => hx.frame hf (Or.inl ho)⟩

end Verif.EvData
