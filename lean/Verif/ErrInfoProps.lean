import Verif.ErrInfo
/-!
Property C11: subscriber errors survive the trip. Specification (`spec`, `expected`, `Same`) in
`Verif/ErrInfo.lean`.
-/
namespace Verif.ErrInfo
open Verif.Bytes Verif.EvData

/-- **C11 (partial: all the errors together below 2 GiB, and no error with data but without a format).** For every
sequence of API calls of the callback, every returned code, every content of newly allocated memory and every old
content of the data SHM: the originator reads exactly the errors that were set, in their order, with their codes,
messages, formats and data; if none was set, one error with the returned code and its standard text. -/
theorem errors_delivered_partial (junk : Nat → Nat) (strerror : Nat → Buf) (rc : Nat) (ops : List Op)
    (hop : ∀ o ∈ ops, OpOk o) (hrc : rc < 4294967296) (hstr : IsStr (strerror rc))
    (hlen : ∀ k, totalLen (expected strerror rc (spec (ops.take k))) < 2147483648)
    (hfmt : ∀ v ∈ spec ops, (v.fmt = none ∨ v.fmt = some []) → v.blobs = []) :
    ∃ errs data, runOps junk [] ops = some errs ∧ prepareError junk strerror rc errs = some data ∧
      ∀ shm, data.length ≤ shm.length →
        ∃ shm' out, write shm 0 data = some shm' ∧ readErrors shm' = some out ∧
          out.length = (expected strerror rc (spec ops)).length ∧
          ∀ (i : Nat) (e : Err) (v : ErrV), out[i]? = some e → (expected strerror rc (spec ops))[i]? = some v → Same e v := by
  obtain ⟨errs, e1, h1⟩ := runOps_rep junk (ops := ops) (l := []) (s := []) trivial (fun k => by
    have := hlen k
    unfold expected spec at this
    split at this
    · rename_i hk; rw [hk]; decide
    · exact this)
  change Reps errs (spec ops) at h1
  have hall := hlen ops.length
  rw [List.take_length] at hall
  have hok := spec_ok hop
  obtain ⟨t0, e0, l0⟩ := put_ok junk (e := ⟨[], 0, 0⟩)
    (bs := le32 (u32 (if errs = [] then [(⟨rc, none, none, none⟩ : Err)] else errs).length)) (sz := 8) rfl rfl
    (by simp [le32_length]) (by decide)
  simp only [List.nil_append, Nat.zero_add] at e0 l0
  -- the encoding has the layout of the expected errors
  have key : ∃ t cur, encErrs junk strerror rc
      ⟨le32 (u32 (if errs = [] then [(⟨rc, none, none, none⟩ : Err)] else errs).length) ++ t0, 8, 8⟩
      (if errs = [] then [⟨rc, none, none, none⟩] else errs) =
        some ⟨le32 (u32 (if errs = [] then [(⟨rc, none, none, none⟩ : Err)] else errs).length) ++ t0 ++ t, cur, cur⟩ ∧
      ErrsAt (le32 (u32 (if errs = [] then [(⟨rc, none, none, none⟩ : Err)] else errs).length) ++ t0 ++ t) 8
        (expected strerror rc (spec ops)) ∧
      (if errs = [] then [(⟨rc, none, none, none⟩ : Err)] else errs).length = (expected strerror rc (spec ops)).length := by
    have hlength := h1.length
    unfold totalLen at hall
    unfold expected at hall ⊢
    by_cases hs : spec ops = []
    · have he : errs = [] := by rw [hs] at hlength; exact List.length_eq_zero_iff.1 hlength
      rw [if_pos he] at l0
      rw [if_pos hs] at hall
      simp only [if_pos he, if_pos hs]
      simp only [List.map_cons, List.map_nil, List.sum_cons, List.sum_nil] at hall
      obtain ⟨t, e2, ht, hat⟩ := encErr_ok junk strerror rc (e := ⟨_, 8, 8⟩) (x := ⟨rc, none, none, none⟩)
        (v := ⟨rc, strerror rc, none, []⟩) l0 rfl rfl rfl rfl (Or.inl ⟨rfl, rfl⟩) (by simp only; omega)
      refine ⟨t, 8 + errLen ⟨rc, strerror rc, none, []⟩, ?_, ⟨hat, trivial⟩, by simp⟩
      simp only [encErrs, e2]
    · have he : ¬ errs = [] := by
        intro he; rw [he] at hlength; exact hs (List.length_eq_zero_iff.1 hlength.symm)
      rw [if_neg he] at l0
      rw [if_neg hs] at hall
      simp only [if_neg he, if_neg hs]
      obtain ⟨t, cur, e2, hat⟩ := encErrs_ok junk strerror rc h1 (e := ⟨_, 8, 8⟩) l0 rfl (by simp only; omega)
      exact ⟨t, cur, e2, hat, hlength⟩
  obtain ⟨t, cur, e2, hat, hlength⟩ := key
  refine ⟨errs, le32 (u32 (if errs = [] then [(⟨rc, none, none, none⟩ : Err)] else errs).length) ++ t0 ++ t, e1, ?_, ?_⟩
  · simp only [prepareError, e0, e2, Option.map_some]
  intro shm hshm
  rw [hlength] at hat hshm ⊢
  -- the count fits
  have hcount : (expected strerror rc (spec ops)).length < 4294967296 := by
    have : ∀ l : List ErrV, l.length ≤ (l.map errLen).sum := by
      intro l
      induction l with
      | nil => simp
      | cons v l ih =>
        have := blobsLen_le_errLen v
        simp; omega
    have := this (expected strerror rc (spec ops))
    unfold totalLen at hall; omega
  rw [show u32 (expected strerror rc (spec ops)).length = (expected strerror rc (spec ops)).length from
    Nat.mod_eq_of_lt hcount] at hat hshm ⊢
  obtain ⟨shm', e3, hl3, hat3, -⟩ := write_some (b := shm) (off := 0) (by omega) (bs := le32 (expected strerror rc (spec ops)).length ++ t0 ++ t)
  have hcnt : rd32 shm' 0 = some (expected strerror rc (spec ops)).length := by
    have := hat3
    rw [List.append_assoc, At.append] at this
    exact this.1.rd32 hcount
  have hv : ∀ v ∈ expected strerror rc (spec ops), VOk v := by
    unfold expected
    split
    · intro v hv; simp at hv; subst hv; exact ⟨hrc, hstr, by simp⟩
    · exact hok
  have hne : ∀ v ∈ expected strerror rc (spec ops), (v.fmt = none ∨ v.fmt = some []) → v.blobs = [] := by
    unfold expected
    split
    · intro v hv; simp at hv; subst hv; simp
    · exact hfmt
  obtain ⟨out, e4, h4⟩ := decErrs_ok (shm := shm') hv hne (by unfold totalLen at hall; omega) (hat.trans hat3)
  refine ⟨shm', out, e3, ?_, h4.get⟩
  simp only [readErrors, hcnt, e4]

/-- A concrete history meeting the hypotheses: two errors, the first one with a format and two blobs. -/
example :
    let ops : List Op := [.pushData [1], .setError (some [102]) 9 [97, 98], .pushData [1, 2], .pushData [3], .setMessage []]
    spec ops = [⟨9, [97, 98], some [102], [[1, 2], [3]]⟩, ⟨10, [], none, []⟩] ∧
    (∀ v ∈ spec ops, (v.fmt = none ∨ v.fmt = some []) → v.blobs = []) ∧
    (∀ k, k ≤ 5 → totalLen (expected (fun _ => [120]) 9 (spec (ops.take k))) < 2147483648) ∧
    (((runOps (fun i => i) [] ops).bind (prepareError (fun i => i + 1) (fun _ => [120]) 9)).bind readErrors).map
      (fun out => out.map fun e => (e.code, e.msg, evGet e.data 1)) =
      some [(9, some [97, 98], .ok [3]), (10, some [], .notFound)] := by
  refine ⟨by decide, by decide, by decide, by decide +kernel⟩

/-- **C11, negation.** Data of an error whose format was removed again (or is empty) do not arrive: the callback set
an error with data, the originator gets it without them. -/
theorem data_without_format_lost :
    ∃ (ops : List Op) (v : ErrV) (e : Err) (data : Buf), (∀ o ∈ ops, OpOk o) ∧ spec ops = [v] ∧ v.blobs = [[1]] ∧
      (runOps (fun _ => 0) [] ops).bind (prepareError (fun _ => 0) (fun _ => [120]) 9) = some data ∧
      readErrors data = some [e] ∧ evGet e.data 0 = .notFound := by
  refine ⟨[.setError (some []) 9 [97], .pushData [1]], ⟨9, [97], some [], [[1]]⟩, ⟨9, some [97], none, none⟩, _, ?_, by decide,
    rfl, rfl, by decide, by decide⟩
  intro o ho
  simp at ho
  rcases ho with rfl | rfl
  · refine ⟨?_, by decide, ?_⟩
    · rintro f ⟨⟩ c hc; simp at hc
    · intro c hc; simp at hc; subst hc; decide
  · trivial

/-- **C11, negation.** A missing message is replaced by the text of the code the callback returned, not of the code
of the error. -/
theorem missing_message_uses_returned_code (junk : Nat → Nat) (strerror : Nat → Buf) (rc code : Nat)
    (hc : code < 4294967296) (hs : IsStr (strerror rc)) (hl : strshmlen (strerror rc) < 1000) :
    ∃ data, prepareError junk strerror rc [⟨code, none, none, none⟩] = some data ∧
      readErrors data = some [⟨code, some (strerror rc), none, none⟩] := by
  obtain ⟨t0, e0, l0⟩ := put_ok junk (e := ⟨[], 0, 0⟩) (bs := le32 1) (sz := 8) rfl rfl (by simp [le32_length]) (by decide)
  simp only [List.nil_append, Nat.zero_add] at e0 l0
  have hz : strshmlen [] = 8 := by decide
  have hb : align8 (blobsLen []) = 8 := by decide
  have hlen : errLen ⟨code, strerror rc, none, []⟩ = 24 + strshmlen (strerror rc) := by
    simp only [errLen, Option.getD_none, hz, hb]; omega
  obtain ⟨t, e2, ht, hat⟩ := encErr_ok junk strerror rc (e := ⟨_, 8, 8⟩) (x := ⟨code, none, none, none⟩)
    (v := ⟨code, strerror rc, none, []⟩) l0 rfl rfl rfl rfl (Or.inl ⟨rfl, rfl⟩) (by rw [hlen]; simp only; omega)
  refine ⟨le32 1 ++ t0 ++ t, ?_, ?_⟩
  · have hu : u32 1 = 1 := by decide
    simp only [prepareError, List.cons_ne_nil, if_false, List.length_cons, List.length_nil, Nat.zero_add, hu, e0, encErrs, e2,
      Option.map_some]
  · have hc1 : rd32 (le32 1 ++ t0 ++ t) 0 = some 1 := by
      have := EvData.At.of_append_left (le32 1) (t0 ++ t)
      rw [← List.append_assoc] at this
      exact this.rd32 (by omega)
    have hAt := hat
    have hfs : IsStr ([] : Buf) := by intro c hc; simp at hc
    have hsz := evSize_at hAt.2.2.2 (show blobsLen [] < 4294967296 by decide)
    have hb2 : blobsLen [] = 4 := by decide
    have hel := enc_length []
    have hsl := hAt.2.2.2.slice (by simp [enc, le32])
    rw [hel] at hsl
    have h1 := hAt.1.rd32 hc
    have h2 := hAt.2.1.cstr hs
    have h3 := hAt.2.2.1.cstr hfs
    simp only [Option.getD_none] at h1 h2 h3 hsz hsl
    simp only [readErrors, hc1, decErrs, decErr, h1, h2, h3, hsz, hsl, Option.map_some, if_true]

end Verif.ErrInfo
