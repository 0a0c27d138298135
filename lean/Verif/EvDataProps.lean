import Verif.EvData
/-!
Property C10: originator data survive the trip. Specification (`spec`, `wanted`) in `Verif/EvData.lean`.
-/
namespace Verif.EvData
open Verif.Bytes

/-- **C10 (partial: everything attached to one session together below 2 GiB).** For every sequence of API calls
setting the originator name, pushing and deleting data, whatever the newly allocated memory contained: the calls
have defined behaviour, and if an event is then written into a data SHM with any old content and of at least the
computed size, the session of the subscriber reads the same name, exactly the same blobs in the same order, not
found for every other index, and the same XPath and event data. -/
theorem orig_data_delivered_partial (junk : Nat → Nat) (ops : List Op)
    (hstr : ∀ s, .setName (some s) ∈ ops → IsStr s)
    (hlen : ∀ k, blobsLen (spec (ops.take k)).2 < 2147483640) :
    ∃ s, runOps junk ⟨none, none⟩ ops = some s ∧
      ∀ (xpath : Option Buf) (ev shm : Buf) (n : Nat), (∀ x, xpath = some x → IsStr x) →
        strshmlen ((spec ops).1.getD []) < 2147483648 →
        eventSize s.name s.data xpath ev = some n → n ≤ shm.length →
        ∃ shm' name d p, writeEvent shm s.name s.data xpath ev = some shm' ∧
          readOrig shm' = some (name, d, p) ∧
          name = (spec ops).1.getD [] ∧
          (∀ idx, evGet (some d) idx = wanted (spec ops).2 idx) ∧
          (match xpath with
            | some x => cstr shm' p = some x ∧ slice shm' (p + strshmlen x) ev.length = some ev
            | none => slice shm' p ev.length = some ev) := by
  obtain ⟨s, e, hn, he⟩ := runOps_enc junk (ops := ops) (s := ⟨none, none⟩) (sp := (none, [])) rfl (Or.inl ⟨rfl, rfl⟩)
    (fun k => by have := hlen k; unfold spec at this; omega)
  refine ⟨s, e, ?_⟩
  change s.name = (spec ops).1 at hn
  change encOpt (spec ops).2 s.data at he
  have hall := hlen ops.length
  rw [List.take_length] at hall
  -- the name is a string
  have hns : ∀ x, (spec ops).1 = some x → IsStr x := by
    have key : ∀ (l : List Op) (sp : Option Buf × List Buf), (∀ x, .setName (some x) ∈ l → IsStr x) →
        (∀ x, sp.1 = some x → IsStr x) → ∀ x, (l.foldl specStep sp).1 = some x → IsStr x := by
      intro l
      induction l with
      | nil => intro sp _ h2; exact h2
      | cons o t ih =>
        intro sp h1 h2
        refine ih _ (fun x hx => h1 x (by simp [hx])) ?_
        intro x hx
        cases o with
        | setName nm => simp only [specStep] at hx; exact h1 x (by simp [hx])
        | push d =>
          simp only [specStep] at hx
          split at hx <;> exact h2 x hx
        | del => exact h2 x hx
    exact key ops (none, []) hstr (fun x hx => by simp at hx)
  generalize (spec ops).2 = bs at *
  generalize (spec ops).1 = nm at *
  intro xpath ev shm n hxs hnl hsz hshm
  -- encoded data
  have hd : s.data.getD emptyData = enc bs := by
    rcases he with ⟨h1, h2⟩ | ⟨h1, -⟩
    · rw [h1, h2]; rfl
    · rw [h1]; rfl
  have hAt0 : At (enc bs) 0 (enc bs) := by have := At.of_append_left (enc bs) []; simpa using this
  have hsize : evSize (enc bs) 0 = some (blobsLen bs) := evSize_at hAt0 (by omega)
  have hel := enc_length bs
  have hslice : slice (enc bs) 0 (blobsLen bs) = some (enc bs) := by
    rw [← hel]; exact slice_at hAt0 (by omega)
  have hstrn := IsStr.name hns
  have ha1 := align8_ge (blobsLen bs)
  have ha2 := align8_lt (blobsLen bs)
  have hs1 : (nm.getD []).length + 1 ≤ strshmlen (nm.getD []) := align8_ge _
  have hu : u32 (strshmlen (nm.getD []) + align8 (blobsLen bs)) = strshmlen (nm.getD []) + align8 (blobsLen bs) :=
    Nat.mod_eq_of_lt (by omega)
  simp only [eventSize, hn, hd, hsize, hu, Option.some.injEq] at hsz
  simp only [writeEvent, hn, hd, hsize, hslice]
  generalize nm.getD [] = name at *
  generalize hB : blobsLen bs = B at *
  obtain ⟨m1, e1, l1, a1, -⟩ := write_keep (b := shm) (off := 0) (bs := name ++ [0]) (by simp; omega)
  obtain ⟨m2, e2, l2, a2, k2⟩ := write_keep (b := m1) (off := strshmlen name) (bs := enc bs) (by omega)
  have a1' := k2 0 (name ++ [0]) (by simp; omega) a1
  have hread : ∀ m3, m3.length = m2.length → At m3 0 (name ++ [0]) → At m3 (strshmlen name) (enc bs) →
      readOrig m3 = some (name, enc bs, strshmlen name + align8 B) := by
    intro m3 hl3 h1 h2
    have h3 : slice m3 (strshmlen name) B = some (enc bs) := by rw [← hel]; exact slice_at h2 (by omega)
    simp only [readOrig, h1.cstr hstrn, evSize_at h2 (by omega), hB, h3]
  cases xpath with
  | none =>
    simp only at hsz ⊢
    obtain ⟨m4, e4, l4, a4, k4⟩ := write_keep (b := m2) (off := strshmlen name + align8 B + 0) (bs := ev) (by omega)
    refine ⟨m4, name, enc bs, strshmlen name + align8 B, ?_, hread m4 l4 ?_ ?_, rfl, fun idx => evGet_at hAt0 (by omega) idx, ?_⟩
    · simp only [List.append_nil, List.cons_append, List.nil_append, writes, e1, e2, e4]
    · exact k4 _ _ (by simp; omega) a1'
    · exact k4 _ _ (by omega) a2
    · exact slice_at a4 (by omega)
  | some x =>
    simp only at hsz ⊢
    have hx1 : x.length + 1 ≤ strshmlen x := align8_ge _
    obtain ⟨m3, e3, l3, a3, k3⟩ := write_keep (b := m2) (off := strshmlen name + align8 B) (bs := x ++ [0]) (by simp; omega)
    obtain ⟨m4, e4, l4, a4, k4⟩ := write_keep (b := m3) (off := strshmlen name + align8 B + strshmlen x) (bs := ev) (by omega)
    refine ⟨m4, name, enc bs, strshmlen name + align8 B, ?_, hread m4 (by omega) ?_ ?_, rfl, fun idx => evGet_at hAt0 (by omega) idx, ?_, ?_⟩
    · simp only [List.cons_append, List.nil_append, writes, e1, e2, e3, e4]
    · exact k4 _ _ (by simp; omega) (k3 _ _ (by simp; omega) a1')
    · exact k4 _ _ (by omega) (k3 _ _ (by omega) a2)
    · exact (k4 _ _ (by simp; omega) a3).cstr (hxs x rfl)
    · exact slice_at a4 (by omega)

/-- A concrete history meeting the hypotheses: two blobs, one refused empty push. -/
example :
    let ops : List Op := [.push [9], .setName (some [110, 49]), .push [1, 0, 2], .push [], .push [7]]
    spec ops = (some [110, 49], [[1, 0, 2], [7]]) ∧
    (∀ k, k ≤ 5 → blobsLen (spec (ops.take k)).2 < 2147483640) ∧
    ∃ s, runOps (fun i => i + 3) ⟨none, none⟩ ops = some s ∧ evGet s.data 1 = .ok [7] ∧ evGet s.data 2 = .notFound ∧
      eventSize s.name s.data (some [47, 97]) [5, 5] = some 34 := by
  refine ⟨by decide, by decide, _, rfl, by decide, by decide, by decide⟩

/-- **C10, negation for huge blobs.** The size of the memory is computed in 32 bits: every first blob of 4 GiB − 8
or more (its size still fits the `uint32_t` parameter) is written behind the end of the allocated memory. -/
theorem huge_blob_overflows (junk : Nat → Nat) (d : Buf) (h1 : 4294967288 ≤ d.length) (h2 : d.length < 4294967296) :
    evPush junk none d = none := by
  have hn : u32 (4 + 4 + d.length) = d.length - 4294967288 := by unfold u32; omega
  simp only [evPush, hn, Option.getD_none]
  have hrl : (resize junk [] (d.length - 4294967288)).length = d.length - 4294967288 := resize_length ..
  generalize resize junk [] (d.length - 4294967288) = m0 at *
  cases hw : write m0 0 [0, 0, 0, 0] with
  | none => rfl
  | some m1 =>
    have hm1 := write_length hw
    simp only
    split
    · split
      · rfl
      · rename_i m2 e2
        have hm2 := write_length e2
        split
        · rfl
        · rename_i m3 e3
          have hm3 := write_length e3
          rw [write, if_neg (by omega)]
    · rfl

end Verif.EvData
