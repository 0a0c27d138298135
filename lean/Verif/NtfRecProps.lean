import Verif.NtfRec

/-! Properties of the bytes of notification files: C58. -/
namespace Verif.NtfRec
open Verif.Bytes

theorem val_le32 {n : Nat} (h : n < 4294967296) : val (le32 n) = n := by
  simp only [le32, val]; omega

theorem val_append (a b : Buf) : val (a ++ b) = val a + 256 ^ a.length * val b := by
  induction a with
  | nil => simp [val]
  | cons x t ih => simp only [List.cons_append, val, ih, List.length_cons, Nat.pow_succ]; grind

theorem val_le64 {n : Nat} (h : n < 2 ^ 64) : val (le64 n) = n := by
  rw [le64, val_append, val_le32 (by omega), val_le32 (by omega)]
  simp only [le32_length]; omega

theorem le64_length (n : Nat) : (le64 n).length = 8 := rfl

theorem readN_append (old : Nat → Nat) (a b : Buf) : readN old (a ++ b) a.length = (a, b) := by
  simp [readN]

theorem readTs_enc {x : Notif} (h : x.Fits) (f : Buf) :
    readTs (enc x ++ f) = ((x.sec, x.nsec), le32 x.json.length ++ (x.json ++ f)) := by
  have he : enc x ++ f = (le64 x.sec ++ le64 x.nsec) ++ (le32 x.json.length ++ (x.json ++ f)) := by
    simp [enc, u32, Nat.mod_eq_of_lt h.2.2.2]
  have h1 := readN_append (fun _ => 0) (le64 x.sec ++ le64 x.nsec) (le32 x.json.length ++ (x.json ++ f))
  rw [show (le64 x.sec ++ le64 x.nsec).length = 16 from rfl] at h1
  simp only [readTs, he, h1]
  rw [show (8 : Nat) = (le64 x.sec).length from rfl, List.take_left, List.drop_left, val_le64 h.2.1, val_le64 h.2.2.1]

theorem readNotif_enc (old : Nat → Nat) {x : Notif} (h : x.Fits) (f : Buf) :
    readNotif old (le32 x.json.length ++ (x.json ++ f)) = (x.json, f) := by
  have h1 := readN_append old (le32 x.json.length) (x.json ++ f)
  rw [le32_length] at h1
  simp only [readNotif, h1, val_le32 h.2.2.2]
  exact readN_append old x.json f

/-- C58 (partial: every record was written completely): reading a file gives exactly the written notifications with their
times. -/
theorem roundtrip_partial (old : Nat → Nat) (l : List Notif) (h : ∀ x ∈ l, x.Fits) (n : Nat) (hn : l.length < n) :
    readAll old n (l.flatMap enc) = l := by
  induction l generalizing n with
  | nil =>
    cases n with
    | zero => rfl
    | succ n => simp [readAll, readTs, readN, val, List.range_succ]
  | cons x t ih =>
    cases n with
    | zero => simp at hn
    | succ n =>
      have hx := h x (by simp)
      have hp : x.sec ≠ 0 := Nat.ne_of_gt hx.1
      simp only [readAll, List.flatMap_cons, readTs_enc hx, readNotif_enc old hx]
      rw [if_neg hp, ih (fun y hy => h y (by simp [hy])) n (by simpa using hn)]

/-- Skipping a notification is the same as reading it. -/
theorem skip_reads (old : Nat → Nat) {x : Notif} (h : x.Fits) (f : Buf) :
    skipNotif old (readTs (enc x ++ f)).2 = f := by
  rw [readTs_enc h]
  have h1 := readN_append old (le32 x.json.length) (x.json ++ f)
  rw [le32_length] at h1
  simp only [skipNotif, h1, val_le32 h.2.2.2, List.drop_left]

example : readAll (fun _ => 7) 3 ([⟨5, 6, [123, 125]⟩, ⟨300, 70000, [1, 2, 3]⟩].flatMap enc) =
    [⟨5, 6, [123, 125]⟩, ⟨300, 70000, [1, 2, 3]⟩] := by decide

theorem readAll_stable (old : Nat → Nat) (n k : Nat) (f : Buf) (h : (readAll old n f).length < n) :
    readAll old (n + k) f = readAll old n f := by
  induction n generalizing f with
  | zero => simp at h
  | succ n ih =>
    rw [show n + 1 + k = (n + k) + 1 by omega]
    simp only [readAll] at h ⊢
    split
    · rfl
    · rename_i hc
      rw [if_neg hc] at h
      rw [ih _ (by simpa using h)]

theorem readAll_prefix (old : Nat → Nat) (n k : Nat) (f : Buf) : readAll old n f <+: readAll old (n + k) f := by
  induction n generalizing f with
  | zero => exact List.nil_prefix
  | succ n ih =>
    rw [show n + 1 + k = (n + k) + 1 by omega]
    simp only [readAll]
    split
    · exact List.prefix_refl _
    · exact List.cons_prefix_cons.2 ⟨rfl, ih _⟩

/-- C58 does not hold if writing of a notification was interrupted (by a crash or a full disk): a notification stored
later into the file is not read back. -/
theorem torn_record_loses_later : ∃ (a b : Notif) (k : Nat), a.Fits ∧ b.Fits ∧ k < (enc a).length ∧
    ∀ n, b ∉ readAll (fun _ => 0) n ((enc a).take k ++ enc b) := by
  refine ⟨⟨5, 6, [123, 125]⟩, ⟨9, 1, [123, 125]⟩, 16, ⟨by decide, by decide, by decide, by decide⟩,
    ⟨by decide, by decide, by decide, by decide⟩, by decide, fun n hm => ?_⟩
  have h3 : readAll (fun _ => 0) 3 ((enc ⟨5, 6, [123, 125]⟩).take 16 ++ enc ⟨9, 1, [123, 125]⟩) =
      [⟨5, 6, [0, 0, 0, 0, 1, 0, 0, 0, 0]⟩, ⟨8863084066698690560, 125, []⟩] := by decide
  have hp := readAll_prefix (fun _ => 0) n 3 ((enc ⟨5, 6, [123, 125]⟩).take 16 ++ enc ⟨9, 1, [123, 125]⟩)
  rw [Nat.add_comm, readAll_stable _ 3 n _ (by rw [h3]; decide), h3] at hp
  exact absurd (hp.subset hm) (by decide)

end Verif.NtfRec
