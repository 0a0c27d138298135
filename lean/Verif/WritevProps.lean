import Verif.Writev

/-! Properties C35 and C36: writing and copying files. -/
namespace Verif.Writev

/-! ## Lemmas about `skip` -/

theorem subSize_le {a b : Nat} (h : b ≤ a) (ha : a < 2 ^ 64) : subSize a b = a - b := by
  unfold subSize; omega

theorem subSize_lt {a b : Nat} (h : a < b) (hb : b < 2 ^ 63) : subSize a b = 2 ^ 64 - (b - a) := by
  unfold subSize; omega

/-- After the counter has wrapped, every remaining vector is skipped. -/
theorem skip_huge (iov : List Bytes) (w : Nat) (hw : w < 2 ^ 64)
    (hb : iov.flatten.length + 2 ^ 63 ≤ w) : skip iov w = (w - iov.flatten.length, []) := by
  induction iov generalizing w with
  | nil => simp [skip]
  | cons v rest ih =>
    simp only [List.flatten_cons, List.length_append] at hb ⊢
    have h1 : subSize w v.length = w - v.length := subSize_le (by omega) hw
    cases rest with
    | nil => simp [skip, h1]
    | cons v2 rest' =>
      have h2 : v2.length ≤ (v2 :: rest').flatten.length := by simp
      have : subSize w v.length ≥ v2.length := by rw [h1]; omega
      simp only [skip, if_pos this]
      rw [ih _ (by rw [h1]; omega) (by rw [h1]; omega), h1]
      congr 1
      omega

/-- What the skipping loop leaves: either the first vector was not completely written and no
vector remains with a nonzero counter, or exactly the written bytes are gone. -/
theorem skip_spec (v : Bytes) (rest : List Bytes) (w : Nat)
    (ht : (v :: rest).flatten.length < 2 ^ 63) (hw : w ≤ (v :: rest).flatten.length) :
    (w < v.length → (skip (v :: rest) w).2 = [] ∧ (skip (v :: rest) w).1 ≠ 0) ∧
    (v.length ≤ w →
      (skip (v :: rest) w).2.flatten.drop (skip (v :: rest) w).1 = (v :: rest).flatten.drop w ∧
      ((skip (v :: rest) w).2 = [] → (skip (v :: rest) w).1 = 0) ∧
      (∀ x, x ∈ (skip (v :: rest) w).2 → x ∈ rest) ∧
      (∀ x r, (skip (v :: rest) w).2 = x :: r → (skip (v :: rest) w).1 < x.length)) := by
  induction rest generalizing v w with
  | nil =>
    simp only [List.flatten_cons, List.flatten_nil, List.append_nil] at ht hw
    constructor
    · intro h
      have := subSize_lt h ht
      refine ⟨rfl, ?_⟩
      simp only [skip, this]; omega
    · intro h
      have : w = v.length := by omega
      subst this
      have := subSize_le (Nat.le_refl v.length) (by omega)
      simp [skip, this]
  | cons v2 rest' ih =>
    have hfl : (v :: v2 :: rest').flatten = v ++ (v2 :: rest').flatten := rfl
    rw [hfl] at ht hw ⊢
    simp only [List.length_append] at ht hw
    have hv2 : v2.length ≤ (v2 :: rest').flatten.length := by simp
    constructor
    · intro h
      have h1 := subSize_lt h (by omega)
      have h2 : subSize w v.length ≥ v2.length := by rw [h1]; omega
      simp only [skip, if_pos h2]
      rw [skip_huge _ _ (by rw [h1]; omega) (by rw [h1]; omega), h1]
      refine ⟨rfl, ?_⟩
      simp only
      omega
    · intro h
      have h1 := subSize_le h (by omega)
      by_cases h2 : subSize w v.length ≥ v2.length
      · simp only [skip, if_pos h2]
        have h3 := (ih v2 (subSize w v.length) (by omega) (by rw [h1]; omega)).2 (by omega)
        refine ⟨?_, h3.2.1, fun x hx => List.mem_cons_of_mem _ (h3.2.2.1 x hx), h3.2.2.2⟩
        rw [h3.1, h1, List.drop_append]
        simp [List.drop_eq_nil_of_le h]
      · simp only [skip, if_neg h2]
        refine ⟨?_, by simp, fun x hx => hx, ?_⟩
        · rw [h1, List.drop_append]
          simp [List.drop_eq_nil_of_le h]
        · intro x r hx
          have : x = v2 := by simpa using (congrArg List.head? hx).symm
          subst this; omega

theorem flatten_advance (w : Nat) (iov : List Bytes)
    (h : ∀ x r, iov = x :: r → w < x.length) : (advance w iov).flatten = iov.flatten.drop w := by
  cases iov with
  | nil => simp [advance]
  | cons v rest =>
    have := h v rest rfl
    simp [advance, List.drop_append, Nat.sub_eq_zero_of_le (Nat.le_of_lt this)]

/-- Number of bytes the kernel wrote in one call given that `total` were requested. -/
def taken (o : KWrite) (total : Nat) : Nat :=
  match o with
  | .wrote n => min n total
  | _ => 0

theorem taken_le (o : KWrite) (t : Nat) : taken o t ≤ t := by
  cases o <;> simp [taken]; omega

/-- One iteration of the outer loop: stopped by an error, stopped because the first vector was
not completely written, or going on with exactly the unwritten bytes. -/
theorem writev_iter (nd : Bool) (k : Nat → KWrite) (v : Bytes) (rest : List Bytes) (file : Bytes)
    (ht : (v :: rest).flatten.length < 2 ^ 63) :
    (k 0 = .fail ∧ writev nd k (v :: rest) file = .err file) ∨
    (k 0 ≠ .fail ∧ taken (k 0) (v :: rest).flatten.length < v.length ∧
      writev nd k (v :: rest) file =
        (if nd then .smash (file ++ (v :: rest).flatten.take (taken (k 0) (v :: rest).flatten.length))
         else .abort (file ++ (v :: rest).flatten.take (taken (k 0) (v :: rest).flatten.length)))) ∨
    (k 0 ≠ .fail ∧ v.length ≤ taken (k 0) (v :: rest).flatten.length ∧
      ∃ iov', iov'.length ≤ rest.length ∧
        iov'.flatten = (v :: rest).flatten.drop (taken (k 0) (v :: rest).flatten.length) ∧
        (∀ m, (∀ x ∈ v :: rest, x.length ≤ m) → ∀ x ∈ iov', x.length ≤ m) ∧
        writev nd k (v :: rest) file =
          writev nd (fun i => k (i + 1)) iov'
            (file ++ (v :: rest).flatten.take (taken (k 0) (v :: rest).flatten.length))) := by
  have key : ∀ (o : KWrite) (ho : o ≠ .fail) (hk : k 0 = o),
      writev nd k (v :: rest) file =
        if (skip (v :: rest) (taken o (v :: rest).flatten.length)).1 ≠ 0 then
          if (skip (v :: rest) (taken o (v :: rest).flatten.length)).2 = [] then
            (if nd then .smash (file ++ (v :: rest).flatten.take (taken o (v :: rest).flatten.length))
             else .abort (file ++ (v :: rest).flatten.take (taken o (v :: rest).flatten.length)))
          else writev nd (fun i => k (i + 1))
            (advance (skip (v :: rest) (taken o (v :: rest).flatten.length)).1
              (skip (v :: rest) (taken o (v :: rest).flatten.length)).2)
            (file ++ (v :: rest).flatten.take (taken o (v :: rest).flatten.length))
        else writev nd (fun i => k (i + 1)) (skip (v :: rest) (taken o (v :: rest).flatten.length)).2
          (file ++ (v :: rest).flatten.take (taken o (v :: rest).flatten.length)) := by
    intro o ho hk
    rw [writev.eq_def]
    simp only [hk]
    cases o with
    | fail => exact absurd rfl ho
    | wrote n => rfl
    | eintr => rfl
  by_cases hf : k 0 = .fail
  · left
    refine ⟨hf, ?_⟩
    rw [writev.eq_def]
    simp [hf]
  right
  have hkey := key (k 0) hf rfl
  have hsp := skip_spec v rest (taken (k 0) (v :: rest).flatten.length) ht (taken_le _ _)
  by_cases hlt : taken (k 0) (v :: rest).flatten.length < v.length
  · left
    refine ⟨hf, hlt, ?_⟩
    have := hsp.1 hlt
    rw [hkey, if_pos this.2, if_pos this.1]
  · right
    refine ⟨hf, by omega, ?_⟩
    obtain ⟨hd, hnil, hmem, hfst⟩ := hsp.2 (by omega)
    have hsh := skip_shorter (v :: rest) (taken (k 0) (v :: rest).flatten.length) (by simp)
    generalize hsk : skip (v :: rest) (taken (k 0) (v :: rest).flatten.length) = s at *
    simp only [List.length_cons] at hsh
    by_cases h0 : s.1 = 0
    · refine ⟨s.2, by omega, ?_, ?_, ?_⟩
      · rw [← hd, h0]; rfl
      · intro m hm x hx
        exact hm x (List.mem_cons_of_mem _ (hmem x hx))
      · rw [hkey]; simp [h0]
    · have hne : s.2 ≠ [] := fun h => h0 (hnil h)
      refine ⟨advance s.1 s.2, by rw [advance_length]; omega, ?_, ?_, ?_⟩
      · rw [flatten_advance _ _ hfst, hd]
      · intro m hm x hx
        cases hs2 : s.2 with
        | nil => exact absurd hs2 hne
        | cons y r =>
          rw [hs2] at hx hmem
          simp only [advance, List.mem_cons] at hx
          rcases hx with hx | hx
          · subst hx
            have := hm y (List.mem_cons_of_mem _ (hmem y (by simp)))
            simp only [List.length_drop]; omega
          · exact hm x (List.mem_cons_of_mem _ (hmem x (List.mem_cons_of_mem _ hx)))
      · rw [hkey]; simp [h0, hne]

/-- Generic induction for `writev`. -/
theorem writev_cases (nd : Bool) : ∀ (n : Nat) (k : Nat → KWrite) (iov : List Bytes) (file : Bytes),
    iov.length ≤ n → iov.flatten.length < 2 ^ 63 →
    (∃ j, (writev nd k iov file).file = file ++ iov.flatten.take j) ∧
    (∀ f, writev nd k iov file = .ok f → f = file ++ iov.flatten) ∧
    (∀ m, (∀ x ∈ iov, x.length ≤ m) → (∀ i, ∃ j, m ≤ j ∧ k i = .wrote j) →
      writev nd k iov file = .ok (file ++ iov.flatten)) := by
  intro n
  induction n with
  | zero =>
    intro k iov file hl ht
    have : iov = [] := List.length_eq_zero_iff.mp (by omega)
    subst this
    rw [writev.eq_def]
    refine ⟨⟨0, by simp [WRes.file]⟩, ?_, ?_⟩
    · intro f h; simp at h; simp [h]
    · intros; simp
  | succ n ih =>
    intro k iov file hl ht
    cases iov with
    | nil => exact ih k [] file (by simp) ht
    | cons v rest =>
      rcases writev_iter nd k v rest file ht with ⟨hk, he⟩ | ⟨hk, hlt, he⟩ | ⟨hk, hle, iov', hl', hf', hm', he⟩
      · rw [he]
        refine ⟨⟨0, by simp [WRes.file]⟩, by simp, ?_⟩
        intro m _ hall
        obtain ⟨j, _, hj⟩ := hall 0
        rw [hk] at hj; cases hj
      · rw [he]
        refine ⟨⟨taken (k 0) (v :: rest).flatten.length, by cases nd <;> rfl⟩, by cases nd <;> simp, ?_⟩
        intro m hm hall
        obtain ⟨j, hj1, hj⟩ := hall 0
        have h1 := hm v (by simp)
        have h2 : v.length ≤ (v :: rest).flatten.length := by simp
        rw [hj] at hlt
        simp only [taken] at hlt
        omega
      · rw [he]
        simp only [List.length_cons] at hl
        have hi := ih (fun i => k (i + 1)) iov'
          (file ++ (v :: rest).flatten.take (taken (k 0) (v :: rest).flatten.length)) (by omega)
          (by rw [hf']; simp only [List.length_drop]; omega)
        obtain ⟨⟨j, hj⟩, hok, hlive⟩ := hi
        refine ⟨⟨taken (k 0) (v :: rest).flatten.length + j, ?_⟩, ?_, ?_⟩
        · rw [hj, hf', List.append_assoc, List.take_add]
        · intro f hf
          rw [hok f hf, hf', List.append_assoc, List.take_append_drop]
        · intro m hm hall
          rw [hlive m (hm' m hm) (fun i => hall (i + 1)), hf', List.append_assoc,
            List.take_append_drop]

/-! ## C35 -/

/-- C35 (partial): whatever the kernel does with the successive calls (partial writes,
interruptions, errors), if the function returns success without having overwritten foreign memory,
then the file was extended by exactly the bytes of all the vectors, in order, once.
Missing: an interrupted or too short first write makes it abort or, without assertions, corrupt
memory and report success (`interrupted_lost`, `short_first_vector_lost`). -/
theorem writev_exact_partial (nd : Bool) (k : Nat → KWrite) (iov : List Bytes) (file f : Bytes)
    (hsize : iov.flatten.length < 2 ^ 63) (h : writev nd k iov file = .ok f) :
    f = file ++ iov.flatten :=
  (writev_cases nd iov.length k iov file (Nat.le_refl _) hsize).2.1 f h

/-- C35: in every outcome, only a leading part of the bytes was appended; nothing is written twice
or out of order. -/
theorem writev_prefix (nd : Bool) (k : Nat → KWrite) (iov : List Bytes) (file : Bytes)
    (hsize : iov.flatten.length < 2 ^ 63) :
    ∃ p, p <+: iov.flatten ∧ (writev nd k iov file).file = file ++ p := by
  obtain ⟨j, hj⟩ := (writev_cases nd iov.length k iov file (Nat.le_refl _) hsize).1
  exact ⟨_, List.take_prefix j _, hj⟩

/-- C35: if every call writes at least as much as the longest vector, everything is written and
success returned. -/
theorem writev_succeeds (nd : Bool) (k : Nat → KWrite) (iov : List Bytes) (file : Bytes) (m : Nat)
    (hsize : iov.flatten.length < 2 ^ 63) (hm : ∀ v ∈ iov, v.length ≤ m)
    (hk : ∀ i, ∃ n, m ≤ n ∧ k i = .wrote n) :
    writev nd k iov file = .ok (file ++ iov.flatten) :=
  (writev_cases nd iov.length k iov file (Nat.le_refl _) hsize).2.2 m hm hk

/-- C35, finding: an interruption before anything was written is not survived: with assertions the
process is killed, without them memory behind the array is modified, success is returned and
nothing was stored. -/
theorem interrupted_lost (nd : Bool) (k : Nat → KWrite) (v : Bytes) (rest : List Bytes) (file : Bytes)
    (hsize : (v :: rest).flatten.length < 2 ^ 63) (hv : v ≠ []) (hk : k 0 = .eintr) :
    writev nd k (v :: rest) file = if nd then .smash file else .abort file := by
  have hlen : 0 < v.length := List.length_pos_iff.mpr hv
  rcases writev_iter nd k v rest file hsize with ⟨h, _⟩ | ⟨_, _, he⟩ | ⟨_, hle, _⟩
  · rw [hk] at h; cases h
  · rw [he, hk]; simp [taken]
  · rw [hk] at hle; simp only [taken] at hle; omega

/-- C35, finding: so is a write of less than the first vector. -/
theorem short_first_vector_lost (nd : Bool) (k : Nat → KWrite) (v : Bytes) (rest : List Bytes)
    (file : Bytes) (n : Nat) (hsize : (v :: rest).flatten.length < 2 ^ 63) (hn : n < v.length)
    (hk : k 0 = .wrote n) :
    writev nd k (v :: rest) file =
      if nd then .smash (file ++ v.take n) else .abort (file ++ v.take n) := by
  have h2 : v.length ≤ (v :: rest).flatten.length := by simp
  rcases writev_iter nd k v rest file hsize with ⟨h, _⟩ | ⟨_, _, he⟩ | ⟨_, hle, _⟩
  · rw [hk] at h; cases h
  · rw [he, hk]
    have h3 : min n (v :: rest).flatten.length = n := by omega
    simp only [taken, h3]
    have h4 : (v :: rest).flatten.take n = v.take n := by
      rw [List.flatten_cons, List.take_append_of_le_length (by omega)]
    rw [h4]
  · rw [hk] at hle; simp only [taken] at hle; omega

/-- A record of three vectors written in two calls, split inside the second vector. -/
example : writev false (fun _ => .wrote 3) [[1, 2], [3, 4, 5], [6]] [0] = .ok [0, 1, 2, 3, 4, 5, 6] := by
  simp [writev, skip, subSize, advance]
example : writev true (fun _ => .eintr) [[1, 2], [3, 4, 5], [6]] [0] = .smash [0] :=
  interrupted_lost true _ [1, 2] _ [0] (by simp) (by simp) rfl
/-- The hypotheses of `writev_succeeds` hold for a real split. -/
example : writev true (fun _ => .wrote 3) [[1, 2], [3, 4, 5], [6]] [] = .ok [1, 2, 3, 4, 5, 6] :=
  writev_succeeds true _ _ [] 3 (by simp) (by simp) (fun _ => ⟨3, Nat.le_refl _, rfl⟩)

/-! ## Reading -/

theorem readAll_inv (count : Nat) (ks : List KRead) (buf src b r : Bytes)
    (hb : buf.length ≤ count) (h : readAll count ks buf src = .ok b r) :
    b ++ r = buf ++ src ∧ b.length ≤ count ∧ (b.length = count ∨ r = []) := by
  induction ks generalizing buf src with
  | nil => cases h
  | cons k ks ih =>
    cases k with
    | fail => cases h
    | got n =>
      simp only [readAll] at h
      have hl : (src.take (min (n + 1) (count - buf.length))).length ≤ count - buf.length := by
        rw [List.length_take]; omega
      split at h
      · rename_i hg
        cases h
        refine ⟨rfl, hb, ?_⟩
        rcases List.take_eq_nil_iff.mp hg with h0 | h0
        · left; omega
        · right; exact h0
      · generalize hgg : src.take (min (n + 1) (count - buf.length)) = g at *
        have hpre : g ++ src.drop g.length = src := by
          subst hgg
          conv => rhs; rw [← List.take_append_drop (min (n + 1) (count - buf.length)) src]
          rw [List.length_take]
          congr 1
          by_cases hle : min (n + 1) (count - buf.length) ≤ src.length
          · rw [Nat.min_eq_left hle]
          · rw [Nat.min_eq_right (by omega), List.drop_length, List.drop_eq_nil_of_le (by omega)]
        split at h
        · have := ih (buf ++ g) (src.drop g.length) (by simp; omega) h
          rw [List.append_assoc, hpre] at this
          exact this
        · rename_i hlt
          cases h
          simp only [List.length_append] at hlt ⊢
          exact ⟨by rw [List.append_assoc, hpre], by omega, Or.inl (by omega)⟩

/-- Reading a part of a record: on success the buffer holds the next bytes of the file in order,
and either all that were requested or the file has ended. -/
theorem read_exact (count : Nat) (ks : List KRead) (src b r : Bytes)
    (h : readAll count ks [] src = .ok b r) :
    b ++ r = src ∧ b.length ≤ count ∧ (b.length = count ∨ r = []) := by
  simpa using readAll_inv count ks [] src b r (by simp) h

/-- Finding: a truncated record is read with success although requested bytes are missing. -/
theorem truncated_read_succeeds :
    readAll 16 [.got 15, .got 15] [] [1, 2, 3] = .ok [1, 2, 3] [] := by decide

example : readAll 3 [.got 1, .got 0] [] [1, 2, 3, 4] = .ok [1, 2, 3] [4] := by decide

/-! ## C36 -/

/-- Invariant of the copy loop: target, unwritten rest of the buffer and unread source make up the
source file. -/
structure Good (src0 : Bytes) (s : Cp) : Prop where
  whole : s.tgt ++ s.buf.drop s.out ++ s.src = src0
  len : s.out + s.nread = s.buf.length

theorem Good.step {src0 : Bytes} {s : Cp} (g : Good src0 s) (c : KCall) :
    (∀ s', cpStep s c = .running s' → Good src0 s') ∧
    (∀ t, cpStep s c = .ok t → t = src0) ∧
    (∀ t, cpStep s c = .err t → t <+: src0) := by
  have hpre : s.tgt <+: src0 := ⟨s.buf.drop s.out ++ s.src, by rw [← List.append_assoc]; exact g.whole⟩
  by_cases h0 : s.nread = 0
  · have hrest : s.buf.drop s.out = [] := List.drop_eq_nil_of_le (by have := g.len; omega)
    have hw := g.whole
    rw [hrest, List.append_nil] at hw
    cases c with
    | eintr => simp [cpStep, h0]; exact hpre
    | fail => simp [cpStep, h0]; exact hpre
    | amount n =>
      simp only [cpStep, h0, if_true]
      split
      · rename_i hg
        refine ⟨by simp, ?_, by simp⟩
        intro t ht
        cases ht
        rcases List.take_eq_nil_iff.mp hg with h | h
        · simp only [bufSize] at h; omega
        · rw [h, List.append_nil] at hw; exact hw
      · refine ⟨?_, by simp, by simp⟩
        intro s' hs'
        cases hs'
        refine ⟨?_, by simp⟩
        simp only [List.drop_zero, List.append_assoc]
        rw [← hw]
        congr 1
        generalize min (n + 1) bufSize = m
        rw [List.length_take]
        by_cases hle : m ≤ s.src.length
        · rw [Nat.min_eq_left hle, List.take_append_drop]
        · rw [Nat.min_eq_right (by omega), List.drop_length, List.take_of_length_le (by omega),
            List.append_nil]
  · cases c with
    | eintr => simp [cpStep, h0]; exact g
    | fail => simp [cpStep, h0]; exact hpre
    | amount n =>
      simp only [cpStep, h0, if_false]
      refine ⟨?_, by simp, by simp⟩
      intro s' hs'
      cases hs'
      have hl := g.len
      refine ⟨?_, by simp only; omega⟩
      simp only
      rw [← g.whole, List.append_assoc s.tgt]
      congr 2
      rw [← List.drop_drop, List.take_append_drop]

theorem cpLoop_inv {src0 : Bytes} (ks : List KCall) (s : Cp) (g : Good src0 s) :
    (∀ t, cpLoop s ks = .ok t → t = src0) ∧ (cpLoop s ks).tgt <+: src0 := by
  induction ks generalizing s with
  | nil =>
    exact ⟨by simp [cpLoop], ⟨s.buf.drop s.out ++ s.src, by rw [← List.append_assoc]; exact g.whole⟩⟩
  | cons c cs ih =>
    obtain ⟨h1, h2, h3⟩ := g.step c
    simp only [cpLoop]
    cases hc : cpStep s c with
    | running s' => exact ih s' (h1 s' hc)
    | ok t =>
      refine ⟨?_, ?_⟩
      · intro t' ht'; cases ht'; exact h2 _ hc
      · simp only [CpRes.tgt]
        rw [h2 t hc]
        exact List.prefix_refl _
    | err t => exact ⟨by simp, h3 t hc⟩

theorem good_init (src : Bytes) : Good src { src := src, tgt := [], buf := [], out := 0, nread := 0 } :=
  ⟨by simp, rfl⟩

/-- C36: a copy that reports success produced exactly the source content, for every content and
every sequence of partial reads, partial writes, interruptions. -/
theorem copy_exact (src : Bytes) (ks : List KCall) (t : Bytes) (h : copy src ks = .ok t) : t = src :=
  (cpLoop_inv ks _ (good_init src)).1 t h

/-- C36: at every moment (while running, after an error, after a crash) the target is a leading
part of the source. -/
theorem copy_prefix (src : Bytes) (ks : List KCall) : (copy src ks).tgt <+: src :=
  (cpLoop_inv ks _ (good_init src)).2

theorem cpLoop_live {src0 : Bytes} (ks : List KCall) (s : Cp) (g : Good src0 s)
    (hk : ∀ c ∈ ks, ∃ n, c = .amount (n + 1))
    (hl : 2 * s.src.length + s.nread + 1 ≤ ks.length) : cpLoop s ks = .ok src0 := by
  induction ks generalizing s with
  | nil => simp at hl
  | cons c cs ih =>
    obtain ⟨n, rfl⟩ := hk c (by simp)
    have hk' : ∀ c ∈ cs, ∃ n, c = .amount (n + 1) := fun c hc => hk c (List.mem_cons_of_mem _ hc)
    obtain ⟨h1, h2, _⟩ := g.step (.amount (n + 1))
    simp only [cpLoop]
    simp only [List.length_cons] at hl
    by_cases h0 : s.nread = 0
    · by_cases hg : s.src.take (min (n + 1 + 1) bufSize) = []
      · have : cpStep s (.amount (n + 1)) = .ok s.tgt := by simp [cpStep, h0, hg]
        rw [this, h2 _ this]
      · have hs : cpStep s (.amount (n + 1)) = .running
            { src := s.src.drop (s.src.take (min (n + 1 + 1) bufSize)).length, tgt := s.tgt,
              buf := s.src.take (min (n + 1 + 1) bufSize), out := 0,
              nread := (s.src.take (min (n + 1 + 1) bufSize)).length } := by
          simp [cpStep, h0, hg]
        rw [hs]
        have hpos := List.length_pos_iff.mpr hg
        have hle : (s.src.take (min (n + 1 + 1) bufSize)).length ≤ s.src.length := by
          rw [List.length_take]; omega
        refine ih _ (h1 _ hs) hk' ?_
        simp only [List.length_drop]
        omega
    · have hs : cpStep s (.amount (n + 1)) = .running { s with
          tgt := s.tgt ++ (s.buf.drop s.out).take (min (n + 1) s.nread)
          nread := s.nread - min (n + 1) s.nread
          out := s.out + min (n + 1) s.nread } := by
        simp [cpStep, h0]
      rw [hs]
      refine ih _ (h1 _ hs) hk' ?_
      simp only
      omega

/-- C36: without errors and interruptions, with every write making progress, the copy ends with
success after at most `2 * size + 1` calls. -/
theorem copy_succeeds (src : Bytes) (ks : List KCall) (hk : ∀ c ∈ ks, ∃ n, c = .amount (n + 1))
    (hl : 2 * src.length + 1 ≤ ks.length) : copy src ks = .ok src :=
  cpLoop_live ks _ (good_init src) hk (by simpa using hl)

example : copy [1, 2, 3] [.amount 1, .amount 1, .eintr, .amount 1, .amount 9, .amount 9, .amount 1]
    = .ok [1, 2, 3] := by decide
example : copy [1, 2, 3] [.amount 1, .amount 1, .fail] = .err [1] := by decide
example : copy [7] [.amount 1, .amount 1, .amount 1] = .ok [7] :=
  copy_succeeds _ _ (by simp) (by simp)

end Verif.Writev
