import Verif.ExtShmLemmas5
/-!
Properties C07 (allocations never overlap), C08 (no shared memory is lost), C09 (growing a shared array keeps its
elements) of the allocator of the external shared memory.

The specification (`Owns`, `Free`, `byteOf`, `Hist`) is at the end of `Verif/ExtShm.lean`.
-/
namespace Verif.ExtShm

variable {isz : Nat → Nat}

/-- Byte `b` of the item `i` of the array `k`. -/
def itemByte (isz : Nat → Nat) (w : World) (k i b : Nat) : Nat := byteOf isz w (.arr k) (i * isz k + b)

/-- New bytes an operation may need. -/
def need (isz : Nat → Nat) (w : World) : Op → Nat
  | .add k _ _ len => shmSize (((w.arr k).count + 1) * isz k) + shmSize len
  | .resize _ len => shmSize len
  | _ => 0

/-! ## C07 -/

/-- **C07.** After every history of operations all the allocations are 8-byte aligned, past the header, inside of
the segment and no byte belongs to two of them. -/
theorem allocations_disjoint (hp : ∀ k, 0 < isz k) {w : World} (h : Hist isz w) :
    (∀ id, (rng isz w id).2 ≠ 0 →
      (rng isz w id).1 % 8 = 0 ∧ 8 ≤ (rng isz w id).1 ∧ (rng isz w id).1 + (rng isz w id).2 ≤ w.sh.size) ∧
    (∀ id id' x, Owns isz w id x → Owns isz w id' x → id = id') := by
  obtain ⟨l, hl⟩ := h.inv hp
  exact ⟨hl.al, hl.dj⟩

/-- **C07.** In every reachable state every operation that respects the contract finishes without a failed
assertion, an endless loop or an access out of the segment; it fails only if the segment cannot be enlarged. -/
theorem operations_succeed (hp : ∀ k, 0 < isz k) {w : World} (h : Hist isz w) {op : Op} (hpre : Pre isz w op)
    (hsz : w.sh.size + need isz w op < 2147483648) (g : Bool) :
    (∃ w', step isz w op g = .ok w' ∧ w'.sh.size < 2147483648) ∨ (g = false ∧ ∃ sh, step isz w op g = .sysErr sh) := by
  obtain ⟨l, hl⟩ := h.inv hp
  cases op with
  | add k idx j len =>
    obtain ⟨sz, hb, hs, h2⟩ := step_add (g := g) hl hp hpre
    simp only [need] at hsz
    rcases h2 with ⟨sh', h2, hg⟩ | h2
    · exact Or.inr ⟨hg, sh', h2⟩
    · obtain ⟨o, l', e2, -, h3⟩ := h2 (by omega)
      exact Or.inl ⟨_, by simp only [step, e2], h3.sizeLt⟩
  | del k idx jo =>
    obtain ⟨m', l', e2, -, -, -, h3⟩ := step_del (g := g) hl hp hpre
    exact Or.inl ⟨_, e2, h3.sizeLt⟩
  | resize j len =>
    obtain ⟨sz, hb, hs, h2⟩ := step_resize (g := g) hl hpre
    simp only [need] at hsz
    rcases h2 with ⟨sh', h2, hg⟩ | h2
    · exact Or.inr ⟨hg, sh', h2⟩
    · obtain ⟨sh, o, l', e2, -, h3⟩ := h2 (by omega)
      exact Or.inl ⟨_, by simp only [step, e2], h3.sizeLt⟩
  | store id rel val => exact Or.inl ⟨_, rfl, hl.sizeLt⟩
  | trim =>
    obtain ⟨sh', l', e2, h3, -⟩ := step_trim hl
    exact Or.inl ⟨_, by simp only [step, e2], h3.sizeLt⟩

/-! ## C08 -/

/-- **C08.** After every history every byte past the header is either recorded as free and owned by nobody, or
not recorded as free and owned by exactly one allocation. -/
theorem every_byte_accounted_partial (hp : ∀ k, 0 < isz k) {w : World} (h : Hist isz w) (x : Nat) (h8 : 8 ≤ x)
    (hx : x < w.sh.size) :
    (Free w.sh x ∧ ∀ id, ¬ Owns isz w id x) ∨
    (¬ Free w.sh x ∧ ∃ id, Owns isz w id x ∧ ∀ id', Owns isz w id' x → id' = id) := by
  obtain ⟨l, hl⟩ := h.inv hp
  rw [free_iff hl.hs, hl.cv x h8 hx]
  by_cases hc : ∀ id, ¬ Owns isz w id x
  · exact Or.inl ⟨hc, hc⟩
  · right
    refine ⟨hc, ?_⟩
    obtain ⟨id, hid⟩ := Classical.not_forall.1 hc
    have hid := Classical.not_not.1 hid
    exact ⟨id, hid, fun id' h' => hl.dj _ _ x h' hid⟩

/-- **C08.** When everything was freed, the recorded free space is one hole covering the whole segment past the
header (or there is nothing past the header). -/
theorem all_freed_one_hole_partial (hp : ∀ k, 0 < isz k) {w : World} (h : Hist isz w)
    (hfree : ∀ id, (rng isz w id).2 = 0) :
    (w.sh.size = 8 ∧ holes w.sh = some []) ∨ (8 < w.sh.size ∧ holes w.sh = some [(8, w.sh.size - 8)]) := by
  obtain ⟨l, hl⟩ := h.inv hp
  rw [hl.hs.holes]
  have hno : ∀ id x, ¬ Owns isz w id x := by
    intro id x ho; unfold Owns at ho; have := hfree id; omega
  have hcov : ∀ x, 8 ≤ x → x < w.sh.size → Cov l x := fun x h1 h2 => (hl.cv x h1 h2).2 fun id => hno id x
  have hge := hl.sizeGe
  cases l with
  | nil =>
    left
    refine ⟨?_, rfl⟩
    rcases Nat.lt_or_ge 8 w.sh.size with h1 | h1
    · exact absurd (hcov 8 (by omega) h1) cov_nil
    · omega
  | cons a t =>
    right
    have hao := hl.hs.toWFL.ok a (by simp)
    have hP := (List.pairwise_cons.1 hl.hs.asc).1
    refine ⟨by omega, ?_⟩
    -- first byte is in the first hole
    have ha8 : a.1 = 8 := by
      obtain ⟨q, hq, h1, h2⟩ := hcov 8 (by omega) (by omega)
      rcases List.mem_cons.1 hq with rfl | hq
      · omega
      · have := hP q hq; omega
    -- there is no byte after it
    have hend : a.1 + a.2 = w.sh.size := by
      rcases Nat.lt_or_ge (a.1 + a.2) w.sh.size with h1 | h1
      · obtain ⟨q, hq, h2, h3⟩ := hcov (a.1 + a.2) (by omega) h1
        rcases List.mem_cons.1 hq with rfl | hq
        · omega
        · have := hP q hq; omega
      · omega
    have ht : t = [] := by
      cases t with
      | nil => rfl
      | cons b r =>
        have := hP b (by simp)
        have := hl.hs.toWFL.ok b (by simp)
        omega
    subst ht
    obtain ⟨a1, a2⟩ := a
    simp only at ha8 hend
    subst ha8
    rw [show a2 = w.sh.size - 8 by omega]

/-- **C08.** The next unlock then gives all the memory back. -/
theorem all_freed_trimmed_partial (hp : ∀ k, 0 < isz k) {w : World} (h : Hist isz w)
    (hfree : ∀ id, (rng isz w id).2 = 0) :
    ∃ w', step isz w .trim true = .ok w' ∧ w'.sh.size = 8 ∧ holes w'.sh = some [] := by
  obtain ⟨l, hl⟩ := h.inv hp
  have hsz := hl.sizeLt
  obtain ⟨sh', l', e2, h3, -⟩ := step_trim hl
  have h4 : Hist isz { w with sh := sh' } :=
    .step (op := .trim) (g := true) h trivial (by simp only [step, e2]) h3.sizeLt
  refine ⟨{ w with sh := sh' }, by simp only [step, e2], ?_⟩
  rcases all_freed_one_hole_partial hp h4 (fun id => by have := hfree id; cases id <;> exact this) with h5 | h5
  · exact h5
  · exfalso
    rcases all_freed_one_hole_partial hp h hfree with h6 | h6
    · obtain ⟨sh2, l2, e3, -, -, hle, -⟩ := trim_spec hl.hs (by omega) hl.size8 hl.sizeGe
      have : sh2 = sh' := by
        have e3' : trim w.sh = some sh2 := e3
        rw [e2] at e3'; injection e3' with e3'; exact e3'.symm
      subst this
      have := h5.1; simp only at this; omega
    · -- the only hole is removed
      have hl8 : l = [(8, w.sh.size - 8)] := by
        have := h6.2; rw [hl.hs.holes] at this; injection this
      subst hl8
      have hs : holeSize w.sh.mem 8 = w.sh.size - 8 := hl.hs.seg.2.2.1
      have hlast : lastLoop w.sh.mem (w.sh.size + 1) 0 (holeFirst w.sh.mem) = some 8 :=
        lastLoop_spec hl.hs.seg hl.hs.fin _ 0 hl.hs.toWFL.length
      obtain ⟨m1, e1, -, -⟩ := holeDel_spec (a := []) (b := []) hl.hs (by omega)
      have e1' : holeDel w.sh 8 = some ⟨m1, w.sh.size⟩ := e1
      have : trim w.sh = some (remap ⟨m1, w.sh.size⟩ (w.sh.size - (w.sh.size - 8))) := by
        unfold trim
        simp only [hlast, hs, e1']
        rw [if_pos (by omega)]
      rw [this] at e2
      injection e2 with e2
      have h7 := h5.1
      rw [← e2] at h7
      simp only [remap] at h7
      omega

/-! ## C09 -/

/-- **C09.** Adding an item (at any index, with or without an attribute, whether or not the array is moved): the
items before it keep their index, the others move by one, all keep their content, and so does every other
allocation. -/
theorem add_keeps_items (hp : ∀ k, 0 < isz k) {w w' : World} (h : Hist isz w) {k idx j len : Nat} {g : Bool}
    (hpre : Pre isz w (.add k idx j len)) (e : step isz w (.add k idx j len) g = .ok w') (hlt : w'.sh.size < 2147483648) :
    (w'.arr k).count = (w.arr k).count + 1 ∧
    (∀ i b, i < idx → b < isz k → itemByte isz w' k i b = itemByte isz w k i b) ∧
    (∀ i b, idx ≤ i → i < (w.arr k).count → b < isz k → itemByte isz w' k (i + 1) b = itemByte isz w k i b) ∧
    (∀ id r, id ≠ .arr k → (len = 0 ∨ id ≠ .attr j) → r < (rng isz w id).2 →
      rng isz w' id = rng isz w id ∧ byteOf isz w' id r = byteOf isz w id r) ∧
    (len ≠ 0 → (w'.attr j).len = len) := by
  obtain ⟨l, hl⟩ := h.inv hp
  obtain ⟨sz, -, hs, h2⟩ := step_add (g := g) hl hp hpre
  have hs := hs w' e
  rcases h2 with ⟨sh', h2, -⟩ | h2
  · rw [h2] at e; simp at e
  obtain ⟨o, l', e2, A, h3⟩ := h2 (by omega)
  simp only [step, e2] at e
  injection e with e; subst e
  have hcnt := A.cnt
  have hmul : ∀ i b, b < isz k → i < idx → i * isz k + b < idx * isz k := by
    intro i b hb hi
    have : (i + 1) * isz k ≤ idx * isz k := Nat.mul_le_mul_right _ hi
    rw [Nat.add_mul, Nat.one_mul] at this; omega
  have hmul2 : ∀ i b, b < isz k → i < (w.arr k).count → i * isz k + b < (w.arr k).count * isz k := by
    intro i b hb hi
    have : (i + 1) * isz k ≤ (w.arr k).count * isz k := Nat.mul_le_mul_right _ hi
    rw [Nat.add_mul, Nat.one_mul] at this; omega
  refine ⟨by simp only [upd_same, hcnt], ?_, ?_, ?_, ?_⟩
  · intro i b hi hb
    simp only [itemByte, byteOf, rng, upd_same]
    exact A.before _ (hmul i b hb hi)
  · intro i b hi1 hi2 hb
    simp only [itemByte, byteOf, rng, upd_same]
    have := A.after (i * isz k + b) (Nat.le_trans (Nat.mul_le_mul_right _ hi1) (by omega)) (hmul2 i b hb hi2)
    rw [← this]
    congr 1
    rw [Nat.add_mul, Nat.one_mul]; omega
  · intro id r hid hid2 hr
    have ho : Owns isz w id ((rng isz w id).1 + r) := ⟨by omega, by omega⟩
    have hrng : ∀ w2 : World, w2.arr = upd w.arr k ⟨o.arrayOff, o.count⟩ →
        w2.attr = (if len = 0 then w.attr else upd w.attr j ⟨o.attrOff, len⟩) → rng isz w2 id = rng isz w id := by
      intro w2 h4 h5
      cases id with
      | arr k' =>
        have hk : k' ≠ k := fun hk => hid (by rw [hk])
        simp only [rng, h4, upd_ne _ _ hk]
      | attr j' =>
        by_cases hl0 : len = 0
        · simp only [rng, h5, if_pos hl0]
        · have hj : j' ≠ j := fun hj => hid2.elim hl0 (fun h => h (by rw [hj]))
          simp only [rng, h5, if_neg hl0, upd_ne _ _ hj]
    refine ⟨hrng _ rfl rfl, ?_⟩
    unfold byteOf
    rw [hrng _ rfl rfl]
    exact A.frame _ (hl.owns_in ho).1 (hl.owns_in ho).2 (hl.owns_free ho) (fun h4 => hid (hl.dj _ (.arr k) _ ho h4))
  · intro hl0
    simp only [if_neg hl0, upd_same]

/-- **C09.** Deleting an item: the items before it keep their index, the following ones move down by one, all keep
their content, and so does every other allocation. -/
theorem del_keeps_items (hp : ∀ k, 0 < isz k) {w w' : World} (h : Hist isz w) {k idx : Nat} {jo : Option Nat} {g : Bool}
    (hpre : Pre isz w (.del k idx jo)) (e : step isz w (.del k idx jo) g = .ok w') :
    (w'.arr k).count = (w.arr k).count - 1 ∧
    (∀ i b, i < idx → b < isz k → itemByte isz w' k i b = itemByte isz w k i b) ∧
    (∀ i b, idx ≤ i → i + 1 < (w.arr k).count → b < isz k → itemByte isz w' k i b = itemByte isz w k (i + 1) b) ∧
    (∀ id r, id ≠ .arr k → (∀ j, jo = some j → id ≠ .attr j) → r < (rng isz w id).2 →
      rng isz w' id = rng isz w id ∧ byteOf isz w' id r = byteOf isz w id r) ∧
    (∀ j, jo = some j → (w'.attr j).len = 0) := by
  obtain ⟨l, hl⟩ := h.inv hp
  obtain ⟨m', l', e2, hb, ha, hf, h3⟩ := step_del (g := g) hl hp hpre
  rw [e2] at e; injection e with e; subst e
  have hidx : idx < (w.arr k).count := by cases jo with | none => exact hpre | some j => exact hpre.1
  have hmul : ∀ i b n, b < isz k → i < n → i * isz k + b < n * isz k := by
    intro i b n hb hi
    have : (i + 1) * isz k ≤ n * isz k := Nat.mul_le_mul_right _ hi
    rw [Nat.add_mul, Nat.one_mul] at this; omega
  refine ⟨by simp only [delW, upd_same], ?_, ?_, ?_, ?_⟩
  · intro i b hi hb'
    have hc : ¬ (w.arr k).count - 1 = 0 := by omega
    simp only [itemByte, byteOf, rng, delW, upd_same, if_neg hc]
    exact hb _ (hmul i b idx hb' hi)
  · intro i b hi1 hi2 hb'
    have hc : ¬ (w.arr k).count - 1 = 0 := by omega
    simp only [itemByte, byteOf, rng, delW, upd_same, if_neg hc]
    rw [ha (i * isz k + b) (Nat.le_trans (Nat.mul_le_mul_right _ hi1) (by omega)) (hmul i b _ hb' (by omega))]
    congr 1
    rw [Nat.add_mul, Nat.one_mul]; omega
  · intro id r hid hid2 hr
    have ho : Owns isz w id ((rng isz w id).1 + r) := ⟨by omega, by omega⟩
    have hrng : rng isz (delW w k jo m') id = rng isz w id := by
      cases id with
      | arr k' =>
        have hk : k' ≠ k := fun hk => hid (by rw [hk])
        simp only [rng, delW, upd_ne _ _ hk]
      | attr j' =>
        cases jo with
        | none => rfl
        | some j =>
          have hj : j' ≠ j := fun hj => hid2 j rfl (by rw [hj])
          simp only [rng, delW, freed, upd_ne _ _ hj]
    refine ⟨hrng, ?_⟩
    unfold byteOf
    rw [hrng]
    exact hf id _ hid hid2 ho
  · rintro j rfl
    simp only [delW, freed, upd_same]

/-- **C09.** Changing the length of an attribute keeps its content up to the smaller of both lengths and all the
other allocations. -/
theorem resize_keeps_content (hp : ∀ k, 0 < isz k) {w w' : World} (h : Hist isz w) {j len : Nat} {g : Bool}
    (hpre : Pre isz w (.resize j len)) (e : step isz w (.resize j len) g = .ok w') (hlt : w'.sh.size < 2147483648) :
    (w'.attr j).len = len ∧
    (∀ r, r < (w.attr j).len → r < len → byteOf isz w' (.attr j) r = byteOf isz w (.attr j) r) ∧
    (∀ id r, id ≠ .attr j → r < (rng isz w id).2 →
      rng isz w' id = rng isz w id ∧ byteOf isz w' id r = byteOf isz w id r) := by
  obtain ⟨l, hl⟩ := h.inv hp
  obtain ⟨sz, -, hs, h2⟩ := step_resize (g := g) hl hpre
  have hs := hs w' e
  rcases h2 with ⟨sh', h2, -⟩ | h2
  · rw [h2] at e; simp at e
  obtain ⟨sh, o, l', e2, A, h3⟩ := h2 (by omega)
  simp only [step, e2] at e
  injection e with e; subst e
  refine ⟨by simp only [upd_same], ?_, ?_⟩
  · intro r hr1 hr2
    have hl0 : ¬ len = 0 := by omega
    have := shmSize_ge len
    have := shmSize_ge (w.attr j).len
    simp only [byteOf, rng, upd_same, if_neg hl0]
    exact A.keep r (by omega) (by omega)
  · intro id r hid hr
    have ho : Owns isz w id ((rng isz w id).1 + r) := ⟨by omega, by omega⟩
    have hrng : ∀ sh : Shm, rng isz { w with sh := sh, attr := upd w.attr j ⟨if len = 0 then 0 else o, len⟩ } id = rng isz w id := by
      intro sh
      cases id with
      | arr k' => rfl
      | attr j' =>
        have hj : j' ≠ j := fun hj => hid (by rw [hj])
        simp only [rng, upd_ne _ _ hj]
    refine ⟨hrng _, ?_⟩
    unfold byteOf
    rw [hrng]
    exact A.frame _ (hl.owns_in ho).1 (hl.owns_in ho).2 (hl.owns_free ho) (fun h4 => hid (hl.dj _ (.attr j) _ ho h4))

/-- **C09.** Shrinking of the segment keeps the content of all the allocations. -/
theorem trim_keeps_content (hp : ∀ k, 0 < isz k) {w w' : World} (h : Hist isz w) {g : Bool}
    (e : step isz w .trim g = .ok w') (id : Id) (r : Nat) (hr : r < (rng isz w id).2) :
    rng isz w' id = rng isz w id ∧ byteOf isz w' id r = byteOf isz w id r := by
  obtain ⟨l, hl⟩ := h.inv hp
  obtain ⟨sh', l', e2, -, -, hf⟩ := step_trim hl
  simp only [step, e2] at e
  injection e with e; subst e
  have hrng : ∀ sh : Shm, rng isz { w with sh := sh } id = rng isz w id := by intro sh; cases id <;> rfl
  refine ⟨hrng _, ?_⟩
  unfold byteOf
  rw [hrng]
  exact hf id _ ⟨by omega, by omega⟩

/-! ## Concrete histories -/

/-- Decidable version of `Pre`. -/
def preB (isz : Nat → Nat) (w : World) : Op → Bool
  | .add k idx j len => idx ≤ (w.arr k).count && (len == 0 || (w.attr j).len == 0)
  | .del k idx none => idx < (w.arr k).count
  | .del k idx (some j) => idx < (w.arr k).count && (w.attr j).len != 0
  | .resize j len => !((w.attr j).len == 0 && len == 0)
  | .store id rel _ => rel < (rng isz w id).2
  | .trim => true

theorem preB_pre {w : World} {op : Op} (h : preB isz w op = true) : Pre isz w op := by
  cases op with
  | add k idx j len => simp [preB] at h; exact ⟨h.1, fun hl => h.2.resolve_left hl⟩
  | del k idx jo =>
    cases jo with
    | none => simpa [preB, Pre] using h
    | some j => simpa [preB, Pre] using h
  | resize j len => simp [preB] at h; simp only [Pre]; omega
  | store id rel v => simpa [preB, Pre] using h
  | trim => trivial

/-- Run of operations with successful growth. -/
def run (isz : Nat → Nat) : World → List Op → Option World
  | w, [] => some w
  | w, op :: ops =>
    if preB isz w op then
      match step isz w op true with
      | .ok w' => if w'.sh.size < 2147483648 then run isz w' ops else none
      | _ => none
    else none

theorem Hist.run {w w' : World} {ops : List Op} (h : Hist isz w) (e : ExtShm.run isz w ops = some w') : Hist isz w' := by
  induction ops generalizing w with
  | nil => simp only [ExtShm.run] at e; injection e with e; exact e ▸ h
  | cons op ops ih =>
    simp only [ExtShm.run] at e
    split at e
    · rename_i hp
      split at e
      · rename_i w1 e1
        split at e
        · rename_i hlt
          exact ih (.step h (preB_pre hp) e1 hlt) e
        · simp at e
      · simp at e
    · simp at e

/-- Two arrays with 16-byte items, an attribute, insertion before the first item, deletions: fragmentation. -/
def demo : List Op :=
  [.add 0 0 0 5, .store (.arr 0) 3 77, .add 1 0 1 0, .add 0 0 1 20, .resize 0 30, .del 1 0 none]

example : ∃ w, Hist (fun _ => 16) w ∧ (w.arr 0).count = 2 ∧ itemByte (fun _ => 16) w 0 1 3 = 77 ∧
    (holes w.sh).map List.length = some 1 ∧ (w.attr 0).len = 30 := by
  have h : (run (fun _ => 16) init demo).isSome = true := by decide +kernel
  obtain ⟨w, hw⟩ := Option.isSome_iff_exists.1 h
  refine ⟨w, Hist.init.run hw, ?_⟩
  have h2 : (run (fun _ => 16) init demo).map (fun w => ((w.arr 0).count, itemByte (fun _ => 16) w 0 1 3,
      (holes w.sh).map List.length, (w.attr 0).len)) = some (2, 77, some 1, 30) := by decide +kernel
  rw [hw] at h2
  simpa using h2

/-- All the indices of an operation are below `n`. -/
def Op.below (n : Nat) : Op → Bool
  | .add k _ j _ => k < n && j < n
  | .del k _ none => k < n
  | .del k _ (some j) => k < n && j < n
  | .resize j _ => j < n
  | _ => true

theorem step_below {w w' : World} {op : Op} {n : Nat} {g : Bool} (e : step isz w op g = .ok w') (hb : op.below n = true)
    (i : Nat) (hi : n ≤ i) : w'.arr i = w.arr i ∧ w'.attr i = w.attr i := by
  have hne : ∀ j, j < n → i ≠ j := fun j hj => by omega
  cases op with
  | add k idx j len =>
    simp [Op.below] at hb
    simp only [step] at e
    split at e <;> first | (simp at e; done) | skip
    injection e with e; subst e
    refine ⟨upd_ne _ _ (hne k hb.1), ?_⟩
    simp only
    split
    · rfl
    · exact upd_ne _ _ (hne j hb.2)
  | del k idx jo =>
    cases jo with
    | none =>
      simp [Op.below] at hb
      simp only [step] at e
      split at e <;> first | (simp at e; done) | skip
      injection e with e; subst e; exact ⟨upd_ne _ _ (hne k hb), rfl⟩
    | some j =>
      simp [Op.below] at hb
      simp only [step] at e
      split at e <;> first | (simp at e; done) | skip
      injection e with e; subst e; exact ⟨upd_ne _ _ (hne k hb.1), upd_ne _ _ (hne j hb.2)⟩
  | resize j len =>
    simp [Op.below] at hb
    simp only [step] at e
    split at e <;> first | (simp at e; done) | skip
    injection e with e; subst e; exact ⟨rfl, upd_ne _ _ (hne j hb)⟩
  | store id rel v => simp only [step] at e; injection e with e; subst e; exact ⟨rfl, rfl⟩
  | trim =>
    simp only [step] at e
    split at e <;> first | (simp at e; done) | skip
    injection e with e; subst e; exact ⟨rfl, rfl⟩

theorem run_below {w w' : World} {ops : List Op} {n : Nat} (e : run isz w ops = some w') (hb : ops.all (Op.below n) = true)
    (i : Nat) (hi : n ≤ i) : w'.arr i = w.arr i ∧ w'.attr i = w.attr i := by
  induction ops generalizing w with
  | nil => simp only [run] at e; injection e with e; subst e; exact ⟨rfl, rfl⟩
  | cons op ops ih =>
    simp only [List.all_cons, Bool.and_eq_true] at hb
    simp only [run] at e
    split at e
    · split at e
      · rename_i w1 e1
        split at e
        · have h1 := ih e hb.2
          have h2 := step_below e1 hb.1 i hi
          exact ⟨h1.1.trans h2.1, h1.2.trans h2.2⟩
        · simp at e
      · simp at e
    · simp at e

/-- Everything allocated and freed again. -/
def demoFree : List Op := [.add 0 0 0 5, .add 0 1 1 9, .del 0 0 (some 0), .del 0 0 (some 1)]

example : ∃ w, Hist (fun _ => 16) w ∧ (∀ id, (rng (fun _ => 16) w id).2 = 0) ∧ 8 < w.sh.size := by
  have h : (run (fun _ => 16) init demoFree).isSome = true := by decide +kernel
  obtain ⟨w, hw⟩ := Option.isSome_iff_exists.1 h
  refine ⟨w, Hist.init.run hw, ?_⟩
  have h2 : (run (fun _ => 16) init demoFree).map (fun w => (decide (8 < w.sh.size), (w.arr 0).count, (w.arr 1).count,
      (w.attr 0).len, (w.attr 1).len)) = some (true, 0, 0, 0, 0) := by decide +kernel
  rw [hw] at h2
  simp at h2
  refine ⟨?_, h2.1⟩
  have hb := run_below (n := 2) hw (by decide)
  intro id
  match id with
  | .arr 0 => simp [rng, h2]; rfl
  | .arr 1 => simp [rng, h2]; rfl
  | .attr 0 => simp [rng, h2]; rfl
  | .attr 1 => simp [rng, h2]; rfl
  | .arr (n + 2) => simp [rng, (hb (n + 2) (by omega)).1, init]; rfl
  | .attr (n + 2) => simp [rng, (hb (n + 2) (by omega)).2, init]; rfl

/-- A hole of 16 bytes is followed by a used item. -/
def demoLost : List Op := [.add 0 0 0 0, .add 1 0 0 0, .del 0 0 none]

/-- Result of a failed operation. -/
def errOf : Res World → Option Shm
  | .sysErr sh => some sh
  | _ => none

/-- **C08, negation.** When the segment cannot be enlarged (`ftruncate` or `mmap` fail), the hole taken for the
array before the attribute was placed is lost: its bytes are neither owned nor recorded as free, for all the
processes using the segment. -/
theorem failed_growth_loses_memory :
    ∃ (w : World) (op : Op) (sh : Shm) (x : Nat), Hist (fun _ => 16) w ∧ Pre (fun _ => 16) w op ∧
      step (fun _ => 16) w op false = .sysErr sh ∧ 8 ≤ x ∧ x < sh.size ∧ ¬ Free sh x ∧
      ∀ id, ¬ Owns (fun _ => 16) w id x := by
  have h : (run (fun _ => 16) init demoLost).isSome = true := by decide +kernel
  obtain ⟨w, hw⟩ := Option.isSome_iff_exists.1 h
  have h2 : (run (fun _ => 16) init demoLost).map (fun w => ((w.arr 0).count, (w.arr 1).off,
      (w.attr 0).len, (w.attr 1).len)) = some (0, 24, 0, 0) := by decide +kernel
  have h7 : (run (fun _ => 16) init demoLost).map (fun w =>
      (errOf (step (fun _ => 16) w (.add 0 0 0 100) false)).map (fun sh => (sh.size, holes sh))) =
      some (some (40, some [])) := by rfl
  rw [hw] at h2 h7
  simp only [Option.map_some, Option.some.injEq, Prod.mk.injEq] at h2
  simp only [Option.map_some, Option.some.injEq] at h7
  obtain ⟨h3, h4, h5, h6⟩ := h2
  obtain ⟨sh, hsh, h8⟩ := Option.map_eq_some_iff.1 h7
  simp only [Prod.mk.injEq] at h8
  have hstep : step (fun _ => 16) w (.add 0 0 0 100) false = .sysErr sh := by
    revert hsh
    generalize step (fun _ => 16) w (.add 0 0 0 100) false = r
    intro hsh
    cases r <;> simp [errOf] at hsh
    rw [hsh]
  refine ⟨w, .add 0 0 0 100, sh, 8, Hist.init.run hw, ⟨by omega, fun _ => h5⟩, hstep, by omega, by omega, ?_, ?_⟩
  · rintro ⟨l, hl, p, hp, -⟩
    rw [h8.2] at hl
    injection hl with hl
    subst hl
    simp at hp
  · have hb := run_below (n := 2) hw (by decide)
    have z0 : shmSize 0 = 0 := by decide
    intro id ho
    unfold Owns at ho
    match id with
    | .arr 0 => simp [rng, h3, z0] at ho; omega
    | .arr 1 => simp only [rng, h4] at ho; omega
    | .attr 0 => simp [rng, h5, z0] at ho; omega
    | .attr 1 => simp [rng, h6, z0] at ho; omega
    | .arr (n + 2) => simp [rng, (hb (n + 2) (by omega)).1, init, z0] at ho
    | .attr (n + 2) => simp [rng, (hb (n + 2) (by omega)).2, init, z0] at ho

end Verif.ExtShm
