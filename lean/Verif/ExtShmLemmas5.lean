import Verif.ExtShmLemmas4
/-! Helper lemmas: invariant of all the clients of the segment. -/
namespace Verif.ExtShm

variable {isz : Nat → Nat}

/-- Invariant of a segment with its clients. -/
structure WInv (isz : Nat → Nat) (w : World) (l : List (Nat × Nat)) : Prop where
  hs : HS w.sh.mem l w.sh.size
  size8 : w.sh.size % 8 = 0
  sizeGe : 8 ≤ w.sh.size
  sizeLt : w.sh.size < 2147483648
  al : ∀ id, (rng isz w id).2 ≠ 0 → (rng isz w id).1 % 8 = 0 ∧ 8 ≤ (rng isz w id).1 ∧
    (rng isz w id).1 + (rng isz w id).2 ≤ w.sh.size
  dj : ∀ id id' x, Owns isz w id x → Owns isz w id' x → id = id'
  cv : ∀ x, 8 ≤ x → x < w.sh.size → (Cov l x ↔ ∀ id, ¬ Owns isz w id x)
  za : ∀ k, (w.arr k).off = 0 ↔ (w.arr k).count = 0
  zt : ∀ j, (w.attr j).off = 0 ↔ (w.attr j).len = 0

theorem WInv.init : WInv isz init [] := by
  have ho : ∀ id x, ¬ Owns isz ExtShm.init id x := by
    intro id x h
    cases id <;> simp [Owns, rng, ExtShm.init, shmSize] at h <;> omega
  refine ⟨⟨⟨List.Pairwise.nil, by simp⟩, trivial, rfl⟩, rfl, by decide, by decide, ?_, ?_, ?_, ?_, ?_⟩
  · intro id h; cases id <;> simp [rng, ExtShm.init, shmSize] at h
  · intro id id' x h; exact absurd h (ho id x)
  · intro x h1 h2; simp [ExtShm.init] at h2; omega
  · intro k; simp [ExtShm.init]
  · intro k; simp [ExtShm.init]

theorem WInv.owns_in {w : World} {l : List (Nat × Nat)} (h : WInv isz w l) {id : Id} {x : Nat} (ho : Owns isz w id x) :
    8 ≤ x ∧ x < w.sh.size := by
  have := h.al id (by unfold Owns at ho; omega)
  unfold Owns at ho; omega

theorem WInv.owns_free {w : World} {l : List (Nat × Nat)} (h : WInv isz w l) {id : Id} {x : Nat} (ho : Owns isz w id x) :
    ¬ Cov l x := fun hc => (h.cv x (h.owns_in ho).1 (h.owns_in ho).2).1 hc id ho

/-- Change of the allocations `C` and of the hole list, other allocations are where they were. -/
theorem WInv.change {w w' : World} {l l' : List (Nat × Nat)} (h : WInv isz w l) (C : Id → Prop)
    (hsame : ∀ id, ¬ C id → rng isz w' id = rng isz w id)
    (hs : HS w'.sh.mem l' w'.sh.size) (h8 : w'.sh.size % 8 = 0) (hge : w.sh.size ≤ w'.sh.size) (hlt : w'.sh.size < 2147483648)
    (hal : ∀ id, C id → (rng isz w' id).2 ≠ 0 → (rng isz w' id).1 % 8 = 0 ∧ 8 ≤ (rng isz w' id).1 ∧
      (rng isz w' id).1 + (rng isz w' id).2 ≤ w'.sh.size)
    (hdj : ∀ id id' x, C id → C id' → Owns isz w' id x → Owns isz w' id' x → id = id')
    (hfr : ∀ id x, C id → Owns isz w' id x → Cov l x ∨ w.sh.size ≤ x ∨ ∃ id', C id' ∧ Owns isz w id' x)
    (hcv : ∀ x, 8 ≤ x → x < w'.sh.size →
      (Cov l' x ↔ (Cov l x ∨ w.sh.size ≤ x ∨ ∃ id', C id' ∧ Owns isz w id' x) ∧ ∀ id, C id → ¬ Owns isz w' id x))
    (hza : ∀ k, (w'.arr k).off = 0 ↔ (w'.arr k).count = 0)
    (hzt : ∀ j, (w'.attr j).off = 0 ↔ (w'.attr j).len = 0) : WInv isz w' l' := by
  have hown : ∀ id x, ¬ C id → (Owns isz w' id x ↔ Owns isz w id x) := by
    intro id x hc; simp only [Owns, hsame id hc]
  have hmix : ∀ id id' x, C id → ¬ C id' → Owns isz w' id x → ¬ Owns isz w' id' x := by
    intro id id' x hc hc' ho ho'
    rw [hown id' x hc'] at ho'
    rcases hfr id x hc ho with h1 | h1 | ⟨i, hi, h1⟩
    · exact h.owns_free ho' h1
    · have := (h.owns_in ho').2; omega
    · have := h.dj _ _ x h1 ho'; subst this; exact hc' hi
  refine ⟨hs, h8, by have := h.sizeGe; omega, hlt, ?_, ?_, ?_, hza, hzt⟩
  · intro id hne
    by_cases hc : C id
    · exact hal id hc hne
    · rw [hsame id hc] at hne ⊢
      have := h.al id hne; omega
  · intro id id' x h1 h2
    by_cases hc : C id
    · by_cases hc' : C id'
      · exact hdj id id' x hc hc' h1 h2
      · exact absurd h2 (hmix _ _ _ hc hc' h1)
    · by_cases hc' : C id'
      · exact absurd h1 (hmix _ _ _ hc' hc h2)
      · rw [hown _ _ hc] at h1; rw [hown _ _ hc'] at h2
        exact h.dj id id' x h1 h2
  · intro x hx hxs
    rw [hcv x hx hxs]
    constructor
    · rintro ⟨h1, h2⟩ id ho
      by_cases hc : C id
      · exact h2 id hc ho
      · rw [hown _ _ hc] at ho
        rcases h1 with h1 | h1 | ⟨i, hi, h1⟩
        · exact h.owns_free ho h1
        · have := (h.owns_in ho).2; omega
        · have := h.dj _ _ x h1 ho; subst this; exact hc hi
    · intro h1
      refine ⟨?_, fun id _ => h1 id⟩
      by_cases hxn : w.sh.size ≤ x
      · exact Or.inr (Or.inl hxn)
      · by_cases hex : ∃ id', C id' ∧ Owns isz w id' x
        · exact Or.inr (Or.inr hex)
        · refine Or.inl ((h.cv x hx (by omega)).2 fun id ho => ?_)
          by_cases hc : C id
          · exact hex ⟨id, hc, ho⟩
          · exact h1 id ((hown _ _ hc).2 ho)

theorem upd_same {α : Type} (f : Nat → α) (k : Nat) (a : α) : upd f k a k = a := if_pos rfl
theorem upd_ne {α : Type} (f : Nat → α) {k i : Nat} (a : α) (h : i ≠ k) : upd f k a i = f i := if_neg h

theorem WInv.addHyps {w : World} {l : List (Nat × Nat)} (h : WInv isz w l) (hp : ∀ k, 0 < isz k) (k : Nat) :
    ((w.arr k).count ≠ 0 → (w.arr k).off % 8 = 0 ∧ 8 ≤ (w.arr k).off ∧
      (w.arr k).off + shmSize ((w.arr k).count * isz k) ≤ w.sh.size) ∧
    (∀ x, In (w.arr k).off (shmSize ((w.arr k).count * isz k)) x → ¬ Cov l x) := by
  constructor
  · intro hc
    refine h.al (.arr k) ?_
    have := Nat.mul_pos (Nat.pos_of_ne_zero hc) (hp k)
    have := shmSize_ge ((w.arr k).count * isz k)
    simp only [rng]; omega
  · intro x hx
    exact h.owns_free (id := .arr k) hx

theorem WInv.attrHyps {w : World} {l : List (Nat × Nat)} (h : WInv isz w l) (j : Nat) :
    ((w.attr j).len ≠ 0 → (w.attr j).off % 8 = 0 ∧ 8 ≤ (w.attr j).off ∧
      (w.attr j).off + shmSize (w.attr j).len ≤ w.sh.size) ∧
    (∀ x, In (w.attr j).off (shmSize (w.attr j).len) x → ¬ Cov l x) := by
  constructor
  · intro hc
    exact h.al (.attr j) (fun h0 => hc (shmSize_eq_zero.1 h0))
  · intro x hx
    exact h.owns_free (id := .attr j) hx

/-- Effect of adding an item. -/
theorem step_add {w : World} {l : List (Nat × Nat)} (h : WInv isz w l) (hp : ∀ k, 0 < isz k) {k idx j len : Nat}
    {g : Bool} (hpre : Pre isz w (.add k idx j len)) :
    ∃ sz, sz ≤ w.sh.size + shmSize (((w.arr k).count + 1) * isz k) + shmSize len ∧
      (∀ w', step isz w (.add k idx j len) g = .ok w' → w'.sh.size = sz) ∧
      ((∃ sh', step isz w (.add k idx j len) g = .sysErr sh' ∧ g = false) ∨
       (sz < 2147483648 → ∃ o l', shmreallocAdd w.sh (w.arr k).off (w.arr k).count (isz k) idx len g = .ok o ∧
          AddOk w.sh.mem l w.sh.size (w.arr k).off (w.arr k).count (isz k) idx len o l' ∧
          WInv isz { sh := o.sh, arr := upd w.arr k ⟨o.arrayOff, o.count⟩,
                     attr := if len = 0 then w.attr else upd w.attr j ⟨o.attrOff, len⟩ } l')) := by
  have hsz := h.sizeLt
  have hH := h.addHyps hp k
  obtain ⟨sz, hb, h1, h2⟩ := shmreallocAdd_spec (len := len) (g := g) (idx := idx) h.hs (by omega) h.size8 h.sizeGe (hp k)
    (h.za k) hpre.1 hH.1 hH.2
  refine ⟨sz, hb, ?_, ?_⟩
  · intro w' hw'
    simp only [step] at hw'
    split at hw'
    · simp at hw'
    · simp at hw'
    · rename_i o ho
      injection hw' with hw'; rw [← hw']
      exact h1 o ho
  · rcases h2 with ⟨sh', h2, hg⟩ | h2
    · left
      refine ⟨sh', ?_, hg⟩
      have h2' : shmreallocAdd w.sh (w.arr k).off (w.arr k).count (isz k) idx len g = .sysErr sh' := h2
      simp only [step, h2']
    · right
      intro hlt
      obtain ⟨o, l', e, A⟩ := h2 (by omega)
      refine ⟨o, l', e, A, ?_⟩
      have hso : o.sh.size < 2147483648 := by rw [h1 o e]; exact hlt
      have hcnt := A.cnt
      -- new ranges
      let w' : World := { sh := o.sh, arr := upd w.arr k ⟨o.arrayOff, o.count⟩,
                          attr := if len = 0 then w.attr else upd w.attr j ⟨o.attrOff, len⟩ }
      have hrk : rng isz w' (.arr k) = (o.arrayOff, shmSize (((w.arr k).count + 1) * isz k)) := by
        simp only [rng, w', upd_same, hcnt]
      have hrj : len ≠ 0 → rng isz w' (.attr j) = (o.attrOff, shmSize len) := by
        intro hl; simp only [rng, w', if_neg hl, upd_same]
      have hold : ∀ x, Owns isz w (.arr k) x ↔ In (w.arr k).off (shmSize ((w.arr k).count * isz k)) x := fun x => Iff.rfl
      have hjempty : len ≠ 0 → ∀ x, ¬ Owns isz w (.attr j) x := by
        intro hl x hx
        simp only [Owns, rng, hpre.2 hl, shmSize_zero] at hx; omega
      refine WInv.change (w' := w') h (fun id => id = .arr k ∨ (len ≠ 0 ∧ id = .attr j)) ?_ A.hs A.size8 A.sizeGe hso ?_ ?_ ?_ ?_ ?_ ?_
      · intro id hc
        cases id with
        | arr k' =>
          have hk : k' ≠ k := fun hk => hc (Or.inl (by rw [hk]))
          simp only [rng, w', upd_ne _ _ hk]
        | attr j' =>
          by_cases hl : len = 0
          · simp only [rng, w', if_pos hl]
          · have hj : j' ≠ j := fun hj => hc (Or.inr ⟨hl, by rw [hj]⟩)
            simp only [rng, w', if_neg hl, upd_ne _ _ hj]
      · rintro id (rfl | ⟨hl, rfl⟩) hne
        · rw [hrk]; exact A.arr
        · rw [hrj hl]; exact A.attr hl
      · rintro id id' x (rfl | ⟨hl, rfl⟩) (rfl | ⟨hl', rfl⟩) ho ho'
        · rfl
        · unfold Owns at ho ho'; rw [hrk] at ho; rw [hrj hl'] at ho'
          exact absurd ho' (A.disj x ho)
        · unfold Owns at ho ho'; rw [hrk] at ho'; rw [hrj hl] at ho
          exact absurd ho (A.disj x ho')
        · rfl
      · rintro id x (rfl | ⟨hl, rfl⟩) ho
        · unfold Owns at ho; rw [hrk] at ho
          rcases A.arrFresh x ho with h3 | h3 | h3
          · exact Or.inl h3
          · exact Or.inr (Or.inl h3)
          · exact Or.inr (Or.inr ⟨.arr k, Or.inl rfl, h3⟩)
        · unfold Owns at ho; rw [hrj hl] at ho
          rcases A.attrFresh x ho with h3 | h3
          · exact Or.inl h3
          · exact Or.inr (Or.inl h3)
      · intro x hx hxs
        show Cov l' x ↔ _
        rw [A.cov x hx hxs]
        constructor
        · rintro ⟨h3, h4, h5⟩
          refine ⟨?_, ?_⟩
          · rcases h3 with h3 | h3 | h3
            · exact Or.inl h3
            · exact Or.inr (Or.inl h3)
            · exact Or.inr (Or.inr ⟨.arr k, Or.inl rfl, h3⟩)
          · rintro id (rfl | ⟨hl, rfl⟩) ho
            · unfold Owns at ho; rw [hrk] at ho; exact h4 ho
            · unfold Owns at ho; rw [hrj hl] at ho; exact h5 ho
        · rintro ⟨h3, h4⟩
          refine ⟨?_, ?_, ?_⟩
          · rcases h3 with h3 | h3 | ⟨id, hid, h3⟩
            · exact Or.inl h3
            · exact Or.inr (Or.inl h3)
            · rcases hid with rfl | ⟨hl, rfl⟩
              · exact Or.inr (Or.inr h3)
              · exact absurd h3 (hjempty hl x)
          · intro h5; refine h4 (.arr k) (Or.inl rfl) ?_; unfold Owns; rw [hrk]; exact h5
          · intro h5
            by_cases hl : len = 0
            · subst hl; simp only [shmSize_zero] at h5; have := h5.1; have := h5.2; omega
            · refine h4 (.attr j) (Or.inr ⟨hl, rfl⟩) ?_; unfold Owns; rw [hrj hl]; exact h5
      · intro k'
        show (upd w.arr k _ k').off = 0 ↔ (upd w.arr k _ k').count = 0
        by_cases hk : k' = k
        · subst hk; rw [upd_same]
          have := A.arr; simp only [hcnt]; omega
        · rw [upd_ne _ _ hk]; exact h.za k'
      · intro j'
        show ((if len = 0 then w.attr else upd w.attr j ⟨o.attrOff, len⟩) j').off = 0 ↔ ((if len = 0 then w.attr else upd w.attr j ⟨o.attrOff, len⟩) j').len = 0
        by_cases hl : len = 0
        · rw [if_pos hl]; exact h.zt j'
        · rw [if_neg hl]
          by_cases hj : j' = j
          · subst hj; rw [upd_same]; have := A.attr hl; simp only; omega
          · rw [upd_ne _ _ hj]; exact h.zt j'

/-- Attributes after freeing one. -/
def freed (w : World) : Option Nat → Nat → Attr
  | none => w.attr
  | some j => upd w.attr j ⟨0, 0⟩

/-- World after deleting an item. -/
def delW (w : World) (k : Nat) (jo : Option Nat) (m' : Mem) : World :=
  { sh := ⟨m', w.sh.size⟩,
    arr := upd w.arr k ⟨if (w.arr k).count - 1 = 0 then 0 else (w.arr k).off, (w.arr k).count - 1⟩,
    attr := freed w jo }

/-- Effect of deleting an item, with its attribute if there is one. -/
theorem step_del {w : World} {l : List (Nat × Nat)} (h : WInv isz w l) (hp : ∀ k, 0 < isz k) {k idx : Nat}
    {jo : Option Nat} {g : Bool} (hpre : Pre isz w (.del k idx jo)) :
    ∃ m' l', step isz w (.del k idx jo) g = .ok
        (delW w k jo m') ∧
      (∀ r, r < idx * isz k → m' ((w.arr k).off + r) = w.sh.mem ((w.arr k).off + r)) ∧
      (∀ r, idx * isz k ≤ r → r < ((w.arr k).count - 1) * isz k →
        m' ((w.arr k).off + r) = w.sh.mem ((w.arr k).off + isz k + r)) ∧
      (∀ id x, id ≠ .arr k → (∀ j, jo = some j → id ≠ .attr j) → Owns isz w id x → m' x = w.sh.mem x) ∧
      WInv isz (delW w k jo m') l' := by
  have hsz := h.sizeLt
  have hidx : idx < (w.arr k).count := by cases jo with | none => exact hpre | some j => exact hpre.1
  have hH := h.addHyps hp k
  have ha := hH.1 (by omega)
  -- the attribute as passed
  obtain ⟨asz, ao, hstep, hat, hin⟩ : ∃ asz ao,
      (∀ m' l2, shmreallocDel w.sh (w.arr k).off (w.arr k).count (isz k) idx asz ao = some (⟨m', w.sh.size⟩, if (w.arr k).count - 1 = 0 then 0 else (w.arr k).off, (w.arr k).count - 1) →
        l2 = l2 → step isz w (.del k idx jo) g = .ok (delW w k jo m')) ∧
      ((asz = 0 ∧ ao = 0) ∨ (asz ≠ 0 ∧ asz % 8 = 0 ∧ ao % 8 = 0 ∧ 8 ≤ ao ∧ ao + asz ≤ w.sh.size)) ∧
      (∀ x, In ao asz x ↔ ∃ j, jo = some j ∧ Owns isz w (.attr j) x) := by
    cases jo with
    | none =>
      refine ⟨0, 0, fun m' (l2 : Nat) e _ => by simp only [step, e, delW, freed], Or.inl ⟨rfl, rfl⟩, fun x => ?_⟩
      simp
    | some j =>
      have hA := (h.attrHyps j).1 hpre.2
      refine ⟨shmSize (w.attr j).len, (w.attr j).off, fun m' l2 e _ => by simp only [step, e, delW, freed], Or.inr ⟨?_, shmSize_mod _, hA⟩, fun x => ?_⟩
      · exact fun h0 => hpre.2 (shmSize_eq_zero.1 h0)
      · simp [Owns, rng]
  obtain ⟨m', l', e, h1, hcov, hb, haf, hf⟩ := shmreallocDel_spec (idx := idx) (asz := asz) (ao := ao) h.hs (by omega) hidx ha hH.2 hat
    (fun x hx => by obtain ⟨j, -, ho⟩ := (hin x).1 hx; exact h.owns_free ho)
    (fun x hx hx2 => by
      obtain ⟨j, -, ho⟩ := (hin x).1 hx2
      have := h.dj (.arr k) (.attr j) x hx ho; cases this)
  refine ⟨m', l', hstep m' 0 e rfl, hb, haf, ?_, ?_⟩
  · intro id x hid hid2 ho
    refine hf x (h.owns_in ho).1 (h.owns_free ho) (fun h2 => hid (h.dj _ _ x ho h2)) fun h2 => ?_
    obtain ⟨j, hj, ho2⟩ := (hin x).1 h2
    exact hid2 j hj (h.dj _ _ x ho ho2)
  · let w' : World := delW w k jo m'
    have hrk : rng isz w' (.arr k) = (if (w.arr k).count - 1 = 0 then 0 else (w.arr k).off, shmSize (((w.arr k).count - 1) * isz k)) := by
      simp only [rng, w', delW, upd_same]
    have hownk : ∀ x, Owns isz w' (.arr k) x ↔ In (w.arr k).off (shmSize (((w.arr k).count - 1) * isz k)) x := by
      intro x
      unfold Owns; rw [hrk]
      by_cases hc : (w.arr k).count - 1 = 0
      · simp only [hc, Nat.zero_mul, shmSize_zero]; omega
      · simp only [if_neg hc]
    have hownj : ∀ j x, jo = some j → ¬ Owns isz w' (.attr j) x := by
      rintro j x rfl ho
      simp only [Owns, rng, w', delW, freed, upd_same, shmSize_zero] at ho; omega
    have hle : shmSize (((w.arr k).count - 1) * isz k) ≤ shmSize ((w.arr k).count * isz k) :=
      shmSize_mono (Nat.mul_le_mul_right _ (by omega))
    refine WInv.change (w' := delW w k jo m') h (fun id => id = .arr k ∨ ∃ j, jo = some j ∧ id = .attr j) ?_ h1 h.size8 (Nat.le_refl _) hsz ?_ ?_ ?_ ?_ ?_ ?_
    · intro id hc
      cases id with
      | arr k' =>
        have hk : k' ≠ k := fun hk => hc (Or.inl (by rw [hk]))
        simp only [rng, delW, upd_ne _ _ hk]
      | attr j' =>
        cases jo with
        | none => simp only [rng, delW, freed]
        | some j =>
          have hj : j' ≠ j := fun hj => hc (Or.inr ⟨j, rfl, by rw [hj]⟩)
          simp only [rng, delW, freed, upd_ne _ _ hj]
    · rintro id (rfl | ⟨j, hj, rfl⟩) hne
      · rw [hrk] at hne ⊢
        have hc : ¬ (w.arr k).count - 1 = 0 := by
          intro h0; simp only [h0, Nat.zero_mul, shmSize_zero] at hne; exact hne rfl
        simp only [if_neg hc]
        show _ ∧ _ ∧ _ ≤ w.sh.size
        omega
      · subst hj; simp only [rng, delW, freed, upd_same, shmSize_zero] at hne; exact absurd rfl hne
    · rintro id id' x (rfl | ⟨j, hj, rfl⟩) (rfl | ⟨j', hj', rfl⟩) ho ho'
      · rfl
      · exact absurd ho' (hownj _ _ hj')
      · exact absurd ho (hownj _ _ hj)
      · rw [hj] at hj'; injection hj' with hj'; rw [hj']
    · rintro id x (rfl | ⟨j, hj, rfl⟩) ho
      · have := (hownk x).1 ho
        exact Or.inr (Or.inr ⟨.arr k, Or.inl rfl, ⟨this.1, by have := this.2; simp only [rng]; omega⟩⟩)
      · exact absurd ho (hownj _ _ hj)
    · intro x hx hxs
      rw [hcov x]
      constructor
      · rintro (h2 | h2 | ⟨h2, h3⟩)
        · refine ⟨Or.inl h2, ?_⟩
          rintro id (rfl | ⟨j, hj, rfl⟩) ho
          · have := (hownk x).1 ho
            exact h.owns_free (id := .arr k) ⟨this.1, by have := this.2; simp only [rng]; omega⟩ h2
          · exact hownj _ _ hj ho
        · obtain ⟨j, hj, ho2⟩ := (hin x).1 h2
          refine ⟨Or.inr (Or.inr ⟨.attr j, Or.inr ⟨j, hj, rfl⟩, ho2⟩), ?_⟩
          rintro id (rfl | ⟨j', hj', rfl⟩) ho
          · have := (hownk x).1 ho
            have := h.dj (.arr k) (.attr j) x ⟨this.1, by have := this.2; simp only [rng]; omega⟩ ho2
            cases this
          · exact hownj _ _ hj' ho
        · refine ⟨Or.inr (Or.inr ⟨.arr k, Or.inl rfl, h2⟩), ?_⟩
          rintro id (rfl | ⟨j', hj', rfl⟩) ho
          · exact h3 ((hownk x).1 ho)
          · exact hownj _ _ hj' ho
      · rintro ⟨h2, h3⟩
        rcases h2 with h2 | h2 | ⟨id, hid, h2⟩
        · exact Or.inl h2
        · have hxs' : x < w.sh.size := hxs
          omega
        · rcases hid with rfl | ⟨j, hj, rfl⟩
          · exact Or.inr (Or.inr ⟨h2, fun h4 => h3 (.arr k) (Or.inl rfl) ((hownk x).2 h4)⟩)
          · exact Or.inr (Or.inl ((hin x).2 ⟨j, hj, h2⟩))
    · intro k'
      show (upd w.arr k _ k').off = 0 ↔ (upd w.arr k _ k').count = 0
      by_cases hk : k' = k
      · subst hk; rw [upd_same]
        by_cases hc : (w.arr k').count - 1 = 0
        · simp [hc]
        · simp only [if_neg hc]; omega
      · rw [upd_ne _ _ hk]; exact h.za k'
    · intro j'
      cases jo with
      | none => exact h.zt j'
      | some j =>
        show (upd w.attr j _ j').off = 0 ↔ (upd w.attr j _ j').len = 0
        by_cases hj : j' = j
        · subst hj; rw [upd_same]
        · rw [upd_ne _ _ hj]; exact h.zt j'

/-- Effect of resizing an attribute. -/
theorem step_resize {w : World} {l : List (Nat × Nat)} (h : WInv isz w l) {j len : Nat}
    {g : Bool} (hpre : Pre isz w (.resize j len)) :
    ∃ sz, sz ≤ w.sh.size + shmSize len ∧
      (∀ w', step isz w (.resize j len) g = .ok w' → w'.sh.size = sz) ∧
      ((∃ sh', step isz w (.resize j len) g = .sysErr sh' ∧ g = false) ∨
       (sz < 2147483648 → ∃ sh o l', shmrealloc w.sh (w.attr j).off (w.attr j).len len g = .ok (sh, o) ∧
          ReOk w.sh.mem l w.sh.size (w.attr j).off (w.attr j).len len sh o l' ∧
          WInv isz { w with sh := sh, attr := upd w.attr j ⟨if len = 0 then 0 else o, len⟩ } l')) := by
  have hsz := h.sizeLt
  have hH := h.attrHyps j
  obtain ⟨sz, hb, h1, h2⟩ := shmrealloc_spec (new := len) (g := g) h.hs (by omega) h.size8 h.sizeGe (h.zt j) hpre hH.1 hH.2
  refine ⟨sz, hb, ?_, ?_⟩
  · intro w' hw'
    simp only [step] at hw'
    split at hw'
    · simp at hw'
    · simp at hw'
    · rename_i sh o ho
      injection hw' with hw'; rw [← hw']
      exact h1 sh o ho
  · rcases h2 with ⟨sh', h2, hg⟩ | h2
    · left
      refine ⟨sh', ?_, hg⟩
      have h2' : shmrealloc w.sh (w.attr j).off (w.attr j).len len g = .sysErr sh' := h2
      simp only [step, h2']
    · right
      intro hlt
      obtain ⟨sh, o, l', e, A⟩ := h2 (by omega)
      refine ⟨sh, o, l', e, A, ?_⟩
      have hso : sh.size < 2147483648 := by rw [h1 sh o e]; exact hlt
      let w' : World := { w with sh := sh, attr := upd w.attr j ⟨if len = 0 then 0 else o, len⟩ }
      have hown : ∀ x, Owns isz w' (.attr j) x ↔ In o (shmSize len) x := by
        intro x
        simp only [Owns, rng, w', upd_same]
        by_cases hl : len = 0
        · simp only [hl, shmSize_zero]; omega
        · simp only [if_neg hl]
      refine WInv.change (w' := w') h (fun id => id = .attr j) ?_ A.hs A.size8 A.sizeGe hso ?_ ?_ ?_ ?_ ?_ ?_
      · intro id hc
        cases id with
        | arr k' => rfl
        | attr j' =>
          have hj : j' ≠ j := fun hj => hc (by rw [hj])
          simp only [rng, w', upd_ne _ _ hj]
      · rintro id rfl hne
        simp only [rng, w', upd_same] at hne ⊢
        have hl : len ≠ 0 := fun h0 => hne (shmSize_eq_zero.2 h0)
        simp only [if_neg hl]
        exact A.al
      · rintro id id' x rfl rfl _ _; rfl
      · rintro id x rfl ho
        rcases A.fresh x ((hown x).1 ho) with h3 | h3 | h3
        · exact Or.inl h3
        · exact Or.inr (Or.inl h3)
        · exact Or.inr (Or.inr ⟨.attr j, rfl, h3⟩)
      · intro x hx hxs
        show Cov l' x ↔ _
        rw [A.cov x hx hxs]
        constructor
        · rintro ⟨h3, h4⟩
          refine ⟨?_, ?_⟩
          · rcases h3 with h3 | h3 | h3
            · exact Or.inl h3
            · exact Or.inr (Or.inl h3)
            · exact Or.inr (Or.inr ⟨.attr j, rfl, h3⟩)
          · rintro id rfl ho; exact h4 ((hown x).1 ho)
        · rintro ⟨h3, h4⟩
          refine ⟨?_, fun h5 => h4 _ rfl ((hown x).2 h5)⟩
          rcases h3 with h3 | h3 | ⟨id, rfl, h3⟩
          · exact Or.inl h3
          · exact Or.inr (Or.inl h3)
          · exact Or.inr (Or.inr h3)
      · exact h.za
      · intro j'
        show (upd w.attr j _ j').off = 0 ↔ (upd w.attr j _ j').len = 0
        by_cases hj : j' = j
        · subst hj; rw [upd_same]
          have := A.al
          by_cases hl : len = 0
          · simp [hl]
          · simp only [if_neg hl]; omega
        · rw [upd_ne _ _ hj]; exact h.zt j'

/-- Effect of a store. -/
theorem step_store {w : World} {l : List (Nat × Nat)} (h : WInv isz w l) {id : Id} {rel val : Nat}
    (hpre : Pre isz w (.store id rel val)) :
    WInv isz { w with sh := { w.sh with mem := fun x => if x = (rng isz w id).1 + rel then val else w.sh.mem x } } l := by
  have ho : Owns isz w id ((rng isz w id).1 + rel) := ⟨by omega, by have : rel < (rng isz w id).2 := hpre; omega⟩
  have hi := h.owns_in ho
  have hf := h.owns_free ho
  refine { h with hs := h.hs.congr (Nat.le_refl _) fun x hx => ?_ }
  simp only
  rw [if_neg]
  rintro rfl
  rcases hx with hx | hx
  · omega
  · exact hf hx

/-- Effect of shrinking. -/
theorem step_trim {w : World} {l : List (Nat × Nat)} (h : WInv isz w l) :
    ∃ sh' l', trim w.sh = some sh' ∧ WInv isz { w with sh := sh' } l' ∧ sh'.size ≤ w.sh.size ∧
      (∀ id x, Owns isz w id x → sh'.mem x = w.sh.mem x) := by
  have hsz := h.sizeLt
  obtain ⟨sh', l', e, h1, h8, hle, hm, hcov, hend, hf⟩ := trim_spec h.hs (by omega) h.size8 h.sizeGe
  have hin : ∀ id x, Owns isz w id x → x < sh'.size := by
    intro id x ho
    have := (h.owns_in ho).2
    rcases Nat.lt_or_ge x sh'.size with h2 | h2
    · exact h2
    · exact absurd (hend x h2 this) (h.owns_free ho)
  refine ⟨sh', l', e, ?_, hle, fun id x ho => hf x (h.owns_in ho).1 (hin id x ho) (h.owns_free ho)⟩
  refine ⟨h1, hm, h8, by simp only; omega, ?_, h.dj, ?_, h.za, h.zt⟩
  · intro id hne
    have hr : rng isz { w with sh := sh' } id = rng isz w id := by cases id <;> rfl
    rw [hr] at hne ⊢
    have hA := h.al id hne
    refine ⟨hA.1, hA.2.1, ?_⟩
    have := hin id ((rng isz w id).1 + (rng isz w id).2 - 1) ⟨by omega, by omega⟩
    simp only
    omega
  · intro x hx hxs
    simp only at hxs
    rw [hcov]
    have := h.cv x hx (by omega)
    rw [this]
    exact ⟨fun h => h.1, fun h => ⟨h, hxs⟩⟩

theorem WInv.step {w w' : World} {l : List (Nat × Nat)} {op : Op} {g : Bool} (h : WInv isz w l) (hp : ∀ k, 0 < isz k)
    (hpre : Pre isz w op) (e : step isz w op g = .ok w') (hlt : w'.sh.size < 2147483648) : ∃ l', WInv isz w' l' := by
  cases op with
  | add k idx j len =>
    obtain ⟨sz, -, hs, h2⟩ := step_add (g := g) h hp hpre
    have hs := hs w' e
    rcases h2 with ⟨sh', h2, -⟩ | h2
    · rw [h2] at e; simp at e
    · obtain ⟨o, l', e2, -, h3⟩ := h2 (by omega)
      simp only [ExtShm.step, e2] at e
      injection e with e; subst e
      exact ⟨l', h3⟩
  | del k idx jo =>
    obtain ⟨m', l', e2, -, -, -, h3⟩ := step_del (g := g) h hp hpre
    rw [e2] at e; injection e with e; subst e
    exact ⟨l', h3⟩
  | resize j len =>
    obtain ⟨sz, -, hs, h2⟩ := step_resize (g := g) h hpre
    have hs := hs w' e
    rcases h2 with ⟨sh', h2, -⟩ | h2
    · rw [h2] at e; simp at e
    · obtain ⟨sh, o, l', e2, -, h3⟩ := h2 (by omega)
      simp only [ExtShm.step, e2] at e
      injection e with e; subst e
      exact ⟨l', h3⟩
  | store id rel val =>
    simp only [ExtShm.step] at e
    injection e with e; subst e
    exact ⟨l, step_store h hpre⟩
  | trim =>
    obtain ⟨sh', l', e2, h3, -⟩ := step_trim h
    simp only [ExtShm.step, e2] at e
    injection e with e; subst e
    exact ⟨l', h3⟩

theorem Hist.inv {w : World} (h : Hist isz w) (hp : ∀ k, 0 < isz k) : ∃ l, WInv isz w l := by
  induction h with
  | init => exact ⟨[], WInv.init⟩
  | step _ hpre e hlt ih =>
    obtain ⟨l, hl⟩ := ih
    exact hl.step hp hpre e hlt

end Verif.ExtShm
