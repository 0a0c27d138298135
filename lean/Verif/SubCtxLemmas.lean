import Verif.SubCtx

/-! Lemmas on the arrays of a subscription structure and the invariant of all schedules. -/

namespace Verif.SubCtx

theorem swapDel_perm {l : List α} {i : Nat} {x : α} (h : l[i]? = some x) :
    (x :: swapDel l i).Perm l := by
  unfold swapDel
  rcases List.eq_nil_or_concat l with rfl | ⟨l', y, rfl⟩
  · simp at h
  · rw [List.concat_eq_append] at *
    simp only [List.getLast?_append, List.getLast?_singleton, Option.some_or]
    by_cases hi : i < l'.length
    · rw [List.set_append_left _ _ hi, List.dropLast_concat]
      rw [List.getElem?_append_left hi] at h
      have h2 : (x :: l'.set i y).Perm (y :: l') := by
        clear hi
        induction l' generalizing i with
        | nil => simp at h
        | cons a l ih =>
          cases i with
          | zero =>
            simp only [List.getElem?_cons_zero, Option.some.injEq] at h
            subst h
            exact List.Perm.swap ..
          | succ i =>
            simp only [List.getElem?_cons_succ] at h
            rw [List.set_cons_succ]
            exact (List.Perm.swap ..).trans (((ih h).cons a).trans (List.Perm.swap ..))
      exact h2.trans (List.perm_append_singleton y l').symm
    · have hx : y = x ∧ i = l'.length := by
        rw [List.getElem?_append_right (by omega)] at h
        rw [List.getElem?_singleton] at h
        split at h
        · cases h; exact ⟨rfl, by omega⟩
        · cases h
      obtain ⟨rfl, rfl⟩ := hx
      rw [List.set_append_right _ _ (by omega)]
      simp only [Nat.sub_self, List.set_cons_zero, List.dropLast_concat]
      exact (List.perm_append_singleton y l').symm

theorem flatMap_perm {a b : List Group} (h : a.Perm b) : (subsOf a).Perm (subsOf b) :=
  h.flatMap_right _

theorem subsOf_set {a : List Group} {i : Nat} {g g' : Group} {x : Sub} (h : a[i]? = some g)
    (hg : (x :: g'.subs).Perm g.subs) : (x :: subsOf (a.set i g')).Perm (subsOf a) := by
  induction a generalizing i with
  | nil => simp at h
  | cons b a ih =>
    cases i with
    | zero =>
      simp only [List.getElem?_cons_zero, Option.some.injEq] at h
      subst h
      simp only [subsOf, List.set_cons_zero, List.flatMap_cons]
      rw [← List.cons_append]
      exact hg.append_right _
    | succ i =>
      simp only [List.getElem?_cons_succ] at h
      simp only [subsOf, List.set_cons_succ, List.flatMap_cons]
      have := ih h
      simp only [subsOf] at this
      exact (List.perm_middle.symm).trans (this.append_left _)

theorem delAt_perm {a : List Group} {i j : Nat} {x : Sub} (h : subAt a i j = some x) :
    (x :: subsOf (delAt a i j)).Perm (subsOf a) := by
  unfold subAt at h
  unfold delAt
  cases hg : a[i]? with
  | none => rw [hg] at h; cases h
  | some g =>
    rw [hg] at h
    simp only at h ⊢
    have hp := swapDel_perm h
    split
    · rename_i he
      have he : swapDel g.subs j = [] := List.isEmpty_iff.1 he
      rw [he] at hp
      have h1 := flatMap_perm (swapDel_perm hg)
      simp only [subsOf, List.flatMap_cons] at h1
      have h2 := hp.append_right (List.flatMap (·.subs) (swapDel a i))
      exact h2.trans h1
    · exact subsOf_set hg hp

theorem add_perm {a : List Group} {n : Nat} {x : Sub} : (subsOf (add a n x)).Perm (x :: subsOf a) := by
  induction a with
  | nil => exact List.Perm.refl _
  | cons g a ih =>
    unfold add
    split
    · simp only [subsOf, List.flatMap_cons, List.append_assoc]
      rw [List.singleton_append]
      exact List.perm_middle
    · simp only [subsOf, List.flatMap_cons]
      simp only [subsOf] at ih
      exact (ih.append_left _).trans List.perm_middle

theorem findIn_some {p : Sub → Bool} {l : List Sub} {j0 j : Nat} {x : Sub} (h : findIn p l j0 = some (j, x)) :
    j0 ≤ j ∧ l[j - j0]? = some x ∧ p x = true := by
  induction l generalizing j0 with
  | nil => cases h
  | cons y l ih =>
    unfold findIn at h
    split at h
    · rename_i hp
      cases h
      simp [hp]
    · obtain ⟨h1, h2, h3⟩ := ih h
      refine ⟨by omega, ?_, h3⟩
      rw [show j - j0 = (j - (j0 + 1)) + 1 by omega, List.getElem?_cons_succ]
      exact h2

theorem findIn_none {p : Sub → Bool} {l : List Sub} {j0 : Nat} (h : findIn p l j0 = none) :
    ∀ x ∈ l, p x = false := by
  induction l generalizing j0 with
  | nil => intro x hx; cases hx
  | cons y l ih =>
    unfold findIn at h
    split at h
    · cases h
    · rename_i hp
      intro x hx
      rcases List.mem_cons.1 hx with rfl | hx
      · simpa using hp
      · exact ih h x hx

theorem find_some' {p : Sub → Bool} {a : List Group} {i0 i j : Nat} {x : Sub}
    (h : find p a i0 = some (i, j, x)) : i0 ≤ i ∧ subAt a (i - i0) j = some x ∧ p x = true := by
  induction a generalizing i0 with
  | nil => cases h
  | cons g a ih =>
    unfold find at h
    split at h
    · rename_i j' x' hf
      cases h
      obtain ⟨_, h2, h3⟩ := findIn_some hf
      refine ⟨Nat.le_refl _, ?_, h3⟩
      simpa [subAt] using h2
    · obtain ⟨h1, h2, h3⟩ := ih h
      refine ⟨by omega, ?_, h3⟩
      rw [show i - i0 = (i - (i0 + 1)) + 1 by omega]
      simpa [subAt] using h2

theorem find_some {p : Sub → Bool} {a : List Group} {i j : Nat} {x : Sub}
    (h : find p a 0 = some (i, j, x)) : subAt a i j = some x ∧ p x = true := by
  have := find_some' h
  exact this.2

theorem find_none {p : Sub → Bool} {a : List Group} {i0 : Nat} (h : find p a i0 = none) :
    ∀ x ∈ subsOf a, p x = false := by
  induction a generalizing i0 with
  | nil => intro x hx; cases hx
  | cons g a ih =>
    unfold find at h
    split at h
    · cases h
    · rename_i hf
      intro x hx
      simp only [subsOf, List.flatMap_cons, List.mem_append] at hx
      rcases hx with hx | hx
      · exact findIn_none hf x hx
      · exact ih h x hx

theorem subAt_mem {a : List Group} {i j : Nat} {x : Sub} (h : subAt a i j = some x) : x ∈ subsOf a := by
  unfold subAt at h
  split at h
  · cases h
  · rename_i g hg
    exact List.mem_flatMap.2 ⟨g, List.mem_of_getElem? hg, List.mem_of_getElem? h⟩

theorem subAt_add {a : List Group} {i j n : Nat} {x y : Sub} (h : subAt a i j = some x) :
    subAt (add a n y) i j = some x := by
  induction a generalizing i with
  | nil => simp [subAt] at h
  | cons g a ih =>
    unfold add
    split
    · cases i with
      | zero =>
        simp only [subAt, List.getElem?_cons_zero] at h ⊢
        rw [List.getElem?_append_left]
        · exact h
        · rcases Nat.lt_or_ge j g.subs.length with hl | hl
          · exact hl
          · rw [List.getElem?_eq_none hl] at h; cases h
      | succ i => simpa [subAt] using h
    · cases i with
      | zero => simpa [subAt] using h
      | succ i =>
        have := ih (i := i) (by simpa [subAt] using h)
        simpa [subAt] using this

theorem inPlace_eq {s : State} {loc : Loc} :
    inPlace s loc = true ↔ ∃ x, subAt (s.arr loc.k) loc.i loc.j = some x ∧ x.id = loc.x.id := by
  unfold inPlace subAt
  cases (s.arr loc.k)[loc.i]? with
  | none => simp
  | some g =>
    simp only
    cases g.subs[loc.j]? with
    | none => simp
    | some x => simp

theorem mem_kinds (k : Kind) : k ∈ kinds := by cases k <;> decide

theorem findId_some {arr : Kind → List Group} {id : Nat} {l : List Kind} {loc : Loc}
    (h : findId arr id l = some loc) : subAt (arr loc.k) loc.i loc.j = some loc.x ∧ loc.x.id = id := by
  induction l with
  | nil => cases h
  | cons k l ih =>
    unfold findId at h
    split at h
    · rename_i i j x hf
      cases h
      obtain ⟨h1, h2⟩ := find_some hf
      exact ⟨h1, by simpa using h2⟩
    · exact ih h

theorem findId_none {arr : Kind → List Group} {id : Nat} {l : List Kind}
    (h : findId arr id l = none) : ∀ k ∈ l, ∀ x ∈ subsOf (arr k), x.id ≠ id := by
  induction l with
  | nil => intro k hk; cases hk
  | cons k l ih =>
    unfold findId at h
    split at h
    · cases h
    · rename_i hf
      intro k' hk' x hx
      rcases List.mem_cons.1 hk' with rfl | hk'
      · have := find_none hf x hx
        simpa using this
      · exact ih h k' hk' x hx

theorem has_iff {s : State} {x : Nat} :
    s.has x = true ↔ ∃ k, ∃ y ∈ subsOf (s.arr k), y.sess = x := by
  unfold State.has subsOf
  simp only [List.any_eq_true, beq_iff_eq]
  constructor
  · rintro ⟨k, _, g, hg, y, hy, h⟩
    exact ⟨k, y, List.mem_flatMap.2 ⟨g, hg, hy⟩, h⟩
  · rintro ⟨k, y, hy, h⟩
    obtain ⟨g, hg, hy⟩ := List.mem_flatMap.1 hy
    exact ⟨k, mem_kinds k, g, hg, y, hy, h⟩

/-! ## The invariant of all schedules -/

def holdsR : Pc → Bool
  | .look _ | .done _ _ | .proc | .cb _ => true
  | _ => false

def holdsW : Pc → Bool
  | .del _ _ => true
  | _ => false

/-- The subscription a thread is about to remove. -/
def target : Pc → Option (Job × Loc)
  | .gap job loc | .del job loc => some (job, loc)
  | _ => none

/-- What a job may remove. -/
def Fits (job : Job) (loc : Loc) : Prop := match job with
  | .one id => loc.x.id = id
  | .sess x _ _ => loc.x.sess = x
  | .all _ => False
  | .stop i _ _ => loc.k = .notif ∧ loc.i = i

/-- Locks and the contents of the arrays. -/
structure Inv (s : State) : Prop where
  rd : ∀ t, t ∈ s.rd ↔ holdsR (s.pc t) = true
  wr : ∀ t, s.wr = some t ↔ holdsW (s.pc t) = true
  excl : s.wr.isSome = true → s.rd = []
  nodup : ∀ k, (subsOf (s.arr k)).Nodup
  uniq : ∀ k k' x y, x ∈ subsOf (s.arr k) → y ∈ subsOf (s.arr k') → x.id = y.id → k = k' ∧ x = y
  lt : ∀ k, ∀ x ∈ subsOf (s.arr k), x.id < s.next
  cb : ∀ t id, s.pc t = .cb id → Present s id
  fits : ∀ t job loc, target (s.pc t) = some (job, loc) → Fits job loc ∧ loc.x.id < s.next ∧
    ∀ k, ∀ y ∈ subsOf (s.arr k), y.id = loc.x.id → k = loc.k ∧ y = loc.x
  ended : ∀ id, .ended id ∈ s.log → id < s.next ∧ ¬ Present s id
  once : (s.log.filter fun e => match e with
    | .ended _ => true
    | _ => false).Nodup

end Verif.SubCtx
