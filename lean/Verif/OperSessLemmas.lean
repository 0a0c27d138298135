import Verif.OperSess

/-
Lemmas for the changes of the operational datastore made by one session.
-/
namespace Verif.OperSess

/-! ### Top-level nodes of a module are neighbours -/

/-- Equal numbers are neighbours. -/
def G : List Nat → Prop
  | [] => True
  | x :: xs => G xs ∧ (x ∉ xs ∨ xs.head? = some x)

theorem head_sub {xs ys : List Nat} (hG : G xs) {x : Nat} (hh : xs.head? = some x) (hs : ys.Sublist xs)
    (hx : x ∈ ys) : ys.head? = some x := by
  induction hs with
  | slnil => cases hx
  | cons a hs ih =>
    rename_i l1 l2
    simp only [List.head?_cons, Option.some.injEq] at hh
    subst hh
    obtain ⟨hG1, h⟩ := hG
    rcases h with h | h
    · exact absurd (hs.subset hx) h
    · exact ih hG1 h hx
  | cons_cons a hs ih =>
    simpa using hh

theorem G_sub {xs ys : List Nat} (hG : G xs) (hs : ys.Sublist xs) : G ys := by
  induction hs with
  | slnil => trivial
  | cons a hs ih => exact ih hG.1
  | cons_cons a hs ih =>
    rename_i l1 l2
    refine ⟨ih hG.1, ?_⟩
    by_cases h : a ∈ l1
    · rcases hG.2 with h2 | h2
      · exact absurd (hs.subset h) h2
      · exact .inr (head_sub hG.1 h2 hs h)
    · exact .inl h

theorem insTop_ne (ts : List Top) (t : Top) : insTop ts t ≠ [] := by
  cases ts <;> simp only [insTop]
  · simp
  · split <;> simp

theorem mem_insTop (ts : List Top) (t y : Top) : y ∈ insTop ts t ↔ y ∈ ts ∨ y = t := by
  induction ts with
  | nil => simp [insTop]
  | cons x xs ih =>
    simp only [insTop]
    split
    · simp only [List.mem_cons]; grind
    · simp only [List.mem_cons, ih]; grind

theorem head_insTop (x : Top) (xs : List Top) (t : Top) :
    (insTop (x :: xs) t).head? = some x := by
  simp only [insTop]; split <;> rfl

theorem G_insTop (ts : List Top) (t : Top) (h : G (ts.map (·.mod))) : G ((insTop ts t).map (·.mod)) := by
  induction ts with
  | nil => simp [insTop, G]
  | cons x xs ih =>
    simp only [List.map_cons, G] at h
    obtain ⟨h1, h2⟩ := h
    simp only [insTop]
    split
    · rename_i hc
      obtain ⟨hc1, hc2⟩ := hc
      simp only [List.all_eq_true, decide_eq_true_eq] at hc2
      simp only [List.map_cons, G]
      refine ⟨⟨h1, .inl ?_⟩, .inr ?_⟩
      · simp only [List.mem_map, not_exists, not_and]
        intro y hy e; exact hc2 y hy e
      · simp [hc1]
    · rename_i hc
      simp only [List.map_cons, G]
      refine ⟨ih h1, ?_⟩
      rcases h2 with h2 | h2
      · left
        simp only [List.mem_map, mem_insTop, not_exists, not_and] at h2 ⊢
        rintro y (hy | rfl) e
        · exact h2 y hy e
        · apply hc
          refine ⟨e.symm, ?_⟩
          simp only [List.all_eq_true, decide_eq_true_eq]
          intro z hz e2
          exact h2 z hz (e2.trans e)
      · right
        cases xs with
        | nil => simp at h2
        | cons z zs =>
          simp only [List.map_cons, List.head?_cons] at h2
          rw [List.head?_map, head_insTop]
          exact h2

theorem run_eq (e : Edit) (h : G (e.tops.map (·.mod))) (m : Nat) :
    run e m = e.tops.filter (fun t => t.mod == m) := by
  unfold run from_
  generalize e.tops = ts at h
  have key : ∀ ts : List Top, G (ts.map (·.mod)) →
      (ts.dropWhile (fun t => t.mod != m)).takeWhile (fun t => t.mod == m) = ts.filter (fun t => t.mod == m) := by
    intro ts
    induction ts with
    | nil => intro _; rfl
    | cons x xs ih =>
      intro h
      simp only [List.map_cons, G] at h
      by_cases hx : x.mod = m
      · simp only [List.dropWhile_cons, bne_iff_ne, ne_eq, hx, not_true_eq_false, if_false, List.takeWhile_cons,
          beq_self_eq_true, if_true, List.filter_cons]
        have ihx := ih h.1
        rcases h.2 with h2 | h2
        · rw [hx] at h2
          have e1 : xs.filter (fun t => t.mod == m) = [] := by
            simp only [List.filter_eq_nil_iff, beq_iff_eq]
            intro y hy e; exact h2 (List.mem_map.2 ⟨y, hy, e⟩)
          rw [e1]
          cases xs with
          | nil => rfl
          | cons y ys =>
            have : y.mod ≠ m := fun e => h2 (List.mem_map.2 ⟨y, List.Mem.head _, e⟩)
            simp [List.takeWhile_cons, this]
        · cases xs with
          | nil => simp at h2
          | cons y ys =>
            simp only [List.map_cons, List.head?_cons, Option.some.injEq] at h2
            have hy : y.mod = m := h2.trans hx
            rw [List.dropWhile_cons_of_neg (by simp [hy])] at ihx
            rw [ihx]
      · rw [List.dropWhile_cons_of_pos (by simp [hx]), List.filter_cons_of_neg (by simp [hx])]
        exact ih h.1
  exact key ts h

/-! ### Opaque nodes -/

theorem cancel_count (new old : List Nat) (x : Nat) :
    (cancel new old).1.count x = new.count x - old.count x ∧
    (cancel new old).2.count x = old.count x - new.count x := by
  induction new generalizing old with
  | nil => simp [cancel]
  | cons y ys ih =>
    simp only [cancel]
    split
    · rename_i hy
      have := ih (old.erase y)
      have hp : 0 < old.count y := List.count_pos_iff.2 hy
      rw [this.1, this.2, List.count_erase, List.count_cons]
      by_cases e : y = x
      · subst e; simp only [beq_self_eq_true, if_true]; omega
      · have e' : (y == x) = false := by simp [e]
        simp only [e']; simp
    · rename_i hy
      have hp : old.count y = 0 := List.count_eq_zero.2 hy
      have := ih old
      simp only [List.count_cons, this.1, this.2]
      by_cases e : y = x
      · subst e; simp only [beq_self_eq_true, if_true]; omega
      · have e' : (y == x) = false := by simp [e]
        simp only [e']; simp

theorem without_count (l xs : List Nat) (x : Nat) : (without l xs).count x = l.count x - xs.count x := by
  induction xs generalizing l with
  | nil => simp [without]
  | cons y ys ih =>
    simp only [without, ih, List.count_erase, List.count_cons]
    by_cases e : y = x
    · subst e; simp only [beq_self_eq_true, if_true]; omega
    · have e' : (y == x) = false := by simp [e]
      simp only [e']; simp

theorem newDiscs_replace (new old : List Nat) (x : Nat) : (newDiscs true new old).count x = new.count x := by
  simp only [newDiscs, if_true, List.count_append, without_count, (cancel_count new old x).1, (cancel_count new old x).2]
  omega

theorem newDiscs_merge (new old : List Nat) (x : Nat) :
    (newDiscs false new old).count x = max (new.count x) (old.count x) := by
  simp only [newDiscs, Bool.false_eq_true, if_false, List.count_append, (cancel_count new old x).1]
  omega

theorem newDiscs_nil (old : List Nat) : newDiscs true [] old = [] := by
  have : ∀ x, (newDiscs true [] old).count x = 0 := fun x => by rw [newDiscs_replace]; rfl
  rw [List.eq_nil_iff_forall_not_mem]
  intro x hx
  have := this x
  have := List.count_pos_iff.2 hx
  omega

/-! ### Views -/

theorem View.ext' {A B : View} (h1 : ∀ m n, A.tree m n = B.tree m n) (h2 : ∀ m x, A.discs m x = B.discs m x) :
    A = B := by
  cases A; cases B
  congr
  · funext m n; exact h1 m n
  · funext m x; exact h2 m x

theorem find_flat (s : State) (L : List Nat) (m : Nat) (n : Name) :
    ((L.flatMap (fun m => (s.stored m).trees.map (fun t => (⟨m, t.1, .replace, t.2⟩ : Top)))).find?
      (fun t => t.mod == m && t.name == n)).map (fun t => leafAt t.leaves) =
    if m ∈ L then ((s.stored m).trees.find? (fun t => t.1 == n)).map (fun t => leafAt t.2) else none := by
  induction L with
  | nil => rfl
  | cons k L ih =>
    rw [List.flatMap_cons, List.find?_append]
    have h1 : ((s.stored k).trees.map (fun t => (⟨k, t.1, .replace, t.2⟩ : Top))).find?
        (fun t => t.mod == m && t.name == n) =
        if k = m then ((s.stored k).trees.find? (fun t => t.1 == n)).map (fun t => (⟨k, t.1, .replace, t.2⟩ : Top))
        else none := by
      rw [List.find?_map]
      split
      · rename_i e; subst e; congr 1; congr 1; funext t; simp [Function.comp]
      · rename_i e
        rw [List.find?_eq_none.2]
        · rfl
        · intro t _; simp [Function.comp, e]
    rw [h1]
    by_cases e : k = m
    · subst e
      simp only [if_true, List.mem_cons, true_or]
      cases hf : (s.stored k).trees.find? (fun t => t.1 == n) with
      | some t => simp
      | none =>
        simp only [Option.map_none, Option.none_or, ih]
        split
        · rw [hf]; rfl
        · rfl
    · have : m ∈ k :: L ↔ m ∈ L := by simp [Ne.symm e]
      simp only [e, if_false, Option.none_or, ih, this]

theorem count_flat (s : State) (L : List Nat) (hL : L.Nodup) (m x : Nat) :
    (L.flatMap (fun m => (s.stored m).discs.map (fun x => (⟨m, x, .replace⟩ : Disc)))).countP
      (fun d => d.mod == m && d.xpath == x) = if m ∈ L then (s.stored m).discs.count x else 0 := by
  induction L with
  | nil => rfl
  | cons k L ih =>
    obtain ⟨h1, h2⟩ := List.nodup_cons.1 hL
    rw [List.flatMap_cons, List.countP_append, ih h2, List.countP_map]
    by_cases e : k = m
    · subst e
      have : ((fun d : Disc => d.mod == k && d.xpath == x) ∘ fun x => (⟨k, x, .replace⟩ : Disc)) = (fun y => y == x) := by
        funext y; simp [Function.comp]
      rw [this]
      simp only [List.mem_cons, true_or, if_true, h1, if_false, Nat.add_zero]
      rfl
    · have : ((fun d : Disc => d.mod == m && d.xpath == x) ∘ fun x => (⟨k, x, .replace⟩ : Disc)) = (fun _ => false) := by
        funext y; simp [Function.comp, e]
      rw [this]
      have h3 : m ∈ k :: L ↔ m ∈ L := by simp [Ne.symm e]
      simp only [h3]
      simp

/-- Edits made by a session that does not use batches. -/
structure EditOk (C : Cfg) (s : State) (e : Edit) : Prop where
  grp : G (e.tops.map (·.mod))
  opT : ∀ t ∈ e.tops, t.op = .replace ∧ t.mod ∈ C.mods
  opD : ∀ d ∈ e.discs, d.op = .replace ∧ d.mod ∈ C.mods
  keep : ∀ m x, (s.stored m).discs.count x ≤ (editView e).discs m x

/-- Invariant of a session, for sessions that do not use batches. -/
structure Inv (C : Cfg) (s : State) : Prop where
  has : ∀ m, s.has m = (s.stored m).any
  mods : ∀ m, m ∉ C.mods → s.stored m = noPush
  ne : ∀ e, s.pending = some e → e.isEmpty = false
  ok : ∀ e, s.pending = some e → EditOk C s e
  flag : ∀ m, s.has m = true → s.flag = true

theorem any_false {d : Push} (h : d.any = false) : d = noPush := by
  obtain ⟨t, x⟩ := d
  simp only [Push.any, Bool.not_eq_false', Bool.and_eq_true, List.isEmpty_iff] at h
  simp only [noPush, h.1, h.2]

theorem prefill_view {C : Cfg} {s : State} (hC : C.mods.Nodup) (I : Inv C s) :
    editView (prefill C s) = storedView s := by
  have key : ∀ m, m ∉ C.mods.filter s.has → s.stored m = noPush := by
    intro m hm
    by_cases h : m ∈ C.mods
    · have h2 : s.has m = false := by
        cases hh : s.has m with
        | false => rfl
        | true => exact (hm (List.mem_filter.2 ⟨h, hh⟩)).elim
      rw [I.has] at h2
      exact any_false h2
    · exact I.mods m h
  apply View.ext'
  · intro m n
    simp only [editView, prefill, find_flat, storedView]
    split
    · rfl
    · rename_i h; rw [key m h]; rfl
  · intro m x
    simp only [editView, prefill, storedView]
    rw [count_flat s _ (hC.filter _)]
    split
    · rfl
    · rename_i h; rw [key m h]; rfl

theorem prefill_grp {C : Cfg} {s : State} (hC : C.mods.Nodup) : G ((prefill C s).tops.map (·.mod)) := by
  have rep : ∀ (k : List (Name × Leaves)) (m : Nat) (L : List Nat), G L → m ∉ L → G (k.map (fun _ => m) ++ L) := by
    intro k m L hG hm
    induction k with
    | nil => exact hG
    | cons a k ih =>
      refine ⟨ih, ?_⟩
      cases k with
      | nil => exact .inl hm
      | cons b k => exact .inr rfl
  have key : ∀ L : List Nat, L.Nodup →
      G ((L.flatMap (fun m => (s.stored m).trees.map (fun t => (⟨m, t.1, .replace, t.2⟩ : Top)))).map (·.mod)) := by
    intro L hL
    induction L with
    | nil => trivial
    | cons k L ih =>
      obtain ⟨h1, h2⟩ := List.nodup_cons.1 hL
      rw [List.flatMap_cons, List.map_append, List.map_map]
      refine rep _ k _ (ih h2) ?_
      intro hk
      simp only [List.mem_map, List.mem_flatMap] at hk
      obtain ⟨t, ⟨m, hm, ⟨u, _, rfl⟩⟩, e⟩ := hk
      simp only [] at e
      subst e
      exact h1 hm
  exact key _ (hC.filter _)

theorem prefill_ops {C : Cfg} {s : State} :
    (∀ t ∈ (prefill C s).tops, t.op = .replace ∧ t.mod ∈ C.mods) ∧
    (∀ d ∈ (prefill C s).discs, d.op = .replace ∧ d.mod ∈ C.mods) := by
  constructor
  · intro t ht
    simp only [prefill, List.mem_flatMap, List.mem_map] at ht
    obtain ⟨m, hm, u, _, rfl⟩ := ht
    exact ⟨rfl, (List.mem_filter.1 hm).1⟩
  · intro t ht
    simp only [prefill, List.mem_flatMap, List.mem_map] at ht
    obtain ⟨m, hm, u, _, rfl⟩ := ht
    exact ⟨rfl, (List.mem_filter.1 hm).1⟩

/-! ### Changes of the edit -/

theorem leaf_map (ls : Leaves) (l v l' : Nat) :
    leafAt (ls.map (fun x => if x.1 = l then (l, v) else x)) l' =
    if l' = l then (leafAt ls l).map (fun _ => v) else leafAt ls l' := by
  induction ls with
  | nil => simp [leafAt]
  | cons x xs ih =>
    simp only [leafAt, List.map_cons, List.find?_cons] at ih ⊢
    by_cases hx : x.1 = l
    · by_cases hl : l' = l
      · subst hl; simp [hx]
      · have : (l == l') = false := by simp; exact fun e => hl e.symm
        simp only [hx, if_true, this, hl, if_false] at ih ⊢
        exact ih
    · by_cases hl : l' = l
      · subst hl
        have : (x.1 == l') = false := by simp [hx]
        simp only [hx, if_false, this, if_true] at ih ⊢
        exact ih
      · simp only [hx, if_false, hl] at ih ⊢
        cases x.1 == l' with
        | true => rfl
        | false => exact ih

theorem leaf_set (ls : Leaves) (l v l' : Nat) :
    leafAt (setLeaf ls l v) l' = if l' = l then some v else leafAt ls l' := by
  simp only [setLeaf]
  split
  · rename_i h
    rw [leaf_map]
    split
    · cases hf : ls.find? (fun x => x.1 == l) with
      | some x => simp [leafAt, hf]
      | none =>
        rw [List.find?_eq_none] at hf
        simp only [List.any_eq_true] at h
        obtain ⟨x, hx, hx2⟩ := h
        exact absurd hx2 (hf x hx)
    · rfl
  · rename_i h
    simp only [leafAt, List.find?_append]
    split
    · rename_i e
      subst e
      have : ls.find? (fun x => x.1 == l') = none := by
        rw [List.find?_eq_none]
        intro x hx hx2
        exact h (List.any_eq_true.2 ⟨x, hx, hx2⟩)
      simp [this]
    · rename_i e
      have : (l == l') = false := by simp; exact fun h => e h.symm
      simp [List.find?_cons, this]

theorem find_insTop (ts : List Top) (t : Top) (p : Top → Bool) (h : p t = true → ts.find? p = none) :
    (insTop ts t).find? p = if p t then some t else ts.find? p := by
  induction ts with
  | nil => simp [insTop, List.find?_cons]; cases p t <;> rfl
  | cons x xs ih =>
    simp only [List.find?_cons] at h
    simp only [insTop]
    cases hx : p x with
    | true =>
      rw [hx] at h
      have ht : p t = false := by
        cases ht : p t with
        | false => rfl
        | true => exact absurd (h ht) (by simp)
      split <;> simp [List.find?_cons, hx, ht]
    | false =>
      rw [hx] at h
      split
      · simp [List.find?_cons, hx]; cases p t <;> rfl
      · simp only [List.find?_cons, hx]; exact ih h

theorem find_mapTop (ts : List Top) (m : Nat) (n : Name) (f : Leaves → Leaves) (m' : Nat) (n' : Name) :
    ((ts.map (fun t => if t.mod = m ∧ t.name = n then { t with leaves := f t.leaves } else t)).find?
      (fun t => t.mod == m' && t.name == n')).map (fun t => leafAt t.leaves) =
    (ts.find? (fun t => t.mod == m' && t.name == n')).map
      (fun t => if m' = m ∧ n' = n then leafAt (f t.leaves) else leafAt t.leaves) := by
  induction ts with
  | nil => rfl
  | cons x xs ih =>
    simp only [List.map_cons, List.find?_cons]
    by_cases hx : x.mod = m ∧ x.name = n
    · simp only [hx, and_self, if_true]
      by_cases h : m = m' ∧ n = n'
      · obtain ⟨rfl, rfl⟩ := h; simp
      · have : (m == m' && n == n') = false := by
          simp only [Bool.and_eq_false_iff, beq_eq_false_iff_ne]
          by_cases e : m = m'
          · exact .inr (fun e2 => h ⟨e, e2⟩)
          · exact .inl e
        simp only [this]; exact ih
    · simp only [hx, if_false]
      by_cases h : x.mod = m' ∧ x.name = n'
      · obtain ⟨rfl, rfl⟩ := h
        simp [hx]
      · have : (x.mod == m' && x.name == n') = false := by
          simp only [Bool.and_eq_false_iff, beq_eq_false_iff_ne]
          by_cases e : x.mod = m'
          · exact .inr (fun e2 => h ⟨e, e2⟩)
          · exact .inl e
        simp only [this]; exact ih

theorem add_view (e : Edit) (m : Nat) (n : Name) (lv : Option (Nat × Nat)) :
    editView { e with tops := editAdd e.tops m n lv } = (editView e).set m n lv := by
  apply View.ext'
  · intro m' n'
    simp only [editView, View.set, editAdd]
    split
    · rename_i hany
      rw [find_mapTop e.tops m n (fun ls => setLv ls lv)]
      by_cases h : m' = m ∧ n' = n
      · obtain ⟨rfl, rfl⟩ := h
        simp only [and_self, if_true]
        cases hf : e.tops.find? (fun t => t.mod == m' && t.name == n') with
        | none =>
          rw [List.find?_eq_none] at hf
          obtain ⟨t, ht, ht2⟩ := List.any_eq_true.1 hany
          exact absurd ht2 (hf t ht)
        | some t =>
          simp only [Option.map_some, Option.getD_some, Option.some.injEq]
          funext l
          cases lv with
          | none => rfl
          | some lv => obtain ⟨l0, v⟩ := lv; simp only [setLv, leaf_set]
      · simp only [h, if_false]
    · rename_i hany
      have hn : e.tops.find? (fun t => t.mod == m && t.name == n) = none := by
        rw [List.find?_eq_none]
        intro t ht ht2
        exact hany (List.any_eq_true.2 ⟨t, ht, ht2⟩)
      rw [find_insTop]
      · by_cases h : m' = m ∧ n' = n
        · obtain ⟨rfl, rfl⟩ := h
          simp only [beq_self_eq_true, Bool.and_self, if_true, Option.map_some, and_self, hn, Option.map_none,
            Option.getD_none, Option.some.injEq]
          funext l
          cases lv with
          | none => rfl
          | some lv => obtain ⟨l0, v⟩ := lv; simp only [setLv, leaf_set]; rfl
        · have : (m == m' && n == n') = false := by
            simp only [Bool.and_eq_false_iff, beq_eq_false_iff_ne]
            by_cases e : m = m'
            · exact .inr (fun e2 => h ⟨e.symm, e2.symm⟩)
            · exact .inl e
          simp only [this, h, if_false]; rfl
      · intro hp
        simp only [Bool.and_eq_true, beq_iff_eq] at hp
        obtain ⟨rfl, rfl⟩ := hp
        exact hn
  · intro m' x; rfl

theorem leaf_filter (ls : Leaves) (l l' : Nat) :
    leafAt (ls.filter (fun x => x.1 != l)) l' = if l' = l then none else leafAt ls l' := by
  simp only [leafAt, List.find?_filter]
  split
  · rename_i e
    subst e
    rw [List.find?_eq_none.2]
    · rfl
    · intro x _; simp
  · rename_i e
    congr 2
    funext x
    by_cases hx : x.1 = l'
    · simp [hx, e]
    · simp [hx]

theorem del_view (e : Edit) (t : Target) :
    editView { e with tops := editDel e.tops t } = (editView e).del t := by
  cases t with
  | leaf m n l =>
    apply View.ext'
    · intro m' n'
      simp only [editView, View.del, editDel]
      rw [find_mapTop e.tops m n (fun ls => ls.filter (fun x => x.1 != l))]
      split
      · rename_i h
        obtain ⟨rfl, rfl⟩ := h
        rw [Option.map_map]
        congr 1
        funext t l'
        simp only [Function.comp, leaf_filter]
      · rfl
    · intro m' x; rfl
  | top m n =>
    apply View.ext'
    · intro m' n'
      simp only [editView, View.del, editDel, List.find?_filter]
      split
      · rename_i h
        obtain ⟨rfl, rfl⟩ := h
        rw [List.find?_eq_none.2]
        · rfl
        · intro x _; simp; grind
      · rename_i h
        congr 2
        funext x
        by_cases hx : x.mod = m' ∧ x.name = n'
        · obtain ⟨rfl, rfl⟩ := hx
          by_cases e1 : x.mod = m
          · have : x.name ≠ n := fun e2 => h ⟨e1, e2⟩
            simp [this]
          · simp [e1]
        · have : (x.mod == m' && x.name == n') = false := by
            simp only [Bool.and_eq_false_iff, beq_eq_false_iff_ne]
            by_cases e : x.mod = m'
            · exact .inr (fun e2 => hx ⟨e, e2⟩)
            · exact .inl e
          simp [this]
    · intro m' x; rfl
  | list m k =>
    apply View.ext'
    · intro m' n'
      simp only [editView, View.del, editDel, List.find?_filter]
      split
      · rename_i h
        obtain ⟨rfl, rfl⟩ := h
        rw [List.find?_eq_none.2]
        · rfl
        · intro x _
          by_cases hx : x.mod = m' ∧ x.name = n'
          · simp [hx.1, hx.2]
          · have : (x.mod == m' && x.name == n') = false := by
              simp only [Bool.and_eq_false_iff, beq_eq_false_iff_ne]
              by_cases e : x.mod = m'
              · exact .inr (fun e2 => hx ⟨e, e2⟩)
              · exact .inl e
            simp [this]
      · rename_i h
        congr 2
        funext x
        by_cases hx : x.mod = m' ∧ x.name = n'
        · obtain ⟨rfl, rfl⟩ := hx
          by_cases e1 : x.mod = m
          · have : x.name.1 ≠ k := fun e2 => h ⟨e1, e2⟩
            simp [this]
          · simp [e1]
        · have : (x.mod == m' && x.name == n') = false := by
            simp only [Bool.and_eq_false_iff, beq_eq_false_iff_ne]
            by_cases e : x.mod = m'
            · exact .inr (fun e2 => hx ⟨e, e2⟩)
            · exact .inl e
          simp [this]
    · intro m' x; rfl

theorem disc_view (e : Edit) (m x : Nat) (o : Op) :
    editView { e with discs := e.discs ++ [⟨m, x, o⟩] } = (editView e).disc m x := by
  apply View.ext'
  · intro m' n; rfl
  · intro m' x'
    simp only [editView, View.disc, List.countP_append, List.countP_singleton]
    by_cases h : m' = m ∧ x' = x
    · obtain ⟨rfl, rfl⟩ := h; simp
    · have : (m == m' && x == x') = false := by
        simp only [Bool.and_eq_false_iff, beq_eq_false_iff_ne]
        by_cases e : m = m'
        · exact .inr (fun e2 => h ⟨e.symm, e2.symm⟩)
        · exact .inl e
      simp [this, h]

/-! ### Applying the edit -/

theorem ops_replace {C : Cfg} {e : Edit} (h1 : ∀ t ∈ e.tops, t.op = .replace ∧ t.mod ∈ C.mods)
    (h2 : ∀ d ∈ e.discs, d.op = .replace ∧ d.mod ∈ C.mods) (m : Nat) : ∀ o ∈ ops e m, o = .replace := by
  have hf : ∀ t ∈ from_ e m, t ∈ e.tops := fun t ht => (List.dropWhile_sublist _).subset ht
  intro o ho
  simp only [ops, List.mem_append] at ho
  rcases ho with ho | ho
  · split at ho
    · cases ho
    · simp only [List.mem_append] at ho
      rcases ho with ho | ho
      · obtain ⟨t, ht, rfl⟩ := List.mem_map.1 ho
        exact (h1 t (hf t ((List.takeWhile_sublist _).subset ht))).1
      · have := List.mem_of_mem_take ho
        simp only [List.mem_append, List.mem_map] at this
        rcases this with ⟨t, ht, rfl⟩ | ⟨d, hd, rfl⟩
        · exact (h1 t (hf t ((List.dropWhile_sublist _).subset ht))).1
        · exact (h2 d hd).1
  · obtain ⟨d, hd, rfl⟩ := List.mem_map.1 ho
    exact (h2 d (List.mem_filter.1 (List.mem_reverse.1 hd)).1).1

theorem ops_nil {e : Edit} (hG : G (e.tops.map (·.mod))) (m : Nat) : ops e m = [] ↔ inEdit (some e) m = false := by
  simp only [ops, run_eq e hG, inEdit]
  constructor
  · intro h
    rw [List.append_eq_nil_iff] at h
    obtain ⟨h1, h2⟩ := h
    have h3 : e.tops.filter (fun t => t.mod == m) = [] := by
      split at h1
      · assumption
      · rename_i hne
        rw [List.append_eq_nil_iff] at h1
        exact absurd (List.map_eq_nil_iff.1 h1.1) hne
    have h4 : e.discs.filter (fun d => d.mod == m) = [] := by
      have := List.map_eq_nil_iff.1 h2
      simpa using this
    rw [List.filter_eq_nil_iff] at h3 h4
    simp only [Bool.or_eq_false_iff, List.any_eq_false]
    exact ⟨h3, h4⟩
  · intro h
    simp only [Bool.or_eq_false_iff, List.any_eq_false] at h
    have h3 : e.tops.filter (fun t => t.mod == m) = [] := List.filter_eq_nil_iff.2 h.1
    have h4 : e.discs.filter (fun d => d.mod == m) = [] := List.filter_eq_nil_iff.2 h.2
    simp [h3, h4]

/-- What an edit with nodes of the module gives. -/
theorem applyMod_in {C : Cfg} {e : Edit} (hG : G (e.tops.map (·.mod)))
    (h1 : ∀ t ∈ e.tops, t.op = .replace ∧ t.mod ∈ C.mods) (h2 : ∀ d ∈ e.discs, d.op = .replace ∧ d.mod ∈ C.mods)
    {m : Nat} (hm : inEdit (some e) m = true) (dbg : Bool) (old : Push) :
    applyMod dbg (some e) m old = .inr ⟨(e.tops.filter (fun t => t.mod == m)).map (fun t => (t.name, t.leaves)),
      newDiscs true ((e.discs.filter (fun d => d.mod == m)).reverse.map (·.xpath)) old.discs⟩ := by
  have ha := ops_replace h1 h2 m
  simp only [applyMod]
  cases hops : ops e m with
  | nil =>
    rw [ops_nil hG] at hops
    rw [hops] at hm; cases hm
  | cons o os =>
    rw [hops] at ha
    have ho := ha o (List.Mem.head _)
    subst ho
    have hall : os.all (· == .replace) = true := by
      rw [List.all_eq_true]
      intro o ho
      rw [ha o (List.Mem.tail _ ho)]; rfl
    simp only [hall, if_true, run_eq e hG]

/-- What an edit without nodes of the module gives. -/
theorem applyMod_out {e : Edit} (hG : G (e.tops.map (·.mod))) {m : Nat} (hm : inEdit (some e) m = false) (dbg : Bool)
    (old : Push) : applyMod dbg (some e) m old =
      if dbg then .inl .abort else .inr ⟨[], newDiscs false [] old.discs⟩ := by
  have ho := (ops_nil hG m).2 hm
  simp only [applyMod, ho]
  simp only [inEdit, Bool.or_eq_false_iff, List.any_eq_false] at hm
  have h4 : e.discs.filter (fun d => d.mod == m) = [] := List.filter_eq_nil_iff.2 hm.2
  simp [h4]

theorem find_filter_map (ts : List Top) (m : Nat) (n : Name) :
    (((ts.filter (fun t => t.mod == m)).map (fun t => (t.name, t.leaves))).find? (fun t => t.1 == n)).map
      (fun t => leafAt t.2) =
    (ts.find? (fun t => t.mod == m && t.name == n)).map (fun t => leafAt t.leaves) := by
  induction ts with
  | nil => rfl
  | cons x xs ih =>
    by_cases h : x.mod = m
    · rw [List.filter_cons_of_pos (by simp [h])]
      simp only [List.map_cons, List.find?_cons, h, beq_self_eq_true, Bool.true_and]
      cases x.name == n with
      | true => rfl
      | false => exact ih
    · rw [List.filter_cons_of_neg (by simp [h]), ih, List.find?_cons_of_neg (by simp [h])]

theorem count_filter_map (ds : List Disc) (m x : Nat) :
    ((ds.filter (fun d => d.mod == m)).reverse.map (·.xpath)).count x =
    ds.countP (fun d => d.mod == m && d.xpath == x) := by
  rw [List.map_reverse, List.count_reverse, List.count, List.countP_map, List.countP_filter]
  congr 1
  funext d
  simp only [Function.comp]
  exact Bool.and_comm _ _

/-- No node of the module in an edit. -/
theorem view_out {e : Edit} {m : Nat} (hm : inEdit (some e) m = false) :
    (∀ n, (editView e).tree m n = none) ∧ ∀ x, (editView e).discs m x = 0 := by
  simp only [inEdit, Bool.or_eq_false_iff, List.any_eq_false] at hm
  constructor
  · intro n
    simp only [editView]
    rw [List.find?_eq_none.2]
    · rfl
    · intro t ht h
      rw [Bool.and_eq_true] at h
      exact hm.1 t ht h.1
  · intro x
    simp only [editView, List.countP_eq_zero]
    intro d hd h
    rw [Bool.and_eq_true] at h
    exact hm.2 d hd h.1

theorem view_in {e : Edit} {m : Nat} (hm : inEdit (some e) m = true) :
    (∃ n f, (editView e).tree m n = some f) ∨ ∃ x, (editView e).discs m x ≠ 0 := by
  simp only [inEdit, Bool.or_eq_true, List.any_eq_true] at hm
  rcases hm with ⟨t, ht, h⟩ | ⟨d, hd, h⟩
  · left
    refine ⟨t.name, ?_⟩
    simp only [editView]
    cases hf : e.tops.find? (fun u => u.mod == m && u.name == t.name) with
    | none =>
      rw [List.find?_eq_none] at hf
      exact absurd (by simp [h]) (hf t ht)
    | some u => exact ⟨_, rfl⟩
  · right
    refine ⟨d.xpath, ?_⟩
    simp only [editView]
    have : 0 < e.discs.countP (fun u => u.mod == m && u.xpath == d.xpath) :=
      List.countP_pos_iff.2 ⟨d, hd, by simp [h]⟩
    omega

theorem any_iff {d : Push} : d.any = false ↔ d = noPush := ⟨any_false, fun h => by rw [h]; rfl⟩

theorem isEmpty_view {e : Edit} : e.isEmpty = true ↔ (editView e).Empty := by
  constructor
  · intro h
    simp only [Edit.isEmpty, Bool.and_eq_true, List.isEmpty_iff] at h
    simp only [View.Empty, editView, h.1, h.2]
    exact ⟨fun _ _ => rfl, fun _ _ => rfl⟩
  · intro h
    cases hh : e.isEmpty with
    | true => rfl
    | false =>
      exfalso
      simp only [Edit.isEmpty, Bool.and_eq_false_iff] at hh
      have : ∃ m, inEdit (some e) m = true := by
        rcases hh with hh | hh
        · cases ht : e.tops with
          | nil => rw [ht] at hh; cases hh
          | cons t ts => exact ⟨t.mod, by simp [inEdit, ht]⟩
        · cases ht : e.discs with
          | nil => rw [ht] at hh; cases hh
          | cons t ts => exact ⟨t.mod, by simp [inEdit, ht]⟩
      obtain ⟨m, hm⟩ := this
      rcases view_in hm with ⟨n, f, hf⟩ | ⟨x, hx⟩
      · rw [h.1 m n] at hf; cases hf
      · exact hx (h.2 m x)

theorem stored_empty {s : State} (h : (storedView s).Empty) (m : Nat) : s.stored m = noPush := by
  have h1 : (s.stored m).trees = [] := by
    cases ht : (s.stored m).trees with
    | nil => rfl
    | cons t ts =>
      have := h.1 m t.1
      simp [storedView, ht] at this
  have h2 : (s.stored m).discs = [] := by
    cases ht : (s.stored m).discs with
    | nil => rfl
    | cons t ts =>
      have := h.2 m t
      simp [storedView, ht] at this
  cases hs : s.stored m with
  | mk a b => rw [hs] at h1 h2; simp only [] at h1 h2; rw [h1, h2]; rfl

/-- The edit the functions work with. -/
theorem start_ok {C : Cfg} {s : State} {v : Env} {e : Edit} (hC : C.mods.Nodup) (I : Inv C s)
    (h : start C s v = .inr e) : EditOk C s e ∧ editView e = view s := by
  unfold start at h
  split at h
  · rename_i e' he
    cases h
    exact ⟨I.ok _ he, by simp [view, he]⟩
  · rename_i he
    split at h
    · cases h
    · split at h
      · cases h
      · cases h
        have hv := prefill_view hC I
        exact ⟨⟨prefill_grp hC, prefill_ops.1, prefill_ops.2, fun m x => by rw [hv]; exact Nat.le_refl _⟩,
          by simp [view, he, hv]⟩

theorem inv_finish {C : Cfg} {s : State} {e : Edit} (I : Inv C s) (he : EditOk C s e) : Inv C (finish s e) where
  has := I.has
  mods := I.mods
  flag := I.flag
  ne := fun e' h => by
    simp only [finish] at h
    split at h
    · cases h
    · rename_i hh; cases h; simpa using hh
  ok := fun e' h => by
    simp only [finish] at h
    split at h
    · cases h
    · cases h; exact ⟨he.grp, he.opT, he.opD, he.keep⟩

theorem view_finish {s : State} {e : Edit} (h : e.isEmpty = false) : view (finish s e) = editView e := by
  simp [view, finish, h]

theorem view_finish_empty {s : State} {e : Edit} (h : e.isEmpty = true) : view (finish s e) = storedView s := by
  simp only [view, finish, h, if_true]; rfl

theorem editAdd_ok {C : Cfg} {s : State} {e : Edit} (he : EditOk C s e) {m : Nat} (hm : m ∈ C.mods) (n : Name)
    (lv : Option (Nat × Nat)) : EditOk C s { e with tops := editAdd e.tops m n lv } where
  grp := by
    simp only [editAdd]
    split
    · rw [List.map_map]
      have : ((fun t : Top => t.mod) ∘ fun t => if t.mod = m ∧ t.name = n then
          { t with leaves := setLv t.leaves lv } else t) = (fun t => t.mod) := by
        funext t; simp only [Function.comp]; split <;> rfl
      rw [this]; exact he.grp
    · exact G_insTop _ _ he.grp
  opT := by
    intro t ht
    simp only [editAdd] at ht
    split at ht
    · obtain ⟨u, hu, rfl⟩ := List.mem_map.1 ht
      split
      · exact he.opT u hu
      · exact he.opT u hu
    · rcases (mem_insTop _ _ _).1 ht with h | rfl
      · exact he.opT t h
      · exact ⟨rfl, hm⟩
  opD := he.opD
  keep := he.keep

theorem editDel_ok {C : Cfg} {s : State} {e : Edit} (he : EditOk C s e) (t : Target) :
    EditOk C s { e with tops := editDel e.tops t } where
  grp := by
    cases t with
    | leaf m n l =>
      simp only [editDel]
      rw [List.map_map]
      have : ((fun t : Top => t.mod) ∘ fun t => if t.mod = m ∧ t.name = n then
          { t with leaves := t.leaves.filter (fun x => x.1 != l) } else t) = (fun t => t.mod) := by
        funext t; simp only [Function.comp]; split <;> rfl
      rw [this]; exact he.grp
    | top m n => exact G_sub he.grp (List.filter_sublist.map _)
    | list m k => exact G_sub he.grp (List.filter_sublist.map _)
  opT := by
    intro u hu
    cases t with
    | leaf m n l =>
      simp only [editDel] at hu
      obtain ⟨w, hw, rfl⟩ := List.mem_map.1 hu
      split
      · exact he.opT w hw
      · exact he.opT w hw
    | top m n => exact he.opT u (List.mem_filter.1 hu).1
    | list m k => exact he.opT u (List.mem_filter.1 hu).1
  opD := he.opD
  keep := he.keep

theorem disc_ok {C : Cfg} {s : State} {e : Edit} (he : EditOk C s e) {m : Nat} (hm : m ∈ C.mods) (x : Nat) :
    EditOk C s { e with discs := e.discs ++ [⟨m, x, .replace⟩] } where
  grp := he.grp
  opT := he.opT
  opD := by
    intro d hd
    simp only [List.mem_append, List.mem_singleton] at hd
    rcases hd with h | rfl
    · exact he.opD d h
    · exact ⟨rfl, hm⟩
  keep := by
    intro m' x'
    rw [disc_view]
    have := he.keep m' x'
    simp only [View.disc]
    split
    · rename_i h; obtain ⟨rfl, rfl⟩ := h; omega
    · exact this

theorem leaf_any (ls : Leaves) (l : Nat) : ls.any (fun x => x.1 == l) = true ↔ ∃ v, leafAt ls l = some v := by
  simp only [leafAt]
  cases h : ls.find? (fun x => x.1 == l) with
  | none =>
    rw [List.find?_eq_none] at h
    simp only [Option.map_none, reduceCtorEq, exists_false, iff_false, List.any_eq_true, not_exists, not_and]
    exact h
  | some x =>
    simp only [Option.map_some, Option.some.injEq, exists_eq', iff_true, List.any_eq_true]
    exact ⟨x, List.mem_of_find?_eq_some h, List.find?_some (p := fun x : Nat × Nat => x.1 == l) h⟩

theorem found_has (e : Edit) (t : Target) : found e.tops t = true ↔ (editView e).Has t := by
  cases t with
  | leaf m n l =>
    simp only [found, View.Has, editView]
    cases h : e.tops.find? (fun t => t.mod == m && t.name == n) with
    | none => simp
    | some u => simp only [Option.any_some, leaf_any]; simp
  | top m n =>
    simp only [found, View.Has, editView]
    cases h : e.tops.find? (fun t => t.mod == m && t.name == n) with
    | none =>
      rw [List.find?_eq_none] at h
      simp only [Option.map_none, reduceCtorEq, exists_false, iff_false, List.any_eq_true, not_exists, not_and]
      exact h
    | some x =>
      simp only [Option.map_some, Option.some.injEq, exists_eq', iff_true, List.any_eq_true]
      exact ⟨x, List.mem_of_find?_eq_some h, List.find?_some (p := fun t : Top => t.mod == m && t.name == n) h⟩
  | list m k =>
    simp only [found, View.Has, editView, List.any_eq_true]
    constructor
    · rintro ⟨u, hu, h⟩
      simp only [Bool.and_eq_true, beq_iff_eq] at h
      refine ⟨u.name.2, ?_⟩
      cases hf : e.tops.find? (fun t => t.mod == m && t.name == (k, u.name.2)) with
      | none =>
        rw [List.find?_eq_none] at hf
        refine absurd ?_ (hf u hu)
        have : u.name = (k, u.name.2) := by rw [← h.2]
        simp only [Bool.and_eq_true, beq_iff_eq]
        exact ⟨h.1, this⟩
      | some w => exact ⟨_, rfl⟩
    · rintro ⟨i, f, h⟩
      cases hf : e.tops.find? (fun t => t.mod == m && t.name == (k, i)) with
      | none => rw [hf] at h; cases h
      | some w =>
        have h2 := List.find?_some (p := fun t : Top => t.mod == m && t.name == (k, i)) hf
        simp only [Bool.and_eq_true, beq_iff_eq] at h2
        exact ⟨w, List.mem_of_find?_eq_some hf, by simp [h2.1, h2.2]⟩

/-! ### Applying: all the modules -/

/-- Data of a module after the edit is applied. -/
def result (e : Edit) (m : Nat) (old : Push) : Push :=
  ⟨(e.tops.filter (fun t => t.mod == m)).map (fun t => (t.name, t.leaves)),
    newDiscs true ((e.discs.filter (fun d => d.mod == m)).reverse.map (·.xpath)) old.discs⟩

theorem mem_collected {C : Cfg} {s : State} {e : Edit} (I : Inv C s) (hp : s.pending = some e) (m : Nat) :
    m ∈ collected C s none ↔ s.has m = true ∨ inEdit (some e) m = true := by
  have E := I.ok e hp
  simp only [collected, List.mem_filter, hp]
  constructor
  · rintro ⟨_, h⟩
    simpa using h
  · intro h
    refine ⟨?_, by simpa using h⟩
    rcases h with h | h
    · cases Classical.em (m ∈ C.mods) with
      | inl h => exact h
      | inr hm =>
        rw [I.has, I.mods m hm] at h; cases h
    · simp only [inEdit, Bool.or_eq_true, List.any_eq_true, beq_iff_eq] at h
      rcases h with ⟨t, ht, rfl⟩ | ⟨t, ht, rfl⟩
      · exact (E.opT t ht).2
      · exact (E.opD t ht).2

theorem discs_nil {C : Cfg} {s : State} {e : Edit} (E : EditOk C s e) {m : Nat} (h : inEdit (some e) m = false) :
    (s.stored m).discs = [] := by
  rw [List.eq_nil_iff_forall_not_mem]
  intro x hx
  have h1 := E.keep m x
  rw [(view_out h).2 x] at h1
  have := List.count_pos_iff.2 hx
  omega

theorem result_out {C : Cfg} {s : State} {e : Edit} (E : EditOk C s e) {m : Nat} (h : inEdit (some e) m = false) :
    result e m (s.stored m) = noPush := by
  have hd := discs_nil E h
  simp only [inEdit, Bool.or_eq_false_iff, List.any_eq_false] at h
  have h3 : e.tops.filter (fun t => t.mod == m) = [] := List.filter_eq_nil_iff.2 h.1
  have h4 : e.discs.filter (fun d => d.mod == m) = [] := List.filter_eq_nil_iff.2 h.2
  simp only [result, h3, h4, List.map_nil, List.reverse_nil, newDiscs_nil, noPush]

/-- Modules with stored data and without any node in the edit. -/
def Dropped (s : State) (e : Edit) (m : Nat) : Prop := s.has m = true ∧ inEdit (some e) m = false

theorem failure_eq {C : Cfg} {s : State} {e : Edit} (I : Inv C s) (hp : s.pending = some e) :
    (failure C s none = none ∧ (C.dbg = true → ∀ m, ¬ Dropped s e m)) ∨
    (failure C s none = some .abort ∧ C.dbg = true ∧ ∃ m, Dropped s e m) := by
  have E := I.ok e hp
  have key : ∀ m, errOf (applyMod C.dbg s.pending m (s.stored m)) =
      if C.dbg = true ∧ inEdit (some e) m = false then some .abort else none := by
    intro m
    rw [hp]
    cases h : inEdit (some e) m with
    | true => rw [applyMod_in E.grp E.opT E.opD h]; simp [errOf]
    | false =>
      rw [applyMod_out E.grp h]
      cases C.dbg <;> simp [errOf]
  simp only [failure]
  have h2 : (fun m => errOf (applyMod C.dbg s.pending m (s.stored m))) =
      fun m => if C.dbg = true ∧ inEdit (some e) m = false then some Ret.abort else none := funext key
  rw [h2]
  cases hf : (collected C s none).findSome? (fun m => if C.dbg = true ∧ inEdit (some e) m = false then some Ret.abort
      else none) with
  | none =>
    left
    refine ⟨rfl, fun hd m hm => ?_⟩
    rw [List.findSome?_eq_none_iff] at hf
    have := hf m ((mem_collected I hp m).2 (.inl hm.1))
    simp [hd, hm.2] at this
  | some r =>
    right
    obtain ⟨m, hm, h⟩ := List.exists_of_findSome?_eq_some hf
    split at h
    · rename_i hc
      cases h
      refine ⟨rfl, hc.1, m, ?_, hc.2⟩
      rcases (mem_collected I hp m).1 hm with h | h
      · exact h
      · rw [hc.2] at h; cases h
    · cases h

theorem newData_eq {C : Cfg} {s : State} {e : Edit} (I : Inv C s) (hp : s.pending = some e)
    (hf : failure C s none = none) (m : Nat) : newData C s none m = result e m (s.stored m) := by
  have E := I.ok e hp
  simp only [newData]
  split
  · rw [hp]
    cases h : inEdit (some e) m with
    | true => rw [applyMod_in E.grp E.opT E.opD h]; rfl
    | false =>
      rename_i hm
      rw [applyMod_out E.grp h]
      cases hd : C.dbg with
      | true =>
        rcases failure_eq I hp with ⟨_, h1⟩ | ⟨h1, _⟩
        · refine absurd ⟨?_, h⟩ (h1 hd m)
          rcases (mem_collected I hp m).1 hm with h2 | h2
          · exact h2
          · rw [h] at h2; cases h2
        · rw [hf] at h1; cases h1
      | false =>
        simp only [Bool.false_eq_true, if_false]
        rw [discs_nil E h, result_out E h]
        rfl
  · rename_i hm
    rw [mem_collected I hp] at hm
    have h1 : s.has m = false := by
      cases h : s.has m with
      | false => rfl
      | true => exact (hm (.inl h)).elim
    have h2 : inEdit (some e) m = false := by
      cases h : inEdit (some e) m with
      | false => rfl
      | true => exact (hm (.inr h)).elim
    rw [result_out E h2]
    rw [I.has] at h1
    exact any_false h1

theorem result_view {e : Edit} {s : State} {f : Nat → Push} (h : ∀ m, f m = result e m (s.stored m)) :
    storedView { s with stored := f } = editView e := by
  apply View.ext'
  · intro m n
    simp only [storedView, h, result, find_filter_map, editView]
  · intro m x
    simp only [storedView, h, result, newDiscs_replace, count_filter_map, editView]

/-! ### Calls -/

/-- Calls of a session that does not use batches, with installed modules, that does not discard its stored data while
changes are pending. -/
def Plain (C : Cfg) (s : State) : Call → Prop
  | .set m _ _ => m ∈ C.mods
  | .discardItems m _ => m ∈ C.mods
  | .batch _ _ _ => False
  | .discardOper _ => s.pending = none
  | _ => True

theorem inv_init (C : Cfg) : Inv C s0 where
  has := fun _ => rfl
  mods := fun _ _ => rfl
  ne := fun _ h => by cases h
  ok := fun _ h => by cases h
  flag := fun _ h => by cases h

/-- The state after a successful application. -/
theorem applyOper_ok {C : Cfg} {s s' : State} {only : Option Nat} {v : Env}
    (h : applyOper C s only false v = (.ok, s')) :
    failure C s only = none ∧ s' = { s with
      stored := newData C s only
      has := fun m => if m ∈ changed C s only then (newData C s only m).any else s.has m
      flag := s.flag || !(changed C s only).isEmpty } := by
  unfold applyOper at h
  split at h
  · rename_i r hr
    simp only [Prod.mk.injEq] at h
    obtain ⟨rfl, _⟩ := h
    exfalso
    simp only [failure] at hr
    obtain ⟨m, _, hm⟩ := List.exists_of_findSome?_eq_some hr
    simp only [errOf] at hm
    split at hm
    · rename_i r' hx
      cases hm
      simp only [applyMod] at hx
      repeat' split at hx
      all_goals first | (cases hx; done) | skip
    · cases hm
  · rename_i hf
    split at h
    · simp only [Prod.mk.injEq, reduceCtorEq, false_and] at h
    · split at h
      · simp only [Prod.mk.injEq, reduceCtorEq, false_and] at h
      · simp only [Prod.mk.injEq, true_and] at h
        refine ⟨hf, ?_⟩
        rw [← h]
        simp

theorem applyOper_err {C : Cfg} {s s' : State} {only : Option Nat} {del : Bool} {v : Env} {r : Ret} (hr : r ≠ .ok)
    (h : applyOper C s only del v = (r, s')) : s' = s := by
  unfold applyOper at h
  repeat' split at h
  all_goals simp only [Prod.mk.injEq] at h
  · exact h.2.symm
  · exact h.2.symm
  · exact h.2.symm
  all_goals exact absurd h.1.symm hr

/-- Stored data and flags after any successful application. -/
theorem inv_store {C : Cfg} {s : State} {only : Option Nat} (I : Inv C s)
    (hm : ∀ m, m ∉ C.mods → newData C s only m = noPush) :
    Inv C { s with
      stored := newData C s only
      has := fun m => if m ∈ changed C s only then (newData C s only m).any else s.has m
      flag := s.flag || !(changed C s only).isEmpty
      pending := none } where
  has := fun m => by
    simp only []
    split
    · rfl
    · rename_i h
      by_cases hmm : m ∈ C.mods
      · have : newData C s only m = s.stored m := by
          cases Classical.em (newData C s only m = s.stored m) with
          | inl h => exact h
          | inr hne => exact (h (List.mem_filter.2 ⟨hmm, by simpa using hne⟩)).elim
        rw [I.has, this]
      · rw [hm m hmm, I.has, I.mods m hmm]
  mods := hm
  ne := fun _ h => by cases h
  ok := fun _ h => by cases h
  flag := fun m h => by
    simp only [] at h
    split at h
    · rename_i hc
      simp only [Bool.or_eq_true]
      right
      cases hh : changed C s only with
      | nil => rw [hh] at hc; cases hc
      | cons a l => rfl
    · simp [I.flag m h]

/-- Discarding without pending changes. -/
theorem newData_discard {C : Cfg} {s : State} (I : Inv C s) (hp : s.pending = none) (only : Option Nat) (m : Nat) :
    newData C s only m = if only = none ∨ only = some m then noPush else s.stored m := by
  have hc : m ∈ collected C s only ↔ s.has m = true ∧ (only = none ∨ only = some m) := by
    simp only [collected, List.mem_filter, hp, inEdit, Bool.or_false, Bool.and_eq_true, Bool.or_eq_true, beq_iff_eq]
    constructor
    · exact fun h => h.2
    · intro h
      refine ⟨?_, h⟩
      cases Classical.em (m ∈ C.mods) with
      | inl h => exact h
      | inr hm => have := h.1; rw [I.has, I.mods m hm] at this; cases this
  simp only [newData, hp]
  by_cases h : only = none ∨ only = some m
  · simp only [h, if_true]
    split
    · simp only [applyMod, newDiscs_nil]; rfl
    · rename_i hn
      rw [hc] at hn
      have : s.has m = false := by
        cases hh : s.has m with
        | false => rfl
        | true => exact (hn ⟨hh, h⟩).elim
      rw [I.has] at this
      exact any_false this
  · simp only [h, if_false]
    split
    · rename_i hn; exact absurd (hc.1 hn).2 h
    · rfl

theorem inv_call {C : Cfg} (hC : C.mods.Nodup) {s : State} {v : Env} {c : Call} (I : Inv C s) (hc : Plain C s c) :
    Inv C (call C s v c).2 := by
  cases c with
  | set m n lv =>
    simp only [call]
    split
    · exact I
    · rename_i e he
      obtain ⟨E, _⟩ := start_ok hC I he
      exact inv_finish I (editAdd_ok E hc n lv)
  | delete t strict =>
    simp only [call]
    split
    · exact I
    · rename_i e he
      obtain ⟨E, _⟩ := start_ok hC I he
      split
      · exact inv_finish I (editDel_ok E t)
      · exact inv_finish I E
  | discardItems m x =>
    simp only [call]
    split
    · exact I
    · rename_i e he
      obtain ⟨E, _⟩ := start_ok hC I he
      exact inv_finish I (disc_ok E hc x)
  | batch ts ds o => exact absurd hc id
  | apply =>
    simp only [call]
    split
    · exact I
    · rename_i e hp
      split
      · rename_i h
        obtain ⟨hf, hs⟩ := applyOper_ok (s' := (applyOper C s none false v).2) (Prod.ext h rfl)
        rw [hs]
        refine inv_store I (fun m hm => ?_)
        rw [newData_eq I hp hf, result_out (I.ok e hp)]
        cases hh : inEdit (some e) m with
        | false => rfl
        | true =>
          exfalso
          have := ((mem_collected I hp m).2 (.inr hh))
          exact hm (List.mem_filter.1 this).1
      · rename_i h
        have := applyOper_err (s' := (applyOper C s none false v).2) h rfl
        rw [this]; exact I
  | discard =>
    exact ⟨I.has, I.mods, (fun _ h => by cases h), (fun _ h => by cases h), I.flag⟩
  | discardXpath t =>
    simp only [call]
    split
    · exact I
    · rename_i e hp
      exact inv_finish I (editDel_ok (I.ok e hp) t)
  | discardOper only =>
    simp only [call]
    have hp : s.pending = none := hc
    cases h : applyOper C s only false v with
    | mk r s' =>
      by_cases hr : r = .ok
      · subst hr
        obtain ⟨hf, rfl⟩ := applyOper_ok h
        have := inv_store (only := only) I (fun m hm => by
          rw [newData_discard I hp]; split
          · rfl
          · exact I.mods m hm)
        rw [← hp] at this
        exact this
      · rw [applyOper_err hr h]; exact I

/-! ### Batches -/

theorem ops_same {e : Edit} {o : Op} (h1 : ∀ t ∈ e.tops, t.op = o) (h2 : ∀ d ∈ e.discs, d.op = o) (m : Nat) :
    ∀ x ∈ ops e m, x = o := by
  have hf : ∀ t ∈ from_ e m, t ∈ e.tops := fun t ht => (List.dropWhile_sublist _).subset ht
  intro x ho
  simp only [ops, List.mem_append] at ho
  rcases ho with ho | ho
  · split at ho
    · cases ho
    · simp only [List.mem_append] at ho
      rcases ho with ho | ho
      · obtain ⟨t, ht, rfl⟩ := List.mem_map.1 ho
        exact h1 t (hf t ((List.takeWhile_sublist _).subset ht))
      · have := List.mem_of_mem_take ho
        simp only [List.mem_append, List.mem_map] at this
        rcases this with ⟨t, ht, rfl⟩ | ⟨d, hd, rfl⟩
        · exact h1 t (hf t ((List.dropWhile_sublist _).subset ht))
        · exact h2 d hd
  · obtain ⟨d, hd, rfl⟩ := List.mem_map.1 ho
    exact h2 d (List.mem_filter.1 (List.mem_reverse.1 hd)).1

/-- Data of a module after a batch of an operation is applied. -/
def resultOf (e : Edit) (m : Nat) (old : Push) : Op → Push
  | .replace => result e m old
  | .merge => ⟨(e.tops.filter (fun t => t.mod == m)).foldl (fun ts t => mergeTree ts t.name t.leaves) old.trees,
      newDiscs false ((e.discs.filter (fun d => d.mod == m)).reverse.map (·.xpath)) old.discs⟩

theorem applyMod_same {e : Edit} (hG : G (e.tops.map (·.mod))) {o : Op}
    (h1 : ∀ t ∈ e.tops, t.op = o) (h2 : ∀ d ∈ e.discs, d.op = o)
    {m : Nat} (hm : inEdit (some e) m = true) (dbg : Bool) (old : Push) :
    applyMod dbg (some e) m old = .inr (resultOf e m old o) := by
  have ha := ops_same h1 h2 m
  simp only [applyMod]
  cases hops : ops e m with
  | nil =>
    rw [ops_nil hG] at hops
    rw [hops] at hm; cases hm
  | cons x os =>
    rw [hops] at ha
    have ho := ha x (List.Mem.head _)
    subst ho
    have hall : os.all (· == x) = true := by
      rw [List.all_eq_true]
      intro y hy
      rw [ha y (List.Mem.tail _ hy)]
      cases x <;> rfl
    simp only [hall, if_true]
    cases x <;> simp only [run_eq e hG, resultOf, result]

/-- Leaves of a tree. -/
def viewT (ts : List (Name × Leaves)) (n : Name) : Option (Nat → Option Nat) :=
  (ts.find? (fun t => t.1 == n)).map (fun t => leafAt t.2)

theorem leaf_fold (ls : Leaves) (hn : (ls.map (·.1)).Nodup) (a : Leaves) (l : Nat) :
    leafAt (ls.foldl (fun a x => setLeaf a x.1 x.2) a) l = (leafAt ls l).or (leafAt a l) := by
  induction ls generalizing a with
  | nil => simp [leafAt]
  | cons x xs ih =>
    simp only [List.map_cons, List.nodup_cons] at hn
    rw [List.foldl_cons, ih hn.2, leaf_set]
    by_cases h : l = x.1
    · subst h
      have h1 : leafAt xs x.1 = none := by
        simp only [leafAt]
        rw [List.find?_eq_none.2]
        · rfl
        · intro y hy hy2
          exact hn.1 (List.mem_map.2 ⟨y, hy, by simpa using hy2⟩)
      rw [h1]
      simp [leafAt]
    · have h2 : (x.1 == l) = false := by simp; exact fun e => h e.symm
      simp only [h, if_false, leafAt, List.find?_cons, h2]

theorem viewT_mergeTree (ts : List (Name × Leaves)) (n : Name) (ls : Leaves) (hn : (ls.map (·.1)).Nodup) (n' : Name) :
    viewT (mergeTree ts n ls) n' =
    if n' = n then some (fun l => (leafAt ls l).or (((viewT ts n).getD (fun _ => none)) l)) else viewT ts n' := by
  simp only [mergeTree]
  split
  · rename_i hany
    have key : ∀ ts : List (Name × Leaves),
        viewT (ts.map (fun t => if t.1 = n then (n, ls.foldl (fun a x => setLeaf a x.1 x.2) t.2) else t)) n' =
        if n' = n then (viewT ts n).map (fun f l => (leafAt ls l).or (f l)) else viewT ts n' := by
      intro ts
      induction ts with
      | nil => simp [viewT]
      | cons t ts ih =>
        simp only [viewT, List.map_cons, List.find?_cons] at ih ⊢
        by_cases ht : t.1 = n
        · by_cases hx : n' = n
          · subst hx
            simp only [ht, if_true, beq_self_eq_true, Option.map_some, Option.some.injEq]
            funext l
            rw [leaf_fold _ hn]
          · have h2 : (n == n') = false := by simp; exact fun e => hx e.symm
            simp only [ht, if_true, h2, hx, if_false] at ih ⊢
            exact ih
        · by_cases hx : n' = n
          · subst hx
            have h2 : (t.1 == n') = false := by simp [ht]
            simp only [ht, if_false, h2, if_true] at ih ⊢
            exact ih
          · simp only [ht, if_false, hx] at ih ⊢
            cases t.1 == n' with
            | true => rfl
            | false => exact ih
    rw [key]
    split
    · rename_i h
      cases hv : viewT ts n with
      | some f => rfl
      | none =>
        exfalso
        simp only [viewT, Option.map_eq_none_iff, List.find?_eq_none] at hv
        obtain ⟨t, ht, ht2⟩ := List.any_eq_true.1 hany
        exact hv t ht ht2
    · rfl
  · rename_i hany
    have hnone : ts.find? (fun t => t.1 == n) = none := by
      rw [List.find?_eq_none]
      intro t ht ht2
      exact hany (List.any_eq_true.2 ⟨t, ht, ht2⟩)
    simp only [viewT, List.find?_append]
    split
    · rename_i h
      subst h
      simp [hnone]
    · rename_i h
      have h2 : (n == n') = false := by simp; exact fun e => h e.symm
      simp [List.find?_cons, h2]

theorem viewT_fold (us : List Top) (hn : (us.map (·.name)).Nodup) (hl : ∀ t ∈ us, (t.leaves.map (·.1)).Nodup)
    (ts : List (Name × Leaves)) (n : Name) :
    viewT (us.foldl (fun ts t => mergeTree ts t.name t.leaves) ts) n =
    match us.find? (fun t => t.name == n) with
    | none => viewT ts n
    | some u => some (fun l => (leafAt u.leaves l).or (((viewT ts n).getD (fun _ => none)) l)) := by
  induction us generalizing ts with
  | nil => rfl
  | cons u us ih =>
    simp only [List.map_cons, List.nodup_cons] at hn
    rw [List.foldl_cons, ih hn.2 (fun t ht => hl t (List.Mem.tail _ ht)), List.find?_cons]
    have hm := viewT_mergeTree ts u.name u.leaves (hl u (List.Mem.head _)) n
    by_cases h : n = u.name
    · subst h
      have h1 : us.find? (fun t => t.name == u.name) = none := by
        rw [List.find?_eq_none]
        intro y hy hy2
        exact hn.1 (List.mem_map.2 ⟨y, hy, by simpa using hy2⟩)
      simp only [h1, beq_self_eq_true, hm, if_true]
    · have h2 : (u.name == n) = false := by simp; exact fun e => h e.symm
      simp only [h2, hm, h, if_false]

theorem find_filter (ts : List Top) (m : Nat) (n : Name) :
    (ts.filter (fun t => t.mod == m)).find? (fun t => t.name == n) =
    ts.find? (fun t => t.mod == m && t.name == n) := by
  rw [List.find?_filter]
  congr 1
  funext t
  cases t.mod == m <;> cases t.name == n <;> rfl

end Verif.OperSess
