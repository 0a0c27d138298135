import Verif.NacmGroup

/-! Property C44: group membership decides which rule lists apply. -/
namespace Verif.NacmGroup

/-! ## Order of strings -/

theorem strcmp_refl (a : Str) : strcmp a a = .eq := by
  induction a with
  | nil => rfl
  | cons c a ih => simp [strcmp, ih]

theorem strcmp_eq {a b : Str} (h : strcmp a b = .eq) : a = b := by
  induction a generalizing b with
  | nil => cases b with
    | nil => rfl
    | cons d b => simp [strcmp] at h
  | cons c a ih => cases b with
    | nil => simp [strcmp] at h
    | cons d b =>
      simp only [strcmp] at h
      split at h
      · cases h
      · split at h
        · cases h
        · have := ih h; subst this
          have : c = d := by omega
          subst this; rfl

theorem strcmp_eq_iff (a b : Str) : strcmp a b = .eq ↔ a = b :=
  ⟨strcmp_eq, fun h => h ▸ strcmp_refl a⟩

theorem strcmp_swap (a b : Str) : strcmp a b = .gt ↔ strcmp b a = .lt := by
  induction a generalizing b with
  | nil => cases b <;> simp [strcmp]
  | cons c a ih => cases b with
    | nil => simp [strcmp]
    | cons d b =>
      simp only [strcmp]
      by_cases h1 : c < d
      · have : ¬ d < c := by omega
        simp [h1, this]
      · by_cases h2 : d < c
        · simp [h1, h2]
        · simp [h1, h2, ih]

theorem lt_trans {a b c : Str} (h1 : strcmp a b = .lt) (h2 : strcmp b c = .lt) : strcmp a c = .lt := by
  induction a generalizing b c with
  | nil =>
    cases b with
    | nil => simp [strcmp] at h1
    | cons y b =>
      cases c with
      | nil => simp [strcmp] at h2
      | cons z c => rfl
  | cons x a ih =>
    cases b with
    | nil => simp [strcmp] at h1
    | cons y b =>
      cases c with
      | nil => simp [strcmp] at h2
      | cons z c =>
        simp only [strcmp] at h1 h2 ⊢
        by_cases hxy : x < y
        · by_cases hyz : y < z
          · rw [if_pos (by omega)]
          · rw [if_neg hyz] at h2
            by_cases hzy : z < y
            · rw [if_pos hzy] at h2; cases h2
            · rw [if_pos (by omega)]
        · rw [if_neg hxy] at h1
          by_cases hyx : y < x
          · rw [if_pos hyx] at h1; cases h1
          · rw [if_neg hyx] at h1
            have : x = y := by omega
            subst this
            by_cases hxz : x < z
            · rw [if_pos hxz]
            · rw [if_neg hxz] at h2 ⊢
              by_cases hzx : z < x
              · rw [if_pos hzx] at h2; cases h2
              · rw [if_neg hzx] at h2 ⊢
                exact ih h1 h2

/-- `a` is not after `b`. -/
def Le (a b : Str) : Prop := strcmp a b ≠ .gt

theorem le_of_lt {a b : Str} (h : strcmp a b = .lt) : Le a b := by simp [Le, h]
theorem le_refl (a : Str) : Le a a := by simp [Le, strcmp_refl]
theorem le_cases {a b : Str} (h : Le a b) : strcmp a b = .lt ∨ a = b := by
  cases hc : strcmp a b with
  | lt => exact Or.inl rfl
  | eq => exact Or.inr (strcmp_eq hc)
  | gt => exact absurd hc h
theorem le_trans {a b c : Str} (h1 : Le a b) (h2 : Le b c) : Le a c := by
  rcases le_cases h1 with h1 | rfl
  · rcases le_cases h2 with h2 | rfl
    · exact le_of_lt (lt_trans h1 h2)
    · exact le_of_lt h1
  · exact h2
theorem lt_irrefl {a : Str} : strcmp a a ≠ .lt := by simp [strcmp_refl]
theorem not_lt_of_le {a b : Str} (h : Le a b) : strcmp b a ≠ .lt := fun h' => h ((strcmp_swap a b).mpr h')

/-- Sorted array. -/
abbrev Sorted (l : List Str) : Prop := l.Pairwise Le

theorem sorted_get {l : List Str} (h : Sorted l) {i j : Nat} (hij : i ≤ j) (hj : j < l.length) :
    Le (l.getD i []) (l.getD j []) := by
  rw [List.getD_eq_getElem?_getD, List.getD_eq_getElem?_getD, List.getElem?_eq_getElem hj,
    List.getElem?_eq_getElem (by omega)]
  simp only [Option.getD_some]
  by_cases he : i = j
  · subst he; exact le_refl _
  · exact List.pairwise_iff_getElem.mp h i j (by omega) hj (by omega)

/-! ## Searching -/

theorem bsearch_sound (item : Str) (items : List Str) (n lo hi i : Nat) (hhi : hi ≤ items.length)
    (h : bsearch item items n lo hi = some i) : items[i]? = some item := by
  induction n generalizing lo hi with
  | zero => cases h
  | succ n ih =>
    simp only [bsearch] at h
    split at h
    · rename_i hlt
      split at h
      · exact ih _ _ (by omega) h
      · exact ih _ _ hhi h
      · rename_i hc
        cases h
        have hm : (lo + hi) / 2 < items.length := by omega
        have := strcmp_eq hc
        rw [List.getD_eq_getElem?_getD, List.getElem?_eq_getElem hm] at this
        rw [List.getElem?_eq_getElem hm, this]; rfl
    · cases h

theorem bsearch_complete (item : Str) (items : List Str) (hs : Sorted items) (n lo hi : Nat)
    (hn : hi ≤ lo + n) (hhi : hi ≤ items.length) (k : Nat) (hk : lo ≤ k ∧ k < hi)
    (hik : items[k]? = some item) : (bsearch item items n lo hi).isSome := by
  induction n generalizing lo hi with
  | zero => omega
  | succ n ih =>
    simp only [bsearch]
    rw [if_pos (by omega)]
    have hgk : items.getD k [] = item := by rw [List.getD_eq_getElem?_getD, hik]; rfl
    split
    · rename_i hc
      refine ih _ _ (by omega) (by omega) ⟨hk.1, ?_⟩
      by_cases hmk : k < (lo + hi) / 2
      · exact hmk
      · exfalso
        have := sorted_get hs (i := (lo + hi) / 2) (j := k) (by omega) (by omega)
        rw [hgk] at this
        exact not_lt_of_le this hc
    · rename_i hc
      refine ih _ _ (by omega) hhi ⟨?_, hk.2⟩
      by_cases hmk : (lo + hi) / 2 < k
      · omega
      · exfalso
        have := sorted_get hs (i := k) (j := (lo + hi) / 2) (by omega) (by omega)
        rw [hgk] at this
        exact this hc
    · rfl

theorem sortFind_some {item : Str} {items : List Str} {i : Nat} (h : sortFind item items = some i) :
    items[i]? = some item := bsearch_sound item items _ 0 items.length i (Nat.le_refl _) h

theorem sortFind_isSome {items : List Str} (hs : Sorted items) (item : Str) :
    (sortFind item items).isSome ↔ item ∈ items := by
  constructor
  · intro h
    obtain ⟨i, hi⟩ := Option.isSome_iff_exists.mp h
    exact List.mem_of_getElem? (sortFind_some hi)
  · intro h
    obtain ⟨k, hk⟩ := List.mem_iff_getElem?.mp h
    have hlt : k < items.length := (List.getElem?_eq_some_iff.mp hk).1
    exact bsearch_complete item items hs _ 0 items.length (by omega) (Nat.le_refl _) k ⟨by omega, hlt⟩ hk

/-! ## Inserting -/

theorem down_spec (item : Str) (items : List Str) (i : Nat) :
    down item items i ≤ i ∧
    (∀ k, down item items i ≤ k → k < i → strcmp (items.getD k []) item = .gt) ∧
    (∀ k, k + 1 = down item items i → Le (items.getD k []) item) := by
  induction i with
  | zero => simp [down]
  | succ i ih =>
    simp only [down]
    split
    · rename_i hgt
      refine ⟨by omega, ?_, ih.2.2⟩
      intro k h1 h2
      by_cases hk : k = i
      · subst hk; exact hgt
      · exact ih.2.1 k h1 (by omega)
    · rename_i hgt
      refine ⟨by omega, by omega, ?_⟩
      intro k hk
      have : k = i := by omega
      subst this; exact hgt

theorem up_spec (item : Str) (items : List Str) (n i : Nat) (hn : items.length ≤ n + i)
    (hi : i ≤ items.length) :
    i ≤ up item items n i ∧ up item items n i ≤ items.length ∧
    (∀ k, i ≤ k → k < up item items n i → strcmp (items.getD k []) item = .lt) ∧
    (up item items n i < items.length → strcmp (items.getD (up item items n i) []) item ≠ .lt) := by
  induction n generalizing i with
  | zero =>
    simp only [up]
    exact ⟨Nat.le_refl _, hi, by omega, by omega⟩
  | succ n ih =>
    simp only [up]
    split
    · rename_i h
      obtain ⟨h1, h2, h3, h4⟩ := ih (i + 1) (by omega) (by omega)
      refine ⟨by omega, h2, ?_, h4⟩
      intro k hk1 hk2
      by_cases hk : k = i
      · subst hk; exact h.2
      · exact h3 k (by omega) hk2
    · rename_i h
      refine ⟨Nat.le_refl _, hi, by omega, ?_⟩
      intro hlt hh
      exact h ⟨hlt, hh⟩

/-- At the found place everything before is not greater and everything from it on not less. -/
theorem place_spec (item : Str) (items : List Str) (i : Nat) (hs : Sorted items)
    (hi : i < items.length ∨ (items = [] ∧ i = 0)) :
    place item items i ≤ items.length ∧
    (∀ k, k < place item items i → Le (items.getD k []) item) ∧
    (∀ k, place item items i ≤ k → k < items.length → Le item (items.getD k [])) := by
  rcases hi with hi | ⟨rfl, rfl⟩
  · have hne : items.length ≠ 0 := by omega
    simp only [place]
    split
    · rename_i h
      obtain ⟨h1, h2, h3⟩ := down_spec item items i
      refine ⟨by omega, ?_, ?_⟩
      · intro k hk
        cases hd : down item items i with
        | zero => omega
        | succ m =>
          have := h3 m hd.symm
          exact le_trans (sorted_get hs (by omega) (by omega)) this
      · intro k hk hkl
        by_cases hki : k < i
        · exact le_of_lt ((strcmp_swap _ _).mp (h2 k hk hki))
        · exact le_trans (le_of_lt ((strcmp_swap _ _).mp h.2)) (sorted_get hs (by omega) hkl)
    · split
      · rename_i h
        obtain ⟨h1, h2, h3, h4⟩ := up_spec item items items.length i (by omega) (by omega)
        refine ⟨h2, ?_, ?_⟩
        · intro k hk
          by_cases hki : k < i
          · exact le_trans (sorted_get hs (i := k) (j := i) (by omega) hi) (le_of_lt h.2)
          · exact le_of_lt (h3 k (by omega) hk)
        · intro k hk hkl
          refine le_trans ?_ (sorted_get hs hk hkl)
          intro hgt
          exact h4 (by omega) ((strcmp_swap _ _).mp hgt)
      · rename_i hgt hlt
        have heq : items.getD i [] = item := by
          refine strcmp_eq ?_
          cases hc : strcmp (items.getD i []) item with
          | eq => rfl
          | lt => exact absurd ⟨hne, hc⟩ hlt
          | gt => exact absurd ⟨hne, hc⟩ hgt
        refine ⟨by omega, ?_, ?_⟩
        · intro k hk
          rw [← heq]; exact sorted_get hs (by omega) hi
        · intro k hk hkl
          conv => lhs; rw [← heq]
          exact sorted_get hs hk hkl
  · simp [place]

/-- Inserting keeps the array sorted and adds exactly the item, wherever the search starts. -/
theorem insertAt_spec (item : Str) (items : List Str) (i : Nat) (hs : Sorted items)
    (hi : i < items.length ∨ (items = [] ∧ i = 0)) :
    Sorted (insertAt item items i) ∧ (insertAt item items i).Perm (item :: items) := by
  obtain ⟨h1, h2, h3⟩ := place_spec item items i hs hi
  simp only [insertAt]
  generalize place item items i = j at *
  constructor
  · rw [Sorted, List.pairwise_append, List.pairwise_cons]
    refine ⟨hs.sublist (List.take_sublist _ _), ⟨?_, hs.sublist (List.drop_sublist _ _)⟩, ?_⟩
    · intro x hx
      obtain ⟨k, hk⟩ := List.mem_iff_getElem?.mp hx
      rw [List.getElem?_drop] at hk
      have hlt := (List.getElem?_eq_some_iff.mp hk).1
      have := h3 (j + k) (by omega) hlt
      rwa [List.getD_eq_getElem?_getD, hk] at this
    · intro x hx y hy
      have hx' : Le x item := by
        obtain ⟨k, hk⟩ := List.mem_iff_getElem?.mp hx
        have hkl := (List.getElem?_eq_some_iff.mp hk).1
        rw [List.length_take] at hkl
        rw [List.getElem?_take] at hk
        have hkj : k < j := by omega
        rw [if_pos hkj] at hk
        have := h2 k hkj
        rwa [List.getD_eq_getElem?_getD, hk] at this
      rcases List.mem_cons.mp hy with rfl | hy
      · exact hx'
      · refine le_trans hx' ?_
        obtain ⟨k, hk⟩ := List.mem_iff_getElem?.mp hy
        rw [List.getElem?_drop] at hk
        have hlt := (List.getElem?_eq_some_iff.mp hk).1
        have := h3 (j + k) (by omega) hlt
        rwa [List.getD_eq_getElem?_getD, hk] at this
  · refine List.Perm.trans List.perm_middle ?_
    rw [List.take_append_drop]

theorem startIdx_ok (item : Str) (items : List Str) :
    startIdx item items.length < items.length ∨ (items = [] ∧ startIdx item items.length = 0) := by
  cases items with
  | nil =>
    right
    refine ⟨rfl, ?_⟩
    simp only [startIdx, List.length_nil]
    split
    · rfl
    · split <;> simp
  | cons x items =>
    left
    simp only [startIdx, List.length_cons]
    generalize item.headD 0 = c
    split
    · omega
    · split
      · omega
      · rename_i h1 h2
        rw [Nat.div_lt_iff_lt_mul (by omega)]
        have : c - 97 ≤ 25 := by omega
        have := Nat.mul_le_mul_right (items.length + 1) this
        omega

/-- C44: adding a name keeps the array sorted and adds exactly that name (once more, or not at all
if duplicates are checked and it is there). -/
theorem sortAdd_spec (dup : Bool) (item : Str) (items : List Str) (hs : Sorted items) :
    Sorted (sortAdd dup item items) ∧
    (∀ g, g ∈ sortAdd dup item items ↔ g = item ∨ g ∈ items) := by
  simp only [sortAdd]
  split
  · rename_i h
    refine ⟨hs, fun g => ⟨Or.inr, ?_⟩⟩
    rintro (rfl | h')
    · exact (sortFind_isSome hs _).mp h.2
    · exact h'
  · obtain ⟨h1, h2⟩ := insertAt_spec item items _ hs (startIdx_ok item items)
    exact ⟨h1, fun g => by rw [h2.mem_iff, List.mem_cons]⟩

theorem sortAdd_perm (item : Str) (items : List Str) (hs : Sorted items) :
    (sortAdd false item items).Perm (item :: items) := by
  simp only [sortAdd, Bool.false_eq_true, false_and, if_false]
  exact (insertAt_spec item items _ hs (startIdx_ok item items)).2

/-- C44: deleting a name that is in the array works, keeps the array sorted and removes one
occurrence. -/
theorem sortDel_spec (item : Str) (items : List Str) (hs : Sorted items) (hm : item ∈ items) :
    ∃ l, sortDel item items = some l ∧ Sorted l ∧ items.Perm (item :: l) := by
  obtain ⟨i, hi⟩ := Option.isSome_iff_exists.mp ((sortFind_isSome hs item).mpr hm)
  refine ⟨items.take i ++ items.drop (i + 1), by simp [sortDel, hi], ?_, ?_⟩
  · have : (items.take i ++ items.drop (i + 1)).Sublist items := by
      conv => rhs; rw [← List.take_append_drop i items]
      exact List.Sublist.append_left (List.drop_sublist_drop_left _ (by omega)) _
    exact hs.sublist this
  · have hget := sortFind_some hi
    have hlt := (List.getElem?_eq_some_iff.mp hget).1
    have hd : items.drop i = item :: items.drop (i + 1) := by
      rw [List.drop_eq_getElem_cons hlt]
      rw [List.getElem?_eq_getElem hlt] at hget
      rw [Option.some.inj hget]
    conv => lhs; rw [← List.take_append_drop i items, hd]
    exact List.perm_middle

/-! ## Groups of a rule list over a history of changes -/

theorem run_spec (os : List Op) (l c : List Str) (hs : Sorted l) (hp : l.Perm c) (hn : c.Nodup)
    (hv : validOps c os) :
    ∃ l', run l os = some l' ∧ Sorted l' ∧ l'.Perm (configured c os) := by
  induction os generalizing l c with
  | nil => exact ⟨l, rfl, hs, hp⟩
  | cons o os ih =>
    cases o with
    | add g =>
      simp only [validOps] at hv
      simp only [run, applyOp, Option.bind_some, configured]
      refine ih _ _ (sortAdd_spec false g l hs).1 ((sortAdd_perm g l hs).trans (hp.cons g)) ?_ hv.2
      exact List.nodup_cons.mpr ⟨hv.1, hn⟩
    | del g =>
      simp only [validOps] at hv
      obtain ⟨l1, h1, h2, h3⟩ := sortDel_spec g l hs (hp.mem_iff.mpr hv.1)
      simp only [run, applyOp, h1, Option.bind_some, configured]
      refine ih _ _ h2 ?_ (hn.sublist List.filter_sublist) hv.2
      have hnl : (g :: l1).Nodup := h3.nodup_iff.mp (hp.nodup_iff.mpr hn)
      have hg := (List.nodup_cons.mp hnl).1
      have : (g :: l1).Perm c := h3.symm.trans hp
      have := this.filter (· ≠ g)
      rw [List.filter_cons, if_neg (by simp)] at this
      rwa [List.filter_eq_self.mpr (by
        intro x hx
        have : x ≠ g := fun h => hg (h ▸ hx)
        simpa using this)] at this

/-! ## Groups of a user -/

theorem foldl_users (g user : Str) (us : List Str) (acc : List Str) (hs : Sorted acc) :
    Sorted (us.foldl (fun acc u => if u = user then sortAdd false g acc else acc) acc) ∧
    ∀ x, x ∈ us.foldl (fun acc u => if u = user then sortAdd false g acc else acc) acc ↔
      (x = g ∧ user ∈ us) ∨ x ∈ acc := by
  induction us generalizing acc with
  | nil => simp [hs]
  | cons u us ih =>
    simp only [List.foldl_cons]
    by_cases hu : u = user
    · rw [if_pos hu]
      obtain ⟨h1, h2⟩ := sortAdd_spec false g acc hs
      obtain ⟨h3, h4⟩ := ih _ h1
      refine ⟨h3, fun x => ?_⟩
      rw [h4, h2]
      subst hu
      simp only [List.mem_cons, true_or, and_true]
      constructor
      · rintro (⟨h, _⟩ | h | h)
        · exact Or.inl h
        · exact Or.inl h
        · exact Or.inr h
      · rintro (h | h)
        · exact Or.inr (Or.inl h)
        · exact Or.inr (Or.inr h)
    · rw [if_neg hu]
      obtain ⟨h3, h4⟩ := ih _ hs
      refine ⟨h3, fun x => ?_⟩
      rw [h4]
      simp [List.mem_cons, Ne.symm hu]

theorem foldl_groups (user : Str) (gs : List Group) (acc : List Str) (hs : Sorted acc) :
    Sorted (gs.foldl (fun acc g =>
      g.users.foldl (fun acc u => if u = user then sortAdd false g.name acc else acc) acc) acc) ∧
    ∀ x, x ∈ gs.foldl (fun acc g =>
      g.users.foldl (fun acc u => if u = user then sortAdd false g.name acc else acc) acc) acc ↔
      (∃ gr ∈ gs, gr.name = x ∧ user ∈ gr.users) ∨ x ∈ acc := by
  induction gs generalizing acc with
  | nil => simp [hs]
  | cons g gs ih =>
    simp only [List.foldl_cons]
    obtain ⟨h1, h2⟩ := foldl_users g.name user g.users acc hs
    obtain ⟨h3, h4⟩ := ih _ h1
    refine ⟨h3, fun x => ?_⟩
    rw [h4, h2]
    simp only [List.mem_cons, exists_eq_or_imp]
    constructor
    · rintro (h | ⟨h, h'⟩ | h)
      · exact Or.inl (Or.inr h)
      · exact Or.inl (Or.inl ⟨h.symm, h'⟩)
      · exact Or.inr h
    · rintro ((⟨h, h'⟩ | h) | h)
      · exact Or.inr (Or.inl ⟨h.symm, h'⟩)
      · exact Or.inl h
      · exact Or.inr (Or.inr h)

theorem foldl_sys (ss : List Str) (acc : List Str) (hs : Sorted acc) :
    Sorted (ss.foldl (fun acc g => sortAdd true g acc) acc) ∧
    ∀ x, x ∈ ss.foldl (fun acc g => sortAdd true g acc) acc ↔ x ∈ ss ∨ x ∈ acc := by
  induction ss generalizing acc with
  | nil => simp [hs]
  | cons s ss ih =>
    simp only [List.foldl_cons]
    obtain ⟨h1, h2⟩ := sortAdd_spec true s acc hs
    obtain ⟨h3, h4⟩ := ih _ h1
    refine ⟨h3, fun x => ?_⟩
    rw [h4, h2, List.mem_cons]
    constructor
    · rintro (h | h | h)
      · exact Or.inl (Or.inr h)
      · exact Or.inl (Or.inl h)
      · exact Or.inr h
    · rintro ((h | h) | h)
      · exact Or.inr (Or.inl h)
      · exact Or.inl h
      · exact Or.inr (Or.inr h)

/-- C44: exactly the groups the user is a member of are collected, sorted. -/
theorem collect_exact (groups : List Group) (sys : Option (List Str)) (user : Str) :
    Sorted (collect groups sys user) ∧
    ∀ g, g ∈ collect groups sys user ↔ memberOf groups sys user g := by
  obtain ⟨h1, h2⟩ := foldl_groups user groups [] List.Pairwise.nil
  obtain ⟨h3, h4⟩ := foldl_sys (sys.getD []) _ h1
  refine ⟨h3, fun g => ?_⟩
  simp only [collect]
  rw [h4, h2]
  simp only [memberOf, List.not_mem_nil, or_false]
  rw [or_comm]
  refine or_congr Iff.rfl ?_
  cases sys <;> simp

/-! ## Matching -/

theorem groupMatch_sound (rl ug : List Str) (h : groupMatch rl ug = true) :
    (∃ g, g ∈ rl ∧ g ∈ ug) ∨ (star ∈ rl ∧ ug ≠ []) := by
  fun_induction groupMatch rl ug with
  | case1 => cases h
  | case2 => cases h
  | case3 g gs u us hs => exact Or.inr ⟨by rw [strcmp_eq hs]; simp, by simp⟩
  | case4 g gs u us hs hc ih =>
    rcases ih h with ⟨x, h1, h2⟩ | ⟨h1, h2⟩
    · exact Or.inl ⟨x, h1, List.mem_cons_of_mem _ h2⟩
    · exact Or.inr ⟨h1, by simp⟩
  | case5 g gs u us hs hc ih =>
    rcases ih h with ⟨x, h1, h2⟩ | ⟨h1, h2⟩
    · exact Or.inl ⟨x, List.mem_cons_of_mem _ h1, h2⟩
    · exact Or.inr ⟨List.mem_cons_of_mem _ h1, by simp⟩
  | case6 g gs u us hs hc => exact Or.inl ⟨g, by simp, by rw [strcmp_eq hc]; simp⟩

theorem groupMatch_common (rl ug : List Str) (hr : Sorted rl) (hu : Sorted ug) (x : Str)
    (h1 : x ∈ rl) (h2 : x ∈ ug) : groupMatch rl ug = true := by
  fun_induction groupMatch rl ug with
  | case1 => simp at h1
  | case2 => simp at h2
  | case3 => rfl
  | case4 g gs u us hs hc ih =>
    refine ih hr (List.pairwise_cons.mp hu).2 h1 ?_
    rcases List.mem_cons.mp h2 with rfl | h
    · exfalso
      rcases List.mem_cons.mp h1 with rfl | h'
      · rw [strcmp_refl] at hc; cases hc
      · exact (List.pairwise_cons.mp hr).1 x h' hc
    · exact h
  | case5 g gs u us hs hc ih =>
    refine ih (List.pairwise_cons.mp hr).2 hu ?_ h2
    rcases List.mem_cons.mp h1 with rfl | h
    · exfalso
      rcases List.mem_cons.mp h2 with rfl | h'
      · rw [strcmp_refl] at hc; cases hc
      · exact (List.pairwise_cons.mp hu).1 x h' ((strcmp_swap _ _).mpr hc)
    · exact h
  | case6 => rfl

/-- The wildcard is found if some group of the user is after all the groups of the rule list that
sort before the wildcard. -/
theorem groupMatch_star (rl ug : List Str) (hr : Sorted rl) (hu : Sorted ug) (h1 : star ∈ rl)
    (u0 : Str) (h2 : u0 ∈ ug) (h3 : ∀ g ∈ rl, strcmp g star = .lt → strcmp g u0 = .lt) :
    groupMatch rl ug = true := by
  fun_induction groupMatch rl ug with
  | case1 => simp at h1
  | case2 => simp at h2
  | case3 => rfl
  | case4 g gs u us hs hc ih =>
    refine ih hr (List.pairwise_cons.mp hu).2 h1 ?_ h3
    rcases List.mem_cons.mp h2 with rfl | h
    · exfalso
      rcases List.mem_cons.mp h1 with h | h
      · subst h; rw [strcmp_refl] at hs; exact hs rfl
      · have hle := (List.pairwise_cons.mp hr).1 star h
        rcases le_cases hle with hlt | he
        · have := h3 g (by simp) hlt
          rw [hc] at this; cases this
        · rw [he, strcmp_refl] at hs; exact hs rfl
    · exact h
  | case5 g gs u us hs hc ih =>
    refine ih (List.pairwise_cons.mp hr).2 hu ?_ h2 (fun x hx => h3 x (List.mem_cons_of_mem _ hx))
    rcases List.mem_cons.mp h1 with h | h
    · subst h; rw [strcmp_refl] at hs; exact absurd rfl hs
    · exact h
  | case6 => rfl

/-! ## C44 -/

/-- C44 (partial): after every sensible history of changes of the groups of a rule list, and for
every user with its NACM and system groups, the rule list applies to the user exactly if it names
a group of the user, or it names the wildcard and the user is in some group.
Hypothesis: no name in the rule list sorts before the wildcard (it would have to begin with one of
the characters ` !"#$%&'()`); without it the wildcard can be missed (`wildcard_missed`). -/
theorem rule_list_applies_partial (os : List Op) (groups : List Group) (sys : Option (List Str))
    (user : Str) (hv : validOps [] os)
    (hstar : ∀ g ∈ configured [] os, strcmp g star ≠ .lt) :
    ∃ l, run [] os = some l ∧
      (groupMatch l (collect groups sys user) = true ↔
        (∃ g ∈ configured [] os, memberOf groups sys user g) ∨
        (star ∈ configured [] os ∧ ∃ g, memberOf groups sys user g)) := by
  obtain ⟨l, h1, h2, h3⟩ := run_spec os [] [] List.Pairwise.nil (List.Perm.refl _) List.nodup_nil hv
  obtain ⟨h4, h5⟩ := collect_exact groups sys user
  refine ⟨l, h1, ?_⟩
  constructor
  · intro h
    rcases groupMatch_sound _ _ h with ⟨g, ha, hb⟩ | ⟨ha, hb⟩
    · exact Or.inl ⟨g, h3.mem_iff.mp ha, (h5 g).mp hb⟩
    · obtain ⟨g, hg⟩ := List.exists_mem_of_ne_nil _ hb
      exact Or.inr ⟨h3.mem_iff.mp ha, g, (h5 g).mp hg⟩
  · rintro (⟨g, ha, hb⟩ | ⟨ha, g, hb⟩)
    · exact groupMatch_common l _ h2 h4 g (h3.mem_iff.mpr ha) ((h5 g).mpr hb)
    · refine groupMatch_star l _ h2 h4 (h3.mem_iff.mpr ha) g ((h5 g).mpr hb) ?_
      intro x hx hlt
      exact absurd hlt (hstar x (h3.mem_iff.mp hx))

/-- C44: without the hypothesis on names, a rule list still applies whenever it names a group of
the user, and never applies to a user it does not name and without the wildcard. -/
theorem rule_list_named (os : List Op) (groups : List Group) (sys : Option (List Str))
    (user : Str) (hv : validOps [] os) :
    ∃ l, run [] os = some l ∧
      ((∃ g ∈ configured [] os, memberOf groups sys user g) →
        groupMatch l (collect groups sys user) = true) ∧
      (star ∉ configured [] os → (groupMatch l (collect groups sys user) = true ↔
        ∃ g ∈ configured [] os, memberOf groups sys user g)) := by
  obtain ⟨l, h1, h2, h3⟩ := run_spec os [] [] List.Pairwise.nil (List.Perm.refl _) List.nodup_nil hv
  obtain ⟨h4, h5⟩ := collect_exact groups sys user
  have hc : (∃ g ∈ configured [] os, memberOf groups sys user g) →
        groupMatch l (collect groups sys user) = true := by
    rintro ⟨g, ha, hb⟩
    exact groupMatch_common l _ h2 h4 g (h3.mem_iff.mpr ha) ((h5 g).mpr hb)
  refine ⟨l, h1, hc, fun hs => ⟨?_, hc⟩⟩
  intro h
  rcases groupMatch_sound _ _ h with ⟨g, ha, hb⟩ | ⟨ha, _⟩
  · exact ⟨g, h3.mem_iff.mp ha, (h5 g).mp hb⟩
  · exact absurd (h3.mem_iff.mp ha) hs

/-- C44, finding: a rule list with the groups `#ops` and `*` does not apply to a user of the group
`!x` although it has the wildcard. -/
theorem wildcard_missed :
    ∃ l, run [] [.add star, .add [35, 111]] = some l ∧ star ∈ l ∧
      collect [⟨[33, 120], [[117]]⟩] none [117] = [[33, 120]] ∧
      groupMatch l (collect [⟨[33, 120], [[117]]⟩] none [117]) = false := by
  refine ⟨[[35, 111], star], by decide, by decide, by decide, ?_⟩
  rw [show collect [⟨[33, 120], [[117]]⟩] none [117] = [[33, 120]] by decide]
  simp [groupMatch, strcmp, star]

/-- The hypotheses are met: groups `b`, `a`, `*` are added, `b` removed. -/
example : validOps [] [.add [98], .add [97], .add star, .del [98]] ∧
    (∀ g ∈ configured [] [.add [98], .add [97], .add star, .del [98]], strcmp g star ≠ .lt) ∧
    memberOf [⟨[97], [[117]]⟩] (some [[99]]) [117] [97] := by
  refine ⟨?_, by decide, Or.inl ⟨_, List.mem_singleton.mpr rfl, rfl, by simp⟩⟩
  simp only [validOps]
  decide
example : run [] [.add [98], .add [97], .add star, .del [98]] = some [star, [97]] := by decide
example : collect [⟨[97], [[117]]⟩, ⟨[98], [[118]]⟩] (some [[99], [97]]) [117] = [[97], [99]] := by decide

end Verif.NacmGroup
