import Verif.DepsLemmas

/- Lemmas: the modules, their types and data when they are validated. -/

namespace Verif.Deps

variable {D : Type} [DecidableEq D]

/-- The modules required by a dependency. -/
def wants (own : D) : Dep D → List Nat
  | .lref t => [t]
  | .inst i => match i.vals own with
    | [] => i.dflt.toList
    | t :: ts => t :: ts
  | .xpath ts => ts

theorem collectDep_eq (own : D) (es : List Ent) (d : Dep D) :
    collectDep own es d = (wants own d).foldl (add true) es := by
  cases d with
  | lref t => rfl
  | inst i =>
    unfold collectDep wants
    cases h : i.vals own with
    | nil =>
      cases h2 : i.dflt <;> simp [h, h2]
    | cons t ts => simp [h]
  | xpath ts => rfl

/-- Requiring modules, applying an edit and adding dependencies. -/
def prep (L : Lib D) (cached : Bool) (ds : Nat → D) (R nodes : List Nat) (app : Nat → D → D) : MI D :=
  let mi := consolidate L cached ds .req true { MI.init L with es := R.foldl (add false) [] }
  let mi := editApply nodes app mi
  consolidate L cached ds .dep false (collectDeps L mi)

/-- Depends on a required module. -/
def Inv (L : Lib D) (R : List Nat) (k : Nat) : Prop := ∃ t ∈ R, k ∈ invDeps L t

/-- After the first step. -/
structure One (L : Lib D) (ds : Nat → D) (R : List Nat) (mi : MI D) : Prop where
  nodup : (keys mi.es).Nodup
  sorted : (keys mi.es).Pairwise (· ≤ ·)
  all : ∀ k, k ∈ keys mi.es ↔ k ∈ R ∨ Inv L R k
  ent : ∀ k e, look mi.es k = some e → (e.req = true ↔ k ∈ R) ∧ (e.inv = true ↔ Inv L R k) ∧ e.changed = false ∧
    e.loads = 1 ∧ e.data = true ∧ e.new = false
  cur : ∀ k ∈ keys mi.es, mi.cur k = ds k

theorem consolidate_nothing (L : Lib D) (cached : Bool) (ds : Nat → D) (ty : Ty) (inv : Bool) (mi : MI D)
    (h : mi.es.any (·.new) = false) : consolidate L cached ds ty inv mi = mi := by
  unfold consolidate
  simp [h]

theorem one_of (L : Lib D) (cached : Bool) (ds : Nat → D) (R : List Nat) :
    One L ds R (consolidate L cached ds .req true { MI.init L with es := R.foldl (add false) [] }) := by
  have hl0 : ∀ k, look (R.foldl (add false) []) k = if k ∈ R then some { m := k, new := true } else none := by
    intro k
    rw [look_adds]
    rfl
  have hn0 : (keys (R.foldl (add false) [])).Nodup := nodup_adds _ _ _ List.nodup_nil
  cases hR : R with
  | nil =>
    rw [consolidate_nothing]
    · refine ⟨List.nodup_nil, .nil, ?_, ?_, ?_⟩
      · intro k
        simp [keys, Inv]
      · intro k e h
        cases h
      · intro k hk
        cases hk
    · rfl
  | cons r R' =>
    rw [← hR]
    have hnew : (R.foldl (add false) []).any (·.new) = true := by
      have hr := hl0 r
      rw [if_pos (by rw [hR]; exact List.mem_cons_self)] at hr
      exact List.any_eq_true.2 ⟨_, look_mem hr, rfl⟩
    obtain ⟨es1, es2, h1, h2, hn2, hes, hcur⟩ := look_consolidate L cached ds .req true
      { MI.init L with es := R.foldl (add false) [] } hn0 hnew
    have l1 : ∀ k, look es1 k = if k ∈ R then some { m := k, req := true } else none := by
      intro k
      rw [h1]
      show (if (∃ e, look (R.foldl (add false) []) k = some e ∧ e.new = true) then
        (look (R.foldl (add false) []) k).map _ else look (R.foldl (add false) []) k) = _
      rw [hl0]
      by_cases hk : k ∈ R
      · simp only [if_pos hk]
        rw [if_pos ⟨_, rfl, rfl⟩]
        rfl
      · simp only [if_neg hk]
        rw [if_neg]
        rintro ⟨e, he, _⟩
        cases he
    have hI : ∀ k, (∃ t e, look es1 t = some e ∧ e.req = true ∧ k ∈ invDeps L t) ↔ Inv L R k := by
      intro k
      constructor
      · rintro ⟨t, e, he, _, hk⟩
        rw [l1] at he
        split at he
        · rename_i ht
          exact ⟨t, ht, hk⟩
        · cases he
      · rintro ⟨t, ht, hk⟩
        exact ⟨t, _, by rw [l1, if_pos ht], rfl, hk⟩
    have h2p : ∀ k, Inv L R k → look es2 k = some (newO .inv k (look es1 k)) := by
      intro k hi
      rw [h2, if_pos ⟨rfl, (hI k).2 hi⟩]
    have h2n : ∀ k, ¬ Inv L R k → look es2 k = look es1 k := by
      intro k hi
      rw [h2, if_neg (fun h => hi ((hI k).1 h.2))]
    have l2 : ∀ k e, look es2 k = some e → (e.req = true ↔ k ∈ R) ∧ (e.inv = true ↔ Inv L R k) ∧ e.changed = false ∧
        e.loads = 0 ∧ e.data = false ∧ e.new = false ∧ e.xp = false := by
      intro k e he
      by_cases hi : Inv L R k
      · rw [h2p k hi, l1] at he
        by_cases hk : k ∈ R
        · rw [if_pos hk] at he
          cases he
          simp [newO, Ent.as, hi, hk]
        · rw [if_neg hk] at he
          cases he
          simp [newO, Ent.as, hi, hk]
      · rw [h2n k hi, l1] at he
        by_cases hk : k ∈ R
        · rw [if_pos hk] at he
          cases he
          simp [hi, hk]
        · rw [if_neg hk] at he
          cases he
    have k2 : ∀ k, k ∈ keys es2 ↔ k ∈ R ∨ Inv L R k := by
      intro k
      rw [← look_some]
      by_cases hi : Inv L R k
      · rw [h2p k hi]
        simp [hi]
      · rw [h2n k hi, l1]
        by_cases hk : k ∈ R <;> simp [hi, hk]
    have hf : ∀ e : Ent, (if e.data then e else { e with data := cached || !e.xp, loads := e.loads + 1 } : Ent).m = e.m := by
      intro e
      split <;> rfl
    have hke : (keys (consolidate L cached ds .req true { MI.init L with es := R.foldl (add false) [] }).es) = keys (sort es2) := by
      rw [hes, keys_map hf]
    refine ⟨?_, ?_, ?_, ?_, ?_⟩
    · rw [hke]
      exact nodup_sort hn2
    · rw [hke]
      exact sort_sorted es2
    · intro k
      rw [hke, (keys_sort es2).mem_iff]
      exact k2 k
    · intro k e he
      rw [hes, look_map hf, look_perm (sort_perm es2) hn2] at he
      cases he2 : look es2 k with
      | none => rw [he2] at he; cases he
      | some x =>
        rw [he2] at he
        cases he
        obtain ⟨a, b, c, d, f, g, x⟩ := l2 k x he2
        simp [f, x, d, a, b, c, g]
    · intro k hk
      rw [hke, (keys_sort es2).mem_iff, ← look_some] at hk
      obtain ⟨e, he⟩ := hk
      rw [hcur]
      simp only
      rw [if_pos ⟨e, he, (l2 k e he).2.2.2.2.1⟩]

/-- After the edit. -/
structure Two (L : Lib D) (ds : Nat → D) (R nodes : List Nat) (app : Nat → D → D) (mi : MI D) : Prop where
  nodup : (keys mi.es).Nodup
  sorted : (keys mi.es).Pairwise (· ≤ ·)
  all : ∀ k, k ∈ keys mi.es ↔ k ∈ R ∨ Inv L R k
  ent : ∀ k e, look mi.es k = some e → (e.req = true ↔ k ∈ R) ∧ (e.inv = true ↔ Inv L R k) ∧
    (e.changed = true ↔ k ∈ nodes ∧ app k (ds k) ≠ ds k) ∧ e.loads = 1 ∧ e.data = true ∧ e.new = false
  cur : ∀ k ∈ keys mi.es, mi.cur k = edited ds nodes app k

theorem two_of {L : Lib D} {ds : Nat → D} {R nodes : List Nat} {app : Nat → D → D} {mi : MI D} (h : One L ds R mi)
    (hs : ∀ k ∈ nodes, k ∈ R) : Two L ds R nodes app (editApply nodes app mi) := by
  have ht : (nodes.takeWhile fun n => mi.es.any fun e => e.m = n) = nodes := by
    have : ∀ (l : List Nat) (p : Nat → Bool), (∀ k ∈ l, p k = true) → l.takeWhile p = l := by
      intro l p
      induction l with
      | nil => intro _; rfl
      | cons x l ih =>
        intro hp
        rw [List.takeWhile_cons, hp x List.mem_cons_self, ih fun k hk => hp k (List.mem_cons_of_mem _ hk)]
        rfl
    apply this
    intro k hk
    rw [any_keys]
    exact (h.all k).2 (.inl (hs k hk))
  have hes : (editApply nodes app mi).es = mi.es.map fun e =>
      if e.m ∈ nodes ∧ app e.m (mi.cur e.m) ≠ mi.cur e.m then { e with changed := true } else e := by
    unfold editApply
    rw [ht]
  have hcur : (editApply nodes app mi).cur = fun k => if k ∈ nodes then app k (mi.cur k) else mi.cur k := by
    unfold editApply
    rw [ht]
  have hf : ∀ e : Ent, (if e.m ∈ nodes ∧ app e.m (mi.cur e.m) ≠ mi.cur e.m then { e with changed := true } else e : Ent).m = e.m := by
    intro e
    split <;> rfl
  have hk : keys (editApply nodes app mi).es = keys mi.es := by rw [hes, keys_map hf]
  refine ⟨hk ▸ h.nodup, hk ▸ h.sorted, by intro k; rw [hk]; exact h.all k, ?_, ?_⟩
  · intro k e he
    rw [hes, look_map hf] at he
    cases he2 : look mi.es k with
    | none => rw [he2] at he; cases he
    | some x =>
      rw [he2] at he
      have hm := look_m he2
      have hc : mi.cur k = ds k := h.cur k (look_some.1 ⟨x, he2⟩)
      obtain ⟨a, b, c, d, f, g⟩ := h.ent k x he2
      simp only [Option.map_some, Option.some.injEq, hm, hc] at he
      by_cases hx : k ∈ nodes ∧ app k (ds k) ≠ ds k
      · rw [if_pos hx] at he
        subst he
        exact ⟨a, b, by simp only [hx, true_iff, ne_eq, not_false_eq_true, and_self], d, f, g⟩
      · rw [if_neg hx] at he
        subst he
        exact ⟨a, b, by simp only [c, hx]; simp, d, f, g⟩
  · intro k hk'
    rw [hk] at hk'
    rw [hcur]
    simp only [h.cur k hk']
    rfl

/-- Before the validation. -/
structure Ready (L : Lib D) (ds : Nat → D) (R nodes : List Nat) (app : Nat → D → D) (mi : MI D) : Prop where
  nodup : (keys mi.es).Nodup
  sorted : (keys mi.es).Pairwise (· ≤ ·)
  all : ∀ k, k ∈ R ∨ Inv L R k → k ∈ keys mi.es
  ent : ∀ e ∈ mi.es, (e.req = true ↔ e.m ∈ R) ∧ (e.inv = true ↔ Inv L R e.m) ∧
    (e.changed = true ↔ e.m ∈ nodes ∧ app e.m (ds e.m) ≠ ds e.m) ∧ e.loads = 1
  cur : ∀ k ∈ keys mi.es, mi.cur k = edited ds nodes app k
  deps : ∀ k, (k ∈ nodes ∧ app k (ds k) ≠ ds k) ∨ Inv L R k → ∀ d ∈ depsOf L k, ∀ t ∈ wants (edited ds nodes app k) d,
    t ∈ keys mi.es

theorem ready_of (L : Lib D) (cached : Bool) (ds : Nat → D) (R nodes : List Nat) (app : Nat → D → D)
    (hs : ∀ k ∈ nodes, k ∈ R) : Ready L ds R nodes app (prep L cached ds R nodes app) := by
  have h := two_of (app := app) (one_of L cached ds R) hs
  unfold prep
  simp only
  generalize editApply nodes app (consolidate L cached ds .req true { MI.init L with es := R.foldl (add false) [] }) = mi at h
  let W := (mi.es.filter fun e => (e.req && e.changed) || e.inv).flatMap fun e => (depsOf L e.m).flatMap (wants (mi.cur e.m))
  have hW : collectDeps L mi = { mi with es := W.foldl (add true) mi.es } := by
    unfold collectDeps
    simp only [MI.mk.injEq, and_true]
    show _ = List.foldl (add true) mi.es (List.flatMap _ _)
    rw [← foldl_flat]
    congr 1
    funext es e
    rw [← foldl_flat]
    congr 1
    funext es d
    exact collectDep_eq _ _ _
  have hWm : ∀ k, (k ∈ nodes ∧ app k (ds k) ≠ ds k) ∨ Inv L R k → ∀ d ∈ depsOf L k, ∀ t ∈ wants (edited ds nodes app k) d,
      t ∈ W := by
    intro k hk d hd t ht
    have hkk : k ∈ keys mi.es := (h.all k).2 (by
      rcases hk with hk | hk
      · exact .inl (hs k hk.1)
      · exact .inr hk)
    obtain ⟨e, he⟩ := look_some.2 hkk
    obtain ⟨a, b, c, _, _, _⟩ := h.ent k e he
    have hm := look_m he
    refine List.mem_flatMap.2 ⟨e, List.mem_filter.2 ⟨look_mem he, ?_⟩, ?_⟩
    · rcases hk with hk | hk
      · have hr := a.2 (hs k hk.1)
        have hc := c.2 hk
        simp [hr, hc]
      · have := b.2 hk
        simp [this]
    · rw [hm]
      refine List.mem_flatMap.2 ⟨d, hd, ?_⟩
      rw [h.cur k hkk]
      exact ht
  rw [hW]
  have hl : ∀ k, look (W.foldl (add true) mi.es) k = if k ∈ W then some (addO true k (look mi.es k)) else look mi.es k :=
    look_adds true W mi.es
  have hn3 : (keys (W.foldl (add true) mi.es)).Nodup := nodup_adds _ _ _ h.nodup
  have hk3 : ∀ k, k ∈ keys (W.foldl (add true) mi.es) ↔ k ∈ W ∨ k ∈ keys mi.es := by
    intro k
    rw [← look_some, hl, ← look_some]
    by_cases hk : k ∈ W <;> simp [hk]
  have ent3 : ∀ k e, look (W.foldl (add true) mi.es) k = some e →
      (e.req = true ↔ k ∈ R) ∧ (e.inv = true ↔ Inv L R k) ∧ (e.changed = true ↔ k ∈ nodes ∧ app k (ds k) ≠ ds k) ∧
      (k ∈ keys mi.es → e.loads = 1 ∧ e.data = true) ∧ (k ∉ keys mi.es → e.loads = 0 ∧ e.data = false ∧ e.new = true) := by
    intro k e he
    rw [hl] at he
    cases hx : look mi.es k with
    | none =>
      have hnk := look_none.1 hx
      have hno : ¬ (k ∈ R ∨ Inv L R k) := fun hk => hnk ((h.all k).2 hk)
      have hnn : k ∉ nodes := fun hk => hno (.inl (hs k hk))
      rw [hx] at he
      split at he
      · cases he
        simp only [addO]
        exact ⟨by simp; exact fun hk => hno (.inl hk), by simp; exact fun hk => hno (.inr hk), by simp [hnn],
          fun hk => absurd hk hnk, by simp⟩
      · cases he
    | some x =>
      have hkk := look_some.1 ⟨x, hx⟩
      obtain ⟨a, b, c, d, f, g⟩ := h.ent k x hx
      rw [hx] at he
      split at he
      · cases he
        simp only [addO]
        split
        · exact ⟨a, b, c, fun _ => ⟨d, f⟩, fun hk => absurd hkk hk⟩
        · exact ⟨a, b, c, fun _ => ⟨d, f⟩, fun hk => absurd hkk hk⟩
      · cases he
        exact ⟨a, b, c, fun _ => ⟨d, f⟩, fun hk => absurd hkk hk⟩
  have hcurN : ∀ k, k ∉ keys mi.es → k ∉ nodes := by
    intro k hk hn
    exact hk ((h.all k).2 (.inl (hs k hn)))
  cases hnew : (W.foldl (add true) mi.es).any (·.new) with
  | false =>
    rw [consolidate_nothing _ _ _ _ _ _ hnew]
    -- nothing is added
    have hsub : ∀ k, k ∈ keys (W.foldl (add true) mi.es) → k ∈ keys mi.es := by
      intro k hk
      refine Decidable.byContradiction fun hnk => ?_
      obtain ⟨e, he⟩ := look_some.2 hk
      have := ((ent3 k e he).2.2.2.2 hnk).2.2
      have h' : (W.foldl (add true) mi.es).any (·.new) = true := List.any_eq_true.2 ⟨e, look_mem he, this⟩
      rw [hnew] at h'
      cases h'
    have hks : keys (W.foldl (add true) mi.es) = keys mi.es := by
      have : ∀ (W : List Nat) (es : List Ent), (∀ k ∈ W, k ∈ keys es) → keys (W.foldl (add true) es) = keys es := by
        intro W
        induction W with
        | nil => intro es _; rfl
        | cons w W ih =>
          intro es hw
          have h1 : keys (add true es w) = keys es := by
            unfold add
            rw [if_pos ((any_keys es w).2 (hw w List.mem_cons_self))]
            unfold upd
            rw [keys_map (by intro e; dsimp only; (repeat' split) <;> rfl)]
          rw [List.foldl_cons, ih _ (by intro k hk; rw [h1]; exact hw k (List.mem_cons_of_mem _ hk)), h1]
      exact this W mi.es (fun k hk => hsub k ((hk3 k).2 (.inl hk)))
    refine ⟨hn3, ?_, ?_, ?_, ?_, ?_⟩
    · show (keys (W.foldl (add true) mi.es)).Pairwise _
      rw [hks]
      exact h.sorted
    · intro k hk
      show k ∈ keys (W.foldl (add true) mi.es)
      rw [hks]
      exact (h.all k).2 hk
    · intro e he
      have hl' := mem_look hn3 he
      obtain ⟨a, b, c, d, _⟩ := ent3 e.m e hl'
      exact ⟨a, b, c, (d (hsub _ (look_some.1 ⟨e, hl'⟩))).1⟩
    · intro k hk
      exact h.cur k (hsub k hk)
    · intro k hk d hd t ht
      exact (hk3 t).2 (.inl (hWm k hk d hd t ht))
  | true =>
    obtain ⟨es1, es2, h1, h2, hn2, hes, hcur⟩ := look_consolidate L cached ds .dep false
      { mi with es := W.foldl (add true) mi.es } hn3 hnew
    have h12 : ∀ k, look es2 k = look es1 k := by
      intro k
      rw [h2]
      simp
    have ent4 : ∀ k e, look es2 k = some e →
        (e.req = true ↔ k ∈ R) ∧ (e.inv = true ↔ Inv L R k) ∧ (e.changed = true ↔ k ∈ nodes ∧ app k (ds k) ≠ ds k) ∧
        (k ∈ keys mi.es → e.loads = 1 ∧ e.data = true) ∧ (k ∉ keys mi.es → e.loads = 0 ∧ e.data = false) := by
      intro k e he
      rw [h12, h1] at he
      simp only at he
      split at he
      · cases hx : look (W.foldl (add true) mi.es) k with
        | none => rw [hx] at he; cases he
        | some x =>
          rw [hx] at he
          cases he
          obtain ⟨a, b, c, d, f⟩ := ent3 k x hx
          exact ⟨a, b, c, d, fun hk => ⟨(f hk).1, (f hk).2.1⟩⟩
      · obtain ⟨a, b, c, d, f⟩ := ent3 k e he
        exact ⟨a, b, c, d, fun hk => ⟨(f hk).1, (f hk).2.1⟩⟩
    have k4 : ∀ k, k ∈ keys es2 ↔ k ∈ W ∨ k ∈ keys mi.es := by
      intro k
      rw [← hk3, ← look_some, ← look_some, h12, h1]
      simp only
      split
      · cases look (W.foldl (add true) mi.es) k <;> simp
      · rfl
    have hf : ∀ e : Ent, (if e.data then e else { e with data := cached || !e.xp, loads := e.loads + 1 } : Ent).m = e.m := by
      intro e
      split <;> rfl
    have hke : keys (consolidate L cached ds .dep false { mi with es := W.foldl (add true) mi.es }).es = keys (sort es2) := by
      rw [hes, keys_map hf]
    have hmem : ∀ k, k ∈ keys (consolidate L cached ds .dep false { mi with es := W.foldl (add true) mi.es }).es ↔
        k ∈ W ∨ k ∈ keys mi.es := by
      intro k
      rw [hke, (keys_sort es2).mem_iff, k4]
    refine ⟨?_, ?_, ?_, ?_, ?_, ?_⟩
    · rw [hke]
      exact nodup_sort hn2
    · rw [hke]
      exact sort_sorted es2
    · intro k hk
      rw [hmem]
      exact .inr ((h.all k).2 hk)
    · intro e he
      rw [hes] at he
      obtain ⟨x, hx, rfl⟩ := List.mem_map.1 he
      have hlx := mem_look hn2 ((sort_perm es2).mem_iff.1 hx)
      obtain ⟨a, b, c, d, f⟩ := ent4 x.m x hlx
      by_cases hk : x.m ∈ keys mi.es
      · obtain ⟨d1, d2⟩ := d hk
        simp only [d2, if_true]
        exact ⟨a, b, c, d1⟩
      · obtain ⟨f1, f2⟩ := f hk
        simp only [f2, Bool.false_eq_true, if_false]
        exact ⟨a, b, c, by omega⟩
    · intro k hk
      rw [hke, (keys_sort es2).mem_iff, ← look_some] at hk
      obtain ⟨e, he⟩ := hk
      obtain ⟨_, _, _, d, f⟩ := ent4 k e he
      rw [hcur]
      simp only
      by_cases hkm : k ∈ keys mi.es
      · rw [if_neg]
        · exact h.cur k hkm
        · rintro ⟨e', he', hd⟩
          rw [he] at he'
          cases he'
          rw [(d hkm).2] at hd
          cases hd
      · rw [if_pos ⟨e, he, (f hkm).2⟩]
        unfold edited
        rw [if_neg (hcurN k hkm)]
    · intro k hk d hd t ht
      rw [hmem]
      exact .inl (hWm k hk d hd t ht)

end Verif.Deps
