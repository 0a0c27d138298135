import Verif.DepsLemmas3

/- Lemmas: applying changes is judging on all data; loading once. -/

namespace Verif.Deps

variable {D : Type} [DecidableEq D]

theorem changed_iff (L : Lib D) (cached : Bool) (ds : Nat → D) (nodes : List Nat) (app : Nat → D → D) :
    (editApply nodes app (consolidate L cached ds .req true { MI.init L with es := nodes.foldl (add false) [] })).es.any
      (·.changed) = true ↔ ∃ k ∈ nodes, app k (ds k) ≠ ds k := by
  have h := two_of (app := app) (one_of L cached ds nodes) (fun _ hk => hk)
  rw [List.any_eq_true]
  constructor
  · rintro ⟨e, he, hc⟩
    obtain ⟨_, _, c, _⟩ := h.ent e.m e (mem_look h.nodup he)
    exact ⟨e.m, c.1 hc⟩
  · rintro ⟨k, hk, hne⟩
    obtain ⟨e, he⟩ := look_some.2 ((h.all k).2 (.inl hk))
    exact ⟨e, look_mem he, (h.ent k e he).2.2.1.2 ⟨hk, hne⟩⟩

theorem edited_eq (ds : Nat → D) (nodes : List Nat) (app : Nat → D → D) (k : Nat)
    (h : ¬ (k ∈ nodes ∧ app k (ds k) ≠ ds k)) : edited ds nodes app k = ds k := by
  unfold edited
  split
  · rename_i hk
    exact Decidable.byContradiction fun hn => h ⟨hk, hn⟩
  · rfl

theorem apply_iff {L : Lib D} (hL : Laws L) (h1 : OneForeign L) (h2 : NoDefaults L) (cached : Bool) (ds : Nat → D)
    (nodes : List Nat) (app : Nat → D → D) (hch : ∃ k ∈ nodes, app k (ds k) ≠ ds k) :
    ∃ V, V.Pairwise (· < ·) ∧ (∀ k, k ∈ V ↔ Affected L ds nodes app k) ∧
      ∀ out, applyChanges L cached ds nodes app = some out ↔ Passes L ds nodes app V out := by
  have hr := ready_of L cached ds nodes nodes app (fun _ hk => hk)
  have hprep : prepare L cached ds nodes app (MI.init L) = prep L cached ds nodes nodes app := rfl
  have hap : applyChanges L cached ds nodes app =
      (let r := validate L selChanged true ds (prep L cached ds nodes nodes app)
       if r.2 then some fun k => if r.1.es.any (fun e => e.m = k && e.changed) then r.1.cur k else ds k
       else none) := by
    rw [← hprep]
    unfold applyChanges
    have := (changed_iff L cached ds nodes app).2 hch
    simp only [this, Bool.not_true, Bool.false_eq_true, if_false]
  generalize prep L cached ds nodes nodes app = mi at hr hap
  have hsel : ∀ e ∈ mi.es, selChanged e = true ↔ (e.m ∈ nodes ∧ app e.m (ds e.m) ≠ ds e.m) ∨ Inv L nodes e.m := by
    intro e he
    obtain ⟨_, b, c, _⟩ := hr.ent e he
    unfold selChanged
    rw [Bool.or_eq_true, b, c]
  have hcov : ∀ e ∈ mi.es, selChanged e = true → Covered L (keys mi.es) (edited ds nodes app) e.m := by
    intro e he hs
    exact covered_of hL h1 h2 (List.mem_map_of_mem he) (hr.deps e.m ((hsel e he).1 hs))
  obtain ⟨v1, v2, v3⟩ := validate_eq hL selChanged true ds hr hcov
  have hV : ∀ k, k ∈ keys (mi.es.filter selChanged) ↔ Affected L ds nodes app k := by
    intro k
    unfold Affected
    rw [← inv_iff h1]
    constructor
    · intro hk
      obtain ⟨e, he, rfl⟩ := List.mem_map.1 hk
      obtain ⟨he, hs⟩ := List.mem_filter.1 he
      exact (hsel e he).1 hs
    · intro hk
      have hkk : k ∈ keys mi.es := hr.all k (by
        rcases hk with hk | hk
        · exact .inl hk.1
        · exact .inr hk)
      obtain ⟨e, he, rfl⟩ := List.mem_map.1 hkk
      exact List.mem_map_of_mem (List.mem_filter.2 ⟨he, (hsel e he).2 hk⟩)
  refine ⟨keys (mi.es.filter selChanged), ?_, hV, ?_⟩
  · exact (sorted_lt hr.sorted hr.nodup).sublist (keys_filter_sublist _ _)
  · intro out
    rw [hap]
    simp only
    generalize hq : firstPass L (keys (mi.es.filter selChanged)) (edited ds nodes app) = q at v1 v2 v3
    have hout : ∀ k, k ∉ keys (mi.es.filter selChanged) → q.1 k = ds k := by
      intro k hk
      rw [← hq, firstPass_other _ _ _ _ hk]
      apply edited_eq
      intro hc
      exact hk ((hV k).2 (.inl hc))
    -- the changed flags
    have hch' : ∀ e ∈ mi.es, ((if selChanged e = true ∧ true = true ∧ q.1 e.m ≠ edited ds nodes app e.m then
          { e with changed := decide (q.1 e.m ≠ ds e.m) } else e : Ent).changed = true ↔ q.1 e.m ≠ ds e.m) := by
      intro e he
      obtain ⟨_, b, c, _⟩ := hr.ent e he
      by_cases hs : selChanged e = true ∧ true = true ∧ q.1 e.m ≠ edited ds nodes app e.m
      · rw [if_pos hs]
        simp
      · rw [if_neg hs, c]
        by_cases hs' : selChanged e = true
        · have hqe : q.1 e.m = edited ds nodes app e.m := by
            refine Decidable.byContradiction fun hn => hs ⟨hs', rfl, hn⟩
          rw [hqe]
          constructor
          · rintro ⟨hn, ha⟩
            unfold edited
            rw [if_pos hn]
            exact ha
          · intro hne
            refine Decidable.byContradiction fun hn => hne (edited_eq ds nodes app e.m hn)
        · have : ¬ (e.m ∈ nodes ∧ app e.m (ds e.m) ≠ ds e.m) := fun h => hs' ((hsel e he).2 (.inl h))
          simp only [this, false_iff, ne_eq, Decidable.not_not]
          apply hout
          intro hk
          have := (hV e.m).1 hk
          unfold Affected at this
          rw [← inv_iff h1] at this
          exact hs' ((hsel e he).2 this)
    have hm' : ∀ e : Ent, (if selChanged e = true ∧ true = true ∧ q.1 e.m ≠ edited ds nodes app e.m then
          { e with changed := decide (q.1 e.m ≠ ds e.m) } else e : Ent).m = e.m := by
      intro e
      split <;> rfl
    have hi' : ∀ e : Ent, (if selChanged e = true ∧ true = true ∧ q.1 e.m ≠ edited ds nodes app e.m then
          { e with changed := decide (q.1 e.m ≠ ds e.m) } else e : Ent).inv = e.inv := by
      intro e
      split <;> rfl
    have hstore : (fun k => if (validate L selChanged true ds mi).1.es.any (fun e => e.m = k && e.changed) then
        (validate L selChanged true ds mi).1.cur k else ds k) = q.1 := by
      funext k
      by_cases hk : (validate L selChanged true ds mi).1.es.any (fun e => e.m = k && e.changed) = true
      · rw [if_pos hk]
        rw [v1, List.any_eq_true] at hk
        obtain ⟨x, hx, hxk⟩ := hk
        obtain ⟨e, he, rfl⟩ := List.mem_map.1 hx
        rw [hm'] at hxk
        simp only [Bool.and_eq_true, decide_eq_true_eq] at hxk
        exact v2 k (hxk.1 ▸ List.mem_map_of_mem he)
      · rw [if_neg hk]
        refine Decidable.byContradiction fun hne => hk ?_
        have hkV : k ∈ keys (mi.es.filter selChanged) :=
          Decidable.byContradiction fun hn => hne (hout k hn).symm
        obtain ⟨e, he, rfl⟩ := List.mem_map.1 hkV
        have he' := (List.mem_filter.1 he).1
        rw [v1, List.any_eq_true]
        refine ⟨_, List.mem_map_of_mem he', ?_⟩
        rw [hm', Bool.and_eq_true]
        exact ⟨by simp, (hch' e he').2 (fun h => hne h.symm)⟩
    rw [hstore, v3]
    have hall : ((mi.es.map (fun e => if selChanged e = true ∧ true = true ∧ q.1 e.m ≠ edited ds nodes app e.m then
          { e with changed := decide (q.1 e.m ≠ ds e.m) } else e)).all fun e => !selChanged e || L.okEnd e.m q.1) = true ↔
        ∀ k ∈ keys (mi.es.filter selChanged), (q.1 k = ds k ∧ ¬ (k ∈ L.mods ∧ ∃ t ∈ nodes, t ≠ k ∧ t ∈ statics L k)) ∨
          L.okEnd k q.1 = true := by
      have hone : ∀ e ∈ mi.es, (selChanged (if selChanged e = true ∧ true = true ∧ q.1 e.m ≠ edited ds nodes app e.m then
          { e with changed := decide (q.1 e.m ≠ ds e.m) } else e) = false ↔
          q.1 e.m = ds e.m ∧ ¬ (e.m ∈ L.mods ∧ ∃ t ∈ nodes, t ≠ e.m ∧ t ∈ statics L e.m)) := by
        intro e he
        obtain ⟨_, b, _, _⟩ := hr.ent e he
        rw [← inv_iff h1, ← b]
        rw [← Bool.not_eq_true]
        unfold selChanged at hch' hi' ⊢
        rw [Bool.or_eq_true, hch' e he, hi']
        simp only [ne_eq, not_or, Decidable.not_not, Bool.not_eq_true]
      rw [List.all_eq_true]
      constructor
      · intro h k hk
        obtain ⟨e, he, rfl⟩ := List.mem_map.1 hk
        have he' := (List.mem_filter.1 he).1
        have := h _ (List.mem_map_of_mem he')
        rw [hm', Bool.or_eq_true, Bool.not_eq_true', hone e he'] at this
        exact this
      · intro h x hx
        obtain ⟨e, he, rfl⟩ := List.mem_map.1 hx
        rw [hm', Bool.or_eq_true, Bool.not_eq_true', hone e he]
        by_cases hk : e.m ∈ keys (mi.es.filter selChanged)
        · exact h e.m hk
        · refine .inl ⟨hout _ hk, ?_⟩
          intro hi
          exact hk ((hV e.m).2 (.inr hi))
    constructor
    · intro h
      split at h
      · rename_i hb
        have ho : q.1 = out := Option.some.inj h
        rw [Bool.and_eq_true, hall] at hb
        refine ⟨?_, ?_⟩
        · show firstPass L _ (edited ds nodes app) = _
          rw [hq, ← ho, ← hb.1]
        · rw [← ho]
          exact hb.2
      · cases h
    · rintro ⟨hf, hfin⟩
      have hf' : firstPass L (keys (mi.es.filter selChanged)) (edited ds nodes app) = (out, true) := hf
      rw [hq] at hf'
      rw [if_pos]
      · rw [hf']
      · rw [Bool.and_eq_true, hall, hf']
        exact ⟨rfl, hfin⟩

/-- Data are loaded at most once. -/
def Once (es : List Ent) : Prop := ∀ e ∈ es, e.loads = 0 ∨ (e.loads = 1 ∧ e.data = true)

theorem once_upd {m : Nat} {f : Ent → Ent} (hf : ∀ e, (f e).loads = e.loads ∧ (f e).data = e.data) {es : List Ent}
    (h : Once es) : Once (upd m f es) := by
  intro x hx
  obtain ⟨e, he, rfl⟩ := List.mem_map.1 hx
  split
  · rw [(hf e).1, (hf e).2]
    exact h e he
  · exact h e he

theorem once_append {es : List Ent} {e : Ent} (h : Once es) (he : e.loads = 0) : Once (es ++ [e]) := by
  intro x hx
  rcases List.mem_append.1 hx with hx | hx
  · exact h x hx
  · cases List.mem_singleton.1 hx
    exact .inl he

theorem once_add (xp : Bool) {es : List Ent} (m : Nat) (h : Once es) : Once (add xp es m) := by
  unfold add
  split
  · exact once_upd (by intro e; split <;> exact ⟨rfl, rfl⟩) h
  · exact once_append h rfl

theorem as_data (e : Ent) (ty : Ty) : (e.as ty).loads = e.loads ∧ (e.as ty).data = e.data := by
  cases ty <;> exact ⟨rfl, rfl⟩

theorem once_new (ty : Ty) {es : List Ent} (m : Nat) (h : Once es) : Once (modNew ty es m) := by
  unfold modNew
  split
  · exact once_upd (by intro e; exact as_data e ty) h
  · exact once_append h (as_data _ ty).1

theorem once_foldl {α : Type} {op : List Ent → α → List Ent} (ho : ∀ es a, Once es → Once (op es a)) (l : List α) :
    ∀ es, Once es → Once (l.foldl op es) := by
  induction l with
  | nil => intro es h; exact h
  | cons a l ih => intro es h; exact ih _ (ho es a h)

theorem once_load (ds : Nat → D) {mi : MI D} (h : Once mi.es) : Once (load true ds mi).es := by
  intro x hx
  obtain ⟨e, he, rfl⟩ := List.mem_map.1 hx
  have := h e he
  split
  · exact this
  · rename_i hd
    rcases this with h0 | h1
    · exact .inr ⟨by simp [h0], by simp⟩
    · exact absurd h1.2 hd

theorem once_consolidate (L : Lib D) (ds : Nat → D) (ty : Ty) (inv : Bool) {mi : MI D} (h : Once mi.es) :
    Once (consolidate L true ds ty inv mi).es := by
  unfold consolidate
  split
  · exact h
  · apply once_load
    intro e he
    have he' := (sort_perm _).mem_iff.1 he
    have hb : Once ((mi.es.filter (·.new)).foldl (fun es e => modNew ty es e.m) mi.es) :=
      once_foldl (fun es e h => once_new ty e.m h) _ _ h
    revert he'
    split
    · exact fun he' => once_foldl (fun es e h => once_foldl (fun es a h => once_new .inv a h) _ _ h) _ _ hb e he'
    · exact fun he' => hb e he'

theorem once_edit (nodes : List Nat) (app : Nat → D → D) {mi : MI D} (h : Once mi.es) : Once (editApply nodes app mi).es := by
  intro x hx
  obtain ⟨e, he, rfl⟩ := List.mem_map.1 hx
  have := h e he
  split <;> exact this

theorem once_collect (L : Lib D) {mi : MI D} (h : Once mi.es) : Once (collectDeps L mi).es := by
  unfold collectDeps
  refine once_foldl (fun es e h => once_foldl (fun es d h => ?_) _ _ h) _ _ h
  rw [collectDep_eq]
  exact once_foldl (fun es a h => once_add true a h) _ _ h

theorem once_pass1 (L : Lib D) (sel : Ent → Bool) (fin : Bool) (ds : Nat → D) : ∀ (es : List Ent) (cur : Nat → D), Once es →
    Once (pass1 L sel fin ds es cur).1 := by
  intro es
  induction es with
  | nil => intro cur h; exact h
  | cons e l ih =>
    intro cur h
    have hl : Once l := fun x hx => h x (List.mem_cons_of_mem _ hx)
    have he := h e List.mem_cons_self
    rw [pass1]
    split
    · intro x hx
      rcases List.mem_cons.1 hx with rfl | hx
      · split <;> exact he
      · exact ih _ hl x hx
    · intro x hx
      rcases List.mem_cons.1 hx with rfl | hx
      · exact he
      · exact ih _ hl x hx

theorem once_prepare (L : Lib D) (ds : Nat → D) (nodes : List Nat) (app : Nat → D → D) {mi : MI D} (h : Once mi.es) :
    Once (prepare L true ds nodes app mi).es := by
  unfold prepare
  apply once_consolidate
  apply once_collect
  apply once_edit
  apply once_consolidate
  exact once_foldl (fun es a h => once_add false a h) _ _ h

/-- The first pass does not depend on whether the diff is finished, except for the flags. -/
theorem pass1_fin (L : Lib D) (sel : Ent → Bool) (ds : Nat → D) : ∀ (es : List Ent) (cur : Nat → D),
    (pass1 L sel true ds es cur).2 = (pass1 L sel false ds es cur).2 ∧ (pass1 L sel false ds es cur).1 = es := by
  intro es
  induction es with
  | nil => intro cur; exact ⟨rfl, rfl⟩
  | cons e l ih =>
    intro cur
    rw [pass1, pass1]
    split
    · obtain ⟨h1, h2⟩ := ih (set cur e.m (L.fix e.m cur))
      simp only [h1, Bool.false_and, Bool.false_eq_true, if_false, h2, and_self]
    · obtain ⟨h1, h2⟩ := ih cur
      simp only [h1, h2, and_self]

end Verif.Deps
