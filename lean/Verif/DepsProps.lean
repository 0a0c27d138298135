import Verif.DepsLemmas4

/- Properties: C81 (applied changes leave a valid datastore), C82 (changes are judged on complete data), C83
(sr_validate says what applying does), C84 (data are loaded once). -/

namespace Verif.Deps

variable {D : Type} [DecidableEq D]

/-- C82: an edit that changes something is stored exactly if all modules that it changes or that refer to its
modules pass the validation with all data of the datastore at hand, even though only some modules are loaded;
what is stored are the data that result. This holds when every leafref path has nodes of at most one other
module and no default instance-identifier is added next to an existing one; without these it is false, see
`default_rejected` and `second_module_dangling`. -/
theorem judged_on_all_data_partial {L : Lib D} (hL : Laws L) (h1 : OneForeign L) (h2 : NoDefaults L) (cached : Bool)
    (ds : Nat → D) (nodes : List Nat) (app : Nat → D → D) (hch : ∃ k ∈ nodes, app k (ds k) ≠ ds k) :
    ∃ V, V.Pairwise (· < ·) ∧ (∀ k, k ∈ V ↔ Affected L ds nodes app k) ∧
      ∀ out, applyChanges L cached ds nodes app = some out ↔ Passes L ds nodes app V out :=
  apply_iff hL h1 h2 cached ds nodes app hch

/-- C82: an edit that changes nothing succeeds and stores nothing. -/
theorem nothing_changed (L : Lib D) (cached : Bool) (ds : Nat → D) (nodes : List Nat) (app : Nat → D → D)
    (h : ∀ k ∈ nodes, app k (ds k) = ds k) : applyChanges L cached ds nodes app = some ds := by
  have hno : ¬ ∃ k ∈ nodes, app k (ds k) ≠ ds k := by
    rintro ⟨k, hk, hne⟩
    exact hne (h k hk)
  unfold applyChanges
  rw [← changed_iff L cached] at hno
  simp only [Bool.not_eq_true] at hno
  simp only [hno, Bool.not_false, if_true]

theorem firstPass_at (L : Lib D) : ∀ (V : List Nat) (d : Nat → D), V.Nodup → (firstPass L V d).2 = true → ∀ v ∈ V,
    ∃ dv : Nat → D, dv v = d v ∧ (∀ k, dv k = d k ∨ dv k = (firstPass L V d).1 k) ∧ L.okNow v dv = true ∧
      (firstPass L V d).1 v = L.fix v dv := by
  intro V
  induction V with
  | nil => intro d _ _ v hv; cases hv
  | cons m V ih =>
    intro d hn ho v hv
    have hn' := List.nodup_cons.1 hn
    have ho' : L.okNow m d = true ∧ (firstPass L V fun k => if k = m then L.fix m d else d k).2 = true := by
      have : (L.okNow m d && (firstPass L V fun k => if k = m then L.fix m d else d k).2) = true := ho
      rwa [Bool.and_eq_true] at this
    have hq : (firstPass L (m :: V) d).1 = (firstPass L V fun k => if k = m then L.fix m d else d k).1 := rfl
    have hm : (firstPass L V fun k => if k = m then L.fix m d else d k).1 m = L.fix m d := by
      rw [firstPass_other L m V _ hn'.1]
      exact if_pos rfl
    rw [hq]
    rcases List.mem_cons.1 hv with rfl | hv
    · exact ⟨d, rfl, fun k => .inl rfl, ho'.1, hm⟩
    · obtain ⟨dv, a, b, c, e⟩ := ih _ hn'.2 ho'.2 v hv
      refine ⟨dv, ?_, ?_, c, e⟩
      · rw [a]
        exact if_neg (fun h : v = m => hn'.1 (h ▸ hv))
      · intro k
        rcases b k with h | h
        · by_cases hk : k = m
          · subst hk
            right
            rw [h, hm]
            exact if_pos rfl
          · left
            rw [h]
            exact if_neg hk
        · exact .inr h

/-- C81: after changes are applied to a valid datastore the whole datastore is valid again, whatever the
modules, the data and the edit are, if: every leafref path has nodes of at most one other module and no default
instance-identifier is added next to an existing one; an unchanged module with an instance-identifier into a
changed one refers by its schema, too, to a module of the edit; and the validation itself (default values,
false `when`) changes only modules that no other module refers to. Each of the conditions is needed, see
`second_module_dangling`, `default_rejected`, `instance_dangling` and `when_dangling`. -/
theorem applied_valid_partial {L : Lib D} (hL : Laws L) (h1 : OneForeign L) (h2 : NoDefaults L) (cached : Bool)
    (ds : Nat → D) (nodes : List Nat) (app : Nat → D → D) (hn : ∀ k ∈ nodes, k ∈ L.mods) (hv : Valid L ds) (out : Nat → D)
    (ho : applyChanges L cached ds nodes app = some out)
    (hinst : ∀ a ∈ L.mods, out a = ds a → ∀ k ∈ points L a (ds a), out k ≠ ds k → ∃ t ∈ nodes, t ≠ a ∧ t ∈ statics L a)
    (hcalm : ∀ k, out k ≠ edited ds nodes app k → ∀ a ∈ L.mods, a ≠ k → k ∉ statics L a ∧ k ∉ points L a (out a)) :
    Valid L out := by
  by_cases hch : ∃ k ∈ nodes, app k (ds k) ≠ ds k
  · obtain ⟨V, hs, hV, hi⟩ := apply_iff hL h1 h2 cached ds nodes app hch
    have hp := (hi out).1 ho
    have hf : firstPass L V (edited ds nodes app) = (out, true) := hp.first
    have hnd : V.Nodup := hs.imp (fun {a b} h => by omega)
    have hmods : ∀ k ∈ V, k ∈ L.mods := by
      intro k hk
      rcases (hV k).1 hk with h | h
      · exact hn k h.1
      · exact h.1
    have hother : ∀ k, k ∉ V → out k = ds k := by
      intro k hk
      have := firstPass_other L k V (edited ds nodes app) hk
      rw [hf] at this
      have this : out k = edited ds nodes app k := this
      rw [this]
      apply edited_eq
      intro h
      exact hk ((hV k).2 (.inl h))
    -- a module that got nothing new and refers to no module of the edit
    have hsame : ∀ a ∈ L.mods, out a = ds a → ¬ (a ∈ L.mods ∧ ∃ t ∈ nodes, t ≠ a ∧ t ∈ statics L a) → ValidMod L out a := by
      intro a ha hoa hna
      obtain ⟨v1, v2, v3⟩ := hv a ha
      have hstat : ∀ k ∈ a :: statics L a, out k = ds k := by
        intro k hk
        by_cases hka : k = a
        · rw [hka]
          exact hoa
        · have hks : k ∈ statics L a := by
            rcases List.mem_cons.1 hk with h | h
            · exact absurd h hka
            · exact h
          have hkn : k ∉ nodes := fun h => hna ⟨ha, k, h, hka, hks⟩
          refine Decidable.byContradiction fun hne => ?_
          have hed : edited ds nodes app k = ds k := if_neg hkn
          exact (hcalm k (by rw [hed]; exact hne) a ha (Ne.symm hka)).1 hks
      have hpts : ∀ k ∈ points L a (ds a), out k = ds k := by
        intro k hk
        refine Decidable.byContradiction fun hne => hna ⟨ha, hinst a ha hoa k hk hne⟩
      have hfix : L.fix a out = L.fix a ds := hL.fix_reads _ _ _ hstat
      refine ⟨?_, ?_, ?_⟩
      · rw [hfix, v1, hoa]
      · rw [hL.now_reads a out ds]
        · exact v2
        · intro k hk
          rcases List.mem_append.1 hk with hk | hk
          · rcases List.mem_append.1 hk with hk | hk
            · exact hstat k hk
            · exact hpts k (hoa ▸ hk)
          · rw [hfix, v1] at hk
            exact hpts k hk
      · rw [hL.end_reads a out ds]
        · exact v3
        · intro k hk
          rcases List.mem_append.1 hk with hk | hk
          · exact hstat k hk
          · exact hpts k (hoa ▸ hk)
    intro a ha
    by_cases haV : a ∈ V
    · rcases hp.final a haV with ⟨hoa, hna⟩ | hend
      · exact hsame a ha hoa hna
      · have ho2 : (firstPass L V (edited ds nodes app)).2 = true := by rw [hf]
        obtain ⟨dv, h3, h4, h5, h6⟩ := firstPass_at L V (edited ds nodes app) hnd ho2 a haV
        rw [hf] at h4 h6
        simp only at h4 h6
        obtain ⟨g1, g2⟩ := hL.again a dv h5
        have hag : ∀ k ∈ a :: statics L a ++ points L a (out a), set dv a (L.fix a dv) k = out k := by
          intro k hk
          unfold set
          by_cases hka : k = a
          · rw [if_pos hka, hka, h6]
          · rw [if_neg hka]
            rcases h4 k with h | h
            · refine Decidable.byContradiction fun hne => ?_
              have := hcalm k (fun he => hne (by rw [h, he])) a ha (Ne.symm hka)
              rcases List.mem_append.1 hk with hk | hk
              · rcases List.mem_cons.1 hk with hk | hk
                · exact hka hk
                · exact this.1 hk
              · exact this.2 hk
            · exact h
        have hfx : L.fix a out = out a := by
          rw [← hL.fix_reads a _ out (fun k hk => hag k (List.mem_append_left _ hk)), g1, h6]
        refine ⟨hfx, ?_, hend⟩
        rw [← hL.now_reads a (set dv a (L.fix a dv)) out, g2]
        intro k hk
        rcases List.mem_append.1 hk with hk | hk
        · rcases List.mem_append.1 hk with hk | hk
          · exact hag k (List.mem_append_left _ hk)
          · have : set dv a (L.fix a dv) a = out a := by
              unfold set
              rw [if_pos rfl, h6]
            rw [this] at hk
            exact hag k (List.mem_append_right _ hk)
        · rw [g1, ← h6] at hk
          exact hag k (List.mem_append_right _ hk)
    · exact hsame a ha (hother a haV) (fun h => haV ((hV a).2 (.inr h)))
  · have : ∀ k ∈ nodes, app k (ds k) = ds k := fun k hk =>
      Decidable.byContradiction fun hne => hch ⟨k, hk, hne⟩
    rw [nothing_changed L cached ds nodes app this] at ho
    cases ho
    exact hv

theorem sorted_unique : ∀ (V W : List Nat), V.Pairwise (· < ·) → W.Pairwise (· < ·) → (∀ k, k ∈ V ↔ k ∈ W) → V = W := by
  intro V
  induction V with
  | nil =>
    intro W _ _ h
    cases W with
    | nil => rfl
    | cons w W => exact absurd ((h w).2 List.mem_cons_self) (by simp)
  | cons v V ih =>
    intro W hv hw h
    cases W with
    | nil => exact absurd ((h v).1 List.mem_cons_self) (by simp)
    | cons w W =>
      simp only [List.pairwise_cons] at hv hw
      have hvw : v = w := by
        rcases List.mem_cons.1 ((h v).1 List.mem_cons_self) with h1 | h1
        · exact h1
        · rcases List.mem_cons.1 ((h w).2 List.mem_cons_self) with h2 | h2
          · exact h2.symm
          · have := hv.1 w h2
            have := hw.1 v h1
            omega
      subst hvw
      congr 1
      apply ih W hv.2 hw.2
      intro k
      constructor
      · intro hk
        rcases List.mem_cons.1 ((h k).1 (List.mem_cons_of_mem _ hk)) with h1 | h1
        · have := hv.1 k hk
          omega
        · exact h1
      · intro hk
        rcases List.mem_cons.1 ((h k).2 (List.mem_cons_of_mem _ hk)) with h1 | h1
        · have := hw.1 k hk
          omega
        · exact h1

theorem pass1_mem (L : Lib D) (sel : Ent → Bool) (fin : Bool) (ds : Nat → D) : ∀ (es : List Ent) (cur : Nat → D),
    ∀ x ∈ (pass1 L sel fin ds es cur).1, ∃ e ∈ es, e.m = x.m ∧ (x = e ∨ sel e = true) := by
  intro es
  induction es with
  | nil => intro cur x hx; cases hx
  | cons e l ih =>
    intro cur x hx
    rw [pass1] at hx
    split at hx
    · rename_i hs
      rcases List.mem_cons.1 hx with rfl | hx
      · exact ⟨e, List.mem_cons_self, by split <;> rfl, .inr hs⟩
      · obtain ⟨y, hy, h⟩ := ih _ x hx
        exact ⟨y, List.mem_cons_of_mem _ hy, h⟩
    · rcases List.mem_cons.1 hx with rfl | hx
      · exact ⟨x, List.mem_cons_self, rfl, .inl rfl⟩
      · obtain ⟨y, hy, h⟩ := ih _ x hx
        exact ⟨y, List.mem_cons_of_mem _ hy, h⟩

/-- C83: if sr_validate of running or startup without a module name succeeds, applying the same edit to the same
data does not fail in the validation, whatever the modules, the data and the edit are. -/
theorem validated_applies (L : Lib D) (cached : Bool) (ds : Nat → D) (nodes : List Nat) (app : Nat → D → D)
    (h : validateRun L cached ds none nodes app = true) : ∃ out, applyChanges L cached ds nodes app = some out := by
  by_cases hch : ∃ k ∈ nodes, app k (ds k) ≠ ds k
  · have hne : nodes ≠ [] := by
      rintro rfl
      obtain ⟨k, hk, _⟩ := hch
      cases hk
    have hv : (validate L selChanged false ds (prepare L cached ds nodes app (MI.init L))).2 = true := by
      unfold validateRun at h
      rw [if_neg hne] at h
      simp only [Option.any_none, Bool.false_eq_true, if_false] at h
      exact h
    have hc := (changed_iff L cached ds nodes app).2 hch
    generalize hmi : prepare L cached ds nodes app (MI.init L) = mi at hv
    have hok : (validate L selChanged true ds mi).2 = true := by
      obtain ⟨a, b⟩ := pass1_fin L selChanged ds mi.es mi.cur
      unfold validate at hv ⊢
      simp only [Bool.and_eq_true, List.all_eq_true, Bool.or_eq_true, Bool.not_eq_true', a, b] at hv ⊢
      refine ⟨hv.1, ?_⟩
      intro x hx
      obtain ⟨e, he, hm, hxe⟩ := pass1_mem L selChanged true ds mi.es mi.cur x hx
      cases hs : selChanged x with
      | false => exact .inl rfl
      | true =>
        right
        have hse : selChanged e = true := by
          rcases hxe with h | h
          · exact h ▸ hs
          · exact h
        rcases hv.2 e he with h | h
        · rw [hse] at h
          cases h
        · rw [← hm]
          exact h
    unfold applyChanges
    simp only [hc, hmi, hok, Bool.not_true, Bool.false_eq_true, if_false, if_true]
    exact ⟨_, rfl⟩
  · exact ⟨ds, nothing_changed L cached ds nodes app fun k hk => Decidable.byContradiction fun hne => hch ⟨k, hk, hne⟩⟩

theorem validateRun_iff {L : Lib D} (hL : Laws L) (h1 : OneForeign L) (h2 : NoDefaults L) (cached : Bool)
    (ds : Nat → D) (nodes : List Nat) (app : Nat → D → D) (hne : nodes ≠ []) :
    ∃ V, V.Pairwise (· < ·) ∧ (∀ k, k ∈ V ↔ Affected L ds nodes app k) ∧
      (validateRun L cached ds none nodes app = true ↔ (firstPass L V (edited ds nodes app)).2 = true ∧
        ∀ k ∈ V, L.okEnd k (firstPass L V (edited ds nodes app)).1 = true) := by
  have hr := ready_of L cached ds nodes nodes app (fun _ hk => hk)
  have hap : validateRun L cached ds none nodes app =
      (validate L selChanged false ds (prep L cached ds nodes nodes app)).2 := by
    unfold validateRun
    rw [if_neg hne]
    simp only [Option.any_none, Bool.false_eq_true, if_false]
    rfl
  generalize prep L cached ds nodes nodes app = mi at hr hap
  have hsel : ∀ e ∈ mi.es, selChanged e = true ↔ (e.m ∈ nodes ∧ app e.m (ds e.m) ≠ ds e.m) ∨ Inv L nodes e.m := by
    intro e he
    obtain ⟨_, b, c, _⟩ := hr.ent e he
    unfold selChanged
    rw [Bool.or_eq_true, b, c]
  have hcov : ∀ e ∈ mi.es, selChanged e = true → Covered L (keys mi.es) (edited ds nodes app) e.m := by
    intro e he hs
    exact covered_of hL h1 h2 (List.mem_map_of_mem he) (hr.deps e.m ((hsel e he).1 hs))
  obtain ⟨_, _, v3⟩ := validate_eq hL selChanged false ds hr hcov
  refine ⟨keys (mi.es.filter selChanged), (sorted_lt hr.sorted hr.nodup).sublist (keys_filter_sublist _ _), ?_, ?_⟩
  · intro k
    unfold Affected
    rw [← inv_iff h1]
    constructor
    · intro hk
      obtain ⟨e, he, rfl⟩ := List.mem_map.1 hk
      obtain ⟨he, hs⟩ := List.mem_filter.1 he
      exact (hsel e he).1 hs
    · intro hk
      have hkk : k ∈ keys mi.es := hr.all k (by
        rcases hk with hk | hk
        · exact .inl hk.1
        · exact .inr hk)
      obtain ⟨e, he, rfl⟩ := List.mem_map.1 hkk
      exact List.mem_map_of_mem (List.mem_filter.2 ⟨he, (hsel e he).2 hk⟩)
  · rw [hap, v3]
    simp only [Bool.false_eq_true, false_and, and_false, if_false, List.map_id', Bool.and_eq_true, List.all_eq_true,
      Bool.or_eq_true, Bool.not_eq_true']
    constructor
    · rintro ⟨ha, hb⟩
      refine ⟨ha, ?_⟩
      intro k hk
      obtain ⟨e, he, rfl⟩ := List.mem_map.1 hk
      obtain ⟨he, hs⟩ := List.mem_filter.1 he
      rcases hb e he with h | h
      · rw [hs] at h
        cases h
      · exact h
    · rintro ⟨ha, hb⟩
      refine ⟨ha, ?_⟩
      intro e he
      cases hs : selChanged e with
      | false => exact .inl rfl
      | true => exact .inr (hb e.m (List.mem_map_of_mem (List.mem_filter.2 ⟨he, hs⟩)))

/-- C83: an edit that can be applied and whose modules all end up changed passes sr_validate of running or startup
without a module name. The conditions of `judged_on_all_data_partial` only serve the proof; an edit that the
validation itself reverts can be applied and still fail sr_validate. -/
theorem applies_validated_partial {L : Lib D} (hL : Laws L) (h1 : OneForeign L) (h2 : NoDefaults L) (cached : Bool)
    (ds : Nat → D) (nodes : List Nat) (app : Nat → D → D) (out : Nat → D)
    (hch : ∃ k ∈ nodes, app k (ds k) ≠ ds k) (ho : applyChanges L cached ds nodes app = some out)
    (hre : ∀ k ∈ nodes, app k (ds k) ≠ ds k → out k ≠ ds k) : validateRun L cached ds none nodes app = true := by
  have hne : nodes ≠ [] := by
    rintro rfl
    obtain ⟨k, hk, _⟩ := hch
    cases hk
  obtain ⟨V, hs, hV, hi⟩ := apply_iff hL h1 h2 cached ds nodes app hch
  obtain ⟨W, hs', hW, hj⟩ := validateRun_iff hL h1 h2 cached ds nodes app hne
  have hVW : V = W := sorted_unique V W hs hs' (fun k => by rw [hV, hW])
  subst hVW
  have hp := (hi out).1 ho
  have hf : firstPass L V (edited ds nodes app) = (out, true) := hp.first
  rw [hj, hf]
  refine ⟨rfl, ?_⟩
  intro k hk
  rcases hp.final k hk with ⟨hok, hna⟩ | h
  · rcases (hV k).1 hk with h | h
    · exact absurd hok (hre k h.1 h.2)
    · exact absurd h hna
  · exact h

theorem firstPass_stable (L : Lib D) (d : Nat → D) : ∀ (V : List Nat), (∀ m ∈ V, L.fix m d = d m) →
    firstPass L V d = (d, V.all fun m => L.okNow m d) := by
  intro V
  induction V with
  | nil => intro _; rfl
  | cons m V ih =>
    intro h
    have hd : (fun k => if k = m then L.fix m d else d k) = d := by
      funext k
      split
      · rename_i hk
        rw [h m List.mem_cons_self, hk]
      · rfl
    show ((firstPass L V fun k => if k = m then L.fix m d else d k).1, L.okNow m d && (firstPass L V fun k => if k = m then L.fix m d else d k).2) = _
    rw [hd, ih fun k hk => h k (List.mem_cons_of_mem _ hk)]
    rfl

theorem validateCand_iff {L : Lib D} (hL : Laws L) (cached : Bool) (ds : Nat → D) (nodes : List Nat) (app : Nat → D → D)
    (hn : ∀ k ∈ nodes, k ∈ L.mods) : ∃ V, (∀ k, k ∈ V ↔ k ∈ L.mods) ∧
      (validateCand L cached ds none nodes app = true ↔ (firstPass L V (edited ds nodes app)).2 = true ∧
        ∀ k ∈ V, L.okEnd k (firstPass L V (edited ds nodes app)).1 = true) := by
  have hr := ready_of L cached ds L.mods nodes app hn
  have hap : validateCand L cached ds none nodes app =
      (validate L selReq false ds (prep L cached ds L.mods nodes app)).2 := rfl
  generalize prep L cached ds L.mods nodes app = mi at hr hap
  have hsel : ∀ e ∈ mi.es, selReq e = true ↔ e.m ∈ L.mods := by
    intro e he
    obtain ⟨a, b, _, _⟩ := hr.ent e he
    unfold selReq
    rw [Bool.or_eq_true, a, b]
    constructor
    · rintro (h | ⟨t, _, h⟩)
      · exact h
      · exact ((mem_invDeps L t e.m).1 h).1
    · exact .inl
  have hcov : ∀ e ∈ mi.es, selReq e = true → Covered L (keys mi.es) (edited ds nodes app) e.m := by
    intro e he hs
    have hm := (hsel e he).1 hs
    have hall : ∀ k ∈ L.mods, k ∈ keys mi.es := fun k hk => hr.all k (.inl hk)
    refine ⟨?_, ?_⟩
    · intro k hk
      rcases List.mem_cons.1 hk with rfl | hk
      · exact hall _ hm
      · exact hall k (hL.known _ hm k hk)
    · intro d' _ k hk
      apply hall
      rcases List.mem_append.1 hk with hk | hk
      · obtain ⟨i, hi, hki⟩ := List.mem_flatMap.1 hk
        exact (hL.known_inst _ hm i hi).1 _ k hki
      · obtain ⟨i, hi, hki⟩ := List.mem_flatMap.1 hk
        exact (hL.known_inst _ hm i hi).1 _ k hki
  obtain ⟨_, _, v3⟩ := validate_eq hL selReq false ds hr hcov
  refine ⟨keys (mi.es.filter selReq), ?_, ?_⟩
  · intro k
    constructor
    · intro hk
      obtain ⟨e, he, rfl⟩ := List.mem_map.1 hk
      obtain ⟨he, hs⟩ := List.mem_filter.1 he
      exact (hsel e he).1 hs
    · intro hk
      obtain ⟨e, he, rfl⟩ := List.mem_map.1 (hr.all k (.inl hk))
      exact List.mem_map_of_mem (List.mem_filter.2 ⟨he, (hsel e he).2 hk⟩)
  · rw [hap, v3]
    simp only [Bool.false_eq_true, false_and, and_false, if_false, List.map_id', Bool.and_eq_true, List.all_eq_true,
      Bool.or_eq_true, Bool.not_eq_true']
    constructor
    · rintro ⟨ha, hb⟩
      refine ⟨ha, ?_⟩
      intro k hk
      obtain ⟨e, he, rfl⟩ := List.mem_map.1 hk
      obtain ⟨he, hs⟩ := List.mem_filter.1 he
      rcases hb e he with h | h
      · rw [hs] at h
        cases h
      · exact h
    · rintro ⟨ha, hb⟩
      refine ⟨ha, ?_⟩
      intro e he
      cases hs : selReq e with
      | false => exact .inl rfl
      | true => exact .inr (hb e.m (List.mem_map_of_mem (List.mem_filter.2 ⟨he, hs⟩)))

/-- C83: sr_validate of candidate without a module name says exactly whether the candidate datastore with the
pending edit is valid, all modules and references included, when the validation would not change the data. -/
theorem candidate_validated {L : Lib D} (hL : Laws L) (cached : Bool) (ds : Nat → D) (nodes : List Nat)
    (app : Nat → D → D) (hn : ∀ k ∈ nodes, k ∈ L.mods)
    (hst : ∀ m ∈ L.mods, L.fix m (edited ds nodes app) = edited ds nodes app m) :
    validateCand L cached ds none nodes app = true ↔ Valid L (edited ds nodes app) := by
  obtain ⟨V, hV, hi⟩ := validateCand_iff hL cached ds nodes app hn
  rw [hi, firstPass_stable L _ V (fun m hm => hst m ((hV m).1 hm))]
  simp only [List.all_eq_true]
  constructor
  · rintro ⟨h1, h2⟩ m hm
    exact ⟨hst m hm, h1 m ((hV m).2 hm), h2 m ((hV m).2 hm)⟩
  · intro h
    exact ⟨fun m hm => (h m ((hV m).1 hm)).2.1, fun m hm => (h m ((hV m).1 hm)).2.2⟩

/-- C84: when changes are applied, the data of every module involved are loaded once before the validation. -/
theorem loaded_once (L : Lib D) (cached : Bool) (ds : Nat → D) (nodes : List Nat) (app : Nat → D → D) :
    ∀ e ∈ (prepare L cached ds nodes app (MI.init L)).es, e.loads = 1 := by
  intro e he
  exact ((ready_of L cached ds nodes nodes app (fun _ hk => hk)).ent e he).2.2.2

/-- C84: the assertion of sr_modinfo_collect_deps holds when changes are applied: data of all modules of the edit and
of those depending on them are remembered as loaded. -/
theorem assertion_holds (L : Lib D) (cached : Bool) (ds : Nat → D) (nodes : List Nat) (app : Nat → D → D) :
    ∀ e ∈ (editApply nodes app (consolidate L cached ds .req true { MI.init L with es := nodes.foldl (add false) [] })).es,
      e.data = true := by
  intro e he
  have h := two_of (app := app) (one_of L cached ds nodes) (fun _ hk => hk)
  exact (h.ent e.m e (mem_look h.nodup he)).2.2.2.2.1

/-- C84: with a connection that caches running data, no data are loaded twice for the edit of an update subscriber
either. Without the cache this is false, see `update_loads_twice`. -/
theorem update_loaded_once_partial (L : Lib D) (ds : Nat → D) (nodes : List Nat) (app : Nat → D → D) (nodes2 : List Nat)
    (app2 : Nat → D → D) : ∀ e ∈ (updated L true ds nodes app nodes2 app2).es, e.loads ≤ 1 := by
  intro e he
  have h0 : Once (prepare L true ds nodes app (MI.init L)).es := once_prepare L ds nodes app (fun x hx => nomatch hx)
  have h1 : Once (validate L selChanged true ds (prepare L true ds nodes app (MI.init L))).1.es :=
    once_pass1 L selChanged true ds _ _ h0
  have := once_prepare L ds nodes2 app2 h1 e he
  omega

theorem stable_out {L : Lib D} (hL : Laws L) (h1 : OneForeign L) (h2 : NoDefaults L) {cached : Bool}
    {ds : Nat → D} {nodes : List Nat} {app : Nat → D → D} {out : Nat → D} (hst : ∀ m d, L.fix m d = d m)
    (ho : applyChanges L cached ds nodes app = some out) : out = edited ds nodes app := by
  by_cases hch : ∃ k ∈ nodes, app k (ds k) ≠ ds k
  · obtain ⟨V, hs, hV, hi⟩ := apply_iff hL h1 h2 cached ds nodes app hch
    have hp : firstPass L V (edited ds nodes app) = (out, true) := ((hi out).1 ho).first
    rw [firstPass_stable L _ V (fun m _ => hst m _)] at hp
    exact (congrArg Prod.fst hp).symm
  · have hno : ∀ k ∈ nodes, app k (ds k) = ds k := fun k hk => Decidable.byContradiction fun hne => hch ⟨k, hk, hne⟩
    rw [nothing_changed L cached ds nodes app hno] at ho
    have ho := Option.some.inj ho
    rw [← ho]
    funext k
    exact (edited_eq ds nodes app k (fun h => h.2 (hno k h.1))).symm

/-! Examples. -/

/-- Module 1 has a leafref to module 2, a non-zero value is a reference that needs non-zero data there. -/
def exRef : Lib Nat where
  mods := [1, 2, 3]
  lrefs := fun m => if m = 1 then [[2]] else []
  xpaths := fun _ => []
  insts := fun _ => []
  none := 0
  fix := fun m d => d m
  okNow := fun _ _ => true
  okEnd := fun m d => if m = 1 then d 1 == 0 || d 2 != 0 else d m != 9

theorem exRef_laws : Laws exRef := by
  refine ⟨?_, ?_, ?_, ?_, ?_, ?_, ?_⟩
  · intro m d d' h
    exact h m List.mem_cons_self
  · intro m d d' h
    rfl
  · intro m d d' h
    have hm := h m List.mem_cons_self
    show (if m = 1 then d 1 == 0 || d 2 != 0 else d m != 9) = (if m = 1 then d' 1 == 0 || d' 2 != 0 else d' m != 9)
    by_cases h1 : m = 1
    · subst h1
      have h2 := h 2 (by simp [statics, exRef])
      simp [hm, h2]
    · simp [h1, hm]
  · intro m d _
    exact ⟨by simp [exRef, set], rfl⟩
  · intro m d i hi
    cases hi
  · intro m _ k hk
    by_cases h1 : m = 1
    · subst h1
      simp [statics, exRef] at hk
      simp [exRef, hk]
    · simp [statics, exRef, h1] at hk
  · intro m _ i hi
    cases hi

theorem exRef_one : OneForeign exRef := by
  intro m atoms ha x hx y hy _ _
  by_cases h1 : m = 1
  · simp [exRef, h1] at ha
    subst ha
    simp at hx hy
    omega
  · simp [exRef, h1] at ha

theorem exRef_def : NoDefaults exRef := by
  intro m d i hi
  cases hi

/-- All modules have data. -/
def ex1 : Nat → Nat := fun _ => 1

theorem exRef_valid : Valid exRef ex1 := by
  intro m hm
  simp [exRef] at hm
  rcases hm with rfl | rfl | rfl <;> exact ⟨rfl, rfl, rfl⟩

/-- Changing the target of the reference validates the referring module: removing it fails, another value passes. -/
example : applyChanges exRef false ex1 [2] (fun _ _ => 0) = none ∧
    (applyChanges exRef false ex1 [2] (fun _ _ => 5)).map (fun f => [f 1, f 2, f 3]) = some [1, 5, 1] ∧
    validateRun exRef false ex1 none [2] (fun _ _ => 0) = false ∧ validateRun exRef false ex1 none [2] (fun _ _ => 5) = true ∧
    ((prepare exRef false ex1 [2] (fun _ _ => 5) (MI.init exRef)).es.map Ent.m) = [1, 2] := by
  decide +kernel

/-- The conditions of the theorems hold in it. -/
example : ∃ out, applyChanges exRef true ex1 [2] (fun _ _ => 5) = some out ∧ Valid exRef out := by
  have ho : ∃ out, applyChanges exRef true ex1 [2] (fun _ _ => 5) = some out := ⟨_, rfl⟩
  obtain ⟨out, ho⟩ := ho
  have he := stable_out exRef_laws exRef_one exRef_def (fun _ _ => rfl) ho
  refine ⟨out, ho, ?_⟩
  refine applied_valid_partial exRef_laws exRef_one exRef_def true ex1 [2] (fun _ _ => 5) (by simp [exRef]) exRef_valid out ho ?_ ?_
  · intro a _ _ k hk
    simp [points, exRef] at hk
  · intro k hne
    exact absurd (congrFun he k) hne

/-- C83, not C83: sr_validate of running or startup with a module name applies the edit only up to the first node
of a module that is not involved (sysrepo.c 3858-3884, modinfo.c 530-580). With an edit of modules 3 and then 1, in
which module 1 would be invalid, sr_validate of module 1 succeeds although the changes cannot be applied. -/
theorem validate_misses : ∃ (L : Lib Nat) (ds : Nat → Nat) (nodes : List Nat) (app : Nat → Nat → Nat) (m : Nat),
    Laws L ∧ Valid L ds ∧ m ∈ nodes ∧ L.okEnd m (edited ds nodes app) = false ∧
    validateRun L false ds (some m) nodes app = true ∧ (applyChanges L false ds nodes app).isNone = true := by
  refine ⟨exRef, ex1, [3, 2], fun m x => if m = 2 then 9 else x + 1, 2, exRef_laws, exRef_valid, ?_⟩
  decide +kernel

/-- C83, not C83: sr_validate of candidate with a module name and no pending edit does not load the modules that the
module refers to (modinfo.c 383 wants a changed module), so a valid module with a reference to another one is
reported as invalid. -/
theorem candidate_module_rejected : ∃ (L : Lib Nat) (ds : Nat → Nat) (m : Nat),
    Laws L ∧ OneForeign L ∧ NoDefaults L ∧ Valid L ds ∧ validateCand L false ds (some m) [] (fun _ x => x) = false ∧
    validateCand L false ds none [] (fun _ x => x) = true :=
  ⟨exRef, ex1, 1, exRef_laws, exRef_one, exRef_def, exRef_valid, by decide +kernel⟩

/-- Module 1 has an instance-identifier that needs its instance: a non-zero value points to module 2. -/
def exInst : Lib Nat where
  mods := [1, 2]
  lrefs := fun _ => []
  xpaths := fun _ => []
  insts := fun m => if m = 1 then [{ vals := fun x => if x = 0 then [] else [2], dflt := none }] else []
  none := 0
  fix := fun m d => d m
  okNow := fun _ _ => true
  okEnd := fun m d => if m = 1 then d 1 == 0 || d 2 != 0 else true

theorem exInst_laws : Laws exInst := by
  refine ⟨?_, ?_, ?_, ?_, ?_, ?_, ?_⟩
  · intro m d d' h
    exact h m List.mem_cons_self
  · intro m d d' h
    rfl
  · intro m d d' h
    have hm := h m List.mem_cons_self
    show (if m = 1 then d 1 == 0 || d 2 != 0 else true) = (if m = 1 then d' 1 == 0 || d' 2 != 0 else true)
    by_cases h1 : m = 1
    · subst h1
      by_cases h0 : d 1 = 0
      · simp [← hm, h0]
      · have h2 := h 2 (by simp [statics, points, exInst, h0])
        simp [← hm, ← h2]
    · simp [h1]
  · intro m d _
    exact ⟨by simp [exInst, set], rfl⟩
  · intro m d i hi t ht
    exact .inl ht
  · intro m _ k hk
    simp [statics, exInst] at hk
  · intro m _ i hi
    by_cases h1 : m = 1
    · simp [exInst, h1] at hi
      subst hi
      refine ⟨?_, by intro k hk; cases hk⟩
      intro x k hk
      by_cases h0 : x = 0
      · simp [h0] at hk
      · simp [h0] at hk
        simp [exInst, hk]
    · simp [exInst, h1] at hi

/-- C81, not C81: instance-identifiers have no inverse dependency (lyd_mods.c 826 looks for target-module only), so
deleting the node that an instance-identifier with require-instance of another module points to succeeds and leaves
an invalid datastore. -/
theorem instance_dangling : ∃ (L : Lib Nat) (ds : Nat → Nat) (nodes : List Nat) (app : Nat → Nat → Nat) (out : Nat → Nat),
    Laws L ∧ OneForeign L ∧ NoDefaults L ∧ Valid L ds ∧ applyChanges L false ds nodes app = some out ∧
    (∀ k, out k = edited ds nodes app k) ∧ ¬ Valid L out := by
  have ho : ∃ out, applyChanges exInst false ex1 [2] (fun _ _ => 0) = some out := ⟨_, rfl⟩
  obtain ⟨out, ho⟩ := ho
  have hone : OneForeign exInst := by
    intro m atoms ha
    cases ha
  have hdef : NoDefaults exInst := by
    intro m d i hi hne t ht
    exact .inl ht
  have hv : Valid exInst ex1 := by
    intro m hm
    simp [exInst] at hm
    rcases hm with rfl | rfl <;> exact ⟨rfl, rfl, rfl⟩
  have hout : ∀ k, out k = edited ex1 [2] (fun _ _ => 0) k := by
    intro k
    exact congrFun (stable_out exInst_laws hone hdef (fun _ _ => rfl) ho) k
  refine ⟨exInst, ex1, [2], fun _ _ => 0, out, exInst_laws, hone, hdef, hv, ho, hout, ?_⟩
  intro h
  have := (h 1 (by simp [exInst])).2.2
  have h1 : out 1 = 1 := by rw [hout]; rfl
  have h2 : out 2 = 0 := by rw [hout]; rfl
  simp [exInst, h1, h2] at this

/-- Module 2 has a node that exists only when module 1 has data, module 3 a leafref to that node. -/
def exWhen : Lib Nat where
  mods := [1, 2, 3]
  lrefs := fun m => if m = 3 then [[2]] else []
  xpaths := fun m => if m = 2 then [[1]] else []
  insts := fun _ => []
  none := 0
  fix := fun m d => if m = 2 then (if d 1 = 0 then 0 else d 2) else d m
  okNow := fun _ _ => true
  okEnd := fun m d => if m = 3 then d 3 == 0 || d 2 != 0 else true

theorem exWhen_laws : Laws exWhen := by
  refine ⟨?_, ?_, ?_, ?_, ?_, ?_, ?_⟩
  · intro m d d' h
    have hm := h m List.mem_cons_self
    show (if m = 2 then (if d 1 = 0 then 0 else d 2) else d m) = (if m = 2 then (if d' 1 = 0 then 0 else d' 2) else d' m)
    by_cases h2 : m = 2
    · subst h2
      have h1 := h 1 (by simp [statics, exWhen])
      simp [hm, h1]
    · simp [h2, hm]
  · intro m d d' h
    rfl
  · intro m d d' h
    have hm := h m List.mem_cons_self
    show (if m = 3 then d 3 == 0 || d 2 != 0 else true) = (if m = 3 then d' 3 == 0 || d' 2 != 0 else true)
    by_cases h3 : m = 3
    · subst h3
      have h2 := h 2 (by simp [statics, exWhen])
      simp [hm, h2]
    · simp [h3]
  · intro m d _
    refine ⟨?_, rfl⟩
    show (if m = 2 then (if set d m (exWhen.fix m d) 1 = 0 then 0 else set d m (exWhen.fix m d) 2) else set d m (exWhen.fix m d) m) = exWhen.fix m d
    by_cases h2 : m = 2
    · subst h2
      simp only [set, exWhen, if_true]
      by_cases h1 : d 1 = 0 <;> simp [h1]
    · simp [set, h2]
  · intro m d i hi
    cases hi
  · intro m _ k hk
    by_cases h2 : m = 2
    · simp [statics, exWhen, h2] at hk
      simp [exWhen, hk]
    · by_cases h3 : m = 3
      · simp [statics, exWhen, h3] at hk
        simp [exWhen, hk]
      · simp [statics, exWhen, h2, h3] at hk
  · intro m _ i hi
    cases hi

/-- C81, not C81: when a change of module 1 makes a `when` of module 2 false, the validation deletes the node of
module 2, but only modules depending on module 1 are validated (modinfo.c 3069-3078 follows inverse dependencies
once), so a leafref of module 3 to the deleted node is left dangling. -/
theorem when_dangling : ∃ (L : Lib Nat) (ds : Nat → Nat) (nodes : List Nat) (app : Nat → Nat → Nat),
    Laws L ∧ OneForeign L ∧ NoDefaults L ∧ Valid L ds ∧
    (applyChanges L false ds nodes app).any (fun out => !L.okEnd 3 out) = true ∧ 3 ∈ L.mods := by
  refine ⟨exWhen, ex1, [1], fun _ _ => 0, exWhen_laws, ?_, ?_, ?_, ?_, ?_⟩
  · intro m atoms ha x hx y hy _ _
    by_cases h3 : m = 3
    · simp [exWhen, h3] at ha
      subst ha
      simp at hx hy
      omega
    · simp [exWhen, h3] at ha
  · intro m d i hi
    cases hi
  · intro m hm
    simp [exWhen] at hm
    rcases hm with rfl | rfl | rfl <;> exact ⟨rfl, rfl, rfl⟩
  · decide +kernel
  · decide

/-- Module 3 has a leafref whose path has nodes of modules 1 and 2. -/
def exTwo : Lib Nat where
  mods := [1, 2, 3]
  lrefs := fun m => if m = 3 then [[1, 2]] else []
  xpaths := fun _ => []
  insts := fun _ => []
  none := 0
  fix := fun m d => d m
  okNow := fun _ _ => true
  okEnd := fun m d => if m = 3 then d 3 == 0 || (d 1 != 0 && d 2 != 0) else true

theorem exTwo_laws : Laws exTwo := by
  refine ⟨?_, ?_, ?_, ?_, ?_, ?_, ?_⟩
  · intro m d d' h
    exact h m List.mem_cons_self
  · intro m d d' h
    rfl
  · intro m d d' h
    have hm := h m List.mem_cons_self
    show (if m = 3 then d 3 == 0 || (d 1 != 0 && d 2 != 0) else true) = (if m = 3 then d' 3 == 0 || (d' 1 != 0 && d' 2 != 0) else true)
    by_cases h3 : m = 3
    · subst h3
      have h1 := h 1 (by simp [statics, exTwo])
      have h2 := h 2 (by simp [statics, exTwo])
      simp [hm, h1, h2]
    · simp [h3]
  · intro m d _
    exact ⟨by simp [exTwo, set], rfl⟩
  · intro m d i hi
    cases hi
  · intro m _ k hk
    by_cases h3 : m = 3
    · simp [statics, exTwo, h3] at hk
      rcases hk with rfl | rfl <;> simp [exTwo]
    · simp [statics, exTwo, h3] at hk
  · intro m _ i hi
    cases hi

/-- C81 and C82, not C81 and not C82: of a leafref path with nodes of two other modules (one of them in a
predicate) only the first module is recorded (lyd_mods.c 599-614). Deleting the node in the second one leaves the
leafref dangling, and a change of the leafref itself is judged without the data of the second module and refused. -/
theorem second_module_dangling : ∃ (L : Lib Nat) (ds : Nat → Nat), Laws L ∧ NoDefaults L ∧ Valid L ds ∧ 3 ∈ L.mods ∧
    (applyChanges L false ds [2] (fun _ _ => 0)).any (fun out => !L.okEnd 3 out) = true ∧
    L.okEnd 3 (edited ds [3] (fun _ _ => 5)) = true ∧ (applyChanges L false ds [3] (fun _ _ => 5)).isNone = true := by
  refine ⟨exTwo, ex1, exTwo_laws, ?_, ?_, ?_, ?_⟩
  · intro m d i hi
    cases hi
  · intro m hm
    simp [exTwo] at hm
    rcases hm with rfl | rfl | rfl <;> exact ⟨rfl, rfl, rfl⟩
  · decide
  · decide +kernel

/-- Module 1 has instance-identifiers: with data 1 there is one that points to module 2, to which the default one
that points to module 3 is added, giving data 2. -/
def exDflt : Lib Nat where
  mods := [1, 2, 3]
  lrefs := fun _ => []
  xpaths := fun _ => []
  insts := fun m => if m = 1 then
    [{ vals := fun x => if x = 0 then [] else if x = 1 then [2] else [2, 3], dflt := some 3 }] else []
  none := 0
  fix := fun m d => if m = 1 then (if d 1 = 0 then 0 else 2) else d m
  okNow := fun _ _ => true
  okEnd := fun m d => if m = 1 then d 1 == 0 || (d 2 != 0 && (d 1 == 1 || d 3 != 0)) else true

theorem exDflt_laws : Laws exDflt := by
  refine ⟨?_, ?_, ?_, ?_, ?_, ?_, ?_⟩
  · intro m d d' h
    have hm := h m List.mem_cons_self
    show (if m = 1 then (if d 1 = 0 then 0 else 2) else d m) = (if m = 1 then (if d' 1 = 0 then 0 else 2) else d' m)
    by_cases h1 : m = 1
    · subst h1
      simp [hm]
    · simp [h1, hm]
  · intro m d d' h
    rfl
  · intro m d d' h
    have hm := h m List.mem_cons_self
    show (if m = 1 then d 1 == 0 || (d 2 != 0 && (d 1 == 1 || d 3 != 0)) else true) =
      (if m = 1 then d' 1 == 0 || (d' 2 != 0 && (d' 1 == 1 || d' 3 != 0)) else true)
    by_cases h1 : m = 1
    · subst h1
      by_cases h0 : d 1 = 0
      · simp [← hm, h0]
      · by_cases h2 : d 1 = 1
        · have h3 := h 2 (by simp [statics, points, exDflt, h2])
          simp [← hm, ← h3, h2]
        · have h3 := h 2 (by simp [statics, points, exDflt, h0, h2])
          have h4 := h 3 (by simp [statics, points, exDflt, h0, h2])
          simp [← hm, ← h3, ← h4]
    · simp [h1]
  · intro m d _
    refine ⟨?_, rfl⟩
    by_cases h1 : m = 1
    · subst h1
      simp only [set, exDflt, if_true]
      by_cases h0 : d 1 = 0 <;> simp [h0]
    · simp [set, exDflt, h1]
  · intro m d i hi t ht
    by_cases h1 : m = 1
    · subst h1
      simp [exDflt] at hi
      subst hi
      simp only [exDflt, if_true] at ht
      by_cases h0 : d 1 = 0
      · simp [h0] at ht
      · simp [h0] at ht
        rcases ht with rfl | rfl
        · left
          by_cases h2 : d 1 = 1 <;> simp [h0, h2]
        · exact .inr (.inl rfl)
    · simp [exDflt, h1] at hi
  · intro m _ k hk
    simp [statics, exDflt] at hk
  · intro m _ i hi
    by_cases h1 : m = 1
    · simp [exDflt, h1] at hi
      subst hi
      refine ⟨?_, ?_⟩
      · intro x k hk
        by_cases h0 : x = 0
        · simp [h0] at hk
        · by_cases h2 : x = 1
          · simp [h2] at hk
            simp [exDflt, hk]
          · simp [h0, h2] at hk
            rcases hk with rfl | rfl <;> simp [exDflt]
      · intro k hk
        cases hk
        simp [exDflt]
    · simp [exDflt, h1] at hi

/-- C82, not C82: the module that a default instance-identifier points to is loaded only if there is no
instance-identifier of the same leaf in the data (shm_mod.c 1213-1250). If there is one and the validation adds the
default to another list instance, valid changes are refused because the target of the default is not loaded. -/
theorem default_rejected : ∃ (L : Lib Nat) (ds : Nat → Nat) (nodes : List Nat) (app : Nat → Nat → Nat) (out : Nat → Nat),
    Laws L ∧ OneForeign L ∧ Valid L ds ∧ Valid L out ∧
    (∀ k, out k = if k = 1 then L.fix 1 (edited ds nodes app) else edited ds nodes app k) ∧
    (applyChanges L false ds nodes app).isNone = true := by
  refine ⟨exDflt, fun k => if k = 1 then 0 else 1, [1], fun _ _ => 1, fun k => if k = 1 then 2 else 1, exDflt_laws, ?_, ?_, ?_, ?_, ?_⟩
  · intro m atoms ha
    cases ha
  · intro m hm
    simp [exDflt] at hm
    rcases hm with rfl | rfl | rfl <;> exact ⟨rfl, rfl, rfl⟩
  · intro m hm
    simp [exDflt] at hm
    rcases hm with rfl | rfl | rfl <;> exact ⟨rfl, rfl, rfl⟩
  · intro k
    by_cases h1 : k = 1 <;> simp [h1, exDflt, edited]
  · decide +kernel

/-- C84, not C84: without the running cache, data of modules loaded for the validation are not remembered as loaded
(modinfo.c 3012-3016). When an update subscriber changes a further module, they are loaded again and put next to the
ones that are there; the assertion of sr_modinfo_collect_deps (modinfo.c 385) that data of changed modules are
remembered as loaded fails. Here module 1 refers to module 2, an edit changes module 1 and the update subscriber
module 2. -/
theorem update_loads_twice : ∃ (L : Lib Nat) (ds : Nat → Nat), Laws L ∧ Valid L ds ∧
    ∃ e ∈ (updated L false ds [1] (fun _ _ => 3) [2] (fun _ _ => 4)).es, e.m = 2 ∧ e.req = true ∧ e.changed = true ∧
      e.data = false ∧ e.loads = 2 :=
  ⟨exRef, ex1, exRef_laws, exRef_valid, by decide +kernel⟩

/-- With the cache the same is loaded once. -/
example : ((updated exRef true ex1 [1] (fun _ _ => 3) [2] (fun _ _ => 4)).es.map fun e => (e.m, e.loads)) = [(1, 1), (2, 1)] := by
  decide +kernel

end Verif.Deps
