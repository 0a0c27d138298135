import Verif.Pipeline
/-!
Helper lemmas about the model of applying changes.
-/
namespace Verif.Pipeline
variable {D : Type} [DecidableEq D]

theorem upd_same {α : Type} (f : Nat → α) (m : Nat) (d : α) : upd f m d m = d := by simp [upd]
theorem upd_ne {α : Type} (f : Nat → α) {m k : Nat} (d : α) (h : k ≠ m) : upd f m d k = f k := by simp [upd, h]

/-- The identifiers. -/
def ids (ms : List Mod) : List Nat := ms.map (·.id)

theorem mem_ids {ms : List Mod} {x : Mod} (h : x ∈ ms) : x.id ∈ ids ms := List.mem_map.2 ⟨x, h, rfl⟩

/-- `b` has the modules of `a` with the same marks, and possibly unchanged new ones. -/
structure Ext (a b : List Mod) : Prop where
  nodup : (ids a).Nodup → (ids b).Nodup
  sub : ∀ m ∈ ids a, m ∈ ids b
  mark : ∀ y ∈ b, (∃ x ∈ a, x.id = y.id ∧ x.changed = y.changed) ∨ (y.id ∉ ids a ∧ y.changed = false)

theorem Ext.refl (a : List Mod) : Ext a a := ⟨fun h => h, fun _ h => h, fun y h => Or.inl ⟨y, h, rfl, rfl⟩⟩

theorem Ext.trans {a b c : List Mod} (h1 : Ext a b) (h2 : Ext b c) : Ext a c := by
  refine ⟨fun h => h2.nodup (h1.nodup h), fun m h => h2.sub m (h1.sub m h), fun y hy => ?_⟩
  rcases h2.mark y hy with ⟨x, hx, e1, e2⟩ | ⟨hn, e⟩
  · rcases h1.mark x hx with ⟨w, hw, f1, f2⟩ | ⟨hn, f⟩
    · exact Or.inl ⟨w, hw, f1.trans e1, f2.trans e2⟩
    · exact Or.inr ⟨by rw [← e1]; exact hn, by rw [← e2]; exact f⟩
  · exact Or.inr ⟨fun h => hn (h1.sub _ h), e⟩

/-- Changing other flags of the modules. -/
theorem Ext.map (a : List Mod) (f : Mod → Mod) (h1 : ∀ x, (f x).id = x.id) (h2 : ∀ x, (f x).changed = x.changed) : Ext a (a.map f) := by
  have e : ids (a.map f) = ids a := by simp [ids, List.map_map, Function.comp_def, h1]
  refine ⟨fun h => by rw [e]; exact h, fun m h => by rw [e]; exact h, fun y hy => ?_⟩
  obtain ⟨x, hx, rfl⟩ := List.mem_map.1 hy
  exact Or.inl ⟨x, hx, (h1 x).symm, (h2 x).symm⟩

theorem Ext.snoc (a : List Mod) (y : Mod) (h : y.id ∉ ids a) (hc : y.changed = false) : Ext a (a ++ [y]) := by
  refine ⟨fun hn => ?_, fun m hm => ?_, fun z hz => ?_⟩
  · simp only [ids, List.map_append, List.map_cons, List.map_nil]
    rw [List.nodup_append]
    refine ⟨hn, by simp, ?_⟩
    intro p hp q hq hpq
    have : q = y.id := by simpa using hq
    exact h (by rw [← this, ← hpq]; exact hp)
  · simp only [ids, List.map_append, List.mem_append]
    exact Or.inl hm
  · rcases List.mem_append.1 hz with hz | hz
    · exact Or.inl ⟨z, hz, rfl, rfl⟩
    · have : z = y := by simpa using hz
      exact Or.inr ⟨by rw [this]; exact h, by rw [this]; exact hc⟩

theorem any_id {ms : List Mod} {m : Nat} : ms.any (·.id == m) = true ↔ m ∈ ids ms := by
  simp [ids, List.any_eq_true]

theorem addMod_ext (m : Nat) (a : List Mod) : Ext a (addMod m a) := by
  unfold addMod
  by_cases h : a.any (·.id == m) = true
  · rw [if_pos h]
    exact Ext.map a _ (fun x => by split <;> rfl) (fun x => by split <;> rfl)
  · rw [if_neg h]
    exact Ext.snoc a _ (fun hm => h (any_id.2 hm)) rfl

theorem addInv_ext (m : Nat) (a : List Mod) : Ext a (addInv m a) := by
  unfold addInv
  by_cases h : a.any (·.id == m) = true
  · rw [if_pos h]
    exact Ext.map a _ (fun x => by split <;> rfl) (fun x => by split <;> rfl)
  · rw [if_neg h]
    exact Ext.snoc a _ (fun hm => h (any_id.2 hm)) rfl

theorem foldl_ext {α : Type} (f : List Mod → α → List Mod) (h : ∀ a x, Ext a (f a x)) (l : List α) (a : List Mod) : Ext a (l.foldl f a) := by
  induction l generalizing a with
  | nil => exact Ext.refl a
  | cons x xs ih => exact (h a x).trans (ih (f a x))

theorem consolidate_ext (env : Env D) (k : Kind) (inv : Bool) (l : Lock) (a : List Mod) : Ext a (consolidate env k inv l a) := by
  unfold consolidate
  by_cases h : a.any (·.new) = true
  · rw [if_pos h]
    refine Ext.trans ?_ (Ext.map _ _ (fun x => by split <;> rfl) (fun x => by split <;> rfl))
    have e1 : Ext a (markNew k a) := Ext.map a _ (fun x => by split <;> (cases k <;> rfl)) (fun x => by split <;> (cases k <;> rfl))
    cases inv with
    | false => exact e1
    | true => exact e1.trans (foldl_ext _ (fun b x => foldl_ext _ (fun c m => addInv_ext m c) _ b) _ _)
  · rw [if_neg h]
    exact Ext.refl a

theorem withDeps_ext (env : Env D) (mi : MI D) : Ext mi.mods (withDeps env mi).mods :=
  (foldl_ext _ (fun a m => addMod_ext m a) _ _).trans (consolidate_ext env _ _ _ _)

/-- Two lists of modules that differ only in the marks. -/
def unmark (ms : List Mod) : List Mod := ms.map fun x => { x with changed := false }

theorem ids_unmark {a b : List Mod} (h : unmark a = unmark b) : ids a = ids b := by
  have := congrArg (List.map (·.id)) h
  simpa [unmark, ids, List.map_map, Function.comp_def] using this

/-- What a loop over the modules does: only the marks and the data of the modules change. -/
structure Loop (ms ms' : List Mod) (data data' : Nat → D) : Prop where
  same : unmark ms' = unmark ms
  out : ∀ m, m ∉ ids ms → data' m = data m

/-- The mod info is consistent with the content before the call: exactly the modules with another content are marked. -/
structure Good (old : Nat → D) (ms : List Mod) (data : Nat → D) : Prop where
  nodup : (ids ms).Nodup
  out : ∀ m, m ∉ ids ms → data m = old m
  mark : ∀ x ∈ ms, x.changed = decide (data x.id ≠ old x.id)

theorem Good.ext {old data : Nat → D} {a b : List Mod} (h : Good old a data) (e : Ext a b) : Good old b data := by
  refine ⟨e.nodup h.nodup, fun m hm => h.out m fun h' => hm (e.sub m h'), fun y hy => ?_⟩
  rcases e.mark y hy with ⟨x, hx, e1, e2⟩ | ⟨hn, e2⟩
  · rw [← e2, h.mark x hx, e1]
  · rw [e2, h.out _ hn]; simp

theorem markIf_unmark (x : Mod) (b : Bool) : { x.markIf b with changed := false } = { x with changed := false } := by
  cases b <;> rfl

theorem markIf_id (x : Mod) (b : Bool) : (x.markIf b).id = x.id := by cases b <;> rfl

theorem markIf_changed (x : Mod) (b : Bool) : (x.markIf b).changed = (b || x.changed) := by cases b <;> rfl

theorem applyLoop_loop (e : Edit D) (ms : List Mod) (data : Nat → D) :
    Loop ms (applyLoop e ms data).1 data (applyLoop e ms data).2 := by
  induction ms generalizing data with
  | nil => exact ⟨rfl, fun _ _ => rfl⟩
  | cons x xs ih =>
    have h := ih (upd data x.id (e.result x.id (data x.id)))
    refine ⟨?_, fun m hm => ?_⟩
    · simp only [applyLoop, unmark, List.map_cons, markIf_unmark]
      have := h.same
      simp only [unmark] at this
      rw [this]
    · simp only [ids, List.map_cons, List.mem_cons, not_or] at hm
      simp only [applyLoop]
      rw [h.out m hm.2, upd_ne _ _ hm.1]

/-- Each module gets the content the changes lead to. -/
theorem applyLoop_data (e : Edit D) (ms : List Mod) (data : Nat → D) (hn : (ids ms).Nodup) (m : Nat) :
    (applyLoop e ms data).2 m = if m ∈ ids ms then e.result m (data m) else data m := by
  induction ms generalizing data with
  | nil => simp [applyLoop, ids]
  | cons x xs ih =>
    simp only [ids, List.map_cons, List.nodup_cons] at hn
    simp only [applyLoop]
    rw [ih _ hn.2]
    by_cases hm : m = x.id
    · subst hm
      have hx : ¬ x.id ∈ ids xs := hn.1
      rw [if_neg hx, upd_same]
      simp [ids]
    · rw [upd_ne _ _ hm]
      simp [ids, hm]

theorem applyLoop_mark (e : Edit D) (old : Nat → D) (ms : List Mod) (data : Nat → D) (hn : (ids ms).Nodup)
    (ho : ∀ m ∈ ids ms, data m = old m) (hc : ∀ x ∈ ms, x.changed = false) :
    ∀ x ∈ (applyLoop e ms data).1, x.changed = decide ((applyLoop e ms data).2 x.id ≠ old x.id) := by
  induction ms generalizing data with
  | nil => intro x hx; simp [applyLoop] at hx
  | cons y ys ih =>
    intro x hx
    simp only [ids, List.map_cons, List.nodup_cons] at hn
    simp only [applyLoop, List.mem_cons] at hx
    rcases hx with hx | hx
    · have hy : data y.id = old y.id := ho _ (by simp [ids])
      have hv : (applyLoop e (y :: ys) data).2 y.id = e.result y.id (data y.id) := by
        simp only [applyLoop]
        rw [(applyLoop_loop e ys _).out _ hn.1, upd_same]
      rw [hx, markIf_id, markIf_changed, hv, hc y (by simp), hy, Bool.or_false]
    · refine ih _ hn.2 (fun m hm => ?_) (fun z hz => hc z (List.mem_cons_of_mem _ hz)) x hx
      rw [upd_ne]
      · exact ho m (by simp only [ids, List.map_cons, List.mem_cons]; exact Or.inr hm)
      · intro h; rw [h] at hm; exact hn.1 hm

theorem applyLoop_good (e : Edit D) (ms : List Mod) (old : Nat → D) (h : Good old ms old) :
    Good old (applyLoop e ms old).1 (applyLoop e ms old).2 := by
  have hl := applyLoop_loop e ms old
  refine ⟨by rw [ids_unmark hl.same]; exact h.nodup, fun m hm => hl.out m (by rw [ids_unmark hl.same] at hm; exact hm), ?_⟩
  exact applyLoop_mark e old ms old h.nodup (fun _ _ => rfl) (fun x hx => by rw [h.mark x hx]; simp)

theorem replaceLoop_loop (src : Nat → D) (ms : List Mod) (data : Nat → D) :
    Loop ms (replaceLoop src ms data).1 data (replaceLoop src ms data).2 := by
  induction ms generalizing data with
  | nil => exact ⟨rfl, fun _ _ => rfl⟩
  | cons x xs ih =>
    have h := ih (upd data x.id (if x.req then src x.id else data x.id))
    refine ⟨?_, fun m hm => ?_⟩
    · simp only [replaceLoop, unmark, List.map_cons, markIf_unmark]
      have := h.same
      simp only [unmark] at this
      rw [this]
    · simp only [ids, List.map_cons, List.mem_cons, not_or] at hm
      simp only [replaceLoop]
      rw [h.out m hm.2, upd_ne _ _ hm.1]

theorem replaceLoop_data (src : Nat → D) (ms : List Mod) (data : Nat → D) (hn : (ids ms).Nodup) (m : Nat) :
    (replaceLoop src ms data).2 m = if ∃ x ∈ ms, x.id = m ∧ x.req = true then src m else data m := by
  induction ms generalizing data with
  | nil => simp [replaceLoop]
  | cons x xs ih =>
    simp only [ids, List.map_cons, List.nodup_cons] at hn
    simp only [replaceLoop]
    rw [ih _ hn.2]
    by_cases hm : m = x.id
    · subst hm
      have : ¬ ∃ y ∈ xs, y.id = x.id ∧ y.req = true := by
        rintro ⟨y, hy, e, -⟩
        exact hn.1 (by rw [← e]; exact mem_ids hy)
      rw [if_neg this, upd_same]
      by_cases hr : x.req = true
      · rw [if_pos hr, if_pos ⟨x, by simp, rfl, hr⟩]
      · rw [if_neg hr, if_neg]
        rintro ⟨y, hy, e, hq⟩
        rcases List.mem_cons.1 hy with hy | hy
        · rw [hy] at hq; exact hr hq
        · exact this ⟨y, hy, e, hq⟩
    · rw [upd_ne _ _ hm]
      have : (∃ y ∈ x :: xs, y.id = m ∧ y.req = true) ↔ ∃ y ∈ xs, y.id = m ∧ y.req = true := by
        constructor
        · rintro ⟨y, hy, e, hq⟩
          rcases List.mem_cons.1 hy with hy | hy
          · rw [hy] at e; exact absurd e.symm hm
          · exact ⟨y, hy, e, hq⟩
        · rintro ⟨y, hy, e, hq⟩
          exact ⟨y, List.mem_cons_of_mem _ hy, e, hq⟩
      simp only [this]

theorem replaceLoop_mark (src : Nat → D) (old : Nat → D) (ms : List Mod) (data : Nat → D) (hn : (ids ms).Nodup)
    (ho : ∀ m ∈ ids ms, data m = old m) (hc : ∀ x ∈ ms, x.changed = false) :
    ∀ x ∈ (replaceLoop src ms data).1, x.changed = decide ((replaceLoop src ms data).2 x.id ≠ old x.id) := by
  induction ms generalizing data with
  | nil => intro x hx; simp [replaceLoop] at hx
  | cons y ys ih =>
    intro x hx
    simp only [ids, List.map_cons, List.nodup_cons] at hn
    simp only [replaceLoop, List.mem_cons] at hx
    rcases hx with hx | hx
    · have hy : data y.id = old y.id := ho _ (by simp [ids])
      have hv : (replaceLoop src (y :: ys) data).2 y.id = if y.req then src y.id else data y.id := by
        simp only [replaceLoop]
        rw [(replaceLoop_loop src ys _).out _ hn.1, upd_same]
      rw [hx, markIf_id, markIf_changed, hv, hc y (by simp), hy, Bool.or_false]
    · refine ih _ hn.2 (fun m hm => ?_) (fun z hz => hc z (List.mem_cons_of_mem _ hz)) x hx
      rw [upd_ne]
      · exact ho m (by simp only [ids, List.map_cons, List.mem_cons]; exact Or.inr hm)
      · intro h; rw [h] at hm; exact hn.1 hm

theorem replaceLoop_good (src : Nat → D) (ms : List Mod) (old : Nat → D) (h : Good old ms old) :
    Good old (replaceLoop src ms old).1 (replaceLoop src ms old).2 := by
  have hl := replaceLoop_loop src ms old
  refine ⟨by rw [ids_unmark hl.same]; exact h.nodup, fun m hm => hl.out m (by rw [ids_unmark hl.same] at hm; exact hm), ?_⟩
  exact replaceLoop_mark src old ms old h.nodup (fun _ _ => rfl) (fun x hx => by rw [h.mark x hx]; simp)

theorem valLoop_loop (env : Env D) (base : Nat → D) (ms : List Mod) (data : Nat → D) :
    Loop ms (valLoop env base ms data).1 data (valLoop env base ms data).2.1 := by
  induction ms generalizing data with
  | nil => exact ⟨rfl, fun _ _ => rfl⟩
  | cons x xs ih =>
    refine ⟨?_, fun m hm => ?_⟩
    · simp only [valLoop]
      split
      · have := (ih (upd data x.id (env.valMod x.id data))).same
        simp only [unmark, List.map_cons] at this ⊢
        rw [this]
        congr 1
        unfold Mod.afterVal
        split <;> rfl
      · have := (ih data).same
        simp only [unmark, List.map_cons] at this ⊢
        rw [this]
    · simp only [ids, List.map_cons, List.mem_cons, not_or] at hm
      simp only [valLoop]
      split
      · show (valLoop env base xs _).2.1 m = _
        rw [(ih _).out m hm.2, upd_ne _ _ hm.1]
      · exact (ih _).out m hm.2

theorem defLoop_loop (env : Env D) (base : Nat → D) (ms : List Mod) (data : Nat → D) :
    Loop ms (defLoop env base ms data).1 data (defLoop env base ms data).2 := by
  induction ms generalizing data with
  | nil => exact ⟨rfl, fun _ _ => rfl⟩
  | cons x xs ih =>
    refine ⟨?_, fun m hm => ?_⟩
    · simp only [defLoop]
      split
      · have := (ih (upd data x.id (env.defMod x.id data))).same
        simp only [unmark, List.map_cons] at this ⊢
        rw [this]
        congr 1
        unfold Mod.afterVal
        split <;> rfl
      · have := (ih data).same
        simp only [unmark, List.map_cons] at this ⊢
        rw [this]
    · simp only [ids, List.map_cons, List.mem_cons, not_or] at hm
      simp only [defLoop]
      split
      · show (defLoop env base xs _).2 m = _
        rw [(ih _).out m hm.2, upd_ne _ _ hm.1]
      · exact (ih _).out m hm.2

theorem afterVal_mark {x : Mod} {base d d' : D} (h : x.changed = decide (d ≠ base)) :
    (x.afterVal base d d').changed = decide (d' ≠ base) := by
  unfold Mod.afterVal
  split
  · rename_i e; rw [e]; exact h
  · rfl

theorem afterVal_id (x : Mod) (base d d' : D) : (x.afterVal base d d').id = x.id := by
  unfold Mod.afterVal; split <;> rfl

theorem valLoop_mark (env : Env D) (base : Nat → D) (ms : List Mod) (data : Nat → D) (hn : (ids ms).Nodup)
    (hm : ∀ x ∈ ms, x.changed = decide (data x.id ≠ base x.id)) :
    ∀ x ∈ (valLoop env base ms data).1, x.changed = decide ((valLoop env base ms data).2.1 x.id ≠ base x.id) := by
  induction ms generalizing data with
  | nil => intro x hx; simp [valLoop] at hx
  | cons y ys ih =>
    simp only [ids, List.map_cons, List.nodup_cons] at hn
    have hne : ∀ z ∈ ys, z.id ≠ y.id := fun z hz h => hn.1 (by rw [← h]; exact mem_ids hz)
    intro x hx
    by_cases hc : (y.changed || y.inv) = true
    · simp only [valLoop, if_pos hc, List.mem_cons] at hx ⊢
      rcases hx with hx | hx
      · rw [hx, afterVal_id, afterVal_mark (hm y (by simp)), (valLoop_loop env base ys _).out _ hn.1, upd_same]
      · refine ih _ hn.2 (fun z hz => ?_) x hx
        rw [upd_ne _ _ (hne z hz)]
        exact hm z (List.mem_cons_of_mem _ hz)
    · simp only [valLoop, if_neg hc, List.mem_cons] at hx ⊢
      rcases hx with hx | hx
      · rw [hx, (valLoop_loop env base ys _).out _ hn.1]
        exact hm y (by simp)
      · exact ih _ hn.2 (fun z hz => hm z (List.mem_cons_of_mem _ hz)) x hx

theorem defLoop_mark (env : Env D) (base : Nat → D) (ms : List Mod) (data : Nat → D) (hn : (ids ms).Nodup)
    (hm : ∀ x ∈ ms, x.changed = decide (data x.id ≠ base x.id)) :
    ∀ x ∈ (defLoop env base ms data).1, x.changed = decide ((defLoop env base ms data).2 x.id ≠ base x.id) := by
  induction ms generalizing data with
  | nil => intro x hx; simp [defLoop] at hx
  | cons y ys ih =>
    simp only [ids, List.map_cons, List.nodup_cons] at hn
    have hne : ∀ z ∈ ys, z.id ≠ y.id := fun z hz h => hn.1 (by rw [← h]; exact mem_ids hz)
    intro x hx
    by_cases hc : y.req = true
    · simp only [defLoop, if_pos hc, List.mem_cons] at hx ⊢
      rcases hx with hx | hx
      · rw [hx, afterVal_id, afterVal_mark (hm y (by simp)), (defLoop_loop env base ys _).out _ hn.1, upd_same]
      · refine ih _ hn.2 (fun z hz => ?_) x hx
        rw [upd_ne _ _ (hne z hz)]
        exact hm z (List.mem_cons_of_mem _ hz)
    · simp only [defLoop, if_neg hc, List.mem_cons] at hx ⊢
      rcases hx with hx | hx
      · rw [hx, (defLoop_loop env base ys _).out _ hn.1]
        exact hm y (by simp)
      · exact ih _ hn.2 (fun z hz => hm z (List.mem_cons_of_mem _ hz)) x hx

theorem Good.loop {old data data' : Nat → D} {a b : List Mod} (h : Good old a data) (l : Loop a b data data')
    (hm : ∀ x ∈ b, x.changed = decide (data' x.id ≠ old x.id)) : Good old b data' := by
  refine ⟨by rw [ids_unmark l.same]; exact h.nodup, fun m hm => ?_, hm⟩
  rw [ids_unmark l.same] at hm
  rw [l.out m hm, h.out m hm]

/-- Checking the data keeps the mod info consistent. -/
theorem check_good {env : Env D} {a b : Bool} {mi mi' : MI D} {n : Nat} (h : check env a b mi = some (mi', n))
    (hg : Good mi.base mi.mods mi.data) : Good mi.base mi'.mods mi'.data ∧ mi'.base = mi.base ∧ mi'.ds = mi.ds := by
  have hval : ∀ mi' n, validate env (withDeps env mi) = (mi', n) → Good mi.base mi'.mods mi'.data ∧ mi'.base = mi.base ∧ mi'.ds = mi.ds := by
    intro mi' n he
    simp only [validate] at he
    cases he
    have hg' : Good mi.base (withDeps env mi).mods mi.data := hg.ext (withDeps_ext env mi)
    exact ⟨hg'.loop (valLoop_loop env mi.base _ _) (valLoop_mark env mi.base _ _ hg'.nodup hg'.mark), rfl, rfl⟩
  unfold check at h
  cases hd : mi.ds with
  | startup =>
    rw [hd] at h hval
    simp only at h
    split at h
    · exact hval _ _ (Option.some.inj h)
    · cases h
  | running =>
    rw [hd] at h hval
    simp only at h
    split at h
    · exact hval _ _ (Option.some.inj h)
    · cases h
  | candidate =>
    rw [hd] at h
    simp only at h
    split at h
    · cases h
      exact ⟨hg.loop (defLoop_loop env mi.base _ _) (defLoop_mark env mi.base _ _ hg.nodup hg.mark), rfl, hd⟩
    · cases h
  | operational =>
    rw [hd] at h
    cases h
    exact ⟨hg, rfl, hd⟩
  | factory =>
    rw [hd] at h
    cases h

theorem loaded_good (env : Env D) (s : Store D) (ds : Ds) (ms : List Nat) (inv : Bool) :
    Good (s.read ds) (loaded env s ds ms inv).mods (s.read ds) := by
  have h0 : Good (s.read ds) [] (s.read ds) := ⟨by simp [ids], fun _ _ => rfl, fun x hx => by cases hx⟩
  exact h0.ext ((foldl_ext _ (fun a m => addMod_ext m a) _ _).trans (consolidate_ext env _ _ _ _))

end Verif.Pipeline
