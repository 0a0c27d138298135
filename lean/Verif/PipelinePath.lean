import Verif.PipelineLemmas
/-!
The exits of `notifyStore` and what storing does.
-/
namespace Verif.Pipeline
variable {D : Type} [DecidableEq D]

theorem read_write (s : Store D) (ds : Ds) (m k : Nat) (d : D) : (s.write ds m d).read ds k = if k = m then d else s.read ds k := by
  cases ds with
  | startup => simp only [Store.write, Store.read, upd]
  | running =>
    by_cases h : s.runOff m = true
    · simp only [Store.write, if_pos h, Store.read, upd]
      by_cases hk : k = m
      · subst hk; simp [h]
      · simp [hk]
    · simp only [Store.write, if_neg h, Store.read, upd]
      by_cases hk : k = m
      · subst hk; simp [h]
      · simp [hk]
  | candidate =>
    simp only [Store.write, Store.read, upd]
    by_cases hk : k = m
    · subst hk; simp
    · rw [if_neg hk, if_neg hk]; rfl
  | operational => simp only [Store.write, Store.read, upd]
  | factory => simp only [Store.write, Store.read, upd]

/-- Modules whose content differs are marked. -/
structure Weak (old : Nat → D) (ms : List Mod) (data : Nat → D) : Prop where
  nodup : (ids ms).Nodup
  out : ∀ m, m ∉ ids ms → data m = old m
  mark : ∀ x ∈ ms, data x.id ≠ old x.id → x.changed = true

theorem Good.weak {old data : Nat → D} {ms : List Mod} (h : Good old ms data) : Weak old ms data :=
  ⟨h.nodup, h.out, fun x hx hd => by rw [h.mark x hx]; simp [hd]⟩

/-- What storing did: the store and the events. -/
structure Wrote (env : Env D) (ds : Ds) (data : Nat → D) (ms : List Mod) (s : Store D) (r : Store D × List (Ev D) × Bool) : Prop where
  ok : r.2.2 = true → ∀ m, r.1.read ds m = if ∃ x ∈ ms, x.id = m ∧ x.changed = true then data m else s.read ds m
  each : ∀ m, r.1.read ds m = s.read ds m ∨ (r.1.read ds m = data m ∧ ∃ lock, Ev.store m lock (data m) ∈ r.2.1) ∨
    env.store m = .failed (r.1.read ds m)
  one : ∀ m k, m ≠ k → r.1.read ds m ≠ s.read ds m → (∀ lock d, Ev.store m lock d ∉ r.2.1) →
    r.1.read ds k = s.read ds k ∨ (r.1.read ds k = data k ∧ ∃ lock, Ev.store k lock (data k) ∈ r.2.1)
  log : ∀ ev ∈ r.2.1, ∃ x ∈ ms, x.changed = true ∧ ev = .store x.id x.lock (data x.id)
  calm : (∀ m, env.store m = .ok) → r.2.2 = true

theorem storeLoop_wrote (env : Env D) (ds : Ds) (data : Nat → D) (ms : List Mod) (s : Store D) (hn : (ids ms).Nodup) :
    Wrote env ds data ms s (storeLoop env ds data ms s) := by
  induction ms generalizing s with
  | nil =>
    refine ⟨fun _ m => by simp [storeLoop], fun m => Or.inl rfl, fun m k _ h _ => absurd rfl h, fun ev h => ?_, fun _ => rfl⟩
    simp [storeLoop] at h
  | cons x xs ih =>
    simp only [ids, List.map_cons, List.nodup_cons] at hn
    have hx : ∀ y ∈ xs, y.id ≠ x.id := fun y hy h => hn.1 (by rw [← h]; exact mem_ids hy)
    by_cases hc : x.changed = true
    · have e : storeLoop env ds data (x :: xs) s = (match env.store x.id with
          | .failed left => (s.write ds x.id left, [], false)
          | .cacheFailed => (s.write ds x.id (data x.id), [.store x.id x.lock (data x.id)], false)
          | .ok => ((storeLoop env ds data xs (s.write ds x.id (data x.id))).1,
              .store x.id x.lock (data x.id) :: (storeLoop env ds data xs (s.write ds x.id (data x.id))).2.1,
              (storeLoop env ds data xs (s.write ds x.id (data x.id))).2.2)) := by
        rw [storeLoop, if_pos hc]
        rfl
      rw [e]
      cases hs : env.store x.id with
      | failed left =>
        simp only
        refine ⟨fun h => by simp at h, fun m => ?_, fun m k hmk hd _ => ?_, fun ev h => by simp at h, fun h => ?_⟩
        · rw [read_write]
          by_cases hm : m = x.id
          · subst hm
            right; right
            rw [if_pos rfl]; exact hs
          · rw [if_neg hm]; exact Or.inl rfl
        · rw [read_write] at hd
          by_cases hm : m = x.id
          · subst hm
            rw [read_write, if_neg (Ne.symm hmk)]
            exact Or.inl rfl
          · rw [if_neg hm] at hd; exact absurd rfl hd
        · rw [h x.id] at hs; cases hs
      | cacheFailed =>
        simp only
        refine ⟨fun h => by simp at h, fun m => ?_, fun m k hmk hd hl => ?_, fun ev h => ?_, fun h => ?_⟩
        · rw [read_write]
          by_cases hm : m = x.id
          · subst hm
            right; left
            rw [if_pos rfl]
            exact ⟨rfl, x.lock, by simp⟩
          · rw [if_neg hm]; exact Or.inl rfl
        · rw [read_write] at hd
          by_cases hm : m = x.id
          · subst hm
            exact absurd (by simp) (hl x.lock (data x.id))
          · rw [if_neg hm] at hd; exact absurd rfl hd
        · exact ⟨x, by simp, hc, by simpa using h⟩
        · rw [h x.id] at hs; cases hs
      | ok =>
        simp only
        have h := ih (s.write ds x.id (data x.id)) hn.2
        generalize storeLoop env ds data xs (s.write ds x.id (data x.id)) = r at h ⊢
        have hrx : r.1.read ds x.id = data x.id ∨ env.store x.id = .failed (r.1.read ds x.id) := by
          rcases h.each x.id with h1 | h1 | h1
          · rw [h1, read_write, if_pos rfl]; exact Or.inl rfl
          · exact Or.inl h1.1
          · exact Or.inr h1
        have hrx' : r.1.read ds x.id = data x.id := by
          rcases hrx with h1 | h1
          · exact h1
          · rw [hs] at h1; cases h1
        refine ⟨fun hok m => ?_, fun m => ?_, fun m k hmk hd hl => ?_, fun ev hev => ?_, fun hall => h.calm hall⟩
        · rw [h.ok hok m, read_write]
          by_cases hm : m = x.id
          · subst hm
            rw [if_pos rfl, if_pos (⟨x, by simp, rfl, hc⟩ : ∃ y ∈ x :: xs, y.id = x.id ∧ y.changed = true)]
            split <;> rfl
          · rw [if_neg hm]
            by_cases hex : ∃ y ∈ xs, y.id = m ∧ y.changed = true
            · obtain ⟨y, hy, hy2⟩ := hex
              rw [if_pos ⟨y, hy, hy2⟩, if_pos ⟨y, List.mem_cons_of_mem _ hy, hy2⟩]
            · rw [if_neg hex, if_neg]
              rintro ⟨y, hy, hy1, hy2⟩
              rcases List.mem_cons.1 hy with hy | hy
              · rw [hy] at hy1; exact hm hy1.symm
              · exact hex ⟨y, hy, hy1, hy2⟩
        · by_cases hm : m = x.id
          · subst hm
            exact Or.inr (Or.inl ⟨hrx', x.lock, by simp⟩)
          · rcases h.each m with h1 | ⟨h1, l, h2⟩ | h1
            · rw [read_write, if_neg hm] at h1; exact Or.inl h1
            · exact Or.inr (Or.inl ⟨h1, l, List.mem_cons_of_mem _ h2⟩)
            · exact Or.inr (Or.inr h1)
        · have hm : m ≠ x.id := by
            rintro rfl
            exact hl x.lock (data x.id) (by simp)
          have hd' : r.1.read ds m ≠ (s.write ds x.id (data x.id)).read ds m := by
            rw [read_write, if_neg hm]; exact hd
          by_cases hk : k = x.id
          · subst hk
            exact Or.inr ⟨hrx', x.lock, by simp⟩
          · rcases h.one m k hmk hd' (fun lock d hmem => hl lock d (List.mem_cons_of_mem _ hmem)) with h1 | ⟨h1, l, h2⟩
            · rw [read_write, if_neg hk] at h1; exact Or.inl h1
            · exact Or.inr ⟨h1, l, List.mem_cons_of_mem _ h2⟩
        · rcases List.mem_cons.1 hev with hev | hev
          · exact ⟨x, by simp, hc, hev⟩
          · obtain ⟨y, hy, h2⟩ := h.log ev hev
            exact ⟨y, List.mem_cons_of_mem _ hy, h2⟩
    · have e : storeLoop env ds data (x :: xs) s = storeLoop env ds data xs s := by
        rw [storeLoop, if_neg hc]
      rw [e]
      have h := ih s hn.2
      refine ⟨fun hok m => ?_, h.each, h.one, fun ev hev => ?_, h.calm⟩
      · rw [h.ok hok m]
        have : (∃ y ∈ x :: xs, y.id = m ∧ y.changed = true) ↔ ∃ y ∈ xs, y.id = m ∧ y.changed = true := by
          constructor
          · rintro ⟨y, hy, h1, h2⟩
            rcases List.mem_cons.1 hy with hy | hy
            · rw [hy] at h2; exact absurd h2 hc
            · exact ⟨y, hy, h1, h2⟩
          · rintro ⟨y, hy, h1, h2⟩
            exact ⟨y, List.mem_cons_of_mem _ hy, h1, h2⟩
        simp only [this]
      · obtain ⟨y, hy, h2⟩ := h.log ev hev
        exact ⟨y, List.mem_cons_of_mem _ hy, h2⟩

theorem upgradeMods_ids (ms : List Mod) : ids (upgradeMods ms) = ids ms := by
  simp only [upgradeMods, ids, List.map_map]
  congr 1
  funext x
  simp only [Function.comp_apply]
  split <;> rfl

theorem upgradeMods_changed (ms : List Mod) (m : Nat) :
    (∃ x ∈ upgradeMods ms, x.id = m ∧ x.changed = true) ↔ ∃ x ∈ ms, x.id = m ∧ x.changed = true := by
  constructor
  · rintro ⟨x, hx, h1, h2⟩
    obtain ⟨y, hy, rfl⟩ := List.mem_map.1 hx
    refine ⟨y, hy, ?_, ?_⟩
    · rw [← h1]; split <;> rfl
    · rw [← h2]; split <;> rfl
  · rintro ⟨x, hx, h1, h2⟩
    refine ⟨_, List.mem_map.2 ⟨x, hx, rfl⟩, ?_, ?_⟩
    · rw [← h1]; split <;> rfl
    · rw [← h2]; split <;> rfl

/-- Nothing of the last phase failed. -/
def StoresFine (env : Env D) : Prop := (∀ m, env.store m = .ok) ∧ env.downOk = true ∧ env.doneOk = true ∧ env.notifOk = true

/-- What the last phase does. -/
structure StoreSpec (env : Env D) (s : Store D) (old : Nat → D) (mi : MI D) (err2 : Bool) (log : List (Ev D)) (o : Out D) : Prop where
  ok : Weak old mi.mods mi.data → o.err = false → ∀ m, o.st.read mi.ds m = mi.data m
  each : ∀ m, o.st.read mi.ds m = s.read mi.ds m ∨
    (o.st.read mi.ds m = mi.data m ∧ ∃ lock, Ev.store m lock (mi.data m) ∈ o.log) ∨ env.store m = .failed (o.st.read mi.ds m)
  one : ∀ m k, m ≠ k → o.st.read mi.ds m ≠ s.read mi.ds m → (∀ lock d, Ev.store m lock d ∉ o.log) →
    o.st.read mi.ds k = s.read mi.ds k ∨ (o.st.read mi.ds k = mi.data k ∧ ∃ lock, Ev.store k lock (mi.data k) ∈ o.log)
  log : ∃ l, o.log = log ++ l ∧ ∀ ev ∈ l, (∃ x ∈ upgradeMods mi.mods, x.changed = true ∧ ev = .store x.id x.lock (mi.data x.id)) ∨
    ev = .done old mi.data
  calm : err2 = false → StoresFine env → o.err = true → o.st = s
  refused : err2 = true → o.err = true

omit [DecidableEq D] in
theorem not_changed {old data : Nat → D} {ms : List Mod} (h : Weak old ms data) (hc : ms.any (·.changed) = false) (m : Nat) :
    data m = old m := by
  by_cases hm : m ∈ ids ms
  · obtain ⟨x, hx, rfl⟩ := List.mem_map.1 hm
    apply Classical.byContradiction
    intro hd
    have := h.mark x hx hd
    rw [List.any_eq_false] at hc
    exact hc x hx this
  · exact h.out m hm

theorem storePhase_spec (env : Env D) (s : Store D) (old : Nat → D) (mi : MI D) (err2 : Bool) (log : List (Ev D))
    (hnd : (ids mi.mods).Nodup) (ho : s.read mi.ds = old) :
    StoreSpec env s old mi err2 log (storePhase env s old mi err2 log) := by
  unfold storePhase
  by_cases h1 : (!hasDiff env mi && !isChanged mi) = true
  · rw [if_pos h1]
    have hc : mi.mods.any (·.changed) = false := by
      simp only [Bool.and_eq_true, Bool.not_eq_true'] at h1
      exact h1.2
    refine ⟨fun hw _ m => ?_, fun m => Or.inl rfl, fun m k _ h _ => absurd rfl h, ⟨[], by simp, by simp⟩, fun _ _ _ => rfl, fun h => h⟩
    rw [not_changed hw hc m, ← ho]
  · rw [if_neg h1]
    by_cases h2 : (upgraded mi.mods).all env.upgrade = false
    · rw [if_pos h2]
      exact ⟨fun _ h => by simp at h, fun m => Or.inl rfl, fun m k _ h _ => absurd rfl h, ⟨[], by simp, by simp⟩, fun _ _ _ => rfl, fun _ => rfl⟩
    · rw [if_neg h2]
      have hn : (ids (upgradeMods mi.mods)).Nodup := by rw [upgradeMods_ids]; exact hnd
      have w := storeLoop_wrote env mi.ds mi.data (upgradeMods mi.mods) s hn
      generalize storeLoop env mi.ds mi.data (upgradeMods mi.mods) s = r at w ⊢
      obtain ⟨s', l, ok⟩ := r
      have hall : ∀ (l2 : List (Ev D)) (b : Bool), (∀ ev ∈ l2, ev = .done old mi.data) → (b = false → ok = true) →
          (b = true → err2 = false → StoresFine env → False) → (err2 = true → b = true) →
          StoreSpec env s old mi err2 log ⟨s', log ++ (l ++ l2), b⟩ := by
        intro l2 b hl2 hb hcalm href
        refine ⟨fun hw h m => ?_, fun m => ?_, fun m k hmk hd hl => ?_, ⟨l ++ l2, rfl, fun ev hev => ?_⟩, fun e2 hf he => ?_, href⟩
        · have := w.ok (hb h) m
          simp only [upgradeMods_changed] at this
          rw [this]
          split
          · rfl
          · rename_i hno
            rw [ho]
            by_cases hm : m ∈ ids mi.mods
            · obtain ⟨x, hx, hxm⟩ := List.mem_map.1 hm
              apply Classical.byContradiction
              intro hd
              exact hno ⟨x, hx, hxm, hw.mark x hx (by rw [hxm]; exact fun h => hd h.symm)⟩
            · exact (hw.out m hm).symm
        · rcases w.each m with h | ⟨h, lk, h'⟩ | h
          · exact Or.inl h
          · exact Or.inr (Or.inl ⟨h, lk, by simp only [List.mem_append]; exact Or.inr (Or.inl h')⟩)
          · exact Or.inr (Or.inr h)
        · have := w.one m k hmk hd (fun lk d hmem => hl lk d (by simp only [List.mem_append]; exact Or.inr (Or.inl hmem)))
          rcases this with h | ⟨h, lk, h'⟩
          · exact Or.inl h
          · exact Or.inr ⟨h, lk, by simp only [List.mem_append]; exact Or.inr (Or.inl h')⟩
        · rcases List.mem_append.1 hev with h | h
          · exact Or.inl (w.log ev h)
          · exact Or.inr (hl2 ev h)
        · exact absurd hf (fun hf => hcalm he e2 hf)
      cases ok with
      | false =>
        simp only
        have := hall [] true (by simp) (by simp) (fun _ _ hf => by have := w.calm hf.1; simp at this) (fun _ => rfl)
        simpa using this
      | true =>
        simp only
        by_cases h3 : (!env.downOk) = true
        · rw [if_pos h3]
          have := hall [] true (by simp) (by simp) (fun _ _ hf => by rw [hf.2.1] at h3; simp at h3) (fun _ => rfl)
          simpa using this
        · rw [if_neg h3]
          have hl' : (if (env.chgSub && hasDiff env mi) = true then l ++ [Ev.done old mi.data] else l) =
              l ++ (if (env.chgSub && hasDiff env mi) = true then [Ev.done old mi.data] else []) := by
            split <;> simp
          have hdone : ∀ ev ∈ (if (env.chgSub && hasDiff env mi) = true then [Ev.done old mi.data] else ([] : List (Ev D))),
              ev = .done old mi.data := by
            intro ev hev
            split at hev
            · simpa using hev
            · simp at hev
          rw [hl']
          by_cases h4 : (!env.doneOk || !env.notifOk) = true
          · rw [if_pos h4]
            exact hall _ true hdone (by simp) (fun _ _ hf => by rw [hf.2.2.1, hf.2.2.2] at h4; simp at h4) (fun _ => rfl)
          · rw [if_neg h4]
            exact hall _ err2 hdone (fun _ => rfl) (fun h1 h2 _ => by rw [h1] at h2; cases h2) (fun h => h)

/-! ## The exits -/

/-- The data passed access control, validation and the permission check. -/
structure Checked (env : Env D) (mi mi1 : MI D) : Prop where
  diff : hasDiff env mi = true
  nacm : env.nacmUser = true → env.nacm mi.base mi.data = .ok
  valid : check env env.depsOk env.valOk mi = some (mi1, 0)
  diff1 : hasDiff env mi1 = true
  perm : permOk env mi1 = true

/-- The subscribers accepted the data, possibly changing them. -/
inductive Updated (env : Env D) (old : Nat → D) (mi1 : MI D) : MI D → Prop
  | none : Updated env old mi1 mi1
  | some {e : Edit D} {mi2 : MI D} (sub : env.updSub = true) (res : env.upd old mi1.data = .ok (some e))
      (apply : updateApply env e mi1 = some (mi2, 0)) : Updated env old mi1 mi2

/-- The exits of `notifyStore`. -/
inductive Path (env : Env D) (s : Store D) (old : Nat → D) (mi : MI D) (err2 : Bool) : Out D → Prop
  | noDiff (h : hasDiff env mi = false) : Path env s old mi err2 (storePhase env s old mi err2 [])
  | refused : Path env s old mi err2 ⟨s, [], true⟩
  | vanished {mi1 : MI D} (hd : hasDiff env mi = true) (hn : env.nacmUser = true → env.nacm mi.base mi.data = .ok)
      (hv : check env env.depsOk env.valOk mi = some (mi1, 0)) (h : hasDiff env mi1 = false) :
      Path env s old mi err2 (storePhase env s old mi1 err2 [])
  | update {mi1 : MI D} (hc : Checked env mi mi1) : Path env s old mi err2 ⟨s, updLog env old mi1, true⟩
  | change {mi1 mi2 : MI D} (hc : Checked env mi mi1) (he : err2 = false) (hu : Updated env old mi1 mi2) :
      Path env s old mi err2 (changePhase env s old mi2 (updLog env old mi1))

theorem updatePhase_path (env : Env D) (s : Store D) (old : Nat → D) (mi1 : MI D) (err2 : Bool) (Q : Out D → Prop)
    (h1 : Q ⟨s, updLog env old mi1, true⟩)
    (h2 : ∀ mi2, err2 = false → Updated env old mi1 mi2 → Q (changePhase env s old mi2 (updLog env old mi1))) :
    Q (updatePhase env s old mi1 err2) := by
  have hsame : Q (if err2 then ⟨s, updLog env old mi1, true⟩ else changePhase env s old mi1 (updLog env old mi1)) := by
    cases he : err2 with
    | true => exact h1
    | false => exact h2 mi1 he .none
  unfold updatePhase
  split
  · exact h1
  · exact h1
  · exact hsame
  · exact hsame
  · rename_i e hres
    split
    · exact h1
    · rename_i mi2 n2 happ
      by_cases h7 : (err2 || decide (n2 ≠ 0)) = true
      · rw [if_pos h7]; exact h1
      · rw [if_neg h7]
        simp only [Bool.or_eq_true, decide_eq_true_eq, not_or] at h7
        have hn2 : n2 = 0 := by omega
        subst hn2
        unfold updRes at hres
        have hsub : env.updSub = true := by
          cases hb : env.updSub with
          | true => rfl
          | false => rw [hb] at hres; simp at hres
        rw [if_pos hsub] at hres
        exact h2 mi2 (by simpa using h7.1) (.some hsub hres happ)

theorem notifyStore_path (env : Env D) (s : Store D) (old : Nat → D) (mi : MI D) (err2 : Bool) :
    Path env s old mi err2 (notifyStore env s old mi err2) := by
  unfold notifyStore
  by_cases h1 : (!hasDiff env mi) = true
  · rw [if_pos h1]; exact .noDiff (by simpa using h1)
  · rw [if_neg h1]
    have hd : hasDiff env mi = true := by simpa using h1
    by_cases h2 : (env.nacmUser && decide (env.nacm mi.base mi.data ≠ .ok)) = true
    · rw [if_pos (by simpa using h2)]; exact .refused
    · rw [if_neg (by simpa using h2)]
      have hn : env.nacmUser = true → env.nacm mi.base mi.data = .ok := by
        intro hu
        rw [hu] at h2
        simpa using h2
      split
      · exact .refused
      · rename_i mi1 n hv
        by_cases h3 : n ≠ 0
        · rw [if_pos h3]; exact .refused
        · rw [if_neg h3]
          have hn0 : n = 0 := by omega
          subst hn0
          by_cases h4 : (!hasDiff env mi1) = true
          · rw [if_pos h4]; exact .vanished hd hn hv (by simpa using h4)
          · rw [if_neg h4]
            by_cases h5 : (!permOk env mi1) = true
            · rw [if_pos h5]; exact .refused
            · rw [if_neg h5]
              have hc : Checked env mi mi1 := ⟨hd, hn, hv, by simpa using h4, by simpa using h5⟩
              by_cases h6 : (!env.subLock) = true
              · rw [if_pos h6]; exact .refused
              · rw [if_neg h6]
                exact updatePhase_path env s old mi1 err2 (Path env s old mi err2) (.update hc) (fun mi2 he hu => .change hc he hu)

/-- The exits of the change phase. -/
inductive ChangePath (env : Env D) (s : Store D) (old : Nat → D) (mi : MI D) (log : List (Ev D)) : Out D → Prop
  | noDiff (h : hasDiff env mi = false) : ChangePath env s old mi log (storePhase env s old mi false log)
  | internal (h : hasDiff env mi = true) (hs : env.chgSub = true) (hr : env.chg old mi.data = .internal) :
      ChangePath env s old mi log ⟨s, log ++ [.change old mi.data], true⟩
  | refused (h : hasDiff env mi = true) (hs : env.chgSub = true) (hr : env.chg old mi.data = .refused) :
      ChangePath env s old mi log ⟨s, log ++ [.change old mi.data] ++ [.abort old mi.data], true⟩
  | accepted (h : hasDiff env mi = true) (hs : env.chgSub = true) (hr : env.chg old mi.data = .ok) :
      ChangePath env s old mi log (storePhase env s old mi false (log ++ [.change old mi.data]))
  | nobody (h : hasDiff env mi = true) (hs : env.chgSub = false) : ChangePath env s old mi log (storePhase env s old mi false log)

theorem changePhase_path (env : Env D) (s : Store D) (old : Nat → D) (mi : MI D) (log : List (Ev D)) :
    ChangePath env s old mi log (changePhase env s old mi log) := by
  unfold changePhase
  cases h : hasDiff env mi with
  | false => simp only [Bool.not_false, if_true]; exact .noDiff h
  | true =>
    simp only [Bool.not_true, Bool.false_eq_true, if_false]
    cases hs : env.chgSub with
    | false => simp only [Bool.false_eq_true, if_false]; exact .nobody h hs
    | true =>
      simp only [if_true]
      cases hr : env.chg old mi.data with
      | ok => exact .accepted h hs hr
      | refused => exact .refused h hs hr
      | internal => exact .internal h hs hr

/-! ## The mod info along the exits -/

/-- Validation and adding defaults change nothing. -/
def Neutral (env : Env D) : Prop := ∀ m data, env.valMod m data = data m ∧ env.defMod m data = data m

theorem afterVal_same (x : Mod) (b d : D) : x.afterVal b d d = x := by simp [Mod.afterVal]

theorem upd_self {α : Type} (f : Nat → α) (m : Nat) : upd f m (f m) = f := by
  funext k; simp only [upd]; split <;> simp_all

theorem valLoop_neutral {env : Env D} (h : Neutral env) (base : Nat → D) (ms : List Mod) (data : Nat → D) :
    (valLoop env base ms data).1 = ms ∧ (valLoop env base ms data).2.1 = data := by
  induction ms with
  | nil => exact ⟨rfl, rfl⟩
  | cons x xs ih =>
    simp only [valLoop]
    split
    · simp only [(h x.id data).1, upd_self, afterVal_same, ih.1, ih.2, and_self]
    · simp only [ih.1, ih.2, and_self]

theorem defLoop_neutral {env : Env D} (h : Neutral env) (base : Nat → D) (ms : List Mod) (data : Nat → D) :
    (defLoop env base ms data).1 = ms ∧ (defLoop env base ms data).2 = data := by
  induction ms with
  | nil => exact ⟨rfl, rfl⟩
  | cons x xs ih =>
    simp only [defLoop]
    split
    · simp only [(h x.id data).2, upd_self, afterVal_same, ih.1, ih.2, and_self]
    · simp only [ih.1, ih.2, and_self]

theorem check_frame {env : Env D} {a b : Bool} {mi mi' : MI D} {n : Nat} (h : check env a b mi = some (mi', n)) :
    ((ids mi.mods).Nodup → (ids mi'.mods).Nodup) ∧ mi'.base = mi.base ∧ mi'.ds = mi.ds := by
  have hval : ∀ mi' n, validate env (withDeps env mi) = (mi', n) →
      ((ids mi.mods).Nodup → (ids mi'.mods).Nodup) ∧ mi'.base = mi.base ∧ mi'.ds = mi.ds := by
    intro mi' n he
    simp only [validate] at he
    cases he
    refine ⟨fun hn => ?_, rfl, rfl⟩
    show (ids (valLoop env mi.base (withDeps env mi).mods mi.data).1).Nodup
    rw [ids_unmark (valLoop_loop env mi.base (withDeps env mi).mods mi.data).same]
    exact (withDeps_ext env mi).nodup hn
  unfold check at h
  cases hd : mi.ds with
  | startup =>
    rw [hd] at h hval; simp only at h
    split at h
    · exact hval _ _ (Option.some.inj h)
    · cases h
  | running =>
    rw [hd] at h hval; simp only at h
    split at h
    · exact hval _ _ (Option.some.inj h)
    · cases h
  | candidate =>
    rw [hd] at h; simp only at h
    split at h
    · cases h
      refine ⟨fun hn => ?_, rfl, hd⟩
      show (ids (defLoop env mi.base mi.mods mi.data).1).Nodup
      rw [ids_unmark (defLoop_loop env mi.base mi.mods mi.data).same]
      exact hn
    · cases h
  | operational => rw [hd] at h; cases h; exact ⟨id, rfl, hd⟩
  | factory => rw [hd] at h; cases h

/-- Without changes made by validation the data stay. -/
theorem check_neutral {env : Env D} {a b : Bool} {mi mi' : MI D} {n : Nat} (hne : Neutral env) (h : check env a b mi = some (mi', n)) :
    mi'.data = mi.data ∧ Ext mi.mods mi'.mods := by
  have hval : ∀ mi' n, validate env (withDeps env mi) = (mi', n) → mi'.data = mi.data ∧ Ext mi.mods mi'.mods := by
    intro mi' n he
    simp only [validate] at he
    cases he
    have := valLoop_neutral hne mi.base (withDeps env mi).mods mi.data
    refine ⟨this.2, ?_⟩
    show Ext mi.mods (valLoop env mi.base (withDeps env mi).mods mi.data).1
    rw [this.1]
    exact withDeps_ext env mi
  unfold check at h
  cases hd : mi.ds with
  | startup =>
    rw [hd] at h; simp only at h
    split at h
    · exact hval _ _ (Option.some.inj h)
    · cases h
  | running =>
    rw [hd] at h; simp only at h
    split at h
    · exact hval _ _ (Option.some.inj h)
    · cases h
  | candidate =>
    rw [hd] at h; simp only at h
    split at h
    · cases h
      have := defLoop_neutral hne mi.base mi.mods mi.data
      refine ⟨this.2, ?_⟩
      show Ext mi.mods (defLoop env mi.base mi.mods mi.data).1
      rw [this.1]
      exact Ext.refl _
    · cases h
  | operational => rw [hd] at h; cases h; exact ⟨rfl, Ext.refl _⟩
  | factory => rw [hd] at h; cases h

omit [DecidableEq D] in
theorem Weak.ext {old data : Nat → D} {a b : List Mod} (h : Weak old a data) (e : Ext a b) : Weak old b data := by
  refine ⟨e.nodup h.nodup, fun m hm => h.out m fun h' => hm (e.sub m h'), fun y hy hd => ?_⟩
  rcases e.mark y hy with ⟨x, hx, e1, e2⟩ | ⟨hn, e2⟩
  · rw [← e2]; exact h.mark x hx (by rw [e1]; exact hd)
  · exact absurd (h.out _ hn) hd

theorem applyLoop_weak (e : Edit D) (old : Nat → D) (ms : List Mod) (data : Nat → D) (h : Weak old ms data) :
    Weak old (applyLoop e ms data).1 (applyLoop e ms data).2 := by
  have hl := applyLoop_loop e ms data
  refine ⟨by rw [ids_unmark hl.same]; exact h.nodup, fun m hm => ?_, ?_⟩
  · rw [ids_unmark hl.same] at hm
    rw [hl.out m hm, h.out m hm]
  · have key : ∀ (ms : List Mod) (data : Nat → D), (ids ms).Nodup → (∀ x ∈ ms, data x.id ≠ old x.id → x.changed = true) →
        ∀ x ∈ (applyLoop e ms data).1, (applyLoop e ms data).2 x.id ≠ old x.id → x.changed = true := by
      intro ms
      induction ms with
      | nil => intro data _ _ x hx; simp [applyLoop] at hx
      | cons y ys ih =>
        intro data hn hm x hx hd
        simp only [ids, List.map_cons, List.nodup_cons] at hn
        simp only [applyLoop, List.mem_cons] at hx
        rcases hx with hx | hx
        · have hv : (applyLoop e (y :: ys) data).2 y.id = e.result y.id (data y.id) := by
            simp only [applyLoop]
            rw [(applyLoop_loop e ys _).out _ hn.1, upd_same]
          rw [hx, markIf_id, hv] at hd
          rw [hx, markIf_changed]
          by_cases hs : e.result y.id (data y.id) = data y.id
          · rw [hs] at hd
            rw [hm y (by simp) hd]; simp
          · simp [hs]
        · refine ih _ hn.2 (fun z hz hdz => ?_) x hx hd
          rw [upd_ne] at hdz
          · exact hm z (List.mem_cons_of_mem _ hz) hdz
          · intro h; exact hn.1 (by rw [← h]; exact mem_ids hz)
    exact key ms data h.nodup h.mark

/-- The mod info before the changes of update subscribers are applied. -/
def withForeign (env : Env D) (e : Edit D) (mi : MI D) : MI D :=
  if isForeign e mi.mods then
    { mi with mods := consolidate env .req (mi.ds ≠ .candidate) .upgr (e.mods.foldl (fun a m => addMod m a) mi.mods) }
  else mi

theorem withForeign_ext (env : Env D) (e : Edit D) (mi : MI D) : Ext mi.mods (withForeign env e mi).mods := by
  unfold withForeign
  split
  · exact (foldl_ext _ (fun a m => addMod_ext m a) _ _).trans (consolidate_ext env _ _ _ _)
  · exact Ext.refl _

theorem withForeign_frame (env : Env D) (e : Edit D) (mi : MI D) :
    (withForeign env e mi).data = mi.data ∧ (withForeign env e mi).ds = mi.ds := by
  unfold withForeign; split <;> exact ⟨rfl, rfl⟩

theorem updateApply_some {env : Env D} {e : Edit D} {mi mi2 : MI D} {n : Nat} (h : updateApply env e mi = some (mi2, n)) :
    ∃ mi3 k, check env env.depsOk2 env.valOk2 (editApply e (withForeign env e mi)) = some (mi3, k) ∧
      mi2 = { mi3 with base := mi.base } ∧ n = e.refused mi.data + k := by
  unfold updateApply at h
  by_cases h1 : mi.ds = .operational
  · rw [if_pos h1] at h; cases h
  · rw [if_neg h1] at h
    split at h
    · cases h
    · simp only at h
      split at h
      · cases h
      · rename_i mi3 k hc
        split at h
        · have h := Option.some.inj h
          refine ⟨mi3, k, hc, (Prod.mk.inj h).1.symm, ?_⟩
          rw [← (Prod.mk.inj h).2]
          congr 2
          split <;> rfl
        · cases h

theorem updateApply_frame {env : Env D} {e : Edit D} {mi mi2 : MI D} {n : Nat} (h : updateApply env e mi = some (mi2, n))
    (hn : (ids mi.mods).Nodup) : (ids mi2.mods).Nodup ∧ mi2.base = mi.base ∧ mi2.ds = mi.ds := by
  obtain ⟨mi3, k, hc, rfl, -⟩ := updateApply_some h
  have hf := check_frame hc
  refine ⟨hf.1 ?_, rfl, hf.2.2.trans (withForeign_frame env e mi).2⟩
  show (ids (applyLoop e (withForeign env e mi).mods (withForeign env e mi).data).1).Nodup
  rw [ids_unmark (applyLoop_loop e _ _).same]
  exact (withForeign_ext env e mi).nodup hn

theorem updateApply_weak {env : Env D} {e : Edit D} {mi mi2 : MI D} {n : Nat} (hne : Neutral env) (h : updateApply env e mi = some (mi2, n))
    {old : Nat → D} (hw : Weak old mi.mods mi.data) : Weak old mi2.mods mi2.data := by
  obtain ⟨mi3, k, hc, rfl, -⟩ := updateApply_some h
  have hf := check_neutral hne hc
  have h1 : Weak old (withForeign env e mi).mods (withForeign env e mi).data := by
    rw [(withForeign_frame env e mi).1]
    exact hw.ext (withForeign_ext env e mi)
  have h2 : Weak old (editApply e (withForeign env e mi)).mods (editApply e (withForeign env e mi)).data :=
    applyLoop_weak e old _ _ h1
  show Weak old mi3.mods mi3.data
  rw [hf.1]
  exact h2.ext hf.2

theorem Updated.frame {env : Env D} {old : Nat → D} {mi1 mi2 : MI D} (h : Updated env old mi1 mi2) (hn : (ids mi1.mods).Nodup) :
    (ids mi2.mods).Nodup ∧ mi2.base = mi1.base ∧ mi2.ds = mi1.ds := by
  cases h with
  | none => exact ⟨hn, rfl, rfl⟩
  | some _ _ ha => exact updateApply_frame ha hn

end Verif.Pipeline

namespace Verif.Pipeline
variable {D : Type} [DecidableEq D]

/-- No changes by update subscribers, or no changes by validation. -/
def NoLoss (env : Env D) : Prop :=
  (∀ (o n : Nat → D) (e : Edit D), env.updSub = true → env.upd o n ≠ .ok (some e)) ∨ Neutral env

/-- An event for subscribers, not the storing of a module. -/
def Ev.isStore : Ev D → Bool
  | .store _ _ _ => true
  | _ => false

/-- The two kinds of outcomes of a call: nothing was stored and an error is returned, or the last phase was reached. -/
inductive Outcome (env : Env D) (s : Store D) (ds : Ds) : Out D → Prop
  | early {log : List (Ev D)} (hl : ∀ ev ∈ log, ev.isStore = false)
      (hc : ∀ o n, Ev.change o n ∈ log → o = s.read ds) (hd : ∀ o n, Ev.done o n ∉ log) : Outcome env s ds ⟨s, log, true⟩
  | last {mi : MI D} {err2 : Bool} {log : List (Ev D)} (hn : (ids mi.mods).Nodup) (hds : mi.ds = ds)
      (hw : NoLoss env → Weak (s.read ds) mi.mods mi.data) (hl : ∀ ev ∈ log, ev.isStore = false)
      (hc : ∀ o n, Ev.change o n ∈ log → o = s.read ds ∧ n = mi.data) (hd : ∀ o n, Ev.done o n ∉ log)
      (he : err2 = true → hasDiff env mi = false ∧ isChanged mi = false) :
      Outcome env s ds (storePhase env s (s.read ds) mi err2 log)

theorem Good.quiet {env : Env D} {mi : MI D} (h : Good mi.base mi.mods mi.data) (hd : hasDiff env mi = false)
    (ho : mi.ds ≠ .operational) : isChanged mi = false := by
  unfold hasDiff at hd
  rw [if_neg ho] at hd
  unfold isChanged
  rw [List.any_eq_false] at hd ⊢
  intro x hx
  have h1 := hd x hx
  rw [h.mark x hx]
  simpa using h1

theorem updLog_shape (env : Env D) (old : Nat → D) (mi : MI D) : ∀ ev ∈ updLog env old mi, ev = .update old mi.data := by
  intro ev h
  unfold updLog at h
  split at h
  · simpa using h
  · simp at h

/-- The outcome of `notifyStore`. -/
theorem notifyStore_outcome (env : Env D) (s : Store D) (mi : MI D) (err2 : Bool) (hb : mi.base = s.read mi.ds)
    (hg : Good mi.base mi.mods mi.data) (hop : mi.ds = .operational → err2 = false) : Outcome env s mi.ds (notifyStore env s (s.read mi.ds) mi err2) := by
  have hq : ∀ mi1 : MI D, Good mi1.base mi1.mods mi1.data → mi1.ds = mi.ds → hasDiff env mi1 = false → err2 = true →
      isChanged mi1 = false := by
    intro mi1 h1 hds h2 he
    by_cases ho : mi1.ds = .operational
    · rw [hop (hds ▸ ho)] at he; cases he
    · exact h1.quiet h2 ho
  have hul : ∀ mi1 : MI D, ∀ ev ∈ updLog env (s.read mi.ds) mi1, ev.isStore = false := by
    intro mi1 ev hev
    rw [updLog_shape env _ mi1 ev hev]
    rfl
  have huc : ∀ (mi1 : MI D) o n, Ev.change o n ∉ updLog env (s.read mi.ds) mi1 := by
    intro mi1 o n h
    cases updLog_shape env _ mi1 _ h
  have hud : ∀ (mi1 : MI D) o n, Ev.done o n ∉ updLog env (s.read mi.ds) mi1 := by
    intro mi1 o n h
    cases updLog_shape env _ mi1 _ h
  have hp := notifyStore_path env s (s.read mi.ds) mi err2
  generalize notifyStore env s (s.read mi.ds) mi err2 = o at hp ⊢
  cases hp with
  | noDiff h =>
    exact .last hg.nodup rfl (fun _ => by rw [← hb]; exact hg.weak) (by simp) (by simp) (by simp) (fun he => ⟨h, hq mi hg rfl h he⟩)
  | refused => exact .early (by simp) (by simp) (by simp)
  | vanished hd hn hv h =>
    have hg1 := check_good hv hg
    refine .last hg1.1.nodup hg1.2.2 (fun _ => by rw [← hb]; exact hg1.1.weak) (by simp) (by simp) (by simp) (fun he => ⟨h, hq _ ?_ hg1.2.2 h he⟩)
    rw [hg1.2.1]; exact hg1.1
  | update hc => exact .early (hul _) (fun o n h => absurd h (huc _ o n)) (hud _)
  | @change mi1 mi2 hc he hu =>
    have hg1 := check_good hc.valid hg
    have hf := hu.frame hg1.1.nodup
    have hw : NoLoss env → Weak (s.read mi.ds) mi2.mods mi2.data := by
      intro hno
      rw [← hb]
      cases hu with
      | none => exact hg1.1.weak
      | some hs hr ha =>
        rcases hno with h | h
        · exact absurd hr (h _ _ _ hs)
        · exact updateApply_weak h ha hg1.1.weak
    have hds : mi2.ds = mi.ds := hf.2.2.trans hg1.2.2
    have hp2 := changePhase_path env s (s.read mi.ds) mi2 (updLog env (s.read mi.ds) mi1)
    generalize changePhase env s (s.read mi.ds) mi2 (updLog env (s.read mi.ds) mi1) = o at hp2 ⊢
    cases hp2 with
    | noDiff h => exact .last hf.1 hds hw (hul _) (fun o n h => absurd h (huc _ o n)) (hud _) (by simp)
    | nobody h hs => exact .last hf.1 hds hw (hul _) (fun o n h => absurd h (huc _ o n)) (hud _) (by simp)
    | internal h hs hr =>
      refine .early (fun ev hev => ?_) (fun o n hm => ?_) (fun o n hm => ?_)
      · rcases List.mem_append.1 hev with h' | h'
        · exact hul _ ev h'
        · have : ev = .change (s.read mi.ds) mi2.data := by simpa using h'
          rw [this]; rfl
      · rcases List.mem_append.1 hm with h' | h'
        · exact absurd h' (huc _ o n)
        · simp only [List.mem_singleton, Ev.change.injEq] at h'
          exact h'.1
      · rcases List.mem_append.1 hm with h' | h'
        · exact hud _ o n h'
        · simp at h'
    | refused h hs hr =>
      refine .early (fun ev hev => ?_) (fun o n hm => ?_) (fun o n hm => ?_)
      · simp only [List.mem_append, List.mem_singleton] at hev
        rcases hev with (h' | h') | h'
        · exact hul _ ev h'
        · rw [h']; rfl
        · rw [h']; rfl
      · simp only [List.mem_append, List.mem_singleton] at hm
        rcases hm with (h' | h') | h'
        · exact absurd h' (huc _ o n)
        · simp only [Ev.change.injEq] at h'; exact h'.1
        · cases h'
      · simp only [List.mem_append, List.mem_singleton] at hm
        rcases hm with (h' | h') | h'
        · exact hud _ o n h'
        · cases h'
        · cases h'
    | accepted h hs hr =>
      refine .last hf.1 hds hw (fun ev hev => ?_) (fun o n hm => ?_) (fun o n hm => ?_) (by simp)
      · simp only [List.mem_append, List.mem_singleton] at hev
        rcases hev with h' | h'
        · exact hul _ ev h'
        · rw [h']; rfl
      · simp only [List.mem_append, List.mem_singleton] at hm
        rcases hm with h' | h'
        · exact absurd h' (huc _ o n)
        · simp only [Ev.change.injEq] at h'; exact h'
      · simp only [List.mem_append, List.mem_singleton] at hm
        rcases hm with h' | h'
        · exact hud _ o n h'
        · cases h'

theorem editApply_loaded (env : Env D) (s : Store D) (ds : Ds) (e : Edit D) (inv : Bool) :
    Good (s.read ds) (editApply e (loaded env s ds e.mods inv)).mods (editApply e (loaded env s ds e.mods inv)).data :=
  applyLoop_good e _ _ (loaded_good env s ds e.mods inv)

theorem replaceData_loaded (env : Env D) (s : Store D) (ds : Ds) (ms : List Nat) (src : Nat → D) (inv : Bool) :
    Good (s.read ds) (replaceData src (loaded env s ds ms inv)).mods (replaceData src (loaded env s ds ms inv)).data :=
  replaceLoop_good src _ _ (loaded_good env s ds ms inv)

/-- The outcome of applying changes. -/
theorem applyChanges_outcome (env : Env D) (s : Store D) (ds : Ds) (e : Edit D) : Outcome env s ds (applyChanges env s ds e) := by
  unfold applyChanges
  split
  · exact .early (by simp) (by simp) (by simp)
  · simp only
    split
    · split
      · exact .early (by simp) (by simp) (by simp)
      · exact notifyStore_outcome env s (editApply e (loaded env s ds e.mods _)) false rfl (editApply_loaded env s ds e _) (fun _ => rfl)
    · rename_i hds
      exact notifyStore_outcome env s (editApply e (loaded env s ds e.mods _)) _ rfl (editApply_loaded env s ds e _)
        (fun h => absurd h hds)

/-- The outcome of replacing the configuration. -/
theorem replaceConfig_outcome (env : Env D) (s : Store D) (ds : Ds) (ms : List Nat) (src : Nat → D) :
    Outcome env s ds (replaceConfig env s ds ms src) := by
  unfold replaceConfig
  split
  · exact .early (by simp) (by simp) (by simp)
  · exact notifyStore_outcome env s (replaceData src (loaded env s ds ms true)) false rfl (replaceData_loaded env s ds ms src _)
      (fun _ => rfl)

end Verif.Pipeline
