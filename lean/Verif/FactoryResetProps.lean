import Verif.FactoryReset
import Verif.CandidateProps
/-!
Properties of the RPC `factory-reset` (C63).
-/
namespace Verif.Pipeline
variable {D : Type} [DecidableEq D]

/-! ## Specification -/

/-- What modules `ms` refer to and what refers to them is among `ms`. -/
def Closed (env : Env D) (ms : List Nat) : Prop := ∀ m ∈ ms, (∀ k ∈ env.invDeps m, k ∈ ms) ∧ ∀ data, ∀ k ∈ env.deps m data, k ∈ ms

/-! ## Lemmas -/

theorem ids_addMod (m : Nat) (a : List Mod) : ∀ k ∈ ids (addMod m a), k ∈ ids a ∨ k = m := by
  intro k hk
  unfold addMod at hk
  split at hk
  · obtain ⟨y, hy, rfl⟩ := List.mem_map.1 hk
    obtain ⟨z, hz, rfl⟩ := List.mem_map.1 hy
    left
    have : (if (z.id == m && !z.req) = true then ({ z with new := true } : Mod) else z).id = z.id := by split <;> rfl
    rw [this]; exact mem_ids hz
  · simp only [ids, List.map_append, List.mem_append, List.map_cons, List.map_nil, List.mem_singleton] at hk
    exact hk

theorem ids_addInv (m : Nat) (a : List Mod) : ∀ k ∈ ids (addInv m a), k ∈ ids a ∨ k = m := by
  intro k hk
  unfold addInv at hk
  split at hk
  · obtain ⟨y, hy, rfl⟩ := List.mem_map.1 hk
    obtain ⟨z, hz, rfl⟩ := List.mem_map.1 hy
    left
    have : (if (z.id == m) = true then z.setKind .inv else z).id = z.id := by split <;> rfl
    rw [this]; exact mem_ids hz
  · simp only [ids, List.map_append, List.mem_append, List.map_cons, List.map_nil, List.mem_singleton] at hk
    exact hk

theorem ids_fold {α : Type} (P : Nat → Prop) (g : List Mod → α → List Mod) (xs : List α)
    (hg : ∀ x ∈ xs, ∀ a, (∀ k ∈ ids a, P k) → ∀ k ∈ ids (g a x), P k) (a : List Mod) (ha : ∀ k ∈ ids a, P k) :
    ∀ k ∈ ids (xs.foldl g a), P k := by
  induction xs generalizing a with
  | nil => exact ha
  | cons x xs ih => exact ih (fun y hy => hg y (List.mem_cons_of_mem _ hy)) _ (hg x (List.mem_cons_self ..) a ha)

theorem ids_map (f : Mod → Mod) (hf : ∀ x, (f x).id = x.id) (a : List Mod) : ids (a.map f) = ids a := by
  simp [ids, List.map_map, Function.comp_def, hf]

theorem ids_consolidate (env : Env D) (P : Nat → Prop) (k : Kind) (inv : Bool) (l : Lock) (a : List Mod) (ha : ∀ m ∈ ids a, P m)
    (hp : ∀ m, P m → ∀ j ∈ env.invDeps m, P j) : ∀ m ∈ ids (consolidate env k inv l a), P m := by
  have h1 : ∀ m ∈ ids (markNew k a), P m := by
    unfold markNew
    rw [ids_map _ (fun x => by split <;> (cases k <;> rfl))]
    exact ha
  have h2 : ∀ b : List Mod, ids (lockMods l b) = ids b := fun b => ids_map _ (fun x => by split <;> rfl) b
  unfold consolidate
  split
  · cases inv with
    | false => rw [h2]; exact h1
    | true =>
      rw [h2]
      simp only [if_true]
      refine ids_fold P _ _ (fun x hx b hb => ?_) _ h1
      refine ids_fold P _ _ (fun j hj c hc => ?_) b hb
      intro q hq
      rcases ids_addInv j c q hq with h | h
      · exact hc q h
      · rw [h]; exact hp x.id (h1 _ (mem_ids (List.mem_filter.1 hx).1)) j hj
  · exact ha

/-- With the modules closed under dependencies, mod info has just them after a pass. -/
theorem passMods_closed (env : Env D) (s : Store D) (ds : Ds) (ms : List Nat) (src : Nat → D) (hc : Closed env ms) :
    ∀ m ∈ passMods env s ds ms src, m ∈ ms := by
  have hl : ∀ m ∈ ids (loaded env s ds ms true).mods, m ∈ ms := by
    refine ids_consolidate env (· ∈ ms) .req true .upgr _ ?_ (fun m hm j hj => (hc m hm).1 j hj)
    refine ids_fold (· ∈ ms) _ ms (fun x hx a ha k hk => ?_) [] (by simp [ids])
    rcases ids_addMod x a k hk with h | h
    · exact ha k h
    · rw [h]; exact hx
  have hr : ∀ m ∈ ids (replaceData src (loaded env s ds ms true)).mods, m ∈ ms := by
    have : ids (replaceData src (loaded env s ds ms true)).mods = ids (loaded env s ds ms true).mods :=
      ids_unmark (replaceLoop_loop src _ _).same
    rw [this]; exact hl
  generalize hmi : replaceData src (loaded env s ds ms true) = mi at hr
  have hval : ∀ m ∈ ids (validate env (withDeps env mi)).1.mods, m ∈ ms := by
    have : ids (validate env (withDeps env mi)).1.mods = ids (withDeps env mi).mods := ids_unmark (valLoop_loop env mi.base _ _).same
    rw [this]
    refine ids_consolidate env (· ∈ ms) .dep false .read _ ?_ (fun m hm j hj => (hc m hm).1 j hj)
    refine ids_fold (· ∈ ms) _ _ (fun x hx a ha k hk => ?_) _ hr
    rcases ids_addMod x a k hk with h | h
    · exact ha k h
    · rw [h]
      obtain ⟨y, hy, hxy⟩ := List.mem_flatMap.1 hx
      exact (hc y.id (hr _ (mem_ids (List.mem_filter.1 hy).1))).2 _ _ hxy
  intro m hm
  unfold passMods at hm
  simp only [hmi] at hm
  split at hm
  · split at hm
    · rename_i mi1 n hck
      unfold check at hck
      cases hd : mi.ds with
      | startup | running =>
        rw [hd] at hck; simp only at hck
        split at hck
        · have := (Prod.mk.inj (Option.some.inj hck)).1
          rw [← this] at hm
          exact hval m hm
        · cases hck
      | candidate =>
        rw [hd] at hck; simp only at hck
        split at hck
        · have := (Prod.mk.inj (Option.some.inj hck)).1
          rw [← this] at hm
          have he : ids (addDefaults env mi).mods = ids mi.mods := ids_unmark (defLoop_loop env mi.base _ _).same
          exact hr m (by rw [← he]; exact hm)
        · cases hck
      | operational => rw [hd] at hck; cases hck; exact hr m hm
      | factory => rw [hd] at hck; cases hck
    · exact hr m hm
  · exact hr m hm

/-- The modules reset are in mod info after a pass. -/
theorem passMods_sub (env : Env D) (s : Store D) (ds : Ds) (ms : List Nat) (src : Nat → D) :
    ∀ m ∈ ms, m ∈ passMods env s ds ms src := by
  intro m hm
  have h0 : Has (·.req) m (replaceData src (loaded env s ds ms true)).mods := by
    obtain ⟨x, hx, h1, h2⟩ := (loaded_has env s ds ms true m hm).1
    simp only [Bool.and_eq_true] at h2
    exact replaceLoop_has stays_req src _ ⟨x, hx, h1, h2.1⟩
  have hid : ∀ mi : MI D, Has (·.req) m mi.mods → m ∈ mi.mods.map (·.id) := by
    rintro mi ⟨x, hx, h1, -⟩
    exact List.mem_map.2 ⟨x, hx, h1⟩
  unfold passMods
  simp only
  split
  · split
    · rename_i mi1 n hck
      exact hid mi1 (h0.check stays_req hck)
    · exact hid _ h0
  · exact hid _ h0

theorem write_runOff (s : Store D) (ds : Ds) (m : Nat) (d : D) : (s.write ds m d).runOff = s.runOff := by
  cases ds with
  | running => by_cases hr : s.runOff m = true <;> simp [Store.write, hr]
  | _ => rfl

theorem Outcome.runOff {env : Env D} {s : Store D} {ds : Ds} {o : Out D} (h : Outcome env s ds o) : o.st.runOff = s.runOff :=
  h.ind (fun t => t.runOff = s.runOff) (fun t m d ht => by rw [write_runOff]; exact ht) rfl

/-- The other of the datastores startup and running, if it is another one for the module. -/
theorem replace_other (env : Env D) (s : Store D) (ds ds' : Ds) (ms : List Nat) (src : Nat → D) (m : Nat) (h : ds' ≠ ds)
    (h1 : ds = .startup ∨ ds = .running) (h2 : ds' = .startup ∨ ds' = .running) (hr : s.runOff m = false) :
    (replaceConfig env s ds ms src).st.read ds' m = s.read ds' m := by
  refine other_datastores_kept_by_replace env s ds ds' ms src m h ?_
  rcases h1 with h1 | h1 <;> rcases h2 with h2 | h2 <;> subst h1 <;> subst h2 <;> simp_all [place, target]

theorem read_off (s : Store D) (m : Nat) (hr : s.runOff m = true) : s.read .running m = s.read .startup m := by simp [Store.read, hr]

/-! ## C63 -/

/-- After a successful factory reset the modules have their factory default content in startup, running and the candidate (if these are
reset and the candidate data can be removed), if validation and subscribers add nothing. -/
theorem reset_to_factory_partial (env1 env2 : Env D) (s : Store D) (empty : D) (ms : List Nat) (rs rr : Bool)
    (h1 : NoUpdates env1 ∧ Neutral env1) (h2 : NoUpdates env2 ∧ Neutral env2)
    (hok : (factoryReset env1 env2 s empty ms rs rr).err = false) (m : Nat) (hm : m ∈ ms) :
    (rs = true → (factoryReset env1 env2 s empty ms rs rr).st.read .startup m = s.read .factory m) ∧
    (rr = true → (factoryReset env1 env2 s empty ms rs rr).st.read .running m = s.read .factory m ∧
      (env2.unlink m = true → (factoryReset env1 env2 s empty ms rs rr).st.read .candidate m = s.read .factory m)) := by
  have hsrc : resetData s empty ms m = s.read .factory m := by simp [resetData, hm]
  have hrun : ∀ (t : Store D) (ks : List Nat) (log : List (Ev D)), m ∈ ks →
      (resetRunning env2 t ks (resetData s empty ms) log).err = false →
      ((resetRunning env2 t ks (resetData s empty ms) log).st.read .running m = s.read .factory m ∧
        (env2.unlink m = true → (resetRunning env2 t ks (resetData s empty ms) log).st.read .candidate m = s.read .factory m)) ∧
      (t.read .startup m = s.read .factory m →
        (resetRunning env2 t ks (resetData s empty ms) log).st.read .startup m = s.read .factory m) := by
    intro t ks log hk he
    unfold resetRunning at he ⊢
    simp only at he ⊢
    by_cases hb : (replaceConfig env2 t .running ks (resetData s empty ms)).err = true
    · rw [if_pos hb] at he; cases he
    · rw [if_neg hb]
      have hb' : (replaceConfig env2 t .running ks (resetData s empty ms)).err = false := by simpa using hb
      have hr := replaced_is_wanted_partial env2 t .running ks (resetData s empty ms) h2.1 h2.2 hb' m
      rw [replaced, if_pos hk, hsrc] at hr
      have ho := (replaceConfig_outcome env2 t .running ks (resetData s empty ms)).runOff
      simp only [reset_keeps env2 _ ks .running m (by simp), reset_keeps env2 _ ks .startup m (by simp)]
      refine ⟨⟨hr, fun hu => ?_⟩, fun hs => ?_⟩
      · rw [unmodified_reads _ m (by simp [candidateReset, hk, hu]), reset_keeps env2 _ ks .running m (by simp)]
        exact hr
      · cases hoff : t.runOff m with
        | false => rw [replace_other env2 t .running .startup ks _ m (by simp) (Or.inr rfl) (Or.inl rfl) hoff]; exact hs
        | true => rw [← read_off _ m (by rw [ho]; exact hoff)]; exact hr
  unfold factoryReset at hok ⊢
  simp only at hok ⊢
  cases rs with
  | true =>
    simp only [if_true] at hok ⊢
    by_cases hb : (replaceConfig env1 s .startup ms (resetData s empty ms)).err = true
    · rw [if_pos hb] at hok; rw [hb] at hok; cases hok
    · rw [if_neg hb] at hok ⊢
      have hb' : (replaceConfig env1 s .startup ms (resetData s empty ms)).err = false := by simpa using hb
      have hr := replaced_is_wanted_partial env1 s .startup ms (resetData s empty ms) h1.1 h1.2 hb' m
      rw [replaced, if_pos hm, hsrc] at hr
      cases rr with
      | true =>
        simp only [if_true] at hok ⊢
        have := hrun _ _ _ (passMods_sub env1 s .startup ms (resetData s empty ms) m hm) hok
        exact ⟨fun _ => this.2 hr, fun _ => this.1⟩
      | false => exact ⟨fun _ => hr, fun h => by cases h⟩
  | false =>
    simp only [Bool.false_eq_true, if_false] at hok ⊢
    cases rr with
    | true =>
      simp only [if_true] at hok ⊢
      exact ⟨(fun h => by cases h), fun _ => (hrun s ms [] hm hok).1⟩
    | false => exact ⟨(fun h => by cases h), (fun h => by cases h)⟩

/-- A successful factory reset of modules closed under dependencies changes no other module in startup and running. Missing: modules with
dependencies outside, see `dependents_wiped`. -/
theorem reset_keeps_others_partial (env1 env2 : Env D) (s : Store D) (empty : D) (ms : List Nat) (rs rr : Bool)
    (h1 : NoUpdates env1 ∧ Neutral env1 ∧ Closed env1 ms) (h2 : NoUpdates env2 ∧ Neutral env2)
    (hok : (factoryReset env1 env2 s empty ms rs rr).err = false) (m : Nat) (hm : m ∉ ms) :
    (factoryReset env1 env2 s empty ms rs rr).st.read .startup m = s.read .startup m ∧
    (factoryReset env1 env2 s empty ms rs rr).st.read .running m = s.read .running m := by
  have hpass : ∀ (env : Env D) (t : Store D) (ds : Ds) (ks : List Nat), NoUpdates env → Neutral env → (ds = .startup ∨ ds = .running) →
      m ∉ ks → (replaceConfig env t ds ks (resetData s empty ms)).err = false →
      (replaceConfig env t ds ks (resetData s empty ms)).st.read .startup m = t.read .startup m ∧
      (replaceConfig env t ds ks (resetData s empty ms)).st.read .running m = t.read .running m := by
    intro env t ds ks hnu hne hds hk he
    have hr := replaced_is_wanted_partial env t ds ks (resetData s empty ms) hnu hne he m
    rw [replaced, if_neg hk] at hr
    have ho := (replaceConfig_outcome env t ds ks (resetData s empty ms)).runOff
    cases hoff : t.runOff m with
    | false =>
      rcases hds with rfl | rfl
      · exact ⟨hr, replace_other env t .startup .running ks _ m (by simp) (Or.inl rfl) (Or.inr rfl) hoff⟩
      · exact ⟨replace_other env t .running .startup ks _ m (by simp) (Or.inr rfl) (Or.inl rfl) hoff, hr⟩
    | true =>
      have e1 := read_off (replaceConfig env t ds ks (resetData s empty ms)).st m (by rw [ho]; exact hoff)
      have e2 := read_off t m hoff
      rcases hds with rfl | rfl
      · exact ⟨hr, (by rw [e1, e2]; exact hr)⟩
      · exact ⟨by rw [← e1, ← e2]; exact hr, hr⟩
  have hrun : ∀ (t : Store D) (ks : List Nat) (log : List (Ev D)), m ∉ ks →
      (resetRunning env2 t ks (resetData s empty ms) log).err = false →
      (resetRunning env2 t ks (resetData s empty ms) log).st.read .startup m = t.read .startup m ∧
      (resetRunning env2 t ks (resetData s empty ms) log).st.read .running m = t.read .running m := by
    intro t ks log hk he
    unfold resetRunning at he ⊢
    simp only at he ⊢
    by_cases hb : (replaceConfig env2 t .running ks (resetData s empty ms)).err = true
    · rw [if_pos hb] at he; cases he
    · rw [if_neg hb]
      have hb' : (replaceConfig env2 t .running ks (resetData s empty ms)).err = false := by simpa using hb
      simp only [reset_keeps env2 _ ks .running m (by simp), reset_keeps env2 _ ks .startup m (by simp)]
      exact hpass env2 t .running ks h2.1 h2.2 (Or.inr rfl) hk hb'
  unfold factoryReset at hok ⊢
  simp only at hok ⊢
  cases rs with
  | true =>
    simp only [if_true] at hok ⊢
    by_cases hb : (replaceConfig env1 s .startup ms (resetData s empty ms)).err = true
    · rw [if_pos hb] at hok; rw [hb] at hok; cases hok
    · rw [if_neg hb] at hok ⊢
      have hb' : (replaceConfig env1 s .startup ms (resetData s empty ms)).err = false := by simpa using hb
      have hp := hpass env1 s .startup ms h1.1 h1.2.1 (Or.inl rfl) hm hb'
      cases rr with
      | true =>
        simp only [if_true] at hok ⊢
        have := hrun _ _ _ (fun h => hm (passMods_closed env1 s .startup ms (resetData s empty ms) h1.2.2 m h)) hok
        exact ⟨this.1.trans hp.1, this.2.trans hp.2⟩
      | false => exact hp
  | false =>
    simp only [Bool.false_eq_true, if_false] at hok ⊢
    cases rr with
    | true => exact hrun s ms [] hm hok
    | false => exact ⟨rfl, rfl⟩

example : Closed exEnv [1, 2] ∧ (factoryReset exEnv exEnv exStore 0 [1, 2] true true).err = false ∧
    [1, 2, 3].map ((factoryReset exEnv exEnv exStore 0 [1, 2] true true).st.read .startup) = [5, 5, 20] ∧
    [1, 2, 3].map ((factoryReset exEnv exEnv exStore 0 [1, 2] true true).st.read .running) = [5, 5, 10] :=
  ⟨fun _ _ => ⟨fun _ h => by simp [exEnv] at h, fun _ _ h => by simp [exEnv] at h⟩, by decide⟩

/-- Every module that is in mod info after the reset of startup but was not asked for loses its content in running. -/
theorem dependents_wiped (env1 env2 : Env D) (s : Store D) (empty : D) (ms : List Nat) (h2 : NoUpdates env2 ∧ Neutral env2)
    (hok : (factoryReset env1 env2 s empty ms true true).err = false) (m : Nat)
    (hm : m ∈ passMods env1 s .startup ms (resetData s empty ms)) (hn : m ∉ ms) :
    (factoryReset env1 env2 s empty ms true true).st.read .running m = empty := by
  unfold factoryReset at hok ⊢
  simp only [if_true] at hok ⊢
  by_cases hb : (replaceConfig env1 s .startup ms (resetData s empty ms)).err = true
  · rw [if_pos hb] at hok; rw [hb] at hok; cases hok
  · rw [if_neg hb] at hok ⊢
    unfold resetRunning at hok ⊢
    simp only at hok ⊢
    split at hok
    · cases hok
    · rename_i hc
      rw [if_neg hc]
      simp only [reset_keeps env2 _ _ .running m (by simp)]
      rw [replaced_is_wanted_partial env2 _ .running _ _ h2.1 h2.2 (by simpa using hc) m, replaced, if_pos hm]
      simp [resetData, hn]

/-- The property is false: module 7 refers to module 1. Resetting module 1 succeeds and deletes all data of module 7 from running, and its
candidate, although its startup data stay. -/
theorem unasked_module_deleted : ∃ (env : Env Nat) (s : Store Nat), (factoryReset env env s 0 [1] true true).err = false ∧
    s.read .running 7 = 10 ∧ (factoryReset env env s 0 [1] true true).st.read .running 7 = 0 ∧
    s.read .candidate 7 = 30 ∧ (factoryReset env env s 0 [1] true true).st.read .candidate 7 = 0 ∧
    (factoryReset env env s 0 [1] true true).st.read .startup 7 = s.read .startup 7 :=
  ⟨{ exEnv with invDeps := fun m => if m = 1 then [7] else [] }, { exStore with cand := fun m => if m = 7 then some 30 else none }, by decide⟩

/-- The property is false: running is refused by a subscriber, the call fails and startup stays reset. -/
theorem half_reset : ∃ (env1 env2 : Env Nat) (s : Store Nat), StoresFine env1 ∧ StoresFine env2 ∧
    (factoryReset env1 env2 s 0 [1] true true).err = true ∧
    (factoryReset env1 env2 s 0 [1] true true).st.read .startup 1 = s.read .factory 1 ∧
    (factoryReset env1 env2 s 0 [1] true true).st.read .running 1 = s.read .running 1 ∧ s.read .running 1 ≠ s.read .factory 1 :=
  ⟨exEnv, { exEnv with chg := fun _ _ => .refused }, exStore, ⟨fun _ => rfl, rfl, rfl, rfl⟩, ⟨fun _ => rfl, rfl, rfl, rfl⟩, by decide⟩

end Verif.Pipeline
