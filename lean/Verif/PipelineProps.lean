import Verif.PipelineOut
/-!
Properties of applying changes: all or nothing (C29), the checks before anything happens (C30), the pending changes of a session (C31) and
the locks of the modules written (C61).
-/
namespace Verif.Pipeline
variable {D : Type} [DecidableEq D]

/-! ## Specification -/

/-- The content the changes ask for. -/
def wanted (s : Store D) (ds : Ds) (e : Edit D) (m : Nat) : D := if m ∈ e.mods then e.new m (s.read ds m) else s.read ds m

/-- The content a replacement asks for. -/
def replaced (s : Store D) (ds : Ds) (ms : List Nat) (src : Nat → D) (m : Nat) : D := if m ∈ ms then src m else s.read ds m

/-- Subscribers are told that the content changes (or changed) from `old` to `new`. -/
def Told (o : Out D) (old new : Nat → D) : Prop := Ev.change old new ∈ o.log ∨ Ev.done old new ∈ o.log

/-- Where the content of a module in a datastore is read. -/
def place (s : Store D) (m : Nat) : Ds → Ds
  | .running => if s.runOff m then .startup else .running
  | .candidate => if (s.cand m).isSome then .candidate else if s.runOff m then .startup else .running
  | d => d

/-- Where a change of a module in a datastore is written. -/
def target (s : Store D) (m : Nat) : Ds → Ds
  | .running => if s.runOff m then .startup else .running
  | d => d

/-! ## Examples used below -/

/-- A store where module `m` has content 10 in running and 20 in startup. -/
def exStore : Store Nat := ⟨fun _ => 20, fun _ => 10, fun _ => 0, fun _ => 5, fun _ => none, fun _ => false⟩

/-- Nothing fails, somebody is subscribed, validation changes nothing. -/
def exEnv : Env Nat := { valMod := fun m d => d m, defMod := fun m d => d m, chgSub := true, updSub := true }

/-- Changes of the modules 1 and 2. -/
def exEdit : Edit Nat := ⟨[1, 2], fun m d => d + m, fun _ => 0⟩

theorem exEnv_neutral : Neutral exEnv := fun _ _ => ⟨rfl, rfl⟩
theorem exEnv_noUpd : NoUpdates exEnv := fun _ _ _ _ h => by cases h
theorem exEnv_noLoss : NoLoss exEnv := Or.inl exEnv_noUpd

/-! ## C29: all or nothing -/

/-- When applying changes succeeds, the subscribers were told exactly the change of the stored content. Missing: see
`update_change_lost`. -/
theorem applied_is_told_partial (env : Env D) (s : Store D) (ds : Ds) (e : Edit D) (hno : NoLoss env)
    (hok : (applyChanges env s ds e).err = false) (old new : Nat → D) (ht : Told (applyChanges env s ds e) old new) :
    (∀ m, old m = s.read ds m) ∧ ∀ m, (applyChanges env s ds e).st.read ds m = new m := by
  have h := (applyChanges_outcome env s ds e).announced hno hok old new ht
  exact ⟨fun m => by rw [h.1], h.2⟩

/-- When applying changes succeeds, every module has the content asked for, if validation and the subscribers add nothing. -/
theorem applied_is_wanted_partial (env : Env D) (s : Store D) (ds : Ds) (e : Edit D) (hnu : NoUpdates env) (hne : Neutral env)
    (hok : (applyChanges env s ds e).err = false) (m : Nat) : (applyChanges env s ds e).st.read ds m = wanted s ds e m := by
  unfold applyChanges at hok ⊢
  by_cases hc : (!env.collectOk || !env.applyOk) = true
  · rw [if_pos hc] at hok; cases hok
  · rw [if_neg hc] at hok ⊢
    simp only at hok ⊢
    have key : ∀ err2 inv, (notifyStore env s (s.read ds) (editApply e (loaded env s ds e.mods inv)) err2).err = false →
        (notifyStore env s (s.read ds) (editApply e (loaded env s ds e.mods inv)) err2).st.read ds m = wanted s ds e m := by
      intro err2 inv hok
      obtain ⟨mi', h1, -, h3, -⟩ := notifyStore_content env s (editApply e (loaded env s ds e.mods inv)) err2 rfl
        (editApply_loaded env s ds e inv) (Or.inl hnu) hok
      have h1 : (notifyStore env s (s.read ds) (editApply e (loaded env s ds e.mods inv)) err2).st.read ds m = mi'.data m := h1 m
      rw [h1, h3 hnu hne, editApply_data]
      rfl
    by_cases hds : ds = .operational
    · rw [if_pos hds] at hok ⊢
      split at hok
      · cases hok
      · rename_i h; rw [if_neg h]; exact key _ _ hok
    · rw [if_neg hds] at hok ⊢
      exact key _ _ hok

example : (applyChanges exEnv exStore .running exEdit).err = false ∧
    [0, 1, 2, 3].map ((applyChanges exEnv exStore .running exEdit).st.read .running) = [10, 11, 12, 10] := by decide

/-- The same for replacing the content of modules. -/
theorem replaced_is_wanted_partial (env : Env D) (s : Store D) (ds : Ds) (ms : List Nat) (src : Nat → D) (hnu : NoUpdates env)
    (hne : Neutral env) (hok : (replaceConfig env s ds ms src).err = false) (m : Nat) :
    (replaceConfig env s ds ms src).st.read ds m = replaced s ds ms src m := by
  unfold replaceConfig at hok ⊢
  by_cases hc : (!env.collectOk || !env.applyOk) = true
  · rw [if_pos hc] at hok; cases hok
  · rw [if_neg hc] at hok ⊢
    obtain ⟨mi', h1, -, h3, -⟩ := notifyStore_content env s (replaceData src (loaded env s ds ms true)) false rfl
      (replaceData_loaded env s ds ms src true) (Or.inl hnu) hok
    have h1 : (notifyStore env s (s.read ds) (replaceData src (loaded env s ds ms true)) false).st.read ds m = mi'.data m := h1 m
    rw [h1, h3 hnu hne, replaceData_data]
    rfl

example : (replaceConfig exEnv exStore .running [1, 3] (fun m => 30 + m)).err = false ∧
    [0, 1, 2, 3].map ((replaceConfig exEnv exStore .running [1, 3] (fun m => 30 + m)).st.read .running) = [10, 31, 10, 33] := by decide

/-- The same as `applied_is_told_partial` for replacing. -/
theorem replaced_is_told_partial (env : Env D) (s : Store D) (ds : Ds) (ms : List Nat) (src : Nat → D) (hno : NoLoss env)
    (hok : (replaceConfig env s ds ms src).err = false) (old new : Nat → D) (ht : Told (replaceConfig env s ds ms src) old new) :
    (∀ m, old m = s.read ds m) ∧ ∀ m, (replaceConfig env s ds ms src).st.read ds m = new m := by
  have h := (replaceConfig_outcome env s ds ms src).announced hno hok old new ht
  exact ⟨fun m => by rw [h.1], h.2⟩

example : ∃ old new : Nat → Nat, Told (applyChanges exEnv exStore .running exEdit) old new ∧ old 1 = 10 ∧ new 1 = 11 ∧ new 2 = 12 :=
  ⟨_, _, Or.inl (List.mem_cons_of_mem _ (List.mem_cons_self ..)), rfl, rfl, rfl⟩

/-- A failed call changed nothing, as long as the failure is not of the very last phase (writing the modules and what comes after).
Missing: see `half_stored` and `error_but_stored`. -/
theorem failed_keeps_all_partial (env : Env D) (s : Store D) (ds : Ds) (e : Edit D) (hf : StoresFine env)
    (he : (applyChanges env s ds e).err = true) : (applyChanges env s ds e).st = s :=
  (applyChanges_outcome env s ds e).kept hf he

example : StoresFine { exEnv with chg := fun _ _ => .refused } ∧
    (applyChanges { exEnv with chg := fun _ _ => .refused } exStore .running exEdit).err = true :=
  ⟨⟨fun _ => rfl, rfl, rfl, rfl⟩, by decide⟩

/-- The same for replacing. -/
theorem failed_replace_keeps_all_partial (env : Env D) (s : Store D) (ds : Ds) (ms : List Nat) (src : Nat → D) (hf : StoresFine env)
    (he : (replaceConfig env s ds ms src).err = true) : (replaceConfig env s ds ms src).st = s :=
  (replaceConfig_outcome env s ds ms src).kept hf he

example : (replaceConfig { exEnv with valFinal := fun m _ => m } exStore .running [1, 3] (fun m => 30 + m)).err = true := by decide

/-- Whatever fails: if a failing write of a module leaves its old content, every module has the old content or the one the subscribers
were told. -/
theorem each_old_or_told (env : Env D) (s : Store D) (ds : Ds) (e : Edit D)
    (hatomic : ∀ m d, env.store m = .failed d → d = s.read ds m) (old new : Nat → D) (ht : Told (applyChanges env s ds e) old new)
    (m : Nat) : (applyChanges env s ds e).st.read ds m = old m ∨ (applyChanges env s ds e).st.read ds m = new m := by
  have h := applyChanges_outcome env s ds e
  generalize applyChanges env s ds e = o at h ht ⊢
  have hold : old = s.read ds := by
    cases h with
    | @early log hl hc hd =>
      rcases ht with ht | ht
      · exact hc old new ht
      · exact absurd ht (hd old new)
    | @last mi err2 log hn hds hw hl hc hd hq =>
      have sp := storePhase_spec env s (s.read ds) mi err2 log hn (by rw [hds])
      obtain ⟨l, hlog, hlev⟩ := sp.log
      simp only [Told, hlog, List.mem_append] at ht
      rcases ht with (ht | ht) | (ht | ht)
      · exact (hc old new ht).1
      · rcases hlev _ ht with ⟨x, -, -, hx⟩ | hx <;> cases hx
      · exact absurd ht (hd old new)
      · rcases hlev _ ht with ⟨x, -, -, hx⟩ | hx
        · cases hx
        · cases hx; rfl
  rcases h.each m with h1 | ⟨lock, h1⟩ | h1
  · left; rw [hold]; exact h1
  · right; exact (h.store_new old new ht m lock _ h1).2
  · left; rw [hold]; exact hatomic m _ h1

example : (∀ m d, ({ exEnv with store := fun m => if m = 2 then .failed 10 else .ok } : Env Nat).store m = .failed d →
      d = exStore.read .running m) ∧
    [1, 2].map ((applyChanges { exEnv with store := fun m => if m = 2 then .failed 10 else .ok } exStore .running exEdit).st.read
      .running) = [11, 10] := by
  refine ⟨fun m d h => ?_, by decide⟩
  by_cases hm : m = 2
  · have h : Stored.failed 10 = Stored.failed d := by simpa [hm] using h
    cases h; rfl
  · simp [hm] at h

/-- Whatever fails: at most one module ends with a content that is neither the old one nor one written completely. -/
theorem at_most_one_torn (env : Env D) (s : Store D) (ds : Ds) (e : Edit D) (m k : Nat) (hmk : m ≠ k)
    (hm : (applyChanges env s ds e).st.read ds m ≠ s.read ds m) (hl : ∀ lock d, Ev.store m lock d ∉ (applyChanges env s ds e).log) :
    (applyChanges env s ds e).st.read ds k = s.read ds k ∨
    ∃ lock, Ev.store k lock ((applyChanges env s ds e).st.read ds k) ∈ (applyChanges env s ds e).log :=
  (applyChanges_outcome env s ds e).one m k hmk hm hl

example : (applyChanges { exEnv with store := fun m => if m = 2 then .failed 99 else .ok } exStore .running exEdit).st.read .running 2 = 99 := by
  decide

theorem write_other (s : Store D) (ds ds' : Ds) (m k : Nat) (d : D) (h : ds' ≠ ds) (hp : place s k ds' ≠ target s k ds) :
    (s.write ds m d).read ds' k = s.read ds' k ∧ place (s.write ds m d) k ds' = place s k ds' ∧
      target (s.write ds m d) k ds = target s k ds := by
  cases h1 : s.runOff k <;> cases h2 : s.cand k <;> cases h3 : s.runOff m <;> by_cases hk : k = m
  all_goals
    first
    | (subst hk; cases ds <;> cases ds' <;> simp_all [Store.write, Store.read, place, target, upd])
    | (cases ds <;> cases ds' <;> simp_all [Store.write, Store.read, place, target, upd])

/-- Applying changes in a datastore does not change what is read from another one, unless that one has no data of its own for the module:
an unmodified candidate, or running that is disabled for the module. -/
theorem other_datastores_kept (env : Env D) (s : Store D) (ds ds' : Ds) (e : Edit D) (m : Nat) (h : ds' ≠ ds)
    (hp : place s m ds' ≠ target s m ds) : (applyChanges env s ds e).st.read ds' m = s.read ds' m := by
  have := (applyChanges_outcome env s ds e).ind
    (fun t => t.read ds' m = s.read ds' m ∧ place t m ds' = place s m ds' ∧ target t m ds = target s m ds)
    (fun t k d ht => by
      have hw := write_other t ds ds' k m d h (by rw [ht.2.1, ht.2.2]; exact hp)
      exact ⟨hw.1.trans ht.1, hw.2.1.trans ht.2.1, hw.2.2.trans ht.2.2⟩) ⟨rfl, rfl, rfl⟩
  exact this.1

/-- The same for replacing. -/
theorem other_datastores_kept_by_replace (env : Env D) (s : Store D) (ds ds' : Ds) (ms : List Nat) (src : Nat → D) (m : Nat) (h : ds' ≠ ds)
    (hp : place s m ds' ≠ target s m ds) : (replaceConfig env s ds ms src).st.read ds' m = s.read ds' m := by
  have := (replaceConfig_outcome env s ds ms src).ind
    (fun t => t.read ds' m = s.read ds' m ∧ place t m ds' = place s m ds' ∧ target t m ds = target s m ds)
    (fun t k d ht => by
      have hw := write_other t ds ds' k m d h (by rw [ht.2.1, ht.2.2]; exact hp)
      exact ⟨hw.1.trans ht.1, hw.2.1.trans ht.2.1, hw.2.2.trans ht.2.2⟩) ⟨rfl, rfl, rfl⟩
  exact this.1

example : place exStore 1 .startup ≠ target exStore 1 .running ∧ place exStore 1 .candidate = target exStore 1 .running := by decide

/-- The property is false: the second of two modules cannot be written, an error is returned and the first one stays changed. -/
theorem half_stored : ∃ (env : Env Nat) (s : Store Nat) (e : Edit Nat),
    (applyChanges env s .running e).err = true ∧ (applyChanges env s .running e).st.read .running 1 = wanted s .running e 1 ∧
    wanted s .running e 1 ≠ s.read .running 1 ∧ (applyChanges env s .running e).st.read .running 2 = s.read .running 2 ∧
    wanted s .running e 2 ≠ s.read .running 2 :=
  ⟨{ exEnv with store := fun m => if m = 2 then .failed 10 else .ok }, exStore, exEdit, by decide⟩

/-- The property is false: everything was stored, sending the notification failed, an error is returned. -/
theorem error_but_stored : ∃ (env : Env Nat) (s : Store Nat) (e : Edit Nat),
    (applyChanges env s .running e).err = true ∧ ∀ m ∈ e.mods, (applyChanges env s .running e).st.read .running m = wanted s .running e m ∧
    wanted s .running e m ≠ s.read .running m :=
  ⟨{ exEnv with notifOk := false }, exStore, exEdit, by decide⟩

/-- The environment of `update_change_lost`: the changes set module 1 to 11, an update subscriber sets it to 12, validation sets 12 back
to 11. -/
def exLost : Env Nat :=
  { exEnv with
    valMod := fun m d => if d m = 12 then 11 else d m
    upd := fun _ _ => .ok (some ⟨[1], fun _ _ => 12, fun _ => 0⟩) }

/-- The property is false: subscribers accept a change, success is returned, and nothing was stored. The validation after the update
event undoes what the update subscriber changed, and the module loses its mark. -/
theorem update_change_lost : ∃ (env : Env Nat) (s : Store Nat) (e : Edit Nat),
    (applyChanges env s .running e).err = false ∧ (applyChanges env s .running e).st.read .running 1 = s.read .running 1 ∧
    ∃ old new : Nat → Nat, Told (applyChanges env s .running e) old new ∧ new 1 ≠ s.read .running 1 := by
  refine ⟨exLost, exStore, ⟨[1], fun _ _ => 11, fun _ => 0⟩, by decide, by decide, _, _, Or.inl (List.mem_cons_of_mem _ (List.mem_cons_self ..)), ?_⟩
  decide

/-! ## C30: the checks come first -/

omit [DecidableEq D] in
theorem checked_perm {env : Env D} [DecidableEq D] {mi mi1 : MI D} (hc : Checked env mi mi1) {m : Nat} (hm : Has (·.req) m mi.mods) :
    env.perm m = true := by
  obtain ⟨x, hx, h1, h2⟩ := hm.check stays_req hc.valid
  have := hc.perm
  unfold permOk at this
  have hp := List.all_eq_true.1 this x hx
  rw [← h1]
  simp only at h2
  rw [h2] at hp
  simpa using hp

/-- If a subscriber is called, access control allowed the change, the caller may write all the modules named in the changes, and the
validation of the changed data found no errors. If the data are configuration, the same holds if anything is stored. -/
theorem checked_before (env : Env D) (s : Store D) (ds : Ds) (e : Edit D)
    (h : (∃ ev ∈ (applyChanges env s ds e).log, ev.isStore = false) ∨ (ds ≠ .operational ∧ (applyChanges env s ds e).st ≠ s)) :
    (env.nacmUser = true → env.nacm (s.read ds) (wanted s ds e) = .ok) ∧ ∀ m ∈ e.mods, env.perm m = true := by
  have key : ∀ inv err2, ((∃ ev ∈ (notifyStore env s (s.read ds) (editApply e (loaded env s ds e.mods inv)) err2).log, ev.isStore = false) ∨
      (ds ≠ .operational ∧ (notifyStore env s (s.read ds) (editApply e (loaded env s ds e.mods inv)) err2).st ≠ s)) →
      (env.nacmUser = true → env.nacm (s.read ds) (wanted s ds e) = .ok) ∧ ∀ m ∈ e.mods, env.perm m = true := by
    intro inv err2 h
    rcases notifyStore_checked env s (editApply e (loaded env s ds e.mods inv)) err2 (editApply_loaded env s ds e inv) with ⟨mi1, hc⟩ | hn
    · refine ⟨fun hu => ?_, fun m hm => ?_⟩
      · have := hc.nacm hu
        have hd : (editApply e (loaded env s ds e.mods inv)).data = wanted s ds e := by
          funext m; exact editApply_data env s ds e inv m
        rw [hd] at this
        exact this
      · have h1 : Has (·.req) m (loaded env s ds e.mods inv).mods := by
          obtain ⟨x, hx, h1, h2⟩ := (loaded_has env s ds e.mods inv m hm).1
          simp only [Bool.and_eq_true] at h2
          exact ⟨x, hx, h1, h2.1⟩
        exact checked_perm hc (applyLoop_has stays_req e _ h1)
    · rcases h with ⟨ev, h1, h2⟩ | ⟨h1, h2⟩
      · rw [hn.1 ev h1] at h2; cases h2
      · exact absurd (hn.2 h1).2 h2
  unfold applyChanges at h
  split at h
  · simp at h
  · simp only at h
    by_cases hds : ds = .operational
    · rw [if_pos hds] at h
      split at h
      · simp at h
      · exact key _ _ h
    · rw [if_neg hds] at h
      exact key _ _ h

example : (∃ ev ∈ (applyChanges exEnv exStore .running exEdit).log, ev.isStore = false) ∧ (applyChanges exEnv exStore .running exEdit).st ≠ exStore :=
  ⟨⟨_, List.mem_cons_self .., rfl⟩, fun h => absurd (congrArg (fun t => t.read .running 1) h) (by decide)⟩

/-- A change access control denies is not stored and nobody is told. -/
theorem denied_does_nothing (env : Env D) (s : Store D) (ds : Ds) (e : Edit D) (hds : ds ≠ .operational) (hu : env.nacmUser = true)
    (hd : env.nacm (s.read ds) (wanted s ds e) ≠ .ok) :
    (applyChanges env s ds e).st = s ∧ ∀ ev ∈ (applyChanges env s ds e).log, ev.isStore = true := by
  refine ⟨?_, fun ev hev => ?_⟩
  · apply Classical.byContradiction
    intro h
    exact hd ((checked_before env s ds e (Or.inr ⟨hds, h⟩)).1 hu)
  · cases h : ev.isStore with
    | true => rfl
    | false => exact absurd ((checked_before env s ds e (Or.inl ⟨ev, hev, h⟩)).1 hu) hd

/-- A change of a module the caller may not write is not stored and nobody is told. -/
theorem no_permission_does_nothing (env : Env D) (s : Store D) (ds : Ds) (e : Edit D) (hds : ds ≠ .operational) (m : Nat) (hm : m ∈ e.mods)
    (hp : env.perm m = false) :
    (applyChanges env s ds e).st = s ∧ ∀ ev ∈ (applyChanges env s ds e).log, ev.isStore = true := by
  have hne : ¬ env.perm m = true := by rw [hp]; simp
  refine ⟨?_, fun ev hev => ?_⟩
  · apply Classical.byContradiction
    intro h
    exact hne ((checked_before env s ds e (Or.inr ⟨hds, h⟩)).2 m hm)
  · cases h : ev.isStore with
    | true => rfl
    | false => exact absurd ((checked_before env s ds e (Or.inl ⟨ev, hev, h⟩)).2 m hm) hne

example : (applyChanges { exEnv with perm := fun m => m != 2 } exStore .running exEdit).err = true := by decide

/-- If changes were applied to running or startup successfully, every module with another content and, if anything changed, every module
that depends on a module named in the changes is valid in the stored data. Missing: modules that depend on a module changed only by
validation or by an update subscriber, see `dependent_not_validated`. -/
theorem stored_is_valid_partial (env : Env D) (s : Store D) (ds : Ds) (e : Edit D) (hds : ds = .startup ∨ ds = .running) (hno : NoLoss env)
    (hok : (applyChanges env s ds e).err = false) (m : Nat) (hm : (applyChanges env s ds e).st.read ds m ≠ s.read ds m) :
    env.valFinal m ((applyChanges env s ds e).st.read ds) = 0 ∧
    ∀ k ∈ e.mods, ∀ i ∈ env.invDeps k, env.valFinal i ((applyChanges env s ds e).st.read ds) = 0 := by
  have hop : ds ≠ .operational := by rcases hds with h | h <;> rw [h] <;> simp
  have hinv : (decide (ds ≠ .candidate) && decide (ds ≠ .operational)) = true := by rcases hds with h | h <;> rw [h] <;> rfl
  unfold applyChanges at hok hm ⊢
  by_cases hc : (!env.collectOk || !env.applyOk) = true
  · rw [if_pos hc] at hok; cases hok
  · rw [if_neg hc] at hok hm ⊢
    simp only [if_neg hop] at hok hm ⊢
    rw [hinv] at hok hm ⊢
    generalize decide (e.refused (loaded env s ds e.mods true).data ≠ 0) = err2 at hok hm ⊢
    obtain ⟨mi', h1, hw, -, h4⟩ := notifyStore_content env s (editApply e (loaded env s ds e.mods true)) err2 rfl
      (editApply_loaded env s ds e true) hno hok
    have h1 : (notifyStore env s (s.read ds) (editApply e (loaded env s ds e.mods true)) err2).st.read ds = mi'.data := funext h1
    rw [h1] at hm ⊢
    obtain ⟨hv, hi⟩ := h4 ⟨m, hm⟩ hds
    refine ⟨?_, fun k hk i hik => ?_⟩
    · by_cases hmem : m ∈ ids mi'.mods
      · obtain ⟨x, hx, rfl⟩ := List.mem_map.1 hmem
        exact hv x hx (Or.inl (hw.mark x hx hm))
      · exact absurd (hw.out m hmem) hm
    · obtain ⟨x, hx, hxi, hxf⟩ := hi i (applyLoop_has stays_inv e _ ((loaded_has env s ds e.mods true k hk).2 rfl i hik))
      rw [← hxi]
      exact hv x hx (Or.inr hxf)

example : (applyChanges { exEnv with invDeps := fun m => if m = 1 then [7] else [], valFinal := fun m d => if m = 7 then d 1 - 11 else 0 }
      exStore .running exEdit).err = false ∧
    (applyChanges { exEnv with invDeps := fun m => if m = 1 then [7] else [], valFinal := fun m d => if m = 7 then d 1 - 10 else 0 }
      exStore .running exEdit).err = true := by decide

/-- Changes with refused nodes (creating existing nodes, deleting missing ones) are not stored and no subscriber is asked to make them,
except for the update event. -/
theorem refused_edit_not_stored (env : Env D) (s : Store D) (ds : Ds) (e : Edit D) (hr : e.refused (s.read ds) ≠ 0) :
    (applyChanges env s ds e).err = true ∧ (applyChanges env s ds e).st = s ∧
    ∀ ev ∈ (applyChanges env s ds e).log, ∃ old new, ev = .update old new := by
  have key : ∀ inv, ds ≠ .operational →
      (notifyStore env s (s.read ds) (editApply e (loaded env s ds e.mods inv)) true).err = true ∧
      (notifyStore env s (s.read ds) (editApply e (loaded env s ds e.mods inv)) true).st = s ∧
      ∀ ev ∈ (notifyStore env s (s.read ds) (editApply e (loaded env s ds e.mods inv)) true).log, ∃ old new, ev = .update old new := by
    intro inv ho
    have hg := editApply_loaded env s ds e inv
    have hp := notifyStore_path env s (s.read ds) (editApply e (loaded env s ds e.mods inv)) true
    generalize notifyStore env s (s.read ds) (editApply e (loaded env s ds e.mods inv)) true = o at hp ⊢
    cases hp with
    | noDiff h =>
      rw [storePhase_quiet env s _ _ true [] h (Good.quiet (mi := editApply e (loaded env s ds e.mods inv)) hg h ho)]
      exact ⟨rfl, rfl, by simp⟩
    | refused => exact ⟨rfl, rfl, by simp⟩
    | @vanished mi1 hd hn hv h =>
      have hg1 := check_good hv hg
      have : Good mi1.base mi1.mods mi1.data := by rw [hg1.2.1]; exact hg1.1
      rw [storePhase_quiet env s _ mi1 true [] h (this.quiet h (by rw [hg1.2.2]; exact ho))]
      exact ⟨rfl, rfl, by simp⟩
    | @update mi1 hc =>
      exact ⟨rfl, rfl, fun ev hev => ⟨_, _, updLog_shape env _ mi1 ev hev⟩⟩
    | change hc he hu => cases he
  unfold applyChanges
  split
  · exact ⟨rfl, rfl, by simp⟩
  · simp only
    have hd : (loaded env s ds e.mods (decide (ds ≠ .candidate) && decide (ds ≠ .operational))).data = s.read ds := rfl
    by_cases hds : ds = .operational
    · rw [if_pos hds, hd, if_pos hr]
      exact ⟨rfl, rfl, by simp⟩
    · rw [if_neg hds, hd]
      have : decide (e.refused (s.read ds) ≠ 0) = true := by simpa using hr
      rw [this]
      exact key _ hds

example : (applyChanges exEnv exStore .running { exEdit with refused := fun _ => 1 }).log.length = 1 := by decide

/-- The property is false: changes already known to be refused are still announced to the update subscribers. -/
theorem refused_edit_reaches_update : ∃ (env : Env Nat) (s : Store Nat) (e : Edit Nat),
    e.refused (s.read .running) ≠ 0 ∧ ∃ old new : Nat → Nat, Ev.update old new ∈ (applyChanges env s .running e).log := by
  refine ⟨exEnv, exStore, { exEdit with refused := fun _ => 1 }, by decide, _, _, List.mem_cons_self ..⟩

/-- The property is false: what an update subscriber adds is neither checked for permissions nor by access control of the caller. Module 3
is changed although neither allows it. -/
theorem update_bypasses_checks : ∃ (env : Env Nat) (s : Store Nat) (e : Edit Nat),
    env.nacmUser = true ∧ env.perm 3 = false ∧ (∀ old new : Nat → Nat, new 3 ≠ old 3 → env.nacm old new = .denied) ∧
    (applyChanges env s .running e).err = false ∧ (applyChanges env s .running e).st.read .running 3 ≠ s.read .running 3 := by
  refine ⟨{ exEnv with
              nacmUser := true
              perm := fun m => m != 3
              nacm := fun old new => if new 3 = old 3 then .ok else .denied
              upd := fun _ _ => .ok (some ⟨[3], fun _ _ => 77, fun _ => 0⟩) }, exStore, exEdit, rfl, rfl, fun old new h => ?_, by decide, by decide⟩
  simp [h]

/-- The property is false: operational data that change nothing visible (they are the same as data present otherwise) are stored without
access control and permission checks. -/
theorem unseen_push_unchecked : ∃ (env : Env Nat) (s : Store Nat) (e : Edit Nat),
    env.nacmUser = true ∧ (∀ old new : Nat → Nat, env.nacm old new = .denied) ∧ (∀ m, env.perm m = false) ∧
    (applyChanges env s .operational e).err = false ∧ (applyChanges env s .operational e).st.read .operational 1 ≠ s.read .operational 1 :=
  ⟨{ exEnv with visible := false, nacmUser := true, nacm := fun _ _ => .denied, perm := fun _ => false }, exStore, exEdit, rfl,
    fun _ _ => rfl, fun _ => rfl, by decide, by decide⟩

/-- The validation of all the modules is not promised: module 2 depends on module 1, validation changes it (deletes nodes with a false
`when`), module 3 depends on module 2 and is invalid afterwards. The call succeeds. -/
theorem dependent_not_validated : ∃ (env : Env Nat) (s : Store Nat) (e : Edit Nat),
    2 ∈ env.invDeps 1 ∧ 3 ∈ env.invDeps 2 ∧ (applyChanges env s .running e).err = false ∧ (∀ m, env.valFinal m (s.read .running) = 0) ∧
    env.valFinal 3 ((applyChanges env s .running e).st.read .running) ≠ 0 := by
  refine ⟨{ exEnv with
              invDeps := fun m => if m = 1 then [2] else if m = 2 then [3] else []
              valMod := fun m d => if m = 2 ∧ d 1 = 11 then 0 else d m
              valFinal := fun m d => if m = 3 ∧ d 2 = 0 then 1 else 0 }, exStore, ⟨[1], fun _ _ => 11, fun _ => 0⟩,
    by decide, by decide, by decide, fun m => ?_, by decide⟩
  show (if m = 3 ∧ (10 : Nat) = 0 then 1 else 0) = 0
  rw [if_neg (fun h => absurd h.2 (by decide))]

/-! ## C61: locks -/

/-- A module named in the changes is written only while its write lock is held. Missing: the other modules that are written, see
`stored_without_write_lock` and `stored_read_locked`. -/
theorem stored_under_write_lock_partial (env : Env D) (s : Store D) (ds : Ds) (e : Edit D) (m : Nat) (hm : m ∈ e.mods) (lock : Lock) (d : D)
    (hs : Ev.store m lock d ∈ (applyChanges env s ds e).log) : lock = .write := by
  have key : ∀ inv err2, Ev.store m lock d ∈ (notifyStore env s (s.read ds) (editApply e (loaded env s ds e.mods inv)) err2).log →
      lock = .write := by
    intro inv err2 h
    exact notifyStore_lock env s (editApply e (loaded env s ds e.mods inv)) err2 (editApply_loaded env s ds e inv).nodup
      (applyLoop_has stays_upgr e _ (loaded_has env s ds e.mods inv m hm).1) lock d h
  unfold applyChanges at hs
  split at hs
  · simp at hs
  · simp only at hs
    split at hs
    · split at hs
      · simp at hs
      · exact key _ _ hs
    · exact key _ _ hs

/-- The same for replacing. -/
theorem replaced_under_write_lock_partial (env : Env D) (s : Store D) (ds : Ds) (ms : List Nat) (src : Nat → D) (m : Nat) (hm : m ∈ ms)
    (lock : Lock) (d : D) (hs : Ev.store m lock d ∈ (replaceConfig env s ds ms src).log) : lock = .write := by
  unfold replaceConfig at hs
  split at hs
  · simp at hs
  · exact notifyStore_lock env s (replaceData src (loaded env s ds ms true)) false (replaceData_loaded env s ds ms src true).nodup
      (replaceLoop_has stays_upgr src _ (loaded_has env s ds ms true m hm).1) lock d hs

example : Ev.store 1 .write 11 ∈ (applyChanges exEnv exStore .running exEdit).log :=
  List.mem_cons_of_mem _ (List.mem_cons_of_mem _ (List.mem_cons_self ..))

/-- The property is false: module 2 depends on the changed module 1 and validation changes its data. It is written while others may read
it: only an upgradable read lock is held. -/
theorem stored_without_write_lock : ∃ (env : Env Nat) (s : Store Nat) (e : Edit Nat),
    (applyChanges env s .running e).err = false ∧ Ev.store 2 .upgr 0 ∈ (applyChanges env s .running e).log := by
  refine ⟨{ exEnv with
              invDeps := fun m => if m = 1 then [2] else []
              valMod := fun m d => if m = 2 ∧ d 1 = 11 then 0 else d m }, exStore, ⟨[1], fun _ _ => 11, fun _ => 0⟩, by decide, ?_⟩
  exact List.mem_cons_of_mem _ (List.mem_cons_of_mem _ (List.mem_cons_of_mem _ (List.mem_cons_self ..)))

/-- The property is false: an update subscriber changes module 3, which was only locked for reading because module 1 refers to it. It is
written with that lock. -/
theorem stored_read_locked : ∃ (env : Env Nat) (s : Store Nat) (e : Edit Nat),
    (applyChanges env s .running e).err = false ∧ Ev.store 3 .read 77 ∈ (applyChanges env s .running e).log := by
  refine ⟨{ exEnv with
              deps := fun m _ => if m = 1 then [3] else []
              upd := fun _ _ => .ok (some ⟨[3], fun _ _ => 77, fun _ => 0⟩) }, exStore, ⟨[1], fun _ _ => 11, fun _ => 0⟩, by decide, ?_⟩
  exact List.mem_cons_of_mem _ (List.mem_cons_of_mem _ (List.mem_cons_of_mem _ (List.mem_cons_self ..)))

/-! ## C31: pending changes -/

/-- A sequence of calls of a session: the session and the store after it, and which calls failed. -/
def runOps (c : Session D) (s : Store D) : List (Op D) → Session D × Store D
  | [] => (c, s)
  | op :: ops => runOps (op.run c s).1 (op.run c s).2.1 ops

/-- The call may change the pending changes of datastore `d`. -/
def touches (c : Session D) (s : Store D) (d : Ds) : Op D → Prop
  | .edit _ | .discard | .discardSome _ => c.ds = d
  | .apply env => c.ds = d ∧ (Op.run c s (.apply env)).2.2 = false
  | _ => False

/-- No call of the sequence may change the pending changes of `d`. -/
def Untouched (d : Ds) : Session D → Store D → List (Op D) → Prop
  | _, _, [] => True
  | c, s, op :: ops => ¬ touches c s d op ∧ Untouched d (op.run c s).1 (op.run c s).2.1 ops

/-- After successfully applying changes there are none in that datastore. -/
theorem applied_none_left (c : Session D) (s : Store D) (env : Env D) (h : (Op.run c s (.apply env)).2.2 = false) :
    (Op.run c s (.apply env)).1.pending c.ds = none := by
  unfold Op.run at h ⊢
  cases hp : c.pending c.ds with
  | none => simp [hp]
  | some e =>
    rw [hp] at h
    simp only at h ⊢
    rw [if_neg (by rw [h]; simp)]
    simp [Session.setPending]

/-- After a failure the changes are still there. -/
theorem failed_keeps_pending (c : Session D) (s : Store D) (env : Env D) (h : (Op.run c s (.apply env)).2.2 = true) :
    (Op.run c s (.apply env)).1 = c ∧ ∃ e, c.pending c.ds = some e := by
  unfold Op.run at h ⊢
  cases hp : c.pending c.ds with
  | none => rw [hp] at h; cases h
  | some e =>
    rw [hp] at h
    simp only at h ⊢
    rw [if_pos h]
    exact ⟨rfl, e, rfl⟩

/-- Discarding removes the changes of the present datastore, of no other, and changes no datastore. -/
theorem discard_only_pending (c : Session D) (s : Store D) :
    (Op.run c s .discard).1.pending c.ds = none ∧ (∀ d, d ≠ c.ds → (Op.run c s .discard).1.pending d = c.pending d) ∧
    (Op.run c s .discard).2.1 = s := by
  refine ⟨by simp [Op.run, Session.setPending], fun d hd => ?_, rfl⟩
  simp [Op.run, Session.setPending, hd]

/-- Pending changes of a datastore stay the same over any sequence of calls that does not edit, discard or successfully apply in it. -/
theorem pending_kept (d : Ds) (ops : List (Op D)) (c : Session D) (s : Store D) (h : Untouched d c s ops) :
    (runOps c s ops).1.pending d = c.pending d := by
  induction ops generalizing c s with
  | nil => rfl
  | cons op ops ih =>
    obtain ⟨h1, h2⟩ := h
    simp only [runOps]
    rw [ih _ _ h2]
    have hset : ∀ e, c.ds ≠ d → (c.setPending e).pending d = c.pending d := by
      intro e hne
      simp [Session.setPending, Ne.symm hne]
    cases op with
    | switch ds => rfl
    | edit e => exact hset e h1
    | discard => exact hset none h1
    | discardSome left =>
      simp only [Op.run]
      split
      · rfl
      · exact hset left h1
    | copy env lk src ms => rfl
    | replace env ms src => rfl
    | apply env =>
      by_cases hd : c.ds = d
      · have hf : (Op.run c s (.apply env)).2.2 = true := by
          cases hb : (Op.run c s (.apply env)).2.2 with
          | true => rfl
          | false => exact absurd ⟨hd, hb⟩ h1
        rw [(failed_keeps_pending c s env hf).1]
      · unfold Op.run
        cases hp : c.pending c.ds with
        | none => rfl
        | some e =>
          simp only
          split
          · rfl
          · exact hset none hd

/-- The datastores change only by applying, copying and replacing: any sequence of other calls leaves them. -/
theorem only_apply_stores (ops : List (Op D)) (c : Session D) (s : Store D)
    (h : ∀ op ∈ ops, (∃ ds, op = .switch ds) ∨ (∃ e, op = .edit e) ∨ op = .discard ∨ ∃ l, op = .discardSome l) :
    (runOps c s ops).2 = s := by
  induction ops generalizing c s with
  | nil => rfl
  | cons op ops ih =>
    simp only [runOps]
    have hs : (op.run c s).2.1 = s := by
      rcases h op (List.mem_cons_self ..) with ⟨ds, rfl⟩ | ⟨e, rfl⟩ | rfl | ⟨l, rfl⟩ <;> rfl
    rw [hs]
    exact ih _ _ (fun op' h' => h op' (List.mem_cons_of_mem _ h'))

/-- Changes made in one datastore are never applied to another: applying without changes in the present datastore does nothing. -/
theorem nothing_pending_nothing_applied (c : Session D) (s : Store D) (env : Env D) (h : c.pending c.ds = none) :
    Op.run c s (.apply env) = (c, s, false) := by
  unfold Op.run; rw [h]

/-- Changes made, then any number of failed attempts and work in other datastores, then discarded: the datastores are as if only the other
work had been done. Here: made in running and startup; running is applied; startup is still pending. -/
example : let c : Session Nat := ⟨.running, fun _ => none⟩
    let ops : List (Op Nat) := [.edit (some exEdit), .switch .startup, .edit (some exEdit), .switch .running,
      .apply { exEnv with chg := fun _ _ => .refused }, .apply exEnv]
    ((runOps c exStore ops).1.pending .running).isNone = true ∧ ((runOps c exStore ops).1.pending .startup).isSome = true ∧
    (runOps c exStore ops).2.read .running 1 = 11 ∧ (runOps c exStore ops).2.read .startup 1 = 20 := by decide

example : Untouched .startup (⟨.running, fun _ => some exEdit⟩ : Session Nat) exStore [.apply exEnv, .switch .startup,
    .apply { exEnv with chg := fun _ _ => .refused }] :=
  ⟨(fun h => by cases h.1), (fun h => h), (fun h => by have := h.2; revert this; decide), trivial⟩

/-- A consequence worth knowing: the error after everything was stored (`error_but_stored`) keeps the changes pending, so they are applied
again by the next call. -/
theorem stored_but_pending : ∃ (c : Session Nat) (s : Store Nat) (env : Env Nat) (e : Edit Nat), c.pending c.ds = some e ∧
    (∀ m ∈ e.mods, (Op.run c s (.apply env)).2.1.read c.ds m = wanted s c.ds e m) ∧
    ((Op.run c s (.apply env)).1.pending c.ds).isSome = true := by
  exact ⟨⟨.running, fun _ => some exEdit⟩, exStore, { exEnv with notifOk := false }, exEdit, rfl, by decide, by decide⟩

end Verif.Pipeline
