import Verif.PipelineProps
/-!
Properties of the candidate datastore (C32) and of concurrent commits (C62).
-/
namespace Verif.Pipeline
variable {D : Type} [DecidableEq D]

/-! ## Specification -/

/-- The call may change the candidate of module `m`: it works on the candidate datastore, or it resets or commits the module. -/
def onCandidate (m : Nat) : Call D → Prop
  | .apply _ ds _ | .replace _ ds _ _ => ds = .candidate
  | .copy _ _ src ds ms => src ≠ ds ∧ (ds = .candidate ∨ (src = .candidate ∧ ds = .running ∧ m ∈ ms))
  | .reset _ ms => m ∈ ms

/-- The call may store data in the candidate. -/
def writesCandidate : Call D → Prop
  | .apply _ ds _ | .replace _ ds _ _ => ds = .candidate
  | .copy _ _ src ds _ => ds = .candidate ∧ src ≠ .candidate ∧ src ≠ .running
  | .reset _ _ => False

/-! ## Lemmas -/

omit [DecidableEq D] in
theorem write_cand (s : Store D) (ds : Ds) (m : Nat) (d : D) (h : ds ≠ .candidate) : (s.write ds m d).cand = s.cand := by
  cases ds with
  | candidate => exact absurd rfl h
  | running => by_cases hr : s.runOff m = true <;> simp [Store.write, hr]
  | _ => rfl

theorem Outcome.cand {env : Env D} {s : Store D} {ds : Ds} {o : Out D} (h : Outcome env s ds o) (hds : ds ≠ .candidate) : o.st.cand = s.cand :=
  h.ind (fun t => t.cand = s.cand) (fun t m d ht => by rw [write_cand t ds m d hds]; exact ht) rfl

theorem commitLoaded_cand (env : Env D) (s : Store D) (ms : List Nat) (src : Nat → D) :
    (commitLoaded env s ms src).st.cand = s.cand ∨ (commitLoaded env s ms src).st.cand = (candidateReset env s ms).cand := by
  have hc := (replaceConfig_outcome env s .running ms src).cand (by simp)
  unfold commitLoaded
  simp only
  split
  · exact Or.inl hc
  · right; simp only [candidateReset, hc]

theorem reset_out (env : Env D) (s : Store D) (ms : List Nat) (m : Nat) (hm : m ∉ ms) : (candidateReset env s ms).cand m = s.cand m := by
  simp [candidateReset, hm]

theorem reset_none (env : Env D) (s : Store D) (ms : List Nat) (m : Nat) (h : s.cand m = none) : (candidateReset env s ms).cand m = none := by
  simp [candidateReset, h]

theorem reset_keeps (env : Env D) (s : Store D) (ms : List Nat) (ds : Ds) (m : Nat) (h : ds ≠ .candidate) :
    (candidateReset env s ms).read ds m = s.read ds m := by
  cases ds with
  | candidate => exact absurd rfl h
  | _ => rfl

theorem unmodified_reads (s : Store D) (m : Nat) (h : s.cand m = none) : s.read .candidate m = s.read .running m := by
  simp [Store.read, h]

/-! ## C32 -/

/-- A module whose candidate is not modified: as long as nobody stores in the candidate, over any calls of any sessions, reading it from
the candidate gives what is in running. -/
theorem unmodified_mirrors (m : Nat) (cs : List (Call D)) (s : Store D) (h : s.cand m = none) (hc : ∀ c ∈ cs, ¬ writesCandidate c) :
    (runCalls s cs).read .candidate m = (runCalls s cs).read .running m := by
  have key : (runCalls s cs).cand m = none := by
    induction cs generalizing s with
    | nil => exact h
    | cons c cs ih =>
      refine ih _ ?_ (fun c' hc' => hc c' (List.mem_cons_of_mem _ hc'))
      have hw := hc c (List.mem_cons_self ..)
      cases c with
      | apply env ds e => rw [Call.run, (applyChanges_outcome env s ds e).cand hw]; exact h
      | replace env ds ms src => rw [Call.run, (replaceConfig_outcome env s ds ms src).cand hw]; exact h
      | reset env ms => exact reset_none env s ms m h
      | copy env wrOk src ds ms =>
        simp only [Call.run, copyConfig]
        split
        · exact h
        · split
          · exact h
          · split
            · exact reset_none env s ms m h
            · split
              · rcases commitLoaded_cand env s ms (s.read src) with e | e
                · rw [e]; exact h
                · rw [e]; exact reset_none env s ms m h
              · rename_i h1 h2 h3 h4
                have hds : ds ≠ .candidate := by
                  intro hd
                  refine hw ⟨hd, fun hs => h1 (by rw [hs, hd]), fun hs => h3 ⟨hs, hd⟩⟩
                rw [(replaceConfig_outcome env s ds ms (s.read src)).cand hds]; exact h
  exact unmodified_reads _ m key

example : [1, 2].map ((runCalls exStore [.apply exEnv .running exEdit, .reset exEnv [2]]).read .candidate) = [11, 12] := by decide

/-- A module modified in the candidate: whatever other datastores are changed, over any calls of any sessions, it stays the same in the
candidate. -/
theorem modified_isolated (m : Nat) (d : D) (cs : List (Call D)) (s : Store D) (h : s.cand m = some d) (hc : ∀ c ∈ cs, ¬ onCandidate m c) :
    (runCalls s cs).read .candidate m = d := by
  have key : (runCalls s cs).cand m = some d := by
    induction cs generalizing s with
    | nil => exact h
    | cons c cs ih =>
      refine ih _ ?_ (fun c' hc' => hc c' (List.mem_cons_of_mem _ hc'))
      have hw := hc c (List.mem_cons_self ..)
      cases c with
      | apply env ds e => rw [Call.run, (applyChanges_outcome env s ds e).cand hw]; exact h
      | replace env ds ms src => rw [Call.run, (replaceConfig_outcome env s ds ms src).cand hw]; exact h
      | reset env ms => rw [Call.run, reset_out env s ms m hw]; exact h
      | copy env wrOk src ds ms =>
        simp only [Call.run, copyConfig]
        split
        · exact h
        · rename_i h1
          split
          · exact h
          · split
            · rename_i h3; exact absurd ⟨h1, Or.inl h3.2⟩ hw
            · split
              · rename_i h4
                have hm : m ∉ ms := fun hm => hw ⟨h1, Or.inr ⟨h4.1, h4.2, hm⟩⟩
                rcases commitLoaded_cand env s ms (s.read src) with e | e
                · rw [e]; exact h
                · rw [e, reset_out env s ms m hm]; exact h
              · have hds : ds ≠ .candidate := fun hd => hw ⟨h1, Or.inl hd⟩
                rw [(replaceConfig_outcome env s ds ms (s.read src)).cand hds]; exact h
  simp [Store.read, key]

example : let s := runCalls exStore [.apply exEnv .candidate ⟨[1], fun _ _ => 50, fun _ => 0⟩]
    s.cand 1 = some 50 ∧ s.cand 2 = none ∧
    [1, 2].map ((runCalls s [.apply exEnv .running exEdit, .copy exEnv true .startup .running [1, 2],
      .copy exEnv true .candidate .running [2]]).read .candidate) = [50, 20] := by decide

/-- A successful commit makes running of the committed modules equal to the candidate before it, changes running of no other module, and
the candidate of the committed modules is the same as running again; if validation and the subscribers add nothing and the candidate data
can be removed. Missing: see `commit_not_equal` and `commit_not_reset`. -/
theorem commit_makes_equal_partial (env : Env D) (wrOk : Bool) (s : Store D) (ms : List Nat) (hnu : NoUpdates env) (hne : Neutral env)
    (hun : ∀ m ∈ ms, env.unlink m = true) (hok : (copyConfig env wrOk s .candidate .running ms).err = false) :
    (∀ m ∈ ms, (copyConfig env wrOk s .candidate .running ms).st.read .running m = s.read .candidate m) ∧
    (∀ m, m ∉ ms → (copyConfig env wrOk s .candidate .running ms).st.read .running m = s.read .running m) ∧
    (∀ m ∈ ms, (copyConfig env wrOk s .candidate .running ms).st.cand m = none ∧
      (copyConfig env wrOk s .candidate .running ms).st.read .candidate m = (copyConfig env wrOk s .candidate .running ms).st.read .running m) ∧
    ∀ m, m ∉ ms → (copyConfig env wrOk s .candidate .running ms).st.cand m = s.cand m := by
  have he : copyConfig env wrOk s .candidate .running ms =
      if !wrOk then ⟨s, [], true⟩ else commitLoaded env s ms (s.read .candidate) := by
    simp [copyConfig]
  rw [he] at hok ⊢
  cases wrOk with
  | false => cases hok
  | true =>
    simp only [Bool.not_true, Bool.false_eq_true, if_false] at hok ⊢
    unfold commitLoaded at hok ⊢
    simp only at hok ⊢
    by_cases hb : (replaceConfig env s .running ms (s.read .candidate)).err = true
    · rw [if_pos hb] at hok; rw [hb] at hok; cases hok
    · rw [if_neg hb]
      have hb' : (replaceConfig env s .running ms (s.read .candidate)).err = false := by simpa using hb
      have hr := replaced_is_wanted_partial env s .running ms (s.read .candidate) hnu hne hb'
      have hc := (replaceConfig_outcome env s .running ms (s.read .candidate)).cand (by simp)
      have hnone : ∀ m ∈ ms, (candidateReset env (replaceConfig env s .running ms (s.read .candidate)).st ms).cand m = none := by
        intro m hm; simp [candidateReset, hm, hun m hm]
      refine ⟨fun m hm => ?_, fun m hm => ?_, fun m hm => ⟨hnone m hm, unmodified_reads _ m (hnone m hm)⟩, fun m hm => ?_⟩
      · simp only [reset_keeps env _ ms .running m (by simp), hr m, replaced, if_pos hm]
      · simp only [reset_keeps env _ ms .running m (by simp), hr m, replaced, if_neg hm]
      · simp only [reset_out env _ ms m hm, hc]

example : let s := runCalls exStore [.apply exEnv .candidate ⟨[1, 2], fun m _ => 50 + m, fun _ => 0⟩]
    (copyConfig exEnv true s .candidate .running [1, 3]).err = false ∧
    [1, 2, 3].map ((copyConfig exEnv true s .candidate .running [1, 3]).st.read .running) = [51, 10, 10] ∧
    [1, 2, 3].map ((copyConfig exEnv true s .candidate .running [1, 3]).st.read .candidate) = [51, 52, 10] := by decide

/-- A commit that fails changes neither running nor the candidate, unless the last phase fails. -/
theorem failed_commit_keeps_partial (env : Env D) (wrOk : Bool) (s : Store D) (ms : List Nat) (hf : StoresFine env)
    (he : (copyConfig env wrOk s .candidate .running ms).err = true) : (copyConfig env wrOk s .candidate .running ms).st = s := by
  have hc : copyConfig env wrOk s .candidate .running ms =
      if !wrOk then ⟨s, [], true⟩ else commitLoaded env s ms (s.read .candidate) := by
    simp [copyConfig]
  rw [hc] at he ⊢
  split
  · rfl
  · rename_i hw
    rw [if_neg hw] at he
    unfold commitLoaded at he ⊢
    simp only at he ⊢
    split
    · rename_i hb
      exact (replaceConfig_outcome env s .running ms (s.read .candidate)).kept hf hb
    · rename_i hb; rw [if_neg hb] at he; cases he

/-- A failed commit never loses the candidate, whatever failed. -/
theorem failed_commit_keeps_candidate (env : Env D) (wrOk : Bool) (s : Store D) (ms : List Nat)
    (he : (copyConfig env wrOk s .candidate .running ms).err = true) : (copyConfig env wrOk s .candidate .running ms).st.cand = s.cand := by
  have hc : copyConfig env wrOk s .candidate .running ms =
      if !wrOk then ⟨s, [], true⟩ else commitLoaded env s ms (s.read .candidate) := by
    simp [copyConfig]
  rw [hc] at he ⊢
  split
  · rfl
  · rename_i hw
    rw [if_neg hw] at he
    unfold commitLoaded at he ⊢
    simp only at he ⊢
    split
    · exact (replaceConfig_outcome env s .running ms (s.read .candidate)).cand (by simp)
    · rename_i hb; rw [if_neg hb] at he; cases he

example : let s := runCalls exStore [.apply exEnv .candidate ⟨[1, 2], fun m _ => 50 + m, fun _ => 0⟩]
    (copyConfig { exEnv with chg := fun _ _ => .refused } true s .candidate .running [1, 2]).err = true ∧
    (copyConfig { exEnv with chg := fun _ _ => .refused } true s .candidate .running [1, 2]).st.cand 1 = some 51 := by decide

/-- Discarding the candidate (copying running to it, unlocking it, the end of the session that locked it) makes it the same as running, if
its data can be removed; it changes no other datastore. -/
theorem discard_mirrors (env : Env D) (s : Store D) (ms : List Nat) (m : Nat) (hm : m ∈ ms) (hu : env.unlink m = true) :
    ((Call.copy env true .running .candidate ms).run s).st.read .candidate m = s.read .running m ∧
    ((Call.reset env ms).run s).st.read .candidate m = s.read .running m ∧
    ∀ ds k, ds ≠ .candidate → ((Call.copy env true .running .candidate ms).run s).st.read ds k = s.read ds k ∧
      ((Call.reset env ms).run s).st.read ds k = s.read ds k := by
  have h0 : (candidateReset env s ms).cand m = none := by simp [candidateReset, hm, hu]
  have h1 : (candidateReset env s ms).read .candidate m = s.read .running m := by
    rw [unmodified_reads _ m h0, reset_keeps env s ms .running m (by simp)]
  exact ⟨h1, h1, fun ds k hd => ⟨reset_keeps env s ms ds k hd, reset_keeps env s ms ds k hd⟩⟩

/-- The property is false: the data of the candidate cannot be removed, which is only logged. The commit succeeds, running changes later,
and the candidate still has the committed content. -/
theorem commit_not_reset : ∃ (env : Env Nat) (s : Store Nat) (e : Edit Nat),
    (copyConfig env true s .candidate .running [1]).err = false ∧
    (applyChanges exEnv (copyConfig env true s .candidate .running [1]).st .running e).err = false ∧
    let t := (applyChanges exEnv (copyConfig env true s .candidate .running [1]).st .running e).st
    t.read .candidate 1 ≠ t.read .running 1 :=
  ⟨{ exEnv with unlink := fun _ => false }, { exStore with cand := fun m => if m = 1 then some 50 else none }, exEdit, by decide⟩

/-- The property is false: validation (which does not happen in the candidate) changes the committed data, the commit succeeds with another
content than the candidate had. -/
theorem commit_not_equal : ∃ (env : Env Nat) (s : Store Nat), (copyConfig env true s .candidate .running [1]).err = false ∧
    (copyConfig env true s .candidate .running [1]).st.read .running 1 ≠ s.read .candidate 1 :=
  ⟨{ exEnv with valMod := fun m d => if d m = 50 then 51 else d m }, { exStore with cand := fun m => if m = 1 then some 50 else none }, by decide⟩

/-! ## C62: no lost updates -/

/-- Calls one after another never lose a change: a module not named in a call, with nothing added by validation and subscribers, keeps
its content. -/
theorem others_kept_partial (env : Env D) (s : Store D) (ds : Ds) (e : Edit D) (hnu : NoUpdates env) (hne : Neutral env)
    (hok : (applyChanges env s ds e).err = false) (m : Nat) (hm : m ∉ e.mods) : (applyChanges env s ds e).st.read ds m = s.read ds m := by
  rw [applied_is_wanted_partial env s ds e hnu hne hok m]
  simp [wanted, hm]

/-- A commit is not atomic: between loading the candidate and locking running another session changes module 2, which is not modified in
the candidate, and succeeds. The commit of a change of module 1 succeeds as well and sets module 2 back. -/
theorem commit_reverts_other_change : ∃ (s : Store Nat) (e : Edit Nat), s.cand 2 = none ∧
    (applyChanges exEnv s .running e).err = false ∧ (applyChanges exEnv s .running e).st.read .running 2 = 12 ∧
    (commitLoaded exEnv (applyChanges exEnv s .running e).st [1, 2] (s.read .candidate)).err = false ∧
    (commitLoaded exEnv (applyChanges exEnv s .running e).st [1, 2] (s.read .candidate)).st.read .running 2 = 10 :=
  ⟨{ exStore with cand := fun m => if m = 1 then some 50 else none }, ⟨[2], fun _ _ => 12, fun _ => 0⟩, by decide⟩

/-- If running of the modules not modified in the candidate is not changed in between, the commit gives the same as when done at once. -/
theorem commit_late_ok (env : Env D) (s t : Store D) (ms : List Nat) (hnu : NoUpdates env) (hne : Neutral env)
    (hc : ∀ m, t.cand m = s.cand m) (hr : ∀ m ∈ ms, s.cand m = none → t.read .running m = s.read .running m)
    (hok : (commitLoaded env t ms (s.read .candidate)).err = false) (m : Nat) :
    (commitLoaded env t ms (s.read .candidate)).st.read .running m = if m ∈ ms then t.read .candidate m else t.read .running m := by
  unfold commitLoaded at hok ⊢
  simp only at hok ⊢
  by_cases hb : (replaceConfig env t .running ms (s.read .candidate)).err = true
  · rw [if_pos hb] at hok; rw [hb] at hok; cases hok
  · rw [if_neg hb]
    have hb' : (replaceConfig env t .running ms (s.read .candidate)).err = false := by simpa using hb
    simp only [reset_keeps env _ ms .running m (by simp), replaced_is_wanted_partial env t .running ms (s.read .candidate) hnu hne hb' m,
      replaced]
    split
    · rename_i hm
      cases hs : s.cand m with
      | none => rw [unmodified_reads t m (by rw [hc, hs]), hr m hm hs, unmodified_reads s m hs]
      | some d => simp [Store.read, hs, hc m]
    · rfl

example : let s : Store Nat := { exStore with cand := fun m => if m = 1 then some 50 else none }
    let t := (applyChanges exEnv s .running ⟨[1, 3], fun _ _ => 12, fun _ => 0⟩).st
    (t.cand 1 = s.cand 1 ∧ t.read .running 2 = s.read .running 2) ∧ (commitLoaded exEnv t [1, 2] (s.read .candidate)).err = false ∧
    [1, 2, 3].map ((commitLoaded exEnv t [1, 2] (s.read .candidate)).st.read .running) = [50, 10, 12] := by decide

end Verif.Pipeline
