import Verif.CacheCtx

/-! # Properties of the cache of running data when modules change (C140) -/

namespace Verif.CacheCtx

theorem data_run (h : List Call) : (run h).data = current h := by
  induction h with
  | nil => rfl
  | cons c h ih => cases c <;> simp [run, step, current, ih]

/-- What is cached by a connection that has the current content ID. -/
def Good (st : State) (k : Conn) : Prop :=
  k.content = st.content → ∀ i d, k.cache = some (i, d) → i < st.id ∨ (i = st.id ∧ d = st.data)

theorem good_sync {st : State} {c : Nat} (h : Good st (st.conns c)) : Good st (sync st c) := by
  unfold sync
  split
  · intro _ i d hc; simp at hc
  · exact h

theorem update_exact {st : State} {c : Nat} (h : Good st (st.conns c)) :
    (update st (sync st c)).2 = st.data ∧ (update st (sync st c)).1.cache = some (st.id, st.data) ∧
    (update st (sync st c)).1.content = st.content := by
  have hg := good_sync h
  have hc : (sync st c).content = st.content := by
    unfold sync
    split
    · rfl
    · rename_i h; exact (Decidable.not_not.1 h).symm
  cases e : (sync st c).cache with
  | none => simp [update, e, hc]
  | some p =>
    obtain ⟨i, d⟩ := p
    rcases hg hc i d e with h1 | ⟨h1, h2⟩
    · have : ¬ i = st.id := by omega
      simp [update, e, hc, this]
    · subst h1 h2; simp [update, e, hc]

structure Inv (h : List Call) : Prop where
  good : ∀ c, Good (run h) ((run h).conns c)
  mem : ∀ c, ((run h).conns c).content ∈ contents h
  cur : (run h).content ∈ contents h

theorem inv_run (h : List Call) (hf : fresh h = true) : Inv h := by
  induction h with
  | nil => exact ⟨fun c _ i d e => by simp [run, init] at e, fun c => by simp [run, init, contents], by simp [run, init, contents]⟩
  | cons x h ih =>
    cases x with
    | change c v =>
      have I := ih (by simpa [fresh] using hf)
      have U := update_exact (I.good c)
      refine ⟨fun c' => ?_, fun c' => ?_, I.cur⟩
      · by_cases e : c' = c
        · subst e
          intro _ i d he
          simp only [run, step, setAt, if_true, Option.some.injEq, Prod.mk.injEq] at he ⊢
          exact .inr ⟨he.1.symm, he.2.symm⟩
        · intro hc i d he
          simp only [run, step, setAt, if_neg e] at hc he ⊢
          rcases I.good c' hc i d he with h1 | ⟨h1, _⟩ <;> left <;> omega
      · by_cases e : c' = c
        · subst e
          simp only [run, step, setAt, if_true, U.2.2]; exact I.cur
        · simp only [run, step, setAt, if_neg e]; exact I.mem c'
    | read c =>
      have I := ih (by simpa [fresh] using hf)
      have U := update_exact (I.good c)
      refine ⟨fun c' => ?_, fun c' => ?_, I.cur⟩
      · by_cases e : c' = c
        · subst e
          intro _ i d he
          simp only [run, step, setAt, if_true, U.2.1, Option.some.injEq, Prod.mk.injEq] at he ⊢
          exact .inr ⟨he.1.symm, he.2.symm⟩
        · intro hc i d he
          simp only [run, step, setAt, if_neg e] at hc he ⊢
          exact I.good c' hc i d he
      · by_cases e : c' = c
        · subst e
          simp only [run, step, setAt, if_true, U.2.2]; exact I.cur
        · simp only [run, step, setAt, if_neg e]; exact I.mem c'
    | modules c k =>
      simp only [fresh, Bool.and_eq_true, Bool.not_eq_true', List.contains_eq_mem, decide_eq_false_iff_not] at hf
      have I := ih hf.2
      refine ⟨fun c' => ?_, fun c' => ?_, by simp [run, step, contents]⟩
      · by_cases e : c' = c
        · subst e
          intro _ i d he
          simp [run, step, setAt] at he
        · intro hc i d he
          simp only [run, step, setAt, if_neg e] at hc
          exact absurd (hc ▸ I.mem c') hf.1
      · by_cases e : c' = c
        · subst e; simp [run, step, setAt, contents]
        · simp only [run, step, setAt, if_neg e, contents]
          exact List.mem_cons_of_mem _ (I.mem c')
    | failed c => simp [fresh] at hf

/-- **C140 (partial).** If no set of modules was there again after modules were changed and no such call failed, every
connection reads the data last stored in `running`. Missing: after a set of modules returned or a failure; it is false
(`stale_after_removal`, `stale_after_failure`). -/
theorem read_current_partial (h : List Call) (c : Nat) (hf : fresh h = true) :
    (step (run h) (.read c)).2 = some (current h) := by
  have U := update_exact ((inv_run h hf).good c)
  show some (update (run h) (sync (run h) c)).2 = _
  rw [U.1, data_run]

example : fresh [.read 1, .change 2 7, .modules 2 5, .change 1 4, .read 1, .modules 1 3] = true ∧
    current [.read 1, .change 2 7, .modules 2 5, .change 1 4, .read 1, .modules 1 3] = 7 := by decide

/-- **C140 is false of the code: old data are read** after a module was installed and removed again, here with a change
before that and one after. -/
theorem stale_after_removal : ∃ h c, fresh h = false ∧ (∀ x, Call.failed x ∉ h) ∧
    (step (run h) (.read c)).2 = some 5 ∧ current h = 6 :=
  ⟨[.change 1 6, .modules 1 0, .modules 1 9, .read 2, .change 1 5], 2, by decide, by simp, by decide, rfl⟩

/-- **C140 is false of the code: old data are read** after a module could not be installed. -/
theorem stale_after_failure : ∃ h c, contents h = [0] ∧ (step (run h) (.read c)).2 = some 5 ∧ current h = 6 :=
  ⟨[.change 1 6, .failed 1, .read 2, .change 1 5], 2, rfl, by decide, rfl⟩

theorem cached_stored (h : List Call) (c i d : Nat) (e : ((run h).conns c).cache = some (i, d)) : d ∈ stored h := by
  have hcur : ∀ h, current h ∈ stored h := by
    intro h
    induction h with
    | nil => simp [current, stored]
    | cons x h ih => cases x <;> simp [current, stored, ih]
  have hsync : ∀ st c i d, (sync st c).cache = some (i, d) → (st.conns c).cache = some (i, d) := by
    intro st c i d e
    unfold sync at e
    split at e
    · simp at e
    · exact e
  induction h generalizing c i d with
  | nil => simp [run, init] at e
  | cons x h ih =>
    cases x with
    | change c' v =>
      by_cases ec : c = c'
      · subst ec
        simp [run, step, setAt] at e
        simp [stored, e.2]
      · simp only [run, step, setAt, if_neg ec] at e
        exact List.mem_cons_of_mem _ (ih c i d e)
    | read c' =>
      by_cases ec : c = c'
      · subst ec
        simp only [run, step, setAt, if_true, update] at e
        show d ∈ stored h
        split at e
        · rename_i i' d' hs
          split at e
          · exact ih c i d (hsync _ _ _ _ e)
          · simp only [Option.some.injEq, Prod.mk.injEq] at e
            rw [← e.2, data_run]; exact hcur h
        · simp only [Option.some.injEq, Prod.mk.injEq] at e
          rw [← e.2, data_run]; exact hcur h
      · simp only [run, step, setAt, if_neg ec] at e
        exact ih c i d e
    | modules c' k =>
      by_cases ec : c = c'
      · subst ec; simp [run, step, setAt] at e
      · simp only [run, step, setAt, if_neg ec] at e
        exact ih c i d e
    | failed c' =>
      by_cases ec : c = c'
      · subst ec
        simp only [run, step, setAt, if_true] at e
        exact ih c i d (hsync _ _ _ _ e)
      · simp only [run, step, setAt, if_neg ec] at e
        exact ih c i d e

/-- **C140, what holds in all histories.** Data read were stored in `running` at some time. -/
theorem read_was_stored (h : List Call) (c d : Nat) (hr : (step (run h) (.read c)).2 = some d) : d ∈ stored h := by
  have hcur : ∀ h, current h ∈ stored h := by
    intro h
    induction h with
    | nil => simp [current, stored]
    | cons x h ih => cases x <;> simp [current, stored, ih]
  have hr : some (update (run h) (sync (run h) c)).2 = some d := hr
  simp only [update, Option.some.injEq] at hr
  split at hr
  · rename_i i' d' hs
    split at hr
    · have : ((run h).conns c).cache = some (i', d') := by
        unfold sync at hs
        split at hs
        · simp at hs
        · exact hs
      subst hr
      exact cached_stored h c i' _ this
    · rw [← hr]; show (run h).data ∈ _; rw [data_run]; exact hcur h
  · rw [← hr]; show (run h).data ∈ _; rw [data_run]; exact hcur h

example : (step (run [.change 1 6, .failed 1, .read 2, .change 1 5]) (.read 2)).2 = some 5 ∧
    stored [.change 1 6, .failed 1, .read 2, .change 1 5] = [6, 5, 0] := by decide

/-- Each connection reads its own changes, in all histories, also if other connections read old data. -/
theorem own_change_read (h : List Call) (c v : Nat) :
    (step (run (.change c v :: h)) (.read c)).2 = some v := by
  have hc : ((run (.change c v :: h)).conns c).content = (run h).content := by
    simp only [run, step, setAt, if_true]
    have hs : (sync (run h) c).content = (run h).content := by
      unfold sync
      split
      · rfl
      · rename_i h; exact (Decidable.not_not.1 h).symm
    unfold update
    split
    · split <;> exact hs
    · exact hs
  have hs : sync (run (.change c v :: h)) c = (run (.change c v :: h)).conns c := by
    unfold sync
    rw [if_neg]
    rw [hc]; simp [run, step]
  show some (update _ (sync _ c)).2 = _
  rw [hs]
  simp [run, step, setAt, update]

end Verif.CacheCtx
