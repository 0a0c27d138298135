import Verif.ListenerLemmas

/-! Lemmas about aborts: what a subscription has accepted before it is told to abort. -/

namespace Verif.Listener

/-- The call in which subscription `i` accepted the change of request `r`. -/
def acc (i r : Nat) : Call := ⟨i, r, .change, false, .ok⟩

/-- Abort calls come after the accepting one; those that subscribers generated themselves are included if `solo`. -/
def AbortOk (solo : Prop) (log : List Call) : Prop :=
  ∀ a x b, log = a ++ x :: b → x.ev = .abort → (x.own = false ∨ solo) → acc x.sub x.req ∈ a

theorem AbortOk.append_one {solo : Prop} {log : List Call} (h : AbortOk solo log) {y : Call}
    (hy : y.ev = .abort → (y.own = false ∨ solo) → acc y.sub y.req ∈ log) : AbortOk solo (log ++ [y]) := by
  intro a x b e he ho
  rcases List.eq_nil_or_concat b with hb | ⟨b', z, hb⟩
  · subst hb
    obtain ⟨h1, h2⟩ := List.append_inj' e rfl
    simp only [List.cons.injEq, and_true] at h2
    subst h1 h2
    exact hy he ho
  · rw [List.concat_eq_append] at hb
    subst hb
    have e' : log ++ [y] = (a ++ x :: b') ++ [z] := by simpa using e
    obtain ⟨h1, h2⟩ := List.append_inj' e' rfl
    exact h a x b' h1 he ho

/-- Filters that let an abort through let the change through. -/
def Stable (c : Cfg) : Prop := ∀ i r, c.filt i r .abort = true → c.filt i r .change = true

def PcB (c : Cfg) (solo : Prop) (st : St) : Pc → Prop
  | .fin info _ _ last ret fv => solo → info.ev = .change → ret = .ok → fv = true → acc last info.req ∈ st.log
  | _ => True

structure InvB (c : Cfg) (solo : Prop) (st : St) : Prop where
  aborts : AbortOk solo st.log
  mem : ∀ i r, st.mem i = some (r, .change) → c.filt i r .change = true → acc i r ∈ st.log
  pcs : ∀ l, PcB c solo st (st.pc l)

theorem PcB.mono {c : Cfg} {solo : Prop} {st st' : St} {p : Pc} (h : PcB c solo st p) (hl : ∀ x ∈ st.log, x ∈ st'.log) : PcB c solo st' p := by
  cases p with
  | idle => trivial
  | cb => trivial
  | fin info v err last ret fv => exact fun a b c d => hl _ (h a b c d)

theorem AbortOk.own {c : Cfg} {solo : Prop} {log : List Call} (h : AbortOk solo log) {info : Info} {ret : Ret} {fv : Bool} {i : Nat}
    (hi : solo → info.ev = .change → ret = .ok → fv = true → acc i info.req ∈ log) : AbortOk solo (log ++ ownAbort c info ret fv i) := by
  unfold ownAbort
  split
  · rename_i hc
    refine h.append_one ?_
    intro _ ho
    rcases ho with ho | ho
    · cases ho
    · exact hi ho hc.1 hc.2.1 hc.2.2.1
  · simpa using h

theorem InvB.step_ret {c : Cfg} (solo : Prop) (hsolo : solo → ∀ l, (mine c l).length ≤ 1) {st : St} (hA : InvA c st) (h : InvB c solo st)
    {l i : Nat} {rest : List Nat} {info : Info} {valid : List Nat} {ret0 ret : Ret} {fv : Bool}
    (new : List Call) (hst : Stable c) (hpc : st.pc l = .cb i rest info valid ret0)
    (hnew : (fv = true ∧ c.filt i info.req info.ev = true ∧ new = [⟨i, info.req, info.ev, false, ret⟩]) ∨
      (fv = false ∧ c.filt i info.req info.ev = false ∧ new = [])) :
    InvB c solo (afterCb c { st with log := st.log ++ new } l i rest info valid ret fv) := by
  have hp := hA.pcs l
  rw [hpc] at hp
  obtain ⟨p1, p2, p3, p4, p5, p6⟩ := hp
  have hlog : AbortOk solo (st.log ++ new) := by
    rcases hnew with ⟨_, ef, e⟩ | ⟨_, _, e⟩ <;> subst e
    · refine h.aborts.append_one ?_
      intro he _
      simp only [] at he
      rw [he] at ef
      exact h.mem i info.req (p6 he) (hst _ _ ef)
    · simpa using h.aborts
  have hacc : info.ev = .change → ret = .ok → fv = true → acc i info.req ∈ st.log ++ new := by
    intro e1 e2 e3
    rcases hnew with ⟨_, ef, e⟩ | ⟨e, _, _⟩
    · subst e
      rw [e1, e2]
      simp [acc]
    · rw [e3] at e; cases e
  have hmono : ∀ x ∈ st.log, x ∈ st.log ++ new := fun x hx => List.mem_append_left _ hx
  have hrest : solo → rest = [] := by
    intro hs
    have := p1.length_le
    have h2 := hsolo hs l
    simp only [List.length_cons] at this
    exact List.length_eq_zero_iff.mp (by omega)
  have hgo : ∀ mem v, PcB c solo { st with log := st.log ++ new } (goOn c st.shm mem st.susp i rest info v ret fv) := by
    intro mem v
    rcases goOn_cases c st.shm mem st.susp i rest info v ret fv with e | ⟨j, rest', e, _, _⟩
    · rw [e]
      intro hs e1 e2 e3
      rw [hrest hs]
      exact hacc e1 e2 e3
    · rw [e]; trivial
  have common : ∀ (p : Pc) (mem : Nat → Option (Nat × Ev)), PcB c solo { st with log := st.log ++ new } p →
      (∀ j r, mem j = some (r, .change) → c.filt j r .change = true → acc j r ∈ st.log ++ new) →
      InvB c solo { st with pc := setPc st l p, mem := mem, log := st.log ++ new } := by
    intro p mem hP hm
    refine ⟨hlog, hm, ?_⟩
    intro l'
    by_cases hl : l' = l
    · subst hl; simp only [setPc_self]
      cases p <;> exact hP
    · simp only [setPc_other _ _ hl]
      exact PcB.mono (h.pcs l') hmono
  unfold afterCb
  by_cases hs : same st.shm info = false
  · rw [if_pos hs]
    refine ⟨?_, ?_, ?_⟩
    · exact hlog.own (fun _ => hacc)
    · intro j r hm hf
      exact List.mem_append_left _ (hmono _ (h.mem j r hm hf))
    · intro l'
      by_cases hl : l' = l
      · subst hl; simp only [setPc_self]; trivial
      · simp only [setPc_other _ _ hl]
        exact PcB.mono (h.pcs l') (fun x hx => List.mem_append_left _ (hmono _ hx))
  · rw [if_neg hs]
    have hmold : ∀ j r, st.mem j = some (r, .change) → c.filt j r .change = true → acc j r ∈ st.log ++ new := fun j r hm hf => hmono _ (h.mem j r hm hf)
    by_cases hb1 : fv = false ∧ c.fOrig i = true
    · rw [if_pos hb1]
      exact common _ st.mem (hgo _ _) hmold
    · rw [if_neg hb1]
      by_cases hb2 : info.ev = .change ∧ ret = .shelve
      · rw [if_pos hb2]
        exact common _ st.mem (hgo _ _) hmold
      · rw [if_neg hb2]
        by_cases hb3 : info.ev = .change ∧ ret = .fail
        · rw [if_pos hb3]
          refine common (.fin info valid true i ret fv) (setMem st i (info.req, .abort)) ?_ ?_
          · intro _ _ e
            rw [hb3.2] at e; cases e
          · intro j r hm hf
            by_cases hj : j = i
            · subst hj; simp [setMem] at hm
            · simp only [setMem, hj, if_false] at hm
              exact hmold j r hm hf
        · rw [if_neg hb3]
          refine common _ (setMem st i (info.req, info.ev)) (hgo _ _) ?_
          intro j r hm hf
          by_cases hj : j = i
          · subst hj
            simp only [setMem, if_true, Option.some.injEq, Prod.mk.injEq] at hm
            obtain ⟨rfl, hev⟩ := hm
            rw [hev] at hnew
            rcases hnew with ⟨e1, _, e3⟩ | ⟨_, e2, _⟩
            · refine hacc hev ?_ e1
              cases hr : ret with
              | ok => rfl
              | fail => exact absurd ⟨hev, hr⟩ hb3
              | shelve => exact absurd ⟨hev, hr⟩ hb2
            · rw [hf] at e2; cases e2
          · simp only [setMem, hj, if_false] at hm
            exact hmold j r hm hf

theorem InvB.init {c : Cfg} {solo : Prop} {st : St} (h : Init st) : InvB c solo st := by
  obtain ⟨h1, h2, h3, h4, h5, h6, h7⟩ := h
  refine ⟨?_, ?_, ?_⟩
  · intro a x b e; rw [h4] at e; simp at e
  · intro i r hm; rw [h2] at hm; simp at hm
  · intro l; rw [h3]; trivial

theorem InvB.step {c : Cfg} {solo : Prop} (hsolo : solo → ∀ l, (mine c l).length ≤ 1) (hst : Stable c) {st st' : St} {lb : Label} (hA : InvA c st)
    (h : InvB c solo st) (hs : step c st lb = some st') : InvB c solo st' := by
  have keep : ∀ (p : Nat → Pc) (shm : Shm) (su : Nat → Bool) (pu : List Info) (d r : List Nat), (∀ l, PcB c solo st (p l)) →
      InvB c solo ⟨shm, st.mem, su, p, st.log, pu, d, r⟩ := by
    intro p shm su pu d r hP
    exact ⟨h.aborts, h.mem, fun l' => PcB.mono (hP l') (fun x hx => hx)⟩
  cases lb with
  | start l n =>
    simp only [Listener.step] at hs
    split at hs
    · split at hs
      · simp at hs
      · simp only [Option.some.injEq] at hs
        subst hs
        refine keep _ _ _ _ _ _ ?_
        intro l'
        by_cases hl : l' = l
        · subst hl; simp only [setPc_self]; trivial
        · simp only [setPc_other _ _ hl]; exact h.pcs l'
    · simp at hs
  | ret l r =>
    simp only [Listener.step] at hs
    cases hpc : st.pc l with
    | idle => rw [hpc] at hs; simp at hs
    | fin => rw [hpc] at hs; simp at hs
    | cb i rest info valid stale =>
      rw [hpc] at hs
      simp only [] at hs
      by_cases hfl : c.filt i info.req info.ev = true
      · rw [if_pos hfl] at hs
        simp only [Option.some.injEq] at hs
        subst hs
        exact InvB.step_ret solo hsolo hA h _ hst hpc (Or.inl ⟨rfl, hfl, rfl⟩)
      · rw [if_neg hfl] at hs
        simp only [Option.some.injEq] at hs
        subst hs
        have := InvB.step_ret solo hsolo hA h (ret := stale) (fv := false) [] hst hpc (Or.inr ⟨rfl, by simpa using hfl, rfl⟩)
        simpa using this
  | finish l =>
    simp only [Listener.step] at hs
    cases hpc : st.pc l with
    | idle => rw [hpc] at hs; simp at hs
    | cb => rw [hpc] at hs; simp at hs
    | fin info valid err last ret fv =>
      rw [hpc] at hs
      simp only [] at hs
      have hf := h.pcs l
      rw [hpc] at hf
      by_cases hsm : same st.shm info = false
      · rw [if_pos hsm] at hs
        simp only [Option.some.injEq] at hs
        subst hs
        refine ⟨h.aborts.own hf, fun j r hm hfl => List.mem_append_left _ (h.mem j r hm hfl), ?_⟩
        intro l'
        by_cases hl : l' = l
        · subst hl; simp only [setPc_self]; trivial
        · simp only [setPc_other _ _ hl]
          exact PcB.mono (h.pcs l') (fun x hx => List.mem_append_left _ hx)
      · rw [if_neg hsm] at hs
        simp only [Option.some.injEq] at hs
        subst hs
        refine keep _ _ _ _ _ _ ?_
        intro l'
        by_cases hl : l' = l
        · subst hl; simp only [setPc_self]; trivial
        · simp only [setPc_other _ _ hl]; exact h.pcs l'
  | publish info n =>
    simp only [Listener.step] at hs
    split at hs
    · simp only [Option.some.injEq] at hs
      subst hs
      exact keep _ _ _ _ _ _ h.pcs
    · simp at hs
  | collect =>
    simp only [Listener.step] at hs
    split at hs
    all_goals first | (simp at hs; done) | (simp only [Option.some.injEq] at hs; subst hs; exact keep _ _ _ _ _ _ h.pcs)
  | timeout =>
    simp only [Listener.step] at hs
    split at hs
    all_goals first | (simp at hs; done) | (simp only [Option.some.injEq] at hs; subst hs; exact keep _ _ _ _ _ _ h.pcs)
  | suspend i b =>
    simp only [Listener.step, Option.some.injEq] at hs
    subst hs
    exact keep _ _ _ _ _ _ h.pcs

theorem reach_invB {c : Cfg} (hc : Ok c) {solo : Prop} (hsolo : solo → ∀ l, (mine c l).length ≤ 1) (hst : Stable c) {allow : St → Label → Prop}
    (ha : ∀ st lb, allow st lb → Fresh st lb) {st : St} (h : Reach c allow st) : InvB c solo st := by
  induction h with
  | init h => exact InvB.init h
  | step hr hal hs ih => exact InvB.step hsolo hst (reach_invA hc ha hr) ih hs

end Verif.Listener
