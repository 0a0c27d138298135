import Verif.ListenerLemmas

/-! Lemmas about counting the subscribers that have processed an event. -/

namespace Verif.Listener

/-- Subscription `i` has processed the event: its callback, if there is a change for it, was called and has not refused or put off the change. -/
def Processed (c : Cfg) (log : List Call) (info : Info) (i : Nat) : Prop :=
  c.filt i info.req info.ev = true → ∃ ret, ⟨i, info.req, info.ev, false, ret⟩ ∈ log ∧ (info.ev = .change → ret = .ok)

/-- Subscription `i` refused the change. -/
def Refused (log : List Call) (info : Info) (i : Nat) : Prop := ⟨i, info.req, .change, false, .fail⟩ ∈ log

/-- The steps of an undisturbed run: the originator counts the subscribers right, nothing is suspended while an event is pending. `nt`: the
originator does not time out either. -/
def Calm (c : Cfg) (nt : Prop) (st : St) : Label → Prop
  | .publish info n => info ∉ st.pubs ∧ 0 < n ∧ n < W ∧ n = (dueOf c ⟨.listen info.ev, info.req, info.prio, n⟩ st.mem st.susp info).length
  | .suspend _ _ => ∀ ev, st.shm.ev ≠ .listen ev
  | .timeout => ¬ nt
  | _ => True

theorem Calm.fresh {c : Cfg} {nt : Prop} (st : St) (lb : Label) (h : Calm c nt st lb) : Fresh st lb := by
  cases lb <;> first | trivial | exact h.1

def pcInfo : Pc → Option Info
  | .idle => none
  | .cb _ _ info _ _ => some info
  | .fin info _ _ _ _ _ => some info

def pcValid : Pc → List Nat
  | .idle => []
  | .cb _ _ _ v _ => v
  | .fin _ v _ _ _ _ => v

def ValidOk (c : Cfg) (st : St) (l : Nat) (info : Info) (v : List Nat) : Prop :=
  v.Nodup ∧ ∀ j ∈ v, j ∈ st.due ∧ j ∉ st.rep ∧ st.mem j = some (info.req, info.ev) ∧ c.handles l j = true ∧ Processed c st.log info j

def PcC (c : Cfg) (st : St) (l : Nat) : Pc → Prop
  | .idle => True
  | .cb i _ info v _ => same st.shm info = true → ValidOk c st l info v ∧ isNew c st.shm st.mem st.susp i = true
  | .fin info v err _ _ _ => (err = true → info.ev = .change) ∧
      (same st.shm info = true → ValidOk c st l info v ∧ (err = true → ∃ i ∈ st.due, Refused st.log info i))

structure InvC (c : Cfg) (nt : Prop) (st : St) : Prop where
  duend : st.due.Nodup
  dueall : ∀ i ∈ st.due, i ∈ c.all
  repnd : st.rep.Nodup
  repdue : ∀ i ∈ st.rep, i ∈ st.due
  live : ∀ ev, st.shm.ev = .listen ev → st.shm.count + st.rep.length = st.due.length ∧ st.rep.length < st.due.length ∧ st.due.length < W
  repmem : ∀ ev, st.shm.ev = .listen ev → ∀ i ∈ st.rep, st.mem i = some (st.shm.req, ev)
  newdue : ∀ ev, st.shm.ev = .listen ev → ∀ i ∈ c.all, isNew c st.shm st.mem st.susp i = true → (c.filt i st.shm.req ev = true ∨ c.fOrig i = false) → i ∈ st.due
  pend : ∀ ev, st.shm.ev = .listen ev → ∀ i ∈ st.due, i ∉ st.rep → isNew c st.shm st.mem st.susp i = true ∨
    ∃ l, pcInfo (st.pc l) = some ⟨st.shm.req, ev, st.shm.prio⟩ ∧ i ∈ pcValid (st.pc l)
  pcs : ∀ l, PcC c st l (st.pc l)
  all : st.shm.ev = .success ∨ st.shm.ev = .finished → ∀ i ∈ st.due, i ∈ st.rep
  cur : ∀ ev, st.shm.ev = .listen ev → st.pubs.getLast? = some ⟨st.shm.req, ev, st.shm.prio⟩
  repproc : ∀ i ∈ st.rep, ∀ info, st.pubs.getLast? = some info → Processed c st.log info i
  err : nt → st.shm.ev = .error → ∃ i ∈ st.due, ∃ info, st.pubs.getLast? = some info ∧ info.ev = .change ∧ Refused st.log info i

theorem Processed.mono {c : Cfg} {log log' : List Call} {info : Info} {i : Nat} (h : Processed c log info i) (hl : ∀ x ∈ log, x ∈ log') :
    Processed c log' info i := by
  intro hf
  obtain ⟨r, h1, h2⟩ := h hf
  exact ⟨r, hl _ h1, h2⟩

theorem isNew_congr {c : Cfg} {shm : Shm} {mem mem' : Nat → Option (Nat × Ev)} {susp : Nat → Bool} {i : Nat} (h : mem' i = mem i) :
    isNew c shm mem' susp i = isNew c shm mem susp i := by
  unfold isNew; rw [h]

theorem isNew_shm {c : Cfg} {shm shm' : Shm} {mem : Nat → Option (Nat × Ev)} {susp : Nat → Bool} {i : Nat} (h1 : shm'.ev = shm.ev)
    (h2 : shm'.req = shm.req) (h3 : shm'.prio = shm.prio) : isNew c shm' mem susp i = isNew c shm mem susp i := by
  cases shm; cases shm'
  simp only at h1 h2 h3
  subst h1 h2 h3
  rfl

theorem PcC.frame {c : Cfg} (hc : Ok c) {st st' : St} {l l' : Nat} (hne : l' ≠ l) {p : Pc} (hA : PcA c st l' p) (h : PcC c st l' p)
    (hlog : ∀ x ∈ st.log, x ∈ st'.log) (hmem : ∀ i, c.handles l i = false → st'.mem i = st.mem i)
    (hshm : ∀ info, same st'.shm info = true → same st.shm info = true ∧
      (∀ i, isNew c st.shm st'.mem st'.susp i = isNew c st'.shm st'.mem st'.susp i)) (hsusp : st'.susp = st.susp)
    (hdue : st'.due = st.due) (hrep : ∀ j ∈ st'.rep, j ∈ st.rep ∨ c.handles l j = true) : PcC c st' l' p := by
  have hnl : ∀ i, c.handles l' i = true → c.handles l i = false := by
    intro i hi
    cases hx : c.handles l i with
    | false => rfl
    | true => exact absurd (hc.one i l' l hi hx) hne
  have hv : ∀ info v, ValidOk c st l' info v → ValidOk c st' l' info v := by
    intro info v ⟨v1, v2⟩
    refine ⟨v1, ?_⟩
    intro j hj
    obtain ⟨a, b, d, e, f⟩ := v2 j hj
    refine ⟨by rw [hdue]; exact a, ?_, by rw [hmem j (hnl j e)]; exact d, e, f.mono hlog⟩
    intro hcon
    rcases hrep j hcon with h1 | h1
    · exact b h1
    · rw [hnl j e] at h1; cases h1
  cases p with
  | idle => trivial
  | cb i rest info v r =>
    intro hs
    obtain ⟨h1, h2⟩ := hshm info hs
    obtain ⟨h3, h4⟩ := h h1
    refine ⟨hv _ _ h3, ?_⟩
    rw [← h2, hsusp, isNew_congr (hmem i (hnl i (mine_handles (hA.1.subset (by simp))).2))]
    exact h4
  | fin info v err last r fv =>
    refine ⟨h.1, ?_⟩
    intro hs
    obtain ⟨h1, h2⟩ := hshm info hs
    obtain ⟨h3, h4⟩ := h.2 h1
    refine ⟨hv _ _ h3, ?_⟩
    intro he
    obtain ⟨i, hi, hr⟩ := h4 he
    exact ⟨i, by rw [hdue]; exact hi, hlog _ hr⟩

theorem PcC.notSame {c : Cfg} {st st' : St} {l : Nat} {p : Pc} (h : PcC c st l p) (hs : ∀ info, pcInfo p = some info → same st'.shm info = false) :
    PcC c st' l p := by
  cases p with
  | idle => trivial
  | cb i rest info v r => intro h1; rw [hs info rfl] at h1; cases h1
  | fin info v err last r fv => exact ⟨h.1, fun h1 => by rw [hs info rfl] at h1; cases h1⟩

theorem nodup_append_of {α : Type} {a b : List α} (ha : a.Nodup) (hb : b.Nodup) (h : ∀ x ∈ b, x ∉ a) : (a ++ b).Nodup := by
  rw [List.nodup_append]
  exact ⟨ha, hb, fun x hx y hy e => h y hy (e ▸ hx)⟩

theorem full_of_length {a d : List Nat} (ha : a.Nodup) (hs : ∀ x ∈ a, x ∈ d) (hl : a.length = d.length) : ∀ x ∈ d, x ∈ a := by
  intro x hx
  apply Decidable.byContradiction
  intro hn
  have hs' : a ⊆ d.erase x := by
    intro y hy
    have hyx : y ≠ x := by intro e; rw [e] at hy; exact hn hy
    exact (List.mem_erase_of_ne hyx).mpr (hs y hy)
  have := List.Nodup.length_le_of_subset ha hs'
  rw [List.length_erase_of_mem hx] at this
  have := List.length_pos_of_mem hx
  omega

theorem InvC.step_ret {c : Cfg} (hc : Ok c) {nt : Prop} {st : St} (hA : InvA c st) (h : InvC c nt st)
    {l i : Nat} {rest : List Nat} {info : Info} {valid : List Nat} {ret0 ret : Ret} {fv : Bool}
    (new : List Call) (hpc : st.pc l = .cb i rest info valid ret0)
    (hnew : (fv = true ∧ c.filt i info.req info.ev = true ∧ new = [⟨i, info.req, info.ev, false, ret⟩]) ∨
      (fv = false ∧ c.filt i info.req info.ev = false ∧ (info.ev = .change → ret ≠ .fail) ∧ new = [])) :
    InvC c nt (afterCb c { st with log := st.log ++ new } l i rest info valid ret fv) := by
  have hpA := hA.pcs l
  rw [hpc] at hpA
  obtain ⟨p1, p2, p3, p4, p5, p6⟩ := hpA
  have hmine : i ∈ mine c l := p1.subset (by simp)
  have hh : c.handles l i = true := (mine_handles hmine).2
  have hall : i ∈ c.all := (mine_handles hmine).1
  have hpC := h.pcs l
  rw [hpc] at hpC
  have hmono : ∀ x ∈ st.log, x ∈ st.log ++ new := fun x hx => List.mem_append_left _ hx
  have herr : ∀ log', (∀ x ∈ st.log, x ∈ log') → nt → st.shm.ev = .error →
      ∃ i ∈ st.due, ∃ info, st.pubs.getLast? = some info ∧ info.ev = .change ∧ Refused log' info i := by
    intro log' hl n e
    obtain ⟨i, h1, inf, h2, h3, h4⟩ := h.err n e
    exact ⟨i, h1, inf, h2, h3, hl _ h4⟩
  unfold afterCb
  by_cases hs : same st.shm info = false
  · rw [if_pos hs]
    have hmono2 : ∀ x ∈ st.log, x ∈ st.log ++ new ++ ownAbort c info ret fv i := fun x hx => List.mem_append_left _ (hmono x hx)
    refine ⟨h.duend, h.dueall, h.repnd, h.repdue, h.live, h.repmem, h.newdue, ?_, ?_, h.all, h.cur, ?_, ?_⟩
    · intro ev he j hj hjr
      rcases h.pend ev he j hj hjr with h1 | ⟨l', h1, h2⟩
      · exact Or.inl h1
      · have hl : l' ≠ l := by
          intro e; rw [e, hpc] at h1
          simp only [pcInfo, Option.some.injEq] at h1
          rw [h1, same_iff.mpr ⟨he, rfl, rfl⟩] at hs; cases hs
        exact Or.inr ⟨l', by simp only [setPc_other _ _ hl]; exact ⟨h1, h2⟩⟩
    · intro l'
      by_cases hl : l' = l
      · subst hl; simp only [setPc_self]; trivial
      · simp only [setPc_other _ _ hl]
        exact PcC.frame hc hl (hA.pcs l') (h.pcs l') hmono2 (fun _ _ => rfl) (fun _ hs => ⟨hs, fun _ => rfl⟩) rfl rfl (fun j hj => Or.inl hj)
    · intro j hj inf hinf; exact (h.repproc j hj inf hinf).mono hmono2
    · exact herr _ hmono2
  · rw [if_neg hs]
    have hs' : same st.shm info = true := by simpa using hs
    obtain ⟨c1, c2⟩ := hpC hs'
    obtain ⟨s1, s2, s3⟩ := same_iff.mp hs'
    have hinfo : (⟨st.shm.req, info.ev, st.shm.prio⟩ : Info) = info := by rw [s2, s3]
    obtain ⟨ev', e1, e2, e3, e4, e5, e6⟩ := isNew_spec c2
    have : ev' = info.ev := by rw [s1] at e1; simpa using e1.symm
    subst this
    have hevs : ∀ ev, st.shm.ev = .listen ev → ev = info.ev := by
      intro ev he; rw [s1] at he; simpa using he.symm
    have hirep : i ∉ st.rep := fun hcon => e2 (h.repmem info.ev s1 i hcon)
    have hival : i ∉ valid := by
      intro hcon
      have := (c1.2 i hcon).2.2.1
      rw [s2] at e2; exact e2 this
    have hv0 : ValidOk c { st with log := st.log ++ new } l info valid := by
      refine ⟨c1.1, ?_⟩
      intro j hj
      obtain ⟨a, b, d, e, f⟩ := c1.2 j hj
      exact ⟨a, b, d, e, f.mono hmono⟩
    -- the four branches
    have common : ∀ (p : Pc) (mem : Nat → Option (Nat × Ev)) (v : List Nat), (∀ j, j ≠ i → mem j = st.mem j) →
        pcInfo p = some info → pcValid p = v → (∀ j ∈ valid, j ∈ v) →
        (isNew c st.shm mem st.susp i = true ∨ i ∈ v) →
        PcC c { st with mem := mem, log := st.log ++ new } l p →
        InvC c nt { st with pc := setPc st l p, mem := mem, log := st.log ++ new } := by
      intro p mem v hmem hi hv hsub hnext hP
      have hnewle : ∀ j, isNew c st.shm mem st.susp j = true → isNew c st.shm st.mem st.susp j = true := by
        intro j hj
        by_cases hji : j = i
        · subst hji; exact c2
        · rw [isNew_congr (hmem j hji)] at hj; exact hj
      refine ⟨h.duend, h.dueall, h.repnd, h.repdue, h.live, ?_, ?_, ?_, ?_, h.all, h.cur, ?_, ?_⟩
      · intro ev he j hj
        have hji : j ≠ i := by intro e; rw [e] at hj; exact hirep hj
        simp only [hmem j hji]
        exact h.repmem ev he j hj
      · intro ev he j hj hn hf
        exact h.newdue ev he j hj (hnewle j hn) hf
      · intro ev he j hj hjr
        have hev := hevs ev he
        subst hev
        rcases h.pend info.ev he j hj hjr with h1 | ⟨l', h1, h2⟩
        · by_cases hji : j = i
          · subst hji
            rcases hnext with hn | hn
            · exact Or.inl hn
            · refine Or.inr ⟨l, ?_, ?_⟩
              · simp only [setPc_self, hi, hinfo]
              · simp only [setPc_self, hv]; exact hn
          · exact Or.inl (by simp only [isNew_congr (hmem j hji)]; exact h1)
        · by_cases hl : l' = l
          · subst hl
            rw [hpc] at h2
            refine Or.inr ⟨l', ?_, ?_⟩
            · simp only [setPc_self, hi, hinfo]
            · simp only [setPc_self, hv]; exact hsub j h2
          · exact Or.inr ⟨l', by simp only [setPc_other _ _ hl]; exact ⟨h1, h2⟩⟩
      · intro l'
        by_cases hl : l' = l
        · subst hl; simp only [setPc_self]
          cases p <;> exact hP
        · simp only [setPc_other _ _ hl]
          exact PcC.frame hc hl (hA.pcs l') (h.pcs l') hmono (fun j hj => hmem j (handles_false hh hj)) (fun _ hs => ⟨hs, fun _ => rfl⟩) rfl rfl
            (fun j hj => Or.inl hj)
      · intro j hj inf hinf; exact (h.repproc j hj inf hinf).mono hmono
      · exact herr _ hmono
    have goInfo : ∀ mem v, pcInfo (goOn c st.shm mem st.susp i rest info v ret fv) = some info ∧ pcValid (goOn c st.shm mem st.susp i rest info v ret fv) = v := by
      intro mem v
      rcases goOn_cases c st.shm mem st.susp i rest info v ret fv with e | ⟨j, rest', e, _, _⟩ <;> rw [e] <;> exact ⟨rfl, rfl⟩
    have goC : ∀ mem v, ValidOk c { st with mem := mem, log := st.log ++ new } l info v →
        PcC c { st with mem := mem, log := st.log ++ new } l (goOn c st.shm mem st.susp i rest info v ret fv) := by
      intro mem v hv
      rcases goOn_cases c st.shm mem st.susp i rest info v ret fv with e | ⟨j, rest', e, _, hn⟩ <;> rw [e]
      · exact ⟨fun hcon => (by cases hcon), fun _ => ⟨hv, fun hcon => (by cases hcon)⟩⟩
      · exact fun _ => ⟨hv, hn⟩
    by_cases hb1 : fv = false ∧ c.fOrig i = true
    · rw [if_pos hb1]
      exact common _ st.mem valid (fun _ _ => rfl) (goInfo _ _).1 (goInfo _ _).2 (fun _ hj => hj) (Or.inl c2) (goC st.mem valid hv0)
    · rw [if_neg hb1]
      by_cases hb2 : info.ev = .change ∧ ret = .shelve
      · rw [if_pos hb2]
        exact common _ st.mem valid (fun _ _ => rfl) (goInfo _ _).1 (goInfo _ _).2 (fun _ hj => hj) (Or.inl c2) (goC st.mem valid hv0)
      · rw [if_neg hb2]
        -- the subscription was to process the event
        have hdue : i ∈ st.due := by
          refine h.newdue info.ev s1 i hall c2 ?_
          rcases hnew with ⟨_, e, _⟩ | ⟨e, _⟩
          · left; rw [s2]; exact e
          · right
            cases hx : c.fOrig i with
            | false => rfl
            | true => exact absurd ⟨e, hx⟩ hb1
        by_cases hb3 : info.ev = .change ∧ ret = .fail
        · rw [if_pos hb3]
          refine common (.fin info valid true i ret fv) (setMem st i (info.req, .abort)) valid (fun j hj => by simp [setMem, hj]) rfl rfl (fun _ hj => hj) ?_ ?_
          · left
            unfold isNew at c2 ⊢
            rw [s1, hb3.1] at c2 ⊢
            simp only [setMem, if_true] at c2 ⊢
            have : (some (info.req, Ev.abort) != some (st.shm.req, Ev.change)) = true := by simp
            rw [this]
            simp only [Bool.and_eq_true] at c2 ⊢
            obtain ⟨⟨⟨⟨_, _⟩, x3⟩, x4⟩, x5⟩ := c2
            exact ⟨⟨⟨⟨trivial, by simp⟩, x3⟩, x4⟩, x5⟩
          · refine ⟨fun _ => hb3.1, fun _ => ⟨?_, fun _ => ⟨i, hdue, ?_⟩⟩⟩
            · refine ⟨hv0.1, ?_⟩
              intro j hj
              obtain ⟨a, b, d, e, f⟩ := hv0.2 j hj
              have hji : j ≠ i := by intro e; rw [e] at hj; exact hival hj
              exact ⟨a, b, by simp only [setMem, hji, if_false]; exact d, e, f⟩
            · rcases hnew with ⟨_, _, e⟩ | ⟨_, _, e, _⟩
              · subst e
                rw [hb3.1, hb3.2]; simp [Refused]
              · exact absurd hb3.2 (e hb3.1)
        · rw [if_neg hb3]
          refine common _ (setMem st i (info.req, info.ev)) (valid ++ [i]) (fun j hj => by simp [setMem, hj]) (goInfo _ _).1 (goInfo _ _).2
            (fun _ hj => List.mem_append_left _ hj) (Or.inr (by simp)) (goC _ _ ?_)
          refine ⟨nodup_append_of hv0.1 (by simp) (by simpa using hival), ?_⟩
          intro j hj
          rcases List.mem_append.mp hj with hj | hj
          · obtain ⟨a, b, d, e, f⟩ := hv0.2 j hj
            have hji : j ≠ i := by intro e; rw [e] at hj; exact hival hj
            exact ⟨a, b, by simp only [setMem, hji, if_false]; exact d, e, f⟩
          · simp only [List.mem_singleton] at hj
            subst hj
            refine ⟨hdue, hirep, by simp [setMem], hh, ?_⟩
            intro hf
            rcases hnew with ⟨_, _, e⟩ | ⟨_, e, _⟩
            · subst e
              refine ⟨ret, by simp, ?_⟩
              intro hch
              cases hr : ret with
              | ok => rfl
              | fail => exact absurd ⟨hch, hr⟩ hb3
              | shelve => exact absurd ⟨hch, hr⟩ hb2
            · rw [hf] at e; cases e

/-- The result remembered from the previous subscription of the batch is not a failure while a change is processed. -/
def StaleOk : Pc → Prop
  | .cb _ _ info _ r => info.ev = .change → r ≠ .fail
  | _ => True

theorem stale_step {c : Cfg} {st st' : St} {lb : Label} (h : ∀ l, StaleOk (st.pc l)) (hs : step c st lb = some st') : ∀ l, StaleOk (st'.pc l) := by
  have set : ∀ l p, StaleOk p → ∀ l', StaleOk (setPc st l p l') := by
    intro l p hp l'
    by_cases hl : l' = l
    · subst hl; rw [setPc_self]; exact hp
    · rw [setPc_other _ _ hl]; exact h l'
  have goS : ∀ shm mem susp i rest (info : Info) v (ret : Ret) fv, (info.ev = .change → ret ≠ .fail) → StaleOk (goOn c shm mem susp i rest info v ret fv) := by
    intro shm mem susp i rest info v ret fv hr
    rcases goOn_cases c shm mem susp i rest info v ret fv with e | ⟨j, rest', e, _, _⟩ <;> rw [e]
    · trivial
    · exact hr
  have aft : ∀ log l i rest info valid ret fv, (fv = false → info.ev = .change → ret ≠ .fail) →
      ∀ l', StaleOk ((afterCb c { st with log := log } l i rest info valid ret fv).pc l') := by
    intro log l i rest info valid ret fv hfv
    unfold afterCb
    by_cases hb0 : same st.shm info = false
    · rw [if_pos hb0]; exact set _ _ trivial
    · rw [if_neg hb0]
      by_cases hb1 : fv = false ∧ c.fOrig i = true
      · rw [if_pos hb1]; exact set _ _ (goS _ _ _ _ _ _ _ _ _ (hfv hb1.1))
      · rw [if_neg hb1]
        by_cases hb2 : info.ev = .change ∧ ret = .shelve
        · rw [if_pos hb2]; exact set _ _ (goS _ _ _ _ _ _ _ _ _ (fun _ => by rw [hb2.2]; simp))
        · rw [if_neg hb2]
          by_cases hb3 : info.ev = .change ∧ ret = .fail
          · rw [if_pos hb3]; exact set _ _ trivial
          · rw [if_neg hb3]; exact set _ _ (goS _ _ _ _ _ _ _ _ _ (fun e1 e2 => hb3 ⟨e1, e2⟩))
  cases lb with
  | start l n =>
    simp only [Listener.step] at hs
    split at hs
    · split at hs
      · simp at hs
      · simp only [Option.some.injEq] at hs
        subst hs
        exact set _ _ (fun _ => by simp)
    · simp at hs
  | ret l r =>
    simp only [Listener.step] at hs
    cases hpc : st.pc l with
    | idle => rw [hpc] at hs; simp at hs
    | fin => rw [hpc] at hs; simp at hs
    | cb i rest info valid stale =>
      rw [hpc] at hs
      simp only [] at hs
      by_cases hfl : c.filt i info.req info.ev = true
      · rw [if_pos hfl] at hs
        simp only [Option.some.injEq] at hs
        subst hs
        exact aft _ _ _ _ _ _ _ _ (fun hcon => by cases hcon)
      · rw [if_neg hfl] at hs
        simp only [Option.some.injEq] at hs
        subst hs
        have := h l
        rw [hpc] at this
        exact aft st.log _ _ _ _ _ _ _ (fun _ => this)
  | finish l =>
    simp only [Listener.step] at hs
    split at hs
    · split at hs
      all_goals (simp only [Option.some.injEq] at hs; subst hs; exact set _ _ trivial)
    · simp at hs
  | publish info n =>
    simp only [Listener.step] at hs
    split at hs
    · simp only [Option.some.injEq] at hs; subst hs; exact h
    · simp at hs
  | collect =>
    simp only [Listener.step] at hs
    split at hs
    all_goals first | (simp at hs; done) | (simp only [Option.some.injEq] at hs; subst hs; exact h)
  | timeout =>
    simp only [Listener.step] at hs
    split at hs
    all_goals first | (simp at hs; done) | (simp only [Option.some.injEq] at hs; subst hs; exact h)
  | suspend i b =>
    simp only [Listener.step, Option.some.injEq] at hs
    subst hs; exact h

theorem InvC.init {c : Cfg} {nt : Prop} {st : St} (h : Init st) : InvC c nt st := by
  obtain ⟨h1, h2, h3, h4, h5, h6, h7⟩ := h
  have hno : ∀ ev, st.shm.ev ≠ .listen ev := by intro ev; rw [h1]; simp
  refine ⟨by rw [h6]; simp, by rw [h6]; simp, by rw [h7]; simp, by rw [h7]; simp, ?_, ?_, ?_, ?_, ?_, by rw [h6]; simp, ?_, by rw [h7]; simp, ?_⟩
  · intro ev he; exact absurd he (hno ev)
  · intro ev he; exact absurd he (hno ev)
  · intro ev he; exact absurd he (hno ev)
  · intro ev he; exact absurd he (hno ev)
  · intro l; rw [h3]; trivial
  · intro ev he; exact absurd he (hno ev)
  · intro _ he; rw [h1] at he; simp at he

theorem report_listen {shm : Shm} {n : Nat} {err : Bool} {ev : Ev} (h : (report shm n err).ev = .listen ev) : shm.ev = .listen ev ∧ shm.count ≠ n ∧ err = false := by
  have hs : same (report shm n err) ⟨shm.req, ev, shm.prio⟩ = true := same_iff.mpr ⟨h, rfl, rfl⟩
  have h1 := same_report hs
  refine ⟨(same_iff.mp h1.1).1, ?_, h1.2⟩
  intro hn
  simp only [report] at h
  rw [if_pos (Or.inl hn), (same_iff.mp h1.1).1] at h
  cases ev with
  | change => simp only [] at h; split at h <;> cases h
  | done => simp at h
  | abort => simp at h

theorem InvC.step {c : Cfg} (hc : Ok c) {nt : Prop} {st st' : St} {lb : Label} (hA : InvA c st) (hst : ∀ l, StaleOk (st.pc l)) (h : InvC c nt st)
    (hal : Calm c nt st lb) (hs : step c st lb = some st') : InvC c nt st' := by
  have quiet : ∀ e, (∀ ev, e ≠ ShmEv.listen ev) → (e = .success ∨ e = .finished → st.shm.ev = e) →
      (nt → e = .error → st.shm.ev = .error) → InvC c nt { st with shm := { st.shm with ev := e } } := by
    intro e hne hq hq2
    refine ⟨h.duend, h.dueall, h.repnd, h.repdue, fun ev he => absurd he (hne ev), fun ev he => absurd he (hne ev), fun ev he => absurd he (hne ev),
      fun ev he => absurd he (hne ev), ?_, ?_, fun ev he => absurd he (hne ev), h.repproc, ?_⟩
    · intro l
      refine PcC.notSame (h.pcs l) ?_
      intro info _
      cases hx : same { st.shm with ev := e } info with
      | false => rfl
      | true => exact absurd (same_iff.mp hx).1 (hne _)
    · intro he
      simp only [] at he
      rw [← hq he] at he
      exact h.all he
    · intro n he
      exact h.err n (hq2 n he)
  cases lb with
  | start l n =>
    simp only [Listener.step] at hs
    cases hpc : st.pc l with
    | cb => rw [hpc] at hs; simp at hs
    | fin => rw [hpc] at hs; simp at hs
    | idle =>
      cases hev : st.shm.ev with
      | none => rw [hpc, hev] at hs; simp at hs
      | success => rw [hpc, hev] at hs; simp at hs
      | error => rw [hpc, hev] at hs; simp at hs
      | finished => rw [hpc, hev] at hs; simp at hs
      | listen ev =>
        rw [hpc, hev] at hs
        simp only [] at hs
        cases hd : ((mine c l).drop n).dropWhile (fun j => !isNew c st.shm st.mem st.susp j) with
        | nil => rw [hd] at hs; simp at hs
        | cons i rest =>
          rw [hd] at hs
          simp only [Option.some.injEq] at hs
          subst hs
          obtain ⟨d1, d2⟩ := dropWhile_head hd
          have hnew : isNew c st.shm st.mem st.susp i = true := by simpa using d1
          refine ⟨h.duend, h.dueall, h.repnd, h.repdue, h.live, h.repmem, h.newdue, ?_, ?_, h.all, h.cur, h.repproc, h.err⟩
          · intro ev he j hj hjr
            rcases h.pend ev he j hj hjr with h1 | ⟨l', h1, h2⟩
            · exact Or.inl h1
            · have hl : l' ≠ l := by intro e; rw [e, hpc] at h1; cases h1
              exact Or.inr ⟨l', by simp only [setPc_other _ _ hl]; exact ⟨h1, h2⟩⟩
          · intro l'
            by_cases hl : l' = l
            · subst hl; simp only [setPc_self]
              exact fun _ => ⟨⟨by simp, by simp⟩, hnew⟩
            · simp only [setPc_other _ _ hl]
              exact PcC.frame hc hl (hA.pcs l') (h.pcs l') (fun _ hx => hx) (fun _ _ => rfl) (fun _ hs => ⟨hs, fun _ => rfl⟩) rfl rfl (fun j hj => Or.inl hj)
  | ret l r =>
    simp only [Listener.step] at hs
    cases hpc : st.pc l with
    | idle => rw [hpc] at hs; simp at hs
    | fin => rw [hpc] at hs; simp at hs
    | cb i rest info valid stale =>
      rw [hpc] at hs
      simp only [] at hs
      by_cases hfl : c.filt i info.req info.ev = true
      · rw [if_pos hfl] at hs
        simp only [Option.some.injEq] at hs
        subst hs
        exact InvC.step_ret hc hA h _ hpc (Or.inl ⟨rfl, hfl, rfl⟩)
      · rw [if_neg hfl] at hs
        simp only [Option.some.injEq] at hs
        subst hs
        have h1 := hst l
        rw [hpc] at h1
        have := InvC.step_ret hc hA h (ret := stale) (fv := false) [] hpc (Or.inr ⟨rfl, by simpa using hfl, h1, rfl⟩)
        simpa using this
  | finish l =>
    simp only [Listener.step] at hs
    cases hpc : st.pc l with
    | idle => rw [hpc] at hs; simp at hs
    | cb => rw [hpc] at hs; simp at hs
    | fin info valid err last ret fv =>
      rw [hpc] at hs
      simp only [] at hs
      have hp := h.pcs l
      rw [hpc] at hp
      by_cases hsm : same st.shm info = false
      · rw [if_pos hsm] at hs
        simp only [Option.some.injEq] at hs
        subst hs
        have hmono2 : ∀ x ∈ st.log, x ∈ st.log ++ ownAbort c info ret fv last := fun x hx => List.mem_append_left _ hx
        refine ⟨h.duend, h.dueall, h.repnd, h.repdue, h.live, h.repmem, h.newdue, ?_, ?_, h.all, h.cur, ?_, ?_⟩
        · intro ev he j hj hjr
          rcases h.pend ev he j hj hjr with h1 | ⟨l', h1, h2⟩
          · exact Or.inl h1
          · have hl : l' ≠ l := by
              intro e; rw [e, hpc] at h1
              simp only [pcInfo, Option.some.injEq] at h1
              rw [h1, same_iff.mpr ⟨he, rfl, rfl⟩] at hsm; cases hsm
            exact Or.inr ⟨l', by simp only [setPc_other _ _ hl]; exact ⟨h1, h2⟩⟩
        · intro l'
          by_cases hl : l' = l
          · subst hl; simp only [setPc_self]; trivial
          · simp only [setPc_other _ _ hl]
            exact PcC.frame hc hl (hA.pcs l') (h.pcs l') hmono2 (fun _ _ => rfl) (fun _ hs => ⟨hs, fun _ => rfl⟩) rfl rfl (fun j hj => Or.inl hj)
        · intro j hj inf hinf; exact (h.repproc j hj inf hinf).mono hmono2
        · intro n e
          obtain ⟨i, h1, inf, h2, h3, h4⟩ := h.err n e
          exact ⟨i, h1, inf, h2, h3, hmono2 _ h4⟩
      · rw [if_neg hsm] at hs
        simp only [Option.some.injEq] at hs
        subst hs
        have hs' : same st.shm info = true := by simpa using hsm
        obtain ⟨⟨v1, v2⟩, v3⟩ := hp.2 hs'
        obtain ⟨s1, s2, s3⟩ := same_iff.mp hs'
        have hinfo : (⟨st.shm.req, info.ev, st.shm.prio⟩ : Info) = info := by rw [s2, s3]
        have hcur := h.cur info.ev s1
        rw [hinfo] at hcur
        obtain ⟨l1, l2, l3⟩ := h.live info.ev s1
        have hnd : (st.rep ++ valid).Nodup := nodup_append_of h.repnd v1 (fun x hx => (v2 x hx).2.1)
        have hsub : ∀ x ∈ st.rep ++ valid, x ∈ st.due := by
          intro x hx
          rcases List.mem_append.mp hx with hx | hx
          · exact h.repdue x hx
          · exact (v2 x hx).1
        have hlen := List.Nodup.length_le_of_subset hnd hsub
        rw [List.length_append] at hlen
        refine ⟨h.duend, h.dueall, hnd, hsub, ?_, ?_, ?_, ?_, ?_, ?_, ?_, ?_, ?_⟩
        · intro ev he
          obtain ⟨r1, r2, r3⟩ := report_listen he
          simp only [report, List.length_append]
          have hw : (st.shm.count + W - valid.length) % W = st.shm.count - valid.length := by
            unfold W at *
            omega
          rw [hw]
          omega
        · intro ev he j hj
          obtain ⟨r1, r2, r3⟩ := report_listen he
          have hev : ev = info.ev := by rw [s1] at r1; simpa using r1.symm
          subst hev
          rcases List.mem_append.mp hj with hj | hj
          · exact h.repmem info.ev s1 j hj
          · show st.mem j = some (st.shm.req, info.ev)
            rw [s2]; exact (v2 j hj).2.2.1
        · intro ev he j hj hn hf
          obtain ⟨r1, r2, r3⟩ := report_listen he
          have he' : (report st.shm valid.length err).ev = .listen ev := he
          refine h.newdue ev r1 j hj ?_ hf
          rw [← isNew_shm (shm := st.shm) (shm' := report st.shm valid.length err) (by rw [he', r1]) rfl rfl]
          exact hn
        · intro ev he j hj hjr
          obtain ⟨r1, r2, r3⟩ := report_listen he
          simp only [List.mem_append, not_or] at hjr
          rcases h.pend ev r1 j hj hjr.1 with h1 | ⟨l', h1, h2⟩
          · left
            have he' : (report st.shm valid.length err).ev = .listen ev := he
            show isNew c (report st.shm valid.length err) st.mem st.susp j = true
            rw [isNew_shm (shm := st.shm) (shm' := report st.shm valid.length err) (by rw [he', r1]) rfl rfl]
            exact h1
          · have hl : l' ≠ l := by
              intro e; rw [e, hpc] at h2
              exact hjr.2 h2
            exact Or.inr ⟨l', by simp only [setPc_other _ _ hl]; exact ⟨h1, h2⟩⟩
        · intro l'
          by_cases hl : l' = l
          · subst hl; simp only [setPc_self]; trivial
          · simp only [setPc_other _ _ hl]
            refine PcC.frame hc hl (hA.pcs l') (h.pcs l') (fun _ hx => hx) (fun _ _ => rfl) ?_ rfl rfl ?_
            · intro inf hx
              refine ⟨(same_report hx).1, ?_⟩
              intro i
              have e1 := (same_iff.mp hx).1
              have e2 := (same_iff.mp (same_report hx).1).1
              exact (isNew_shm (shm := st.shm) (shm' := report st.shm valid.length err) (e1.trans e2.symm) rfl rfl).symm
            · intro j hj
              rcases List.mem_append.mp hj with hj | hj
              · exact Or.inl hj
              · exact Or.inr (v2 j hj).2.2.2.1
        · intro he
          have hcn : st.shm.count = valid.length := by
            simp only [report] at he
            by_cases hcn : st.shm.count = valid.length
            · exact hcn
            · by_cases herr : err = true
              · rw [if_pos (Or.inr herr), s1, hp.1 herr, herr] at he
                simp at he
              · rw [if_neg (by rintro (h1 | h1); exact hcn h1; exact herr h1), s1] at he
                simp at he
          exact full_of_length hnd hsub (by show (st.rep ++ valid).length = st.due.length; rw [List.length_append]; omega)
        · intro ev he
          exact h.cur ev (report_listen he).1
        · intro j hj inf hinf
          rcases List.mem_append.mp hj with hj | hj
          · exact h.repproc j hj inf hinf
          · simp only [] at hinf
            rw [hcur] at hinf
            simp only [Option.some.injEq] at hinf
            subst hinf
            exact (v2 j hj).2.2.2.2
        · intro n he
          have herr : err = true := by
            simp only [report] at he
            cases herr : err with
            | true => rfl
            | false =>
              rw [s1, herr] at he
              cases hx : info.ev <;> rw [hx] at he <;> simp at he <;> split at he <;> cases he
          obtain ⟨i, hi, hr⟩ := v3 herr
          exact ⟨i, hi, info, hcur, hp.1 herr, hr⟩
  | publish info n =>
    simp only [Listener.step] at hs
    obtain ⟨a1, a2, a3, a4⟩ := hal
    by_cases hz : st.shm.ev = .none
    · rw [if_pos hz] at hs
      simp only [Option.some.injEq] at hs
      subst hs
      have hevs : ∀ ev, ShmEv.listen info.ev = .listen ev → ev = info.ev := by intro ev he; simpa using he.symm
      refine ⟨?_, ?_, by simp, by simp, ?_, by simp, ?_, ?_, ?_, by simp, ?_, by simp, by simp⟩
      · exact List.Nodup.sublist List.filter_sublist hc.nodup
      · intro i hi; exact (List.mem_filter.mp hi).1
      · intro ev he
        simp only [List.length_nil]
        rw [← a4]; omega
      · intro ev he i hi hn hf
        have := hevs ev he
        subst this
        refine List.mem_filter.mpr ⟨hi, ?_⟩
        simp only [Bool.and_eq_true, Bool.or_eq_true, Bool.not_eq_true']
        exact ⟨hn, hf⟩
      · intro ev he i hi _
        have := (List.mem_filter.mp hi).2
        simp only [Bool.and_eq_true] at this
        exact Or.inl this.1
      · intro l
        refine PcC.notSame (h.pcs l) ?_
        intro inf hinf
        have hin : inf ∈ st.pubs := by
          have hA' := hA.pcs l
          cases hp : st.pc l with
          | idle => rw [hp] at hinf; cases hinf
          | cb i rest inf' v r =>
            rw [hp] at hinf hA'
            simp only [pcInfo, Option.some.injEq] at hinf
            subst hinf
            exact hA'.2.1
          | fin inf' v err last r fv =>
            rw [hp] at hinf hA'
            simp only [pcInfo, Option.some.injEq] at hinf
            subst hinf
            exact hA'
        cases hx : same ⟨.listen info.ev, info.req, info.prio, n⟩ inf with
        | false => rfl
        | true =>
          have h2 : same ⟨.listen info.ev, info.req, info.prio, n⟩ info = true := same_iff.mpr ⟨rfl, rfl, rfl⟩
          rw [same_inj hx h2] at hin
          exact absurd hin a1
      · intro ev he
        have := hevs ev he
        subst this
        simp
    · rw [if_neg hz] at hs; simp at hs
  | collect =>
    simp only [Listener.step] at hs
    split at hs
    all_goals first | (simp at hs; done) | (simp only [Option.some.injEq] at hs; subst hs; exact quiet _ (by simp) (by simp) (by simp))
  | timeout =>
    simp only [Listener.step] at hs
    split at hs
    · simp only [Option.some.injEq] at hs; subst hs; exact quiet _ (by simp) (by simp) (fun n => absurd n hal)
    · simp only [Option.some.injEq] at hs; subst hs; exact quiet _ (by simp) (by simp) (by simp)
    · simp at hs
  | suspend i b =>
    simp only [Listener.step, Option.some.injEq] at hs
    subst hs
    refine ⟨h.duend, h.dueall, h.repnd, h.repdue, h.live, h.repmem, fun ev he => absurd he (hal ev), fun ev he => absurd he (hal ev), ?_, h.all, h.cur, h.repproc, h.err⟩
    intro l
    refine PcC.notSame (h.pcs l) ?_
    intro info _
    cases hx : same st.shm info with
    | false => rfl
    | true => exact absurd (same_iff.mp hx).1 (hal _)

theorem reach_invC {c : Cfg} (hc : Ok c) {nt : Prop} {st : St} (h : Reach c (Calm c nt) st) : InvC c nt st ∧ ∀ l, StaleOk (st.pc l) := by
  induction h with
  | init h =>
    refine ⟨InvC.init h, ?_⟩
    intro l; rw [h.2.2.1]; trivial
  | step hr hal hs ih => exact ⟨InvC.step hc (reach_invA hc Calm.fresh hr) ih.2 ih.1 hal hs, stale_step ih.2 hs⟩

end Verif.Listener
