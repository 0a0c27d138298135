import Verif.Listener

namespace Verif.Listener

/-! ### General facts -/

theorem same_iff {shm : Shm} {info : Info} : same shm info = true ↔ shm.ev = .listen info.ev ∧ shm.req = info.req ∧ shm.prio = info.prio := by
  simp [same, and_assoc]

theorem same_inj {shm : Shm} {a b : Info} (h1 : same shm a = true) (h2 : same shm b = true) : a = b := by
  rw [same_iff] at h1 h2
  obtain ⟨a1, a2, a3⟩ := h1
  obtain ⟨b1, b2, b3⟩ := h2
  rw [a1] at b1
  cases a; cases b
  simp_all

structure Ok (c : Cfg) : Prop where
  nodup : c.all.Nodup
  one : ∀ i l l', c.handles l i = true → c.handles l' i = true → l = l'

theorem mine_handles {c : Cfg} {l i : Nat} (h : i ∈ mine c l) : i ∈ c.all ∧ c.handles l i = true := by
  simpa [mine, List.mem_filter] using h

theorem dropWhile_head {α : Type} {p : α → Bool} {l : List α} {a : α} {r : List α} (h : l.dropWhile p = a :: r) :
    p a = false ∧ (a :: r).Sublist l := by
  constructor
  · have := List.head?_dropWhile_not p l
    rw [h] at this
    simpa using this
  · rw [← h]; exact List.dropWhile_sublist p

theorem goOn_cases (c : Cfg) (shm : Shm) (mem : Nat → Option (Nat × Ev)) (susp : Nat → Bool) (i : Nat) (rest : List Nat) (info : Info)
    (valid : List Nat) (ret : Ret) (fv : Bool) :
    (goOn c shm mem susp i rest info valid ret fv = .fin info valid false (rest.getLast?.getD i) ret fv) ∨
    ∃ j rest', goOn c shm mem susp i rest info valid ret fv = .cb j rest' info valid ret ∧ (j :: rest').Sublist rest ∧ isNew c shm mem susp j = true := by
  unfold goOn
  cases h : rest.dropWhile (fun j => !isNew c shm mem susp j) with
  | nil => exact Or.inl rfl
  | cons j rest' =>
    obtain ⟨h1, h2⟩ := dropWhile_head h
    exact Or.inr ⟨j, rest', rfl, h2, by simpa using h1⟩

theorem isNew_spec {c : Cfg} {shm : Shm} {mem : Nat → Option (Nat × Ev)} {susp : Nat → Bool} {i : Nat} (h : isNew c shm mem susp i = true) :
    ∃ ev, shm.ev = .listen ev ∧ mem i ≠ some (shm.req, ev) ∧ (ev = .abort → mem i = some (shm.req, .change)) ∧ shm.prio = c.prio i ∧
      evValid c ev i = true ∧ susp i = false := by
  unfold isNew at h
  cases he : shm.ev with
  | listen ev =>
    rw [he] at h
    simp only [Bool.and_eq_true, bne_iff_ne, ne_eq, Bool.or_eq_true, beq_iff_eq, Bool.not_eq_true'] at h
    obtain ⟨⟨⟨⟨h1, h2⟩, h3⟩, h4⟩, h5⟩ := h
    refine ⟨ev, rfl, h1, ?_, h3, h4, h5⟩
    intro ha
    rcases h2 with h2 | h2
    · exact absurd ha h2
    · exact h2
  | none => rw [he] at h; simp at h
  | success => rw [he] at h; simp at h
  | error => rw [he] at h; simp at h
  | finished => rw [he] at h; simp at h

/-! ### Calls counted -/

/-- A call for a published event that is not to be repeated. -/
def isFinal (x : Call) : Bool := !x.own && !(x.ev == .change && x.ret == .shelve)

def cnt (log : List Call) (i r : Nat) (ev : Ev) : Nat :=
  log.countP (fun x => x.sub == i && x.req == r && x.ev == ev && isFinal x)

theorem cnt_append (log a : List Call) (i r : Nat) (ev : Ev) : cnt (log ++ a) i r ev = cnt log i r ev + cnt a i r ev := by
  simp [cnt, List.countP_append]

theorem cnt_own (c : Cfg) (info : Info) (ret : Ret) (fv : Bool) (k i r : Nat) (ev : Ev) : cnt (ownAbort c info ret fv k) i r ev = 0 := by
  unfold ownAbort
  split
  · simp [cnt, isFinal]
  · rfl

theorem cnt_one_le (x : Call) (i r : Nat) (ev : Ev) : cnt [x] i r ev ≤ 1 := by
  unfold cnt
  have := @List.countP_le_length _ (fun x => x.sub == i && x.req == r && x.ev == ev && isFinal x) [x]
  simpa using this

theorem cnt_one_pos {x : Call} {i r : Nat} {ev : Ev} (h : 0 < cnt [x] i r ev) : x.sub = i ∧ x.req = r ∧ x.ev = ev ∧ isFinal x = true := by
  unfold cnt at h
  obtain ⟨y, hy, hp⟩ := List.countP_pos_iff.mp h
  simp only [List.mem_singleton] at hy
  subst hy
  simpa [and_assoc] using hp

/-! ### At most one call -/

def PcA (c : Cfg) (st : St) (l : Nat) : Pc → Prop
  | .idle => True
  | .cb i rest info _ _ => (i :: rest).Sublist (mine c l) ∧ info ∈ st.pubs ∧ info.prio = c.prio i ∧ evValid c info.ev i = true ∧
      cnt st.log i info.req info.ev = 0 ∧ (info.ev = .abort → st.mem i = some (info.req, .change))
  | .fin info _ _ _ _ _ => info ∈ st.pubs

structure InvA (c : Cfg) (st : St) : Prop where
  pcs : ∀ l, PcA c st l (st.pc l)
  shm : ∀ ev, st.shm.ev = .listen ev → ⟨st.shm.req, ev, st.shm.prio⟩ ∈ st.pubs
  once : ∀ i r ev, cnt st.log i r ev ≤ 1
  over : ∀ i r ev, 0 < cnt st.log i r ev → ⟨r, ev, c.prio i⟩ ∈ st.pubs ∧
    (st.mem i = some (r, ev) ∨ same st.shm ⟨r, ev, c.prio i⟩ = false ∨
      ∃ l v ret fv, st.pc l = .fin ⟨r, ev, c.prio i⟩ v true i ret fv ∧ c.handles l i = true)
  sel : ∀ x ∈ st.log, evValid c x.ev x.sub = true ∧
    (x.own = false → ⟨x.req, x.ev, c.prio x.sub⟩ ∈ st.pubs ∧ c.filt x.sub x.req x.ev = true)

def Fresh (st : St) : Label → Prop
  | .publish info _ => info ∉ st.pubs
  | _ => True

theorem same_mem {c : Cfg} {st : St} (h : InvA c st) {info : Info} (hs : same st.shm info = true) : info ∈ st.pubs := by
  have h' := same_iff.mp hs
  have := h.shm info.ev h'.1
  rw [h'.2.1, h'.2.2] at this
  exact this

/-- No call was made yet for a subscription that finds a new event. -/
theorem InvA.fresh {c : Cfg} {st : St} (hc : Ok c) (h : InvA c st) {l i : Nat} {info : Info} (hi : i ∈ mine c l)
    (hpc : ∀ v ret fv, st.pc l ≠ .fin info v true i ret fv)
    (hs : same st.shm info = true) (hp : info.prio = c.prio i) (hm : st.mem i ≠ some (info.req, info.ev)) : cnt st.log i info.req info.ev = 0 := by
  apply Decidable.byContradiction
  intro hne
  obtain ⟨_, h1 | h1 | ⟨l', v, ret, fv, h1, h2⟩⟩ := h.over i info.req info.ev (by omega)
  · exact hm h1
  · rw [← hp] at h1
    rw [hs] at h1; simp at h1
  · have := hc.one i l' l h2 (mine_handles hi).2
    subst this
    rw [← hp] at h1
    exact hpc v ret fv h1

/-- What a listener's own step leaves unchanged for the other listeners. -/
theorem PcA.frame {c : Cfg} (hc : Ok c) {st st' : St} {l l' : Nat} (hne : l' ≠ l) {p : Pc} (h : PcA c st l' p) (hpubs : ∀ x ∈ st.pubs, x ∈ st'.pubs)
    (hlog : ∀ i, c.handles l i = false → ∀ r ev, cnt st'.log i r ev = cnt st.log i r ev)
    (hmem : ∀ i, c.handles l i = false → st'.mem i = st.mem i) : PcA c st' l' p := by
  cases p with
  | idle => trivial
  | cb i rest info v r =>
    obtain ⟨h1, h2, h3, h4, h5, h6⟩ := h
    have hh : c.handles l i = false := by
      cases hx : c.handles l i with
      | false => rfl
      | true => exact absurd (hc.one i l' l (mine_handles (h1.subset (by simp))).2 hx) hne
    exact ⟨h1, hpubs _ h2, h3, h4, by rw [hlog i hh]; exact h5, fun he => by rw [hmem i hh]; exact h6 he⟩
  | fin info v err last r fv => exact hpubs _ h

theorem setPc_self (st : St) (l : Nat) (p : Pc) : setPc st l p l = p := by simp [setPc]
theorem setPc_other (st : St) {l l' : Nat} (p : Pc) (h : l' ≠ l) : setPc st l p l' = st.pc l' := by simp [setPc, h]

/-- Reaching the next subscription or the end. -/
theorem goOn_pcA {c : Cfg} (hc : Ok c) {st : St} (h : InvA c st) {l i : Nat} {rest : List Nat} {info : Info} {valid valid0 : List Nat} {ret ret0 : Ret} {fv : Bool}
    (hpc : st.pc l = .cb i rest info valid0 ret0) (hs : same st.shm info = true) (mem : Nat → Option (Nat × Ev)) (log : List Call)
    (hmem : ∀ j, j ≠ i → mem j = st.mem j) (hlog : ∀ j, j ≠ i → ∀ r ev, cnt log j r ev = cnt st.log j r ev) :
    PcA c { st with mem := mem, log := log } l (goOn c st.shm mem st.susp i rest info valid ret fv) := by
  have hp := h.pcs l
  rw [hpc] at hp
  obtain ⟨h1, h2, h3, h4, h5, h6⟩ := hp
  rcases goOn_cases c st.shm mem st.susp i rest info valid ret fv with e | ⟨j, rest', e, hsub, hnew⟩
  · rw [e]; exact h2
  · rw [e]
    have hnd : (i :: rest).Nodup := List.Nodup.sublist (h1.trans List.filter_sublist) hc.nodup
    have hjr : j ∈ rest := hsub.subset (by simp)
    have hji : j ≠ i := by
      intro hcon; subst hcon
      exact (List.nodup_cons.mp hnd).1 hjr
    obtain ⟨ev, e1, e2, e3, e4, e5, e6⟩ := isNew_spec hnew
    have hs' := same_iff.mp hs
    have hev : ev = info.ev := by rw [e1] at hs'; simpa using hs'.1
    subst hev
    rw [hs'.2.1] at e2 e3
    rw [hs'.2.2] at e4
    rw [hmem j hji] at e2 e3
    have hsubm : (j :: rest').Sublist (mine c l) := hsub.trans ((List.sublist_cons_self i rest).trans h1)
    refine ⟨hsubm, h2, e4, e5, ?_, fun ha => ?_⟩
    · rw [hlog j hji]
      refine h.fresh hc (l := l) (hsubm.subset (by simp)) ?_ hs e4 e2
      intro v r f hcon
      rw [hpc] at hcon; cases hcon
    · simp only []
      rw [hmem j hji]; exact e3 ha

theorem own_sel (c : Cfg) (info : Info) (ret : Ret) (fv : Bool) (i : Nat) (pubs : List Info) : ∀ x ∈ ownAbort c info ret fv i, evValid c x.ev x.sub = true ∧
    (x.own = false → ⟨x.req, x.ev, c.prio x.sub⟩ ∈ pubs ∧ c.filt x.sub x.req x.ev = true) := by
  unfold ownAbort
  split
  · rename_i h
    intro x hx
    simp only [List.mem_singleton] at hx
    subst hx
    exact ⟨h.2.2.2, fun hcon => by cases hcon⟩
  · simp

theorem handles_false {c : Cfg} {l i j : Nat} (hi : c.handles l i = true) (hj : c.handles l j = false) : j ≠ i := by
  intro h; subst h; rw [hi] at hj; cases hj

theorem InvA.step_ret {c : Cfg} (hc : Ok c) {st : St} (h : InvA c st) {l i : Nat} {rest : List Nat} {info : Info} {valid : List Nat} {ret0 ret : Ret} {fv : Bool}
    (new : List Call) (hpc : st.pc l = .cb i rest info valid ret0)
    (hflt : fv = true → c.filt i info.req info.ev = true)
    (hnew : (fv = true ∧ new = [⟨i, info.req, info.ev, false, ret⟩]) ∨ (fv = false ∧ new = [])) :
    InvA c (afterCb c { st with log := st.log ++ new } l i rest info valid ret fv) := by
  have hp := h.pcs l
  rw [hpc] at hp
  obtain ⟨p1, p2, p3, p4, p5, p6⟩ := hp
  have hmine : i ∈ mine c l := p1.subset (by simp)
  have hh : c.handles l i = true := (mine_handles hmine).2
  -- the new calls are of `i` and at most one
  have hcnt0 : ∀ j r ev, j ≠ i ∨ r ≠ info.req ∨ ev ≠ info.ev → cnt new j r ev = 0 := by
    intro j r ev hor
    rcases hnew with ⟨_, e⟩ | ⟨_, e⟩ <;> subst e
    · apply Decidable.byContradiction
      intro hne
      obtain ⟨q1, q2, q3, _⟩ := cnt_one_pos (x := ⟨i, info.req, info.ev, false, ret⟩) (i := j) (r := r) (ev := ev) (by omega)
      rcases hor with ho | ho | ho
      · exact ho q1.symm
      · exact ho q2.symm
      · exact ho q3.symm
    · rfl
  have hcnt1 : ∀ j r ev, cnt new j r ev ≤ 1 := by
    intro j r ev
    rcases hnew with ⟨_, e⟩ | ⟨_, e⟩ <;> subst e
    · exact cnt_one_le _ _ _ _
    · simp [cnt]
  have hcntf : 0 < cnt new i info.req info.ev → fv = true ∧ ¬ (info.ev = .change ∧ ret = .shelve) := by
    intro hpos
    rcases hnew with ⟨e0, e⟩ | ⟨_, e⟩ <;> subst e
    · obtain ⟨_, _, _, q⟩ := cnt_one_pos hpos
      refine ⟨e0, ?_⟩
      simp only [isFinal, Bool.not_false, Bool.true_and, Bool.not_eq_true', Bool.and_eq_false_imp, beq_iff_eq] at q
      intro hcon
      have := q hcon.1
      rw [hcon.2] at this; simp at this
    · simp [cnt] at hpos
  have hsel : ∀ x ∈ new, evValid c x.ev x.sub = true ∧ (x.own = false → ⟨x.req, x.ev, c.prio x.sub⟩ ∈ st.pubs ∧ c.filt x.sub x.req x.ev = true) := by
    rcases hnew with ⟨e0, e⟩ | ⟨_, e⟩ <;> subst e
    · intro x hx
      simp only [List.mem_singleton] at hx; subst hx
      refine ⟨p4, fun _ => ⟨?_, hflt e0⟩⟩
      simp only []
      rw [← p3]; exact p2
    · simp
  have honce : ∀ j r ev, cnt (st.log ++ new) j r ev ≤ 1 := by
    intro j r ev
    rw [cnt_append]
    by_cases hor : j ≠ i ∨ r ≠ info.req ∨ ev ≠ info.ev
    · rw [hcnt0 j r ev hor]; exact h.once j r ev
    · simp only [ne_eq, not_or, Decidable.not_not] at hor
      obtain ⟨rfl, rfl, rfl⟩ := hor
      rw [p5]; have := hcnt1 j info.req info.ev; omega
  have hlogne : ∀ j, j ≠ i → ∀ r ev, cnt (st.log ++ new) j r ev = cnt st.log j r ev := by
    intro j hj r ev
    rw [cnt_append, hcnt0 j r ev (Or.inl hj)]; rfl
  -- a pc `fin` of another listener stays
  have finStay : ∀ (p : Pc) (j : Nat) (inf : Info), (∃ l' v ret fv, st.pc l' = .fin inf v true j ret fv ∧ c.handles l' j = true) →
      ∃ l' v ret fv, setPc st l p l' = .fin inf v true j ret fv ∧ c.handles l' j = true := by
    rintro p j inf ⟨l', v, r, f, e1, e2⟩
    have hl : l' ≠ l := by intro hcon; rw [hcon, hpc] at e1; cases e1
    exact ⟨l', v, r, f, by rw [setPc_other st p hl]; exact e1, e2⟩
  have overOld : ∀ (p : Pc) (mem : Nat → Option (Nat × Ev)), same st.shm info = true → (∀ j, j ≠ i → mem j = st.mem j) →
      ∀ j r ev, 0 < cnt (st.log ++ new) j r ev → ¬ (j = i ∧ r = info.req ∧ ev = info.ev) → ⟨r, ev, c.prio j⟩ ∈ st.pubs ∧
      (mem j = some (r, ev) ∨ same st.shm ⟨r, ev, c.prio j⟩ = false ∨
        ∃ l' v ret fv, setPc st l p l' = .fin ⟨r, ev, c.prio j⟩ v true j ret fv ∧ c.handles l' j = true) := by
    intro p mem hs hmem j r ev hpos hnot
    have hz : cnt new j r ev = 0 := by
      apply hcnt0
      by_cases h1 : j = i
      · by_cases h2 : r = info.req
        · by_cases h3 : ev = info.ev
          · exact absurd ⟨h1, h2, h3⟩ hnot
          · exact Or.inr (Or.inr h3)
        · exact Or.inr (Or.inl h2)
      · exact Or.inl h1
    rw [cnt_append, hz] at hpos
    obtain ⟨o1, o2⟩ := h.over j r ev (by omega)
    refine ⟨o1, ?_⟩
    by_cases hji : j = i
    · subst hji
      refine Or.inr (Or.inl ?_)
      cases hx : same st.shm ⟨r, ev, c.prio j⟩ with
      | false => rfl
      | true =>
        have := same_inj hx hs
        rw [← this] at hnot
        exact absurd ⟨rfl, rfl, rfl⟩ hnot
    · rcases o2 with o2 | o2 | o2
      · exact Or.inl (by rw [hmem j hji]; exact o2)
      · exact Or.inr (Or.inl o2)
      · exact Or.inr (Or.inr (finStay p j _ o2))
  have hprio : (⟨info.req, info.ev, c.prio i⟩ : Info) = info := by rw [← p3]
  unfold afterCb
  by_cases hs : same st.shm info = false
  · rw [if_pos hs]
    have hlog2 : ∀ j r ev, cnt (st.log ++ new ++ ownAbort c info ret fv i) j r ev = cnt (st.log ++ new) j r ev := by
      intro j r ev; rw [cnt_append, cnt_own]; rfl
    refine ⟨?_, h.shm, ?_, ?_, ?_⟩
    · intro l'
      by_cases hl : l' = l
      · subst hl; simp only [setPc_self]; trivial
      · simp only [setPc_other _ _ hl]
        exact PcA.frame hc hl (h.pcs l') (fun x hx => hx)
          (fun j hj r ev => by simp only [hlog2]; exact hlogne j (handles_false hh hj) r ev) (fun _ _ => rfl)
    · intro j r ev; simp only [hlog2]; exact honce j r ev
    · intro j r ev hpos
      simp only [hlog2] at hpos
      rw [cnt_append] at hpos
      by_cases hold : 0 < cnt st.log j r ev
      · obtain ⟨o1, o2⟩ := h.over j r ev hold
        refine ⟨o1, ?_⟩
        rcases o2 with o2 | o2 | o2
        · exact Or.inl o2
        · exact Or.inr (Or.inl o2)
        · exact Or.inr (Or.inr (finStay _ j _ o2))
      · have : ¬ (j ≠ i ∨ r ≠ info.req ∨ ev ≠ info.ev) := by
          intro hor
          rw [hcnt0 j r ev hor] at hpos; omega
        simp only [ne_eq, not_or, Decidable.not_not] at this
        obtain ⟨rfl, rfl, rfl⟩ := this
        rw [hprio]
        exact ⟨p2, Or.inr (Or.inl hs)⟩
    · intro x hx
      rcases List.mem_append.mp hx with hx | hx
      · rcases List.mem_append.mp hx with hx | hx
        · exact h.sel x hx
        · exact hsel x hx
      · exact own_sel _ _ _ _ _ _ x hx
  · rw [if_neg hs]
    have hs' : same st.shm info = true := by simpa using hs
    have hsel' : ∀ x ∈ st.log ++ new, evValid c x.ev x.sub = true ∧
        (x.own = false → ⟨x.req, x.ev, c.prio x.sub⟩ ∈ st.pubs ∧ c.filt x.sub x.req x.ev = true) := by
      intro x hx
      rcases List.mem_append.mp hx with hx | hx
      · exact h.sel x hx
      · exact hsel x hx
    -- common part of the four branches
    have common : ∀ (p : Pc) (mem : Nat → Option (Nat × Ev)), (∀ j, j ≠ i → mem j = st.mem j) →
        PcA c { st with mem := mem, log := st.log ++ new } l p →
        (0 < cnt new i info.req info.ev → mem i = some (info.req, info.ev) ∨ ∃ v ret fv, p = .fin info v true i ret fv) →
        InvA c { st with pc := setPc st l p, mem := mem, log := st.log ++ new } := by
      intro p mem hmem hP hnewc
      refine ⟨?_, h.shm, honce, ?_, hsel'⟩
      · intro l'
        by_cases hl : l' = l
        · subst hl; simp only [setPc_self]
          cases p <;> exact hP
        · simp only [setPc_other _ _ hl]
          exact PcA.frame hc hl (h.pcs l') (fun x hx => hx)
            (fun j hj r ev => hlogne j (handles_false hh hj) r ev) (fun j hj => hmem j (handles_false hh hj))
      · intro j r ev hpos
        by_cases hthis : j = i ∧ r = info.req ∧ ev = info.ev
        · obtain ⟨rfl, rfl, rfl⟩ := hthis
          rw [cnt_append, p5] at hpos
          rw [hprio]
          refine ⟨p2, ?_⟩
          rcases hnewc (by omega) with h1 | ⟨v, r, f, h1⟩
          · exact Or.inl h1
          · exact Or.inr (Or.inr ⟨l, v, r, f, by simp only [setPc_self]; exact h1, hh⟩)
        · exact overOld p mem hs' hmem j r ev hpos hthis
    by_cases hb1 : fv = false ∧ c.fOrig i = true
    · rw [if_pos hb1]
      refine common _ st.mem (fun _ _ => rfl) (goOn_pcA hc h hpc hs' st.mem (st.log ++ new) (fun _ _ => rfl) hlogne) ?_
      intro hpos
      have := (hcntf hpos).1
      rw [hb1.1] at this; cases this
    · rw [if_neg hb1]
      by_cases hb2 : info.ev = .change ∧ ret = .shelve
      · rw [if_pos hb2]
        refine common _ st.mem (fun _ _ => rfl) (goOn_pcA hc h hpc hs' st.mem (st.log ++ new) (fun _ _ => rfl) hlogne) ?_
        intro hpos
        exact absurd hb2 (hcntf hpos).2
      · rw [if_neg hb2]
        by_cases hb3 : info.ev = .change ∧ ret = .fail
        · rw [if_pos hb3]
          refine common (.fin info valid true i ret fv) (setMem st i (info.req, .abort)) (fun j hj => by simp [setMem, hj]) p2 ?_
          intro _
          exact Or.inr ⟨valid, ret, fv, rfl⟩
        · rw [if_neg hb3]
          refine common _ (setMem st i (info.req, info.ev)) (fun j hj => by simp [setMem, hj])
            (goOn_pcA hc h hpc hs' _ (st.log ++ new) (fun j hj => by simp [setMem, hj]) hlogne) ?_
          intro _
          exact Or.inl (by simp [setMem])

theorem same_report {shm : Shm} {n : Nat} {err : Bool} {info : Info} (h : same (report shm n err) info = true) : same shm info = true ∧ err = false := by
  rw [same_iff] at h
  simp only [report] at h
  obtain ⟨h1, h2, h3⟩ := h
  by_cases hc : shm.count = n ∨ err = true
  · rw [if_pos hc] at h1
    cases he : shm.ev with
    | listen ev =>
      rw [he] at h1
      cases ev with
      | change => simp only [] at h1; split at h1 <;> cases h1
      | done => simp at h1
      | abort => simp at h1
    | none => rw [he] at h1; simp at h1
    | success => rw [he] at h1; simp at h1
    | error => rw [he] at h1; simp at h1
    | finished => rw [he] at h1; simp at h1
  · rw [if_neg hc] at h1
    simp only [not_or, Bool.not_eq_true] at hc
    exact ⟨same_iff.mpr ⟨h1, h2, h3⟩, hc.2⟩

theorem InvA.init {c : Cfg} {st : St} (h : Init st) : InvA c st := by
  obtain ⟨h1, h2, h3, h4, h5, h6, h7⟩ := h
  refine ⟨?_, ?_, ?_, ?_, ?_⟩
  · intro l; rw [h3]; trivial
  · intro ev he; rw [h1] at he; simp at he
  · intro i r ev; rw [h4]; simp [cnt]
  · intro i r ev hp; rw [h4] at hp; simp [cnt] at hp
  · rw [h4]; simp

theorem PcA.mono {c : Cfg} {st st' : St} {l : Nat} {p : Pc} (h : PcA c st l p) (hp : ∀ x ∈ st.pubs, x ∈ st'.pubs) (hl : st'.log = st.log)
    (hm : st'.mem = st.mem) : PcA c st' l p := by
  cases p with
  | idle => trivial
  | cb i rest info v r =>
    obtain ⟨h1, h2, h3, h4, h5, h6⟩ := h
    exact ⟨h1, hp _ h2, h3, h4, by rw [hl]; exact h5, by rw [hm]; exact h6⟩
  | fin info v err last r fv => exact hp _ h

theorem InvA.step {c : Cfg} (hc : Ok c) {st st' : St} {lb : Label} (h : InvA c st) (hf : Fresh st lb) (hs : step c st lb = some st') : InvA c st' := by
  cases lb with
  | start l n =>
    simp only [Listener.step] at hs
    cases hpc : st.pc l with
    | cb => rw [hpc] at hs; simp at hs
    | fin => rw [hpc] at hs; simp at hs
    | idle =>
      cases hev : st.shm.ev with
      | none => rw [hpc, hev] at hs; simp at hs
      | success => rw [hpc, hev] at hs; simp at hs
      | error => rw [hpc, hev] at hs; simp at hs
      | finished => rw [hpc, hev] at hs; simp at hs
      | listen ev =>
        rw [hpc, hev] at hs
        simp only [] at hs
        cases hd : ((mine c l).drop n).dropWhile (fun j => !isNew c st.shm st.mem st.susp j) with
        | nil => rw [hd] at hs; simp at hs
        | cons i rest =>
          rw [hd] at hs
          simp only [Option.some.injEq] at hs
          subst hs
          obtain ⟨d1, d2⟩ := dropWhile_head hd
          have hnew : isNew c st.shm st.mem st.susp i = true := by simpa using d1
          have hsub : (i :: rest).Sublist (mine c l) := d2.trans (List.drop_sublist n _)
          obtain ⟨ev', e1, e2, e3, e4, e5, e6⟩ := isNew_spec hnew
          have : ev' = ev := by rw [hev] at e1; simpa using e1.symm
          subst this
          have hsame : same st.shm ⟨st.shm.req, ev', st.shm.prio⟩ = true := same_iff.mpr ⟨hev, rfl, rfl⟩
          refine ⟨?_, h.shm, h.once, ?_, h.sel⟩
          · intro l'
            by_cases hl : l' = l
            · subst hl
              simp only [setPc_self]
              refine ⟨hsub, h.shm ev' hev, e4, e5, ?_, fun ha => e3 ha⟩
              refine h.fresh hc (l := l') (hsub.subset (by simp)) ?_ hsame e4 e2
              intro v r f hcon; rw [hpc] at hcon; cases hcon
            · simp only [setPc_other _ _ hl]
              exact PcA.mono (h.pcs l') (fun x hx => hx) rfl rfl
          · intro i r ev hpos
            obtain ⟨o1, o2⟩ := h.over i r ev hpos
            refine ⟨o1, ?_⟩
            rcases o2 with o2 | o2 | ⟨l', v, rr, f, o2, o3⟩
            · exact Or.inl o2
            · exact Or.inr (Or.inl o2)
            · have hl : l' ≠ l := by intro hcon; rw [hcon, hpc] at o2; cases o2
              exact Or.inr (Or.inr ⟨l', v, rr, f, by simp only [setPc_other _ _ hl]; exact o2, o3⟩)
  | ret l r =>
    simp only [Listener.step] at hs
    cases hpc : st.pc l with
    | idle => rw [hpc] at hs; simp at hs
    | fin => rw [hpc] at hs; simp at hs
    | cb i rest info valid stale =>
      rw [hpc] at hs
      simp only [] at hs
      by_cases hfl : c.filt i info.req info.ev = true
      · rw [if_pos hfl] at hs
        simp only [Option.some.injEq] at hs
        subst hs
        exact InvA.step_ret hc h _ hpc (fun _ => hfl) (Or.inl ⟨rfl, rfl⟩)
      · rw [if_neg hfl] at hs
        simp only [Option.some.injEq] at hs
        subst hs
        have := InvA.step_ret hc h (ret := stale) (fv := false) [] hpc (fun hcon => by cases hcon) (Or.inr ⟨rfl, rfl⟩)
        simpa using this
  | finish l =>
    simp only [Listener.step] at hs
    cases hpc : st.pc l with
    | idle => rw [hpc] at hs; simp at hs
    | cb => rw [hpc] at hs; simp at hs
    | fin info valid err last ret fv =>
      rw [hpc] at hs
      simp only [] at hs
      have hpub : info ∈ st.pubs := by have := h.pcs l; rw [hpc] at this; exact this
      by_cases hsm : same st.shm info = false
      · rw [if_pos hsm] at hs
        simp only [Option.some.injEq] at hs
        subst hs
        have hlog2 : ∀ j r ev, cnt (st.log ++ ownAbort c info ret fv last) j r ev = cnt st.log j r ev := by
          intro j r ev; rw [cnt_append, cnt_own]; rfl
        refine ⟨?_, h.shm, ?_, ?_, ?_⟩
        · intro l'
          by_cases hl : l' = l
          · subst hl; simp only [setPc_self]; trivial
          · simp only [setPc_other _ _ hl]
            exact PcA.frame hc hl (h.pcs l') (fun x hx => hx) (fun j _ r ev => hlog2 j r ev) (fun _ _ => rfl)
        · intro j r ev; simp only [hlog2]; exact h.once j r ev
        · intro j r ev hpos
          simp only [hlog2] at hpos
          obtain ⟨o1, o2⟩ := h.over j r ev hpos
          refine ⟨o1, ?_⟩
          rcases o2 with o2 | o2 | ⟨l', v, rr, f, o2, o3⟩
          · exact Or.inl o2
          · exact Or.inr (Or.inl o2)
          · by_cases hl : l' = l
            · rw [hl, hpc] at o2
              injection o2 with q1
              rw [q1] at hsm
              exact Or.inr (Or.inl hsm)
            · exact Or.inr (Or.inr ⟨l', v, rr, f, by simp only [setPc_other _ _ hl]; exact o2, o3⟩)
        · intro x hx
          rcases List.mem_append.mp hx with hx | hx
          · exact h.sel x hx
          · exact own_sel _ _ _ _ _ _ x hx
      · rw [if_neg hsm] at hs
        simp only [Option.some.injEq] at hs
        subst hs
        refine ⟨?_, ?_, h.once, ?_, h.sel⟩
        · intro l'
          by_cases hl : l' = l
          · subst hl; simp only [setPc_self]; trivial
          · simp only [setPc_other _ _ hl]
            exact PcA.mono (h.pcs l') (fun x hx => hx) rfl rfl
        · intro ev he
          have hh : same (report st.shm valid.length err) ⟨st.shm.req, ev, st.shm.prio⟩ = true := same_iff.mpr ⟨he, rfl, rfl⟩
          exact same_mem h (same_report hh).1
        · intro j r ev hpos
          obtain ⟨o1, o2⟩ := h.over j r ev hpos
          refine ⟨o1, ?_⟩
          rcases o2 with o2 | o2 | ⟨l', v, rr, f, o2, o3⟩
          · exact Or.inl o2
          · refine Or.inr (Or.inl ?_)
            cases hx : same (report st.shm valid.length err) ⟨r, ev, c.prio j⟩ with
            | false => rfl
            | true => rw [(same_report hx).1] at o2; cases o2
          · by_cases hl : l' = l
            · rw [hl, hpc] at o2
              injection o2 with q1 q2 q3
              refine Or.inr (Or.inl ?_)
              cases hx : same (report st.shm valid.length err) ⟨r, ev, c.prio j⟩ with
              | false => rfl
              | true => rw [(same_report hx).2] at q3; cases q3
            · exact Or.inr (Or.inr ⟨l', v, rr, f, by simp only [setPc_other _ _ hl]; exact o2, o3⟩)
  | publish info n =>
    simp only [Listener.step] at hs
    by_cases hz : st.shm.ev = .none
    · rw [if_pos hz] at hs
      simp only [Option.some.injEq] at hs
      subst hs
      refine ⟨?_, ?_, h.once, ?_, fun x hx => ⟨(h.sel x hx).1, fun ho => ⟨List.mem_append_left _ ((h.sel x hx).2 ho).1, ((h.sel x hx).2 ho).2⟩⟩⟩
      · intro l'
        exact PcA.mono (h.pcs l') (fun x hx => List.mem_append_left _ hx) rfl rfl
      · intro ev he
        simp only [ShmEv.listen.injEq] at he
        subst he
        simp
      · intro j r ev hpos
        obtain ⟨o1, o2⟩ := h.over j r ev hpos
        refine ⟨List.mem_append_left _ o1, ?_⟩
        rcases o2 with o2 | o2 | o2
        · exact Or.inl o2
        · refine Or.inr (Or.inl ?_)
          cases hx : same ⟨.listen info.ev, info.req, info.prio, n⟩ ⟨r, ev, c.prio j⟩ with
          | false => rfl
          | true =>
            have h2 : same ⟨.listen info.ev, info.req, info.prio, n⟩ info = true := same_iff.mpr ⟨rfl, rfl, rfl⟩
            have := same_inj hx h2
            rw [this] at o1
            exact absurd o1 hf
        · exact Or.inr (Or.inr o2)
    · rw [if_neg hz] at hs; simp at hs
  | collect =>
    simp only [Listener.step] at hs
    have key : ∀ e, e ≠ ShmEv.listen .change → e ≠ ShmEv.listen .done → e ≠ ShmEv.listen .abort →
        InvA c { st with shm := { st.shm with ev := e } } := by
      intro e h1 h2 h3
      have hne : ∀ ev, e ≠ .listen ev := by intro ev; cases ev <;> assumption
      refine ⟨fun l' => PcA.mono (h.pcs l') (fun x hx => hx) rfl rfl, ?_, h.once, ?_, h.sel⟩
      · intro ev he; exact absurd he (hne ev)
      · intro j r ev hpos
        obtain ⟨o1, o2⟩ := h.over j r ev hpos
        refine ⟨o1, Or.inr (Or.inl ?_)⟩
        cases hx : same { st.shm with ev := e } ⟨r, ev, c.prio j⟩ with
        | false => rfl
        | true => exact absurd (same_iff.mp hx).1 (hne ev)
    split at hs
    · simp only [Option.some.injEq] at hs; subst hs; exact key _ (by simp) (by simp) (by simp)
    · simp only [Option.some.injEq] at hs; subst hs; exact key _ (by simp) (by simp) (by simp)
    · simp only [Option.some.injEq] at hs; subst hs; exact key _ (by simp) (by simp) (by simp)
    · simp at hs
  | timeout =>
    simp only [Listener.step] at hs
    have key : ∀ e, e ≠ ShmEv.listen .change → e ≠ ShmEv.listen .done → e ≠ ShmEv.listen .abort →
        InvA c { st with shm := { st.shm with ev := e } } := by
      intro e h1 h2 h3
      have hne : ∀ ev, e ≠ .listen ev := by intro ev; cases ev <;> assumption
      refine ⟨fun l' => PcA.mono (h.pcs l') (fun x hx => hx) rfl rfl, ?_, h.once, ?_, h.sel⟩
      · intro ev he; exact absurd he (hne ev)
      · intro j r ev hpos
        obtain ⟨o1, o2⟩ := h.over j r ev hpos
        refine ⟨o1, Or.inr (Or.inl ?_)⟩
        cases hx : same { st.shm with ev := e } ⟨r, ev, c.prio j⟩ with
        | false => rfl
        | true => exact absurd (same_iff.mp hx).1 (hne ev)
    split at hs
    · simp only [Option.some.injEq] at hs; subst hs; exact key _ (by simp) (by simp) (by simp)
    · simp only [Option.some.injEq] at hs; subst hs; exact key _ (by simp) (by simp) (by simp)
    · simp at hs
  | suspend i b =>
    simp only [Listener.step, Option.some.injEq] at hs
    subst hs
    exact ⟨fun l' => PcA.mono (h.pcs l') (fun x hx => hx) rfl rfl, h.shm, h.once, h.over, h.sel⟩

theorem reach_invA {c : Cfg} (hc : Ok c) {allow : St → Label → Prop} (ha : ∀ st lb, allow st lb → Fresh st lb) {st : St} (h : Reach c allow st) : InvA c st := by
  induction h with
  | init h => exact InvA.init h
  | step _ hal hs ih => exact InvA.step hc ih (ha _ _ hal) hs

end Verif.Listener
