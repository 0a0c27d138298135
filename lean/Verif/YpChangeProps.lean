import Verif.YpChangeLemmas

/-! Properties of `Verif.YpChange`: C90-C94. -/
namespace Verif.YpChange

theorem reported_eq (s : St) : reported s = s.sent.flatMap (·.edits) ++ pend s := rfl

theorem send_reported {s : St} {p : Pend} (h : s.pending = some p) (t : Nat) : reported (send s t) = reported s := by
  simp [reported, send, h, List.flatMap_append]

theorem finish_reported (s : St) (t : Nat) : reported (finish s t) = reported s := by
  unfold finish
  split
  · rfl
  · rename_i p hp
    split
    · exact send_reported hp t
    split
    · rfl
    split
    · exact send_reported hp t
    · rfl

/-- A subscription as it is made. -/
def init (damp : Nat) (excl : YpOp → Bool) : St := { damp := damp, excl := excl }

/-- What holds of every subscription. -/
structure Inv (s : St) : Prop where
  zero : s.damp = 0 → s.timer = .idle ∧ s.pending = none
  armed : ∀ t, s.timer = .armed t → t = s.last + s.damp
  waits : s.pending.isSome → s.timer ≠ .spent → s.timer = .armed (s.last + s.damp)

theorem inv_init (damp : Nat) (excl : YpOp → Bool) : Inv (init damp excl) :=
  ⟨fun _ => ⟨rfl, rfl⟩, (by intro _ h; cases h), (by intro h; cases h)⟩

theorem loop_error (deny : Node → Bool) (cs : List Change) : ∀ (last : Option (Op × Node)) (s : St),
    (loop deny cs last s).2 = false → (loop deny cs last s).1.pending = none := by
  induction cs with
  | nil => intro last s h; cases h
  | cons c cs ih =>
    intro last s h
    unfold loop at h ⊢
    split
    · rename_i hd; rw [if_pos hd] at h; exact ih _ _ h
    rename_i hd; rw [if_neg hd] at h
    split
    · rename_i hd; rw [if_pos hd] at h; exact ih _ _ h
    rename_i hd; rw [if_neg hd] at h
    split
    · rename_i hd; rw [if_pos hd] at h; exact ih _ _ h
    rename_i hd; rw [if_neg hd] at h
    split
    · rfl
    · rename_i s' hs'
      simp only [hs'] at h
      exact ih _ _ h

/-- A notification in preparation stays unless there is an error. -/
theorem loop_keeps (deny : Node → Bool) (cs : List Change) : ∀ (last : Option (Op × Node)) (s : St), s.pending.isSome →
    (loop deny cs last s).2 = true → (loop deny cs last s).1.pending.isSome := by
  induction cs with
  | nil => intro last s h _; exact h
  | cons c cs ih =>
    intro last s hp h
    unfold loop at h ⊢
    split
    · rename_i hd; rw [if_pos hd] at h; exact ih _ _ hp h
    rename_i hd; rw [if_neg hd] at h
    split
    · rename_i hd; rw [if_pos hd] at h; exact ih _ _ hp h
    rename_i hd; rw [if_neg hd] at h
    split
    · rename_i hd; rw [if_pos hd] at h; exact ih _ { s with exclCount := s.exclCount + 1 } hp h
    rename_i hd; rw [if_neg hd] at h
    split
    · rename_i hs'
      simp only [hs'] at h
      cases h
    · rename_i s' hs'
      simp only [hs'] at h
      exact ih _ _ (append_some hs') h

theorem finish_none {s : St} (h : s.pending = none) (t : Nat) : finish s t = s := by simp [finish, h]

theorem finish_zero {s : St} (h : s.pending.isSome) (hz : s.damp = 0) (t : Nat) : finish s t = send s t := by
  cases hp : s.pending with
  | none => rw [hp] at h; cases h
  | some p => simp [finish, hp, hz]

theorem finish_waits {s : St} (hz : s.damp ≠ 0) (ht : s.timer ≠ .idle) (t : Nat) : finish s t = s := by
  cases hp : s.pending with
  | none => simp [finish, hp]
  | some p => simp [finish, hp, hz, ht]

theorem finish_due {s : St} (h : s.pending.isSome) (hz : s.damp ≠ 0) (ht : s.timer = .idle) (t : Nat) (hd : s.last + s.damp ≤ t) :
    finish s t = send s t := by
  cases hp : s.pending with
  | none => rw [hp] at h; cases h
  | some p => simp [finish, hp, hz, ht, hd]

theorem finish_early {s : St} (h : s.pending.isSome) (hz : s.damp ≠ 0) (ht : s.timer = .idle) (t : Nat)
    (hd : ¬ s.last + s.damp ≤ t) : finish s t = { s with timer := .armed (s.last + s.damp) } := by
  cases hp : s.pending with
  | none => rw [hp] at h; cases h
  | some p => simp [finish, hp, hz, ht, hd]

theorem send_some {s : St} (h : s.pending.isSome) (t : Nat) : ∃ p, s.pending = some p ∧
    send s t = { s with sent := s.sent ++ [⟨t, s.damp, p.patch, p.edits⟩], pending := none, last := t } := by
  cases hp : s.pending with
  | none => rw [hp] at h; cases h
  | some p => exact ⟨p, rfl, by simp [send, hp]⟩

/-- The cases of the end of a callback. -/
theorem finish_cases (s : St) (t : Nat) (P : St → Prop) (hn : s.pending = none → P s)
    (hs : ∀ p, s.pending = some p → (s.damp = 0 ∨ (s.timer = .idle ∧ s.last + s.damp ≤ t)) →
      P { s with sent := s.sent ++ [⟨t, s.damp, p.patch, p.edits⟩], pending := none, last := t })
    (hw : s.damp ≠ 0 → s.timer ≠ .idle → P s)
    (ha : s.pending.isSome → s.damp ≠ 0 → s.timer = .idle → ¬ s.last + s.damp ≤ t →
      P { s with timer := .armed (s.last + s.damp) }) : P (finish s t) := by
  cases hp : s.pending with
  | none => rw [finish_none hp]; exact hn hp
  | some p =>
    have hsome : s.pending.isSome := by rw [hp]; rfl
    by_cases hz : s.damp = 0
    · rw [finish_zero hsome hz]
      obtain ⟨p, h1, h2⟩ := send_some hsome t
      rw [h2]; exact hs p h1 (Or.inl hz)
    by_cases ht : s.timer = .idle
    · by_cases hd : s.last + s.damp ≤ t
      · rw [finish_due hsome hz ht t hd]
        obtain ⟨p, h1, h2⟩ := send_some hsome t
        rw [h2]; exact hs p h1 (Or.inr ⟨ht, hd⟩)
      · rw [finish_early hsome hz ht t hd]; exact ha hsome hz ht hd
    · rw [finish_waits hz ht]; exact hw hz ht

/-- The cases of one event. -/
theorem step_cases (deny : Node → Bool) (s : St) (e : Ev) (hc : s.crashed = false) (P : St → Prop)
    (herr : ∀ t cs u, e = .change t cs → loop deny cs none s = (u, false) → P u)
    (hfin : ∀ t cs u, e = .change t cs → loop deny cs none s = (u, true) → P (finish u t))
    (hfire : ∀ t tr, e = .fire t → s.timer = .armed tr → tr ≤ t → P { send s t with timer := .spent })
    (hmod : ∀ t d, e = .modify t d → P (modify s t d))
    (hres : e = .resync → P { s with patchId := 1 })
    (hno : P s) : P (step deny s e) := by
  unfold step
  rw [if_neg (by simp [hc])]
  cases e with
  | change t cs =>
    show P (change deny s t cs)
    unfold change
    rcases hl : loop deny cs none s with ⟨u, b⟩
    cases b
    · exact herr t cs u rfl hl
    · exact hfin t cs u rfl hl
  | fire t =>
    show P (fire s t)
    unfold fire
    split
    · rename_i tr htr
      split
      · rename_i hle; exact hfire t tr rfl htr hle
      · exact hno
    · exact hno
  | modify t d => exact hmod t d rfl
  | resync => exact hres rfl

/-- The cases of a change of the period. -/
theorem modify_cases (s : St) (t d : Nat) (P : St → Prop) (hsame : P s)
    (hsend : ∀ p, s.pending = some p → P { s with
      timer := .idle, damp := 0, sent := s.sent ++ [⟨t, 0, p.patch, p.edits⟩], pending := none, last := t })
    (hzero : s.pending = none → P { s with timer := .idle, damp := 0 })
    (harm : ∀ tr, d ≠ 0 → s.timer = .armed tr → P { s with damp := d, timer := .armed (s.last + d) })
    (helse : d ≠ 0 → s.timer = .idle ∨ s.timer = .spent → P { s with damp := d }) : P (modify s t d) := by
  unfold modify
  split
  · exact hsame
  split
  · rename_i h0
    subst h0
    cases hp : s.pending with
    | none => simp only []; exact hp ▸ hzero hp
    | some p => simp only [send]; exact hsend p hp
  · rename_i h0
    cases ht : s.timer with
    | idle => simp only []; exact ht ▸ helse h0 (Or.inl ht)
    | armed tr => exact harm tr h0 ht
    | spent => simp only []; exact ht ▸ helse h0 (Or.inr ht)

theorem inv_step (deny : Node → Bool) {s : St} (h : Inv s) (e : Ev) : Inv (step deny s e) := by
  by_cases hc : s.crashed = true
  · simp only [step, hc, if_true]; exact h
  have hc : s.crashed = false := by simpa using hc
  apply step_cases deny s e hc
  · intro t cs u _ hl
    have hs := loop_same deny cs none s
    have hn := loop_error deny cs none s
    rw [hl] at hs hn
    have hn := hn rfl
    refine ⟨fun hz => ⟨?_, hn⟩, fun t ht => ?_, fun hp => ?_⟩
    · rw [hs.timer]; exact (h.zero (by rw [← hs.damp]; exact hz)).1
    · rw [hs.last, hs.damp]; exact h.armed t (by rw [← hs.timer]; exact ht)
    · rw [hn] at hp; cases hp
  · intro t cs u _ hl
    have hs := loop_same deny cs none s
    rw [hl] at hs
    have hz0 : u.damp = 0 → u.timer = .idle := fun hz => by
      rw [hs.timer]; exact (h.zero (by rw [← hs.damp]; exact hz)).1
    have harm : ∀ t, u.timer = .armed t → t = u.last + u.damp := fun t ht => by
      rw [hs.last, hs.damp]; exact h.armed t (by rw [← hs.timer]; exact ht)
    apply finish_cases u t
    · intro hn; exact ⟨fun hz => ⟨hz0 hz, hn⟩, harm, fun hp => by rw [hn] at hp; cases hp⟩
    · intro p hp hor
      refine ⟨fun hz => ⟨hz0 hz, rfl⟩, ?_, (by intro h; cases h)⟩
      intro t' ht'
      rcases hor with hz | ⟨hi, _⟩
      · have := hz0 hz
        rw [show u.timer = _ from ht'] at this; cases this
      · rw [show u.timer = _ from ht'] at hi; cases hi
    · intro hz hi
      refine ⟨fun h0 => absurd h0 hz, harm, fun hp hsp => ?_⟩
      cases ht : u.timer with
      | idle => exact absurd ht hi
      | armed tr => rw [harm tr ht]
      | spent => exact absurd ht hsp
    · intro hp hz hi _
      refine ⟨fun h0 => absurd h0 hz, ?_, fun _ _ => rfl⟩
      intro t' ht'
      cases ht'
      rfl
  · intro t tr _ htr hle
    have hz : s.damp ≠ 0 := fun hz => by rw [(h.zero hz).1] at htr; cases htr
    have hd : (send s t).damp = s.damp := by unfold send; split <;> rfl
    refine ⟨fun h0 => absurd (hd.symm.trans h0) hz, (by intro _ h; cases h), fun _ hs => absurd rfl hs⟩
  · intro t d _
    apply modify_cases s t d
    · exact h
    · intro p hp; exact ⟨fun _ => ⟨rfl, rfl⟩, (by intro _ h; cases h), (by intro h; cases h)⟩
    · intro hp; exact ⟨fun _ => ⟨rfl, hp⟩, (by intro _ h; cases h), fun h => (by rw [hp] at h; cases h)⟩
    · intro tr h0 htr
      exact ⟨fun hz => absurd hz h0, fun t ht => (by cases ht; rfl), fun _ _ => rfl⟩
    · intro h0 hor
      refine ⟨fun hz => absurd hz h0, fun t ht => ?_, fun hp hns => ?_⟩
      · rcases hor with hi | hi <;> (rw [show s.timer = _ from ht] at hi; cases hi)
      · rcases hor with hi | hi
        · have := h.waits hp (by rw [hi]; exact fun h => by cases h)
          rw [hi] at this; cases this
        · exact absurd hi hns
  · intro _; exact ⟨h.zero, h.armed, h.waits⟩
  · exact h

theorem run_cons (deny : Node → Bool) (s : St) (e : Ev) (es : List Ev) : run deny s (e :: es) = run deny (step deny s e) es := rfl

theorem inv_run (deny : Node → Bool) (es : List Ev) : ∀ {s : St}, Inv s → Inv (run deny s es) := by
  induction es with
  | nil => intro s h; exact h
  | cons e es ih => intro s h; exact ih (inv_step deny h e)

/-! ## C90: the receiver has the content of the datastore -/

/-- What holds of a subscription of everything whose data change. -/
structure Good (d0 : Data) (s : St) (d : Data) : Prop where
  crashed : s.crashed = false
  excl : ∀ o, s.excl o = false
  inv : Inv s
  armed : ∀ t, s.timer = .armed t → s.pending.isSome
  content : applyAll (reported s) d0 = d

theorem good_of_hist {damp : Nat} {d0 : Data} {s : St} {d : Data} (h : Hist damp d0 s d) : Good d0 s d := by
  induction h with
  | init =>
    refine ⟨rfl, fun _ => rfl, inv_init damp _, fun t h => ?_, rfl⟩
    cases h
  | @change s d d' t cs hh ht hd hq hm ih =>
    have hb : applyAll (pend s) (applyAll (s.sent.flatMap (·.edits)) d0) = d := by
      rw [← applyAll_append, ← reported_eq]; exact ih.content
    obtain ⟨h1, h2, h3⟩ := loop_content d d' (applyAll (s.sent.flatMap (·.edits)) d0) cs none s ih.excl hq
      (fun c hc => hd.right ht hc) hd.once
      (by
        intro c hc ho e he
        unfold pend at he
        split at he
        · rename_i p hp; exact hm c hc ho p hp e he
        · cases he)
      (fun x => Or.inr (congrFun hb x)) (fun n hn => by cases hn)
    have hs := loop_same (fun _ => false) cs none s
    have hc : applyAll (reported (loop (fun _ => false) cs none s).1) d0 = d' := by
      funext x
      rw [reported_eq, applyAll_append, hs.sent]
      rcases (h3 x).2 with h | ⟨h, hall⟩
      · exact h
      · rw [h]
        by_cases hx : d x = d' x
        · exact hx
        · obtain ⟨c, hcm, hcx, hop⟩ := hd.complete x hx
          exact absurd (by rw [hcx]; exact List.prefix_refl x) (hall c hcm hop)
    have hstep : step (fun _ => false) s (.change t cs) = finish (loop (fun _ => false) cs none s).1 t := by
      simp only [step, ih.crashed, Bool.false_eq_true, if_false, change]
      rcases hl : loop (fun _ => false) cs none s with ⟨a, b⟩
      rw [hl] at h1
      cases h1
      rfl
    have hinv := inv_step (fun _ => false) ih.inv (.change t cs)
    rw [hstep] at hinv ⊢
    generalize hlp : (loop (fun _ => false) cs none s).1 = u at *
    have hcr : u.crashed = false := hs.crashed.trans ih.crashed
    have hex : ∀ o, u.excl o = false := fun o => by rw [hs.excl]; exact ih.excl o
    have har : ∀ t, u.timer = .armed t → u.pending.isSome := fun t ht => h2 (ih.armed t (by rw [← hs.timer]; exact ht))
    have hz0 : u.damp = 0 → u.timer = .idle := fun hz => by
      rw [hs.timer]; exact (ih.inv.zero (by rw [← hs.damp]; exact hz)).1
    have hcf : applyAll (reported (finish u t)) d0 = d' := by rw [finish_reported]; exact hc
    refine ⟨?_, ?_, hinv, ?_, hcf⟩
    · apply finish_cases u t (fun v => v.crashed = false) <;> intros <;> exact hcr
    · apply finish_cases u t (fun v => ∀ o, v.excl o = false) <;> intros <;> exact hex _
    · apply finish_cases u t (fun v => ∀ t, v.timer = .armed t → v.pending.isSome)
      · intro _; exact har
      · intro p hp hor t' ht'
        exfalso
        have ht' : u.timer = .armed t' := ht'
        rcases hor with hz | ⟨hi, _⟩
        · rw [hz0 hz] at ht'; cases ht'
        · rw [hi] at ht'; cases ht'
      · intro _ _; exact har
      · intro hp _ _ _ _ _; exact hp
  | @other s d e hh hne ih =>
    have hinv := inv_step (fun _ => false) ih.inv e
    have key : ∀ v : St, step (fun _ => false) s e = v → (v.crashed = false ∧ (∀ o, v.excl o = false) ∧
        (∀ t, v.timer = .armed t → v.pending.isSome) ∧ reported v = reported s) := by
      intro v hv
      rw [← hv]
      apply step_cases (fun _ => false) s e ih.crashed (fun v => v.crashed = false ∧ (∀ o, v.excl o = false) ∧
        (∀ t, v.timer = .armed t → v.pending.isSome) ∧ reported v = reported s)
      · intro t cs u he _; exact absurd he (hne t cs)
      · intro t cs u he _; exact absurd he (hne t cs)
      · intro t tr _ htr _
        obtain ⟨p, hp, hs⟩ := send_some (ih.armed tr htr) t
        refine ⟨?_, ?_, (by intro _ h; cases h), ?_⟩
        · rw [hs]; exact ih.crashed
        · rw [hs]; exact ih.excl
        · exact send_reported hp t
      · intro t d _
        apply modify_cases s t d (fun v => v.crashed = false ∧ (∀ o, v.excl o = false) ∧
          (∀ t, v.timer = .armed t → v.pending.isSome) ∧ reported v = reported s)
        · exact ⟨ih.crashed, ih.excl, ih.armed, rfl⟩
        · intro p hp
          refine ⟨ih.crashed, ih.excl, (by intro _ h; cases h), ?_⟩
          simp [reported, hp, List.flatMap_append]
        · intro hp; exact ⟨ih.crashed, ih.excl, (by intro _ h; cases h), rfl⟩
        · intro tr _ htr; exact ⟨ih.crashed, ih.excl, fun _ _ => ih.armed tr htr, rfl⟩
        · intro _ _; exact ⟨ih.crashed, ih.excl, ih.armed, rfl⟩
      · intro _; exact ⟨ih.crashed, ih.excl, ih.armed, rfl⟩
      · exact ⟨ih.crashed, ih.excl, ih.armed, rfl⟩
    obtain ⟨h1, h2, h3, h4⟩ := key _ rfl
    exact ⟨h1, h2, hinv, h3, by rw [h4]; exact ih.content⟩

/-- **C90.** For every history of the data, dampening period and times: the edits sent so far with those waiting, applied in order
to the content at the start of the subscription, give the current content; and there is no crash. Assumed: all changes are
reported (nothing excluded, everything readable), no path has both kinds of quotes, and no instance is moved while an edit of it
is waiting to be sent; the receiver does not check that what is created is new and what is deleted is there. -/
theorem receiver_in_step_partial {damp : Nat} {d0 : Data} {s : St} {d : Data} (h : Hist damp d0 s d) :
    s.crashed = false ∧ applyAll (reported s) d0 = d :=
  ⟨(good_of_hist h).crashed, (good_of_hist h).content⟩

/-! ### Samples -/

/-- Data by the list of its nodes. -/
def ofList (l : List (Node × Val)) : Data := fun x => l.lookup x

theorem lookup_mem {l : List (Node × Val)} {x : Node} (h : (l.lookup x).isSome) : x ∈ l.map (·.1) := by
  induction l with
  | nil => cases h
  | cons a l ih =>
    rw [List.lookup_cons] at h
    by_cases hx : x == a.1
    · simp [eq_of_beq hx]
    · simp only [hx] at h
      simp [ih h]

theorem tree_ofList {l : List (Node × Val)}
    (h : (l.all fun e => (List.range (e.1.length + 1)).all fun i => (l.lookup (e.1.take i)).isSome) = true) :
    Tree (ofList l) := by
  intro p q hq
  obtain ⟨e, he, heq⟩ := List.mem_map.1 (lookup_mem hq)
  have := List.all_eq_true.1 (List.all_eq_true.1 h e he) p.length (by
    rw [List.mem_range, heq, List.length_append]; omega)
  rw [heq, List.take_left] at this
  exact this

/-- The changes from one data to other data, checked on the nodes there are. -/
def check (l l' : List (Node × Val)) (cs : List Change) : Bool :=
  ((l ++ l').all fun e => l.lookup e.1 == l'.lookup e.1 || cs.any fun c => c.node == e.1 && c.op != .moved) &&
  (cs.all fun c => c.op != .created || ((l.lookup c.node).isNone && (l'.lookup c.node).isSome)) &&
  (cs.all fun c => c.op != .modified || ((l'.lookup c.node).isSome &&
    l'.all fun e => !(c.node.isPrefixOf e.1) || e.1 == c.node)) &&
  (cs.all fun c => c.op != .deleted || (l'.lookup c.node).isNone) &&
  decide ((cs.map (·.node)).Nodup)

theorem describes_of {l l' : List (Node × Val)} {cs : List Change}
    (hv : ∀ c ∈ cs, c.op = .created ∨ c.op = .modified → c.sub = fun q => l'.lookup (c.node ++ q))
    (hc : check l l' cs = true) : Describes (ofList l) (ofList l') cs := by
  simp only [check, Bool.and_eq_true, decide_eq_true_eq] at hc
  obtain ⟨⟨⟨⟨h1, h2⟩, h3⟩, h4⟩, h5⟩ := hc
  refine ⟨?_, ?_, ?_, ?_, ?_, h5⟩
  · intro x hx
    have hm : x ∈ (l ++ l').map (·.1) := by
      rw [List.map_append, List.mem_append]
      cases ha : l.lookup x with
      | some v => exact Or.inl (lookup_mem (by rw [ha]; rfl))
      | none =>
        cases hb : l'.lookup x with
        | some v => exact Or.inr (lookup_mem (by rw [hb]; rfl))
        | none => exact absurd (show l.lookup x = l'.lookup x by rw [ha, hb]) hx
    obtain ⟨e, he, hex⟩ := List.mem_map.1 hm
    have := List.all_eq_true.1 h1 e he
    rw [Bool.or_eq_true] at this
    rcases this with h | h
    · exact absurd (by have := eq_of_beq h; rw [hex] at this; exact this) hx
    · obtain ⟨c, hc, hcc⟩ := List.any_eq_true.1 h
      simp only [Bool.and_eq_true, bne_iff_ne, ne_eq, beq_iff_eq] at hcc
      exact ⟨c, hc, hcc.1.trans hex, hcc.2⟩
  · intro c hc ho
    have := List.all_eq_true.1 h2 c hc
    simp only [ho, bne_self_eq_false, Bool.false_or, Bool.and_eq_true, Option.isNone_iff_eq_none] at this
    exact this
  · intro c hc ho
    have := List.all_eq_true.1 h3 c hc
    simp only [ho, bne_self_eq_false, Bool.false_or, Bool.and_eq_true] at this
    refine ⟨this.1, fun q hq => ?_⟩
    cases hd : ofList l' (c.node ++ q) with
    | none => rfl
    | some v =>
      obtain ⟨e, he, hex⟩ := List.mem_map.1 (lookup_mem (l := l') (x := c.node ++ q) (by
        rw [show l'.lookup (c.node ++ q) = some v from hd]; rfl))
      have := List.all_eq_true.1 this.2 e he
      rw [hex] at this
      simp only [Bool.or_eq_true, Bool.not_eq_true', beq_iff_eq] at this
      rcases this with h | h
      · rw [List.isPrefixOf_iff_prefix.2 (List.prefix_append _ _)] at h; cases h
      · exact absurd (by simpa using h) hq
  · intro c hc ho
    have := List.all_eq_true.1 h4 c hc
    simp only [ho, bne_self_eq_false, Bool.false_or, Option.isNone_iff_eq_none] at this
    exact this
  · intro c hc ho q
    rw [hv c hc ho]
    rfl

/-- A leaf, a user-ordered list instance with its key, a container with a leaf. -/
def nA : Node := ["m:a".toList]
def nL : Node := ["m:l[k='1']".toList]
def nK : Node := ["m:l[k='1']".toList, "k".toList]
def nC : Node := ["m:c".toList]
def nD : Node := ["m:c".toList, "d".toList]

/-- Data growing: nothing, the leaf, the leaf and the list instance. -/
def l0 : List (Node × Val) := [([], [])]
def l1 : List (Node × Val) := [([], []), (nA, ['v'])]
def l2 : List (Node × Val) := [([], []), (nA, ['v']), (nL, []), (nK, ['1'])]

/-- The changes. -/
def c1 : List Change := [{ op := .created, node := nA, sub := fun q => l1.lookup (nA ++ q) }]
def c2 : List Change := [{ op := .created, node := nL, uo := true, sub := fun q => l2.lookup (nL ++ q) },
  { op := .created, node := nK, sub := fun q => l2.lookup (nK ++ q) }]

/-- After both changes, the second waiting for the timer. -/
def sA : St := step (fun _ => false) { damp := 1000, excl := fun _ => false } (.change 5000 c1)
def sL : St := step (fun _ => false) sA (.change 5100 c2)

theorem hist_sA : Hist 1000 (ofList l0) sA (ofList l1) := by
  refine .change (ofList l1) 5000 c1 .init (tree_ofList (by decide +kernel)) (describes_of ?_ (by decide +kernel)) ?_ ?_
  · intro c hc _
    simp only [c1, List.mem_singleton] at hc
    subst hc
    rfl
  · decide +kernel
  · intro c hc ho
    simp only [c1, List.mem_singleton] at hc
    subst hc
    cases ho

theorem hist_sL : Hist 1000 (ofList l0) sL (ofList l2) := by
  refine .change (ofList l2) 5100 c2 hist_sA (tree_ofList (by decide +kernel)) (describes_of ?_ (by decide +kernel)) ?_ ?_
  · intro c hc _
    simp only [c2, List.mem_cons, List.not_mem_nil, or_false] at hc
    rcases hc with rfl | rfl <;> rfl
  · decide +kernel
  · intro c hc ho
    simp only [c2, List.mem_cons, List.not_mem_nil, or_false] at hc
    rcases hc with rfl | rfl <;> cases ho

/-- A history of `receiver_in_step_partial` with one notification sent, one waiting: it has the instance but not its key, which
is in the value. -/
example : sL.sent.map (fun n => n.edits.map (fun e => (e.op, e.node))) = [[(.create, nA)]] ∧
    (pend sL).map (fun e => (e.op, e.node)) = [(.insert, nL)] ∧ sL.timer = .armed 6000 := by decide +kernel

/-- **Violation.** A list instance created and moved before the notification is sent: the edit moving it replaces the edit with its
content, the receiver never gets the instance. -/
theorem moved_lost : ∃ d0 s d t cs, Hist 1000 d0 s d ∧ Describes d d cs ∧ (∀ c ∈ cs, bothQuotes c.node = false) ∧
    applyAll (reported (step (fun _ => false) s (.change t cs))) d0 nK = none ∧ d nK = some ['1'] := by
  refine ⟨ofList l0, sL, ofList l2, 5200, [{ op := .moved, node := nL, uo := true }], hist_sL, describes_of ?_ ?_, ?_, ?_, ?_⟩
  · intro c hc ho
    simp only [List.mem_singleton] at hc
    subst hc
    rcases ho with ho | ho <;> cases ho
  all_goals decide +kernel

/-- Data with a container and a leaf in it, which is deleted. -/
def l3 : List (Node × Val) := [([], []), (nC, []), (nD, ['v'])]
def c3 : List Change := [{ op := .deleted, node := nC }, { op := .deleted, node := nD }]

theorem hist_deleted : Hist 0 (ofList l3) (step (fun _ => false) { damp := 0, excl := fun _ => false } (.change 5000 c3))
    (ofList l0) := by
  refine .change (ofList l0) 5000 c3 .init (tree_ofList (by decide +kernel)) (describes_of ?_ (by decide +kernel)) ?_ ?_
  · intro c hc ho
    simp only [c3, List.mem_cons, List.not_mem_nil, or_false] at hc
    rcases hc with rfl | rfl <;> (rcases ho with ho | ho <;> cases ho)
  · decide +kernel
  · intro c hc ho
    simp only [c3, List.mem_cons, List.not_mem_nil, or_false] at hc
    rcases hc with rfl | rfl <;> cases ho

/-- **Violation.** Deleting a container is reported as deleting it and then deleting the leaf in it, which is not there any more: a
receiver following RFC 8072 refuses the patch. -/
theorem nested_delete_refused : ∃ d0 s d, Hist 0 d0 s d ∧ strict (reported s) d0 = none :=
  ⟨_, _, _, hist_deleted, by decide +kernel⟩

/-- Deleted and created again with another value before the notification is sent. -/
def l4 : List (Node × Val) := [([], []), (nA, ['w'])]
def c4 : List Change := [{ op := .deleted, node := nA }]
def c5 : List Change := [{ op := .created, node := nA, sub := fun q => l4.lookup (nA ++ q) }]
def sD : St := step (fun _ => false) sA (.change 5100 c4)
def sR : St := step (fun _ => false) sD (.change 5200 c5)

theorem hist_sR : Hist 1000 (ofList l0) sR (ofList l4) := by
  refine .change (ofList l4) 5200 c5 (.change (ofList l0) 5100 c4 hist_sA (tree_ofList (by decide +kernel))
    (describes_of ?_ (by decide +kernel)) ?_ ?_) (tree_ofList (by decide +kernel)) (describes_of ?_ (by decide +kernel)) ?_ ?_
  · intro c hc ho
    simp only [c4, List.mem_singleton] at hc
    subst hc
    rcases ho with ho | ho <;> cases ho
  · decide +kernel
  · intro c hc ho
    simp only [c4, List.mem_singleton] at hc
    subst hc
    cases ho
  · intro c hc ho
    simp only [c5, List.mem_singleton] at hc
    subst hc
    rfl
  · decide +kernel
  · intro c hc ho
    simp only [c5, List.mem_singleton] at hc
    subst hc
    cases ho

/-- **Violation.** A node deleted and created again before the notification is sent is reported only as created, though the
receiver has it: a receiver following RFC 8072 refuses the patch. -/
theorem recreated_refused : ∃ d0 s d, Hist 1000 d0 s d ∧ strict (reported s) d0 = none :=
  ⟨_, _, _, hist_sR, by decide +kernel⟩

/-! ## C91: every change is reported in time -/

/-- **C91.** For every subscription and every sequence of events: without a dampening period nothing waits to be sent after an
event. -/
theorem at_once (deny : Node → Bool) (damp : Nat) (excl : YpOp → Bool) (es : List Ev)
    (h : (run deny (init damp excl) es).damp = 0) : (run deny (init damp excl) es).pending = none :=
  ((inv_run deny es (inv_init damp excl)).zero h).2

example : (run (fun _ => false) (init 0 (fun _ => false)) [.change 1 c1, .change 2 c2]).damp = 0 ∧
    (run (fun _ => false) (init 0 (fun _ => false)) [.change 1 c1, .change 2 c2]).sent.length = 2 := by decide +kernel

/-- **C91.** For every subscription and every sequence of events: as long as the timer has not fired once, whatever waits to be
sent waits for the timer to fire when the dampening period since the last notification has passed. -/
theorem waits_for_timer_partial (deny : Node → Bool) (damp : Nat) (excl : YpOp → Bool) (es : List Ev)
    (hp : (run deny (init damp excl) es).pending.isSome) (ht : (run deny (init damp excl) es).timer ≠ .spent) :
    (run deny (init damp excl) es).timer =
      .armed ((run deny (init damp excl) es).last + (run deny (init damp excl) es).damp) :=
  (inv_run deny es (inv_init damp excl)).waits hp ht

example : (run (fun _ => false) (init 1000 (fun _ => false)) [.change 5000 c1, .change 5100 c2]).pending.isSome ∧
    (run (fun _ => false) (init 1000 (fun _ => false)) [.change 5000 c1, .change 5100 c2]).timer ≠ .spent := by decide +kernel

/-- A timer that fires sends what waits. -/
theorem timer_sends (deny : Node → Bool) (s : St) (p : Pend) (t tr : Nat) (hc : s.crashed = false) (hp : s.pending = some p)
    (ht : s.timer = .armed tr) (hle : tr ≤ t) :
    (step deny s (.fire t)).pending = none ∧ (step deny s (.fire t)).sent = s.sent ++ [⟨t, s.damp, p.patch, p.edits⟩] := by
  simp [step, hc, fire, ht, hle, send, hp]

example : sL.crashed = false ∧ sL.pending.isSome ∧ sL.timer = .armed 6000 := by decide +kernel

theorem stalled_step (deny : Node → Bool) {s : St} (h : s.timer = .spent) (hz : s.damp ≠ 0) (e : Ev) (he : ∀ t, e ≠ .modify t 0) :
    (step deny s e).timer = .spent ∧ (step deny s e).damp ≠ 0 ∧ (step deny s e).sent = s.sent := by
  by_cases hc : s.crashed = true
  · simp only [step, hc, if_true]; exact ⟨h, hz, trivial⟩
  have hc : s.crashed = false := by simpa using hc
  apply step_cases deny s e hc (fun v => v.timer = .spent ∧ v.damp ≠ 0 ∧ v.sent = s.sent)
  · intro t cs u _ hl
    have hs := loop_same deny cs none s
    rw [hl] at hs
    exact ⟨hs.timer.trans h, by rw [hs.damp]; exact hz, hs.sent⟩
  · intro t cs u _ hl
    have hs := loop_same deny cs none s
    rw [hl] at hs
    have hu : u.timer = .spent := hs.timer.trans h
    have hd : u.damp ≠ 0 := by rw [hs.damp]; exact hz
    rw [finish_waits hd (by rw [hu]; exact fun h => by cases h)]
    exact ⟨hu, hd, hs.sent⟩
  · intro t tr _ htr; rw [h] at htr; cases htr
  · intro t d hed
    have hd : d ≠ 0 := fun h0 => he t (by rw [hed, h0])
    unfold modify
    split
    · exact ⟨h, hz, rfl⟩
    · simp only [h]; exact ⟨trivial, hd, trivial⟩
  · intro _; exact ⟨h, hz, rfl⟩
  · exact ⟨h, hz, rfl⟩

/-- **Violation.** Once the timer has fired, for every sequence of events without setting the period to zero: no change is ever
reported again, the thread of the timer having ended with its identifier still set. -/
theorem stalled (deny : Node → Bool) (es : List Ev) (he : ∀ e ∈ es, ∀ t, e ≠ .modify t 0) : ∀ (s : St), s.timer = .spent →
    s.damp ≠ 0 → (run deny s es).sent = s.sent := by
  induction es with
  | nil => intro s _ _; rfl
  | cons e es ih =>
    intro s h hz
    obtain ⟨h1, h2, h3⟩ := stalled_step deny h hz e (he e (by simp))
    rw [run_cons, ih (fun a ha => he a (by simp [ha])) _ h1 h2, h3]

/-- This state is reached by one change sent and one delayed; the third change, a minute later, waits for ever. -/
theorem stall_reached : ∃ es, (run (fun _ => false) (init 1000 (fun _ => false)) es).timer = .spent ∧
    (run (fun _ => false) (init 1000 (fun _ => false)) es).damp ≠ 0 ∧
    (run (fun _ => false) (init 1000 (fun _ => false)) es).sent.length = 2 ∧
    ∀ es', (∀ e ∈ es', ∀ t, e ≠ .modify t 0) →
      (run (fun _ => false) (init 1000 (fun _ => false)) (es ++ .change 66000 c4 :: es')).sent.length = 2 := by
  refine ⟨[.change 5000 c1, .change 5100 c2, .fire 6000], by decide +kernel, by decide +kernel, by decide +kernel, ?_⟩
  intro es' he
  have hr : ∀ (a b : List Ev) (s : St), run (fun _ => false) s (a ++ b) = run (fun _ => false) (run (fun _ => false) s a) b := by
    intro a b s; simp [run, List.foldl_append]
  rw [hr, stalled]
  · decide +kernel
  · intro e hm t
    rcases List.mem_cons.1 hm with rfl | hm
    · exact fun h => by cases h
    · exact he e hm t
  · decide +kernel
  · decide +kernel

/-- A list instance with an apostrophe in its key. -/
def nQ : Node := ["m:l[k=\"it's\"]".toList]

/-- **Violation.** For every subscription: a change of a node with both kinds of quotes in its path, like that of a list instance
with an apostrophe in its key, is not reported, and all the changes waiting to be sent are dropped with it. -/
theorem quotes_drop (s : St) (c : Change) (t : Nat) (hq : bothQuotes c.node = true) (he : s.excl (sr2yp c) = false)
    (hc : s.crashed = false) :
    (step (fun _ => false) s (.change t [c])).pending = none ∧ (step (fun _ => false) s (.change t [c])).sent = s.sent := by
  have h1 : nested none c = false := by unfold nested; split <;> simp_all
  have h2 : append (start s).1 (start s).2 c = none := by simp [append, clearTarget, hq]
  have h3 : loop (fun _ => false) [c] none s = ({ (start s).1 with pending := none }, false) := by
    unfold loop
    simp [h1, h2, he]
  simp only [step, hc, Bool.false_eq_true, if_false, change, h3]
  exact ⟨trivial, (start_same s).sent⟩

example : bothQuotes nQ = true ∧ bothQuotes nL = false := by decide +kernel

/-- **Violation.** Then the timer finds no notification and the process crashes. -/
theorem crash_reached : (run (fun _ => false) (init 1000 (fun _ => false)) [.change 5000 c1, .change 5100 c2,
    .change 5200 [{ op := .created, node := nQ, uo := true }], .fire 6000]).crashed = true := by decide +kernel

/-! ## C92: notifications are not closer than the dampening period -/

/-- What holds of the times. -/
structure Spaced (s : St) (now : Nat) : Prop where
  gaps : s.sent.Pairwise (fun a b => a.ts + b.damp ≤ b.ts)
  upto : ∀ a ∈ s.sent, a.ts ≤ s.last
  past : s.last ≤ now

theorem Spaced.send {s : St} {t now : Nat} (h : Spaced s now) (_ : now ≤ t) (p : Pend) (d : Nat) (hd : s.last + d ≤ t) :
    (s.sent ++ [(⟨t, d, p.patch, p.edits⟩ : Ntf)]).Pairwise (fun a b => a.ts + b.damp ≤ b.ts) ∧
    (∀ a ∈ s.sent ++ [(⟨t, d, p.patch, p.edits⟩ : Ntf)], a.ts ≤ t) := by
  refine ⟨?_, ?_⟩
  · rw [List.pairwise_append]
    refine ⟨h.gaps, List.pairwise_singleton _ _, ?_⟩
    intro a ha b hb
    rw [List.mem_singleton.1 hb]
    have := h.upto a ha
    show a.ts + d ≤ t
    omega
  · intro a ha
    rcases List.mem_append.1 ha with ha | ha
    · have := h.upto a ha; have := h.past; omega
    · rw [List.mem_singleton.1 ha]; exact Nat.le_refl t

theorem spaced_step (deny : Node → Bool) {s : St} {now : Nat} (hi : Inv s) (h : Spaced s now) (e : Ev) (t : Nat) (hn : now ≤ t)
    (he : e = .resync ∨ e.time = t) : Spaced (step deny s e) t := by
  by_cases hc : s.crashed = true
  · simp only [step, hc, if_true]; exact ⟨h.gaps, h.upto, Nat.le_trans h.past hn⟩
  have hc : s.crashed = false := by simpa using hc
  apply step_cases deny s e hc (fun v => Spaced v t)
  · intro t' cs u _ hl
    have hs := loop_same deny cs none s
    rw [hl] at hs
    exact ⟨by rw [hs.sent]; exact h.gaps, by rw [hs.sent, hs.last]; exact h.upto, by rw [hs.last]; exact Nat.le_trans h.past hn⟩
  · intro t' cs u hec hl
    have ht : t' = t := by rcases he with he | he <;> rw [hec] at he <;> first | exact he | cases he
    subst ht
    have hs := loop_same deny cs none s
    rw [hl] at hs
    have hu : Spaced u now := ⟨by rw [hs.sent]; exact h.gaps, by rw [hs.sent, hs.last]; exact h.upto,
      by rw [hs.last]; exact h.past⟩
    apply finish_cases u t' (fun v => Spaced v t')
    · intro _; exact ⟨hu.gaps, hu.upto, Nat.le_trans hu.past hn⟩
    · intro p hp hor
      have hd : u.last + u.damp ≤ t' := by
        rcases hor with h0 | ⟨_, h0⟩
        · rw [h0]; exact Nat.le_trans hu.past hn
        · exact h0
      obtain ⟨h1, h2⟩ := hu.send hn p u.damp hd
      exact ⟨h1, h2, Nat.le_refl _⟩
    · intro _ _; exact ⟨hu.gaps, hu.upto, Nat.le_trans hu.past hn⟩
    · intro _ _ _ _; exact ⟨hu.gaps, hu.upto, Nat.le_trans hu.past hn⟩
  · intro t' tr hec htr hle
    have ht : t' = t := by rcases he with he | he <;> rw [hec] at he <;> first | exact he | cases he
    subst ht
    have := hi.armed tr htr
    cases hp : s.pending with
    | none => simp only [send, hp]; exact ⟨h.gaps, h.upto, Nat.le_trans h.past hn⟩
    | some p =>
      simp only [send, hp]
      obtain ⟨h1, h2⟩ := h.send hn p s.damp (by omega)
      exact ⟨h1, h2, Nat.le_refl _⟩
  · intro t' d hec
    have ht : t' = t := by rcases he with he | he <;> rw [hec] at he <;> first | exact he | cases he
    subst ht
    have h' : Spaced s t' := ⟨h.gaps, h.upto, Nat.le_trans h.past hn⟩
    apply modify_cases s t' d (fun v => Spaced v t')
    · exact h'
    · intro p hp
      obtain ⟨h1, h2⟩ := h.send hn p 0 (Nat.le_trans h.past hn)
      exact ⟨h1, h2, Nat.le_refl _⟩
    · intro _; exact ⟨h'.gaps, h'.upto, h'.past⟩
    · intro _ _ _; exact ⟨h'.gaps, h'.upto, h'.past⟩
    · intro _ _; exact ⟨h'.gaps, h'.upto, h'.past⟩
  · intro _; exact ⟨h.gaps, h.upto, Nat.le_trans h.past hn⟩
  · exact ⟨h.gaps, h.upto, Nat.le_trans h.past hn⟩

theorem spaced_run (deny : Node → Bool) (es : List Ev) : ∀ (s : St) (now : Nat), Inv s → Spaced s now → Clock now es →
    (run deny s es).sent.Pairwise (fun a b => a.ts + b.damp ≤ b.ts) := by
  induction es with
  | nil => intro s now _ h _; exact h.gaps
  | cons e es ih =>
    intro s now hi h hcl
    rw [run_cons]
    cases e with
    | resync => exact ih _ now (inv_step deny hi _) (spaced_step deny hi h _ now (Nat.le_refl _) (Or.inl rfl)) hcl
    | change t cs => exact ih _ t (inv_step deny hi _) (spaced_step deny hi h _ t hcl.1 (Or.inr rfl)) hcl.2
    | fire t => exact ih _ t (inv_step deny hi _) (spaced_step deny hi h _ t hcl.1 (Or.inr rfl)) hcl.2
    | modify t d => exact ih _ t (inv_step deny hi _) (spaced_step deny hi h _ t hcl.1 (Or.inr rfl)) hcl.2

/-- **C92.** For every subscription and every sequence of events in time: of any two notifications of changes, the later one is
sent at least the dampening period set at its time after the earlier one. -/
theorem spacing (deny : Node → Bool) (damp : Nat) (excl : YpOp → Bool) (es : List Ev) (h : Clock 0 es) :
    (run deny (init damp excl) es).sent.Pairwise (fun a b => a.ts + b.damp ≤ b.ts) :=
  spaced_run deny es _ 0 (inv_init damp excl) ⟨List.Pairwise.nil, (by intro a ha; cases ha), Nat.le_refl _⟩ h

example : Clock 0 [.change 5000 c1, .change 5100 c2, .modify 5200 500, .fire 5500, .resync] ∧
    (run (fun _ => false) (init 1000 (fun _ => false)) [.change 5000 c1, .change 5100 c2, .modify 5200 500, .fire 5500,
      .resync]).sent.map (fun n => (n.ts, n.damp)) = [(5000, 1000), (5500, 500)] := by
  refine ⟨?_, by decide +kernel⟩
  simp [Clock, Ev.time]

/-! ## C93: identifiers and targets in notifications -/

/-- Edits in the order of their numbers, all below `n`; no node twice. -/
structure Numbered (es : List Edit) (n : Nat) : Prop where
  asc : es.Pairwise (fun a b => a.id < b.id)
  below : ∀ e ∈ es, e.id < n
  once : (es.map (·.node)).Nodup

theorem eraseP_sub (n : Node) (es : List Edit) (h : (es.map (·.node)).Nodup) :
    ∀ e ∈ es.eraseP (fun e => e.node == n), e.node ≠ n := by
  induction es with
  | nil => intro e he; cases he
  | cons a es ih =>
    intro e he
    rw [List.eraseP_cons] at he
    have h2 := List.nodup_cons.1 (show (a.node :: es.map (·.node)).Nodup from h)
    by_cases ha : a.node = n
    · simp only [ha, beq_self_eq_true, cond_true] at he
      intro hen
      exact h2.1 (by rw [ha, ← hen]; exact List.mem_map_of_mem he)
    · simp only [beq_eq_false_iff_ne.2 ha, cond_false] at he
      rcases List.mem_cons.1 he with rfl | he
      · exact ha
      · exact ih h2.2 e he

theorem Numbered.append {s s' : St} {p : Pend} {c : Change} (h : Numbered p.edits s.editId)
    (ha : append s p c = some s') : ∃ q, s'.pending = some q ∧ q.patch = p.patch ∧ Numbered q.edits s'.editId := by
  unfold YpChange.append clearTarget at ha
  by_cases hq : bothQuotes c.node = true
  · simp [hq] at ha
  simp only [hq, Bool.false_eq_true, if_false] at ha
  have ha := Option.some.inj ha
  subst ha
  refine ⟨_, rfl, rfl, ?_, ?_, ?_⟩
  · show (_ ++ [mkEdit s.editId c]).Pairwise _
    rw [List.pairwise_append]
    refine ⟨h.asc.sublist List.eraseP_sublist, List.pairwise_singleton _ _, ?_⟩
    intro a hm b hb
    rw [List.mem_singleton.1 hb]
    exact h.below a (List.eraseP_subset hm)
  · intro e he
    rcases List.mem_append.1 he with he | he
    · have := h.below e (List.eraseP_subset he)
      show e.id < s.editId + 1
      omega
    · rw [List.mem_singleton.1 he]; exact Nat.lt_succ_self _
  · show ((_ ++ [mkEdit s.editId c]).map (·.node)).Nodup
    rw [List.map_append, List.nodup_append]
    refine ⟨h.once.sublist (List.eraseP_sublist.map _), by simp, ?_⟩
    intro a hm b hb
    obtain ⟨e, he, rfl⟩ := List.mem_map.1 hm
    simp only [List.map_cons, List.map_nil, List.mem_singleton] at hb
    rw [hb]
    exact eraseP_sub c.node p.edits h.once e he

/-- What holds of the numbers. -/
structure Ids (s : St) : Prop where
  sent : s.sent.Pairwise (fun a b => a.patch < b.patch)
  below : ∀ a ∈ s.sent, a.patch < s.patchId
  pend : ∀ p, s.pending = some p → p.patch < s.patchId ∧ (∀ a ∈ s.sent, a.patch < p.patch) ∧ Numbered p.edits s.editId
  edits : ∀ a ∈ s.sent, a.edits.Pairwise (fun x y => x.id < y.id) ∧ (a.edits.map (·.node)).Nodup

theorem Ids.start {s : St} (h : Ids s) : Ids { (start s).1 with pending := some (start s).2 } := by
  unfold YpChange.start
  cases hp : s.pending with
  | some p => simp only []; exact ⟨h.sent, h.below, fun q hq => by cases hq; exact h.pend p hp, h.edits⟩
  | none =>
    refine ⟨h.sent, fun a ha => Nat.lt_succ_of_lt (h.below a ha), ?_, h.edits⟩
    intro q hq
    cases hq
    exact ⟨Nat.lt_succ_self _, fun a ha => h.below a ha, List.Pairwise.nil, (by intro e he; cases he), List.nodup_nil⟩

theorem Ids.loop (deny : Node → Bool) (cs : List Change) : ∀ (last : Option (Op × Node)) (s : St), Ids s →
    Ids (loop deny cs last s).1 := by
  induction cs with
  | nil => intro last s h; exact h
  | cons c cs ih =>
    intro last s h
    unfold YpChange.loop
    split
    · exact ih _ _ h
    split
    · exact ih _ _ h
    split
    · exact ih _ _ ⟨h.sent, h.below, h.pend, h.edits⟩
    have hst := h.start
    split
    · exact ⟨hst.sent, hst.below, fun q hq => (by cases hq), hst.edits⟩
    · rename_i s' hs'
      obtain ⟨q, hq1, hq2, hq3⟩ := Numbered.append (hst.pend _ rfl).2.2 hs'
      have hid : s'.patchId = (YpChange.start s).1.patchId := by
        unfold YpChange.append at hs'
        split at hs'
        · cases hs'
        · cases hs'; rfl
      have hsent := (append_same hs').sent
      refine ih _ _ ⟨?_, ?_, ?_, ?_⟩
      · rw [hsent]; exact hst.sent
      · rw [hsent, hid]; exact hst.below
      · intro r hr
        rw [hq1] at hr
        cases hr
        refine ⟨?_, ?_, hq3⟩
        · rw [hq2, hid]; exact (hst.pend _ rfl).1
        · rw [hsent, hq2]; exact (hst.pend _ rfl).2.1
      · rw [hsent]; exact hst.edits

theorem Ids.send {s : St} (h : Ids s) {p : Pend} (hp : s.pending = some p) (t d : Nat) :
    (s.sent ++ [(⟨t, d, p.patch, p.edits⟩ : Ntf)]).Pairwise (fun a b => a.patch < b.patch) ∧
    (∀ a ∈ s.sent ++ [(⟨t, d, p.patch, p.edits⟩ : Ntf)], a.patch < s.patchId) ∧
    (∀ a ∈ s.sent ++ [(⟨t, d, p.patch, p.edits⟩ : Ntf)], a.edits.Pairwise (fun x y => x.id < y.id) ∧
      (a.edits.map (·.node)).Nodup) := by
  obtain ⟨h1, h2, h3⟩ := h.pend p hp
  refine ⟨?_, ?_, ?_⟩
  · rw [List.pairwise_append]
    exact ⟨h.sent, List.pairwise_singleton _ _, fun a ha b hb => by rw [List.mem_singleton.1 hb]; exact h2 a ha⟩
  · intro a ha
    rcases List.mem_append.1 ha with ha | ha
    · exact h.below a ha
    · rw [List.mem_singleton.1 ha]; exact h1
  · intro a ha
    rcases List.mem_append.1 ha with ha | ha
    · exact h.edits a ha
    · rw [List.mem_singleton.1 ha]; exact ⟨h3.asc, h3.once⟩

theorem ids_step (deny : Node → Bool) {s : St} (h : Ids s) (e : Ev) (he : e ≠ .resync) : Ids (step deny s e) := by
  by_cases hc : s.crashed = true
  · simp only [step, hc, if_true]; exact h
  have hc : s.crashed = false := by simpa using hc
  apply step_cases deny s e hc
  · intro t cs u _ hl
    have := Ids.loop deny cs none s h
    rw [hl] at this; exact this
  · intro t cs u _ hl
    have hu := Ids.loop deny cs none s h
    rw [hl] at hu
    have hu : Ids u := hu
    apply finish_cases u t
    · intro _; exact hu
    · intro p hp _
      obtain ⟨h1, h2, h3⟩ := hu.send hp t u.damp
      exact ⟨h1, h2, fun q hq => (by cases hq), h3⟩
    · intro _ _; exact hu
    · intro _ _ _ _; exact ⟨hu.sent, hu.below, hu.pend, hu.edits⟩
  · intro t tr _ _ _
    cases hp : s.pending with
    | none => simp only [YpChange.send, hp]; exact ⟨h.sent, h.below, fun q hq => (by cases hq), h.edits⟩
    | some p =>
      simp only [YpChange.send, hp]
      obtain ⟨h1, h2, h3⟩ := h.send hp t s.damp
      exact ⟨h1, h2, fun q hq => (by cases hq), h3⟩
  · intro t d _
    apply modify_cases s t d
    · exact h
    · intro p hp
      obtain ⟨h1, h2, h3⟩ := h.send hp t 0
      exact ⟨h1, h2, fun q hq => (by cases hq), h3⟩
    · intro _; exact ⟨h.sent, h.below, h.pend, h.edits⟩
    · intro _ _ _; exact ⟨h.sent, h.below, h.pend, h.edits⟩
    · intro _ _; exact ⟨h.sent, h.below, h.pend, h.edits⟩
  · intro h'; exact absurd h' he
  · exact h

theorem ids_run (deny : Node → Bool) (es : List Ev) (he : ∀ e ∈ es, e ≠ .resync) : ∀ (s : St), Ids s → Ids (run deny s es) := by
  induction es with
  | nil => intro s h; exact h
  | cons e es ih => intro s h; exact ih (fun a ha => he a (by simp [ha])) _ (ids_step deny h e (he e (by simp)))

/-- **C93.** For every subscription and every sequence of events without a resynchronisation: the patches are numbered in the order
they are sent, no number is used twice; in each patch the edits are numbered in order and no node is the target of two edits. -/
theorem ids_increase (deny : Node → Bool) (damp : Nat) (excl : YpOp → Bool) (es : List Ev) (h : ∀ e ∈ es, e ≠ .resync) :
    (run deny (init damp excl) es).sent.Pairwise (fun a b => a.patch < b.patch) ∧
    ∀ n ∈ (run deny (init damp excl) es).sent, n.edits.Pairwise (fun a b => a.id < b.id) ∧ (n.edits.map (·.node)).Nodup := by
  have hi : Ids (init damp excl) :=
    ⟨List.Pairwise.nil, (by intro a ha; cases ha), (by intro p hp; cases hp), (by intro a ha; cases ha)⟩
  exact ⟨(ids_run deny es h _ hi).sent, (ids_run deny es h _ hi).edits⟩

example : (run (fun _ => false) (init 1000 (fun _ => false)) [.change 5000 c1, .change 5100 c2, .change 5200 c4, .change 5300 c5,
    .fire 6000]).sent.map (fun n => (n.patch, n.edits.map (fun e => (e.id, e.op)))) =
    [(1, [(1, .create)]), (2, [(1, .insert), (3, .create)])] := by decide +kernel

/-- **Violation.** After a resynchronisation a patch in preparation keeps its number, numbers start again from 1 after it. -/
theorem resync_number : (run (fun _ => false) (init 1000 (fun _ => false)) [.change 5000 c1, .change 5100 c2, .resync,
    .modify 5200 0, .change 5300 c4]).sent.map (·.patch) = [1, 2, 1] := by decide +kernel

/-! ## C94: exactly the changes asked for are reported -/

/-- What an edit may report. -/
def Allowed (deny : Node → Bool) (excl : YpOp → Bool) (e : Edit) : Prop := deny e.node = false ∧ excl e.op = false

theorem append_allowed {deny : Node → Bool} {excl : YpOp → Bool} {s s' : St} {p : Pend} {c : Change}
    (h : append s p c = some s') (hp : ∀ e ∈ p.edits, Allowed deny excl e) (hd : deny c.node = false)
    (he : excl (sr2yp c) = false) : ∀ e ∈ pend s', Allowed deny excl e := by
  intro e hm
  unfold append clearTarget at h
  by_cases hq : bothQuotes c.node = true
  · simp [hq] at h
  simp only [hq, Bool.false_eq_true, if_false] at h
  have h := Option.some.inj h
  rw [← h] at hm
  simp only [pend, List.mem_append, List.mem_singleton] at hm
  rcases hm with hm | hm
  · exact hp e (List.eraseP_subset hm)
  · rw [hm]; exact ⟨hd, he⟩

theorem loop_allowed (deny : Node → Bool) (excl : YpOp → Bool) (cs : List Change) : ∀ (last : Option (Op × Node)) (s : St),
    s.excl = excl → (∀ e ∈ pend s, Allowed deny excl e) → ∀ e ∈ pend (loop deny cs last s).1, Allowed deny excl e := by
  induction cs with
  | nil => intro last s _ h; exact h
  | cons c cs ih =>
    intro last s hx h
    unfold loop
    split
    · exact ih _ _ hx h
    rename_i hd
    split
    · exact ih _ _ hx h
    split
    · exact ih _ { s with exclCount := s.exclCount + 1 } hx h
    rename_i hexc
    split
    · intro e he; cases he
    · rename_i s' hs'
      refine ih _ _ ?_ (append_allowed hs' (by rw [start_pend]; exact h) (by simpa using hd) (by rw [← hx]; simpa using hexc))
      rw [((start_same s).trans (append_same hs')).excl, hx]

theorem reported_step (deny : Node → Bool) (excl : YpOp → Bool) (s : St) (e : Ev) (hx : s.excl = excl)
    (h : ∀ e ∈ reported s, Allowed deny excl e) :
    (step deny s e).excl = excl ∧ ∀ x ∈ reported (step deny s e), Allowed deny excl x := by
  by_cases hc : s.crashed = true
  · simp only [step, hc, if_true]; exact ⟨hx, h⟩
  have hc : s.crashed = false := by simpa using hc
  have hsent : ∀ x ∈ s.sent.flatMap (·.edits), Allowed deny excl x := fun x hm => h x (by rw [reported_eq]; simp [hm])
  have hpend : ∀ x ∈ pend s, Allowed deny excl x := fun x hm => h x (by rw [reported_eq]; simp [hm])
  have hloop : ∀ cs, (loop deny cs none s).1.excl = excl ∧
      ∀ x ∈ reported (loop deny cs none s).1, Allowed deny excl x := by
    intro cs
    have hs := loop_same deny cs none s
    refine ⟨hs.excl.trans hx, ?_⟩
    intro x hm
    rw [reported_eq, hs.sent, List.mem_append] at hm
    rcases hm with hm | hm
    · exact hsent x hm
    · exact loop_allowed deny excl cs none s hx hpend x hm
  apply step_cases deny s e hc (fun v => v.excl = excl ∧ ∀ x ∈ reported v, Allowed deny excl x)
  · intro t cs u _ hl
    have := hloop cs
    rw [hl] at this; exact this
  · intro t cs u _ hl
    have hu := hloop cs
    rw [hl] at hu
    refine ⟨?_, by rw [finish_reported]; exact hu.2⟩
    apply finish_cases u t (fun v => v.excl = excl) <;> intros <;> exact hu.1
  · intro t tr _ _ _
    cases hp : s.pending with
    | none => simp only [send, hp]; exact ⟨hx, fun x hm => hsent x (by simpa [reported] using hm)⟩
    | some p =>
      refine ⟨by simp only [send, hp]; exact hx, ?_⟩
      intro x hm
      exact h x (by rw [← send_reported hp t]; exact hm)
  · intro t d _
    apply modify_cases s t d (fun v => v.excl = excl ∧ ∀ x ∈ reported v, Allowed deny excl x)
    · exact ⟨hx, h⟩
    · intro p hp
      refine ⟨hx, fun x hm => h x ?_⟩
      simpa [reported, hp, List.flatMap_append] using hm
    · intro _; exact ⟨hx, h⟩
    · intro _ _ _; exact ⟨hx, h⟩
    · intro _ _; exact ⟨hx, h⟩
  · intro _; exact ⟨hx, h⟩
  · exact ⟨hx, h⟩

/-- **C94.** For every subscription and every sequence of events: no notification has an edit with an excluded operation or of a
node the user may not read. -/
theorem only_asked (deny : Node → Bool) (damp : Nat) (excl : YpOp → Bool) (es : List Ev) :
    ∀ n ∈ (run deny (init damp excl) es).sent, ∀ e ∈ n.edits, deny e.node = false ∧ excl e.op = false := by
  have key : ∀ (es : List Ev) (s : St), s.excl = excl → (∀ e ∈ reported s, Allowed deny excl e) →
      ∀ e ∈ reported (run deny s es), Allowed deny excl e := by
    intro es
    induction es with
    | nil => intro s _ h; exact h
    | cons e es ih =>
      intro s hx h
      obtain ⟨h1, h2⟩ := reported_step deny excl s e hx h
      exact ih _ h1 h2
  intro n hn e he
  exact key es (init damp excl) rfl (by intro e he; cases he) e (by
    rw [reported_eq, List.mem_append]
    exact Or.inl (List.mem_flatMap.2 ⟨n, hn, he⟩))

example : (run (fun n => n == nA) (init 0 (fun o => o == .delete)) [.change 1 c1, .change 2 c2, .change 3 c4, .change 4 c3,
    .change 5 [{ op := .modified, node := nD, sub := fun _ => some ['x'] }]]).sent.map
      (fun n => n.edits.map (fun e => (e.op, e.node))) = [[(.insert, nL)], [(.replace, nD)]] := by decide +kernel

/-- The operation a change is to be reported with (RFC 8641, 3.7; RFC 8072, 2.5). -/
inductive Reports : Change → YpOp → Prop
  | create {c} : c.op = .created → c.uo = false → Reports c .create
  | insert {c} : c.op = .created → c.uo = true → Reports c .insert
  | replace {c} : c.op = .modified → Reports c .replace
  | delete {c} : c.op = .deleted → Reports c .delete
  | move {c} : c.op = .moved → Reports c .move

theorem reports_sr2yp {c : Change} {o : YpOp} (h : Reports c o) : sr2yp c = o := by
  cases h <;> simp_all [sr2yp]

/-- The edit of a change. -/
structure EditOf (c : Change) (o : YpOp) (e : Edit) : Prop where
  node : e.node = c.node
  op : e.op = o
  value : e.value = if o = .create ∨ o = .insert ∨ o = .replace then some c.sub else none
  first : e.first = true ↔ (o = .insert ∨ o = .move) ∧ c.prev = []

theorem editOf_mkEdit {c : Change} {o : YpOp} (h : Reports c o) (id : Nat) : EditOf c o (mkEdit id c) := by
  have h2 := reports_sr2yp h
  refine ⟨rfl, h2, ?_, ?_⟩
  · cases h <;> simp [mkEdit, h2]
  · cases h <;> simp [mkEdit, h2]

theorem append_keeps {s s' : St} {p : Pend} {c : Change} (h : append s p c = some s') {e : Edit} (he : e ∈ p.edits)
    (hn : e.node ≠ c.node) : e ∈ pend s' := by
  unfold append clearTarget at h
  by_cases hq : bothQuotes c.node = true
  · simp [hq] at h
  simp only [hq, Bool.false_eq_true, if_false] at h
  have h := Option.some.inj h
  rw [← h]
  simp only [pend, List.mem_append]
  exact Or.inl ((List.mem_eraseP_of_neg (by simpa using hn)).2 he)

theorem append_new (s : St) (p : Pend) (c : Change) (hq : bothQuotes c.node = false) :
    ∃ s', append s p c = some s' ∧ mkEdit s.editId c ∈ pend s' := by
  refine ⟨_, by simp only [append, clearTarget, hq, Bool.false_eq_true, if_false]; rfl, ?_⟩
  simp [pend]

/-- An edit of another node stays. -/
theorem loop_keep (deny : Node → Bool) (cs : List Change) : ∀ (last : Option (Op × Node)) (s : St),
    (∀ c ∈ cs, bothQuotes c.node = false) → ∀ e ∈ pend s, (∀ c ∈ cs, c.node ≠ e.node) →
    e ∈ pend (loop deny cs last s).1 := by
  induction cs with
  | nil => intro last s _ e he _; exact he
  | cons c cs ih =>
    intro last s hq e he hn
    have hq' : ∀ c ∈ cs, bothQuotes c.node = false := fun x hx => hq x (by simp [hx])
    have hn' : ∀ c ∈ cs, c.node ≠ e.node := fun x hx => hn x (by simp [hx])
    obtain ⟨s', hs', _⟩ := append_new (start s).1 (start s).2 c (hq c (by simp))
    unfold loop
    split
    · exact ih _ _ hq' e he hn'
    split
    · exact ih _ _ hq' e he hn'
    split
    · exact ih _ { s with exclCount := s.exclCount + 1 } hq' e he hn'
    · simp only [hs']
      exact ih _ _ hq' e (append_keeps hs' (by rw [start_pend]; exact he) (fun h => hn c (by simp) h.symm)) hn'

theorem loop_reports (deny : Node → Bool) (cs : List Change) : ∀ (last : Option (Op × Node)) (s : St),
    (∀ c ∈ cs, bothQuotes c.node = false) → (cs.map (·.node)).Nodup → ∀ c ∈ cs, ∀ o, Reports c o → deny c.node = false →
    s.excl o = false → (c.op = .created → (∀ n, last = some (.created, n) → ¬ (n <+: c.node ∧ n ≠ c.node)) ∧
      ∀ p ∈ cs, p.op = .created → ¬ (p.node <+: c.node ∧ p.node ≠ c.node)) →
    ∃ e ∈ pend (loop deny cs last s).1, EditOf c o e := by
  induction cs with
  | nil => intro _ _ _ _ c hc; cases hc
  | cons a cs ih =>
    intro last s hq hnd c hc o ho hd hx hno
    have hq' : ∀ c ∈ cs, bothQuotes c.node = false := fun x hx => hq x (by simp [hx])
    have hnd := List.nodup_cons.1 (show (a.node :: cs.map (·.node)).Nodup from hnd)
    obtain ⟨s', hs', hm'⟩ := append_new (start s).1 (start s).2 a (hq a (by simp))
    rcases List.mem_cons.1 hc with rfl | hc
    · have h2 : nested last c = false := by
        unfold nested
        split
        · rename_i n hop
          have := (hno hop).1 n rfl
          simp only [above, Bool.and_eq_false_iff, bne_eq_false_iff_eq]
          by_cases hp : n <+: c.node
          · right
            by_cases hne : n = c.node
            · exact hne
            · exact absurd ⟨hp, hne⟩ this
          · left; exact Bool.eq_false_iff.2 (fun h => hp (List.isPrefixOf_iff_prefix.1 h))
        · rfl
      have h3 : s.excl (sr2yp c) = false := by rw [reports_sr2yp ho]; exact hx
      refine ⟨mkEdit (start s).1.editId c, ?_, editOf_mkEdit ho _⟩
      unfold loop
      simp only [hd, h2, h3, hs', Bool.false_eq_true, if_false]
      refine loop_keep deny cs _ _ hq' _ hm' ?_
      intro x hxm he
      exact hnd.1 (List.mem_map.2 ⟨x, hxm, he⟩)
    · have hno' : c.op = .created → ∀ p ∈ cs, p.op = .created → ¬ (p.node <+: c.node ∧ p.node ≠ c.node) :=
        fun h p hp => (hno h).2 p (by simp [hp])
      have hlast : c.op = .created → ∀ n, some (a.op, a.node) = some (Op.created, n) → ¬ (n <+: c.node ∧ n ≠ c.node) := by
        intro h n hn
        cases h' : a.op <;> rw [h'] at hn <;> cases hn
        exact (hno h).2 a (by simp) h'
      unfold loop
      split
      · exact ih _ _ hq' hnd.2 c hc o ho hd hx (fun h => ⟨(hno h).1, hno' h⟩)
      split
      · exact ih _ _ hq' hnd.2 c hc o ho hd hx (fun h => ⟨(hno h).1, hno' h⟩)
      split
      · exact ih _ { s with exclCount := s.exclCount + 1 } hq' hnd.2 c hc o ho hd hx (fun h => ⟨hlast h, hno' h⟩)
      · simp only [hs']
        exact ih _ _ hq' hnd.2 c hc o ho hd (by rw [((start_same s).trans (append_same hs')).excl]; exact hx)
          (fun h => ⟨hlast h, hno' h⟩)

/-- **C94, partial.** For every state of a subscription and the changes of every commit, each node changed once and none with both
kinds of quotes in its path: every change the user may read, not excluded and not the creation of a node inside another created
one is sent or waits to be sent, with the right operation, target and value, and with *first* exactly when it is. Missing: the
point of the instance before. -/
theorem asked_reported_partial (deny : Node → Bool) (s : St) (t : Nat) (cs : List Change) (hc : s.crashed = false)
    (hq : ∀ c ∈ cs, bothQuotes c.node = false) (hn : (cs.map (·.node)).Nodup) (c : Change) (hm : c ∈ cs) (o : YpOp)
    (ho : Reports c o) (hd : deny c.node = false) (hx : s.excl o = false)
    (hno : c.op = .created → ∀ p ∈ cs, p.op = .created → p.node <+: c.node → p.node = c.node) :
    ∃ e ∈ reported (step deny s (.change t cs)), EditOf c o e := by
  obtain ⟨e, he, h⟩ := loop_reports deny cs none s hq hn c hm o ho hd hx
    (fun h => ⟨(by intro n hn; cases hn), fun p hp hpc h2 => h2.2 (hno h p hp hpc h2.1)⟩)
  have hr : ∃ e ∈ reported (loop deny cs none s).1, EditOf c o e :=
    ⟨e, by rw [reported_eq]; exact List.mem_append_right _ he, h⟩
  simp only [step, hc, Bool.false_eq_true, if_false, change]
  split
  · rename_i u hl
    rw [hl] at hr; exact hr
  · rename_i u hl
    rw [hl] at hr
    rw [finish_reported]; exact hr

example : ∃ c ∈ c2, Reports c .insert ∧ bothQuotes c.node = false ∧ (c2.map (·.node)).Nodup ∧
    ∀ p ∈ c2, p.op = .created → p.node <+: c.node → p.node = c.node := by
  refine ⟨_, List.mem_cons_self, .insert rfl rfl, by decide +kernel, by decide +kernel, ?_⟩
  intro p hp _ hpre
  simp only [c2, List.mem_cons, List.not_mem_nil, or_false] at hp
  rcases hp with rfl | rfl
  · rfl
  · exact absurd hpre (by decide +kernel)

/-- **Violation.** For every instance of a user-ordered list created or moved after another one: the point reported is the path of
the instance itself followed by the keys of the other one, never the path of the other one. -/
theorem point_wrong (id : Nat) (c : Change) (par : Node) (name keys : List Char) (hn : c.node = par ++ [name ++ keys])
    (hk : keys ≠ []) (hl : c.leafList = false) (ho : (c.op = .created ∧ c.uo = true) ∨ c.op = .moved) (hp : c.prev ≠ []) :
    (mkEdit id c).point = some (text c.node ++ c.prev) ∧ (mkEdit id c).point ≠ some (text (par ++ [name ++ c.prev])) := by
  have h1 : sr2yp c = .insert ∨ sr2yp c = .move := by
    rcases ho with ⟨h1, h2⟩ | h1
    · left; simp [sr2yp, h1, h2]
    · right; simp [sr2yp, h1]
  have h2 : (mkEdit id c).point = some (text c.node ++ c.prev) := by
    simp [mkEdit, h1, pointOf, hl, hp]
  refine ⟨h2, ?_⟩
  rw [h2]
  intro h
  have h := congrArg List.length (Option.some.inj h)
  have : 0 < keys.length := List.length_pos_iff.2 hk
  simp only [hn, text, List.flatMap_append, List.flatMap_cons, List.flatMap_nil, List.append_nil, List.length_append,
    List.length_cons] at h
  omega

example : (mkEdit 1 { op := .created, node := ["m:l[k='2']".toList], uo := true, prev := "[k='1']".toList }).point =
    some "/m:l[k='2'][k='1']".toList := by decide +kernel

end Verif.YpChange
