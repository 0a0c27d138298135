import Verif.SnDispatch
/-!
Lemmas for `SnDispatchProps`: the invariant.
-/
namespace Verif.SnDispatch

theorem upd_same {α : Type} (f : Nat → α) (x : Nat) (v : α) : upd f x v x = v := by simp [upd]
theorem upd_ne {α : Type} (f : Nat → α) {x y : Nat} (v : α) (h : y ≠ x) : upd f x v y = f y := by simp [upd, h]

/-- The invariant of a round. -/
structure RInv (s : St) (Z : List (Option Nat × Nat)) (x : Round) : Prop where
  len : x.revs.length = Z.length
  cnt : x.r = (x.revs.drop x.i).countP Rev.some
  ph : x.phase ≠ .start → ∃ v, x.revs[x.i]? = some v ∧ v.some = true
  it : ∀ j v, x.i ≤ j → x.revs[j]? = some v → v.some = true → ∃ f d, Z[j]? = some (some f, d)
  hp : ∀ j v f d p, x.i ≤ j → x.revs[j]? = some v → Z[j]? = some (some f, d) → s.fdt f = some p → v.hup = true →
    s.hup p = true ∧ (v.inp = false → s.queue p = [])
  cl : x.phase = .closing → ∀ v f d p, x.revs[x.i]? = some v → Z[x.i]? = some (some f, d) → s.fdt f = some p → v.hup = true →
    s.queue p = []

/-- The invariant; `Z`: descriptors with their callback data. -/
structure Inv (s : St) (Z : List (Option Nat × Nat)) : Prop where
  pf : s.arr.pfds = Z.map (·.1)
  da : s.arr.data = Z.map (·.2)
  co : s.arr.count = Z.length
  va : s.valid = Z.countP (fun z => z.1.isSome)
  own : ∀ f d, (some f, d) ∈ Z → ∃ p, s.fdt f = some p ∧ s.added p = some d
  uniq : Z.Pairwise (fun a b => a.1 = none ∨ a.1 ≠ b.1)
  kern : ∀ f p, s.fdt f = some p → s.rfd p = f ∧ p < s.npipes
  sent : ∀ p, s.sent p = passed s.log p ++ s.queue p
  mem : ∀ p d, s.added p = some d → Open s p → (some (s.rfd p), d) ∈ Z
  add : ∀ p d, s.added p = some d → p < s.npipes
  closed : ∀ p, p < s.npipes → ¬ Open s p → s.queue p = [] ∧ s.hup p = true ∧ ∃ d, s.added p = some d
  logOk : ∀ x ∈ s.log, s.added x.1 = some x.2.2
  round : ∀ x, s.round = some x → RInv s Z x
  ub : s.ub = false

theorem compact_eq (l1 l2 : List (Option Nat × Nat)) (fuel : Nat) (hf : l2.length ≤ fuel) :
    compact fuel l1.length ⟨(l1 ++ l2).map (·.1), (l1 ++ l2).map (·.2), (l1 ++ l2).length⟩ =
      ⟨(l1 ++ l2.filter (fun z => z.1.isSome)).map (·.1), (l1 ++ l2.filter (fun z => z.1.isSome)).map (·.2),
        (l1 ++ l2.filter (fun z => z.1.isSome)).length⟩ := by
  induction l2 generalizing l1 fuel with
  | nil =>
    cases fuel with
    | zero => simp [compact]
    | succ n => simp [compact]
  | cons z l2 ih =>
    cases fuel with
    | zero => simp at hf
    | succ n =>
      have hf' : l2.length ≤ n := by simpa using hf
      rw [compact]
      have h1 : l1.length < (l1 ++ z :: l2).length := by simp
      rw [if_pos h1]
      have h2 : ((l1 ++ z :: l2).map (·.1))[l1.length]? = some z.1 := by simp
      simp only [h2]
      cases hz : z.1 with
      | none =>
        rw [if_pos rfl]
        have e1 : ((l1 ++ z :: l2).map (·.1)).eraseIdx l1.length = (l1 ++ l2).map (·.1) := by
          rw [List.map_append, List.eraseIdx_append_of_length_le (by simp)]
          simp
        have e2 : ((l1 ++ z :: l2).map (·.2)).eraseIdx l1.length = (l1 ++ l2).map (·.2) := by
          rw [List.map_append, List.eraseIdx_append_of_length_le (by simp)]
          simp
        have e3 : (l1 ++ z :: l2).length - 1 = (l1 ++ l2).length := by simp
        rw [e1, e2, e3, ih l1 n hf']
        simp [hz]
      | some f =>
        rw [if_neg (by simp)]
        have := ih (l1 ++ [z]) n hf'
        simp only [List.append_assoc, List.cons_append, List.nil_append, List.length_append, List.length_cons, List.length_nil] at this
        simp only [List.length_append, List.length_cons] at this ⊢
        rw [Nat.zero_add] at this
        rw [this]
        simp [hz]

theorem addArr_eq {a : Arr} {Z : List (Option Nat × Nat)} {v f d : Nat} (hp : a.pfds = Z.map (·.1)) (hd : a.data = Z.map (·.2))
    (hc : a.count = Z.length) (hv : v = Z.countP (fun z => z.1.isSome)) :
    addArr a v f d = ⟨(Z.filter (fun z => z.1.isSome) ++ [(some f, d)]).map (·.1),
      (Z.filter (fun z => z.1.isSome) ++ [(some f, d)]).map (·.2), (Z.filter (fun z => z.1.isSome) ++ [(some f, d)]).length⟩ := by
  have hfl : (Z.filter (fun z => z.1.isSome)).length = v := by rw [hv, List.countP_eq_length_filter]
  have key : (if v < a.count then compact a.count 0 a else a) = ⟨(Z.filter (fun z => z.1.isSome)).map (·.1),
      (Z.filter (fun z => z.1.isSome)).map (·.2), (Z.filter (fun z => z.1.isSome)).length⟩ := by
    obtain ⟨ap, ad, ac⟩ := a
    simp only at hp hd hc
    subst hp hd hc
    split
    · have := compact_eq [] Z Z.length (Nat.le_refl _)
      simpa using this
    · rename_i h
      simp only at h
      have hle : Z.countP (fun z => z.1.isSome) ≤ Z.length := List.countP_le_length
      have : Z.filter (fun z => z.1.isSome) = Z := by
        rw [List.filter_eq_self]
        rw [← List.countP_eq_length]
        omega
      rw [this]
  unfold addArr
  simp only [key]
  simp only [resize, List.length_map, hfl, Nat.add_sub_cancel_left, List.replicate_one]
  have t1 : ∀ {α : Type} (l : List α) (x y : α), l.length = v → (l.take (v + 1) ++ [x]).set v y = l ++ [y] := by
    intro α l x y hl
    rw [List.take_of_length_le (by omega), List.set_append_right _ _ (by omega), hl]
    simp
  rw [t1 _ _ _ (by simp [hfl]), t1 _ _ _ (by simp [hfl])]
  simp [hfl]

theorem passed_append (l : List (Nat × Nat × Nat)) (p q m d : Nat) :
    passed (l ++ [(q, m, d)]) p = if q = p then passed l p ++ [m] else passed l p := by
  unfold passed
  rw [List.filter_append]
  by_cases h : q = p <;> simp [h]

theorem inv_create {s : St} {Z : List (Option Nat × Nat)} (h : Inv s Z) {f : Nat} (hf : s.fdt f = none) :
    Inv { s with fdt := upd s.fdt f (some s.npipes), rfd := upd s.rfd s.npipes f, npipes := s.npipes + 1 } Z := by
  have hop : ∀ p, p < s.npipes → (Open { s with fdt := upd s.fdt f (some s.npipes), rfd := upd s.rfd s.npipes f, npipes := s.npipes + 1 } p ↔ Open s p) := by
    intro p hp
    unfold Open
    simp only
    rw [upd_ne s.rfd f (by omega : p ≠ s.npipes)]
    by_cases e : s.rfd p = f
    · rw [e, upd_same, hf]; simp; omega
    · rw [upd_ne _ _ e]
  have hfd : ∀ g d, (some g, d) ∈ Z → g ≠ f := by
    intro g d hg e
    obtain ⟨p, hp, _⟩ := h.own g d hg
    rw [e, hf] at hp; cases hp
  refine ⟨h.pf, h.da, h.co, h.va, ?_, h.uniq, ?_, h.sent, ?_, ?_, ?_, h.logOk, ?_, h.ub⟩
  · intro g d hg
    obtain ⟨p, hp, ha⟩ := h.own g d hg
    exact ⟨p, by simp only; rw [upd_ne _ _ (hfd g d hg)]; exact hp, ha⟩
  · intro g p hg
    simp only at hg ⊢
    by_cases e : g = f
    · rw [e, upd_same] at hg; cases hg
      exact ⟨by rw [upd_same, e], by omega⟩
    · rw [upd_ne _ _ e] at hg
      have := h.kern g p hg
      exact ⟨by rw [upd_ne _ _ (by omega)]; exact this.1, by omega⟩
  · intro p d ha ho
    have hp := h.add p d ha
    simp only
    rw [upd_ne _ _ (by omega)]
    exact h.mem p d ha ((hop p hp).1 ho)
  · intro p d ha
    have := h.add p d ha
    simp only; omega
  · intro p hp hno
    simp only at hp
    by_cases e : p = s.npipes
    · exact absurd (by subst e; simp [Open, upd]) hno
    · have hp' : p < s.npipes := by omega
      exact h.closed p hp' (fun ho => hno ((hop p hp').2 ho))
  · intro x hx
    have r := h.round x hx
    refine ⟨r.len, r.cnt, r.ph, r.it, ?_, ?_⟩
    · intro j v g d p hj hv hz hg
      simp only at hg
      rw [upd_ne _ _ (hfd g d (List.mem_of_getElem? hz))] at hg
      exact r.hp j v g d p hj hv hz hg
    · intro hc v g d p hv hz hg
      simp only at hg
      rw [upd_ne _ _ (hfd g d (List.mem_of_getElem? hz))] at hg
      exact r.cl hc v g d p hv hz hg

theorem inv_send {s : St} {Z : List (Option Nat × Nat)} (h : Inv s Z) {p m : Nat} (hp : p < s.npipes) (hh : s.hup p = false) :
    Inv { s with queue := upd s.queue p (s.queue p ++ [m]), sent := upd s.sent p (s.sent p ++ [m]) } Z := by
  refine ⟨h.pf, h.da, h.co, h.va, h.own, h.uniq, h.kern, ?_, h.mem, h.add, ?_, h.logOk, ?_, h.ub⟩
  · intro q
    simp only
    by_cases e : q = p
    · subst e; rw [upd_same, upd_same, h.sent]; simp
    · rw [upd_ne _ _ e, upd_ne _ _ e]; exact h.sent q
  · intro q hq hno
    have := h.closed q hq hno
    have e : q ≠ p := by intro e; subst e; rw [hh] at this; simp at this
    simp only
    rw [upd_ne _ _ e]; exact this
  · intro x hx
    have r := h.round x hx
    have key : ∀ q, s.hup q = true → upd s.queue p (s.queue p ++ [m]) q = s.queue q := by
      intro q hq
      exact upd_ne _ _ (by intro e; subst e; rw [hh] at hq; cases hq)
    refine ⟨r.len, r.cnt, r.ph, r.it, ?_, ?_⟩
    · intro j v g d q hj hv hz hg hu
      have := r.hp j v g d q hj hv hz hg hu
      simp only
      rw [key q this.1]; exact this
    · intro hc v g d q hv hz hg hu
      have := r.hp x.i v g d q (Nat.le_refl _) hv hz hg hu
      simp only
      rw [key q this.1]; exact r.cl hc v g d q hv hz hg hu

theorem inv_hangup {s : St} {Z : List (Option Nat × Nat)} (h : Inv s Z) (p : Nat) : Inv { s with hup := upd s.hup p true } Z := by
  have key : ∀ q, s.hup q = true → upd s.hup p true q = true := by
    intro q hq
    by_cases e : q = p
    · rw [e, upd_same]
    · rw [upd_ne _ _ e]; exact hq
  refine ⟨h.pf, h.da, h.co, h.va, h.own, h.uniq, h.kern, h.sent, h.mem, h.add, ?_, h.logOk, ?_, h.ub⟩
  · intro q hq hno
    have := h.closed q hq hno
    exact ⟨this.1, key q this.2.1, this.2.2⟩
  · intro x hx
    have r := h.round x hx
    exact ⟨r.len, r.cnt, r.ph, r.it,
      fun j v g d q hj hv hz hg hu => ⟨key q (r.hp j v g d q hj hv hz hg hu).1, (r.hp j v g d q hj hv hz hg hu).2⟩, r.cl⟩

theorem inv_done {s : St} {Z : List (Option Nat × Nat)} (h : Inv s Z) (g : Nat → Bool) : Inv { s with done := g } Z :=
  ⟨h.pf, h.da, h.co, h.va, h.own, h.uniq, h.kern, h.sent, h.mem, h.add, h.closed, h.logOk,
    fun x hx => let r := h.round x hx; ⟨r.len, r.cnt, r.ph, r.it, r.hp, r.cl⟩, h.ub⟩

theorem inv_add {s : St} {Z : List (Option Nat × Nat)} (h : Inv s Z) {f d p : Nat} (hr : s.round = none) (hf : s.fdt f = some p)
    (ha : s.added p = none) :
    Inv { s with arr := addArr s.arr s.valid f d, valid := s.valid + 1, added := upd s.added p (some d) }
      (Z.filter (fun z => z.1.isSome) ++ [(some f, d)]) := by
  have hnot : ∀ d', (some f, d') ∉ Z := by
    intro d' hm
    obtain ⟨q, hq, hqa⟩ := h.own f d' hm
    rw [hf] at hq; cases hq
    rw [ha] at hqa; cases hqa
  have harr := addArr_eq (f := f) (d := d) h.pf h.da h.co h.va
  refine ⟨?_, ?_, ?_, ?_, ?_, ?_, h.kern, h.sent, ?_, ?_, ?_, ?_, ?_, h.ub⟩
  · simp only [harr]
  · simp only [harr]
  · simp only [harr]
  · simp only
    rw [List.countP_append, List.countP_filter, h.va]
    simp
  · intro g d' hg
    rcases List.mem_append.1 hg with hg | hg
    · obtain ⟨q, hq, hqa⟩ := h.own g d' (List.mem_filter.1 hg).1
      refine ⟨q, hq, ?_⟩
      simp only
      rw [upd_ne _ _ (by intro e; subst e; rw [ha] at hqa; cases hqa)]; exact hqa
    · simp at hg
      obtain ⟨rfl, rfl⟩ := hg
      exact ⟨p, hf, by simp [upd_same]⟩
  · rw [List.pairwise_append]
    refine ⟨h.uniq.filter _, by simp, ?_⟩
    intro a hm b hb
    simp at hb
    subst hb
    right
    intro e
    have := (List.mem_filter.1 hm).1
    apply hnot a.2
    rw [← show a.1 = some f from e]; exact this
  · intro q d' hq ho
    simp only at hq
    by_cases e : q = p
    · subst e; rw [upd_same] at hq; cases hq
      have := (h.kern f q hf).1
      simp only [this]; simp
    · rw [upd_ne _ _ e] at hq
      exact List.mem_append.2 (Or.inl (List.mem_filter.2 ⟨h.mem q d' hq ho, rfl⟩))
  · intro q d' hq
    simp only at hq
    by_cases e : q = p
    · subst e; exact (h.kern f q hf).2
    · rw [upd_ne _ _ e] at hq; exact h.add q d' hq
  · intro q hq hno
    obtain ⟨c1, c2, d', c3⟩ := h.closed q hq hno
    refine ⟨c1, c2, d', ?_⟩
    simp only
    rw [upd_ne _ _ (by intro e; subst e; rw [ha] at c3; cases c3)]; exact c3
  · intro x hx
    have := h.logOk x hx
    simp only
    rw [upd_ne _ _ (by intro e; rw [e, ha] at this; cases this)]; exact this
  · intro x hx
    simp only [hr] at hx; cases hx

theorem inv_poll {s s' : St} {Z : List (Option Nat × Nat)} (h : Inv s Z) (hs : poll s = some s') : Inv s' Z := by
  unfold poll at hs
  split at hs
  · cases hs
  · cases hs
    refine ⟨h.pf, h.da, h.co, h.va, h.own, h.uniq, h.kern, h.sent, h.mem, h.add, h.closed, h.logOk, ?_, h.ub⟩
    intro x hx
    simp only [Option.some.injEq] at hx
    subst hx
    have hl : List.map (revOf s) (List.take s.arr.count s.arr.pfds) = Z.map (fun z => revOf s z.1) := by
      rw [h.pf, h.co, List.take_of_length_le (by simp), List.map_map]; rfl
    rw [hl]
    refine ⟨by simp, by simp, by simp, ?_, ?_, by simp⟩
    · intro j v _ hv hvs
      simp only [List.getElem?_map, Option.map_eq_some_iff] at hv
      obtain ⟨z, hz, rfl⟩ := hv
      obtain ⟨zf, zd⟩ := z
      cases zf with
      | none => simp [revOf, Rev.some] at hvs
      | some f => exact ⟨f, zd, hz⟩
    · intro j v f d p _ hv hz hf hu
      simp only at hf
      simp only [List.getElem?_map, hz, Option.map_some, Option.some.injEq] at hv
      subst hv
      simp only [revOf, hf] at hu ⊢
      refine ⟨hu, ?_⟩
      intro he
      simpa using he

theorem inv_skip {s : St} {Z : List (Option Nat × Nat)} (h : Inv s Z) {y : Option Round} (hy : ∀ x, y = some x → RInv s Z x) :
    Inv { s with round := y } Z :=
  ⟨h.pf, h.da, h.co, h.va, h.own, h.uniq, h.kern, h.sent, h.mem, h.add, h.closed, h.logOk,
    fun x hx => let r := hy x hx; ⟨r.len, r.cnt, r.ph, r.it, r.hp, r.cl⟩, h.ub⟩

theorem drop_countP {l : List Rev} {i : Nat} {v : Rev} (h : l[i]? = some v) :
    (l.drop i).countP Rev.some = (if v.some then 1 else 0) + (l.drop (i + 1)).countP Rev.some := by
  have hi : i < l.length := by
    rw [List.getElem?_eq_some_iff] at h; exact h.1
  have hv : l[i] = v := by rw [List.getElem?_eq_some_iff] at h; exact h.2
  rw [List.drop_eq_getElem_cons hi, List.countP_cons, hv]
  omega

theorem inv_read {s : St} {Z : List (Option Nat × Nat)} (h : Inv s Z) {x : Round} (hx : s.round = some x) {v : Rev}
    (hv : x.revs[x.i]? = some v) (hph : x.phase = .reading) {f d p m : Nat} {q : List Nat}
    (hz : Z[x.i]? = some (some f, d)) (hf : s.fdt f = some p) (hq : s.queue p = m :: q) :
    Inv { s with queue := upd s.queue p q, log := s.log ++ [(p, m, d)] } Z := by
  have r := h.round x hx
  have hadd : s.added p = some d := by
    obtain ⟨p', hp', ha'⟩ := h.own f d (List.mem_of_getElem? hz)
    rw [hf] at hp'; cases hp'; exact ha'
  have hsub : ∀ q', s.queue q' = [] → upd s.queue p q q' = [] := by
    intro q' hq'
    rw [upd_ne _ _ (by intro e; rw [e, hq] at hq'; cases hq')]; exact hq'
  refine ⟨h.pf, h.da, h.co, h.va, h.own, h.uniq, h.kern, ?_, h.mem, h.add, ?_, ?_, ?_, h.ub⟩
  · intro p'
    simp only
    rw [passed_append, h.sent]
    by_cases e : p' = p
    · subst e; rw [if_pos rfl, upd_same, hq]; simp
    · rw [if_neg (fun e' => e e'.symm), upd_ne _ _ e]
  · intro p' hp' hno
    have := h.closed p' hp' hno
    exact ⟨hsub p' this.1, this.2⟩
  · intro y hy
    rcases List.mem_append.1 hy with hy | hy
    · exact h.logOk y hy
    · simp at hy; subst hy; exact hadd
  · intro y hy
    simp only [hx, Option.some.injEq] at hy
    subst hy
    refine ⟨r.len, r.cnt, r.ph, r.it, ?_, ?_⟩
    · intro j w g d' p' hj hw hz' hg hu
      have := r.hp j w g d' p' hj hw hz' hg hu
      exact ⟨this.1, fun hi => hsub p' (this.2 hi)⟩
    · intro hc
      rw [hph] at hc; cases hc

theorem inv_close {s : St} {Z : List (Option Nat × Nat)} (h : Inv s Z) {x : Round} (hx : s.round = some x) {v : Rev}
    (hv : x.revs[x.i]? = some v) (hvs : v.some = true) (hph : x.phase = .closing) (hu : v.hup = true) {f d : Nat}
    (hz : Z[x.i]? = some (some f, d)) :
    Inv { s with fdt := upd s.fdt f none, arr := { s.arr with pfds := s.arr.pfds.set x.i none }, valid := s.valid - 1,
                 round := some ⟨x.i + 1, x.r - 1, x.revs, .start⟩ } (Z.set x.i (none, d)) := by
  have r := h.round x hx
  obtain ⟨p, hf, hadd⟩ := h.own f d (List.mem_of_getElem? hz)
  have hk := h.kern f p hf
  have hi : x.i < Z.length := (List.getElem?_eq_some_iff.1 hz).1
  have hzi : Z[x.i] = (some f, d) := (List.getElem?_eq_some_iff.1 hz).2
  -- another item has another descriptor
  have hoth : ∀ (j g e : Nat), (Z.set x.i (none, d))[j]? = some (some g, e) → g ≠ f ∧ Z[j]? = some (some g, e) := by
    intro j g e hj
    rw [List.getElem?_set] at hj
    split at hj
    · simp at hj
    · rename_i hne
      refine ⟨?_, hj⟩
      intro e'
      subst e'
      have hj' := List.getElem?_eq_some_iff.1 hj
      obtain ⟨hjl, hje⟩ := hj'
      have hu := List.pairwise_iff_getElem.1 h.uniq
      rcases Nat.lt_or_gt_of_ne hne with hlt | hgt
      · have := hu x.i j hi hjl hlt
        rw [hzi, hje] at this; simp at this
      · have := hu j x.i hjl hi hgt
        rw [hzi, hje] at this; simp at this
  have hoth' : ∀ g e, (some g, e) ∈ Z.set x.i (none, d) → g ≠ f ∧ (some g, e) ∈ Z := by
    intro g e hm
    obtain ⟨j, hj⟩ := List.mem_iff_getElem?.1 hm
    have := hoth j g e hj
    exact ⟨this.1, List.mem_of_getElem? this.2⟩
  have hop : ∀ q, s.fdt (s.rfd q) = some q → q ≠ p → s.rfd q ≠ f := by
    intro q hq hne e
    rw [e, hf] at hq; cases hq; exact hne rfl
  refine ⟨?_, ?_, ?_, ?_, ?_, ?_, ?_, h.sent, ?_, h.add, ?_, h.logOk, ?_, h.ub⟩
  · simp only [h.pf, List.map_set]
  · simp only [h.da, List.map_set]
    apply List.ext_getElem?
    intro j
    rw [List.getElem?_set]
    split
    · rename_i e; subst e; simp [hi, hzi]
    · rfl
  · simp [h.co]
  · simp only
    rw [List.countP_set hi, hzi, h.va]; simp
  · intro g e hm
    obtain ⟨hne, hm'⟩ := hoth' g e hm
    obtain ⟨q, hq, hqa⟩ := h.own g e hm'
    exact ⟨q, by simp only; rw [upd_ne _ _ hne]; exact hq, hqa⟩
  · rw [List.pairwise_iff_getElem]
    intro j k hj hk' hjk
    have hu := List.pairwise_iff_getElem.1 h.uniq j k (by simpa using hj) (by simpa using hk') hjk
    by_cases ej : x.i = j
    · subst ej; left; simp
    · by_cases ek : x.i = k
      · subst ek
        cases hzj : Z[j].1 with
        | none => left; rw [List.getElem_set_ne ej]; exact hzj
        | some g => right; rw [List.getElem_set_ne ej]; simp [hzj]
      · rw [List.getElem_set_ne ej, List.getElem_set_ne ek]; exact hu
  · intro g q hg
    simp only at hg ⊢
    by_cases e : g = f
    · rw [e, upd_same] at hg; cases hg
    · rw [upd_ne _ _ e] at hg; exact h.kern g q hg
  · intro q e hq ho
    unfold Open at ho
    simp only at ho hq ⊢
    have hrf : s.rfd q ≠ f := by intro e'; rw [e', upd_same] at ho; cases ho
    rw [upd_ne _ _ hrf] at ho
    have hm := h.mem q e hq ho
    obtain ⟨j, hj⟩ := List.mem_iff_getElem?.1 hm
    apply List.mem_iff_getElem?.2
    refine ⟨j, ?_⟩
    rw [List.getElem?_set_ne]
    · exact hj
    · intro e'; subst e'
      rw [hz] at hj
      simp at hj
      exact hrf hj.1.symm
  · intro q hq hno
    unfold Open at hno
    simp only at hno hq ⊢
    by_cases e : q = p
    · subst e
      exact ⟨r.cl hph v f d q hv hz hf hu, (r.hp x.i v f d q (Nat.le_refl _) hv hz hf hu).1, d, hadd⟩
    · apply h.closed q hq
      intro ho
      rw [upd_ne _ _ (hop q ho e)] at hno
      exact hno ho
  · intro y hy
    simp only [Option.some.injEq] at hy
    subst hy
    refine ⟨by simp [r.len], ?_, by simp, ?_, ?_, by simp⟩
    · simp only
      rw [r.cnt, drop_countP hv, hvs]; simp
    · intro j w hj hw hws
      obtain ⟨g, e, hg⟩ := r.it j w (by simp only at hj; omega) hw hws
      refine ⟨g, e, ?_⟩
      rw [List.getElem?_set_ne (by simp only at hj; omega)]; exact hg
    · intro j w g e q hj hw hz' hg hu'
      simp only at hj hg
      rw [List.getElem?_set_ne (by omega)] at hz'
      have hne : g ≠ f := (hoth j g e (by rw [List.getElem?_set_ne (by omega)]; exact hz')).1
      rw [upd_ne _ _ hne] at hg
      exact r.hp j w g e q (by omega) hw hz' hg hu'

theorem inv_item {s : St} {Z : List (Option Nat × Nat)} (h : Inv s Z) {x : Round} (hx : s.round = some x) :
    ∃ Z', Inv (item s x) Z' := by
  have r := h.round x hx
  unfold item
  split
  · exact ⟨Z, inv_skip h (fun y hy => by cases hy)⟩
  · rename_i hr0
    have hlt : x.i < x.revs.length := by
      apply Classical.byContradiction
      intro hge
      rw [r.cnt, List.drop_of_length_le (by omega)] at hr0
      simp at hr0
    have hv : x.revs[x.i]? = some x.revs[x.i] := List.getElem?_eq_getElem hlt
    have hlz : x.i < Z.length := by rw [← r.len]; exact hlt
    have hp : s.arr.pfds[x.i]? = some Z[x.i].1 := by rw [h.pf, List.getElem?_map, List.getElem?_eq_getElem hlz]; rfl
    have hd : s.arr.data[x.i]? = some Z[x.i].2 := by rw [h.da, List.getElem?_map, List.getElem?_eq_getElem hlz]; rfl
    generalize hvv : x.revs[x.i] = v at hv
    rw [hv, hp]
    simp only
    cases hph : x.phase with
    | start =>
      simp only
      split
      · rename_i hns
        refine ⟨Z, inv_skip h ?_⟩
        intro y hy
        simp only [Option.some.injEq] at hy
        subst hy
        refine ⟨r.len, ?_, fun hc => absurd rfl hc, ?_, ?_, ?_⟩
        · simp only
          rw [r.cnt, drop_countP hv]
          simp at hns
          simp [hns]
        · intro j w hj hw hws; exact r.it j w (by simp only at hj; omega) hw hws
        · intro j w g e q hj; exact r.hp j w g e q (by simp only at hj; omega)
        · intro hc; simp only at hc; cases hc
      · rename_i hns
        have hs : v.some = true := by simpa using hns
        refine ⟨Z, inv_skip h ?_⟩
        intro y hy
        simp only [Option.some.injEq] at hy
        subst hy
        refine ⟨r.len, r.cnt, fun _ => ⟨v, hv, hs⟩, r.it, r.hp, ?_⟩
        intro hc w f d p hw hz hf hu
        simp only at hc hw hz
        rw [hv] at hw; cases hw
        have := r.hp x.i v f d p (Nat.le_refl _) hv hz hf hu
        apply this.2
        split at hc
        · cases hc
        · rename_i hin; simpa using hin
    | reading =>
      obtain ⟨w, hw, hws⟩ := r.ph (by rw [hph]; simp)
      rw [hv] at hw; cases hw
      obtain ⟨f, d, hz⟩ := r.it x.i v (Nat.le_refl _) hv hws
      obtain ⟨p, hf, hadd⟩ := h.own f d (List.mem_of_getElem? hz)
      have hzi : Z[x.i] = (some f, d) := (List.getElem?_eq_some_iff.1 hz).2
      simp only [hzi, Option.bind_some, hf]
      cases hq : s.queue p with
      | nil =>
        simp only
        refine ⟨Z, inv_skip h ?_⟩
        intro y hy
        simp only [Option.some.injEq] at hy
        subst hy
        refine ⟨r.len, r.cnt, fun _ => ⟨v, hv, hws⟩, r.it, r.hp, ?_⟩
        intro _ w f' d' p' hw hz' hf' _
        simp only at hw hz'
        rw [hz] at hz'; simp at hz'
        obtain ⟨rfl, rfl⟩ := hz'
        rw [hf] at hf'; cases hf'; exact hq
      | cons m q =>
        rw [hd, hzi]
        exact ⟨Z, inv_read h hx hv hph hz hf hq⟩
    | closing =>
      obtain ⟨w, hw, hws⟩ := r.ph (by rw [hph]; simp)
      rw [hv] at hw; cases hw
      obtain ⟨f, d, hz⟩ := r.it x.i v (Nat.le_refl _) hv hws
      have hzi : Z[x.i] = (some f, d) := (List.getElem?_eq_some_iff.1 hz).2
      simp only [hzi]
      split
      · rename_i hu
        exact ⟨_, inv_close h hx hv hws hph hu hz⟩
      · refine ⟨Z, inv_skip h ?_⟩
        intro y hy
        simp only [Option.some.injEq] at hy
        subst hy
        refine ⟨r.len, ?_, by simp, ?_, ?_, by simp⟩
        · simp only
          rw [r.cnt, drop_countP hv, hws]; simp
        · intro j w hj hw hws; exact r.it j w (by simp only at hj; omega) hw hws
        · intro j w g e q hj; exact r.hp j w g e q (by simp only at hj; omega)

theorem inv_reach {t : Prop} {s : St} (h : Reach t s) : ∃ Z, Inv s Z := by
  induction h with
  | init =>
    exact ⟨[], rfl, rfl, rfl, rfl, by simp, by simp, by simp, fun _ => rfl, by simp, by simp, by simp, by simp, by simp, rfl⟩
  | @step s s' a hr ha hs ih =>
    obtain ⟨Z, h⟩ := ih
    cases a with
    | create f =>
      simp only [step] at hs
      split at hs
      · cases hs
      · rename_i hn; cases hs; exact ⟨Z, inv_create h (by simpa using hn)⟩
    | send p m =>
      simp only [step] at hs
      split at hs
      · rename_i hc; cases hs; exact ⟨Z, inv_send h hc.1 hc.2⟩
      · cases hs
    | hangup p =>
      simp only [step] at hs
      split at hs
      · cases hs; exact ⟨Z, inv_hangup h p⟩
      · cases hs
    | finish p =>
      simp only [step] at hs
      split at hs
      · cases hs; exact ⟨Z, inv_done h _⟩
      · cases hs
    | timeout p =>
      simp only [step] at hs
      split at hs
      · cases hs; exact ⟨Z, inv_done h _⟩
      · cases hs
    | add f d =>
      simp only [step] at hs
      split at hs
      · rename_i p hrd hf
        split at hs
        · cases hs
        · rename_i hn; cases hs; exact ⟨_, inv_add h hrd hf (by simpa using hn)⟩
      · cases hs
    | poll =>
      simp only [step] at hs
      split at hs
      · exact ⟨Z, inv_poll h hs⟩
      · cases hs
    | item =>
      simp only [step] at hs
      split at hs
      · cases hs
      · rename_i x hx
        rw [h.ub] at hs
        simp only [Bool.false_eq_true, if_false, Option.some.injEq] at hs
        subst hs
        exact inv_item h hx

end Verif.SnDispatch
