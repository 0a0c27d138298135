import Verif.EditAddOldLemmas
/-!
The invariant after a call and after several.
-/
namespace Verif.EditAdd
open Verif.Edit (Id Path Kind Op Tree Edit get)

theorem ether_below {K : Nat → Kind} {f g : Data} {hist : List Call} {es : List ENode} (I : Inv K f hist g es) {p r : Path} (hp : p ≠ [])
    (he : eff es p = some .ether) (hr : info es (p ++ r) ≠ none) : eff es (p ++ r) = some .ether ∨ Rem (eff es (p ++ r)) := by
  have ht : (p ++ r).take p.length = p := by simp
  have hl : (p ++ r).take (p ++ r).length = p ++ r := List.take_length
  have := ether_chain I (p := p ++ r) (b := p.length) (p ++ r).length (by simp) (Nat.le_refl _)
    (fun m h1 h2 => info_take h1 h2 (by simp [hp]) (by rw [hl]; exact hr)) (by rw [ht]; exact he)
  rwa [hl] at this

/-- The operation of a call for a node that is in the edit. -/
theorem mergeOp_cases {C : Cfg} {es es' : List ENode} {c : Call} {o : Op} {e : ENode} (he : eff es c.path = some o) (hn : nodeAt es c.path = some e)
    (h : mergeOp C es c = (es', true)) :
    (c.op = o ∧ es' = es) ∨ ((o = .ether ∨ o = .none) ∧ onlyOps c.op e.kids = true ∧ es' = setOp (some c.op) es c.path) ∨
    ((o = .merge ∨ o = .create) ∧ Rem (some c.op)) ∨ o = .replace ∨ o = .purge ∨ (Rem (some o) ∧ ∃ s sh p v, c = .set s sh p v) := by
  obtain ⟨own, hf⟩ : ∃ own, findOper es none c.path = some (o, own) := by
    simp only [eff] at he
    cases hf : findOper es none c.path with
    | none => rw [hf] at he; cases he
    | some x => rw [hf] at he; simp at he; exact ⟨x.2, by rw [← he]⟩
  simp only [mergeOp, hf, hn] at h
  split at h
  · next e1 => simp only [Prod.mk.injEq, and_true] at h; exact .inl ⟨e1, h.symm⟩
  · right
    cases o with
    | ether =>
      simp only at h
      split at h
      · next h1 => simp only [Prod.mk.injEq, and_true] at h; exact .inl ⟨.inl rfl, h1, h.symm⟩
      · simp at h
    | none =>
      simp only at h
      split at h
      · next h1 => simp only [Prod.mk.injEq, and_true] at h; exact .inl ⟨.inr rfl, h1, h.symm⟩
      · simp at h
    | merge =>
      simp only at h
      split at h
      · next h1 => exact .inr (.inl ⟨.inl rfl, by simpa [Rem] using h1⟩)
      · simp at h
    | create =>
      simp only at h
      split at h
      · next h1 => exact .inr (.inl ⟨.inr rfl, by simpa [Rem] using h1⟩)
      · simp at h
    | replace => exact .inr (.inr (.inl rfl))
    | purge => exact .inr (.inr (.inr (.inl rfl)))
    | remove =>
      refine .inr (.inr (.inr (.inr ⟨.inl rfl, ?_⟩)))
      cases c with
      | set s sh p v => exact ⟨s, sh, p, v, rfl⟩
      | del s p => simp at h
    | delete =>
      refine .inr (.inr (.inr (.inr ⟨.inr rfl, ?_⟩)))
      cases c with
      | set s sh p v => exact ⟨s, sh, p, v, rfl⟩
      | del s p => simp at h

/-- A descendant with its own operation. -/
theorem own_tip {K : Nat → Kind} {f g : Data} {hist : List Call} {es : List ENode} (I : Inv K f hist g es) {p : Path} {e : ENode} {o : Op}
    (hn : nodeAt es p = some e) (he : eff es p = some .none ∨ eff es p = some .ether) (ho : onlyOps o e.kids = true) :
    ∃ r, info es (p ++ r) ≠ none ∧ eff es (p ++ r) = some o := by
  have hp : p ≠ [] := by rintro rfl; simp at hn
  have hx : info es p = some (e.op, e.val) := by simp [info, hn]
  obtain ⟨r, h1, h2⟩ := has_tip e es p hn
  have hr : r ≠ [] := by
    rintro rfl
    refine (inner_of_none I hx he).2 (fun j => ?_)
    simpa using h2 j
  obtain ⟨⟨o', v⟩, hy⟩ := Option.ne_none_iff_exists'.mp h1
  have ht := I.tip _ o' v hy h2
  have hon := only_kids o e.kids ho r (o', v) (by
    rw [info_append es hp hr, hn] at hy
    simpa using hy)
  refine ⟨r, h1, ?_⟩
  rcases hon with h | h
  · simp only at h; subst h; simp at ht
  · simp only at h; subst h; exact eff_of_own hy

theorem nodeAt_setVal {es : List ENode} {p : Path} {w : Nat} {e : ENode} (h : nodeAt es p = some e) :
    nodeAt (alter (fun e => .mk e.id e.op (some w) e.kids) es p) p = some (.mk e.id e.op (some w) e.kids) := by
  have := (nodeAt_alter (f := fun e => .mk e.id e.op (some w) e.kids) (fun e => rfl) p es []).1
  simp only [this, h, Option.map_some]

theorem eff_setVal {es : List ENode} {p : Path} {w : Nat} (q : Path) :
    eff (alter (fun e => .mk e.id e.op (some w) e.kids) es p) q = eff es q := by
  refine eff_ops (fun q => ?_) q
  rw [info_setVal]
  split
  · next e => rw [e]; cases info es p <;> rfl
  · rfl

theorem step_set {C : Cfg} {f g g' : Data} {hist : List Call} {es es' : List ENode} {s sh : Bool} {p : Path} {v : Nat} {e : ENode}
    (I : Inv C.K f hist g es) (hfv : Valued C.K f) (hv : Valid C.K (.set s sh p v)) (ho : InOrder hist g (.set s sh p v))
    (he : effect C.K g (.set s sh p v) = some g') (hn : nodeAt es p = some e) (ha : add C es (.set s sh p v) = (es', true)) :
    Inv C.K f (.set s sh p v :: hist) g' es' := by
  obtain ⟨hip, hv0⟩ := hv
  have hp := hip.1
  obtain ⟨e1, e2, e3, e4, e5⟩ := effect_set he
  have hx : info es p = some (e.op, e.val) := by simp [info, hn]
  have hpres : info es p ≠ none := by rw [hx]; simp
  obtain ⟨o, heff⟩ := eff_some_of_info I.top p hpres
  have hsem := I.sem p o _ _ heff hx
  have hk := kind_of (K := C.K) hn
  have hnr : ¬ Rem (some o) := by
    intro hr
    obtain ⟨s', r, h1, h2⟩ := I.deleted p (by rw [heff]; exact hr)
    exact ho s' r h1 h2
  have hsame : g p ≠ none → ∀ q, q ≠ p → g' q = g q := by
    intro hgn q hq
    by_cases hq0 : q = []
    · exact e5 q hq (.inl hq0)
    · by_cases hqp : q <+: p
      · exact e5 q hq (.inr (.inr (closed_prefix I.closed hq0 hqp hgn)))
      · exact e5 q hq (.inr (.inl hqp))
  simp only [add, Call.path, hn] at ha
  -- the edit with the new value
  obtain ⟨es1, e', hes1, hn1, hk1, heff1⟩ : ∃ es1 e', mergeOp C es1 (.set s sh p v) = (es', true) ∧ nodeAt es1 p = some e' ∧ e'.kids = e.kids ∧
      eff es1 p = some o ∧ (if C.K e.id.1 = .leaf ∧ e.val ≠ none then es1 = alter (fun e => .mk e.id e.op (some v) e.kids) es p else es1 = es) := by
    split at ha
    · next hc => exact ⟨_, _, ha, nodeAt_setVal hn, rfl, by rw [eff_setVal]; exact heff, by rw [if_pos hc]⟩
    · next hc => exact ⟨es, e, ha, hn, rfl, heff, by rw [if_neg hc]⟩
  obtain ⟨heff1, hdef⟩ := heff1
  rcases mergeOp_cases (c := .set s sh p v) heff1 hn1 hes1 with ⟨h1, h2⟩ | ⟨h1, h2, h3⟩ | ⟨_, h⟩ | h | h | ⟨h, _⟩
  · cases s with
    | true =>
      have : o = .create := by rw [← h1]; rfl
      subst this
      simp only [Sem] at hsem
      rcases e1 rfl with h | ⟨_, w, h⟩
      · rw [hsem.2] at h; cases h
      · rw [hsem.2] at h; cases h
    | false =>
      have : o = .merge := by rw [← h1]; rfl
      subst this
      simp only [Sem] at hsem
      have hgn : g p ≠ none := by rw [hsem]; simp
      have hs' := hsame hgn
      subst h2
      by_cases hl : C.K e.id.1 = .leaf
      · have hvn : e.val ≠ none := by
          intro hvn
          rw [hvn] at hx
          have := I.opaq p _ hx
          have hr : Rem (eff es p) := by
            rcases this with h | h
            · rw [h] at hx; rw [eff_of_own hx]; exact .inl rfl
            · rw [h] at hx; rw [eff_of_own hx]; exact .inr rfl
          rw [heff] at hr
          exact hnr hr
        rw [if_pos ⟨hl, hvn⟩] at hdef
        rw [hdef]
        rw [hl] at hk
        refine (inv_setVal I hk (effect_closed I.closed he) hs' (fun o' ho' => ?_) hpres).mono _
        rw [heff] at ho'; cases ho'
        simp only [Sem]
        rw [e3]
        cases g p <;> cases f p <;> simp [hk]
      · rw [if_neg (fun h => hl h.1)] at hdef
        subst hdef
        have hkl : kindAt C.K p ≠ some .leaf := by rw [hk]; simpa using hl
        have hgg : g' = g := by
          funext q
          by_cases hq : q = p
          · subst hq
            rw [e3, hsem, hv0 hkl, (I.shape _ _ _ hx).1 hkl]
            simp only [Option.getD_some, Option.any_some]
            congr 2
            cases f q with
            | none => simp
            | some x => by_cases h2 : kindAt C.K q = some .leaflist <;> simp [h2, hkl]
          · exact hs' q hq
        rw [hgg]
        exact I.mono _
  · rcases h1 with rfl | rfl
    · exfalso
      rw [hk1] at h2
      obtain ⟨r, h4, h5⟩ := own_tip I hn (.inr heff) h2
      have := ether_below I hp heff h4
      rw [h5] at this
      cases s <;> simp [Rem, Call.op] at this
    · have hin := (inner_of_none I hx (.inl heff)).1
      simp only [Sem] at hsem
      have hgn : g p ≠ none := by rw [hsem.1]; exact hsem.2
      have hs' := hsame hgn
      have hl : ¬ (C.K e.id.1 = .leaf ∧ e.val ≠ none) := by
        intro h; rw [h.1] at hk; exact hin.1 hk
      rw [if_neg hl] at hdef
      subst hdef
      have hgg : g' = g := by
        funext q
        by_cases hq : q = p
        · subst hq
          rw [e3]
          obtain ⟨x, hx⟩ := Option.ne_none_iff_exists'.mp hsem.2
          have := valued_inner hfv hin hx
          rw [hv0 hin.1, hsem.1, this]
          simp [hin.1, hin.2]
        · exact hs' q hq
      cases s with
      | true =>
        exfalso
        rcases e1 rfl with h | ⟨h, _⟩
        · exact hgn h
        · exact hin.1 h
      | false =>
        rw [hgg, h3]
        refine inv_set_none (c := .set false sh p v) I hfv rfl hpres heff (fun r x hr hxr => ?_)
        rw [hk1] at h2
        refine only_kids _ _ h2 r x ?_
        simp only [Call.path] at hxr
        rw [info_append _ hp hr, hn] at hxr
        simpa using hxr
  · cases s <;> simp [Rem, Call.op] at h
  · subst h; exact absurd hsem (by simp [Sem])
  · subst h; exact absurd hsem (by simp [Sem])
  · exact absurd h hnr

theorem step_del {C : Cfg} {f g g' : Data} {hist : List Call} {es es' : List ENode} {s : Bool} {p : Path} {e : ENode}
    (I : Inv C.K f hist g es) (hip : ItemPath C.K p) (ho : InOrder hist g (.del s p))
    (he : effect C.K g (.del s p) = some g') (hn : nodeAt es p = some e) (ha : add C es (.del s p) = (es', true)) :
    Inv C.K f (.del s p :: hist) g' es' := by
  have hp := hip.1
  obtain ⟨e1, e2, e3⟩ := effect_del he
  have hx : info es p = some (e.op, e.val) := by simp [info, hn]
  have hpres : info es p ≠ none := by rw [hx]; simp
  obtain ⟨o, heff⟩ := eff_some_of_info I.top p hpres
  have hsem := I.sem p o _ _ heff hx
  have hk := kind_of (K := C.K) hn
  have ho : ∀ c ∈ hist, c.path.head? = p.head? → ∃ r, c = .del false r := by
    rcases ho with ⟨_, ho⟩ | ho
    · obtain ⟨c, hc, hpc⟩ := I.asked p hpres
      exact absurd hpc (ho c hc)
    · exact ho
  have hops : ∀ r o', eff es (p ++ r) = some o' → o' = .ether ∨ o' = .remove := by
    intro r o' heff'
    by_cases h3 : o' = .ether ∨ o' = .remove
    · exact h3
    · obtain ⟨c, hc, hh, hr⟩ := I.made _ o' heff' (fun e => h3 (.inl e)) (fun e => h3 (.inr e))
      have : (p ++ r).head? = p.head? := by
        cases p with
        | nil => exact absurd rfl hp
        | cons i p => simp
      rw [this] at hh
      obtain ⟨r', hr'⟩ := ho c hc hh
      exact absurd hr' (hr r')
  have hoo := hops [] o (by simpa using heff)
  have hgg : o = .remove → g' = g := by
    rintro rfl
    have hgn : g p = none := hsem
    funext q
    by_cases hq : p <+: q
    · rw [e2 q hq]
      obtain ⟨r, rfl⟩ := hq
      exact (I.closed p r hp hgn).symm
    · exact e3 q hq
  simp only [add, Call.path, hn] at ha
  obtain ⟨es1, e', hes1, hn1, hk1, heff1⟩ : ∃ es1 e', mergeOp C es1 (.del s p) = (es', true) ∧ nodeAt es1 p = some e' ∧ e'.kids = e.kids ∧
      eff es1 p = some o ∧ (if C.K e.id.1 = .leaf ∧ e.val ≠ none then es1 = alter (fun e => .mk e.id e.op (some C.empty) e.kids) es p else es1 = es) := by
    split at ha
    · next hc =>
      split at ha
      · exact ⟨_, _, ha, nodeAt_setVal hn, rfl, by rw [eff_setVal]; exact heff, by rw [if_pos hc]⟩
      · simp at ha
    · next hc => exact ⟨es, e, ha, hn, rfl, heff, by rw [if_neg hc]⟩
  obtain ⟨heff1, hdef⟩ := heff1
  rcases mergeOp_cases (c := .del s p) heff1 hn1 hes1 with ⟨h1, h2⟩ | ⟨h1, h2, h3⟩ | ⟨h, _⟩ | h | h | ⟨_, s', sh', p', v', h⟩
  · have : s = false ∧ o = .remove := by
      cases s with
      | true => rw [← h1] at hoo; simp [Call.op] at hoo
      | false => exact ⟨rfl, by rw [← h1]; rfl⟩
    obtain ⟨rfl, rfl⟩ := this
    have hgg := hgg rfl
    subst h2
    rw [hgg]
    split at hdef
    · next hc =>
      rw [hdef]
      rw [hc.1] at hk
      refine (inv_setVal I hk I.closed (fun _ _ => rfl) (fun o' ho' => ?_) hpres).mono _
      rw [heff] at ho'; cases ho'
      exact hsem
    · subst hdef; exact I.mono _
  · rw [hk1] at h2
    have he' : eff es p = some .none ∨ eff es p = some .ether := by
      rcases h1 with rfl | rfl
      · exact .inr heff
      · exact .inl heff
    obtain ⟨r, h4, h5⟩ := own_tip I hn he' h2
    have hoe : o = .ether := by
      rcases h1 with h | h
      · exact h
      · rw [h] at hoo; simp at hoo
    subst hoe
    cases s with
    | true => have := hops r _ h5; simp [Call.op] at this
    | false =>
      have hin := (inner_of_none I hx (.inr heff)).1
      have hl : ¬ (C.K e.id.1 = .leaf ∧ e.val ≠ none) := by
        intro h; rw [h.1] at hk; exact hin.1 hk
      rw [if_neg hl] at hdef
      subst hdef
      rw [h3]
      refine inv_del_ether I hpres heff (fun r x hr hxr => ?_) (effect_closed I.closed he) e2 e3
      refine only_kids _ _ h2 r x ?_
      rw [info_append _ hp hr, hn] at hxr
      simpa using hxr
  · rcases h with rfl | rfl <;> simp at hoo
  · subst h; simp at hoo
  · subst h; simp at hoo
  · cases h

theorem step {C : Cfg} {f g g' : Data} {hist : List Call} {es es' : List ENode} {c : Call}
    (I : Inv C.K f hist g es) (hf : Closed f) (hfv : Valued C.K f) (hv : Valid C.K c) (ho : InOrder hist g c)
    (he : effect C.K g c = some g') (ha : add C es c = (es', true)) : Inv C.K f (c :: hist) g' es' := by
  cases c with
  | set s sh p v =>
    cases hn : nodeAt es p with
    | some e => exact step_set I hfv hv ho he hn ha
    | none =>
      obtain ⟨a, k, A⟩ := add_absent (c := .set s sh p v) hv.1.1 (by simp [info, Call.path, hn]) I.top (.inr (fun m h1 h2 hr => by
        obtain ⟨s', r, h1, h2⟩ := I.deleted _ (.inl hr)
        exact ho s' r h1 (h2.trans (List.take_prefix _ _)))) ha
      exact inv_set_absent I hf hfv hv ho he A
  | del s p =>
    cases hn : nodeAt es p with
    | some e => exact step_del I hv ho he hn ha
    | none =>
      obtain ⟨a, k, A⟩ := add_absent (c := .del s p) hv.1 (by simp [info, Call.path, hn]) I.top (by
        cases hs : s with
        | false => exact .inl rfl
        | true =>
          right
          intro m h1 h2 hr
          have hg := (effect_del he).1 hs
          exact closed_prefix I.closed (take_ne_nil h1 hv.1) (List.take_prefix _ _) hg.1 (rem_none I (.inl hr)).2) ha
      refine inv_del_absent I hf hfv hv ho (fun hkl => ?_) he A
      simp only [newVal]
      cases hg : p.getLast? with
      | none => rfl
      | some i =>
        have : C.K i.1 ≠ .leaf := by simpa [kindAt, hg] using hkl
        simp [this]

theorem inv_empty {K : Nat → Kind} {f : Data} (hf : Closed f) : Inv K f [] f [] := by
  have hi : ∀ q, info ([] : List ENode) q = none := by intro q; cases q <;> simp [info, nodeAt]
  have he : ∀ q, eff ([] : List ENode) q = none := fun q => eff_absent (hi q)
  refine ⟨hf, ?_, ?_, ?_, ?_, ?_, ?_, ?_, ?_, ?_, ?_, ?_⟩ <;> intros <;> simp_all [Rem, Gone]

theorem steps {C : Cfg} {f : Data} (hf : Closed f) (hfv : Valued C.K f) : ∀ (cs hist : List Call) (g g' : Data) (es es' : List ENode),
    Inv C.K f hist g es → (∀ c ∈ cs, Valid C.K c) → Orderly C.K hist g cs → sequential C.K g cs = some g' → adds C es cs = some es' →
    ∃ hist', Inv C.K f hist' g' es'
  | [], hist, g, g', es, es', I, _, _, hs, ha => by
    simp only [sequential, Option.some.injEq] at hs
    simp only [adds, Option.some.injEq] at ha
    subst hs; subst ha
    exact ⟨hist, I⟩
  | c :: cs, hist, g, g', es, es', I, hv, ho, hs, ha => by
    simp only [sequential] at hs
    simp only [adds] at ha
    simp only [Orderly] at ho
    cases he : effect C.K g c with
    | none => simp [he] at hs
    | some g1 =>
      simp only [he, Option.bind_some] at hs
      split at ha
      · next h =>
        have hadd : add C es c = ((add C es c).1, true) := by rw [← h]
        exact steps hf hfv cs (c :: hist) g1 g' _ es' (step I hf hfv (hv c (by simp)) ho.1 he hadd)
          (fun c' h' => hv c' (List.mem_cons_of_mem _ h')) (ho.2 g1 he) hs ha
      · cases ha

end Verif.EditAdd
