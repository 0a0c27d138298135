import Verif.EditAddNewLemmas
/-!
The invariant after a call for an item that is in the edit already.
-/
namespace Verif.EditAdd
open Verif.Edit (Id Path Kind Op Tree Edit get)

/-! ### Nodes below a node -/

mutual
theorem only_node (o : Op) : ∀ (e : ENode), onlyOp o e = true → (e.op = none ∨ e.op = some o) ∧ ∀ r x, info e.kids r = some x → x.1 = none ∨ x.1 = some o
  | .mk i o' v kids, h => by
    simp only [onlyOp, Bool.and_eq_true, Bool.or_eq_true, decide_eq_true_eq] at h
    exact ⟨h.1, only_kids o kids h.2⟩
theorem only_kids (o : Op) : ∀ (es : List ENode), onlyOps o es = true → ∀ r x, info es r = some x → x.1 = none ∨ x.1 = some o
  | [], _, r, x, hx => by cases r <;> simp [info, nodeAt] at hx
  | e :: es, h, [], x, hx => by simp at hx
  | e :: es, h, i :: r, x, hx => by
    simp only [onlyOps, Bool.and_eq_true] at h
    have h1 := only_node o e h.1
    have h2 := only_kids o es h.2 (i :: r) x
    by_cases hi : e.id = i
    · have hx' : (if r = [] then some e else nodeAt e.kids r).map (fun e => (e.op, e.val)) = some x := by
        simpa [info, nodeAt_cons, List.find?_cons, hi] using hx
      by_cases hr : r = []
      · simp only [hr, if_true, Option.map_some, Option.some.injEq] at hx'
        rw [← hx']; exact h1.1
      · simp only [hr, if_false] at hx'
        exact h1.2 r x hx'
    · refine h2 ?_
      simpa [info, nodeAt_cons, List.find?_cons, hi] using hx
end

/-- Every subtree has a node without children. -/
theorem has_tip : ∀ (e : ENode) (es : List ENode) (p : Path), nodeAt es p = some e → ∃ r, info es (p ++ r) ≠ none ∧ ∀ j, info es (p ++ r ++ [j]) = none
  | .mk i o v [], es, p, h => by
    have hp : p ≠ [] := by rintro rfl; simp at h
    refine ⟨[], by simp [info, h], fun j => ?_⟩
    rw [List.append_nil, info_append es hp (by simp), h]
    simp [info, nodeAt, ENode.kids]
  | .mk i o v (k :: ks), es, p, h => by
    have hp : p ≠ [] := by rintro rfl; simp at h
    have hk : nodeAt es (p ++ [k.id]) = some k := by
      rw [nodeAt_append es p _ hp (by simp), h]
      simp [nodeAt, ENode.kids]
    obtain ⟨r, h1, h2⟩ := has_tip k es (p ++ [k.id]) hk
    refine ⟨k.id :: r, ?_, fun j => ?_⟩
    · simpa using h1
    · simpa using h2 j

theorem nodeAt_id {es : List ENode} : ∀ {p : Path} {e : ENode}, nodeAt es p = some e → p.getLast? = some e.id := by
  intro p
  induction p generalizing es with
  | nil => intro e h; simp at h
  | cons i p ih =>
    intro e h
    rw [nodeAt_cons] at h
    cases hf : es.find? (fun e => e.id = i) with
    | none => simp [hf] at h
    | some e' =>
      simp only [hf, Option.bind_some] at h
      by_cases hp : p = []
      · subst hp
        simp only [if_true, Option.some.injEq] at h
        subst h
        simp [find_id hf]
      · simp only [hp, if_false] at h
        have := ih h
        cases p with
        | nil => exact absurd rfl hp
        | cons j p => rw [List.getLast?_cons_cons]; exact this

theorem kind_of {K : Nat → Kind} {es : List ENode} {p : Path} {e : ENode} (h : nodeAt es p = some e) : kindAt K p = some (K e.id.1) := by
  simp [kindAt, nodeAt_id h]

/-- Effective operations when only values differ. -/
theorem eff_ops {es es' : List ENode} (h : ∀ q, (info es' q).map (·.1) = (info es q).map (·.1)) : ∀ q, eff es' q = eff es q := by
  intro q
  generalize hn : q.length = n
  induction n generalizing q with
  | zero => have : q = [] := List.eq_nil_of_length_eq_zero hn
            simp [this]
  | succ n ih =>
    rcases List.eq_nil_or_concat q with rfl | ⟨q, j, rfl⟩
    · simp at hn
    · rw [List.concat_eq_append] at hn ⊢
      rw [eff_snoc, eff_snoc, ih q (by simpa using hn)]
      have := h (q ++ [j])
      cases hx : info es' (q ++ [j]) <;> cases hy : info es (q ++ [j]) <;> simp [hx, hy] at this
      · rfl
      · simp [this]

theorem eff_setOp {es : List ENode} {p : Path} {o : Op} (hpres : info es p ≠ none) :
    (∀ q, ¬ p <+: q → eff (setOp (some o) es p) q = eff es q) ∧
    ((∀ r x, r ≠ [] → info es (p ++ r) = some x → x.1 = none ∨ x.1 = some o) →
      ∀ r, info es (p ++ r) ≠ none → eff (setOp (some o) es p) (p ++ r) = some o) := by
  have hi := info_setOp (some o) es p
  obtain ⟨x, hx⟩ := Option.ne_none_iff_exists'.mp hpres
  have hp : p ≠ [] := by rintro rfl; simp at hx
  have hown : info (setOp (some o) es p) p = some (some o, x.2) := by rw [hi, if_pos rfl, hx]; rfl
  refine ⟨fun q hq => ?_, fun ho r => ?_⟩
  · have := eff_congr (es := es) (es' := setOp (some o) es p) (r := []) rfl q (fun t _ ht => by
      simp only [List.nil_append]
      rw [hi, if_neg]
      rintro rfl; exact hq ht)
    simpa using this
  · generalize hn : r.length = n
    induction n generalizing r with
    | zero =>
      intro _
      have : r = [] := List.eq_nil_of_length_eq_zero hn
      subst this
      rw [List.append_nil]; exact eff_of_own hown
    | succ n ih =>
      intro hr
      rcases List.eq_nil_or_concat r with rfl | ⟨r, j, rfl⟩
      · simp at hn
      · rw [List.concat_eq_append] at hn hr ⊢
        rw [← List.append_assoc] at hr ⊢
        have hpr := info_prefix (es := es) (q := p ++ r) (r := [j]) (by simp [hp]) hr
        have hprev := ih r (by simpa using hn) hpr
        obtain ⟨y, hy⟩ := Option.ne_none_iff_exists'.mp hr
        have hne : p ++ r ++ [j] ≠ p := by
          intro e; have := congrArg List.length e; simp at this
        rw [eff_snoc, hi, if_neg hne, hy, hprev]
        rcases ho (r ++ [j]) y (by simp) (by rw [← List.append_assoc]; exact hy) with h | h <;> simp [h]

/-- Operations below a node if all of its descendants have none or `o`. -/
theorem eff_below {es : List ENode} {p : Path} {o o1 : Op} (hp : p ≠ []) (h1 : eff es p = some o1)
    (ho : ∀ r x, r ≠ [] → info es (p ++ r) = some x → x.1 = none ∨ x.1 = some o) :
    ∀ r, info es (p ++ r) ≠ none → eff es (p ++ r) = some o1 ∨ eff es (p ++ r) = some o := by
  intro r
  generalize hn : r.length = n
  induction n generalizing r with
  | zero =>
    intro _
    have : r = [] := List.eq_nil_of_length_eq_zero hn
    subst this
    rw [List.append_nil]; exact .inl h1
  | succ n ih =>
    intro hr
    rcases List.eq_nil_or_concat r with rfl | ⟨r, j, rfl⟩
    · simp at hn
    · rw [List.concat_eq_append] at hn hr ⊢
      rw [← List.append_assoc] at hr ⊢
      have hpr := info_prefix (es := es) (q := p ++ r) (r := [j]) (by simp [hp]) hr
      have hprev := ih r (by simpa using hn) hpr
      obtain ⟨y, hy⟩ := Option.ne_none_iff_exists'.mp hr
      rw [eff_snoc, hy]
      rcases ho (r ++ [j]) y (by simp) (by rw [← List.append_assoc]; exact hy) with h | h
      · simpa [h] using hprev
      · simp [h]

/-! ### The same edit, or another value -/

theorem Inv.mono {K : Nat → Kind} {f g : Data} {hist : List Call} {es : List ENode} (I : Inv K f hist g es) (c : Call) : Inv K f (c :: hist) g es where
  closed := I.closed
  top := I.top
  shape := I.shape
  tip := I.tip
  down := I.down
  sem := I.sem
  gone := I.gone
  kept := I.kept
  made q o h1 h2 h3 := by obtain ⟨c', h, h'⟩ := I.made q o h1 h2 h3; exact ⟨c', List.mem_cons_of_mem _ h, h'⟩
  deleted q h := by obtain ⟨s, r, h1, h2⟩ := I.deleted q h; exact ⟨s, r, List.mem_cons_of_mem _ h1, h2⟩
  asked q h := by obtain ⟨c', h, h'⟩ := I.asked q h; exact ⟨c', List.mem_cons_of_mem _ h, h'⟩
  opaq := I.opaq

/-- Another value in a leaf. -/
theorem inv_setVal {K : Nat → Kind} {f g g' : Data} {hist : List Call} {es : List ENode} {p : Path} {w : Nat}
    (I : Inv K f hist g es) (hk : kindAt K p = some .leaf) (hcl : Closed g') (hg : ∀ q, q ≠ p → g' q = g q)
    (hs : ∀ o, eff es p = some o → Sem K f g' o w p) (hpres : info es p ≠ none) :
    Inv K f hist g' (alter (fun e => .mk e.id e.op (some w) e.kids) es p) := by
  have hi := info_setVal (some w) es p
  obtain ⟨es', hes'⟩ : ∃ es', alter (fun e => .mk e.id e.op (some w) e.kids) es p = es' := ⟨_, rfl⟩
  rw [hes'] at hi ⊢
  have hops : ∀ q, (info es' q).map (·.1) = (info es q).map (·.1) := by
    intro q; rw [hi]; split
    · next e => rw [e]; cases info es p <;> rfl
    · rfl
  have he := eff_ops hops
  have hsame : ∀ q, q ≠ p → info es' q = info es q := fun q hq => by rw [hi, if_neg hq]
  have hnone : ∀ q, info es' q = none ↔ info es q = none := by
    intro q
    have := hops q
    cases hx : info es' q <;> cases hy : info es q <;> simp [hx, hy] at this ⊢
  have hgo : ∀ q, Gone es' q ↔ Gone es q := by intro q; simp only [Gone, he]
  have hat : ∀ o v, info es' p = some (o, v) → v = some w ∧ ∃ v', info es p = some (o, v') := by
    intro o v h
    rw [hi, if_pos rfl] at h
    cases hx : info es p with
    | none => rw [hx] at h; cases h
    | some x => rw [hx] at h; cases h; exact ⟨rfl, x.2, rfl⟩
  have hold : ∀ q o v, info es' q = some (o, v) → ∃ v', info es q = some (o, v') := by
    intro q o v h
    by_cases e : q = p
    · subst e; exact (hat o v h).2
    · exact ⟨v, by rw [← hsame q e]; exact h⟩
  refine ⟨hcl, ?_, ?_, ?_, ?_, ?_, ?_, ?_, ?_, ?_, ?_, ?_⟩
  · intro i o v h; obtain ⟨v', h'⟩ := hold _ o v h; exact I.top i o v' h'
  · intro q o v h
    obtain ⟨v', h'⟩ := hold _ o v h
    refine ⟨fun hl => ?_, fun hn j => (hnone _).mpr ((I.shape q o v' h').2 hn j)⟩
    have : q ≠ p := by rintro rfl; exact hl hk
    rw [hsame q this] at h
    exact (I.shape q o v h).1 hl
  · intro q o v h ht
    obtain ⟨v', h'⟩ := hold _ o v h
    exact I.tip q o v' h' (fun j => (hnone _).mp (ht j))
  · intro q j o h; rw [he] at h; simp only [he]; exact I.down q j o h
  · intro q o o' v h1 h2
    rw [he] at h1
    by_cases e : q = p
    · subst e
      rw [(hat o' v h2).1]; exact hs o h1
    · rw [hsame q e] at h2
      exact (I.sem q o o' v h1 h2).congr (hg q e)
  · intro q h1 h2 h3
    have hq : q ≠ p := by rintro rfl; exact hpres ((hnone _).mp h2)
    rw [hg q hq]; exact I.gone q h1 ((hnone q).mp h2) ((hgo q).mp h3)
  · intro q h1 h2 h3
    have hq : q ≠ p := by rintro rfl; exact hpres ((hnone _).mp h2)
    rw [hg q hq]; exact I.kept q h1 ((hnone q).mp h2) (fun h => h3 ((hgo q).mpr h))
  · intro q o h; rw [he] at h; exact I.made q o h
  · intro q h; rw [he] at h; exact I.deleted q h
  · intro q h; exact I.asked q (fun e => h ((hnone q).mpr e))
  · intro q o h
    by_cases e : q = p
    · subst e; have := (hat o none h).1; cases this
    · rw [hsame q e] at h; exact I.opaq q o h

/-! ### Another operation -/

/-- An inner node without children has another operation than `ether` and `none`. -/
theorem inner_of_none {K : Nat → Kind} {f g : Data} {hist : List Call} {es : List ENode} (I : Inv K f hist g es) {q : Path} {o' : Option Op} {v : Option Nat}
    (hi : info es q = some (o', v)) (h : eff es q = some .none ∨ eff es q = some .ether) : Inner K q ∧ ¬ ∀ j, info es (q ++ [j]) = none := by
  have hnt : ¬ ∀ j, info es (q ++ [j]) = none := by
    intro ht
    have := I.tip q o' v hi ht
    rcases this with e | e | e | e <;> subst e <;> rw [eff_of_own hi] at h <;> simp at h
  refine ⟨?_, hnt⟩
  by_cases hn : Inner K q
  · exact hn
  · exact absurd ((I.shape q o' v hi).2 hn) hnt

/-- Setting a node that must exist so far. -/
theorem inv_set_none {K : Nat → Kind} {f g : Data} {hist : List Call} {es : List ENode} {c : Call}
    (I : Inv K f hist g es) (hfv : Valued K f) (hc : c.op = .merge) (hpres : info es c.path ≠ none) (he : eff es c.path = some .none)
    (ho : ∀ r x, r ≠ [] → info es (c.path ++ r) = some x → x.1 = none ∨ x.1 = some .merge) :
    Inv K f (c :: hist) g (setOp (some .merge) es c.path) := by
  obtain ⟨p, hpc⟩ : ∃ p, p = c.path := ⟨_, rfl⟩
  rw [← hpc] at hpres he ho ⊢
  obtain ⟨⟨o0, v0⟩, hx⟩ := Option.ne_none_iff_exists'.mp hpres
  have hp : p ≠ [] := by rintro rfl; simp at hx
  have hi := info_setOp (some .merge) es p
  obtain ⟨E1, E2⟩ := eff_setOp (o := .merge) hpres
  have E2 := E2 ho
  have E3 := eff_below hp he ho
  obtain ⟨es', hes'⟩ : ∃ es', setOp (some .merge) es p = es' := ⟨_, rfl⟩
  rw [hes'] at hi E1 E2 ⊢
  have hat : info es' p = some (some .merge, v0) := by rw [hi, if_pos rfl, hx]; rfl
  have hsame : ∀ q, q ≠ p → info es' q = info es q := fun q hq => by rw [hi, if_neg hq]
  have hnone : ∀ q, info es' q = none ↔ info es q = none := by
    intro q
    by_cases e : q = p
    · subst e; simp [hat, hx]
    · rw [hsame q e]
  have hv0 : v0 = some 0 := (I.shape p o0 v0 hx).1 (inner_of_none I hx (.inl he)).1.1
  have hrem : ∀ r, Rem (eff es' r) ↔ Rem (eff es r) := by
    intro r
    by_cases hr : p <+: r
    · obtain ⟨t, rfl⟩ := hr
      by_cases hn : info es (p ++ t) = none
      · rw [eff_absent hn, eff_absent ((hnone _).mpr hn)]
      · rw [E2 t hn]
        rcases E3 t hn with h | h <;> rw [h] <;> simp [Rem]
    · rw [E1 r hr]
  have hgo : ∀ q, Gone es' q ↔ Gone es q := by intro q; simp only [Gone, hrem]
  refine ⟨I.closed, ?_, ?_, ?_, ?_, ?_, ?_, ?_, ?_, ?_, ?_, ?_⟩
  · intro i o v h
    by_cases e : [i] = p
    · rw [e, hat] at h; cases h; simp
    · rw [hsame _ e] at h; exact I.top i o v h
  · intro q o v h
    by_cases e : q = p
    · subst e; rw [hat] at h; cases h
      exact ⟨fun _ => hv0, fun hn j => absurd (inner_of_none I hx (.inl he)).1 hn⟩
    · rw [hsame _ e] at h
      exact ⟨(I.shape q o v h).1, fun hn j => (hnone _).mpr ((I.shape q o v h).2 hn j)⟩
  · intro q o v h ht
    by_cases e : q = p
    · subst e; rw [hat] at h; cases h; simp
    · rw [hsame _ e] at h
      exact I.tip q o v h (fun j => (hnone _).mp (ht j))
  · intro q j o h
    by_cases hq : p <+: q
    · obtain ⟨t, rfl⟩ := hq
      by_cases hn : info es (p ++ t) = none
      · rw [eff_absent ((hnone _).mpr hn)]; simp [Rem]
      · rw [E2 t hn]; simp [Rem]
    · rw [E1 q hq]
      by_cases hqj : p <+: q ++ [j]
      · have hpq : q ++ [j] = p := by
          obtain ⟨t, ht⟩ := hqj
          rcases List.eq_nil_or_concat t with rfl | ⟨t', x, rfl⟩
          · simpa using ht.symm
          · rw [List.concat_eq_append, ← List.append_assoc] at ht
            obtain ⟨h1, _⟩ := List.append_inj' ht rfl
            exact absurd ⟨t', h1⟩ hq
        have hd := I.down q j .none (by rw [hpq]; exact he)
        refine ⟨fun h' => ?_, fun h' => ?_⟩
        · have := hd.1 h'; simp at this
        · have := hd.2 h'; simp at this
      · rw [E1 _ hqj] at h; exact I.down q j o h
  · intro q o o' v h1 h2
    by_cases hq : p <+: q
    · obtain ⟨t, rfl⟩ := hq
      have hn : info es (p ++ t) ≠ none := fun e => by rw [(hnone _).mpr e] at h2; cases h2
      rw [E2 t hn] at h1
      cases h1
      obtain ⟨⟨o2, v2⟩, hy⟩ := Option.ne_none_iff_exists'.mp hn
      have hvv : v = v2 := by
        by_cases e : p ++ t = p
        · rw [e] at h2 hy; rw [hat] at h2; rw [hx] at hy; cases h2; cases hy; rfl
        · rw [hsame _ e, hy] at h2; cases h2; rfl
      subst hvv
      rcases E3 t hn with h | h
      · have hs := I.sem _ _ o2 v h hy
        have hin := inner_of_none I hy (.inl h)
        rw [(I.shape _ _ _ hy).1 hin.1.1]
        simp only [Sem] at hs
        refine sem_merge_inner hfv hin.1 ?_
        obtain ⟨x, hx⟩ := Option.ne_none_iff_exists'.mp hs.2
        rw [hs.1, hx]; rfl
      · exact I.sem _ _ o2 v h hy
    · rw [E1 q hq] at h1
      have e : q ≠ p := fun e => hq (e ▸ List.prefix_refl _)
      rw [hsame q e] at h2
      exact I.sem q o o' v h1 h2
  · intro q h1 h2 h3; exact I.gone q h1 ((hnone q).mp h2) ((hgo q).mp h3)
  · intro q h1 h2 h3; exact I.kept q h1 ((hnone q).mp h2) (fun h => h3 ((hgo q).mpr h))
  · intro q o h h1 h2
    by_cases hq : p <+: q
    · refine ⟨c, by simp, ?_, ?_⟩
      · obtain ⟨t, rfl⟩ := hq
        rw [← hpc]
        cases p with
        | nil => exact absurd rfl hp
        | cons i p => simp
      · rintro r rfl; simp [Call.op] at hc
    · rw [E1 q hq] at h
      obtain ⟨c', h3, h4⟩ := I.made q o h h1 h2
      exact ⟨c', List.mem_cons_of_mem _ h3, h4⟩
  · intro q h
    rw [hrem] at h
    obtain ⟨s, r, h1, h2⟩ := I.deleted q h
    exact ⟨s, r, List.mem_cons_of_mem _ h1, h2⟩
  · intro q h
    obtain ⟨c', h3, h4⟩ := I.asked q (fun e => h ((hnone q).mpr e))
    exact ⟨c', List.mem_cons_of_mem _ h3, h4⟩
  · intro q o h
    by_cases e : q = p
    · subst e; rw [hat] at h; rw [hv0] at h; cases h
    · rw [hsame _ e] at h; exact I.opaq q o h

/-- Deleting a node that is above deleted ones. -/
theorem inv_del_ether {K : Nat → Kind} {f g g' : Data} {hist : List Call} {es : List ENode} {p : Path}
    (I : Inv K f hist g es) (hpres : info es p ≠ none) (he : eff es p = some .ether)
    (ho : ∀ r x, r ≠ [] → info es (p ++ r) = some x → x.1 = none ∨ x.1 = some .remove) (hcl : Closed g')
    (hg1 : ∀ q, p <+: q → g' q = none) (hg2 : ∀ q, ¬ p <+: q → g' q = g q) :
    Inv K f (.del false p :: hist) g' (setOp (some .remove) es p) := by
  obtain ⟨⟨o0, v0⟩, hx⟩ := Option.ne_none_iff_exists'.mp hpres
  have hp : p ≠ [] := by rintro rfl; simp at hx
  have hi := info_setOp (some .remove) es p
  obtain ⟨E1, E2⟩ := eff_setOp (o := .remove) hpres
  have E2 := E2 ho
  obtain ⟨es', hes'⟩ : ∃ es', setOp (some .remove) es p = es' := ⟨_, rfl⟩
  rw [hes'] at hi E1 E2 ⊢
  have hat : info es' p = some (some .remove, v0) := by rw [hi, if_pos rfl, hx]; rfl
  have hsame : ∀ q, q ≠ p → info es' q = info es q := fun q hq => by rw [hi, if_neg hq]
  have hnone : ∀ q, info es' q = none ↔ info es q = none := by
    intro q
    by_cases e : q = p
    · subst e; simp [hat, hx]
    · rw [hsame q e]
  have hv0 : v0 = some 0 := (I.shape p o0 v0 hx).1 (inner_of_none I hx (.inr he)).1.1
  have hgo : ∀ q, ¬ p <+: q → (Gone es' q ↔ Gone es q) := by
    intro q hq
    constructor
    · rintro ⟨r, hr, h⟩; rw [E1 r (fun h' => hq (h'.trans hr))] at h; exact ⟨r, hr, h⟩
    · rintro ⟨r, hr, h⟩; rw [← E1 r (fun h' => hq (h'.trans hr))] at h; exact ⟨r, hr, h⟩
  refine ⟨hcl, ?_, ?_, ?_, ?_, ?_, ?_, ?_, ?_, ?_, ?_, ?_⟩
  · intro i o v h
    by_cases e : [i] = p
    · rw [e, hat] at h; cases h; simp
    · rw [hsame _ e] at h; exact I.top i o v h
  · intro q o v h
    by_cases e : q = p
    · subst e; rw [hat] at h; cases h
      exact ⟨fun _ => hv0, fun hn j => absurd (inner_of_none I hx (.inr he)).1 hn⟩
    · rw [hsame _ e] at h
      exact ⟨(I.shape q o v h).1, fun hn j => (hnone _).mpr ((I.shape q o v h).2 hn j)⟩
  · intro q o v h ht
    by_cases e : q = p
    · subst e; rw [hat] at h; cases h; simp
    · rw [hsame _ e] at h
      exact I.tip q o v h (fun j => (hnone _).mp (ht j))
  · intro q j o h
    by_cases hqj : p <+: q ++ [j]
    · obtain ⟨t, ht⟩ := hqj
      obtain ⟨x, hx'⟩ := info_of_eff h
      have hn : info es (p ++ t) ≠ none := by
        rw [ht]; intro e; rw [(hnone _).mpr e] at hx'; cases hx'
      have := E2 t hn
      rw [ht, h] at this
      cases this
      exact ⟨fun _ => .inr rfl, fun _ => .inl rfl⟩
    · rw [E1 _ hqj] at h
      rw [E1 q (fun h' => hqj (h'.trans (List.prefix_append _ _)))]
      exact I.down q j o h
  · intro q o o' v h1 h2
    by_cases hq : p <+: q
    · have hgn := hg1 q hq
      obtain ⟨t, rfl⟩ := hq
      have hn : info es (p ++ t) ≠ none := fun e => by rw [(hnone _).mpr e] at h2; cases h2
      rw [E2 t hn] at h1
      cases h1
      exact hgn
    · rw [E1 q hq] at h1
      have e : q ≠ p := fun e => hq (e ▸ List.prefix_refl _)
      rw [hsame q e] at h2
      exact (I.sem q o o' v h1 h2).congr (hg2 q hq)
  · intro q h1 h2 h3
    by_cases hq : p <+: q
    · exact hg1 q hq
    · rw [hg2 q hq]; exact I.gone q h1 ((hnone q).mp h2) ((hgo q hq).mp h3)
  · intro q h1 h2 h3
    by_cases hq : p <+: q
    · exact absurd ⟨p, hq, by rw [eff_of_own hat]; exact .inl rfl⟩ h3
    · rw [hg2 q hq]; exact I.kept q h1 ((hnone q).mp h2) (fun h => h3 ((hgo q hq).mpr h))
  · intro q o h h1 h2
    by_cases hq : p <+: q
    · exfalso
      obtain ⟨t, rfl⟩ := hq
      obtain ⟨x, hx'⟩ := info_of_eff h
      have hn : info es (p ++ t) ≠ none := fun e => by rw [(hnone _).mpr e] at hx'; cases hx'
      rw [E2 t hn] at h
      cases h
      exact h2 rfl
    · rw [E1 q hq] at h
      obtain ⟨c', h3, h4⟩ := I.made q o h h1 h2
      exact ⟨c', List.mem_cons_of_mem _ h3, h4⟩
  · intro q h
    by_cases hq : p <+: q
    · exact ⟨false, p, by simp, hq⟩
    · rw [E1 q hq] at h
      obtain ⟨s, r, h1, h2⟩ := I.deleted q h
      exact ⟨s, r, List.mem_cons_of_mem _ h1, h2⟩
  · intro q h
    obtain ⟨c', h3, h4⟩ := I.asked q (fun e => h ((hnone q).mpr e))
    exact ⟨c', List.mem_cons_of_mem _ h3, h4⟩
  · intro q o h
    by_cases e : q = p
    · subst e; rw [hat] at h; rw [hv0] at h; cases h
    · rw [hsame _ e] at h; exact I.opaq q o h

end Verif.EditAdd
