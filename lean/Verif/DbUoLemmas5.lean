import Verif.DbUoLemmas4

/-! Lemmas for `DbUo`: loading, sequences of diffs. -/
namespace Verif.DbUo

theorem flat_id {x y : Str} : ∀ e : List Str, x ∉ e → (e.flatMap fun z => if z = x then [z, y] else [z]) = e
  | [], _ => rfl
  | a :: t, h => by
    simp only [List.mem_cons, not_or] at h
    rw [List.flatMap_cons, if_neg (fun he => h.1 he.symm), flat_id t h.2]
    rfl

theorem insAfter_split {x y : Str} {pre post zs : List Str} (hxy : x ≠ y) (hpre : x ∉ pre) (hz : x ∉ zs)
    (hpost : x ∉ post) (hyz : y ∉ zs) :
    insAfter x y (pre ++ x :: (zs ++ post)) =
      pre.filter (· ≠ y) ++ x :: y :: (zs ++ post.filter (· ≠ y)) := by
  have hzf : zs.filter (· ≠ y) = zs := by
    rw [List.filter_eq_self]
    intro a ha
    simp only [ne_eq, decide_not, Bool.not_eq_eq_eq_not, Bool.not_true, decide_eq_false_iff_not]
    rintro rfl; exact hyz ha
  simp only [insAfter, List.filter_append]
  rw [List.filter_cons_of_pos (by simp [hxy]), List.filter_append, hzf, List.flatMap_append, List.flatMap_cons,
    List.flatMap_append, if_pos rfl, flat_id, flat_id, flat_id]
  · rfl
  · intro h; exact hpost ((List.mem_filter.1 h).1)
  · exact hz
  · intro h; exact hpre ((List.mem_filter.1 h).1)

theorem reorder_aux {x : Str} : ∀ (ys zs : List Str) (pre post : List Str),
    (x :: (ys ++ zs)).Nodup → x ∉ pre → x ∉ post →
    ∃ pre' post', ys.reverse.foldl (fun s y => insAfter x y s) (pre ++ x :: (zs ++ post))
        = pre' ++ x :: (ys ++ zs ++ post') ∧
      (∀ w ∈ pre', w ∈ pre ∧ w ∉ ys) ∧ (∀ w ∈ post', w ∈ post ∧ w ∉ ys) := by
  intro ys
  induction h : ys.length generalizing ys with
  | zero =>
    intro zs pre post _ _ _
    have : ys = [] := List.eq_nil_of_length_eq_zero h
    subst this
    exact ⟨pre, post, by simp, by simp, by simp⟩
  | succ n ih =>
    intro zs pre post hn hpre hpost
    have hne : ys ≠ [] := by rintro rfl; simp at h
    obtain ⟨y0, y, rfl⟩ : ∃ y0 y, ys = y0 ++ [y] := ⟨_, _, (List.dropLast_concat_getLast hne).symm⟩
    have hn1 := List.nodup_cons.1 hn
    have hxy : x ≠ y := by rintro rfl; exact hn1.1 (by simp)
    have hxz : x ∉ zs := fun hm => hn1.1 (by simp [hm])
    have hyz : y ∉ zs := by
      intro hm
      have := (List.nodup_append.1 hn1.2).2.2 y (by simp) y hm
      exact this rfl
    simp only [List.reverse_append, List.reverse_cons, List.reverse_nil, List.nil_append, List.cons_append,
      List.foldl_cons]
    rw [insAfter_split hxy hpre hxz hpost hyz]
    have he : y :: (zs ++ post.filter (· ≠ y)) = (y :: zs) ++ post.filter (· ≠ y) := rfl
    rw [he]
    obtain ⟨pre', post', h1, h2, h3⟩ := ih y0 (by simp at h; exact h) (y :: zs) (pre.filter (· ≠ y)) (post.filter (· ≠ y))
      (by simpa using hn) (fun hm => hpre ((List.mem_filter.1 hm).1)) (fun hm => hpost ((List.mem_filter.1 hm).1))
    refine ⟨pre', post', ?_, ?_, ?_⟩
    · rw [h1]; simp
    · intro w hw
      have := h2 w hw
      simp only [List.mem_filter, ne_eq, decide_not, Bool.not_eq_eq_eq_not, Bool.not_true, decide_eq_false_iff_not] at this
      exact ⟨this.1.1, by simp [this.2, this.1.2]⟩
    · intro w hw
      have := h3 w hw
      simp only [List.mem_filter, ne_eq, decide_not, Bool.not_eq_eq_eq_not, Bool.not_true, decide_eq_false_iff_not] at this
      exact ⟨this.1.1, by simp [this.2, this.1.2]⟩

/-- Reordering gives the sorted order whatever the order before was. -/
theorem reorder_eq {sibs data : List Str} (hp : sibs.Perm data) (hn : data.Nodup) : reorder sibs data = data := by
  cases data with
  | nil => simpa [reorder] using hp
  | cons x xs =>
    have hx : x ∈ sibs := hp.mem_iff.2 (by simp)
    obtain ⟨pre, post, rfl⟩ := List.append_of_mem hx
    have hns : (pre ++ x :: post).Nodup := hp.nodup_iff.2 hn
    have hn2 := List.nodup_append.1 hns
    have hpre : x ∉ pre := fun h => hn2.2.2 x h x (by simp) rfl
    have hpost : x ∉ post := (List.nodup_cons.1 hn2.2.1).1
    obtain ⟨pre', post', h1, h2, h3⟩ := reorder_aux xs [] pre post (by simpa using hn) hpre hpost
    simp only [List.nil_append, List.append_nil] at h1
    simp only [reorder]
    rw [h1]
    have hxs : ∀ w, w ∈ pre ∨ w ∈ post → w ∈ xs := by
      intro w hw
      have hm : w ∈ x :: xs := by
        apply hp.mem_iff.1
        simp only [List.mem_append, List.mem_cons]
        rcases hw with h | h <;> simp [h]
      rcases List.mem_cons.1 hm with rfl | h
      · rcases hw with h | h
        · exact absurd h hpre
        · exact absurd h hpost
      · exact h
    have hp0 : pre' = [] := by
      cases hpp : pre' with
      | nil => rfl
      | cons w t =>
        have := h2 w (by simp [hpp])
        exact absurd (hxs w (Or.inl this.1)) this.2
    have hq0 : post' = [] := by
      cases hpp : post' with
      | nil => rfl
      | cons w t =>
        have := h3 w (by simp [hpp])
        exact absurd (hxs w (Or.inr this.1)) this.2
    subst hp0; subst hq0
    simp

theorem loaded_sorted {db : DB} {l : LPath} {out : List Str} (h : Loaded db l out)
    (hn : ((db.recs l).map Rec.elem).Nodup) : ∃ s, Sorted (db.recs l) s ∧ out = s.map Rec.elem := by
  obtain ⟨sibs, s, h1, h2, h3⟩ := h
  have hps := h2.1.map Rec.elem
  refine ⟨s, h2, ?_⟩
  rw [h3]
  exact reorder_eq (h1.trans hps.symm) (hps.nodup_iff.2 hn)

theorem chain_elem (k : Kind) : ∀ (p : Str) (c : List (Str × Nat)), (chain k p c).map Rec.elem = c.map Prod.fst
  | _, [] => rfl
  | p, (x, o) :: t => by simp [chain, chain_elem k _ t]

theorem chain_order (k : Kind) : ∀ (p : Str) (c : List (Str × Nat)), (chain k p c).map Rec.order = ords c
  | _, [] => rfl
  | p, (x, o) :: t => by simp [chain, chain_order k _ t]

theorem comp_eq {a b : Nat} (ha : a < 2 ^ 31) (hb : b < 2 ^ 31) : comp a b = (a : Int) - b := by
  simp only [comp]
  have h1 : (2 : Int) ^ 31 = 2147483648 := by decide
  have h2 : (2 : Int) ^ 32 = 4294967296 := by decide
  have h3 : (2 : Nat) ^ 31 = 2147483648 := by decide
  rw [h1, h2]
  rw [h3] at ha hb
  omega

theorem linv_loaded {k : Kind} {m B : Nat} {db : DB} {l : LPath} {els out : List Str} (hi : LInv k m db l els B)
    (hB : B < 2 ^ 31) (hl : Loaded db l out) : out = els := by
  obtain ⟨c, rfl, hi⟩ := hi
  have hnd : ((db.recs l).map Rec.elem).Nodup := by
    rw [(hi.perm.map Rec.elem).nodup_iff, chain_elem]; exact hi.nd
  obtain ⟨s, hs, rfl⟩ := loaded_sorted hl hnd
  have hsp : s.Perm (chain k [] c) := hs.1.trans hi.perm
  have hbnd : ∀ r ∈ s, r.order < 2 ^ 31 := by
    intro r hr
    have hm := chain_order_mem (hsp.mem_iff.1 hr)
    have hne : c ≠ [] := by rintro rfl; simp at hm
    obtain ⟨v, hv⟩ := hi.som (Or.inr hne)
    have h1 := hi.bnd v hv _ hm
    have h2 := hi.bm
    have h3 := hi.bv v hv
    split at h1 <;> omega
  have heq : s = chain k [] c := by
    apply List.Perm.eq_of_pairwise (le := fun a b : Rec => a.order ≤ b.order) _ _ _ hsp
    · intro a b ha hb hab hba
      have hao : a ∈ chain k [] c := hsp.mem_iff.1 ha
      have : (chain k [] c).Pairwise (fun a b => a.order < b.order) := by
        rw [← List.pairwise_map (f := Rec.order), chain_order]; exact hi.srt
      have huni : ∀ (l : List Rec), l.Pairwise (fun a b => a.order < b.order) → ∀ a ∈ l, ∀ b ∈ l,
          a.order = b.order → a = b := by
        intro l
        induction l with
        | nil => intro _ a ha; cases ha
        | cons r t ih =>
          intro hp a ha b hb he
          have hp' := List.pairwise_cons.1 hp
          rcases List.mem_cons.1 ha with ha' | ha' <;> rcases List.mem_cons.1 hb with hb' | hb'
          · rw [ha', hb']
          · have := hp'.1 b hb'; rw [ha'] at he; omega
          · have := hp'.1 a ha'; rw [hb'] at he; omega
          · exact ih hp'.2 a ha' b hb' he
      exact huni _ this a hao b hb (by omega)
    · refine List.Pairwise.imp_of_mem ?_ hs.2
      intro a b ha hb hab
      rw [comp_eq (hbnd a ha) (hbnd b hb)] at hab
      omega
    · have : (chain k [] c).Pairwise (fun a b => a.order < b.order) := by
        rw [← List.pairwise_map (f := Rec.order), chain_order]; exact hi.srt
      exact this.imp (fun h => Nat.le_of_lt h)
  rw [heq, chain_elem]

theorem linv_exists {k : Kind} {m B : Nat} {db : DB} {l : LPath} {els : List Str} (hi : LInv k m db l els B)
    (hB : B < 2 ^ 31) : Loaded db l els := by
  obtain ⟨c, rfl, hi⟩ := hi
  have hbnd : ∀ r ∈ chain k [] c, r.order < 2 ^ 31 := by
    intro r hr
    have hm := chain_order_mem hr
    have hne : c ≠ [] := by rintro rfl; simp at hm
    obtain ⟨v, hv⟩ := hi.som (Or.inr hne)
    have h1 := hi.bnd v hv _ hm
    have h2 := hi.bm
    have h3 := hi.bv v hv
    split at h1 <;> omega
  refine ⟨(db.recs l).map Rec.elem, chain k [] c, List.Perm.refl _, ⟨hi.perm.symm, ?_⟩, ?_⟩
  · have : (chain k [] c).Pairwise (fun a b => a.order < b.order) := by
      rw [← List.pairwise_map (f := Rec.order), chain_order]; exact hi.srt
    refine List.Pairwise.imp_of_mem ?_ this
    intro a b ha hb hab
    rw [comp_eq (hbnd a ha) (hbnd b hb)]
    omega
  · rw [chain_elem, reorder_eq]
    · have := hi.perm.map Rec.elem
      rwa [chain_elem] at this
    · exact hi.nd

theorem linv_empty (k : Kind) (l : LPath) : LInv k 0 DB.empty l [] 0 := by
  refine ⟨[], rfl, ?_⟩
  refine ⟨by simp, by simp, by simp [DB.empty, chain], by simp, by simp, by simp, by simp, Or.inl rfl, ?_, Nat.zero_le _, ?_⟩
  · intro v hv; simp [DB.empty] at hv
  · intro v hv; simp [DB.empty] at hv

theorem storeAll_ok (be : Backend) (kind : LPath → Kind) : ∀ (fs : List Forest) (db : DB) (a : Cont) (B : Nat),
    ValidAll fs a → (∀ f ∈ fs, PlainRefs f ∧ KindsAs kind [] f ∧ OneModule f) →
    (∀ L, LInv (kind L) 0 db L (a L) B) →
    ∃ db', storeAll be fs db = .ok db' ∧ ∀ L, LInv (kind L) 0 db' L (effectAll fs a L) (B + gap * sizeAll fs)
  | [], db, a, B, _, _, hi => ⟨db, rfl, by simpa [effectAll, sizeAll] using hi⟩
  | f :: fs, db, a, B, hv, hw, hi => by
    obtain ⟨h1, h2, h3⟩ := hw f (by simp)
    obtain ⟨db1, e1, e2, -⟩ := store_ok be kind f [] .none db 0 a B hv.1 h1 h2 h3 (fun h => absurd rfl h)
      (by intro L _; rw [mAt_zero]; exact hi L)
    obtain ⟨db2, g1, g2⟩ := storeAll_ok be kind fs db1 (effect [] .none f a) (B + gap * size f) hv.2
      (fun g hg => hw g (List.mem_cons_of_mem _ hg)) (fun L => e2 L List.nil_prefix)
    refine ⟨db2, ?_, ?_⟩
    · simp only [storeAll, storeDiff, e1, R.bind, g1]
    · intro L
      have := g2 L
      simp only [effectAll, sizeAll, Nat.mul_add]
      rw [← Nat.add_assoc]
      exact this

/-! ## For the examples -/

instance (d : ND) (op : Op) (l : List Str) : Decidable (Fits d op l) := by
  unfold Fits; cases op <;> simp only <;> infer_instance

instance decValid : ∀ (par : List Seg) (pop : Option Op) (f : Forest) (a : Cont), Decidable (Valid par pop f a)
  | _, _, .nil, _ => isTrue trivial
  | par, pop, .cons d kids rest, a =>
    have := fun p q b => decValid p q kids b
    have := fun p q b => decValid p q rest b
    by unfold Valid; infer_instance

instance decValidAll : ∀ (fs : List Forest) (a : Cont), Decidable (ValidAll fs a)
  | [], _ => isTrue trivial
  | f :: fs, a => have := decValidAll fs; by unfold ValidAll; infer_instance

instance decPlain : ∀ f, Decidable (PlainRefs f)
  | .nil => isTrue trivial
  | .cons d kids rest => have := decPlain kids; have := decPlain rest; by unfold PlainRefs; infer_instance

instance decOne : ∀ f, Decidable (OneModule f)
  | .nil => isTrue trivial
  | .cons d kids .nil => have := decOne kids; have := decOne .nil; by unfold OneModule; simp only; infer_instance
  | .cons d kids (.cons e k2 r2) =>
    have := decOne kids; have := decOne (.cons e k2 r2); by unfold OneModule; simp only; infer_instance

/-- Records of a list in the result. -/
def recsOf (l : LPath) : R DB → Option (List Rec)
  | .ok db => some (db.recs l)
  | _ => none

theorem recsOf_some {l : LPath} {r : R DB} {x : List Rec} (h : recsOf l r = some x) :
    ∃ db, r = .ok db ∧ db.recs l = x := by
  cases r with
  | ok db => exact ⟨db, rfl, Option.some.inj h⟩
  | err => cases h
  | ub => cases h

/-- Two neighbours of a loaded list are in an order the comparison accepts. -/
theorem loaded_pair {db : DB} {l : LPath} {pre post : List Str} {x y : Str} {ox oy : Nat}
    (h : Loaded db l (pre ++ x :: y :: post)) (hn : ((db.recs l).map Rec.elem).Nodup)
    (hx : ∀ r ∈ db.recs l, r.elem = x → r.order = ox) (hy : ∀ r ∈ db.recs l, r.elem = y → r.order = oy) :
    comp ox oy ≤ 0 := by
  obtain ⟨s, hs, he⟩ := loaded_sorted h hn
  have he' := he.symm
  rw [List.map_eq_append_iff] at he'
  obtain ⟨s1, s2, rfl, -, h2⟩ := he'
  rw [List.map_eq_cons_iff] at h2
  obtain ⟨rx, s3, rfl, hrx, h3⟩ := h2
  rw [List.map_eq_cons_iff] at h3
  obtain ⟨ry, s4, rfl, hry, -⟩ := h3
  have hp := (List.pairwise_append.1 hs.2).2.1
  have := (List.pairwise_cons.1 hp).1 ry (by simp)
  rw [hx rx (hs.1.mem_iff.1 (by simp)) hrx, hy ry (hs.1.mem_iff.1 (by simp)) hry] at this
  exact this

end Verif.DbUo
