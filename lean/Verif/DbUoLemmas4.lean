import Verif.DbUoLemmas3

/-! Lemmas for `DbUo`: storing a whole diff. -/
namespace Verif.DbUo

/-- The records of one list hold the given instances in the given order. -/
def LInv (k : Kind) (m : Nat) (db : DB) (l : LPath) (els : List Str) (B : Nat) : Prop :=
  ∃ c : List (Str × Nat), c.map Prod.fst = els ∧ CInv k m db l c B

theorem CInv.mono {k : Kind} {m : Nat} {db : DB} {l : LPath} {c : List (Str × Nat)} {B B' : Nat}
    (h : CInv k m db l c B) (hB : B ≤ B') : CInv k m db l c B' :=
  { h with bm := Nat.le_trans h.bm hB, bv := fun v hv => Nat.le_trans (h.bv v hv) hB }

theorem LInv.mono {k : Kind} {m : Nat} {db : DB} {l : LPath} {e : List Str} {B B' : Nat}
    (h : LInv k m db l e B) (hB : B ≤ B') : LInv k m db l e B' := by
  obtain ⟨c, h1, h2⟩ := h
  exact ⟨c, h1, h2.mono hB⟩

theorem CInv.frame {k : Kind} {m : Nat} {db db' : DB} {l : LPath} {c : List (Str × Nat)} {B : Nat}
    (h : CInv k m db l c B) (h1 : db'.recs l = db.recs l) (h2 : db'.maxord l = db.maxord l) :
    CInv k m db' l c B :=
  { h with perm := h1 ▸ h.perm, som := h2 ▸ h.som, bnd := h2 ▸ h.bnd, gapv := h2 ▸ h.gapv, bv := h2 ▸ h.bv }

theorem LInv.frame {k : Kind} {m : Nat} {db db' : DB} {l : LPath} {e : List Str} {B : Nat}
    (h : LInv k m db l e B) (h1 : db'.recs l = db.recs l) (h2 : db'.maxord l = db.maxord l) :
    LInv k m db' l e B := by
  obtain ⟨c, h3, h4⟩ := h
  exact ⟨c, h3, h4.frame h1 h2⟩

/-- Writing the maximum order. -/
theorem CInv.flush {be : Backend} {k : Kind} {m : Nat} {db : DB} {l : LPath} {c : List (Str × Nat)} {B : Nat}
    (h : CInv k m db l c B) : CInv k 0 (setMaxord be db l m) l c B := by
  by_cases hm : m = 0
  · subst hm; simpa [setMaxord] using h
  · obtain ⟨v, hv⟩ := h.som (Or.inl hm)
    have he : setMaxord be db l m = db.putMax l m := by
      simp only [setMaxord, if_neg hm]
      rw [if_neg]
      rintro ⟨_, hn⟩
      rw [hn] at hv; cases hv
    rw [he]
    have hmx : (db.putMax l m).maxord l = some m := by simp [DB.putMax]
    have hone : ∀ w, (db.putMax l m).maxord l = some w → w = m := by
      intro w hw; rw [hmx] at hw; exact (Option.some.inj hw).symm
    refine ⟨h.nd, h.ne, h.perm, h.srt, h.pos, fun _ => ⟨m, hmx⟩, ?_, Or.inl rfl, ?_, Nat.zero_le _, ?_⟩
    · intro w hw o ho
      rw [if_pos rfl, hone w hw]
      have := h.bnd v hv o ho
      rwa [if_neg hm] at this
    · intro w hw
      rw [hone w hw]
      rcases h.gapm with h0 | h0
      · exact absurd h0 hm
      · exact h0
    · intro w hw; rw [hone w hw]; exact h.bm

theorem setMaxord_frame {be : Backend} {db : DB} {l l' : LPath} {m : Nat} (h : l' ≠ l) :
    (setMaxord be db l m).recs l' = db.recs l' ∧ (setMaxord be db l m).maxord l' = db.maxord l' := by
  simp only [setMaxord]
  (repeat' split) <;> simp [DB.putMax, h]

/-! ## The specification on lists split at a place -/

theorem putAfter_split {p x : Str} {e1 e2 : List Str} (hp : p ≠ []) (hn : (e1 ++ p :: e2).Nodup) :
    putAfter p x (e1 ++ p :: e2) = e1 ++ p :: x :: e2 := by
  have hid : ∀ e : List Str, p ∉ e → (e.flatMap fun y => if y = p then [y, x] else [y]) = e := by
    intro e
    induction e with
    | nil => intro _; rfl
    | cons a t ih =>
      intro h
      simp only [List.mem_cons, not_or] at h
      rw [List.flatMap_cons, if_neg (fun he => h.1 he.symm), ih h.2]
      rfl
  have h2 := List.nodup_append.1 hn
  have h3 := List.nodup_cons.1 h2.2.1
  simp only [putAfter, if_neg hp, List.flatMap_append, List.flatMap_cons]
  rw [hid e1, hid e2 h3.1]
  · simp
  · intro h
    exact h2.2.2 p h p (by simp) rfl

theorem without_split {x : Str} {e1 e2 : List Str} (hn : (e1 ++ x :: e2).Nodup) :
    without x (e1 ++ x :: e2) = e1 ++ e2 := by
  have h2 := List.nodup_append.1 hn
  have h3 := List.nodup_cons.1 h2.2.1
  simp only [without, List.filter_append]
  rw [List.filter_cons_of_neg (by simp)]
  congr 1
  · rw [List.filter_eq_self]
    intro a ha
    simp only [ne_eq, decide_not, Bool.not_eq_eq_eq_not, Bool.not_true, decide_eq_false_iff_not]
    rintro rfl
    exact h2.2.2 a ha a (by simp) rfl
  · rw [List.filter_eq_self]
    intro a ha
    simp only [ne_eq, decide_not, Bool.not_eq_eq_eq_not, Bool.not_true, decide_eq_false_iff_not]
    rintro rfl
    exact h3.1 ha

theorem before_split {x : Str} : ∀ {e1 e2 : List Str}, (e1 ++ x :: e2).Nodup →
    before x (e1 ++ x :: e2) = e1.getLast?.getD []
  | [], [], _ => rfl
  | [], _ :: _, _ => by simp [before]
  | [a], e2, h => by
    have : a ≠ x := by
      have := (List.nodup_cons.1 h).1
      intro he; exact this (by simp [he])
    simp [before, this]
  | a :: b :: t, e2, h => by
    have ha : a ≠ x := by
      have := (List.nodup_cons.1 h).1
      intro he; exact this (by simp [he])
    have hb : b ≠ x := by
      have := (List.nodup_cons.1 (List.nodup_cons.1 h).2).1
      intro he; exact this (by simp [he])
    have ih := before_split (e1 := b :: t) (e2 := e2) (List.nodup_cons.1 h).2
    simp only [List.cons_append, before, if_neg ha, if_neg hb]
    rw [List.cons_append] at ih
    rw [ih]
    simp

theorem ref_last {k : Kind} {c1 : List (Str × Nat)} {q : Str} (hn : [] ∉ c1.map Prod.fst)
    (hq : q = (c1.map Prod.fst).getLast?.getD []) (hpl : k = .leaflist → '\'' ∉ q) :
    refPred k q = lastP k [] c1 ∧ (q = [] ↔ c1 = []) := by
  by_cases h : c1 = []
  · subst h
    simp at hq
    subst hq
    exact ⟨refPred_nil, by simp⟩
  · obtain ⟨c0, ⟨y, o⟩, rfl⟩ : ∃ c0 e, c1 = c0 ++ [e] := ⟨_, _, (List.dropLast_concat_getLast h).symm⟩
    simp at hq
    subst hq
    have hy : q ≠ [] := by
      rintro rfl; exact hn (by simp)
    refine ⟨?_, ?_⟩
    · rw [refPred_eq hy hpl, lastP_append]; rfl
    · simp [hy]

theorem create_linv {be : Backend} {k : Kind} {db : DB} {l : LPath} {B m : Nat} {x prev : Str} {els : List Str}
    (hi : LInv k m db l els B) (hx0 : x ≠ []) (hx : x ∉ els) (hp : prev = [] ∨ prev ∈ els)
    (hpl : k = .leaflist → '\'' ∉ prev) :
    ∃ db' m', createUo be k db l x prev m = .ok (db', m') ∧ LInv k m' db' l (putAfter prev x els) (B + gap) ∧
      (∀ l', l' ≠ l → db'.recs l' = db.recs l' ∧ db'.maxord l' = db.maxord l') := by
  obtain ⟨c, rfl, hi⟩ := hi
  by_cases h0 : prev = []
  · subst h0
    obtain ⟨db', m', c', e1, e2, e3, e4⟩ := create_ok (be := be) (c1 := []) (c2 := c) (prev := []) hi hx0 hx
      refPred_nil (by simp)
    refine ⟨db', m', e1, ⟨c', ?_, e2⟩, e4⟩
    rw [e3]; simp [putAfter]
  · have hm : prev ∈ c.map Prod.fst := by
      rcases hp with h | h
      · exact absurd h h0
      · exact h
    obtain ⟨⟨y, o⟩, hy, rfl⟩ := List.mem_map.1 hm
    obtain ⟨c0, c2, rfl⟩ := List.append_of_mem hy
    have hassoc : c0 ++ (y, o) :: c2 = (c0 ++ [(y, o)]) ++ c2 := by simp
    have hrl := ref_last (k := k) (c1 := c0 ++ [(y, o)]) (q := y)
      (by intro h; exact hi.ne (by
            simp only [List.map_append, List.map_cons, List.map_nil, List.mem_append, List.mem_cons] at *
            rcases h with h | h | h
            · exact Or.inl h
            · exact Or.inr (Or.inl h)
            · cases h)) (by simp) hpl
    have hi' := hi
    rw [hassoc] at hi' hx
    obtain ⟨db', m', c', e1, e2, e3, e4⟩ := create_ok (be := be) (prev := y) hi' hx0 hx hrl.1 hrl.2
    refine ⟨db', m', e1, ⟨c', ?_, e2⟩, e4⟩
    have hnd := hi.nd
    simp only [List.map_append, List.map_cons] at hnd
    rw [e3]
    simp only [List.map_append, List.map_cons]
    rw [putAfter_split h0 hnd]
    simp

theorem delete_linv {be : Backend} {k : Kind} {db : DB} {l : LPath} {B m : Nat} {x op : Str} {els : List Str}
    (hi : LInv k m db l els B) (hx : x ∈ els) (hp : op = before x els)
    (hpl : k = .leaflist → '\'' ∉ op) :
    LInv k m (deleteUo be k db l x op) l (without x els) B ∧
      (∀ l', l' ≠ l → (deleteUo be k db l x op).recs l' = db.recs l') ∧
      (deleteUo be k db l x op).maxord = db.maxord := by
  obtain ⟨c, rfl, hi⟩ := hi
  obtain ⟨⟨y, o⟩, hy, rfl⟩ := List.mem_map.1 hx
  obtain ⟨c0, c2, rfl⟩ := List.append_of_mem hy
  have hnd := hi.nd
  simp only [List.map_append, List.map_cons] at hnd hp
  rw [before_split hnd] at hp
  have hrl := ref_last (k := k) (c1 := c0) (q := op)
    (by intro h; exact hi.ne (by simp only [List.map_append, List.mem_append]; exact Or.inl h)) hp hpl
  obtain ⟨e1, e2, e3⟩ := delete_ok (be := be) (x := y) (op := op) hi hrl.1
  refine ⟨⟨_, ?_, e1⟩, e2, e3⟩
  simp only [List.map_append, List.map_cons]
  rw [without_split hnd]

theorem doOp_ok {be : Backend} {k : Kind} {db : DB} {l : LPath} {B m : Nat} {d : ND} {op : Op} {els : List Str}
    (hi : LInv k m db l els B) (hf : Fits d op els)
    (hpl : k = .leaflist → '\'' ∉ d.prev ∧ '\'' ∉ d.origPrev) :
    ∃ db' m', doOp be l k d op db m = .ok (db', m') ∧ LInv k m' db' l (change d op els) (B + gap) ∧
      (∀ l', l' ≠ l → db'.recs l' = db.recs l' ∧ db'.maxord l' = db.maxord l') := by
  obtain ⟨hx0, hf⟩ := hf
  cases op with
  | none => exact ⟨db, m, rfl, hi.mono (Nat.le_add_right _ _), fun _ _ => ⟨rfl, rfl⟩⟩
  | create => exact create_linv hi hx0 hf.1 hf.2 (fun h => (hpl h).1)
  | delete =>
    obtain ⟨e1, e2, e3⟩ := delete_linv (be := be) hi hf.1 hf.2 (fun h => (hpl h).2)
    exact ⟨_, m, rfl, e1.mono (Nat.le_add_right _ _), fun l' h => ⟨e2 l' h, by rw [e3]⟩⟩
  | replace =>
    obtain ⟨e1, e2, e3⟩ := delete_linv (be := be) hi hf.1 hf.2.1 (fun h => (hpl h).2)
    obtain ⟨db', m', f1, f2, f3⟩ := create_linv (be := be) e1 hx0 (by simp [without]) hf.2.2 (fun h => (hpl h).1)
    refine ⟨db', m', f1, f2, fun l' h => ?_⟩
    have := f3 l' h
    rw [e2 l' h, e3] at this
    exact this

/-- The maximum order at hand as far as a list is concerned. -/
def mAt (par : List Seg) (f : Forest) (m : Nat) (l : LPath) : Nat :=
  match f with
  | .nil => 0
  | .cons d _ _ => if l = d.lpath par then m else 0

theorem mAt_zero (par : List Seg) (f : Forest) (l : LPath) : mAt par f 0 l = 0 := by
  cases f <;> simp [mAt]

theorem mAt_par {par : List Seg} {f : Forest} {m : Nat} {l : LPath} (h : l.par ≠ par) : mAt par f m l = 0 := by
  cases f with
  | nil => rfl
  | cons d kids rest =>
    simp only [mAt]
    rw [if_neg]
    rintro rfl
    exact h rfl

theorem storeOne_ok {be : Backend} {kind : LPath → Kind} {par : List Seg} {d : ND} {kids rest : Forest} {op : Op}
    {db : DB} {m B : Nat} {a : Cont}
    (hfit : d.uo.isSome → Fits d op (a (d.lpath par)))
    (hpl : d.uo = some .leaflist → '\'' ∉ d.prev ∧ '\'' ∉ d.origPrev)
    (hk : ∀ k, d.uo = some k → kind (d.lpath par) = k)
    (hone : match rest with
      | .nil => True
      | .cons e _ _ => e.name = d.name → e.mod = d.mod ∧ e.uo = d.uo)
    (hm : m ≠ 0 → d.uo.isSome)
    (hi : ∀ L : LPath, par <+: L.par → LInv (kind L) (mAt par (.cons d kids rest) m L) db L (a L) B) :
    ∃ x, storeOne be par d op rest.headName db m = .ok x ∧
      (∀ L : LPath, par <+: L.par → LInv (kind L) (mAt par rest x.2 L) x.1 L
        ((if d.uo.isSome then fun k => if k = d.lpath par then change d op (a k) else a k else a : Cont) L) (B + gap)) ∧
      (x.2 ≠ 0 → ∃ e k2 r2, rest = .cons e k2 r2 ∧ e.uo.isSome) ∧
      (∀ L : LPath, ¬ par <+: L.par → x.1.recs L = db.recs L ∧ x.1.maxord L = db.maxord L) := by
  cases hu : d.uo with
  | none =>
    have hm0 : m = 0 := by
      apply Classical.byContradiction
      intro h
      have := hm h
      rw [hu] at this
      cases this
    subst hm0
    refine ⟨(db, 0), by simp [storeOne, hu], ?_, by simp, fun _ _ => ⟨rfl, rfl⟩⟩
    intro L hL
    have := hi L hL
    rw [mAt_zero] at *
    exact this.mono (Nat.le_add_right _ _)
  | some k =>
    have hL0 : par <+: (d.lpath par).par := List.prefix_refl _
    have h0 := hi _ hL0
    have hmm : mAt par (.cons d kids rest) m (d.lpath par) = m := by simp [mAt]
    rw [hmm, hk k hu] at h0
    obtain ⟨db', m', e1, e2, e3⟩ := doOp_ok (be := be) (d := d) (op := op) h0 (hfit (by simp [hu]))
      (by rintro rfl; exact hpl hu)
    have hother : ∀ L : LPath, par <+: L.par → L ≠ d.lpath par → LInv (kind L) 0 db L (a L) B := by
      intro L hL hne
      have := hi L hL
      simpa [mAt, hne] using this
    by_cases hnx : rest.headName = some d.name
    · refine ⟨(db', m'), by simp [storeOne, hu, e1, R.bind, hnx], ?_, ?_, ?_⟩
      · intro L hL
        cases rest with
        | nil => simp [Forest.headName] at hnx
        | cons e k2 r2 =>
          have hen : e.name = d.name := by simpa [Forest.headName] using hnx
          have hem := hone hen
          have hel : e.lpath par = d.lpath par := by simp [ND.lpath, hen, hem.1]
          simp only [mAt, hel, Option.isSome_some, if_true]
          by_cases hLe : L = d.lpath par
          · subst hLe
            rw [if_pos rfl, if_pos rfl, hk k hu]; exact e2
          · rw [if_neg hLe, if_neg hLe]
            exact ((hother L hL hLe).frame (e3 L hLe).1 (e3 L hLe).2).mono (Nat.le_add_right _ _)
      · intro _
        cases rest with
        | nil => simp [Forest.headName] at hnx
        | cons e k2 r2 =>
          have hen : e.name = d.name := by simpa [Forest.headName] using hnx
          exact ⟨e, k2, r2, rfl, by rw [(hone hen).2, hu]; rfl⟩
      · intro L hL
        exact e3 L (by rintro rfl; exact hL hL0)
    · refine ⟨(setMaxord be db' (d.lpath par) m', 0), by simp [storeOne, hu, e1, R.bind, hnx], ?_, by simp, ?_⟩
      · intro L hL
        simp only [mAt_zero, Option.isSome_some, if_true]
        by_cases hLe : L = d.lpath par
        · subst hLe
          rw [if_pos rfl, hk k hu]
          obtain ⟨c, hc1, hc2⟩ := e2
          exact ⟨c, hc1, hc2.flush⟩
        · rw [if_neg hLe]
          have hfr := setMaxord_frame (be := be) (db := db') (m := m') hLe
          exact ((hother L hL hLe).frame (hfr.1.trans (e3 L hLe).1) (hfr.2.trans (e3 L hLe).2)).mono
            (Nat.le_add_right _ _)
      · intro L hL
        have hLe : L ≠ d.lpath par := by rintro rfl; exact hL hL0
        have hfr := setMaxord_frame (be := be) (db := db') (m := m') hLe
        exact ⟨hfr.1.trans (e3 L hLe).1, hfr.2.trans (e3 L hLe).2⟩

theorem path_not_prefix {par : List Seg} {d : ND} : ¬ d.path par <+: par := by
  intro h
  have := h.length_le
  simp [ND.path] at this
  omega

theorem path_prefix {par : List Seg} {d : ND} {q : List Seg} (h : d.path par <+: q) : par <+: q :=
  (List.prefix_append par _).trans h

theorem store_ok (be : Backend) (kind : LPath → Kind) :
    ∀ (f : Forest) (par : List Seg) (pop : Option Op) (db : DB) (m : Nat) (a : Cont) (B : Nat),
      Valid par pop f a → PlainRefs f → KindsAs kind par f → OneModule f →
      (m ≠ 0 → ∃ d kids rest, f = .cons d kids rest ∧ d.uo.isSome) →
      (∀ L : LPath, par <+: L.par → LInv (kind L) (mAt par f m L) db L (a L) B) →
      ∃ db', store be par pop f db m = .ok db' ∧
        (∀ L : LPath, par <+: L.par → LInv (kind L) 0 db' L (effect par pop f a L) (B + gap * size f)) ∧
        (∀ L : LPath, ¬ par <+: L.par →
          db'.recs L = db.recs L ∧ db'.maxord L = db.maxord L ∧ effect par pop f a L = a L) := by
  intro f
  induction f with
  | nil =>
    intro par pop db m a B _ _ _ _ _ hi
    refine ⟨db, rfl, ?_, fun _ _ => ⟨rfl, rfl, rfl⟩⟩
    intro L hL
    simpa [size, mAt, effect] using hi L hL
  | cons d kids rest ihk ihr =>
    intro par pop db m a B hv hpl hk hone hm hi
    obtain ⟨hpl1, hpl2, hpl3⟩ := hpl
    obtain ⟨hk1, hk2, hk3⟩ := hk
    obtain ⟨ho1, ho2, ho3⟩ := hone
    obtain ⟨hsome, hfit, hvk, hvr⟩ := hv
    obtain ⟨op, hop⟩ := Option.isSome_iff_exists.1 hsome
    have hgd : (d.op.or pop).getD .none = op := by rw [hop]; rfl
    rw [hgd] at hfit hvk hvr
    obtain ⟨x, e1, e2, e3, e4⟩ := storeOne_ok (be := be) (op := op) (kids := kids) (rest := rest) hfit hpl1 hk1 ho1
      (by
        intro h
        obtain ⟨d', k', r', he, hs⟩ := hm h
        cases he
        exact hs) hi
    generalize ha1 : (if d.uo.isSome then fun k => if k = d.lpath par then change d op (a k) else a k else a : Cont) = a1 at *
    have ha1out : ∀ L : LPath, ¬ par <+: L.par → a1 L = a L := by
      intro L hL
      rw [← ha1]
      split
      · have : L ≠ d.lpath par := by rintro rfl; exact hL (List.prefix_refl _)
        simp [this]
      · rfl
    -- the children
    have hkids : ∃ db2, (if op = .delete then R.ok (x.1.clear (d.path par))
          else store be (d.path par) (some op) kids x.1 0) = .ok db2 ∧
        (∀ L : LPath, par <+: L.par → LInv (kind L) (mAt par rest x.2 L) db2 L
          ((if op = .delete then fun k => if d.path par <+: k.par then [] else a1 k
            else effect (d.path par) (some op) kids a1 : Cont) L) (B + gap + gap * size kids)) ∧
        (∀ L : LPath, ¬ par <+: L.par → db2.recs L = x.1.recs L ∧ db2.maxord L = x.1.maxord L ∧
          (if op = .delete then fun k => if d.path par <+: k.par then [] else a1 k
            else effect (d.path par) (some op) kids a1 : Cont) L = a1 L) := by
      have hLne : ∀ L : LPath, d.path par <+: L.par → L.par ≠ par := by
        intro L h he
        rw [he] at h
        exact path_not_prefix h
      by_cases hd : op = .delete
      · refine ⟨_, if_pos hd, ?_, ?_⟩
        · intro L hL
          rw [if_pos hd]
          by_cases hin : d.path par <+: L.par
          · simp only [if_pos hin]
            rw [mAt_par (hLne L hin)]
            have h2 := e2 L hL
            rw [mAt_par (hLne L hin)] at h2
            obtain ⟨c, -, hc⟩ := h2
            refine ⟨[], rfl, ?_⟩
            refine ⟨by simp, by simp, by simp [DB.clear, hin, chain], by simp, by simp, by simp, by simp, Or.inl rfl, ?_,
              Nat.zero_le _, ?_⟩
            · exact hc.gapv
            · intro v hvv
              have := hc.bv v hvv
              omega
          · simp only [if_neg hin]
            exact ((e2 L hL).frame (db' := x.1.clear (d.path par)) (by simp [DB.clear, hin]) rfl).mono
              (Nat.le_add_right _ _)
        · intro L hL
          have hin : ¬ d.path par <+: L.par := fun h => hL (path_prefix h)
          rw [if_pos hd]
          simp [DB.clear, hin]
      · obtain ⟨db2, f1, f2, f3⟩ := ihk (d.path par) (some op) x.1 0 a1 (B + gap) (hvk hd) hpl2 hk2 ho2
          (fun h => absurd rfl h)
          (by
            intro L hL
            rw [mAt_zero]
            have := e2 L (path_prefix hL)
            rwa [mAt_par (hLne L hL)] at this)
        refine ⟨db2, by rw [if_neg hd]; exact f1, ?_, ?_⟩
        · intro L hL
          rw [if_neg hd]
          by_cases hin : d.path par <+: L.par
          · rw [mAt_par (hLne L hin)]
            exact f2 L hin
          · have := f3 L hin
            rw [this.2.2]
            exact ((e2 L hL).frame this.1 this.2.1).mono (Nat.le_add_right _ _)
        · intro L hL
          rw [if_neg hd]
          exact f3 L (fun h => hL (path_prefix h))
    obtain ⟨db2, g1, g2, g3⟩ := hkids
    obtain ⟨db3, r1, r2, r3⟩ := ihr par pop db2 x.2 _ (B + gap + gap * size kids) hvr hpl3 hk3 ho3 e3 g2
    have heff : effect par pop (.cons d kids rest) a = effect par pop rest
        (if op = .delete then fun k => if d.path par <+: k.par then [] else a1 k
            else effect (d.path par) (some op) kids a1) := by
      simp only [effect, hgd, ha1]
    refine ⟨db3, ?_, ?_, ?_⟩
    · simp only [store, hop, e1, R.bind, g1, r1]
    · intro L hL
      rw [heff]
      refine (r2 L hL).mono ?_
      simp only [size, Nat.mul_add, Nat.mul_one]
      omega
    · intro L hL
      rw [heff]
      have h1 := r3 L hL
      have h2 := g3 L hL
      have h3 := e4 L hL
      exact ⟨h1.1.trans (h2.1.trans h3.1), h1.2.1.trans (h2.2.1.trans h3.2),
        h1.2.2.trans (h2.2.2.trans (ha1out L hL))⟩

end Verif.DbUo
