import Verif.EditAddStepLemmas
/-!
The invariant after a call for an item that is not in the edit yet.
-/
namespace Verif.EditAdd
open Verif.Edit (Id Path Kind Op Tree Edit get)

theorem effect_set {K : Nat → Kind} {g g' : Data} {s sh : Bool} {p : Path} {v : Nat} (h : effect K g (.set s sh p v) = some g') :
    (s = true → g p = none ∨ kindAt K p = some .leaf ∧ ∃ w, g p = some (w, true)) ∧
    (sh = true → p.dropLast ≠ [] → g p.dropLast ≠ none) ∧
    (g' p = some (v, (g p).any fun x => x.2 && kindAt K p ≠ some .leaf && kindAt K p ≠ some .leaflist)) ∧
    (∀ q, q ≠ [] → q ≠ p → q <+: p → g' q = some ((g q).getD (0, false))) ∧
    (∀ q, q ≠ p → (q = [] ∨ ¬ q <+: p ∨ g q ≠ none) → g' q = g q) := by
  simp only [effect] at h
  split at h
  · cases h
  · next h1 =>
    split at h
    · cases h
    · next h2 =>
      simp only [Option.some.injEq] at h
      subst h
      refine ⟨?_, ?_, ?_, ?_, ?_⟩
      · intro hs
        subst hs
        cases hg : g p with
        | none => exact .inl rfl
        | some x =>
          obtain ⟨w, b⟩ := x
          simp [hg] at h1
          exact .inr ⟨h1.2, w, by rw [h1.1]⟩
      · intro hs hp hn
        subst hs
        simp [hp, hn] at h2
      · simp
      · intro q h3 h4 h5
        simp only [h4, if_false, h3, ne_eq, not_false_eq_true, h5, true_and]
        cases hg : g q <;> simp
      · intro q h3 h4
        simp only [h3, if_false]
        rw [if_neg]
        rintro ⟨h5, h6, h7⟩
        rcases h4 with h | h | h
        · exact h5 h
        · exact h h6
        · exact h h7

theorem effect_del {K : Nat → Kind} {g g' : Data} {s : Bool} {p : Path} (h : effect K g (.del s p) = some g') :
    (s = true → g p ≠ none ∧ ¬ ((kindAt K p = some .leaf ∨ kindAt K p = some .leaflist) ∧ ∃ w, g p = some (w, true))) ∧
    (∀ q, p <+: q → g' q = none) ∧ (∀ q, ¬ p <+: q → g' q = g q) := by
  simp only [effect] at h
  split at h
  · cases h
  · next h1 =>
    simp only [Option.some.injEq] at h
    subst h
    refine ⟨?_, fun q h => by simp [h], fun q h => by simp [h]⟩
    intro hs
    subst hs
    cases hg : g p with
    | none => simp [hg] at h1
    | some x =>
      obtain ⟨w, b⟩ := x
      refine ⟨by simp, ?_⟩
      rintro ⟨h2, w', h3⟩
      simp only [Option.some.injEq, Prod.mk.injEq] at h3
      obtain ⟨rfl, rfl⟩ := h3
      rw [hg] at h1
      apply h1
      rcases h2 with h2 | h2 <;> simp [h2]

theorem effect_closed {K : Nat → Kind} {g g' : Data} {c : Call} (hg : Closed g) (h : effect K g c = some g') : Closed g' := by
  cases c with
  | set s sh p v =>
    obtain ⟨_, _, h1, h2, h3⟩ := effect_set h
    intro q r hq hn
    have hqp : ¬ q <+: p := by
      intro hqp
      by_cases e : q = p
      · subst e; rw [h1] at hn; cases hn
      · rw [h2 q hq e hqp] at hn; cases hn
    have hne : q ++ r ≠ p := fun e => hqp ⟨r, e⟩
    have hq' : q ≠ p := fun e => hqp (e ▸ List.prefix_refl _)
    rw [h3 _ hne (.inr (.inl (fun e => hqp ((List.prefix_append _ _).trans e))))]
    rw [h3 q hq' (.inr (.inl hqp))] at hn
    exact hg q r hq hn
  | del s p =>
    obtain ⟨_, h1, h2⟩ := effect_del h
    intro q r hq hn
    by_cases hp : p <+: q ++ r
    · exact h1 _ hp
    · rw [h2 _ hp]
      have : ¬ p <+: q := fun e => hp (e.trans (List.prefix_append _ _))
      rw [h2 _ this] at hn
      exact hg q r hq hn

theorem closed_prefix {g : Data} (hg : Closed g) {q p : Path} (hq : q ≠ []) (h : q <+: p) (hp : g p ≠ none) : g q ≠ none := by
  obtain ⟨r, rfl⟩ := h
  exact fun e => hp (hg q r hq e)

theorem valued_inner {K : Nat → Kind} {f : Data} (hf : Valued K f) {q : Path} (hi : Inner K q) {x : Nat × Bool} (h : f q = some x) :
    f q = some (0, x.2) := by
  have := hf q x h hi.1
  rw [h, ← this]

/-- Merging an inner node without a value. -/
theorem sem_merge_inner {K : Nat → Kind} {f g' : Data} (hf : Valued K f) {q : Path} (hi : Inner K q)
    (h : g' q = some ((f q).getD (0, false))) : Sem K f g' .merge 0 q := by
  simp only [Sem, h]
  cases hx : f q with
  | none => simp
  | some x =>
    have := valued_inner hf hi hx
    rw [hx] at this
    obtain ⟨w, b⟩ := x
    simp only [Option.some.injEq, Prod.mk.injEq] at this
    simp [this.1, hi.1, hi.2]

theorem rem_none {K : Nat → Kind} {f g : Data} {hist : List Call} {es : List ENode} (I : Inv K f hist g es) {r : Path} (h : Rem (eff es r)) :
    r ≠ [] ∧ g r = none := by
  have hr : r ≠ [] := by rintro rfl; simp [Rem] at h
  refine ⟨hr, ?_⟩
  rcases h with h | h
  · obtain ⟨⟨o, v⟩, hx⟩ := info_of_eff h
    simpa [Sem] using I.sem r _ o v h hx
  · obtain ⟨⟨o, v⟩, hx⟩ := info_of_eff h
    have := I.sem r _ o v h hx
    simp only [Sem] at this
    exact this.1

theorem not_gone_of {K : Nat → Kind} {f g : Data} {hist : List Call} {es : List ENode} (I : Inv K f hist g es) {q : Path} (h : g q ≠ none) :
    ¬ Gone es q := by
  rintro ⟨r, hr, hrem⟩
  obtain ⟨h0, h1⟩ := rem_none I hrem
  exact closed_prefix I.closed h0 hr h h1

/-- The operations in nodes on the way down from an `ether` node. -/
theorem ether_chain {K : Nat → Kind} {f g : Data} {hist : List Call} {es : List ENode} (I : Inv K f hist g es) {p : Path} {b : Nat} :
    ∀ b', b ≤ b' → b' ≤ p.length → (∀ m, 1 ≤ m → m ≤ b' → info es (p.take m) ≠ none) → eff es (p.take b) = some .ether →
      eff es (p.take b') = some .ether ∨ Rem (eff es (p.take b')) := by
  intro b'
  induction b' with
  | zero => intro h _ _ he; have : b = 0 := by omega
            subst this; simp at he
  | succ n ih =>
    intro h1 h2 hpres he
    by_cases hb : b = n + 1
    · subst hb; exact .inl he
    · have e := take_snoc (p := p) (n := n) (by omega)
      obtain ⟨o, ho⟩ := eff_some_of_info I.top _ (hpres (n + 1) (by omega) (by omega))
      rw [ho]
      rw [e] at ho
      have hd := I.down _ _ _ ho
      rcases ih (by omega) (by omega) (fun m h1 h2 => hpres m h1 (by omega)) he with h | h
      · rcases hd.1 h with rfl | rfl
        · exact .inl rfl
        · exact .inr (.inl rfl)
      · rcases hd.2 h with rfl | rfl
        · exact .inr (.inl rfl)
        · exact .inr (.inr rfl)

theorem rem_chain {K : Nat → Kind} {f g : Data} {hist : List Call} {es : List ENode} (I : Inv K f hist g es) {p : Path} {b : Nat} :
    ∀ b', b ≤ b' → b' ≤ p.length → (∀ m, 1 ≤ m → m ≤ b' → info es (p.take m) ≠ none) → Rem (eff es (p.take b)) → Rem (eff es (p.take b')) := by
  intro b'
  induction b' with
  | zero => intro h _ _ he; have : b = 0 := by omega
            subst this; exact he
  | succ n ih =>
    intro h1 h2 hpres he
    by_cases hb : b = n + 1
    · subst hb; exact he
    · have e := take_snoc (p := p) (n := n) (by omega)
      obtain ⟨o, ho⟩ := eff_some_of_info I.top _ (hpres (n + 1) (by omega) (by omega))
      rw [ho]
      rw [e] at ho
      rcases (I.down _ _ _ ho).2 (ih (by omega) (by omega) (fun m h1 h2 => hpres m h1 (by omega)) he) with rfl | rfl
      · exact .inl rfl
      · exact .inr rfl

theorem dropLast_take (p : Path) : p.dropLast = p.take (p.length - 1) := List.dropLast_eq_take

theorem inner_of {K : Nat → Kind} {p : Path} (h : ItemPath K p) : ∀ m, 1 ≤ m → m < p.length → Inner K (p.take m) := by
  intro m h1 h2
  refine h.2 _ (take_ne_nil h1 h.1) (List.take_prefix _ _) ?_
  intro e; have := congrArg List.length e; simp at this; omega

theorem inv_set_absent {C : Cfg} {f g g' : Data} {hist : List Call} {es es' : List ENode} {s sh : Bool} {p : Path} {v a k : Nat}
    (I : Inv C.K f hist g es) (hf : Closed f) (hfv : Valued C.K f) (hv : Valid C.K (.set s sh p v)) (ho : InOrder hist g (.set s sh p v))
    (he : effect C.K g (.set s sh p v) = some g') (A : Added (Call.set s sh p v).defOp (Call.set s sh p v).op (some v) p es es' a k) :
    Inv C.K f (.set s sh p v :: hist) g' es' := by
  obtain ⟨hip, hv0⟩ := hv
  have hp := hip.1
  have hlen : 0 < p.length := List.length_pos_iff.mpr hp
  have plast : p.take p.length = p := List.take_length
  obtain ⟨e1, e2, e3, e4, e5⟩ := effect_set he
  have hin := inner_of hip
  have alt := A.alt
  have hab : info es p = none := by have := A.new p.length A.alt (Nat.le_refl _); rwa [plast] at this
  have hnr : ∀ q, q <+: p → ¬ Rem (eff es q) := by
    intro q hq hr
    obtain ⟨s', r, h1, h2⟩ := I.deleted q hr
    exact ho s' r h1 (h2.trans hq)
  have hng : ∀ q, q <+: p → ¬ Gone es q := by
    rintro q hq ⟨r, h1, h2⟩; exact hnr r (h1.trans hq) h2
  have hnewg : ∀ m, a < m → m ≤ p.length → g (p.take m) = f (p.take m) := by
    intro m h1 h2
    exact I.kept _ (take_ne_nil (by omega) hp) (A.new m h1 h2) (hng _ (List.take_prefix _ _))
  have hgp : g p = f p := by have := hnewg p.length alt (Nat.le_refl _); rwa [plast] at this
  have hpar : sh = true → ∀ m, 1 ≤ m → m < p.length → g (p.take m) ≠ none := by
    intro hs m h1 h2
    have hdl := dropLast_take p
    have hdl0 : p.dropLast ≠ [] := by rw [hdl]; exact take_ne_nil (by omega) hp
    refine closed_prefix I.closed (take_ne_nil h1 hp) ?_ (e2 hs hdl0)
    rw [hdl]; exact take_prefix_take (by omega)
  have hne : ∀ m, m < p.length → p.take m ≠ p := by
    intro m h e; have := congrArg List.length e; simp at this; omega
  have hg'q : ∀ m, 1 ≤ m → m < p.length → g' (p.take m) = some ((g (p.take m)).getD (0, false)) := fun m h1 h2 =>
    e4 _ (take_ne_nil h1 hp) (hne m h2) (List.take_prefix _ _)
  have hg's : ∀ m, 1 ≤ m → m < p.length → g (p.take m) ≠ none → g' (p.take m) = g (p.take m) := fun m h1 h2 h3 =>
    e5 _ (hne m h2) (.inr (.inr h3))
  have semOld : ∀ m o, 1 ≤ m → m ≤ a → eff es (p.take m) = some o → Sem C.K f g o 0 (p.take m) := by
    intro m o h1 h2 ho
    obtain ⟨⟨o', w⟩, hx⟩ := info_of_eff ho
    have := I.sem _ o o' w ho hx
    rw [(I.shape _ _ _ hx).1 (hin m h1 (by omega)).1] at this
    exact this
  have hdef : (Call.set s sh p v).defOp = if sh then .none else .merge := rfl
  have hnoeth : (Call.set s sh p v).defOp ≠ .ether := by rw [hdef]; split <;> simp
  refine inv_of_added (c := .set s sh p v) I hp A hin (fun h => by rw [hv0 h]) (fun h => by cases h)
    (.inr (fun m h1 h2 => hnr _ (List.take_prefix _ _))) (effect_closed I.closed he) ?_ ?_ ?_ ?_
  · intro m o h1 h2 heff
    show Sem C.K f g' o 0 (p.take m)
    simp only [Call.path] at h2 heff
    by_cases hk : k ≤ m
    · rw [A.chain m hk h2] at heff
      cases heff
      have hgf : g (p.take m) = f (p.take m) := by
        by_cases hma : m ≤ a
        · obtain ⟨o2, ho2, hs2⟩ := A.sup (by omega) m hk h2
          rw [Nat.min_eq_left hma] at ho2
          have hs := semOld m o2 h1 hma ho2
          have : o2 = .ether ∨ o2 = .none := by
            have hnr2 := hnr _ (List.take_prefix m p)
            rw [ho2] at hnr2
            obtain ⟨d', hd'⟩ := hs2
            cases o2 <;> simp_all [superior, Rem, Call.defOp] <;> (cases sh <;> simp_all)
          rcases this with rfl | rfl
          · exact hs
          · simp only [Sem] at hs; exact hs.1
        · exact hnewg m (by omega) (by omega)
      cases hsh : sh with
      | false =>
        have : (Call.set s false p v).defOp = .merge := rfl
        rw [this]
        refine sem_merge_inner hfv (hin m h1 h2) ?_
        rw [hg'q m h1 h2, hgf]
      | true =>
        have : (Call.set s true p v).defOp = .none := rfl
        rw [this]
        have hgn := hpar hsh m h1 h2
        simp only [Sem]
        rw [hg's m h1 h2 hgn]
        exact ⟨hgf, hgf ▸ hgn⟩
    · rw [A.above m (by omega) h2] at heff
      have ha : a ≠ 0 := fun h => by have := A.first h; omega
      obtain ⟨o2, ho2, hs2⟩ := A.stop (by omega)
      have hne' : o ≠ .ether := by
        rintro rfl
        have h3 := ether_chain I (p := p) (b := min m a) (min (k - 1) a) (by omega) (by omega) (fun m h1 h2 => A.old m h1 (by omega)) heff
        rcases h3 with h3 | h3
        · rw [h3] at ho2; cases ho2; exact hs2 (sup_ether hnoeth)
        · exact hnr _ (List.take_prefix _ _) h3
      have hnr1 := hnr _ (List.take_prefix (min m a) p)
      rw [heff] at hnr1
      have hs := semOld (min m a) o (by omega) (by omega) heff
      by_cases hma : m ≤ a
      · rw [Nat.min_eq_left hma] at hs heff
        have hgn : g (p.take m) ≠ none := by
          cases o with
          | none => simp only [Sem] at hs; rw [hs.1]; exact hs.2
          | merge => simp only [Sem] at hs; rw [hs]; simp
          | create => simp only [Sem] at hs; rw [hs.2]; simp
          | ether => exact absurd rfl hne'
          | remove => exact absurd (.inl rfl) hnr1
          | delete => exact absurd (.inr rfl) hnr1
          | replace => exact absurd hs (by simp [Sem])
          | purge => exact absurd hs (by simp [Sem])
        exact hs.congr (hg's m h1 h2 hgn)
      · rw [Nat.min_eq_right (by omega)] at hs heff
        have hgf := hnewg m (by omega) (by omega)
        cases o with
        | none =>
          have hkk : min (k - 1) a = a := by omega
          rw [hkk, heff] at ho2
          cases ho2
          cases hsh : sh with
          | false =>
            subst hsh
            exact absurd ⟨.merge, by simp [superior, Call.defOp]⟩ hs2
          | true =>
            have hgn := hpar hsh m h1 h2
            simp only [Sem]
            rw [hg's m h1 h2 hgn]
            exact ⟨hgf, hgf ▸ hgn⟩
        | merge =>
          refine sem_merge_inner hfv (hin m h1 h2) ?_
          rw [hg'q m h1 h2, hgf]
        | create =>
          have hfa : f (p.take a) = none := by
            simp only [Sem] at hs
            rcases hs.1 with h | h
            · exact h
            · exact absurd h.1 (hin a (by omega) alt).1
          have hfm : f (p.take m) = none := by
            obtain ⟨r, hr⟩ := take_prefix_take (p := p) (m := a) (n := m) (by omega)
            rw [← hr]
            exact hf _ r (take_ne_nil (by omega) hp) hfa
          simp only [Sem]
          rw [hg'q m h1 h2, hgf, hfm]
          exact ⟨.inl rfl, rfl⟩
        | ether => exact absurd rfl hne'
        | remove => exact absurd (.inl rfl) hnr1
        | delete => exact absurd (.inr rfl) hnr1
        | replace => exact absurd hs (by simp [Sem])
        | purge => exact absurd hs (by simp [Sem])
  · show Sem C.K f g' (Call.set s sh p v).op v p
    rw [hgp] at e1 e3
    cases s with
    | false =>
      show g' p = _
      rw [e3]
      congr 2
      cases hx : f p with
      | none => rfl
      | some x =>
        by_cases hi : kindAt C.K p = some .leaf
        · simp [hi]
        · have h1 := hfv p x hx hi
          have h2 := hv0 hi
          simp [h1, h2]
    | true =>
      show _ ∧ _
      refine ⟨e1 rfl, ?_⟩
      rw [e3]
      rcases e1 rfl with h | ⟨h, _⟩
      · simp [h]
      · simp [h]
  · intro q _ _ hr
    exfalso
    cases s <;> simp [Rem, Call.op] at hr
  · intro q h1 _
    exact e5 q (fun e => h1 (e ▸ List.prefix_refl _)) (.inr (.inl h1))

theorem inv_del_absent {C : Cfg} {f g g' : Data} {hist : List Call} {es es' : List ENode} {s : Bool} {p : Path} {v : Option Nat} {a k : Nat}
    (I : Inv C.K f hist g es) (hf : Closed f) (hfv : Valued C.K f) (hip : ItemPath C.K p) (ho : InOrder hist g (.del s p))
    (hv0 : kindAt C.K p ≠ some .leaf → v = some 0)
    (he : effect C.K g (.del s p) = some g') (A : Added (Call.del s p).defOp (Call.del s p).op v p es es' a k) :
    Inv C.K f (.del s p :: hist) g' es' := by
  have hp := hip.1
  have hlen : 0 < p.length := List.length_pos_iff.mpr hp
  have plast : p.take p.length = p := List.take_length
  obtain ⟨e1, e2, e3⟩ := effect_del he
  have hin := inner_of hip
  have alt := A.alt
  have hab : info es p = none := by have := A.new p.length A.alt (Nat.le_refl _); rwa [plast] at this
  have hnp : ∀ m, m < p.length → ¬ p <+: p.take m := by
    intro m h h'; have := h'.length_le; simp at this; omega
  have hg' : ∀ m, m < p.length → g' (p.take m) = g (p.take m) := fun m h => e3 _ (hnp m h)
  have semOld : ∀ m o, 1 ≤ m → m ≤ a → eff es (p.take m) = some o → Sem C.K f g o 0 (p.take m) := by
    intro m o h1 h2 ho
    obtain ⟨⟨o', w⟩, hx⟩ := info_of_eff ho
    have := I.sem _ o o' w ho hx
    rw [(I.shape _ _ _ hx).1 (hin m h1 (by omega)).1] at this
    exact this
  -- either everything above exists, or there are only non-strict deletions in the tree
  have hcase : (∀ m, 1 ≤ m → m < p.length → g (p.take m) ≠ none) ∨
      (s = false ∧ ∀ m o, 1 ≤ m → m ≤ a → eff es (p.take m) = some o → o = .ether ∨ o = .remove) := by
    have strict : s = true → (∀ m, 1 ≤ m → m < p.length → g (p.take m) ≠ none) := by
      intro hs m h1 h2
      exact closed_prefix I.closed (take_ne_nil h1 hp) (List.take_prefix _ _) (e1 hs).1
    rcases ho with ⟨ho, _⟩ | ho
    · left
      intro m h1 h2
      rcases ho with ho | ho
      · omega
      · refine closed_prefix I.closed (take_ne_nil h1 hp) ?_ ho
        rw [dropLast_take]; exact take_prefix_take (by omega)
    · cases hs : s with
      | true => exact .inl (strict hs)
      | false =>
        right
        refine ⟨rfl, fun m o h1 h2 heff => ?_⟩
        by_cases h3 : o = .ether ∨ o = .remove
        · exact h3
        · obtain ⟨c, hc, hh, hr⟩ := I.made _ o heff (fun e => h3 (.inl e)) (fun e => h3 (.inr e))
          rw [head_take h1] at hh
          obtain ⟨r, hr'⟩ := ho c hc hh
          exact absurd hr' (hr r)
  have hpar : s = true → ∀ m, 1 ≤ m → m < p.length → g (p.take m) ≠ none := by
    intro hs
    rcases hcase with h | h
    · exact h
    · rw [h.1] at hs; cases hs
  have hkeptA : ∀ m, a < m → m ≤ p.length → g (p.take m) ≠ none → g (p.take m) = f (p.take m) := by
    intro m h1 h2 h3
    exact I.kept _ (take_ne_nil (by omega) hp) (A.new m h1 h2) (not_gone_of I h3)
  have hd : (Call.del s p).defOp = .ether ∨ ∀ m, 1 ≤ m → m < p.length → ¬ Rem (eff es (p.take m)) := by
    cases hs : s with
    | false => exact .inl rfl
    | true =>
      right
      intro m h1 h2 hr
      exact hpar hs m h1 h2 (rem_none I hr).2
  refine inv_of_added (c := .del s p) I hp A hin hv0 (fun _ => by cases s <;> simp [Rem, Call.op]) hd (effect_closed I.closed he) ?_ ?_ ?_ ?_
  · intro m o h1 h2 heff
    show Sem C.K f g' o 0 (p.take m)
    simp only [Call.path] at h2 heff
    refine Sem.congr (g := g) ?_ (hg' m h2)
    by_cases hk : k ≤ m
    · rw [A.chain m hk h2] at heff
      cases heff
      cases hs : s with
      | false =>
        show g (p.take m) = f (p.take m)
        have ha : a = 0 := by
          by_cases ha : a = 0
          · exact ha
          · obtain ⟨o2, ho2, hs2⟩ := A.sup ha m hk h2
            rw [hs] at hs2
            exact absurd hs2 (not_sup_ether _)
        refine I.kept _ (take_ne_nil h1 hp) (A.new m (by omega) (by omega)) ?_
        rintro ⟨r, hr, hrem⟩
        have hrp : r <+: p := hr.trans (List.take_prefix _ _)
        have hre := List.prefix_iff_eq_take.mp hrp
        have hr0 := (rem_none I hrem).1
        have := A.new r.length (by have := List.length_pos_iff.mpr hr0; omega) hrp.length_le
        rw [← hre] at this
        rw [eff_absent this] at hrem
        simp [Rem] at hrem
      | true =>
        show g (p.take m) = f (p.take m) ∧ f (p.take m) ≠ none
        have hgn := hpar hs m h1 h2
        have hgf : g (p.take m) = f (p.take m) := by
          by_cases hma : m ≤ a
          · obtain ⟨o2, ho2, hs2⟩ := A.sup (by omega) m hk h2
            rw [Nat.min_eq_left hma] at ho2
            have : o2 = .ether := by
              rw [hs] at hs2
              obtain ⟨d', hd'⟩ := hs2
              cases o2 <;> simp_all [superior, Call.defOp]
            subst this
            exact semOld m _ h1 hma ho2
          · exact hkeptA m (by omega) (by omega) hgn
        exact ⟨hgf, hgf ▸ hgn⟩
    · rw [A.above m (by omega) h2] at heff
      have ha : a ≠ 0 := fun h => by have := A.first h; omega
      by_cases hma : m ≤ a
      · rw [Nat.min_eq_left hma] at heff
        exact semOld m o h1 hma heff
      · rw [Nat.min_eq_right (by omega)] at heff
        have hs := semOld a o (by omega) (by omega) heff
        rcases hcase with hc | ⟨_, hc⟩
        · have hgn := hc m h1 h2
          have hgf := hkeptA m (by omega) (by omega) hgn
          have hga := hc a (by omega) alt
          cases o with
          | ether => exact hgf
          | none => exact ⟨hgf, hgf ▸ hgn⟩
          | merge =>
            refine sem_merge_inner hfv (hin m h1 h2) ?_
            obtain ⟨x, hx⟩ := Option.ne_none_iff_exists'.mp hgn
            rw [← hgf, hx]; rfl
          | create =>
            exfalso
            have hfa : f (p.take a) = none := by
              simp only [Sem] at hs
              rcases hs.1 with h | h
              · exact h
              · exact absurd h.1 (hin a (by omega) alt).1
            obtain ⟨r, hr⟩ := take_prefix_take (p := p) (m := a) (n := m) (by omega)
            rw [hgf, ← hr] at hgn
            exact hgn (hf _ r (take_ne_nil (by omega) hp) hfa)
          | remove => exact absurd hs hga
          | delete => simp only [Sem] at hs; exact absurd hs.1 hga
          | replace => exact absurd hs (by simp [Sem])
          | purge => exact absurd hs (by simp [Sem])
        · have hab' := A.new m (by omega) (by omega)
          rcases hc a o (by omega) (by omega) heff with rfl | rfl
          · refine I.kept _ (take_ne_nil h1 hp) hab' ?_
            rintro ⟨r, hr, hrem⟩
            have hrp : r <+: p := hr.trans (List.take_prefix _ _)
            have hre := List.prefix_iff_eq_take.mp hrp
            have hra : r.length ≤ a := by
              by_cases h : r.length ≤ a
              · exact h
              · have := A.new r.length (by omega) hrp.length_le
                rw [← hre] at this
                rw [eff_absent this] at hrem
                simp [Rem] at hrem
            rw [hre] at hrem
            have := rem_chain I a hra (by omega) (fun m h1 h2 => A.old m h1 h2) hrem
            rw [heff] at this
            simp [Rem] at this
          · exact I.gone _ (take_ne_nil h1 hp) hab' ⟨p.take a, take_prefix_take (by omega), .inl heff⟩
  · show Sem C.K f g' (Call.del s p).op (v.getD 0) p
    have hgn := e2 p (List.prefix_refl _)
    cases hs : s with
    | false => exact hgn
    | true =>
      obtain ⟨h1, h2⟩ := e1 hs
      have hgf := hkeptA p.length alt (Nat.le_refl _)
      rw [plast] at hgf
      have hgf := hgf h1
      refine ⟨hgn, hgf ▸ h1, ?_⟩
      rw [← hgf]; exact h2
  · intro q _ h _; exact e2 q h
  · intro q _ h
    refine e3 q (fun h' => h h' ?_)
    cases s <;> simp [Rem, Call.op]

end Verif.EditAdd
