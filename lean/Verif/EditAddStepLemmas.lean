import Verif.EditAddInvLemmas
/-!
The invariant after adding a new node.
-/
namespace Verif.EditAdd
open Verif.Edit (Id Path Kind Op Tree Edit get)

theorem Sem.congr {K : Nat → Kind} {f g g' : Data} {o : Op} {v : Nat} {q : Path} (h : Sem K f g o v q) (e : g' q = g q) : Sem K f g' o v q := by
  cases o <;> simp only [Sem] at h ⊢ <;> (try rw [e]) <;> exact h

theorem take_ne_nil {p : Path} {m : Nat} (h : 1 ≤ m) (hp : p ≠ []) : p.take m ≠ [] := by
  intro e; rw [List.take_eq_nil_iff] at e
  rcases e with e | e
  · omega
  · exact hp e

theorem head_take {p : Path} {m : Nat} (h : 1 ≤ m) : (p.take m).head? = p.head? := by
  cases m with
  | zero => omega
  | succ m => cases p <;> simp

theorem take_prefix_take {p : Path} {m n : Nat} (h : m ≤ n) : p.take m <+: p.take n := by
  refine ⟨(p.take n).drop m, ?_⟩
  have : (p.take n).take m = p.take m := by rw [List.take_take, Nat.min_eq_left h]
  rw [← this, List.take_append_drop]

theorem defOp_cases (c : Call) : c.defOp = .merge ∨ c.defOp = .none ∨ c.defOp = .ether := by
  cases c with
  | set s sh p v => cases sh <;> simp [Call.defOp]
  | del s p => cases s <;> simp [Call.defOp]

theorem op_cases (c : Call) : c.op = .merge ∨ c.op = .create ∨ c.op = .remove ∨ c.op = .delete := by
  cases c with
  | set s sh p v => cases s <;> simp [Call.op]
  | del s p => cases s <;> simp [Call.op]

theorem op_remove_of_ether {c : Call} (h : c.defOp = .ether) : c.op = .remove := by
  cases c with
  | set s sh p v => cases sh <;> simp [Call.defOp] at h
  | del s p => cases s <;> simp [Call.defOp, Call.op] at h ⊢

theorem sup_ether {c : Call} (h : c.defOp ≠ .ether) : Sup c.defOp .ether := by
  rcases defOp_cases c with h' | h' | h'
  · exact ⟨.merge, by simp [h', superior]⟩
  · exact ⟨.none, by simp [h', superior]⟩
  · exact absurd h' h

theorem inv_of_added {K : Nat → Kind} {f g g' : Data} {hist : List Call} {es es' : List ENode} {c : Call} {v : Option Nat} {a k : Nat}
    (I : Inv K f hist g es) (hp : c.path ≠ []) (A : Added c.defOp c.op v c.path es es' a k)
    (hin : ∀ m, 1 ≤ m → m < c.path.length → Inner K (c.path.take m))
    (hval : kindAt K c.path ≠ some .leaf → v = some 0) (hopq : v = none → Rem (some c.op))
    (hd : c.defOp = .ether ∨ ∀ m, 1 ≤ m → m < c.path.length → ¬ Rem (eff es (c.path.take m)))
    (hcl : Closed g')
    (hs1 : ∀ m o, 1 ≤ m → m < c.path.length → eff es' (c.path.take m) = some o → Sem K f g' o 0 (c.path.take m))
    (hs2 : Sem K f g' c.op (v.getD 0) c.path)
    (hg1 : ∀ q, ¬ q <+: c.path → c.path <+: q → Rem (some c.op) → g' q = none)
    (hg2 : ∀ q, ¬ q <+: c.path → (c.path <+: q → ¬ Rem (some c.op)) → g' q = g q) :
    Inv K f (c :: hist) g' es' := by
  obtain ⟨p, hpc⟩ : ∃ p, p = c.path := ⟨_, rfl⟩
  rw [← hpc] at hp A hin hval hd hs1 hs2 hg1 hg2
  have hlen : 0 < p.length := List.length_pos_iff.mpr hp
  have plast : p.take p.length = p := List.take_length
  have hab : info es p = none := by have := A.new p.length A.alt (Nat.le_refl _); rwa [plast] at this
  have hbelow : ∀ q, p <+: q → info es q = none := by
    rintro _ ⟨r, rfl⟩
    cases hx : info es (p ++ r) with
    | none => rfl
    | some x => exact absurd hab (info_prefix hp (by rw [hx]; simp))
  have hlastE : eff es' p = some c.op := eff_of_own A.last
  -- presence
  have pres : ∀ q, info es q ≠ none → info es' q ≠ none := by
    intro q hq
    have := A.vals q
    rw [if_neg (fun h => hq h.2.2)] at this
    intro hn
    rw [hn] at this
    cases hx : info es q with
    | none => exact hq hx
    | some x => rw [hx] at this; simp at this
  have presC : ∀ q, q ≠ [] → q <+: p → info es' q ≠ none := by
    intro q h1 h2 hn
    by_cases h3 : info es q = none
    · have := A.vals q
      rw [if_pos ⟨h1, h2, h3⟩, hn] at this
      cases this
    · exact pres q h3 hn
  have offV : ∀ q, ¬ q <+: p → (info es' q).map (·.2) = (info es q).map (·.2) := by
    intro q hq; rw [A.vals, if_neg (fun h => hq h.2.1)]
  have chainV : ∀ m, 1 ≤ m → m < p.length → ∀ o w, info es' (p.take m) = some (o, w) → w = some 0 := by
    intro m h1 h2 o w hi
    have := A.vals (p.take m)
    have hne : p.take m ≠ p := by intro e; have := congrArg List.length e; simp at this; omega
    rw [hi] at this
    split at this
    · simpa [hne] using this
    · cases hx : info es (p.take m) with
      | none => rw [hx] at this; simp at this
      | some x =>
        obtain ⟨o', w'⟩ := x
        rw [hx] at this
        have hw := (I.shape _ _ _ hx).1 (hin m h1 h2).1
        simp only [Option.map_some, Option.some.injEq] at this
        rw [this, hw]
  -- removals on the chain
  have hrem : ∀ m, 1 ≤ m → m < p.length → (Rem (eff es' (p.take m)) ↔ Rem (eff es (p.take (min m a)))) := by
    intro m h1 h2
    by_cases hk : m < k
    · rw [A.above m hk h2]
    · rw [A.chain m (by omega) h2]
      have hnd : ¬ Rem (some c.defOp) := by
        rcases defOp_cases c with h | h | h <;> simp [Rem, h]
      refine ⟨fun h => absurd h hnd, fun h => ?_⟩
      by_cases ha : a = 0
      · subst ha; simp [Rem] at h
      · obtain ⟨o, ho, hs⟩ := A.sup ha m (by omega) h2
        rcases hd with hd | hd
        · rw [hd] at hs; exact absurd hs (not_sup_ether _)
        · exact absurd h (hd _ (by omega) (by omega))
  have hgone : ∀ q, Gone es' q ↔ (p <+: q ∧ Rem (some c.op)) ∨ Gone es q := by
    intro q
    constructor
    · rintro ⟨r, hr, hrem'⟩
      by_cases hrp : r <+: p
      · rw [List.prefix_iff_eq_take.mp hrp] at hrem' hr
        have hle := hrp.length_le
        by_cases h0 : r.length = 0
        · rw [h0] at hrem'; simp [Rem] at hrem'
        · by_cases h1 : r.length < p.length
          · right
            exact ⟨p.take (min r.length a), (take_prefix_take (by omega)).trans hr, (hrem _ (by omega) h1).mp hrem'⟩
          · have : r.length = p.length := by omega
            rw [this, plast] at hrem' hr
            rw [hlastE] at hrem'
            exact .inl ⟨hr, hrem'⟩
      · rw [A.off r hrp] at hrem'
        exact .inr ⟨r, hr, hrem'⟩
    · rintro (⟨h1, h2⟩ | ⟨r, hr, hrem'⟩)
      · exact ⟨p, h1, by rw [hlastE]; exact h2⟩
      · by_cases hrp : r <+: p
        · have hle := hrp.length_le
          have hre := List.prefix_iff_eq_take.mp hrp
          refine ⟨r, hr, ?_⟩
          by_cases h0 : r.length = 0
          · have : r = [] := List.eq_nil_of_length_eq_zero h0
            subst this; simp [Rem] at hrem'
          · by_cases h1 : r.length ≤ a
            · have := A.alt
              rw [hre, hrem _ (by omega) (by omega), Nat.min_eq_left h1, ← hre]
              exact hrem'
            · have := A.new r.length (by omega) hle
              rw [← hre] at this
              rw [eff_absent this] at hrem'
              simp [Rem] at hrem'
        · exact ⟨r, hr, by rw [A.off r hrp]; exact hrem'⟩
  have kidOff : ∀ q j, ¬ q <+: p → ¬ (q ++ [j]) <+: p := fun q j h h' => h ((List.prefix_append _ _).trans h')
  have alt := A.alt
  refine ⟨hcl, A.top, ?_, ?_, ?_, ?_, ?_, ?_, ?_, ?_, ?_, ?_⟩
  · -- shape
    intro q o w hi
    by_cases hq : q <+: p
    · have hqe := List.prefix_iff_eq_take.mp hq
      have hle := hq.length_le
      have hq0 : q ≠ [] := by rintro rfl; simp at hi
      have hl0 := List.length_pos_iff.mpr hq0
      by_cases hl : q.length < p.length
      · refine ⟨fun _ => ?_, fun h => ?_⟩
        · rw [hqe] at hi; exact chainV _ hl0 hl o w hi
        · have := hin q.length hl0 hl
          rw [← hqe] at this; exact absurd this h
      · have hqp : q = p := by rw [hqe]; have : q.length = p.length := by omega
                               rw [this, plast]
        subst hqp
        rw [A.last] at hi; cases hi
        refine ⟨hval, fun _ j => ?_⟩
        have := offV (q ++ [j]) (fun h => by have := h.length_le; rw [List.length_append, List.length_singleton] at this; omega)
        rw [hbelow _ (List.prefix_append _ _)] at this
        cases hx : info es' (q ++ [j]) with
        | none => rfl
        | some x => rw [hx] at this; simp at this
    · have hv := offV q hq
      rw [hi] at hv
      cases hx : info es q with
      | none => rw [hx] at hv; simp at hv
      | some x =>
        obtain ⟨o', w'⟩ := x
        rw [hx] at hv
        simp only [Option.map_some, Option.some.injEq] at hv
        have := I.shape q o' w' hx
        refine ⟨fun h => by rw [hv]; exact this.1 h, fun h j => ?_⟩
        have hj := offV (q ++ [j]) (kidOff q j hq)
        rw [this.2 h j] at hj
        cases hy : info es' (q ++ [j]) with
        | none => rfl
        | some x => rw [hy] at hj; simp at hj
  · -- tip
    intro q o w hi ht
    by_cases hq : q <+: p
    · have hqe := List.prefix_iff_eq_take.mp hq
      have hle := hq.length_le
      by_cases hl : q.length < p.length
      · exfalso
        have e := take_snoc (p := p) hl
        rw [← hqe] at e
        have := presC (p.take (q.length + 1)) (take_ne_nil (by omega) hp) (List.take_prefix _ _)
        rw [e] at this
        exact this (ht _)
      · have hqp : q = p := by rw [hqe]; have : q.length = p.length := by omega
                               rw [this, plast]
        subst hqp
        rw [A.last] at hi; cases hi
        rcases op_cases c with h | h | h | h <;> simp [h]
    · have hv := offV q hq
      rw [hi] at hv
      cases hx : info es q with
      | none => rw [hx] at hv; simp at hv
      | some x =>
        obtain ⟨o', w'⟩ := x
        have htip := I.tip q o' w' hx (fun j => by
          cases hy : info es (q ++ [j]) with
          | none => rfl
          | some y => exact absurd (ht j) (pres _ (by rw [hy]; simp)))
        obtain ⟨o'', ho''⟩ : ∃ o'', o' = some o'' := by rcases htip with h | h | h | h <;> exact ⟨_, h⟩
        subst ho''
        have := A.own q o'' w' hq hx
        rw [this] at hi; cases hi
        exact htip
  · -- down
    intro q j o ho
    by_cases hqj : (q ++ [j]) <+: p
    · have hq : q <+: p := (List.prefix_append _ _).trans hqj
      have hqe := List.prefix_iff_eq_take.mp hq
      have hle := hqj.length_le
      simp only [List.length_append, List.length_singleton] at hle
      have hjt : q ++ [j] = p.take (q.length + 1) := by simpa using List.prefix_iff_eq_take.mp hqj
      by_cases hq0 : q = []
      · subst hq0; simp [Rem]
      have hl0 := List.length_pos_iff.mpr hq0
      obtain ⟨m, hm⟩ : ∃ m, m = q.length := ⟨_, rfl⟩
      rw [← hm] at hqe hle hjt hl0
      rw [hjt] at ho
      rw [hqe]
      by_cases hl : m + 1 < p.length
      · by_cases hk : m + 1 < k
        · rw [A.above (m + 1) hk hl] at ho
          rw [A.above m (by omega) (by omega)]
          have ha : a ≠ 0 := fun h => by have := A.first h; omega
          by_cases hma : m + 1 ≤ a
          · rw [Nat.min_eq_left hma] at ho
            rw [Nat.min_eq_left (by omega)]
            have e := take_snoc (p := p) (n := m) (by omega)
            rw [e] at ho
            exact I.down _ _ _ ho
          · rw [Nat.min_eq_right (by omega)] at ho ⊢
            rw [ho]
            refine ⟨fun h => .inl (by simpa using h), fun h => by simpa [Rem] using h⟩
        · rw [A.chain (m + 1) (by omega) hl] at ho
          cases ho
          by_cases hk2 : k ≤ m
          · rw [A.chain m hk2 (by omega)]
            refine ⟨fun h => .inl (by simpa using h), fun h => by simpa [Rem] using h⟩
          · have hkm : k = m + 1 := by omega
            rw [A.above m (by omega) (by omega)]
            have ha : a ≠ 0 := fun h => by have := A.first h; omega
            obtain ⟨o', ho', hs'⟩ := A.sup ha (m + 1) (by omega) hl
            have hne : c.defOp ≠ .ether := by intro h; rw [h] at hs'; exact not_sup_ether _ hs'
            obtain ⟨o2, ho2, hs2⟩ := A.stop (by omega)
            have hkk : k - 1 = m := by omega
            rw [hkk] at ho2
            rw [ho2]
            refine ⟨fun h => ?_, fun h => ?_⟩
            · simp only [Option.some.injEq] at h; subst h; exact absurd (sup_ether hne) hs2
            · rcases hd with hd | hd
              · exact absurd hd hne
              · rw [← ho2] at h; exact absurd h (hd _ (by omega) (by omega))
      · have hmp : m + 1 = p.length := by omega
        rw [hmp, plast, hlastE] at ho
        cases ho
        by_cases hop : c.op = .remove
        · simp [hop]
        · have hne : c.defOp ≠ .ether := fun h => hop (op_remove_of_ether h)
          have hd' : ∀ m, 1 ≤ m → m < p.length → ¬ Rem (eff es (p.take m)) := by
            rcases hd with hd | hd
            · exact absurd hd hne
            · exact hd
          refine ⟨fun h => ?_, fun h => ?_⟩
          · exfalso
            by_cases hk : m < k
            · have hkp := A.le
              have hkk : k - 1 = m := by omega
              obtain ⟨o2, ho2, hs2⟩ := A.stop (by omega)
              rw [hkk] at ho2
              rw [A.above m hk (by omega), ho2] at h
              cases h
              exact absurd (sup_ether hne) hs2
            · rw [A.chain m (by omega) (by omega)] at h
              exact hne (by simpa using h)
          · rw [hrem m hl0 (by omega)] at h
            by_cases ha : a = 0
            · subst ha; simp [Rem] at h
            · exact absurd h (hd' _ (by omega) (by omega))
    · rw [A.off _ hqj] at ho
      obtain ⟨x, hx⟩ := info_of_eff ho
      by_cases hq : q <+: p
      · have hqe := List.prefix_iff_eq_take.mp hq
        have hle := hq.length_le
        by_cases hq0 : q = []
        · subst hq0; simp [Rem]
        have hl0 := List.length_pos_iff.mpr hq0
        have hpq : info es q ≠ none := info_prefix hq0 (r := [j]) (by rw [hx]; simp)
        have hqa : q.length ≤ a := by
          by_cases h : q.length ≤ a
          · exact h
          · have := A.new q.length (by omega) hle
            rw [← hqe] at this; exact absurd this hpq
        by_cases hk : q.length < k
        · have := A.above q.length hk (by omega)
          rw [Nat.min_eq_left hqa, ← hqe] at this
          rw [this]; exact I.down q j o ho
        · have h1 := A.chain q.length (by omega) (by omega)
          obtain ⟨o', _, hs'⟩ := A.sup (by omega) q.length (by omega) (by omega)
          have hne : c.defOp ≠ .ether := by intro h; rw [h] at hs'; exact not_sup_ether _ hs'
          rw [← hqe] at h1
          rw [h1]
          refine ⟨fun h => absurd (by simpa using h) hne, fun h => ?_⟩
          rcases defOp_cases c with h' | h' | h' <;> simp [Rem, h'] at h
      · rw [A.off q hq]; exact I.down q j o ho
  · -- sem
    intro q o o' w ho hi
    by_cases hq : q <+: p
    · have hqe := List.prefix_iff_eq_take.mp hq
      have hle := hq.length_le
      have hq0 : q ≠ [] := by rintro rfl; simp at hi
      have hl0 := List.length_pos_iff.mpr hq0
      by_cases hl : q.length < p.length
      · have hw : w = some 0 := by rw [hqe] at hi; exact chainV _ hl0 hl o' w hi
        have := hs1 q.length o hl0 hl (by rw [← hqe]; exact ho)
        rw [← hqe] at this
        rw [hw]; exact this
      · have hqp : q = p := by rw [hqe]; have : q.length = p.length := by omega
                               rw [this, plast]
        subst hqp
        rw [A.last] at hi; cases hi
        rw [hlastE] at ho; cases ho
        exact hs2
    · have hv := offV q hq
      rw [hi] at hv
      cases hx : info es q with
      | none => rw [hx] at hv; simp at hv
      | some x =>
        obtain ⟨o2, w'⟩ := x
        rw [hx] at hv
        simp only [Option.map_some, Option.some.injEq] at hv
        subst hv
        rw [A.off q hq] at ho
        refine (I.sem q o o2 w ho hx).congr (hg2 q hq (fun hpq => ?_))
        rw [hbelow q hpq] at hx; cases hx
  · -- gone
    intro q hq0 hi hgo
    have hq : ¬ q <+: p := fun h => presC q hq0 h hi
    have hes : info es q = none := by
      cases hx : info es q with
      | none => rfl
      | some x => exact absurd hi (pres q (by rw [hx]; simp))
    by_cases hc : p <+: q ∧ Rem (some c.op)
    · exact hg1 q hq hc.1 hc.2
    · rw [hg2 q hq (fun h h' => hc ⟨h, h'⟩)]
      rcases (hgone q).mp hgo with h | h
      · exact absurd h hc
      · exact I.gone q hq0 hes h
  · -- kept
    intro q hq0 hi hgo
    have hq : ¬ q <+: p := fun h => presC q hq0 h hi
    have hes : info es q = none := by
      cases hx : info es q with
      | none => rfl
      | some x => exact absurd hi (pres q (by rw [hx]; simp))
    have hc : ¬ (p <+: q ∧ Rem (some c.op)) := fun h => hgo ((hgone q).mpr (.inl h))
    rw [hg2 q hq (fun h h' => hc ⟨h, h'⟩)]
    exact I.kept q hq0 hes (fun h => hgo ((hgone q).mpr (.inr h)))
  · -- made
    intro q o ho h1 h2
    have self : q ≠ [] → q <+: p → c.op ≠ .remove → ∃ c' ∈ c :: hist, c'.path.head? = q.head? ∧ ∀ r, c' ≠ .del false r := by
      intro hq0 hq hop
      refine ⟨c, by simp, ?_, ?_⟩
      · rw [List.prefix_iff_eq_take.mp hq, head_take (List.length_pos_iff.mpr hq0), hpc]
      · rintro r rfl; simp [Call.op] at hop
    by_cases hq : q <+: p
    · have hqe := List.prefix_iff_eq_take.mp hq
      have hle := hq.length_le
      have hq0 : q ≠ [] := by rintro rfl; simp at ho
      have hl0 := List.length_pos_iff.mpr hq0
      by_cases hl : q.length < p.length
      · by_cases hk : q.length < k
        · have hab := A.above q.length hk hl
          rw [← hqe, ho] at hab
          have ha : a ≠ 0 := fun h => by have := A.first h; omega
          obtain ⟨c', hc', hh, hr⟩ := I.made _ o hab.symm h1 h2
          refine ⟨c', List.mem_cons_of_mem _ hc', ?_, hr⟩
          rw [hh, head_take (by omega), hqe, head_take hl0]
        · have hch := A.chain q.length (by omega) hl
          rw [← hqe, ho] at hch
          cases hch
          refine self hq0 hq (fun h => h1 ?_)
          cases hcc : c with
          | set s sh p' v' => rw [hcc] at h; cases s <;> simp [Call.op] at h
          | del s p' => rw [hcc] at h; cases s <;> simp [Call.op, Call.defOp] at h ⊢
      · have hqp : q = p := by rw [hqe]; have : q.length = p.length := by omega
                               rw [this, plast]
        rw [hqp, hlastE] at ho
        cases ho
        exact self hq0 hq h2
    · rw [A.off q hq] at ho
      obtain ⟨c', hc', h⟩ := I.made q o ho h1 h2
      exact ⟨c', List.mem_cons_of_mem _ hc', h⟩
  · -- deleted
    intro q hr
    have hgo : Gone es' q := ⟨q, List.prefix_refl _, hr⟩
    rcases (hgone q).mp hgo with ⟨h1, h2⟩ | ⟨r, h1, h2⟩
    · have : ∃ s, c = .del s p := by
        cases hcc : c with
        | set s sh p' v' => rw [hcc] at h2; cases s <;> simp [Rem, Call.op] at h2
        | del s p' => exact ⟨s, by rw [hpc, hcc]; rfl⟩
      obtain ⟨s, hs⟩ := this
      exact ⟨s, p, by rw [hs]; simp, h1⟩
    · obtain ⟨s, r', h3, h4⟩ := I.deleted r h2
      exact ⟨s, r', List.mem_cons_of_mem _ h3, h4.trans h1⟩
  · -- asked
    intro q hi
    by_cases hq : q <+: p
    · exact ⟨c, by simp, hpc ▸ hq⟩
    · have hv := offV q hq
      cases hx : info es q with
      | none =>
        rw [hx] at hv
        cases hy : info es' q with
        | none => exact absurd hy hi
        | some y => rw [hy] at hv; simp at hv
      | some x =>
        obtain ⟨c', hc', h⟩ := I.asked q (by rw [hx]; simp)
        exact ⟨c', List.mem_cons_of_mem _ hc', h⟩
  · -- opaq
    intro q o hi
    by_cases hq : q <+: p
    · have hqe := List.prefix_iff_eq_take.mp hq
      have hle := hq.length_le
      have hq0 : q ≠ [] := by rintro rfl; simp at hi
      have hl0 := List.length_pos_iff.mpr hq0
      by_cases hl : q.length < p.length
      · rw [hqe] at hi
        have := chainV _ hl0 hl o none hi
        cases this
      · have hqp : q = p := by rw [hqe]; have : q.length = p.length := by omega
                               rw [this, plast]
        rw [hqp, A.last] at hi; cases hi
        exact hopq rfl
    · have hv := offV q hq
      rw [hi] at hv
      cases hx : info es q with
      | none => rw [hx] at hv; simp at hv
      | some x =>
        obtain ⟨o2, w'⟩ := x
        rw [hx] at hv
        simp only [Option.map_some, Option.some.injEq] at hv
        subst hv
        have hr := I.opaq q o2 hx
        have : ∃ o3, o2 = some o3 := by rcases hr with h | h <;> exact ⟨_, h⟩
        obtain ⟨o3, rfl⟩ := this
        have := A.own q o3 none hq hx
        rw [this] at hi; cases hi
        exact hr

end Verif.EditAdd
