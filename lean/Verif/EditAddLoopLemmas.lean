import Verif.EditAddLemmas
/-!
Lemmas about the loop that changes the operations of the ancestors of a new node.
-/
namespace Verif.EditAdd
open Verif.Edit (Id Path Kind Op Tree Edit get)

/-- The operation replaces the inherited one. -/
def Sup (d o : Op) : Prop := ∃ d', superior d o = some (d', true)

theorem superior_same {d o d' : Op} {b : Bool} (h : superior d o = some (d', b)) (ho : o ≠ .remove) : d' = d := by
  cases o <;> simp only [superior] at h ho <;> (try contradiction) <;> (try split at h) <;> simp_all

theorem branch {p : Path} : ∀ {q : Path}, ¬ q <+: p → ∃ m k s, m ≤ p.length ∧ q = p.take m ++ k :: s ∧ p[m]? ≠ some k := by
  induction p with
  | nil =>
    intro q h
    cases q with
    | nil => simp at h
    | cons k s => exact ⟨0, k, s, by simp, by simp, by simp⟩
  | cons i p ih =>
    intro q h
    cases q with
    | nil => simp at h
    | cons k s =>
      by_cases hk : k = i
      · subst hk
        simp only [List.cons_prefix_cons, true_and] at h
        obtain ⟨m, k', s', h1, h2, h3⟩ := ih h
        exact ⟨m + 1, k', s', by simpa using h1, by simp [h2], by simpa using h3⟩
      · exact ⟨0, k, s, by simp, by simp, by simpa using fun e => hk e.symm⟩

theorem not_prefix_branch {p : Path} {m : Nat} {k : Id} {s : Path} (hm : m ≤ p.length) (hk : p[m]? ≠ some k) :
    ¬ (p.take m ++ k :: s) <+: p := by
  rintro ⟨t, ht⟩
  apply hk
  rw [← ht]
  simp [List.getElem?_append_right, hm]

theorem eff_absent {es : List ENode} {q : Path} (h : info es q = none) : eff es q = none := by
  rcases List.eq_nil_or_concat q with rfl | ⟨q, j, rfl⟩
  · simp
  · rw [List.concat_eq_append] at h ⊢; rw [eff_snoc, h]; rfl

/-- Nodes that are not on the path keep their effective operation if each branch has its own operation or its parent keeps it. -/
theorem eff_off {es es' : List ENode} {p : Path} (hi : ∀ q, ¬ q <+: p → info es' q = info es q)
    (hb : ∀ m k, m ≤ p.length → p[m]? ≠ some k → info es (p.take m ++ [k]) = none ∨ (∃ o v, info es (p.take m ++ [k]) = some (some o, v)) ∨
      eff es' (p.take m) = eff es (p.take m)) : ∀ q, ¬ q <+: p → eff es' q = eff es q := by
  intro q hq
  obtain ⟨m, k, s, hm, rfl, hk⟩ := branch hq
  have hinf : ∀ t, info es' (p.take m ++ k :: t) = info es (p.take m ++ k :: t) := fun t => hi _ (not_prefix_branch hm hk)
  have e : ∀ t, p.take m ++ k :: t = (p.take m ++ [k]) ++ t := by intro t; simp
  rw [e]
  refine eff_congr ?_ s (fun t _ _ => by rw [← e]; exact hinf t)
  have h0 := hinf []
  rcases hb m k hm hk with h | ⟨o, v, h⟩ | h
  · rw [eff_absent h, eff_absent (h0.trans h)]
  · rw [eff_of_own h, eff_of_own (h0.trans h)]
  · rw [eff_snoc, eff_snoc, h0, h]

/-- State of the edit when the loop comes to the ancestor of length `n`. -/
structure Pre (es : List ENode) (p : Path) (n : Nat) : Prop where
  here : ∀ m, 1 ≤ m → m ≤ p.length → info es (p.take m) ≠ none
  bare : ∀ m, n < m → m ≤ p.length → ∃ v, info es (p.take m) = some (none, v)
  full : ∀ m, n < m → m < p.length → ∀ j o v, info es (p.take m ++ [j]) = some (o, v) → p[m]? ≠ some j → o ≠ none
  leaf : ∀ r, r ≠ [] → info es (p ++ r) = none
  top : ∀ i o v, info es [i] = some (o, v) → o ≠ none

/-- What the loop does, starting at the ancestor of length `n`: from the ancestor of length `k` on, all have the operation `d`. -/
structure Upd (d : Op) (p : Path) (n : Nat) (es es' : List ENode) (k : Nat) : Prop where
  pos : 1 ≤ k
  le : k ≤ n + 1
  chain : k ≤ n → ∀ m, k ≤ m → m ≤ p.length → eff es' (p.take m) = some d
  above : ∀ m, m < k → eff es' (p.take m) = eff es (p.take m)
  sup : ∀ m, k ≤ m → m ≤ n → ∃ o, eff es (p.take m) = some o ∧ Sup d o
  stop : 1 < k → ∃ o, eff es (p.take (k - 1)) = some o ∧ ¬ Sup d o
  same : k = n + 1 → es' = es
  off : ∀ q, ¬ q <+: p → eff es' q = eff es q
  vals : ∀ q, (info es' q).map (·.2) = (info es q).map (·.2)
  own : ∀ q o v, info es q = some (some o, v) → (∀ m, 1 ≤ m → m ≤ n → q ≠ p.take m) → info es' q = some (some o, v)
  top : ∀ i o v, info es' [i] = some (o, v) → o ≠ none

theorem take_snoc {p : Path} {n : Nat} (h : n < p.length) : p.take (n + 1) = p.take n ++ [(p[n]?).getD (0, 0)] := by
  rw [List.take_add_one]
  simp [h]

theorem take_ne {p : Path} {m n : Nat} (hm : m ≤ p.length) (hn : n ≤ p.length) (h : m ≠ n) : p.take m ≠ p.take n := by
  intro e
  have := congrArg List.length e
  simp only [List.length_take] at this
  omega

/-- Chains without own operations inherit. -/
theorem eff_bare {es : List ENode} {p : Path} {a : Nat} {o : Op} (h : eff es (p.take a) = some o)
    (hb : ∀ m, a < m → m ≤ p.length → ∃ v, info es (p.take m) = some (none, v)) :
    ∀ m, a ≤ m → m ≤ p.length → eff es (p.take m) = some o := by
  intro m h1
  induction m with
  | zero => intro _; have : a = 0 := by omega
            subst this; exact h
  | succ m ih =>
    intro h2
    by_cases he : a = m + 1
    · subst he; exact h
    · obtain ⟨v, hv⟩ := hb (m + 1) (by omega) h2
      have hsn := take_snoc (p := p) (n := m) (by omega)
      rw [hsn] at hv ⊢
      rw [eff_snoc, hv]
      simpa using ih (by omega) (by omega)

theorem update_spec (d : Op) (p : Path) : ∀ (n : Nat) (pending : Option (Op × Bool)) (es es' : List ENode), Pre es p n → n < p.length → 1 ≤ n →
    (∀ m, 1 ≤ m → m ≤ n → eff es (p.take m) ≠ some .remove) →
    (pending = none ∨ ∃ x, pending = some x ∧ findOper es none (p.take n) = some x ∧ Sup d x.1) →
    updateOp d p n pending es = some es' → ∃ k, Upd d p n es es' k := by
  intro n
  induction n with
  | zero => intro _ _ _ _ _ h; omega
  | succ n ih =>
    intro pending es es' pre hlt _ hrem hpend hu
    have hpar : (p.take (n + 1)).length = n + 1 := by simp; omega
    have hpar0 : p.take (n + 1) ≠ [] := by intro e; rw [e] at hpar; simp at hpar
    obtain ⟨j, hj⟩ : ∃ j, p[n + 1]? = some j := ⟨p[n + 1], by simp [hlt]⟩
    have hsn : p.take (n + 2) = p.take (n + 1) ++ [j] := by rw [take_snoc hlt, hj]; rfl
    simp only [updateOp] at hu
    -- the operation of the ancestor
    have hfo : pending.or (findOper es none (p.take (n + 1))) = findOper es none (p.take (n + 1)) := by
      rcases hpend with rfl | ⟨x, rfl, hx, _⟩
      · rfl
      · simp [hx]
    rw [hfo] at hu
    cases hf : findOper es none (p.take (n + 1)) with
    | none => simp [hf] at hu
    | some x =>
    obtain ⟨op, own⟩ := x
    simp only [hf] at hu
    have heff : eff es (p.take (n + 1)) = some op := findOper_eff hf
    have hopr : op ≠ .remove := by
      rintro rfl; exact hrem (n + 1) (by omega) (by omega) heff
    -- is it superior
    by_cases hsup : Sup d op
    case neg =>
      -- the loop ends at once
      have hpn : pending = none := by
        rcases hpend with h | ⟨x, _, hx, hs⟩
        · exact h
        · rw [hf] at hx; cases hx; exact absurd hs hsup
      subst hpn
      simp only [Option.isSome_none, Bool.false_eq_true, if_false] at hu
      cases hs : superior d op with
      | none => simp [hs] at hu
      | some y =>
        obtain ⟨d', b⟩ := y
        cases b with
        | true => exact absurd ⟨d', hs⟩ hsup
        | false =>
          simp only [hs, Option.some.injEq] at hu
          subst hu
          exact ⟨n + 2, by omega, by omega, fun h => by omega, fun _ _ => rfl, fun m h1 h2 => by omega, fun _ => ⟨op, heff, hsup⟩,
            fun _ => rfl, fun _ _ => rfl, fun _ => rfl, fun _ _ _ h _ => h, pre.top⟩
    case pos =>
    have hgo : (if pending.isSome = true then some (d, true) else superior d op) = some (d, true) := by
      split
      · rfl
      · obtain ⟨d', hd'⟩ := hsup
        rw [hd', superior_same hd' hopr]
    simp only [hgo, hj, Option.getD_some] at hu
    -- the siblings get the operation
    obtain ⟨es1, hes1⟩ : ∃ es1, fill op j es (p.take (n + 1)) = es1 := ⟨_, rfl⟩
    rw [hes1] at hu
    have F0 := info_fill op j es hpar0
    rw [hes1] at F0
    have F1 : ∀ q, q.length ≠ n + 2 → info es1 q = info es q := by
      intro q hq
      rw [F0, if_neg]
      rintro ⟨k, rfl, _⟩
      simp [hpar] at hq
    have F2 : ∀ m, m ≤ p.length → info es1 (p.take m) = info es (p.take m) := by
      intro m hm
      rw [F0, if_neg]
      rintro ⟨k, hk, hkj⟩
      have hl := congrArg List.length hk
      simp only [List.length_take, List.length_append, List.length_singleton] at hl
      have : m = n + 2 := by omega
      subst this
      rw [hsn] at hk
      simp at hk
      exact hkj hk.symm
    have F3 : ∀ k x, k ≠ j → info es (p.take (n + 1) ++ [k]) = some x →
        info es1 (p.take (n + 1) ++ [k]) = some (x.1.or (some op), x.2) := by
      intro k x hk hx
      rw [F0, if_pos ⟨k, rfl, hk⟩, hx]; rfl
    have F4 : ∀ q, (info es1 q).map (·.2) = (info es q).map (·.2) := by
      intro q
      rw [F0]; split
      · cases info es q <;> rfl
      · rfl
    have F5 : ∀ q o v, info es q = some (some o, v) → info es1 q = some (some o, v) := by
      intro q o v h
      rw [F0, h]; split <;> rfl
    have F6 : ∀ q, info es1 q = none ↔ info es q = none := by
      intro q
      have := F4 q
      cases h1 : info es1 q <;> cases h2 : info es q <;> simp [h1, h2] at this <;> simp
    have E1 : ∀ q, eff es1 q = eff es q := by
      have base : ∀ m, m ≤ p.length → eff es1 (p.take m) = eff es (p.take m) := by
        intro m hm
        have := eff_congr (es := es) (es' := es1) (r := []) rfl (p.take m) (fun t ht htp => by
          obtain ⟨r, hr⟩ := htp
          have htp' : t = p.take t.length := by
            have h1 : t <+: p := ⟨r ++ p.drop m, by rw [← List.append_assoc, hr, List.take_append_drop]⟩
            exact (List.prefix_iff_eq_take.mp h1)
          have hlen : t.length ≤ p.length := by
            have := congrArg List.length hr
            simp only [List.length_append, List.length_take] at this; omega
          simp only [List.nil_append]
          rw [htp']; exact F2 _ hlen)
        simpa using this
      intro q
      by_cases hq : q <+: p
      · rw [List.prefix_iff_eq_take.mp hq]; exact base _ hq.length_le
      · obtain ⟨m, k, s, hm, rfl, hk⟩ := branch hq
        have e : ∀ t, p.take m ++ k :: t = (p.take m ++ [k]) ++ t := by intro t; simp
        rw [e]
        refine eff_congr ?_ s (fun t ht _ => ?_)
        · rw [eff_snoc, eff_snoc, base m hm]
          by_cases hmn : m = n + 1
          · subst hmn
            rw [hj] at hk
            cases hx : info es (p.take (n + 1) ++ [k]) with
            | none => rw [(F6 _).mpr hx]
            | some x =>
              rw [F3 k x (fun e => hk (by rw [e])) hx]
              simp only [Option.bind_some, heff]
              obtain ⟨o, v⟩ := x
              cases o <;> simp
          · rw [F1]; simp; omega
        · rw [F0, if_neg]
          rintro ⟨k', hk', hk'j⟩
          rcases List.eq_nil_or_concat t with rfl | ⟨t', c, rfl⟩
          · exact ht rfl
          · rw [List.concat_eq_append, ← List.append_assoc] at hk'
            obtain ⟨h1, _⟩ := List.append_inj' hk' rfl
            have h2 : (p.take m ++ [k] ++ t') <+: p := by rw [h1]; exact List.take_prefix _ _
            have h3 : (p.take m ++ [k]) <+: p := (List.prefix_append _ _).trans h2
            exact not_prefix_branch (s := []) hm hk h3
    -- siblings now have their own operation
    have full1 : ∀ m, n < m → m < p.length → ∀ k o v, info es1 (p.take m ++ [k]) = some (o, v) → p[m]? ≠ some k → o ≠ none := by
      intro m h1 h2 k o v hi hk
      by_cases hmn : m = n + 1
      · subst hmn
        rw [hj] at hk
        cases hx : info es (p.take (n + 1) ++ [k]) with
        | none => rw [(F6 _).mpr hx] at hi; cases hi
        | some x =>
          rw [F3 k x (fun e => hk (by rw [e])) hx] at hi
          obtain ⟨o', v'⟩ := x
          simp only [Option.some.injEq, Prod.mk.injEq] at hi
          rw [← hi.1]; cases o' <;> simp
      · rw [F1 _ (by simp; omega)] at hi
        exact pre.full m (by omega) h2 k o v hi hk
    have leaf1 : ∀ r, r ≠ [] → info es1 (p ++ r) = none := fun r hr => (F6 _).mpr (pre.leaf r hr)
    have top1 : ∀ i o v, info es1 [i] = some (o, v) → o ≠ none := by
      intro i o v h
      rw [F1 _ (by simp)] at h
      exact pre.top i o v h
    rcases findOper_own hf with ⟨rfl, v0, hv0⟩ | ⟨rfl, v0, hv0⟩
    case inr =>
      -- not its own operation: continue
      simp only [Bool.false_eq_true, if_false] at hu
      have hn : 1 ≤ n := by
        cases n with
        | succ n => omega
        | zero =>
          exfalso
          have : p.take 1 = [(p[0]?).getD (0, 0)] := by simpa using take_snoc (p := p) (n := 0) (by omega)
          rw [Nat.zero_add, this] at hv0
          exact pre.top _ _ _ hv0 rfl
      have hup : eff es (p.take n) = some op := by
        have hs := take_snoc (p := p) (n := n) (by omega)
        rw [hs] at heff hv0
        rw [eff_snoc, hv0] at heff
        simpa using heff
      obtain ⟨k, U⟩ := ih none es1 es' ⟨fun m h1 h2 => by rw [ne_eq, F6]; exact pre.here m h1 h2,
        fun m h1 h2 => by
          rw [F2 m h2]
          by_cases hm : m = n + 1
          · subst hm; exact ⟨v0, hv0⟩
          · exact pre.bare m (by omega) h2,
        full1, leaf1, top1⟩ (by omega) hn (fun m h1 h2 => by rw [E1]; exact hrem m h1 (by omega)) (.inl rfl) hu
      have hkn : k ≤ n := by
        have h1 := U.le
        by_cases h : k = n + 1
        · obtain ⟨o, ho, hns⟩ := U.stop (by omega)
          rw [E1, h, Nat.add_sub_cancel, hup] at ho
          cases ho
          exact absurd hsup hns
        · omega
      refine ⟨k, U.pos, by omega, fun _ => U.chain hkn, fun m h => by rw [U.above m h, E1], ?_, ?_, fun h => by omega, fun q hq => by rw [U.off q hq, E1],
        fun q => by rw [U.vals, F4], fun q o v h hne => U.own q o v (F5 q o v h) (fun m h1 h2 => hne m h1 (by omega)), U.top⟩
      · intro m h1 h2
        by_cases hm : m = n + 1
        · subst hm; exact ⟨op, heff, hsup⟩
        · obtain ⟨o, ho, hs⟩ := U.sup m h1 (by omega)
          exact ⟨o, by rw [← E1]; exact ho, hs⟩
      · intro h
        obtain ⟨o, ho, hs⟩ := U.stop h
        exact ⟨o, by rw [← E1]; exact ho, hs⟩
    case inl =>
    simp only [if_true] at hu
    obtain ⟨es2, hes2⟩ : ∃ es2, setOp none es1 (p.take (n + 1)) = es2 := ⟨_, rfl⟩
    rw [hes2] at hu
    have G0 := info_setOp none es1 (p.take (n + 1))
    rw [hes2] at G0
    have G1 : ∀ q, q ≠ p.take (n + 1) → info es2 q = info es1 q := fun q hq => by rw [G0, if_neg hq]
    have G2 : info es2 (p.take (n + 1)) = some (none, v0) := by
      rw [G0, if_pos rfl, F2 _ (by omega), hv0]; rfl
    have G4 : ∀ q, (info es2 q).map (·.2) = (info es q).map (·.2) := by
      intro q
      rw [← F4]
      by_cases hq : q = p.take (n + 1)
      · subst hq; rw [G2, F2 _ (by omega), hv0]; rfl
      · rw [G1 q hq]
    have Eup : ∀ m, m ≤ n → eff es2 (p.take m) = eff es (p.take m) := by
      intro m hm
      rw [← E1]
      have := eff_congr (es := es1) (es' := es2) (r := []) rfl (p.take m) (fun t ht htp => by
        simp only [List.nil_append]
        refine G1 t (fun e => ?_)
        have h1 := htp.length_le
        rw [e, hpar] at h1
        simp at h1; omega)
      simpa using this
    have bare2 : ∀ m, n < m → m ≤ p.length → ∃ v, info es2 (p.take m) = some (none, v) := by
      intro m h1 h2
      by_cases hm : m = n + 1
      · subst hm; exact ⟨v0, G2⟩
      · rw [G1 _ (take_ne h2 (by omega) hm), F2 m h2]
        exact pre.bare m (by omega) h2
    have noff : ∀ q, ¬ q <+: p → q ≠ p.take (n + 1) := by
      rintro q hq rfl; exact hq (List.take_prefix _ _)
    -- setting the operation here
    have fin : es' = setOp (some d) es2 (p.take (n + 1)) → (n = 0 ∨ ∃ o, eff es (p.take n) = some o ∧ ¬ Sup d o) →
        ∃ k, Upd d p (n + 1) es es' k := by
      intro he hstop
      have H0 := info_setOp (some d) es2 (p.take (n + 1))
      rw [← he] at H0
      have H1 : ∀ q, q ≠ p.take (n + 1) → info es' q = info es1 q := fun q hq => by rw [H0, if_neg hq, G1 q hq]
      have H2 : info es' (p.take (n + 1)) = some (some d, v0) := by rw [H0, if_pos rfl, G2]; rfl
      have hup' : ∀ m, m < n + 1 → eff es' (p.take m) = eff es (p.take m) := by
        intro m hm
        rw [← E1]
        have := eff_congr (es := es1) (es' := es') (r := []) rfl (p.take m) (fun t ht htp => by
          simp only [List.nil_append]
          refine H1 t (fun e => ?_)
          have h1 := htp.length_le
          rw [e, hpar] at h1
          simp at h1; omega)
        simpa using this
      refine ⟨n + 1, by omega, by omega, fun _ => ?_, hup', fun m h1 h2 => ?_, fun h => ?_, fun h => by omega, ?_, ?_, ?_, ?_⟩
      · refine eff_bare (eff_of_own H2) (fun m h1 h2 => ?_)
        rw [H1 _ (take_ne h2 (by omega) (by omega)), F2 m h2]
        exact pre.bare m (by omega) h2
      · have : m = n + 1 := by omega
        subst this; exact ⟨op, heff, hsup⟩
      · rcases hstop with h0 | h0
        · omega
        · simpa using h0
      · intro q hq
        rw [← E1]
        refine eff_off (p := p) (fun q hq => H1 q (noff q hq)) (fun m k hm hk => ?_) q hq
        by_cases h1 : m < n + 1
        · right; right; rw [hup' m h1, E1]
        · by_cases h2 : m < p.length
          · cases hx : info es1 (p.take m ++ [k]) with
            | none => exact .inl rfl
            | some x =>
              obtain ⟨o, v⟩ := x
              have := full1 m (by omega) h2 k o v hx hk
              obtain ⟨o', rfl⟩ := Option.ne_none_iff_exists'.mp this
              exact .inr (.inl ⟨o', v, rfl⟩)
          · have : m = p.length := by omega
            subst this
            left; rw [List.take_length]; exact leaf1 [k] (by simp)
      · intro q
        rw [← F4]
        by_cases hq : q = p.take (n + 1)
        · subst hq; rw [H2, F2 _ (by omega), hv0]; rfl
        · rw [H1 q hq]
      · intro q o v h hne
        rw [H1 q (hne (n + 1) (by omega) (by omega))]
        exact F5 q o v h
      · intro i o v h
        by_cases hq : [i] = p.take (n + 1)
        · rw [hq, H2] at h; cases h; simp
        · rw [H1 _ hq] at h; exact top1 i o v h
    by_cases hn0 : n = 0
    · subst hn0
      simp only [if_true, decide_true, Bool.true_or] at hu
      cases hs : superior d op with
      | none => simp [hs] at hu
      | some y =>
        obtain ⟨d', b⟩ := y
        simp only [hs, Option.some.injEq] at hu
        rw [superior_same hs hopr] at hu
        exact fin hu.symm (.inl rfl)
    · simp only [hn0, if_false, decide_false, Bool.false_or] at hu
      cases hf2 : findOper es2 none (p.take n) with
      | none => simp [hf2] at hu
      | some z =>
        obtain ⟨op', own'⟩ := z
        simp only [hf2] at hu
        have he' : eff es (p.take n) = some op' := by rw [← Eup n (Nat.le_refl _)]; exact findOper_eff hf2
        have hopr' : op' ≠ .remove := by
          rintro rfl; exact hrem n (by omega) (by omega) he'
        cases hs : superior d op' with
        | none => simp [hs] at hu
        | some y =>
          obtain ⟨d', b⟩ := y
          have hdd := superior_same hs hopr'
          subst hdd
          simp only [hs] at hu
          cases b with
          | false =>
            simp only [Bool.not_false, if_true, Option.some.injEq] at hu
            refine fin hu.symm (.inr ⟨op', he', ?_⟩)
            rintro ⟨d'', h⟩
            rw [hs] at h; simp at h
          | true =>
            simp only [Bool.not_true, Bool.false_eq_true, if_false] at hu
            obtain ⟨k, U⟩ := ih _ es2 es' ⟨fun m h1 h2 => by
                have h3 := G4 (p.take m)
                have h4 := pre.here m h1 h2
                cases hx : info es2 (p.take m) with
                | none => rw [hx] at h3; cases hy : info es (p.take m) <;> simp [hy] at h3 h4
                | some x => simp,
              bare2,
              fun m h1 h2 k o v hi hk => by
                rw [G1] at hi
                · exact full1 m h1 h2 k o v hi hk
                · intro e; exact not_prefix_branch (s := []) (by omega) hk (by rw [e]; exact List.take_prefix _ _),
              fun r hr => by
                rw [G1]
                · exact leaf1 r hr
                · intro e
                  have := congrArg List.length e
                  rw [hpar] at this
                  simp at this; omega,
              fun i o v h => by
                rw [G1] at h
                · exact top1 i o v h
                · intro e
                  have := congrArg List.length e
                  rw [hpar] at this
                  simp at this; omega⟩ (by omega) (by omega)
              (fun m h1 h2 => by rw [Eup m h2]; exact hrem m h1 (by omega)) (.inr ⟨(op', own'), rfl, hf2, ⟨_, hs⟩⟩) hu
            have hkn : k ≤ n := by
              have h1 := U.le
              by_cases h : k = n + 1
              · obtain ⟨o, ho, hns⟩ := U.stop (by omega)
                rw [h, Nat.add_sub_cancel, Eup n (Nat.le_refl _), he'] at ho
                cases ho
                exact absurd ⟨_, hs⟩ hns
              · omega
            refine ⟨k, U.pos, by omega, fun _ => U.chain hkn, fun m h => by rw [U.above m h, Eup m (by omega)], ?_, ?_, fun h => by omega, ?_,
              fun q => by rw [U.vals, G4], ?_, U.top⟩
            · intro m h1 h2
              by_cases hm : m = n + 1
              · subst hm; exact ⟨op, heff, hsup⟩
              · obtain ⟨o, ho, hs'⟩ := U.sup m h1 (by omega)
                exact ⟨o, by rw [← Eup m (by omega)]; exact ho, hs'⟩
            · intro h
              obtain ⟨o, ho, hs'⟩ := U.stop h
              exact ⟨o, by rw [← Eup _ (by omega)]; exact ho, hs'⟩
            · intro q hq
              rw [U.off q hq, ← E1]
              refine eff_off (p := p) (fun q hq => G1 q (noff q hq)) (fun m k hm hk => ?_) q hq
              by_cases h1 : m < n + 1
              · right; right; rw [Eup m (by omega), E1]
              · by_cases h2 : m < p.length
                · cases hx : info es1 (p.take m ++ [k]) with
                  | none => exact .inl rfl
                  | some x =>
                    obtain ⟨o, v⟩ := x
                    have := full1 m (by omega) h2 k o v hx hk
                    obtain ⟨o', rfl⟩ := Option.ne_none_iff_exists'.mp this
                    exact .inr (.inl ⟨o', v, rfl⟩)
                · have : m = p.length := by omega
                  subst this
                  left; rw [List.take_length]; exact leaf1 [k] (by simp)
            · intro q o v h hne
              refine U.own q o v ?_ (fun m h1 h2 => hne m h1 (by omega))
              rw [G1 q (hne (n + 1) (by omega) (by omega))]
              exact F5 q o v h

end Verif.EditAdd
