import Verif.EditAddLoopLemmas
/-!
The invariant of the collected edit and what adding a new node does to it.
-/
namespace Verif.EditAdd
open Verif.Edit (Id Path Kind Op Tree Edit get)

/-- What a node with the operation means for its path: `f` before, `g` after. -/
def Sem (K : Nat → Kind) (f g : Data) (o : Op) (v : Nat) (q : Path) : Prop :=
  match o with
  | .ether => g q = f q
  | .none => g q = f q ∧ f q ≠ none
  | .merge => g q = some (v, (f q).any fun x => x.1 = v && x.2 && kindAt K q ≠ some .leaf && kindAt K q ≠ some .leaflist)
  | .create => (f q = none ∨ kindAt K q = some .leaf ∧ ∃ w, f q = some (w, true)) ∧ g q = some (v, false)
  | .remove => g q = none
  | .delete => g q = none ∧ f q ≠ none ∧ ¬ ((kindAt K q = some .leaf ∨ kindAt K q = some .leaflist) ∧ ∃ w, f q = some (w, true))
  | _ => False

/-- `remove` or `delete`. -/
def Rem (o : Option Op) : Prop := o = some .remove ∨ o = some .delete

/-- A node above `q` (or `q`) is removed. -/
def Gone (es : List ENode) (q : Path) : Prop := ∃ r, r <+: q ∧ Rem (eff es r)

/-- Not a leaf or leaf-list. -/
def Inner (K : Nat → Kind) (q : Path) : Prop := kindAt K q ≠ some .leaf ∧ kindAt K q ≠ some .leaflist

/-- There is nothing below what is not there. -/
def Closed (f : Data) : Prop := ∀ q r, q ≠ [] → f q = none → f (q ++ r) = none

/-- Only leaves have values. -/
def Valued (K : Nat → Kind) (f : Data) : Prop := ∀ q x, f q = some x → kindAt K q ≠ some .leaf → x.1 = 0

structure Inv (K : Nat → Kind) (f : Data) (hist : List Call) (g : Data) (es : List ENode) : Prop where
  closed : Closed g
  top : ∀ i o v, info es [i] = some (o, v) → o ≠ none
  shape : ∀ q o v, info es q = some (o, v) → (kindAt K q ≠ some .leaf → v = some 0) ∧ (¬ Inner K q → ∀ j, info es (q ++ [j]) = none)
  tip : ∀ q o v, info es q = some (o, v) → (∀ j, info es (q ++ [j]) = none) →
    o = some .merge ∨ o = some .create ∨ o = some .remove ∨ o = some .delete
  down : ∀ q j o, eff es (q ++ [j]) = some o → (eff es q = some .ether → o = .ether ∨ o = .remove) ∧ (Rem (eff es q) → o = .remove ∨ o = .delete)
  sem : ∀ q o o' v, eff es q = some o → info es q = some (o', v) → Sem K f g o (v.getD 0) q
  gone : ∀ q, q ≠ [] → info es q = none → Gone es q → g q = none
  kept : ∀ q, q ≠ [] → info es q = none → ¬ Gone es q → g q = f q
  made : ∀ q o, eff es q = some o → o ≠ .ether → o ≠ .remove → ∃ c ∈ hist, c.path.head? = q.head? ∧ ∀ r, c ≠ .del false r
  deleted : ∀ q, Rem (eff es q) → ∃ s r, Call.del s r ∈ hist ∧ r <+: q
  asked : ∀ q, info es q ≠ none → ∃ c ∈ hist, q <+: c.path
  opaq : ∀ q o, info es q = some (o, none) → Rem o

theorem eff_some_of_info {es : List ENode} (top : ∀ i o v, info es [i] = some (o, v) → o ≠ none) : ∀ q, info es q ≠ none → ∃ o, eff es q = some o := by
  intro q
  generalize hn : q.length = n
  induction n generalizing q with
  | zero => intro h; have : q = [] := List.eq_nil_of_length_eq_zero hn; simp [this] at h
  | succ n ih =>
    intro h
    rcases List.eq_nil_or_concat q with rfl | ⟨q, j, rfl⟩
    · simp at hn
    · rw [List.concat_eq_append] at h hn ⊢
      obtain ⟨⟨o, v⟩, hx⟩ := Option.ne_none_iff_exists'.mp h
      rw [eff_snoc, hx]
      by_cases hq : q = []
      · subst hq
        obtain ⟨o', rfl⟩ := Option.ne_none_iff_exists'.mp (top j o v (by simpa using hx))
        exact ⟨o', by simp⟩
      · obtain ⟨o', ho'⟩ := ih q (by simpa using hn) (info_prefix hq h)
        cases o with
        | some o => exact ⟨o, by simp⟩
        | none => exact ⟨o', by simp [ho']⟩

theorem info_of_eff {es : List ENode} {q : Path} {o : Op} (h : eff es q = some o) : ∃ x, info es q = some x := by
  cases hi : info es q with
  | none => rw [eff_absent hi] at h; cases h
  | some x => exact ⟨x, rfl⟩

theorem info_take {es : List ENode} {p : Path} {m n : Nat} (hm : 1 ≤ m) (hmn : m ≤ n) (hp : p ≠ []) (h : info es (p.take n) ≠ none) : info es (p.take m) ≠ none := by
  have : p.take n = p.take m ++ (p.take n).drop m := by
    have h2 : (p.take n).take m = p.take m := by rw [List.take_take, Nat.min_eq_left hmn]
    rw [← h2, List.take_append_drop]
  rw [this] at h
  refine info_prefix ?_ h
  intro e
  rw [List.take_eq_nil_iff] at e
  rcases e with e | e
  · omega
  · exact hp e

/-- The deepest ancestor of a new node that is in the edit. -/
theorem deepest {es : List ENode} {p : Path} (h : info es p = none) (hp : p ≠ []) :
    ∃ a, a < p.length ∧ (∀ m, 1 ≤ m → m ≤ a → info es (p.take m) ≠ none) ∧ (∀ m, a < m → m ≤ p.length → info es (p.take m) = none) := by
  have key : ∀ n, n ≤ p.length → (∀ m, n < m → m ≤ p.length → info es (p.take m) = none) →
      ∃ a, a ≤ n ∧ (∀ m, 1 ≤ m → m ≤ a → info es (p.take m) ≠ none) ∧ (∀ m, a < m → m ≤ p.length → info es (p.take m) = none) := by
    intro n
    induction n with
    | zero => intro _ h; exact ⟨0, by omega, fun m h1 h2 => by omega, h⟩
    | succ n ih =>
      intro hn h
      by_cases hi : info es (p.take (n + 1)) = none
      · obtain ⟨a, h1, h2, h3⟩ := ih (by omega) (fun m h1 h2 => by
          by_cases e : m = n + 1
          · rw [e]; exact hi
          · exact h m (by omega) h2)
        exact ⟨a, by omega, h2, h3⟩
      · exact ⟨n + 1, by omega, fun m h1 h2 => info_take h1 h2 hp hi, h⟩
  obtain ⟨a, h1, h2, h3⟩ := key p.length (by omega) (fun m h1 h2 => by omega)
  refine ⟨a, ?_, h2, h3⟩
  rcases Nat.lt_or_eq_of_le h1 with h1 | h1
  · exact h1
  · have hl : 0 < p.length := List.length_pos_iff.mpr hp
    have := h2 a (by omega) (by omega)
    rw [h1, List.take_length] at this
    exact absurd h this

/-- The edit after a new node with the operation `op` was added at `p`, `d` being the default operation; `a` is the length of its deepest
ancestor that was there, and the operation of the ancestors of length `k` or more has changed. -/
structure Added (d op : Op) (v : Option Nat) (p : Path) (es es' : List ENode) (a k : Nat) : Prop where
  alt : a < p.length
  old : ∀ m, 1 ≤ m → m ≤ a → info es (p.take m) ≠ none
  new : ∀ m, a < m → m ≤ p.length → info es (p.take m) = none
  pos : 1 ≤ k
  le : k ≤ p.length
  vals : ∀ q, (info es' q).map (·.2) =
    if q ≠ [] ∧ q <+: p ∧ info es q = none then some (if q = p then v else some 0) else (info es q).map (·.2)
  last : info es' p = some (some op, v)
  off : ∀ q, ¬ q <+: p → eff es' q = eff es q
  own : ∀ q o v, ¬ q <+: p → info es q = some (some o, v) → info es' q = some (some o, v)
  top : ∀ i o v, info es' [i] = some (o, v) → o ≠ none
  above : ∀ m, m < k → m < p.length → eff es' (p.take m) = eff es (p.take (min m a))
  chain : ∀ m, k ≤ m → m < p.length → eff es' (p.take m) = some d
  sup : a ≠ 0 → ∀ m, k ≤ m → m < p.length → ∃ o, eff es (p.take (min m a)) = some o ∧ Sup d o
  stop : 1 < k → ∃ o, eff es (p.take (min (k - 1) a)) = some o ∧ ¬ Sup d o
  first : a = 0 → k = 1

theorem superior_ether {o o' : Op} {b : Bool} (h : superior .ether o = some (o', b)) : b = false := by
  cases o <;> simp_all [superior]

theorem not_sup_ether (o : Op) : ¬ Sup .ether o := by
  rintro ⟨d, h⟩; exact absurd (superior_ether h) (by simp)

theorem findOper_none {es : List ENode} {q : Path} : findOper es none q = none ↔ eff es q = none := by simp [eff]

theorem updateOp_spec {d : Op} {p : Path} {es es' : List ENode} (pre : Pre es p (p.length - 1)) (hp : 2 ≤ p.length)
    (hd : d = .ether ∨ ∀ m, 1 ≤ m → m < p.length → eff es (p.take m) ≠ some .remove)
    (h : updateOp d p (p.length - 1) none es = some es') : ∃ k, Upd d p (p.length - 1) es es' k := by
  rcases hd with rfl | hd
  · obtain ⟨n, hn⟩ : ∃ n, p.length - 1 = n + 1 := ⟨p.length - 2, by omega⟩
    rw [hn] at h ⊢
    simp only [updateOp, Option.none_or, Option.isSome_none, Bool.false_eq_true, if_false] at h
    cases hf : findOper es none (p.take (n + 1)) with
    | none => simp [hf] at h
    | some x =>
      obtain ⟨op, own⟩ := x
      simp only [hf] at h
      cases hs : superior .ether op with
      | none => simp [hs] at h
      | some y =>
        obtain ⟨d', b⟩ := y
        have hb := superior_ether hs
        subst hb
        simp only [hs, Option.some.injEq] at h
        subst h
        exact ⟨n + 2, by omega, by omega, fun h => by omega, fun _ _ => rfl, fun m h1 h2 => by omega,
          fun _ => ⟨op, findOper_eff hf, not_sup_ether _⟩, fun _ => rfl, fun _ _ => rfl, fun _ => rfl, fun _ _ _ h _ => h, pre.top⟩
  · exact update_spec d p _ none es es' pre (by omega) (by omega) (fun m h1 h2 => hd m h1 (by omega)) (.inl rfl) h

theorem min_lt_of {a b c : Nat} (h : a < c) : min a b < c := by omega

/-- Adding a new node. -/
theorem add_absent {C : Cfg} {es es' : List ENode} {c : Call} (hp : c.path ≠ []) (hab : info es c.path = none)
    (top : ∀ i o v, info es [i] = some (o, v) → o ≠ none)
    (hd : c.defOp = .ether ∨ ∀ m, 1 ≤ m → m < c.path.length → eff es (c.path.take m) ≠ some .remove)
    (h : add C es c = (es', true)) : ∃ a k, Added c.defOp c.op (newVal C c) c.path es es' a k := by
  obtain ⟨p, hpc⟩ : ∃ p, p = c.path := ⟨_, rfl⟩
  rw [← hpc] at hp hab hd ⊢
  have hlen : 0 < p.length := List.length_pos_iff.mpr hp
  have hn : nodeAt es p = none := by simpa [info] using hab
  obtain ⟨a, halt, hold, hnew⟩ := deepest hab hp
  simp only [add, ← hpc, hn] at h
  obtain ⟨v, hv⟩ : ∃ v, newVal C c = v := ⟨_, rfl⟩
  rw [hv] at h ⊢
  obtain ⟨es1, hes1⟩ : ∃ es1, grow v es p = es1 := ⟨_, rfl⟩
  rw [hes1] at h
  have G0 := info_grow v p es
  rw [hes1] at G0
  have Gvals : ∀ q, (info es1 q).map (·.2) =
      if q ≠ [] ∧ q <+: p ∧ info es q = none then some (if q = p then v else some 0) else (info es q).map (·.2) := by
    intro q; rw [G0]; split <;> rfl
  have Gold : ∀ q, info es q ≠ none → info es1 q = info es q := by
    intro q hq; rw [G0, if_neg]; exact fun h => hq h.2.2
  have Goff : ∀ q, ¬ q <+: p → info es1 q = info es q := by
    intro q hq; rw [G0, if_neg]; exact fun h => hq h.2.1
  have Gnew : ∀ m, a < m → m ≤ p.length → info es1 (p.take m) = some (none, if p.take m = p then v else some 0) := by
    intro m h1 h2
    rw [G0, if_pos]
    refine ⟨?_, List.take_prefix _ _, hnew m h1 h2⟩
    intro e; rw [List.take_eq_nil_iff] at e
    rcases e with e | e
    · omega
    · exact hp e
  -- effective operations after creating the nodes
  have Ele : ∀ m, m ≤ a → eff es1 (p.take m) = eff es (p.take m) := by
    intro m hm
    have := eff_congr (es := es) (es' := es1) (r := []) rfl (p.take m) (fun t ht htp => by
      simp only [List.nil_append]
      have h1 : t <+: p := htp.trans (List.take_prefix _ _)
      have h2 := htp.length_le
      simp only [List.length_take] at h2
      rw [List.prefix_iff_eq_take.mp h1]
      exact Gold _ (hold _ (by have := List.length_pos_iff.mpr ht; omega) (by omega)))
    simpa using this
  have Emin : ∀ m, m ≤ p.length → 1 ≤ a → eff es1 (p.take m) = eff es (p.take (min m a)) := by
    intro m hm ha
    by_cases h1 : m ≤ a
    · rw [Nat.min_eq_left h1]; exact Ele m h1
    · rw [Nat.min_eq_right (by omega)]
      obtain ⟨o, ho⟩ := eff_some_of_info top _ (hold a ha (Nat.le_refl _))
      rw [ho]
      exact eff_bare (by rw [Ele a (Nat.le_refl _)]; exact ho) (fun m h1 h2 => ⟨_, Gnew m h1 h2⟩) m (by omega) hm
  have offEff : ∀ (es3 : List ENode), (∀ q, ¬ q <+: p → info es3 q = info es q) → (∀ m, m ≤ a → eff es3 (p.take m) = eff es (p.take m)) →
      ∀ q, ¬ q <+: p → eff es3 q = eff es q := by
    intro es3 hi he
    refine eff_off hi (fun m k hm hk => ?_)
    by_cases h1 : m ≤ a
    · exact .inr (.inr (he m h1))
    · left
      cases hx : info es (p.take m ++ [k]) with
      | none => rfl
      | some x =>
        have := info_prefix (es := es) (q := p.take m) (r := [k]) (by
          intro e; rw [List.take_eq_nil_iff] at e
          rcases e with e | e
          · omega
          · exact hp e) (by rw [hx]; simp)
        exact absurd (hnew m (by omega) hm) this
  have noffp : ∀ q, ¬ q <+: p → q ≠ p := by rintro q hq rfl; exact hq (List.prefix_refl _)
  have plast : p.take p.length = p := List.take_length
  cases hf : findOper es1 none p with
  | none =>
    -- a new top-level tree
    have ha : a = 0 := by
      by_cases ha : a = 0
      · exact ha
      · have := Emin p.length (Nat.le_refl _) (by omega)
        rw [plast, findOper_none.mp hf, Nat.min_eq_right (by omega)] at this
        obtain ⟨o, ho⟩ := eff_some_of_info top _ (hold a (by omega) (Nat.le_refl _))
        rw [ho] at this; cases this
    subst ha
    simp only [hf, Prod.mk.injEq, and_true] at h
    obtain ⟨es2, hes2⟩ : ∃ es2, (if p.length = 1 then es1 else setOp (some c.defOp) es1 (p.take 1)) = es2 := ⟨_, rfl⟩
    rw [hes2] at h
    have I2 : ∀ q, info es2 q = if p.length ≠ 1 ∧ q = p.take 1 then (info es1 q).map (fun x => (some c.defOp, x.2)) else info es1 q := by
      intro q
      rw [← hes2]
      by_cases h1 : p.length = 1
      · simp [h1]
      · simp only [h1, if_false, info_setOp, ne_eq, not_false_eq_true, true_and]
        split
        · next e => rw [e]
        · rfl
    have I3 := info_setOp (some c.op) es2 p
    rw [h] at I3
    have p1ne : p.length ≠ 1 → p ≠ p.take 1 := by
      intro h1 e
      have := congrArg List.length e
      simp at this; omega
    have hlast : info es' p = some (some c.op, v) := by
      rw [I3, if_pos rfl, I2, if_neg (fun h => p1ne h.1 h.2)]
      have := Gnew p.length (by omega) (Nat.le_refl _)
      rw [plast, if_pos rfl] at this
      rw [this]; rfl
    have hoff : ∀ q, ¬ q <+: p → info es' q = info es q := by
      intro q hq
      rw [I3, if_neg (noffp q hq), I2, if_neg, Goff q hq]
      rintro ⟨_, rfl⟩; exact hq (List.take_prefix _ _)
    have hone : ∀ m, 1 < m → m < p.length → info es' (p.take m) = some (none, if p.take m = p then v else some 0) := by
      intro m h1 h2
      rw [I3, if_neg, I2, if_neg, Gnew m (by omega) (by omega)]
      · rintro ⟨_, e⟩; exact take_ne (by omega) (by omega) (by omega) e
      · intro e; have := congrArg List.length e; simp at this; omega
    have hfirst : p.length ≠ 1 → info es' (p.take 1) = some (some c.defOp, some 0) := by
      intro h1
      rw [I3, if_neg (fun e => p1ne h1 e.symm), I2, if_pos ⟨h1, rfl⟩, Gnew 1 (by omega) (by omega), if_neg (fun e => p1ne h1 e.symm)]
      rfl
    refine ⟨0, 1, halt, hold, hnew, by omega, by omega, ?_, hlast, ?_, ?_, ?_, ?_, ?_, ?_, ?_, fun _ => rfl⟩
    · intro q
      rw [← Gvals, I3]
      split
      · next e => subst e; rw [I2]; split <;> (cases info es1 q <;> rfl)
      · rw [I2]; split <;> (cases info es1 q <;> rfl)
    · exact offEff es' hoff (fun m hm => by have : m = 0 := by omega
                                            simp [this])
    · intro q o w hq hi; rw [hoff q hq]; exact hi
    · intro i o w hi
      by_cases hq : [i] <+: p
      · have hi1 : [i] = p.take 1 := by simpa using List.prefix_iff_eq_take.mp hq
        by_cases h1 : p.length = 1
        · have : p = [i] := by rw [hi1, ← h1, plast]
          rw [← this, hlast] at hi; cases hi; simp
        · rw [hi1, hfirst h1] at hi; cases hi; simp
      · rw [hoff _ hq] at hi; exact top i o w hi
    · intro m hm _; have : m = 0 := by omega
      simp [this]
    · intro m h1 h2
      have hsub : ∀ b, 1 < b → b ≤ m → ∃ w, info es' (p.take b) = some (none, w) := fun b h1 h2 => ⟨_, hone b h1 (by omega)⟩
      have : eff es' ((p.take m).take m) = some c.defOp := by
        refine eff_bare (p := p.take m) (a := 1) ?_ ?_ m h1 (by simp; omega)
        · rw [List.take_take, Nat.min_eq_left h1]
          exact eff_of_own (hfirst (by omega))
        · intro b hb1 hb2
          simp only [List.length_take] at hb2
          rw [List.take_take, Nat.min_eq_left (by omega)]
          exact hsub b hb1 (by omega)
      rwa [List.take_take, Nat.min_self] at this
    · intro h; exact absurd rfl h
    · intro h; omega
  | some x =>
    simp only [hf] at h
    have ha : 1 ≤ a := by
      by_cases ha : a = 0
      · subst ha
        exfalso
        have : eff es1 p = none := by
          have key : ∀ m, m ≤ p.length → eff es1 (p.take m) = none := by
            intro m
            induction m with
            | zero => intro _; simp
            | succ m ih =>
              intro hm
              have e := take_snoc (p := p) (n := m) (by omega)
              have := Gnew (m + 1) (by omega) hm
              rw [e] at this ⊢
              rw [eff_snoc, this]
              simp [ih (by omega)]
          have := key p.length (Nat.le_refl _)
          rwa [plast] at this
        simp [eff, hf] at this
      · omega
    cases hu : updateOp c.defOp p (p.length - 1) none es1 with
    | none => simp [hu] at h
    | some es2 =>
      simp only [hu, Prod.mk.injEq, and_true] at h
      have bare1 : ∀ m, p.length - 1 < m → m ≤ p.length → ∃ v, info es1 (p.take m) = some (none, v) := fun m h1 h2 => ⟨_, Gnew m (by omega) h2⟩
      have pre : Pre es1 p (p.length - 1) := by
        refine ⟨fun m h1 h2 => ?_, bare1, fun m h1 h2 => by omega, fun r hr => ?_, ?_⟩
        · by_cases hm : m ≤ a
          · rw [Gold _ (hold m h1 hm)]; exact hold m h1 hm
          · rw [Gnew m (by omega) h2]; simp
        · have h1 : info es (p ++ r) = none := by
            cases hx : info es (p ++ r) with
            | none => rfl
            | some x => exact absurd hab (info_prefix hp (by rw [hx]; simp))
          rw [Goff _ (fun hq => by have := hq.length_le; have := List.length_pos_iff.mpr hr; simp at *; omega)]
          exact h1
        · intro i o w hi
          by_cases hq : info es [i] = none
          · rw [G0] at hi
            split at hi
            · next hc =>
              have hi1 : [i] = p.take 1 := by simpa using List.prefix_iff_eq_take.mp hc.2.1
              exact absurd (hi1 ▸ hq) (hold 1 (by omega) ha)
            · rw [hq] at hi; cases hi
          · rw [Gold _ hq] at hi; exact top i o w hi
      obtain ⟨k, U⟩ := updateOp_spec pre (by omega) (by
        rcases hd with hd | hd
        · exact .inl hd
        · refine .inr (fun m h1 h2 => ?_)
          rw [Emin m (by omega) ha]
          exact hd _ (by omega) (by omega)) hu
      have I3 := info_setOp (some c.op) es2 p
      rw [h] at I3
      have hv2 := U.vals p
      have hp1 : info es1 p = some (none, v) := by
        have := Gnew p.length (by omega) (Nat.le_refl _)
        rwa [plast, if_pos rfl] at this
      have hlast : info es' p = some (some c.op, v) := by
        rw [I3, if_pos rfl]
        rw [hp1] at hv2
        cases hx : info es2 p with
        | none => simp [hx] at hv2
        | some x => simp [hx] at hv2; simp [hv2]
      have hkeep : ∀ q, q ≠ p → info es' q = info es2 q := fun q hq => by rw [I3, if_neg hq]
      have heff : ∀ q, ¬ p <+: q → eff es' q = eff es2 q := by
        intro q hq
        have := eff_congr (es := es2) (es' := es') (r := []) rfl q (fun t _ ht => by
          simp only [List.nil_append]
          exact hkeep t (fun e => hq (e ▸ ht)))
        simpa using this
      have hbelow : ∀ r, r ≠ [] → info es (p ++ r) = none := by
        intro r hr
        cases hx : info es (p ++ r) with
        | none => rfl
        | some x => exact absurd hab (info_prefix hp (by rw [hx]; simp))
      have Eoff1 := offEff es1 Goff Ele
      have hUle := U.le
      refine ⟨a, k, halt, hold, hnew, U.pos, by omega, ?_, hlast, ?_, ?_, ?_, ?_, ?_, ?_, ?_, fun h => by omega⟩
      · intro q
        rw [← Gvals, ← U.vals, I3]
        split
        · next e => subst e; cases info es2 q <;> rfl
        · rfl
      · intro q hq
        by_cases hpq : p <+: q
        · obtain ⟨r, rfl⟩ := hpq
          have hr : r ≠ [] := by rintro rfl; simp at hq
          have h1 := hbelow r hr
          have h2 : info es' (p ++ r) = none := by
            have hv := U.vals (p ++ r)
            rw [Goff _ hq, h1] at hv
            rw [hkeep _ (noffp _ hq)]
            cases hx : info es2 (p ++ r) <;> simp [hx] at hv
            rfl
          rw [eff_absent h1, eff_absent h2]
        · rw [heff q hpq, U.off q hq, Eoff1 q hq]
      · intro q o w hq hi
        rw [hkeep _ (noffp q hq)]
        refine U.own q o w (by rw [Goff q hq]; exact hi) (fun m _ _ e => hq (e ▸ List.take_prefix _ _))
      · intro i o w hi
        by_cases e : [i] = p
        · rw [e, hlast] at hi; cases hi; simp
        · rw [hkeep _ e] at hi; exact U.top i o w hi
      · intro m h1 h2
        rw [heff _ (fun hc => by have := hc.length_le; simp at this; omega), U.above m h1, Emin m (by omega) ha]
      · intro m h1 h2
        rw [heff _ (fun hc => by have := hc.length_le; simp at this; omega)]
        exact U.chain (by omega) m h1 (by omega)
      · intro _ m h1 h2
        rw [← Emin m (by omega) ha]
        exact U.sup m h1 (by omega)
      · intro h
        rw [← Emin (k - 1) (by omega) ha]
        exact U.stop h

end Verif.EditAdd
