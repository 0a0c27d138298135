import Verif.StopTime
import Verif.OperPollProps
/-!
C111. Specification: `all`, `Due` in `Verif.StopTime`.
-/
namespace Verif.StopTime
open Verif.Time

theorem swapRemove_last (a : List α) (x : α) : swapRemove (a ++ [x]) a.length = a := by
  simp [swapRemove]

theorem swapRemove_mid (a b : List α) (x y : α) : swapRemove (a ++ x :: (b ++ [y])) a.length = a ++ y :: b := by
  have h1 : (a ++ x :: (b ++ [y])).getLast? = some y := by
    rw [← List.cons_append, ← List.append_assoc, List.getLast?_concat]
  simp only [swapRemove, h1]
  rw [if_pos (by simp)]
  have : (a ++ x :: (b ++ [y])).set a.length y = (a ++ y :: b) ++ [y] := by simp
  rw [this, List.dropLast_concat]

/-- Removal keeps what is before the place and permutes the rest. -/
theorem swapRemove_perm (a r : List α) (x : α) :
    ∃ r', swapRemove (a ++ x :: r) a.length = a ++ r' ∧ r'.Perm r := by
  rcases List.eq_nil_or_concat r with rfl | ⟨b, y, rfl⟩
  · exact ⟨[], by rw [swapRemove_last]; simp, List.Perm.refl _⟩
  · simp only [List.concat_eq_append]
    refine ⟨y :: b, swapRemove_mid _ _ _ _, ?_⟩
    exact (List.perm_append_singleton y b).symm

theorem isDue_iff (p : Sub) (now : Ts) (hp : Normal p.stop) (hn : Normal now) : isDue p now = true ↔ Due p now := by
  have hc := cmp_exact p.stop now hp hn
  simp only [isDue, Due, Bool.and_eq_true, Bool.not_eq_true', Bool.and_eq_false_imp, beq_iff_eq, decide_eq_true_eq]
  have h1 : p.stop ≠ ⟨0, 0⟩ ↔ (p.stop.sec = 0 → (p.stop.nsec == 0) = false) := by
    obtain ⟨id, s, n⟩ := p
    simp
  rw [h1]
  refine and_congr_right fun _ => ?_
  constructor
  · intro h
    have : ¬ p.stop.ns > now.ns := fun hh => by rw [hc.1.2 hh] at h; omega
    omega
  · intro h
    have : ¬ tsCmp p.stop now = 1 := fun hh => by have := hc.1.1 hh; omega
    unfold tsCmp at this ⊢
    repeat' split
    all_goals first | omega | simp_all

/-- The loop over one module without interference. -/
theorem stopLoop_spec (now : Ts) (hn : Normal now) (A B : List Mod) (name : String) (g : Nat) (f : Nat) :
    ∀ (a r : List Sub) (st : List Nat), (∀ p ∈ a ++ r, Normal p.stop) → r.length < f → a ++ r ≠ [] → (∀ p ∈ a, ¬ Due p now) →
    (∃ l st', stopLoop (fun _ s => s) now A.length g f a.length ⟨A ++ ⟨name, a ++ r⟩ :: B, g, st⟩ =
        .ok ⟨A ++ ⟨name, l⟩ :: B, g, st ++ st'⟩ false ∧ l.Perm (a ++ r.filter (fun p => ¬ Due p now)) ∧
        st'.Perm ((r.filter (fun p => Due p now)).map (·.id))) ∨
    (∃ st' g' B', stopLoop (fun _ s => s) now A.length g f a.length ⟨A ++ ⟨name, a ++ r⟩ :: B, g, st⟩ =
        .ok ⟨A ++ B', g', st ++ st'⟩ true ∧ B'.Perm B ∧ a = [] ∧ r.filter (fun p => ¬ Due p now) = [] ∧
        st'.Perm ((r.filter (fun p => Due p now)).map (·.id))) := by
  induction f with
  | zero => intro a r st _ h; omega
  | succ f ih =>
    intro a r st hno hf hne ha
    have hm : (A ++ (⟨name, a ++ r⟩ : Mod) :: B)[A.length]? = some ⟨name, a ++ r⟩ := by simp
    simp only [stopLoop, ne_eq, not_true_eq_false, if_false, hm]
    cases r with
    | nil =>
      left
      refine ⟨a, [], ?_, by simp, by simp⟩
      simp
    | cons p r =>
      have hp : (a ++ p :: r)[a.length]? = some p := by simp
      simp only [hp]
      by_cases hd : Due p now
      · have hdd : isDue p now = true := (isDue_iff p now (hno p (by simp)) hn).2 hd
        rw [if_pos hdd]
        obtain ⟨r', e1, e2⟩ := swapRemove_perm a r p
        by_cases h1 : (a ++ p :: r).length = 1
        · rw [if_pos h1]
          right
          have : a = [] ∧ r = [] := by
            simp only [List.length_append, List.length_cons] at h1
            exact ⟨List.eq_nil_of_length_eq_zero (by omega), List.eq_nil_of_length_eq_zero (by omega)⟩
          obtain ⟨rfl, rfl⟩ := this
          obtain ⟨B', g1, g2⟩ := swapRemove_perm A B ⟨name, [p]⟩
          have hsr : swapRemove [p] 0 = [] := rfl
          refine ⟨[p.id], if A ++ B' = [] then g + 1 else g, B', ?_, g2, rfl, by simp [hd], by simp [hd]⟩
          have hm2 : (A ++ (⟨name, [p]⟩ : Mod) :: B)[A.length]? = some ⟨name, [p]⟩ := by simp
          simp only [List.nil_append, List.length_nil, delSub, hm2, List.getElem?_cons_zero, ne_eq, not_true_eq_false, if_false,
            hsr, if_true, g1]
        · rw [if_neg h1]
          have hr' : a ++ r' ≠ [] := by
            intro hh
            have := e2.length_eq
            have h2 : (a ++ r').length = 0 := by rw [hh]; rfl
            simp only [List.length_append, List.length_cons] at h1 h2
            omega
          have hdel : delSub ⟨A ++ ⟨name, a ++ p :: r⟩ :: B, g, st⟩ A.length a.length p.id =
              ⟨A ++ ⟨name, a ++ r'⟩ :: B, g, st ++ [p.id]⟩ := by
            simp only [delSub, hm, hp, ne_eq, not_true_eq_false, if_false, e1]
            rw [if_neg hr']
            simp
          rw [hdel]
          rcases ih a r' (st ++ [p.id]) (fun q hq => hno q (by
              rcases List.mem_append.1 hq with h | h
              · simp [h]
              · simp [e2.mem_iff.1 h])) (by rw [e2.length_eq]; simp only [List.length_cons] at hf; omega) hr' ha with
            ⟨l, st', k1, k2, k3⟩ | ⟨st', g', B', k1, k2, k3, k4, k5⟩
          · left
            refine ⟨l, p.id :: st', by rw [k1]; simp, ?_, ?_⟩
            · refine k2.trans ?_
              simp only [List.filter_cons, hd, not_true_eq_false, decide_false, Bool.false_eq_true, if_false]
              exact List.Perm.append_left _ (e2.filter _)
            · simp only [List.filter_cons, hd, decide_true, if_true, List.map_cons]
              exact List.Perm.cons _ (k3.trans ((e2.filter _).map _))
          · right
            refine ⟨p.id :: st', g', B', by rw [k1]; simp, k2, k3, ?_, ?_⟩
            · simp only [List.filter_cons, hd, not_true_eq_false, decide_false, Bool.false_eq_true, if_false]
              have h0 := (e2.filter (fun p => decide (¬ Due p now))).symm
              rw [k4] at h0
              exact h0.eq_nil
            · simp only [List.filter_cons, hd, decide_true, if_true, List.map_cons]
              exact List.Perm.cons _ (k5.trans ((e2.filter _).map _))
      · have hdd : ¬ isDue p now = true := fun hh => hd ((isDue_iff p now (hno p (by simp)) hn).1 hh)
        rw [if_neg hdd]
        have hno' : ∀ q ∈ (a ++ [p]) ++ r, Normal q.stop := fun q hq => hno q (by simpa using hq)
        have ha' : ∀ q ∈ a ++ [p], ¬ Due q now := by
          intro q hq
          rcases List.mem_append.1 hq with h | h
          · exact ha q h
          · simp only [List.mem_singleton] at h; subst h; exact hd
        have hres := ih (a ++ [p]) r st hno' (by simp only [List.length_cons] at hf; omega) (by simp) ha'
        simp only [List.length_append, List.length_cons, List.length_nil, Nat.zero_add, List.append_assoc,
          List.cons_append, List.nil_append] at hres
        rcases hres with ⟨l, st', k1, k2, k3⟩ | ⟨_, _, _, _, _, k3, _⟩
        · left
          refine ⟨l, st', k1, ?_, ?_⟩
          · simpa [List.filter_cons, hd] using k2
          · simpa [List.filter_cons, hd] using k3
        · simp at k3

theorem all_append (a b : List Mod) : all (a ++ b) = all a ++ all b := by simp [all]

theorem all_cons (m : Mod) (b : List Mod) : all (m :: b) = m.subs.map (fun p => (m.name, p)) ++ all b := by simp [all]

theorem all_perm {a b : List Mod} (h : a.Perm b) : (all a).Perm (all b) := h.flatMap_right _

theorem filter_named (name : String) (l : List Sub) (q : String × Sub → Bool) :
    (l.map (fun p => (name, p))).filter q = (l.filter (fun p => q (name, p))).map (fun p => (name, p)) := by
  rw [List.filter_map]; rfl

/-- Nearest stop time. -/
theorem nearest_spec (l : List Sub) (next : Ts) (hl : ∀ p ∈ l, Normal p.stop) (hn : Normal next) :
    Normal (nearest next l) ∧ (nearest next l = next ∨ ∃ p ∈ l, p.stop = nearest next l) ∧
    (next ≠ ⟨0, 0⟩ → nearest next l ≠ ⟨0, 0⟩ ∧ (nearest next l).ns ≤ next.ns) ∧
    (∀ p ∈ l, p.stop ≠ ⟨0, 0⟩ → nearest next l ≠ ⟨0, 0⟩ ∧ (nearest next l).ns ≤ p.stop.ns) := by
  have hz : ∀ t : Ts, (t.sec = 0 ∧ t.nsec = 0) ↔ t = ⟨0, 0⟩ := fun t => by obtain ⟨s, n⟩ := t; simp
  induction l generalizing next with
  | nil => exact ⟨hn, Or.inl rfl, fun h => ⟨h, by simp [nearest]⟩, by simp⟩
  | cons p ps ih =>
    have hps : ∀ q ∈ ps, Normal q.stop := fun q hq => hl q (by simp [hq])
    simp only [nearest, hz]
    by_cases h0 : p.stop = ⟨0, 0⟩
    · rw [if_pos h0]
      obtain ⟨a1, a2, a3, a4⟩ := ih next hps hn
      refine ⟨a1, ?_, a3, ?_⟩
      · rcases a2 with h | ⟨q, h1, h2⟩
        · exact Or.inl h
        · exact Or.inr ⟨q, by simp [h1], h2⟩
      · intro q hq hq0
        rcases List.mem_cons.1 hq with rfl | hq
        · exact absurd h0 hq0
        · exact a4 q hq hq0
    · rw [if_neg h0]
      have hc := cmp_exact p.stop next (hl p (by simp)) hn
      by_cases h1 : next = ⟨0, 0⟩ ∨ tsCmp p.stop next < 0
      · rw [if_pos h1]
        obtain ⟨a1, a2, a3, a4⟩ := ih p.stop hps (hl p (by simp))
        refine ⟨a1, ?_, ?_, ?_⟩
        · rcases a2 with h | ⟨q, h1, h2⟩
          · exact Or.inr ⟨p, by simp, h.symm⟩
          · exact Or.inr ⟨q, by simp [h1], h2⟩
        · intro hne
          have h2 : tsCmp p.stop next < 0 := by rcases h1 with h | h; exact absurd h hne; exact h
          have h3 : ¬ p.stop.ns > next.ns := fun hh => by rw [hc.1.2 hh] at h2; omega
          have := a3 h0
          exact ⟨this.1, by omega⟩
        · intro q hq hq0
          rcases List.mem_cons.1 hq with rfl | hq
          · exact a3 h0
          · exact a4 q hq hq0
      · rw [if_neg h1]
        have hne : next ≠ ⟨0, 0⟩ := fun h => h1 (Or.inl h)
        have hle : next.ns ≤ p.stop.ns := by
          have : ¬ p.stop.ns < next.ns := fun hh => h1 (Or.inr (by rw [hc.2.1.2 hh]; omega))
          omega
        obtain ⟨a1, a2, a3, a4⟩ := ih next hps hn
        refine ⟨a1, ?_, a3, ?_⟩
        · rcases a2 with h | ⟨q, h1, h2⟩
          · exact Or.inl h
          · exact Or.inr ⟨q, by simp [h1], h2⟩
        · intro q hq hq0
          rcases List.mem_cons.1 hq with rfl | hq
          · have := a3 hne
            exact ⟨this.1, by omega⟩
          · exact a4 q hq hq0

/-- Wake-up times that occur. -/
def Wake (w : Ts) : Prop := Normal w ∧ 0 ≤ w.sec

/-- One module updates the wake-up time; `Wide` stop times are representable. -/
theorem stopIn_spec (l : List Sub) (now w : Ts) (hl : ∀ p ∈ l, Wide p.stop) (hn : Wide now) (hw : Wake w) :
    ∃ w', stopIn l now w = some w' ∧ Wake w' ∧
      ((∀ p ∈ l, p.stop ≠ ⟨0, 0⟩ → now.ns < p.stop.ns) →
        (w ≠ ⟨0, 0⟩ → w' ≠ ⟨0, 0⟩ ∧ w'.ns ≤ w.ns) ∧
        (∀ p ∈ l, p.stop ≠ ⟨0, 0⟩ → w' ≠ ⟨0, 0⟩ ∧ w'.ns ≤ p.stop.ns - now.ns) ∧
        ((∀ p ∈ l, p.stop = ⟨0, 0⟩) → w' = w)) := by
  have hz : ∀ t : Ts, (t.sec = 0 ∧ t.nsec = 0) ↔ t = ⟨0, 0⟩ := fun t => by obtain ⟨s, n⟩ := t; simp
  obtain ⟨n1, n2, _, n4⟩ := nearest_spec l ⟨0, 0⟩ (fun p hp => (hl p hp).1) (by simp [Normal])
  simp only [stopIn, hz]
  by_cases h0 : nearest ⟨0, 0⟩ l = ⟨0, 0⟩
  · rw [if_pos h0]
    refine ⟨w, rfl, hw, fun _ => ⟨fun h => ⟨h, by omega⟩, fun p hp hp0 => absurd h0 (n4 p hp hp0).1, fun _ => rfl⟩⟩
  · rw [if_neg h0]
    obtain ⟨q, hq, hqe⟩ := n2.resolve_left h0
    have hc := cmp_exact now (nearest ⟨0, 0⟩ l) hn.1 n1
    by_cases h1 : tsCmp now (nearest ⟨0, 0⟩ l) > -1
    · rw [if_pos h1]
      refine ⟨_, rfl, ⟨by simp [Normal], hw.2⟩, fun hall => ?_⟩
      have := hall q hq (by rw [hqe]; exact h0)
      rw [hqe] at this
      rw [hc.2.1.2 this] at h1
      omega
    · rw [if_neg h1]
      have hlt : now.ns < (nearest ⟨0, 0⟩ l).ns := by
        have hge : ¬ tsCmp now (nearest ⟨0, 0⟩ l) = 1 := by omega
        have hne : ¬ tsCmp now (nearest ⟨0, 0⟩ l) = 0 := by omega
        have h3 : ¬ now.ns > (nearest ⟨0, 0⟩ l).ns := fun h => hge (hc.1.2 h)
        have h4 : now.ns ≠ (nearest ⟨0, 0⟩ l).ns := by
          intro h
          apply hne
          rw [hc.2.2]
          generalize nearest ⟨0, 0⟩ l = t at *
          obtain ⟨a, b⟩ := now
          obtain ⟨c, d⟩ := t
          have e1 := hn.1
          simp only [Normal, Ts.ns, Ts.mk.injEq] at e1 n1 h ⊢
          omega
        omega
      have hwn : Wide (nearest ⟨0, 0⟩ l) := by rw [← hqe]; exact hl q hq
      obtain ⟨t, t1, t2, _⟩ := sub_exact (nearest ⟨0, 0⟩ l) now hwn hn
      obtain ⟨t3, t4⟩ := t2 (by omega)
      rw [t1]
      have htne : t ≠ ⟨0, 0⟩ := by rintro rfl; simp [Ts.ns] at t3; simp only [Ts.ns] at hlt; omega
      have ht0 : 0 ≤ t.sec := by simp only [Ts.ns, Normal] at t3 t4 hlt; omega
      have hnz : (∀ p ∈ l, p.stop = ⟨0, 0⟩) → False := fun hh => h0 (by rw [← hqe]; exact hh q hq)
      simp only
      by_cases h2 : w = ⟨0, 0⟩ ∨ tsCmp w t > 0
      · rw [if_pos h2]
        refine ⟨t, rfl, ⟨t4, ht0⟩, fun _ => ⟨fun hne => ⟨htne, ?_⟩, fun p hp hp0 => ⟨htne, ?_⟩, fun hh => (hnz hh).elim⟩⟩
        · have h3 : tsCmp w t > 0 := h2.resolve_left hne
          have hc2 := cmp_exact w t hw.1 t4
          have : ¬ w.ns < t.ns := fun hh => by rw [hc2.2.1.2 hh] at h3; omega
          omega
        · have := (n4 p hp hp0).2; omega
      · rw [if_neg h2]
        have hwne : w ≠ ⟨0, 0⟩ := fun h => h2 (Or.inl h)
        have hc2 := cmp_exact w t hw.1 t4
        have hle : ¬ w.ns > t.ns := fun hh => h2 (Or.inr (by rw [hc2.1.2 hh]; omega))
        refine ⟨w, rfl, hw, fun _ => ⟨fun h => ⟨h, by omega⟩, fun p hp hp0 => ⟨hwne, ?_⟩, fun hh => (hnz hh).elim⟩⟩
        have := (n4 p hp hp0).2; omega

/-- The loop over all modules without interference. -/
theorem notifLoop_spec (clk : String → Ts × Ts) (hclk : ∀ n, Wide (clk n).1 ∧ Wide (clk n).2) (f0 : Nat) (f : Nat) :
    ∀ (A R : List Mod) (g : Nat) (st : List Nat) (w : Ts), R.length < f → (∀ x ∈ all (A ++ R), Wide x.2.stop) →
    (∀ m ∈ R, m.subs ≠ [] ∧ m.subs.length < f0) → Wake w →
    ∃ A' g' st' w', notifLoop (fun _ s => s) clk f0 f A.length ⟨A ++ R, g, st⟩ w = .ok ⟨A ++ A', g', st ++ st'⟩ w' ∧
      (all A').Perm ((all R).filter (fun x => ¬ Due x.2 (clk x.1).1)) ∧
      st'.Perm (((all R).filter (fun x => Due x.2 (clk x.1).1)).map (·.2.id)) ∧ Wake w' ∧
      ((∀ x ∈ all A', x.2.stop ≠ ⟨0, 0⟩ → (clk x.1).2.ns < x.2.stop.ns) →
        (w ≠ ⟨0, 0⟩ → w' ≠ ⟨0, 0⟩ ∧ w'.ns ≤ w.ns) ∧
        (∀ x ∈ all A', x.2.stop ≠ ⟨0, 0⟩ → w' ≠ ⟨0, 0⟩ ∧ w'.ns ≤ x.2.stop.ns - (clk x.1).2.ns) ∧
        ((∀ x ∈ all A', x.2.stop = ⟨0, 0⟩) → w' = w)) := by
  induction f with
  | zero => intro A R g st w h; omega
  | succ f ih =>
    intro A R g st w hf hwide hsub hw
    cases R with
    | nil =>
      refine ⟨[], g, [], w, ?_, by simp [all], by simp [all], hw, fun _ => ⟨fun h => ⟨h, by omega⟩, by simp [all], fun _ => rfl⟩⟩
      simp [notifLoop]
    | cons m R =>
      have hm : (A ++ m :: R)[A.length]? = some m := by simp
      have hms : ∀ p ∈ m.subs, Wide p.stop := fun p hp => hwide (m.name, p) (by
        simp only [all_append, all_cons, List.mem_append, List.mem_map]
        exact Or.inr (Or.inl ⟨p, hp, rfl⟩))
      obtain ⟨hne, hlen⟩ := hsub m (by simp)
      simp only [notifLoop, hm]
      have hsl := stopLoop_spec (clk m.name).1 (hclk m.name).1.1 A R m.name g f0 [] m.subs st
        (fun p hp => (hms p (by simpa using hp)).1) hlen (by simpa using hne) (by simp)
      simp only [List.nil_append, List.length_nil] at hsl
      rcases hsl with ⟨l, s1, k1, k2, k3⟩ | ⟨s1, g1, R', k1, k2, _, k4, k5⟩
      · rw [k1]
        have hl : (A ++ (⟨m.name, l⟩ : Mod) :: R)[A.length]? = some ⟨m.name, l⟩ := by simp
        simp only [hl]
        have hlw : ∀ p ∈ l, Wide p.stop := fun p hp => hms p (List.mem_filter.1 (k2.mem_iff.1 hp)).1
        obtain ⟨w1, e1, e2, e3⟩ := stopIn_spec l (clk m.name).2 w hlw (hclk m.name).2 hw
        rw [e1]
        simp only
        obtain ⟨A', g', st', w', r1, r2, r3, r4, r5⟩ := ih (A ++ [⟨m.name, l⟩]) R g (st ++ s1) w1
          (by simp only [List.length_cons] at hf; omega)
          (fun x hx => by
            simp only [all_append, all_cons, List.append_assoc, List.mem_append, List.mem_map] at hx
            rcases hx with hx | ⟨p, hp, rfl⟩ | hx | hx
            · exact hwide x (by simp only [all_append, List.mem_append]; exact Or.inl hx)
            · exact hlw p hp
            · simp [all] at hx
            · exact hwide x (by simp only [all_append, all_cons, List.mem_append]; exact Or.inr (Or.inr hx)))
          (fun m' hm' => hsub m' (by simp [hm'])) e2
        simp only [List.length_append, List.length_cons, List.length_nil, Nat.zero_add, List.append_assoc,
          List.singleton_append] at r1
        refine ⟨⟨m.name, l⟩ :: A', g', s1 ++ st', w', by rw [r1], ?_, ?_, r4, ?_⟩
        · rw [all_cons, all_cons, List.filter_append, filter_named]
          exact (k2.map _).append r2
        · rw [all_cons, List.filter_append, filter_named, List.map_append, List.map_map]
          exact (k3.append r3)
        · intro hall
          have ha1 : ∀ p ∈ l, p.stop ≠ ⟨0, 0⟩ → (clk m.name).2.ns < p.stop.ns := fun p hp hp0 =>
            hall (m.name, p) (by rw [all_cons]; exact List.mem_append_left _ (List.mem_map.2 ⟨p, hp, rfl⟩)) hp0
          obtain ⟨f1, f2, f3⟩ := e3 ha1
          obtain ⟨h1, h2, h3⟩ := r5 (fun x hx => hall x (by rw [all_cons]; exact List.mem_append_right _ hx))
          refine ⟨fun hh => ?_, ?_, ?_⟩
          · have a := f1 hh
            have b := h1 a.1
            exact ⟨b.1, by omega⟩
          · intro x hx hx0
            rw [all_cons, List.mem_append, List.mem_map] at hx
            rcases hx with ⟨p, hp, rfl⟩ | hx
            · have a := f2 p hp hx0
              have b := h1 a.1
              exact ⟨b.1, by simp only; omega⟩
            · exact h2 x hx hx0
          · intro hh
            rw [h3 (fun x hx => hh x (by rw [all_cons]; exact List.mem_append_right _ hx)),
              f3 (fun p hp => hh (m.name, p) (by rw [all_cons]; exact List.mem_append_left _ (List.mem_map.2 ⟨p, hp, rfl⟩)))]
      · rw [k1]
        simp only
        obtain ⟨A', g', st', w', r1, r2, r3, r4, r5⟩ := ih A R' g1 (st ++ s1) w
          (by have := k2.length_eq; simp only [List.length_cons] at hf; omega)
          (fun x hx => by
            simp only [all_append, List.mem_append] at hx
            rcases hx with hx | hx
            · exact hwide x (by simp only [all_append, List.mem_append]; exact Or.inl hx)
            · exact hwide x (by
                simp only [all_append, all_cons, List.mem_append]
                exact Or.inr (Or.inr ((all_perm k2).mem_iff.1 hx))))
          (fun m' hm' => hsub m' (by simp [k2.mem_iff.1 hm'])) hw
        refine ⟨A', g', s1 ++ st', w', by rw [r1]; simp, ?_, ?_, r4, r5⟩
        · rw [all_cons, List.filter_append, filter_named]
          have : (m.subs.filter (fun p => decide (¬ Due p (clk m.name).1))) = [] := k4
          rw [this]
          exact r2.trans ((all_perm k2).filter _)
        · rw [all_cons, List.filter_append, filter_named, List.map_append, List.map_map]
          exact (k5.append (r3.trans (((all_perm k2).filter _).map _)))

/-! ## C111: notification subscriptions end at their stop time -/

/-- C111. A pass of event processing without interference ends: exactly the subscriptions whose stop time is not after the time the
pass looked at the clock for their module are removed and get the "stop time" notification, once each; all others stay. Missing
from C111: other threads changing the structure during the removal (`subscribe_race`). -/
theorem stop_exact_partial (clk : String → Ts × Ts) (hclk : ∀ n, Wide (clk n).1 ∧ Wide (clk n).2) (s : St) (w : Ts) (f0 f : Nat)
    (hf : s.mods.length < f) (hsub : ∀ m ∈ s.mods, m.subs ≠ [] ∧ m.subs.length < f0) (hw : Normal w ∧ 0 ≤ w.sec)
    (hwide : ∀ x ∈ all s.mods, Wide x.2.stop) :
    ∃ s' w', notifLoop (fun _ s => s) clk f0 f 0 s w = .ok s' w' ∧
      (all s'.mods).Perm ((all s.mods).filter (fun x => ¬ Due x.2 (clk x.1).1)) ∧
      ∃ st, s'.stopped = s.stopped ++ st ∧ st.Perm (((all s.mods).filter (fun x => Due x.2 (clk x.1).1)).map (·.2.id)) := by
  obtain ⟨A', g', st', w', h1, h2, h3, _⟩ := notifLoop_spec clk hclk f0 f [] s.mods s.gen s.stopped w hf
    (by simpa using hwide) hsub hw
  exact ⟨_, w', h1, by simpa using h2, st', rfl, h3⟩

/-- C111. Afterwards the listening thread wakes up no later than any remaining stop time that is less than 2^31 ms (24 days) away,
if none has elapsed during the pass. Missing from C111: stop times elapsed during the pass (`elapsed_handled_late`), later stop
times (`late_stop_time_missed`). -/
theorem wakes_for_stop_partial (clk : String → Ts × Ts) (hclk : ∀ n, Wide (clk n).1 ∧ Wide (clk n).2) (s s' : St) (w w' : Ts)
    (f0 f : Nat) (hf : s.mods.length < f) (hsub : ∀ m ∈ s.mods, m.subs ≠ [] ∧ m.subs.length < f0)
    (hw : Normal w ∧ 0 ≤ w.sec) (hwide : ∀ x ∈ all s.mods, Wide x.2.stop)
    (h : notifLoop (fun _ s => s) clk f0 f 0 s w = .ok s' w')
    (hnone : ∀ x ∈ all s'.mods, x.2.stop ≠ ⟨0, 0⟩ → (clk x.1).2.ns < x.2.stop.ns)
    (x : String × Sub) (hx : x ∈ all s'.mods) (hx0 : x.2.stop ≠ ⟨0, 0⟩)
    (hnear : x.2.stop.ns < (clk x.1).2.ns + 2 ^ 31 * 1000000) :
    ∃ ms, OperPoll.waitFor w' = some (.wait ms) ∧ (clk x.1).2.ns + ms * 1000000 ≤ x.2.stop.ns ∧
      (w ≠ ⟨0, 0⟩ → w'.ns ≤ w.ns) := by
  obtain ⟨A', g', st', w1, h1, h2, h3, h4, h5⟩ := notifLoop_spec clk hclk f0 f [] s.mods s.gen s.stopped w hf
    (by simpa using hwide) hsub hw
  simp only [List.nil_append, List.length_nil] at h1
  rw [h] at h1
  simp only [Out.ok.injEq] at h1
  obtain ⟨rfl, rfl⟩ := h1
  obtain ⟨a, b, _⟩ := h5 hnone
  obtain ⟨c, d⟩ := b x hx hx0
  have hwx := OperPoll.wait_exact_partial w' h4.1 h4.2 c (by omega)
  have hpos : 0 ≤ w'.ns := by have := h4.1; have := h4.2; simp only [Normal, Ts.ns] at *; omega
  exact ⟨_, hwx, by omega, fun hh => (a hh).2⟩

/-- Two modules, one of them finishes. -/
def demo : St := ⟨[⟨"m", [⟨1, ⟨1000, 0⟩⟩]⟩, ⟨"n", [⟨2, ⟨0, 0⟩⟩, ⟨3, ⟨999, 5⟩⟩, ⟨4, ⟨1002, 500000000⟩⟩]⟩], 7, []⟩

example : notifLoop (fun _ s => s) (fun _ => (⟨1000, 0⟩, ⟨1001, 0⟩)) 10 10 0 demo ⟨5, 0⟩ =
    .ok ⟨[⟨"n", [⟨2, ⟨0, 0⟩⟩, ⟨4, ⟨1002, 500000000⟩⟩]⟩], 7, [1, 3]⟩ ⟨1, 500000000⟩ ∧
    (∀ m ∈ demo.mods, m.subs ≠ [] ∧ m.subs.length < 10) ∧ (∀ x ∈ all demo.mods, Wide x.2.stop) ∧ Wide ⟨1000, 0⟩ := by
  refine ⟨by decide +kernel, by decide, ?_, ?_⟩
  · intro x hx
    simp only [all, demo, List.flatMap_cons, List.map_cons, List.map_nil, List.flatMap_nil, List.append_nil, List.mem_append,
      List.mem_cons, List.not_mem_nil, or_false] at hx
    rcases hx with rfl | rfl | rfl | rfl <;> simp [Wide, Normal]
  · simp [Wide, Normal]

/-- Finding, C111 is violated: a stop time that elapses while events are processed should be handled as soon as possible, but only
the nanoseconds of the wake-up time are set. With five seconds from another subscription the thread sleeps for five seconds. -/
theorem elapsed_handled_late : ∃ (s s' : St) (w w' : Ts) (clk : String → Ts × Ts) (x : String × Sub),
    notifLoop (fun _ s => s) clk 10 10 0 s w = .ok s' w' ∧ x ∈ all s'.mods ∧ x.2.stop ≠ ⟨0, 0⟩ ∧
    x.2.stop.ns < (clk x.1).2.ns ∧ OperPoll.waitFor w' = some (.wait 5000) :=
  ⟨⟨[⟨"m", [⟨1, ⟨1001, 0⟩⟩]⟩], 0, []⟩, ⟨[⟨"m", [⟨1, ⟨1001, 0⟩⟩]⟩], 0, []⟩, ⟨5, 0⟩, ⟨5, 1⟩, fun _ => (⟨1000, 0⟩, ⟨1002, 0⟩),
   ("m", ⟨1, ⟨1001, 0⟩⟩), by decide +kernel, by simp [all], by decide, by simp [Ts.ns], rfl⟩

/-- Finding, C111 is violated: with a stop time in 30 days the timeout of `poll()` is negative and the thread waits without a
limit; unless an event arrives the subscription does not end. -/
theorem late_stop_time_missed : ∃ (s s' : St) (w' : Ts) (clk : String → Ts × Ts) (x : String × Sub),
    notifLoop (fun _ s => s) clk 10 10 0 s ⟨0, 0⟩ = .ok s' w' ∧ x ∈ all s'.mods ∧
    x.2.stop.ns = (clk x.1).2.ns + 30 * 24 * 3600 * 1000000000 ∧ OperPoll.waitFor w' = some .forever :=
  ⟨⟨[⟨"m", [⟨1, ⟨2593000, 0⟩⟩]⟩], 0, []⟩, ⟨[⟨"m", [⟨1, ⟨2593000, 0⟩⟩]⟩], 0, []⟩, ⟨2592000, 0⟩, fun _ => (⟨1000, 0⟩, ⟨1000, 0⟩),
   ("m", ⟨1, ⟨2593000, 0⟩⟩), by decide +kernel, by simp [all], by simp [Ts.ns], rfl⟩

/-- Finding, C111 is violated: while an ended subscription is removed, the lock of the structure is released. If another thread
then subscribes to notifications of a new module with the same structure, the array is reallocated and the loop goes on with a
pointer into the freed one. -/
theorem subscribe_race : ∃ (s : St) (clk : String → Ts × Ts), (∀ m ∈ s.mods, m.subs ≠ []) ∧
    notifLoop (fun _ => addModule ⟨"new", [⟨9, ⟨0, 0⟩⟩]⟩) clk 10 10 0 s ⟨0, 0⟩ = .uaf :=
  ⟨⟨[⟨"m", [⟨1, ⟨999, 0⟩⟩, ⟨2, ⟨0, 0⟩⟩]⟩], 0, []⟩, fun _ => (⟨1000, 0⟩, ⟨1000, 0⟩), by simp, by decide +kernel⟩

end Verif.StopTime
