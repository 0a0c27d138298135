import Verif.ChangeNotify

namespace Verif.ChangeNotify

/-! ### Scanning the subscriptions -/

theorem scanMax_spec (v : Sub → Bool) (l : List Sub) : ∀ (seen : List Sub) (acc : Option Nat),
    (acc = none → ∀ s ∈ seen, v s = false) →
    (∀ m, acc = some m → (∃ s ∈ seen, v s = true ∧ s.prio = m) ∧ ∀ s ∈ seen, v s = true → s.prio ≤ m) →
    (scanMax v l acc = none → ∀ s ∈ seen ++ l, v s = false) ∧
    (∀ m, scanMax v l acc = some m → (∃ s ∈ seen ++ l, v s = true ∧ s.prio = m) ∧ ∀ s ∈ seen ++ l, v s = true → s.prio ≤ m) := by
  induction l with
  | nil => intro seen acc h1 h2; simpa [scanMax] using ⟨h1, h2⟩
  | cons a l ih =>
    intro seen acc h1 h2
    have hap : seen ++ a :: l = (seen ++ [a]) ++ l := by simp
    rw [hap]
    unfold scanMax
    by_cases hv : v a = true
    · rw [if_pos hv]
      refine ih (seen ++ [a]) _ (by simp) ?_
      intro m hm
      cases acc with
      | none =>
        simp only [Option.some.injEq] at hm
        subst hm
        refine ⟨⟨a, by simp, hv, rfl⟩, ?_⟩
        intro s hs hvs
        rcases List.mem_append.mp hs with hs | hs
        · rw [h1 rfl s hs] at hvs; cases hvs
        · simp at hs; subst hs; exact Nat.le_refl _
      | some m0 =>
        obtain ⟨⟨x, hx, hxv, hxp⟩, hle⟩ := h2 m0 rfl
        simp only [Option.some.injEq] at hm
        by_cases hgt : a.prio > m0
        · rw [if_pos hgt] at hm; subst hm
          refine ⟨⟨a, by simp, hv, rfl⟩, ?_⟩
          intro s hs hvs
          rcases List.mem_append.mp hs with hs | hs
          · have := hle s hs hvs; omega
          · simp at hs; subst hs; exact Nat.le_refl _
        · rw [if_neg hgt] at hm; subst hm
          refine ⟨⟨x, by simp [hx], hxv, hxp⟩, ?_⟩
          intro s hs hvs
          rcases List.mem_append.mp hs with hs | hs
          · exact hle s hs hvs
          · simp at hs; subst hs; omega
    · rw [if_neg hv]
      have hv' : v a = false := by simpa using hv
      refine ih (seen ++ [a]) acc ?_ ?_
      · intro h0 s hs
        rcases List.mem_append.mp hs with hs | hs
        · exact h1 h0 s hs
        · simp at hs; subst hs; exact hv'
      · intro m hm
        obtain ⟨⟨x, hx, hxv, hxp⟩, hle⟩ := h2 m hm
        refine ⟨⟨x, by simp [hx], hxv, hxp⟩, ?_⟩
        intro s hs hvs
        rcases List.mem_append.mp hs with hs | hs
        · exact hle s hs hvs
        · simp at hs; subst hs; rw [hv'] at hvs; cases hvs

/-- What a scan finds. -/
def Found (v : Sub → Bool) (last : Nat) (l : List Sub) (x : Option (Nat × List Sub)) : Prop :=
  match x with
  | none => ∀ s ∈ l, ¬ (v s = true ∧ s.prio < last)
  | some (p, ss) => ss ≠ [] ∧ ss = l.filter (fun s => v s && s.prio == p) ∧ p < last ∧
      ∀ s ∈ l, v s = true → s.prio < last → s.prio ≤ p

theorem scanNext_spec (v : Sub → Bool) (last : Nat) (l : List Sub) : ∀ (seen : List Sub) (acc : Option (Nat × List Sub)),
    Found v last seen acc → Found v last (seen ++ l) (scanNext v last l acc) := by
  induction l with
  | nil => intro seen acc h; simpa [scanNext] using h
  | cons a l ih =>
    intro seen acc h
    have hap : seen ++ a :: l = (seen ++ [a]) ++ l := by simp
    rw [hap]
    unfold scanNext
    by_cases hv : (v a && decide (last > a.prio)) = true
    · rw [if_pos hv]
      simp only [Bool.and_eq_true, decide_eq_true_eq] at hv
      apply ih
      cases acc with
      | none =>
        simp only [Found] at h ⊢
        refine ⟨by simp, ?_, hv.2, ?_⟩
        · rw [List.filter_append]
          have : seen.filter (fun s => v s && s.prio == a.prio) = [] := by
            rw [List.filter_eq_nil_iff]
            intro s hs hc
            simp only [Bool.and_eq_true, beq_iff_eq] at hc
            exact h s hs ⟨hc.1, by omega⟩
          rw [this]; simp [hv.1]
        · intro s hs hvs hlt
          rcases List.mem_append.mp hs with hs | hs
          · exact absurd ⟨hvs, hlt⟩ (h s hs)
          · simp at hs; subst hs; exact Nat.le_refl _
      | some y =>
        obtain ⟨p, ss⟩ := y
        simp only [Found] at h
        obtain ⟨hne, hss, hp, hle⟩ := h
        by_cases h1 : p < a.prio
        · simp only [if_pos h1, Found]
          refine ⟨by simp, ?_, hv.2, ?_⟩
          · rw [List.filter_append]
            have : seen.filter (fun s => v s && s.prio == a.prio) = [] := by
              rw [List.filter_eq_nil_iff]
              intro s hs hc
              simp only [Bool.and_eq_true, beq_iff_eq] at hc
              have := hle s hs hc.1 (by omega); omega
            rw [this]; simp [hv.1]
          · intro s hs hvs hlt
            rcases List.mem_append.mp hs with hs | hs
            · have := hle s hs hvs hlt; omega
            · simp at hs; subst hs; exact Nat.le_refl _
        · simp only [if_neg h1]
          by_cases h2 : a.prio = p
          · simp only [if_pos h2, Found]
            refine ⟨by simp, ?_, hp, ?_⟩
            · rw [List.filter_append, hss]; simp [hv.1, h2]
            · intro s hs hvs hlt
              rcases List.mem_append.mp hs with hs | hs
              · exact hle s hs hvs hlt
              · simp at hs; subst hs; omega
          · simp only [if_neg h2, Found]
            refine ⟨hne, ?_, hp, ?_⟩
            · rw [List.filter_append, ← hss]; simp [h2]
            · intro s hs hvs hlt
              rcases List.mem_append.mp hs with hs | hs
              · exact hle s hs hvs hlt
              · simp at hs; subst hs; omega
    · rw [if_neg hv]
      simp only [Bool.and_eq_true, decide_eq_true_eq, not_and] at hv
      apply ih
      cases acc with
      | none =>
        simp only [Found] at h ⊢
        intro s hs hc
        rcases List.mem_append.mp hs with hs | hs
        · exact h s hs hc
        · simp at hs; subst hs; exact hv hc.1 hc.2
      | some y =>
        obtain ⟨p, ss⟩ := y
        simp only [Found] at h ⊢
        obtain ⟨hne, hss, hp, hle⟩ := h
        refine ⟨hne, ?_, hp, ?_⟩
        · rw [List.filter_append, ← hss]
          have : [a].filter (fun s => v s && s.prio == p) = [] := by
            rw [List.filter_eq_nil_iff]
            intro s hs hc
            simp at hs; subst hs
            simp only [Bool.and_eq_true, beq_iff_eq] at hc
            exact hv hc.1 (by omega)
          rw [this]; simp
        · intro s hs hvs hlt
          rcases List.mem_append.mp hs with hs | hs
          · exact hle s hs hvs hlt
          · simp at hs; subst hs; exact absurd hlt (hv hvs)

theorem next_spec (e : Env) (k : Nat) (ev : Ev) (last : Nat) (subs : List Sub) :
    Found (subOk e k ev) last subs (next e k ev last subs) := by
  have := scanNext_spec (subOk e k ev) last subs [] none (by simp [Found])
  simpa [next] using this

theorem next_some {e : Env} {k : Nat} {ev : Ev} {last p : Nat} {subs ss : List Sub} (h : next e k ev last subs = some (p, ss)) :
    ss ≠ [] ∧ ss = subs.filter (fun s => subOk e k ev s && s.prio == p) ∧ p < last ∧
      ∀ s ∈ subs, subOk e k ev s = true → s.prio < last → s.prio ≤ p := by
  have := next_spec e k ev last subs
  rw [h] at this
  exact this

/-! ### Consolidated priorities of modules -/

theorem minFrom_spec (cur : Nat) (l : List Nat) : ∀ (m : Nat), cur ≤ m →
    cur ≤ minFrom cur l m ∧ minFrom cur l m ≤ m ∧ (∀ p ∈ l, cur ≤ p → minFrom cur l m ≤ p) ∧
    (minFrom cur l m = m ∨ minFrom cur l m ∈ l) := by
  induction l with
  | nil => intro m h; simp [minFrom, h]
  | cons a l ih =>
    intro m h
    unfold minFrom
    by_cases h1 : a < cur
    · rw [if_pos h1]
      obtain ⟨i1, i2, i3, i4⟩ := ih m h
      refine ⟨i1, i2, ?_, ?_⟩
      · intro p hp hc
        rcases List.mem_cons.mp hp with rfl | hp
        · omega
        · exact i3 p hp hc
      · rcases i4 with i4 | i4
        · exact Or.inl i4
        · exact Or.inr (List.mem_cons_of_mem _ i4)
    · rw [if_neg h1]
      by_cases h2 : a < m
      · rw [if_pos h2]
        obtain ⟨i1, i2, i3, i4⟩ := ih a (by omega)
        refine ⟨i1, by omega, ?_, ?_⟩
        · intro p hp hc
          rcases List.mem_cons.mp hp with rfl | hp
          · exact i2
          · exact i3 p hp hc
        · rcases i4 with i4 | i4
          · rw [i4]; exact Or.inr (by simp)
          · exact Or.inr (List.mem_cons_of_mem _ i4)
      · rw [if_neg h2]
        obtain ⟨i1, i2, i3, i4⟩ := ih m h
        refine ⟨i1, i2, ?_, ?_⟩
        · intro p hp hc
          rcases List.mem_cons.mp hp with rfl | hp
          · omega
          · exact i3 p hp hc
        · rcases i4 with i4 | i4
          · exact Or.inl i4
          · exact Or.inr (List.mem_cons_of_mem _ i4)

/-- Two lists of the same length ordered in the same way. -/
def SameOrder (a b : List Nat) : Prop :=
  a.length = b.length ∧ ∀ (i j x y u v : Nat), a[i]? = some x → a[j]? = some y → b[i]? = some u → b[j]? = some v → (x < y ↔ u < v)

theorem SameOrder.refl (a : List Nat) : SameOrder a a := by
  refine ⟨rfl, ?_⟩
  intro i j x y u v h1 h2 h3 h4
  rw [h1] at h3; rw [h2] at h4
  cases h3; cases h4; exact Iff.rfl

theorem SameOrder.map {a b : List Nat} (h : SameOrder a b) (f : Nat → Nat) (hf : ∀ p ∈ b, ∀ q ∈ b, (p < q ↔ f p < f q)) : SameOrder a (b.map f) := by
  refine ⟨by rw [h.1]; simp, ?_⟩
  intro i j x y u v h1 h2 h3 h4
  rw [List.getElem?_map, Option.map_eq_some_iff] at h3 h4
  obtain ⟨u', hu, rfl⟩ := h3
  obtain ⟨v', hv, rfl⟩ := h4
  rw [h.2 i j x y u' v' h1 h2 hu hv]
  exact hf u' (List.mem_of_getElem? hu) v' (List.mem_of_getElem? hv)

theorem consolidate_spec : ∀ (fuel cur : Nat) (o l : List Nat) (left : Nat), SameOrder o l → left ≤ fuel → 0 < left →
    left = l.countP (fun p => decide (cur ≤ p)) → (∀ p ∈ l, p < W) →
    ∃ l' m, consolidate fuel cur l left = some (l', m) ∧ SameOrder o l' ∧ ∀ p ∈ l', p ≤ m := by
  intro fuel
  induction fuel with
  | zero => intro cur o l left _ h1 h2; omega
  | succ fuel ih =>
    intro cur o l left hso hf hpos hleft hW
    have hex : ∃ p ∈ l, cur ≤ p := by
      rw [hleft] at hpos
      obtain ⟨p, hp, hc⟩ := List.countP_pos_iff.mp hpos
      exact ⟨p, hp, by simpa using hc⟩
    obtain ⟨p0, hp0, hc0⟩ := hex
    have hcW : cur ≤ W - 1 := by have := hW p0 hp0; omega
    obtain ⟨m1, m2, m3, m4⟩ := minFrom_spec cur l (W - 1) hcW
    have hm : minFrom cur l (W - 1) ∈ l := by
      rcases m4 with m4 | m4
      · have := m3 p0 hp0 hc0
        have hlt := hW p0 hp0
        have : p0 = minFrom cur l (W - 1) := by omega
        rw [← this]; exact hp0
      · exact m4
    unfold consolidate
    simp only []
    generalize minFrom cur l (W - 1) = m at *
    have hmono : ∀ p ∈ l, ∀ q ∈ l, (p < q ↔ (if p = m then cur else p) < (if q = m then cur else q)) := by
      intro p hp q hq
      have h1 := m3 p hp
      have h2 := m3 q hq
      by_cases hpm : p = m <;> by_cases hqm : q = m <;> simp only [hpm, hqm, if_true, if_false] <;> omega
    have hso' : SameOrder o (assign m cur l) := hso.map _ hmono
    have hW' : ∀ p ∈ assign m cur l, p < W := by
      intro p hp
      obtain ⟨q, hq, rfl⟩ := List.mem_map.mp hp
      have := hW q hq
      have := hW m hm
      split <;> omega
    -- those left are the greater ones
    have hcount : ∀ l : List Nat, (∀ p ∈ l, cur ≤ p → m ≤ p) → l.countP (fun p => decide (cur ≤ p)) - l.count m =
        (assign m cur l).countP (fun p => decide (cur + 1 ≤ p)) ∧ l.count m ≤ l.countP (fun p => decide (cur ≤ p)) := by
      intro l
      induction l with
      | nil => intro _; simp [assign]
      | cons a l ih =>
        intro h
        obtain ⟨i1, i2⟩ := ih (fun p hp => h p (List.mem_cons_of_mem _ hp))
        have ha := h a (by simp)
        simp only [assign, List.map_cons, List.countP_cons, List.count_cons] at i1 ⊢
        by_cases ham : a = m
        · have e2 : (a == m) = true := by simpa using ham
          have e3 : decide (cur ≤ a) = true := by simp; omega
          have e4 : decide (cur + 1 ≤ (if a = m then cur else a)) = false := by simp [ham]
          rw [e2, e3, e4]
          simp only [if_true, if_false, Bool.false_eq_true]
          omega
        · have e2 : (a == m) = false := by simpa using ham
          by_cases hca : cur ≤ a
          · have e3 : decide (cur ≤ a) = true := by simpa using hca
            have e4 : decide (cur + 1 ≤ (if a = m then cur else a)) = true := by
              have := ha hca
              simp [ham]; omega
            rw [e2, e3, e4]
            simp only [if_true, if_false, Bool.false_eq_true]
            omega
          · have e3 : decide (cur ≤ a) = false := by simpa using hca
            have e4 : decide (cur + 1 ≤ (if a = m then cur else a)) = false := by simp [ham]; omega
            rw [e2, e3, e4]
            simp only [if_false, Bool.false_eq_true]
            omega
    obtain ⟨hc1, hc2⟩ := hcount l m3
    rw [← hleft] at hc1 hc2
    have hmpos : 0 < l.count m := List.count_pos_iff.mpr hm
    by_cases hz : left - l.count m = 0
    · rw [if_pos hz]
      refine ⟨_, _, rfl, hso', ?_⟩
      rw [hz] at hc1
      intro p hp
      have : ¬ (cur + 1 ≤ p) := by
        intro hc
        have : 0 < (assign m cur l).countP (fun p => decide (cur + 1 ≤ p)) := List.countP_pos_iff.mpr ⟨p, hp, by simpa using hc⟩
        omega
      omega
    · rw [if_neg hz]
      exact ih (cur + 1) o _ _ hso' (by omega) (by omega) hc1 hW'

/-- The priorities of modules are consolidated: same modules, same order, none above the result. -/
theorem setLevels_spec (ns : List NSub) (hne : ns ≠ []) (hW : ∀ n ∈ ns, n.mod.prio < W) :
    ∃ ns' m, setLevels ns = some (ns', m) ∧ ns'.map (·.mod) = ns.map (·.mod) ∧ ns'.map (·.cur) = ns.map (·.cur) ∧
      (∀ n ∈ ns', n.level ≤ m) ∧ ∀ a ∈ ns', ∀ b ∈ ns', (a.mod.prio < b.mod.prio ↔ a.level < b.level) := by
  have hpos : 0 < ns.length := by
    cases ns with
    | nil => exact absurd rfl hne
    | cons a l => simp
  obtain ⟨l', m, h1, h2, h3⟩ := consolidate_spec (ns.length + 1) 0 (ns.map (·.mod.prio)) (ns.map (·.mod.prio)) ns.length (SameOrder.refl _)
    (by omega) hpos (by simp) (by
      intro p hp
      obtain ⟨n, hn, rfl⟩ := List.mem_map.mp hp
      exact hW n hn)
  have hlen : l'.length = ns.length := by rw [← h2.1]; simp
  have hz : ∀ (ns : List NSub) (l' : List Nat), l'.length = ns.length →
      (List.zipWith (fun n p => ({ n with level := p } : NSub)) ns l').map (·.mod) = ns.map (·.mod) ∧
      (List.zipWith (fun n p => ({ n with level := p } : NSub)) ns l').map (·.cur) = ns.map (·.cur) ∧
      (List.zipWith (fun n p => ({ n with level := p } : NSub)) ns l').map (·.level) = l' := by
    intro ns
    induction ns with
    | nil => intro l' h; simp at h; subst h; simp
    | cons a ns ih =>
      intro l' h
      cases l' with
      | nil => simp at h
      | cons b l' =>
        obtain ⟨i1, i2, i3⟩ := ih l' (by simpa using h)
        simp [i1, i2, i3]
  obtain ⟨z1, z2, z3⟩ := hz ns l' hlen
  refine ⟨List.zipWith (fun n p => { n with level := p }) ns l', m, ?_, z1, z2, ?_, ?_⟩
  · unfold setLevels; rw [h1]
  · intro n hn
    apply h3
    rw [← z3]; exact List.mem_map.mpr ⟨n, hn, rfl⟩
  · intro a ha b hb
    obtain ⟨i, hi⟩ := List.getElem?_of_mem ha
    obtain ⟨j, hj⟩ := List.getElem?_of_mem hb
    have ha1 : (ns.map (·.mod))[i]? = some a.mod := by rw [← z1, List.getElem?_map, hi]; rfl
    have hb1 : (ns.map (·.mod))[j]? = some b.mod := by rw [← z1, List.getElem?_map, hj]; rfl
    have ha2 : (ns.map (·.mod.prio))[i]? = some a.mod.prio := by
      have : ns.map (·.mod.prio) = (ns.map (·.mod)).map (·.prio) := by simp
      rw [this, List.getElem?_map, ha1]; rfl
    have hb2 : (ns.map (·.mod.prio))[j]? = some b.mod.prio := by
      have : ns.map (·.mod.prio) = (ns.map (·.mod)).map (·.prio) := by simp
      rw [this, List.getElem?_map, hb1]; rfl
    have ha3 : l'[i]? = some a.level := by rw [← z3, List.getElem?_map, hi]; rfl
    have hb3 : l'[j]? = some b.level := by rw [← z3, List.getElem?_map, hj]; rfl
    exact h2.2 i j _ _ _ _ ha2 hb2 ha3 hb3

/-! ### One round, whatever happens to the subscriptions -/

inductive Scan (ev : Ev) (level : Nat) : List NSub → List NSub → List Pend → Prop where
  | nil : Scan ev level [] [] []
  | skip (n : NSub) {r r' : List NSub} {ps : List Pend} : Scan ev level r r' ps → Scan ev level (n :: r) (n :: r') ps
  | quiet (n : NSub) (p : Nat) (ss : List Sub) {r r' : List NSub} {ps : List Pend} : p < n.cur → ss ≠ [] →
      ss.Sublist n.mod.subs → (∀ s ∈ ss, s.prio = p ∧ evValid ev s = true) → n.level = level →
      Scan ev level r r' ps → Scan ev level (n :: r) ({ n with cur := p } :: r') ps
  | take (n : NSub) (p : Nat) (ss : List Sub) {r r' : List NSub} {ps : List Pend} : p < n.cur → ss ≠ [] →
      ss.Sublist n.mod.subs → (∀ s ∈ ss, s.prio = p ∧ evValid ev s = true) → n.level = level →
      Scan ev level r r' ps → Scan ev level (n :: r) ({ n with cur := p } :: r') (⟨{ n with cur := p }, ss⟩ :: ps)

theorem next_take {e : Env} {k : Nat} {ev : Ev} {last p : Nat} {subs ss : List Sub} (h : next e k ev last subs = some (p, ss)) :
    p < last ∧ ss ≠ [] ∧ ss.Sublist subs ∧ ∀ s ∈ ss, s.prio = p ∧ evValid ev s = true := by
  obtain ⟨h1, h2, h3, _⟩ := next_some h
  refine ⟨h3, h1, by rw [h2]; exact List.filter_sublist, ?_⟩
  intro s hs
  rw [h2] at hs
  simp only [List.mem_filter, Bool.and_eq_true, beq_iff_eq, subOk] at hs
  exact ⟨hs.2.2, hs.2.1.2⟩

theorem roundScan_scan (e : Env) (ev : Ev) (level : Nat) (ns : List NSub) : ∀ k,
    Scan ev level ns (roundScan e ev level k ns).2.1 (roundScan e ev level k ns).2.2 := by
  induction ns with
  | nil => intro k; exact Scan.nil
  | cons n r ih =>
    intro k
    unfold roundScan
    by_cases hl : n.level ≠ level
    · rw [if_pos hl]; exact Scan.skip n (ih k)
    · rw [if_neg hl]
      cases hn : next e k ev n.cur n.mod.subs with
      | none => exact Scan.skip n (ih (k + 1))
      | some y =>
        obtain ⟨p, ss⟩ := y
        obtain ⟨h1, h2, h3, h4⟩ := next_take hn
        exact Scan.take n p ss h1 h2 h3 h4 (by simpa using hl) (ih (k + 1))

theorem abortScan_scan (e : Env) (errs : List Err) (level : Nat) (ns : List NSub) : ∀ k,
    Scan .abort level ns (abortScan e errs level k ns).2.1 (abortScan e errs level k ns).2.2.1 := by
  induction ns with
  | nil => intro k; exact Scan.nil
  | cons n r ih =>
    intro k
    unfold abortScan
    by_cases hl : n.level ≠ level
    · rw [if_pos hl]; exact Scan.skip n (ih k)
    · rw [if_neg hl]
      cases hn : next e k .abort n.cur n.mod.subs with
      | none => exact Scan.skip n (ih (k + 1))
      | some y =>
        obtain ⟨p, ss⟩ := y
        obtain ⟨h1, h2, h3, h4⟩ := next_take hn
        simp only []
        by_cases hc : (abortCount errs n.mod.id p ss.length).2 = 0
        · rw [if_pos hc]
          exact Scan.quiet n p ss h1 h2 h3 h4 (by simpa using hl) (ih (k + 1))
        · rw [if_neg hc]
          exact Scan.take n p ss h1 h2 h3 h4 (by simpa using hl) (ih (k + 1))

theorem Scan.mods {ev : Ev} {level : Nat} {ns ns' : List NSub} {ps : List Pend} (h : Scan ev level ns ns' ps) :
    ns'.map (·.mod) = ns.map (·.mod) ∧ (ps.map (·.nsub.mod)).Sublist (ns.map (·.mod)) := by
  induction h with
  | nil => simp
  | skip n _ ih => exact ⟨by simp [ih.1], by simpa using List.Sublist.cons _ ih.2⟩
  | quiet n p ss _ _ _ _ _ _ ih => exact ⟨by simp [ih.1], by simpa using List.Sublist.cons _ ih.2⟩
  | take n p ss _ _ _ _ _ _ ih => exact ⟨by simp [ih.1], by simpa using ih.2⟩

theorem Scan.old {ev : Ev} {level : Nat} {ns ns' : List NSub} {ps : List Pend} (h : Scan ev level ns ns' ps) :
    ∀ n ∈ ns, ∃ n' ∈ ns', n'.mod = n.mod ∧ n'.level = n.level ∧ n'.cur ≤ n.cur := by
  induction h with
  | nil => simp
  | skip n _ ih =>
    intro x hx
    rcases List.mem_cons.mp hx with rfl | hx
    · exact ⟨x, by simp, rfl, rfl, Nat.le_refl _⟩
    · obtain ⟨y, hy, h⟩ := ih x hx
      exact ⟨y, List.mem_cons_of_mem _ hy, h⟩
  | quiet n p ss hp _ _ _ _ _ ih =>
    intro x hx
    rcases List.mem_cons.mp hx with rfl | hx
    · exact ⟨_, List.mem_cons_self .., rfl, rfl, Nat.le_of_lt hp⟩
    · obtain ⟨y, hy, h⟩ := ih x hx
      exact ⟨y, List.mem_cons_of_mem _ hy, h⟩
  | take n p ss hp _ _ _ _ _ ih =>
    intro x hx
    rcases List.mem_cons.mp hx with rfl | hx
    · exact ⟨_, List.mem_cons_self .., rfl, rfl, Nat.le_of_lt hp⟩
    · obtain ⟨y, hy, h⟩ := ih x hx
      exact ⟨y, List.mem_cons_of_mem _ hy, h⟩

theorem Scan.new {ev : Ev} {level : Nat} {ns ns' : List NSub} {ps : List Pend} (h : Scan ev level ns ns' ps) :
    ∀ n' ∈ ns', ∃ n ∈ ns, n'.mod = n.mod ∧ n'.level = n.level := by
  induction h with
  | nil => simp
  | skip n _ ih =>
    intro x hx
    rcases List.mem_cons.mp hx with rfl | hx
    · exact ⟨x, by simp, rfl, rfl⟩
    · obtain ⟨y, hy, h⟩ := ih x hx
      exact ⟨y, List.mem_cons_of_mem _ hy, h⟩
  | quiet n p ss hp _ _ _ _ _ ih =>
    intro x hx
    rcases List.mem_cons.mp hx with rfl | hx
    · exact ⟨n, by simp, rfl, rfl⟩
    · obtain ⟨y, hy, h⟩ := ih x hx
      exact ⟨y, List.mem_cons_of_mem _ hy, h⟩
  | take n p ss hp _ _ _ _ _ ih =>
    intro x hx
    rcases List.mem_cons.mp hx with rfl | hx
    · exact ⟨n, by simp, rfl, rfl⟩
    · obtain ⟨y, hy, h⟩ := ih x hx
      exact ⟨y, List.mem_cons_of_mem _ hy, h⟩

theorem Scan.pend {ev : Ev} {level : Nat} {ns ns' : List NSub} {ps : List Pend} (h : Scan ev level ns ns' ps) :
    ∀ p ∈ ps, p.nsub ∈ ns' ∧ p.nsub.level = level ∧ (∃ n ∈ ns, n.mod = p.nsub.mod ∧ n.level = level ∧ p.nsub.cur < n.cur) ∧
      p.subs ≠ [] ∧ p.subs.Sublist p.nsub.mod.subs ∧ ∀ s ∈ p.subs, s.prio = p.nsub.cur ∧ evValid ev s = true := by
  induction h with
  | nil => simp
  | skip n _ ih =>
    intro p hp
    obtain ⟨h1, h2, ⟨x, hx, h3⟩, h4⟩ := ih p hp
    exact ⟨List.mem_cons_of_mem _ h1, h2, ⟨x, List.mem_cons_of_mem _ hx, h3⟩, h4⟩
  | quiet n q ss hq _ _ _ _ _ ih =>
    intro p hp
    obtain ⟨h1, h2, ⟨x, hx, h3⟩, h4⟩ := ih p hp
    exact ⟨List.mem_cons_of_mem _ h1, h2, ⟨x, List.mem_cons_of_mem _ hx, h3⟩, h4⟩
  | take n q ss hq hne hsub hss hlev _ ih =>
    intro p hp
    rcases List.mem_cons.mp hp with rfl | hp
    · exact ⟨List.mem_cons_self .., hlev, ⟨n, List.mem_cons_self .., rfl, hlev, hq⟩, hne, hsub, hss⟩
    · obtain ⟨h1, h2, ⟨x, hx, h3⟩, h4⟩ := ih p hp
      exact ⟨List.mem_cons_of_mem _ h1, h2, ⟨x, List.mem_cons_of_mem _ hx, h3⟩, h4⟩

/-! ### The loops end -/

def lower (subs : List Sub) (p : Nat) : Nat := (subs.filter (fun s => decide (s.prio < p))).length

theorem lower_mono (subs : List Sub) {p q : Nat} (h : p ≤ q) : lower subs p ≤ lower subs q := by
  unfold lower
  induction subs with
  | nil => simp
  | cons b l ih =>
    simp only [List.filter_cons]
    by_cases h1 : b.prio < p
    · have h2 : b.prio < q := by omega
      simp [h1, h2]; exact ih
    · by_cases h2 : b.prio < q
      · simp [h1, h2]; omega
      · simp [h1, h2]; exact ih

theorem lower_lt {subs : List Sub} {p last : Nat} {s : Sub} (hs : s ∈ subs) (hp : s.prio = p) (hlt : p < last) :
    lower subs p < lower subs last := by
  induction subs with
  | nil => simp at hs
  | cons a l ih =>
    have hmono : lower l p ≤ lower l last := lower_mono l (Nat.le_of_lt hlt)
    unfold lower at hmono ih ⊢
    simp only [List.filter_cons]
    rcases List.mem_cons.mp hs with rfl | hs
    · have h1 : ¬ s.prio < p := by omega
      have h2 : s.prio < last := by omega
      simp [h1, h2]; omega
    · have := ih hs
      by_cases h1 : a.prio < p
      · have h2 : a.prio < last := by omega
        simp [h1, h2]; exact this
      · by_cases h2 : a.prio < last
        · simp [h1, h2]; omega
        · simp [h1, h2]; exact this

theorem lower_le (subs : List Sub) (p : Nat) : lower subs p ≤ subs.length := List.length_filter_le _ _

def meas (ns : List NSub) : Nat := (ns.map (fun n => lower n.mod.subs n.cur)).sum

theorem Scan.meas {ev : Ev} {level : Nat} {ns ns' : List NSub} {ps : List Pend} (h : Scan ev level ns ns' ps) :
    meas ns' ≤ meas ns ∧ (ps ≠ [] → meas ns' < meas ns) := by
  have key : ∀ (n : NSub) (p : Nat) (ss : List Sub), p < n.cur → ss ≠ [] → ss.Sublist n.mod.subs →
      (∀ s ∈ ss, s.prio = p ∧ evValid ev s = true) → lower n.mod.subs p < lower n.mod.subs n.cur := by
    intro n p ss h1 h2 h3 h4
    obtain ⟨s, r, hs⟩ := List.exists_cons_of_ne_nil h2
    have hm : s ∈ ss := by rw [hs]; simp
    exact lower_lt (h3.subset hm) (h4 s hm).1 h1
  induction h with
  | nil => simp [ChangeNotify.meas]
  | skip n _ ih =>
    simp only [ChangeNotify.meas, List.map_cons, List.sum_cons] at ih ⊢
    exact ⟨by omega, fun h => by have := ih.2 h; omega⟩
  | quiet n p ss h1 h2 h3 h4 _ _ ih =>
    have := key n p ss h1 h2 h3 h4
    simp only [ChangeNotify.meas, List.map_cons, List.sum_cons] at ih ⊢
    exact ⟨by omega, fun h => by have := ih.2 h; omega⟩
  | take n p ss h1 h2 h3 h4 _ _ ih =>
    have := key n p ss h1 h2 h3 h4
    simp only [ChangeNotify.meas, List.map_cons, List.sum_cons] at ih ⊢
    exact ⟨by omega, fun _ => by omega⟩

theorem meas_le (ns : List NSub) : meas ns ≤ (ns.map (fun n => n.mod.subs.length)).sum := by
  induction ns with
  | nil => simp [meas]
  | cons a l ih =>
    have := lower_le a.mod.subs a.cur
    simp only [meas, List.map_cons, List.sum_cons] at ih ⊢
    omega

theorem changeLoop_some (e : Env) : ∀ (fuel k level : Nat) (ns : List NSub) (tr : List Item), meas ns + level < fuel →
    ∃ o, changeLoop e fuel k level ns tr = some o := by
  intro fuel
  induction fuel with
  | zero => intro k level ns tr h; omega
  | succ fuel ih =>
    intro k level ns tr h
    have hs := (roundScan_scan e .change level ns k).meas
    unfold changeLoop
    simp only []
    by_cases hp : (roundScan e .change level k ns).2.2 = []
    · rw [if_pos hp]
      by_cases hl : level = 0
      · rw [if_pos hl]; exact ⟨_, rfl⟩
      · rw [if_neg hl]; exact ih _ _ _ _ (by omega)
    · rw [if_neg hp]
      have := hs.2 hp
      split
      · exact ih _ _ _ _ (by omega)
      · exact ⟨_, rfl⟩

theorem doneLoop_some (e : Env) : ∀ (fuel k level : Nat) (ns : List NSub) (tr : List Item), meas ns + level < fuel →
    ∃ o, doneLoop e fuel k level ns tr = some o := by
  intro fuel
  induction fuel with
  | zero => intro k level ns tr h; omega
  | succ fuel ih =>
    intro k level ns tr h
    have hs := (roundScan_scan e .done level ns k).meas
    unfold doneLoop
    simp only []
    by_cases hp : (roundScan e .done level k ns).2.2 = []
    · rw [if_pos hp]
      by_cases hl : level = 0
      · rw [if_pos hl]; exact ⟨_, rfl⟩
      · rw [if_neg hl]; exact ih _ _ _ _ (by omega)
    · rw [if_neg hp]
      have := hs.2 hp
      exact ih _ _ _ _ (by omega)

theorem abortLoop_some (e : Env) (errs : List Err) (chg : List Item) : ∀ (fuel k level : Nat) (ns : List NSub) (tr : List Item),
    meas ns + level < fuel → ∃ o, abortLoop e errs chg fuel k level ns tr = some o := by
  intro fuel
  induction fuel with
  | zero => intro k level ns tr h; omega
  | succ fuel ih =>
    intro k level ns tr h
    have hs := (abortScan_scan e errs level ns k).meas
    unfold abortLoop
    simp only []
    by_cases hp : (abortScan e errs level k ns).2.2.1 = []
    · rw [if_pos hp]
      by_cases hl : level = 0
      · rw [if_pos hl]; exact ⟨_, rfl⟩
      · rw [if_neg hl]
        split
        · exact ⟨_, rfl⟩
        · exact ih _ _ _ _ (by omega)
    · rw [if_neg hp]
      have := hs.2 hp
      split
      · exact ⟨_, rfl⟩
      · exact ih _ _ _ _ (by omega)

/-! ### Order of the callbacks, whatever happens to the subscriptions -/

/-- `a` may be called before `b`. -/
def Before (a b : Item) : Prop :=
  b.mod.prio ≤ a.mod.prio ∧ (a.mod = b.mod → b.sub.prio ≤ a.sub.prio) ∧ a ≠ b

variable {mods : List Mod}

structure TInv (mods : List Mod) (ev : Ev) (level : Nat) (ns : List NSub) (tr : List Item) : Prop where
  nodup : (ns.map (·.mod)).Nodup
  order : ∀ a ∈ ns, ∀ b ∈ ns, (a.mod.prio < b.mod.prio ↔ a.level < b.level)
  subs : ∀ n ∈ ns, n.mod.subs.Nodup
  src : ∀ n ∈ ns, n.mod ∈ mods
  pw : tr.Pairwise Before
  mem : ∀ i ∈ tr, i.sub ∈ i.mod.subs ∧ evValid ev i.sub = true ∧
    ∃ n ∈ ns, n.mod = i.mod ∧ (level < n.level ∨ (n.level = level ∧ n.cur ≤ i.sub.prio))

theorem mod_inj {ns : List NSub} (h : (ns.map (·.mod)).Nodup) {a b : NSub} (ha : a ∈ ns) (hb : b ∈ ns) (heq : a.mod = b.mod) : a = b := by
  induction ns with
  | nil => simp at ha
  | cons c l ih =>
    simp only [List.map_cons, List.nodup_cons] at h
    rcases List.mem_cons.mp ha with h3 | h3
    · rcases List.mem_cons.mp hb with h4 | h4
      · rw [h3, h4]
      · exact absurd (List.mem_map.mpr ⟨b, h4, by rw [← heq, h3]⟩) h.1
    · rcases List.mem_cons.mp hb with h4 | h4
      · exact absurd (List.mem_map.mpr ⟨a, h3, by rw [heq, h4]⟩) h.1
      · exact ih h.2 h3 h4

theorem TInv.down {ev : Ev} {level : Nat} {ns ns' : List NSub} {ps : List Pend} {tr : List Item} (h : TInv mods ev level ns tr)
    (hs : Scan ev level ns ns' ps) (hl : level ≠ 0) : TInv mods ev (level - 1) ns' tr := by
  refine ⟨by rw [hs.mods.1]; exact h.nodup, ?_, ?_, ?_, h.pw, ?_⟩
  · intro a ha b hb
    obtain ⟨a', ha', e1, e2⟩ := hs.new a ha
    obtain ⟨b', hb', e3, e4⟩ := hs.new b hb
    rw [e1, e2, e3, e4]; exact h.order a' ha' b' hb'
  · intro n hn
    obtain ⟨a', ha', e1, e2⟩ := hs.new n hn
    rw [e1]; exact h.subs a' ha'
  · intro n hn
    obtain ⟨a', ha', e1, e2⟩ := hs.new n hn
    rw [e1]; exact h.src a' ha'
  · intro i hi
    obtain ⟨h1, h2, n, hn, h3, h4⟩ := h.mem i hi
    obtain ⟨n', hn', e1, e2, e3⟩ := hs.old n hn
    exact ⟨h1, h2, n', hn', by rw [e1, h3], by rw [e2]; omega⟩

/-- Adding the callbacks of a round; `g` chooses some of the subscribers. -/
theorem TInv.round {ev : Ev} {level : Nat} {ns ns' : List NSub} {ps : List Pend} {tr : List Item} (h : TInv mods ev level ns tr)
    (hs : Scan ev level ns ns' ps) (g : Pend → List Item) (hg : ∀ p, (g p).Sublist (p.subs.map (fun s => ⟨p.nsub.mod, s⟩))) :
    TInv mods ev level ns' (tr ++ ps.flatMap g) := by
  have hnod : (ns'.map (·.mod)).Nodup := by rw [hs.mods.1]; exact h.nodup
  have hord : ∀ a ∈ ns', ∀ b ∈ ns', (a.mod.prio < b.mod.prio ↔ a.level < b.level) := by
    intro a ha b hb
    obtain ⟨a', ha', e1, e2⟩ := hs.new a ha
    obtain ⟨b', hb', e3, e4⟩ := hs.new b hb
    rw [e1, e2, e3, e4]; exact h.order a' ha' b' hb'
  have hsubs : ∀ n ∈ ns', n.mod.subs.Nodup := by
    intro n hn
    obtain ⟨a', ha', e1, e2⟩ := hs.new n hn
    rw [e1]; exact h.subs a' ha'
  have hitem : ∀ p ∈ ps, ∀ i ∈ g p, i.mod = p.nsub.mod ∧ i.sub ∈ p.subs := by
    intro p _ i hi
    obtain ⟨s, hs, rfl⟩ := List.mem_map.mp ((hg p).subset hi)
    exact ⟨rfl, hs⟩
  have hsrc : ∀ n ∈ ns', n.mod ∈ mods := by
    intro n hn
    obtain ⟨a', ha', e1, e2⟩ := hs.new n hn
    rw [e1]; exact h.src a' ha'
  refine ⟨hnod, hord, hsubs, hsrc, ?_, ?_⟩
  · refine List.pairwise_append.mpr ⟨h.pw, ?_, ?_⟩
    · -- within the round
      rw [List.pairwise_flatMap]
      constructor
      · intro p hp
        obtain ⟨q1, q2, q3, q4, q5, q6⟩ := hs.pend p hp
        refine List.Pairwise.sublist (hg p) ?_
        rw [List.pairwise_map]
        have hn : p.subs.Nodup := List.Nodup.sublist q5 (hsubs _ q1)
        refine List.Pairwise.imp_of_mem ?_ (List.nodup_iff_pairwise_ne.mp hn)
        intro a b ha hb hne
        refine ⟨Nat.le_refl _, fun _ => ?_, ?_⟩
        · simp only []
          rw [(q6 a ha).1, (q6 b hb).1]; exact Nat.le_refl _
        · intro hc
          simp only [Item.mk.injEq, true_and] at hc
          exact hne hc
      · have hps : ps.Pairwise (fun p q => p.nsub.mod ≠ q.nsub.mod) := by
          have := List.Nodup.sublist hs.mods.2 h.nodup
          rw [List.nodup_iff_pairwise_ne, List.pairwise_map] at this
          exact this
        refine List.Pairwise.imp_of_mem ?_ hps
        intro p q hp hq hne a ha b hb
        obtain ⟨e1, e2⟩ := hitem p hp a ha
        obtain ⟨e3, e4⟩ := hitem q hq b hb
        obtain ⟨p1, p2, _⟩ := hs.pend p hp
        obtain ⟨q1, q2, _⟩ := hs.pend q hq
        refine ⟨?_, ?_, ?_⟩
        · rw [e1, e3]
          have := (hord _ p1 _ q1)
          rw [p2, q2] at this
          have := mt this.mp (by omega)
          omega
        · intro hc; rw [e1, e3] at hc; exact absurd hc hne
        · intro hc; rw [hc] at e1; rw [e3] at e1; exact hne e1.symm
    · -- before the round
      intro a ha b hb
      obtain ⟨p, hp, hbp⟩ := List.mem_flatMap.mp hb
      obtain ⟨e3, e4⟩ := hitem p hp b hbp
      obtain ⟨p1, p2, ⟨n0, hn0, m1, m2, m3⟩, p4, p5, p6⟩ := hs.pend p hp
      obtain ⟨a1, a2, n, hn, a3, a4⟩ := h.mem a ha
      have hlt : a.mod = b.mod → b.sub.prio < a.sub.prio := by
        intro hc
        have hnn : n = n0 := mod_inj h.nodup hn hn0 (by rw [a3, hc, e3, m1])
        subst hnn
        rcases a4 with a4 | a4
        · omega
        · have := (p6 _ e4).1; omega
      refine ⟨?_, fun hc => Nat.le_of_lt (hlt hc), ?_⟩
      · rw [← a3, e3, ← m1]
        have := mt (h.order n hn n0 hn0).mp
        rcases a4 with a4 | a4
        · have := this (by omega); omega
        · have := this (by omega); omega
      · intro hc
        have := hlt (by rw [hc])
        rw [hc] at this; omega
  · intro i hi
    rcases List.mem_append.mp hi with hi | hi
    · obtain ⟨h1, h2, n, hn, h3, h4⟩ := h.mem i hi
      obtain ⟨n', hn', e1, e2, e3⟩ := hs.old n hn
      exact ⟨h1, h2, n', hn', by rw [e1, h3], by rw [e2]; omega⟩
    · obtain ⟨p, hp, hip⟩ := List.mem_flatMap.mp hi
      obtain ⟨e3, e4⟩ := hitem p hp i hip
      obtain ⟨p1, p2, _, p4, p5, p6⟩ := hs.pend p hp
      refine ⟨by rw [e3]; exact p5.subset e4, (p6 _ e4).2, p.nsub, p1, e3.symm, Or.inr ⟨p2, ?_⟩⟩
      rw [(p6 _ e4).1]; exact Nat.le_refl _

/-- What holds of the callbacks of one phase. -/
def Good (mods : List Mod) (ev : Ev) (tr : List Item) : Prop :=
  tr.Pairwise Before ∧ ∀ i ∈ tr, i.mod ∈ mods ∧ i.sub ∈ i.mod.subs ∧ evValid ev i.sub = true

theorem TInv.good {ev : Ev} {level : Nat} {ns : List NSub} {tr : List Item} (h : TInv mods ev level ns tr) : Good mods ev tr :=
  
  ⟨h.pw, fun i hi => by
    obtain ⟨h1, h2, n, hn, h3, _⟩ := h.mem i hi
    exact ⟨h3 ▸ h.src n hn, h1, h2⟩⟩

theorem calls_sub (e : Env) (p : Pend) : (calls e p).Sublist (p.subs.map (fun s => ⟨p.nsub.mod, s⟩)) :=
  List.Sublist.map _ List.filter_sublist

theorem takesAbort_sub (e : Env) (chg : List Item) (p : Pend) : (takesAbort e chg p).Sublist (p.subs.map (fun s => ⟨p.nsub.mod, s⟩)) :=
  List.filter_sublist

theorem changeLoop_good (e : Env) : ∀ (fuel k level : Nat) (ns : List NSub) (tr : List Item) (k' : Nat) (tr' : List Item) (errs : List Err),
    TInv mods .change level ns tr → changeLoop e fuel k level ns tr = some (k', tr', errs) → Good mods .change tr' := by
  intro fuel
  induction fuel with
  | zero => intro k level ns tr k' tr' errs _ h; simp [changeLoop] at h
  | succ fuel ih =>
    intro k level ns tr k' tr' errs hT h
    have hs := roundScan_scan e .change level ns k
    have hr := hT.round hs (calls e) (calls_sub e)
    unfold changeLoop at h
    simp only [] at h
    by_cases hp : (roundScan e .change level k ns).2.2 = []
    · rw [if_pos hp] at h
      by_cases hl : level = 0
      · rw [if_pos hl] at h
        simp only [Option.some.injEq, Prod.mk.injEq] at h
        rw [← h.2.1]; exact hT.good
      · rw [if_neg hl] at h
        exact ih _ _ _ _ _ _ _ (hT.down hs hl) h
    · rw [if_neg hp] at h
      split at h
      · exact ih _ _ _ _ _ _ _ hr h
      · simp only [Option.some.injEq, Prod.mk.injEq] at h
        rw [← h.2.1]; exact hr.good

theorem doneLoop_good (e : Env) : ∀ (fuel k level : Nat) (ns : List NSub) (tr : List Item) (k' : Nat) (tr' : List Item),
    TInv mods .done level ns tr → doneLoop e fuel k level ns tr = some (k', tr') → Good mods .done tr' := by
  intro fuel
  induction fuel with
  | zero => intro k level ns tr k' tr' _ h; simp [doneLoop] at h
  | succ fuel ih =>
    intro k level ns tr k' tr' hT h
    have hs := roundScan_scan e .done level ns k
    have hr := hT.round hs (fun p => p.subs.map (fun s => ⟨p.nsub.mod, s⟩)) (fun _ => List.Sublist.refl _)
    unfold doneLoop at h
    simp only [] at h
    by_cases hp : (roundScan e .done level k ns).2.2 = []
    · rw [if_pos hp] at h
      by_cases hl : level = 0
      · rw [if_pos hl] at h
        simp only [Option.some.injEq, Prod.mk.injEq] at h
        rw [← h.2]; exact hT.good
      · rw [if_neg hl] at h
        exact ih _ _ _ _ _ _ (hT.down hs hl) h
    · rw [if_neg hp] at h
      exact ih _ _ _ _ _ _ hr h

theorem abortLoop_good (e : Env) (errs : List Err) (chg : List Item) : ∀ (fuel k level : Nat) (ns : List NSub) (tr tr' : List Item),
    TInv mods .abort level ns tr → (∀ i ∈ tr, i ∈ chg ∧ e.reply i.sub.id = .ok) → abortLoop e errs chg fuel k level ns tr = some tr' →
    Good mods .abort tr' ∧ ∀ i ∈ tr', i ∈ chg ∧ e.reply i.sub.id = .ok := by
  intro fuel
  induction fuel with
  | zero => intro k level ns tr tr' _ _ h; simp [abortLoop] at h
  | succ fuel ih =>
    intro k level ns tr tr' hT hC h
    have hs := abortScan_scan e errs level ns k
    have hr := hT.round hs (takesAbort e chg) (takesAbort_sub e chg)
    have hC' : ∀ i ∈ tr ++ (abortScan e errs level k ns).2.2.1.flatMap (takesAbort e chg), i ∈ chg ∧ e.reply i.sub.id = .ok := by
      intro i hi
      rcases List.mem_append.mp hi with hi | hi
      · exact hC i hi
      · obtain ⟨p, _, hip⟩ := List.mem_flatMap.mp hi
        have := (List.mem_filter.mp hip).2
        simpa using this
    unfold abortLoop at h
    simp only [] at h
    by_cases hp : (abortScan e errs level k ns).2.2.1 = []
    · rw [if_pos hp] at h
      by_cases hl : level = 0
      · rw [if_pos hl] at h
        simp only [Option.some.injEq] at h
        rw [← h]; exact ⟨hT.good, hC⟩
      · rw [if_neg hl] at h
        split at h
        · simp only [Option.some.injEq] at h
          rw [← h]; exact ⟨hT.good, hC⟩
        · exact ih _ _ _ _ _ (hT.down hs hl) hC h
    · rw [if_neg hp] at h
      split at h
      · simp only [Option.some.injEq] at h
        rw [← h]; exact ⟨hr.good, hC'⟩
      · exact ih _ _ _ _ _ hr hC' h

theorem collect_mods (e : Env) (ev : Ev) (mods : List Mod) : ∀ k, ((collect e ev k mods).2.map (·.mod)).Sublist mods := by
  induction mods with
  | nil => intro k; simp [collect]
  | cons m r ih =>
    intro k
    unfold collect
    cases hasSub e k ev m.subs with
    | none => exact List.Sublist.cons _ (ih _)
    | some p => exact List.Sublist.cons_cons _ (ih _)

theorem collectAbort_mods (e : Env) (mods : List Mod) : ∀ k, ((collectAbort e k mods).2.map (·.mod)).Sublist mods := by
  induction mods with
  | nil => intro k; simp [collectAbort]
  | cons m r ih =>
    intro k
    unfold collectAbort
    cases hasSub e k .change m.subs with
    | none => exact List.Sublist.cons _ (ih _)
    | some p => exact List.Sublist.cons_cons _ (ih _)

/-- The modules of one operation: different, with 32-bit priorities and different subscriptions. -/
structure ModsOk (mods : List Mod) : Prop where
  nodup : mods.Nodup
  prio : ∀ m ∈ mods, m.prio < W
  subs : ∀ m ∈ mods, m.subs.Nodup

theorem init_inv {mods : List Mod} (hm : ModsOk mods) (ev : Ev) (c : List NSub) (hc : (c.map (·.mod)).Sublist mods) (hne : c ≠ []) :
    ∃ ns level, setLevels c = some (ns, level) ∧ TInv mods ev level ns [] ∧ meas ns + level < fuelFor ns level ∧
      ns.map (·.mod) = c.map (·.mod) ∧ ns.map (·.cur) = c.map (·.cur) ∧ ∀ n ∈ ns, n.level ≤ level := by
  have hmem : ∀ n ∈ c, n.mod ∈ mods := fun n hn => hc.subset (List.mem_map.mpr ⟨n, hn, rfl⟩)
  obtain ⟨ns, level, h1, h2, h3, h4, h5⟩ := setLevels_spec c hne (fun n hn => hm.prio _ (hmem n hn))
  refine ⟨ns, level, h1, ⟨by rw [h2]; exact List.Nodup.sublist hc hm.nodup, h5, ?_, ?_, List.Pairwise.nil, by simp⟩, ?_, h2, h3, h4⟩
  · intro n hn
    have : n.mod ∈ c.map (·.mod) := by rw [← h2]; exact List.mem_map.mpr ⟨n, hn, rfl⟩
    exact hm.subs _ (hc.subset this)
  · intro n hn
    have : n.mod ∈ c.map (·.mod) := by rw [← h2]; exact List.mem_map.mpr ⟨n, hn, rfl⟩
    exact hc.subset this
  · have := meas_le ns
    unfold fuelFor; omega

/-! ### When no subscription changes meanwhile -/

/-- The subscriptions notified of an event. -/
def okS (v : Nat → Bool) (ev : Ev) (s : Sub) : Bool := v s.id && evValid ev s

def Calm (e : Env) (v : Nat → Bool) : Prop := ∀ k i, e.view k i = v i

theorem Calm.subOk {e : Env} {v : Nat → Bool} (h : Calm e v) (k : Nat) (ev : Ev) : subOk e k ev = okS v ev := by
  funext s; simp [ChangeNotify.subOk, okS, h k s.id]

def nx (v : Nat → Bool) (ev : Ev) (level : Nat) (n : NSub) : Option (Nat × List Sub) :=
  if n.level ≠ level then none else scanNext (okS v ev) n.cur n.mod.subs none

def stepN (v : Nat → Bool) (ev : Ev) (level : Nat) (n : NSub) : NSub :=
  match nx v ev level n with
  | none => n
  | some (p, _) => { n with cur := p }

def pendN (v : Nat → Bool) (ev : Ev) (level : Nat) (n : NSub) : Option Pend :=
  match nx v ev level n with
  | none => none
  | some (p, ss) => some ⟨{ n with cur := p }, ss⟩

theorem nx_spec (v : Nat → Bool) (ev : Ev) (level : Nat) (n : NSub) (hl : n.level = level) :
    Found (okS v ev) n.cur n.mod.subs (nx v ev level n) := by
  have := scanNext_spec (okS v ev) n.cur n.mod.subs [] none (by simp [Found])
  simpa [nx, hl] using this

theorem roundScan_calm {e : Env} {v : Nat → Bool} (hc : Calm e v) (ev : Ev) (level : Nat) (ns : List NSub) : ∀ k,
    (roundScan e ev level k ns).2 = (ns.map (stepN v ev level), ns.filterMap (pendN v ev level)) := by
  induction ns with
  | nil => intro k; rfl
  | cons n r ih =>
    intro k
    have h1 := ih k
    have h2 := ih (k + 1)
    simp only [Prod.ext_iff] at h1 h2
    unfold roundScan
    by_cases hl : n.level ≠ level
    · rw [if_pos hl]
      have : nx v ev level n = none := by simp [nx, hl]
      simp [stepN, pendN, this, h1.1, h1.2]
    · rw [if_neg hl]
      have : nx v ev level n = next e k ev n.cur n.mod.subs := by simp [nx, hl, next, hc.subOk]
      cases hn : next e k ev n.cur n.mod.subs with
      | none => rw [hn] at this; simp [stepN, pendN, this, h2.1, h2.2]
      | some y => obtain ⟨p, ss⟩ := y; rw [hn] at this; simp [stepN, pendN, this, h2.1, h2.2]

/-- The subscribers that are to be notified yet. -/
def futN (v : Nat → Bool) (ev : Ev) (level : Nat) (n : NSub) : List Item :=
  if n.level ≤ level then (n.mod.subs.filter (fun s => okS v ev s && decide (s.prio < n.cur))).map (fun s => ⟨n.mod, s⟩) else []

def fut (v : Nat → Bool) (ev : Ev) (level : Nat) (ns : List NSub) : List Item := ns.flatMap (futN v ev level)

def itemsOf (p : Pend) : List Item := p.subs.map (fun s => ⟨p.nsub.mod, s⟩)

theorem filter_split (l : List Sub) (f : Sub → Bool) (p last : Nat) (hp : p < last) (hle : ∀ s ∈ l, f s = true → s.prio < last → s.prio ≤ p) :
    (l.filter (fun s => f s && s.prio == p) ++ l.filter (fun s => f s && decide (s.prio < p))).Perm
      (l.filter (fun s => f s && decide (s.prio < last))) := by
  induction l with
  | nil => simp
  | cons a l ih =>
    have i := ih (fun s hs => hle s (List.mem_cons_of_mem _ hs))
    have ha := hle a (by simp)
    by_cases hf : f a = true
    · by_cases h1 : a.prio = p
      · have e1 : (f a && a.prio == p) = true := by simp [hf, h1]
        have e2 : (f a && decide (a.prio < p)) = false := by simp [hf]; omega
        have e3 : (f a && decide (a.prio < last)) = true := by simp [hf]; omega
        simp only [List.filter_cons, e1, e2, e3, if_true, if_false, Bool.false_eq_true, List.cons_append]
        exact i.cons a
      · by_cases h2 : a.prio < last
        · have := ha hf h2
          have e1 : (f a && a.prio == p) = false := by simp [hf, h1]
          have e2 : (f a && decide (a.prio < p)) = true := by simp [hf]; omega
          have e3 : (f a && decide (a.prio < last)) = true := by simp [hf]; omega
          simp only [List.filter_cons, e1, e2, e3, if_true, if_false, Bool.false_eq_true]
          exact List.perm_middle.trans (i.cons a)
        · have e1 : (f a && a.prio == p) = false := by simp [hf, h1]
          have e2 : (f a && decide (a.prio < p)) = false := by simp [hf]; omega
          have e3 : (f a && decide (a.prio < last)) = false := by simp [hf]; omega
          simp only [List.filter_cons, e1, e2, e3, if_false, Bool.false_eq_true]
          exact i
    · have hf' : f a = false := by simpa using hf
      simp only [List.filter_cons, hf', Bool.false_and, if_false, Bool.false_eq_true]
      exact i

theorem fut_round (v : Nat → Bool) (ev : Ev) (level : Nat) (ns : List NSub) :
    ((ns.filterMap (pendN v ev level)).flatMap itemsOf ++ fut v ev level (ns.map (stepN v ev level))).Perm (fut v ev level ns) := by
  induction ns with
  | nil => simp [fut]
  | cons n r ih =>
    cases hn : nx v ev level n with
    | none =>
      have e1 : pendN v ev level n = none := by simp [pendN, hn]
      have e2 : stepN v ev level n = n := by simp [stepN, hn]
      simp only [List.filterMap_cons, e1, List.map_cons, e2, fut, List.flatMap_cons] at ih ⊢
      refine List.Perm.trans ?_ (ih.append_left (futN v ev level n))
      rw [← List.append_assoc, ← List.append_assoc]
      exact List.perm_append_comm.append_right _
    | some y =>
      obtain ⟨p, ss⟩ := y
      have hl : n.level = level := by
        by_cases hl : n.level ≠ level
        · simp [nx, hl] at hn
        · simpa using hl
      have hf := nx_spec v ev level n hl
      rw [hn] at hf
      obtain ⟨f1, f2, f3, f4⟩ := hf
      have e1 : pendN v ev level n = some ⟨{ n with cur := p }, ss⟩ := by simp [pendN, hn]
      have e2 : stepN v ev level n = { n with cur := p } := by simp [stepN, hn]
      have e3 : (itemsOf ⟨{ n with cur := p }, ss⟩ ++ futN v ev level { n with cur := p }).Perm (futN v ev level n) := by
        have hle : n.level ≤ level := Nat.le_of_eq hl
        simp only [itemsOf, futN, hle, if_true]
        rw [← List.map_append, f2]
        exact (filter_split n.mod.subs (okS v ev) p n.cur f3 f4).map _
      simp only [List.filterMap_cons, e1, List.map_cons, e2, fut, List.flatMap_cons] at ih ⊢
      refine List.Perm.trans ?_ (e3.append ih)
      rw [List.append_assoc, List.append_assoc]
      refine List.Perm.append_left _ ?_
      rw [← List.append_assoc, ← List.append_assoc]
      exact List.perm_append_comm.append_right _

theorem step_nil {v : Nat → Bool} {ev : Ev} {level : Nat} {ns : List NSub} (h : ns.filterMap (pendN v ev level) = []) :
    ns.map (stepN v ev level) = ns ∧ ∀ n ∈ ns, n.level = level → futN v ev level n = [] := by
  have hnone : ∀ n ∈ ns, nx v ev level n = none := by
    intro n hn
    have := List.filterMap_eq_nil_iff.mp h n hn
    cases hx : nx v ev level n with
    | none => rfl
    | some y => obtain ⟨p, ss⟩ := y; simp [pendN, hx] at this
  constructor
  · have : ns.map (stepN v ev level) = ns.map id := List.map_congr_left (fun n hn => by simp [stepN, hnone n hn])
    simpa using this
  · intro n hn hl
    have hf := nx_spec v ev level n hl
    rw [hnone n hn] at hf
    have hle : n.level ≤ level := Nat.le_of_eq hl
    simp only [futN, hle, if_true, List.map_eq_nil_iff, List.filter_eq_nil_iff, Bool.and_eq_true, decide_eq_true_eq]
    exact fun s hs hc => hf s hs hc

theorem fut_down {v : Nat → Bool} {ev : Ev} {level : Nat} {ns : List NSub} (h : ∀ n ∈ ns, n.level = level → futN v ev level n = [])
    (hl : level ≠ 0) : fut v ev (level - 1) ns = fut v ev level ns := by
  unfold fut
  induction ns with
  | nil => rfl
  | cons n r ih =>
    simp only [List.flatMap_cons]
    rw [ih (fun x hx => h x (List.mem_cons_of_mem _ hx))]
    congr 1
    by_cases h1 : n.level = level
    · rw [h n (by simp) h1]
      have : ¬ n.level ≤ level - 1 := by omega
      simp [futN, this]
    · unfold futN
      by_cases h2 : n.level ≤ level - 1
      · have : n.level ≤ level := by omega
        simp [h2, this]
      · have : ¬ n.level ≤ level := by omega
        simp [h2, this]

theorem fut_zero {v : Nat → Bool} {ev : Ev} {ns : List NSub} (h : ∀ n ∈ ns, n.level = 0 → futN v ev 0 n = []) : fut v ev 0 ns = [] := by
  unfold fut
  rw [List.flatMap_eq_nil_iff]
  intro n hn
  by_cases h1 : n.level = 0
  · exact h n hn h1
  · simp [futN, h1]

theorem doneLoop_calm {e : Env} {v : Nat → Bool} (hc : Calm e v) : ∀ (fuel k level : Nat) (ns : List NSub) (tr : List Item) (k' : Nat)
    (tr' : List Item), doneLoop e fuel k level ns tr = some (k', tr') → tr'.Perm (tr ++ fut v .done level ns) := by
  intro fuel
  induction fuel with
  | zero => intro k level ns tr k' tr' h; simp [doneLoop] at h
  | succ fuel ih =>
    intro k level ns tr k' tr' h
    have hs := roundScan_calm hc .done level ns k
    simp only [Prod.ext_iff] at hs
    obtain ⟨hs1, hs2⟩ := hs
    unfold doneLoop at h
    simp only [hs1, hs2] at h
    have hr := fut_round v .done level ns
    by_cases hp : ns.filterMap (pendN v .done level) = []
    · rw [if_pos hp] at h
      obtain ⟨z1, z2⟩ := step_nil hp
      by_cases hl : level = 0
      · rw [if_pos hl] at h
        simp only [Option.some.injEq, Prod.mk.injEq] at h
        subst hl
        rw [← h.2, fut_zero z2]; simp
      · rw [if_neg hl, z1] at h
        rw [← fut_down z2 hl]
        exact ih _ _ _ _ _ _ h
    · rw [if_neg hp] at h
      have := ih _ _ _ _ _ _ h
      refine this.trans ?_
      rw [List.append_assoc]
      exact List.Perm.append_left _ hr

theorem errs_nil {e : Env} {ps : List Pend} (h : errsOf e ps = []) : ∀ p ∈ ps, ∀ s ∈ p.subs, e.reply s.id = .ok := by
  intro p hp s hs
  simp only [errsOf, List.map_eq_nil_iff, List.filter_eq_nil_iff] at h
  have := h p hp
  simp only [badCount, bne_iff_ne, ne_eq, Decidable.not_not] at this
  rw [List.countP_eq_zero] at this
  have := this s hs
  simpa using this

theorem calls_ok {e : Env} {ps : List Pend} (h : errsOf e ps = []) : ps.flatMap (calls e) = ps.flatMap itemsOf := by
  have hh := errs_nil h
  clear h
  induction ps with
  | nil => rfl
  | cons p ps ih =>
    simp only [List.flatMap_cons]
    rw [ih (fun q hq => hh q (List.mem_cons_of_mem _ hq))]
    congr 1
    unfold calls itemsOf
    rw [List.filter_eq_self.mpr]
    intro s hs
    rw [hh p (by simp) s hs]; rfl

theorem changeLoop_calm {e : Env} {v : Nat → Bool} (hc : Calm e v) : ∀ (fuel k level : Nat) (ns : List NSub) (tr : List Item) (k' : Nat)
    (tr' : List Item), changeLoop e fuel k level ns tr = some (k', tr', []) →
    tr'.Perm (tr ++ fut v .change level ns) ∧ ∀ i ∈ tr', i ∈ tr ∨ e.reply i.sub.id = .ok := by
  intro fuel
  induction fuel with
  | zero => intro k level ns tr k' tr' h; simp [changeLoop] at h
  | succ fuel ih =>
    intro k level ns tr k' tr' h
    have hs := roundScan_calm hc .change level ns k
    simp only [Prod.ext_iff] at hs
    obtain ⟨hs1, hs2⟩ := hs
    unfold changeLoop at h
    simp only [hs1, hs2] at h
    have hr := fut_round v .change level ns
    by_cases hp : ns.filterMap (pendN v .change level) = []
    · rw [if_pos hp] at h
      obtain ⟨z1, z2⟩ := step_nil hp
      by_cases hl : level = 0
      · rw [if_pos hl] at h
        simp only [Option.some.injEq, Prod.mk.injEq] at h
        subst hl
        rw [← h.2.1, fut_zero z2]
        exact ⟨by simp, fun i hi => Or.inl hi⟩
      · rw [if_neg hl, z1] at h
        rw [← fut_down z2 hl]
        exact ih _ _ _ _ _ _ h
    · rw [if_neg hp] at h
      by_cases he : errsOf e (ns.filterMap (pendN v .change level)) = []
      · rw [if_pos he, calls_ok he] at h
        obtain ⟨i1, i2⟩ := ih _ _ _ _ _ _ h
        constructor
        · refine i1.trans ?_
          rw [List.append_assoc]
          exact List.Perm.append_left _ hr
        · intro i hi
          rcases i2 i hi with h1 | h1
          · rcases List.mem_append.mp h1 with h2 | h2
            · exact Or.inl h2
            · obtain ⟨p, hp, hip⟩ := List.mem_flatMap.mp h2
              obtain ⟨s, hs, rfl⟩ := List.mem_map.mp hip
              exact Or.inr (errs_nil he p hp s hs)
          · exact Or.inr h1
      · rw [if_neg he] at h
        simp only [Option.some.injEq, Prod.mk.injEq] at h
        exact absurd h.2.2 he

/-- All the subscribers of an event. -/
def allOf (v : Nat → Bool) (ev : Ev) (mods : List Mod) : List Item :=
  mods.flatMap (fun m => (m.subs.filter (okS v ev)).map (fun s => ⟨m, s⟩))

theorem collect_fut {e : Env} {v : Nat → Bool} (hc : Calm e v) (ev : Ev) (mods : List Mod) (hW : ∀ m ∈ mods, ∀ s ∈ m.subs, s.prio + 1 < W) :
    ∀ k, ((collect e ev k mods).2.flatMap (fun n => (n.mod.subs.filter (fun s => okS v ev s && decide (s.prio < n.cur))).map (fun s => (⟨n.mod, s⟩ : Item)))) = allOf v ev mods := by
  induction mods with
  | nil => intro k; rfl
  | cons m r ih =>
    intro k
    have i := ih (fun x hx => hW x (List.mem_cons_of_mem _ hx)) (k + 1)
    have hsp := scanMax_spec (okS v ev) m.subs [] none (by simp) (by simp)
    simp only [List.nil_append] at hsp
    unfold collect
    have hh : hasSub e k ev m.subs = scanMax (okS v ev) m.subs none := by simp [hasSub, hc.subOk]
    rw [hh]
    cases hs : scanMax (okS v ev) m.subs none with
    | none =>
      simp only []
      rw [i]
      have : m.subs.filter (okS v ev) = [] := by
        rw [List.filter_eq_nil_iff]
        intro s hm
        rw [hsp.1 hs s hm]; simp
      simp [allOf, this]
    | some p =>
      obtain ⟨⟨x, hx, hxv, hxp⟩, hle⟩ := hsp.2 p hs
      have hlt := hW m (by simp) x hx
      have hmod : (p + 1) % W = p + 1 := Nat.mod_eq_of_lt (by omega)
      simp only [List.flatMap_cons, i, allOf, hmod]
      congr 2
      refine List.filter_congr ?_
      intro s hs
      by_cases hf : okS v ev s = true
      · have := hle s hs hf
        have : s.prio < p + 1 := by omega
        simp [hf, this]
      · have : okS v ev s = false := by simpa using hf
        simp [this]

theorem fut_init {v : Nat → Bool} {ev : Ev} {level : Nat} {ns c : List NSub} (h1 : ns.map (·.mod) = c.map (·.mod)) (h2 : ns.map (·.cur) = c.map (·.cur))
    (h3 : ∀ n ∈ ns, n.level ≤ level) :
    fut v ev level ns = c.flatMap (fun n => (n.mod.subs.filter (fun s => okS v ev s && decide (s.prio < n.cur))).map (fun s => (⟨n.mod, s⟩ : Item))) := by
  unfold fut
  induction ns generalizing c with
  | nil =>
    cases c with
    | nil => rfl
    | cons a c => simp at h1
  | cons n ns ih =>
    cases c with
    | nil => simp at h1
    | cons a c =>
      simp only [List.map_cons, List.cons.injEq] at h1 h2
      simp only [List.flatMap_cons]
      rw [ih h1.2 h2.2 (fun x hx => h3 x (List.mem_cons_of_mem _ hx))]
      have := h3 n (by simp)
      simp [futN, this, h1.1, h2.1]

/-! ### The abort event follows the change event -/

theorem okS_abort (v : Nat → Bool) : okS v .abort = okS v .change := by funext s; rfl

theorem stepN_mod (v : Nat → Bool) (ev : Ev) (level : Nat) (n : NSub) : (stepN v ev level n).mod = n.mod := by
  unfold stepN; split <;> rfl

theorem abortCount_none {errs : List Err} {m cur cnt : Nat} (h : ∀ x ∈ errs, x.mod = m → x.prio < cur) : abortCount errs m cur cnt = (false, cnt) := by
  unfold abortCount
  cases hf : errs.find? (fun x => x.mod == m) with
  | none => rfl
  | some x =>
    have h1 := List.mem_of_find?_eq_some hf
    have h2 : x.mod = m := by simpa using List.find?_some hf
    have := h x h1 h2
    simp only []
    rw [if_neg (by omega)]

theorem abortScan_early {e : Env} {v : Nat → Bool} (hc : Calm e v) (errs : List Err) (level : Nat) (ns : List NSub)
    (h : ∀ n ∈ ns, ∀ x ∈ errs, x.mod = n.mod.id → x.prio < (stepN v .change level n).cur) : ∀ k,
    (abortScan e errs level k ns).2 = (ns.map (stepN v .change level), ns.filterMap (pendN v .change level), false) := by
  induction ns with
  | nil => intro k; rfl
  | cons n r ih =>
    intro k
    have ihr := ih (fun x hx => h x (List.mem_cons_of_mem _ hx))
    have h1 := ihr k
    have h2 := ihr (k + 1)
    simp only [Prod.ext_iff] at h1 h2
    have hn0 := h n (by simp)
    unfold abortScan
    by_cases hl : n.level ≠ level
    · rw [if_pos hl]
      have : nx v .change level n = none := by simp [nx, hl]
      simp [stepN, pendN, this, h1.1, h1.2]
    · rw [if_neg hl]
      have hnx : nx v .change level n = next e k .abort n.cur n.mod.subs := by simp [nx, hl, next, hc.subOk, okS_abort]
      cases hn : next e k .abort n.cur n.mod.subs with
      | none =>
        rw [hn] at hnx
        have hst : stepN v .change level n = n := by simp [stepN, hnx]
        rw [hst] at hn0
        have hcnt := abortCount_none (cnt := 0) hn0
        simp [hst, pendN, hnx, h2.1, h2.2, hcnt]
      | some y =>
        obtain ⟨p, ss⟩ := y
        rw [hn] at hnx
        have hst : stepN v .change level n = { n with cur := p } := by simp [stepN, hnx]
        rw [hst] at hn0
        have hcnt := abortCount_none (cnt := ss.length) hn0
        have hpos : ss.length ≠ 0 := by
          have := (next_some hn).1
          intro hc
          exact this (List.length_eq_zero_iff.mp hc)
        simp [hst, pendN, hnx, h2.1, h2.2, hcnt, hpos]

theorem badCount_le (e : Env) (p : Pend) : badCount e p ≤ p.subs.length := List.countP_le_length

/-- The module failed in the round. -/
theorem find_err (e : Env) (ps : List Pend) (hnd : (ps.map (·.nsub.mod.id)).Nodup) (p : Pend) (hp : p ∈ ps) (hb : badCount e p ≠ 0) :
    (errsOf e ps).find? (fun x => x.mod == p.nsub.mod.id) = some ⟨p.nsub.mod.id, p.nsub.cur, badCount e p⟩ := by
  induction ps with
  | nil => simp at hp
  | cons q ps ih =>
    simp only [List.map_cons, List.nodup_cons] at hnd
    rcases List.mem_cons.mp hp with h3 | h3
    · rw [← h3]; simp [errsOf, hb]
    · have hne : q.nsub.mod.id ≠ p.nsub.mod.id := by
        intro hc
        exact hnd.1 (by rw [hc]; exact List.mem_map.mpr ⟨p, h3, rfl⟩)
      have := ih hnd.2 h3
      by_cases hq : badCount e q = 0
      · simpa [errsOf, hq] using this
      · simpa [errsOf, hq, hne] using this

theorem find_no_err (e : Env) (ps : List Pend) (m : Nat) (h : ∀ p ∈ ps, p.nsub.mod.id = m → badCount e p = 0) :
    (errsOf e ps).find? (fun x => x.mod == m) = none := by
  rw [List.find?_eq_none]
  intro x hx
  simp only [errsOf, List.mem_map, List.mem_filter] at hx
  obtain ⟨p, ⟨hp, hb⟩, rfl⟩ := hx
  simp only [beq_iff_eq]
  intro hc
  have := h p hp hc
  simp [this] at hb

theorem abortScan_fail {e : Env} {v : Nat → Bool} (hc : Calm e v) (level : Nat) (all : List Pend) (hnd : (all.map (·.nsub.mod.id)).Nodup)
    (hlen : ∀ p ∈ all, p.subs.length < W) (ns : List NSub) (hin : ∀ n ∈ ns, ∀ p, pendN v .change level n = some p → p ∈ all)
    (hcov : ∀ n ∈ ns, nx v .change level n = none → ∀ p ∈ all, p.nsub.mod.id = n.mod.id → False) : ∀ k,
    (abortScan e (errsOf e all) level k ns).2.2.1 = (ns.filterMap (pendN v .change level)).filter (fun p => decide (badCount e p < p.subs.length)) ∧
    (abortScan e (errsOf e all) level k ns).2.2.2 = (ns.filterMap (pendN v .change level)).any (fun p => badCount e p != 0) := by
  induction ns with
  | nil => intro k; exact ⟨rfl, rfl⟩
  | cons n r ih =>
    intro k
    have ihr := ih (fun x hx => hin x (List.mem_cons_of_mem _ hx)) (fun x hx => hcov x (List.mem_cons_of_mem _ hx))
    obtain ⟨h1, h1'⟩ := ihr k
    obtain ⟨h2, h2'⟩ := ihr (k + 1)
    have hin0 := hin n (by simp)
    have hcov0 := hcov n (by simp)
    unfold abortScan
    by_cases hl : n.level ≠ level
    · rw [if_pos hl]
      have : nx v .change level n = none := by simp [nx, hl]
      simp [pendN, this, h1, h1']
    · rw [if_neg hl]
      have hnx : nx v .change level n = next e k .abort n.cur n.mod.subs := by simp [nx, hl, next, hc.subOk, okS_abort]
      cases hn : next e k .abort n.cur n.mod.subs with
      | none =>
        rw [hn] at hnx
        have hcnt : abortCount (errsOf e all) n.mod.id n.cur 0 = (false, 0) := by
          unfold abortCount
          rw [find_no_err e all n.mod.id (fun p hp hm => (hcov0 hnx p hp hm).elim)]
        simp [pendN, hnx, h2, h2', hcnt]
      | some y =>
        obtain ⟨p, ss⟩ := y
        rw [hn] at hnx
        have hpe : pendN v .change level n = some ⟨{ n with cur := p }, ss⟩ := by simp [pendN, hnx]
        have hp := hin0 _ hpe
        have hpos : ss.length ≠ 0 := by
          have := (next_some hn).1
          intro hc
          exact this (List.length_eq_zero_iff.mp hc)
        have hlt := hlen _ hp
        have hble := badCount_le e ⟨{ n with cur := p }, ss⟩
        simp only [] at hlt hble
        by_cases hb : badCount e ⟨{ n with cur := p }, ss⟩ = 0
        · have hcnt : abortCount (errsOf e all) n.mod.id p ss.length = (false, ss.length) := by
            unfold abortCount
            rw [find_no_err e all n.mod.id ?_]
            intro q hq hm
            have hqp : q = ⟨{ n with cur := p }, ss⟩ := by
              obtain ⟨i, hi, he⟩ := List.getElem_of_mem hq
              obtain ⟨j, hj, he'⟩ := List.getElem_of_mem hp
              have hij : i = j := by
                have := List.getElem_inj (xs := all.map (·.nsub.mod.id)) (i := i) (j := j) (h₀ := by simpa using hi) (h₁ := by simpa using hj) hnd
                apply this.mp
                simp only [List.getElem_map, he, he']
                exact hm
              subst hij
              rw [← he, ← he']
            rw [hqp]; exact hb
          have hlt0 : 0 < ss.length := by omega
          simp only [List.filterMap_cons, hpe, List.filter_cons, List.any_cons, hcnt, hpos, if_false, hb, hlt0, decide_true, if_true, h2, h2']
          simp
        · have hf := find_err e all hnd _ hp hb
          simp only [] at hf
          have hcnt : abortCount (errsOf e all) n.mod.id p ss.length = (true, ss.length - badCount e ⟨{ n with cur := p }, ss⟩) := by
            unfold abortCount
            rw [hf]
            simp only [if_true]
            rw [if_neg hpos]
            congr 1
            generalize badCount e ⟨{ n with cur := p }, ss⟩ = b at *
            have : ss.length + W - b = (ss.length - b) + W := by omega
            rw [this, Nat.add_mod_right]
            exact Nat.mod_eq_of_lt (by omega)
          simp only [List.filterMap_cons, hpe, List.filter_cons, List.any_cons, hcnt, h2, h2']
          constructor
          · by_cases hz : ss.length - badCount e ⟨{ n with cur := p }, ss⟩ = 0
            · have hd : ¬ (badCount e ⟨{ n with cur := p }, ss⟩ < ss.length) := by omega
              simp [hz, hd]
            · have hd : badCount e ⟨{ n with cur := p }, ss⟩ < ss.length := by omega
              simp [hz, hd]
          · simp [hb]

theorem takesAbort_eq (e : Env) (chg : List Item) (p : Pend) (h : ∀ i ∈ calls e p, i ∈ chg) :
    takesAbort e chg p = (calls e p).filter (fun i => e.reply i.sub.id == .ok) := by
  have hm : ∀ s ∈ p.subs, e.reply s.id = .ok → (⟨p.nsub.mod, s⟩ : Item) ∈ chg := by
    intro s hs ho
    refine h _ (List.mem_map.mpr ⟨s, List.mem_filter.mpr ⟨hs, ?_⟩, rfl⟩)
    rw [ho]; rfl
  unfold takesAbort calls
  rw [List.filter_map, List.filter_map, List.filter_filter]
  congr 1
  refine List.filter_congr ?_
  intro s hs
  by_cases ho : e.reply s.id = .ok
  · simp [ho, hm s hs ho]
  · have e2 : (e.reply s.id == .ok) = false := by simpa using ho
    simp [e2]

theorem takesAbort_all (e : Env) (chg : List Item) (ps : List Pend) (h : ∀ i ∈ ps.flatMap (calls e), i ∈ chg) :
    ps.flatMap (takesAbort e chg) = (ps.flatMap (calls e)).filter (fun i => e.reply i.sub.id == .ok) := by
  induction ps with
  | nil => rfl
  | cons p ps ih =>
    simp only [List.flatMap_cons, List.filter_append] at h ⊢
    rw [ih (fun i hi => h i (List.mem_append_right _ hi)), takesAbort_eq e chg p (fun i hi => h i (List.mem_append_left _ hi))]

theorem takesAbort_bad (e : Env) (chg : List Item) (p : Pend) (h : ¬ badCount e p < p.subs.length) : takesAbort e chg p = [] := by
  have hb : badCount e p = p.subs.length := by have := badCount_le e p; omega
  unfold badCount at hb
  rw [List.countP_eq_length] at hb
  unfold takesAbort
  rw [List.filter_eq_nil_iff]
  intro i hi
  obtain ⟨s, hs, rfl⟩ := List.mem_map.mp hi
  have := hb s hs
  simp only [bne_iff_ne, ne_eq] at this
  simp [this]

theorem takesAbort_filter (e : Env) (chg : List Item) (ps : List Pend) :
    (ps.filter (fun p => decide (badCount e p < p.subs.length))).flatMap (takesAbort e chg) = ps.flatMap (takesAbort e chg) := by
  induction ps with
  | nil => rfl
  | cons p ps ih =>
    by_cases h : badCount e p < p.subs.length
    · simp [h, ih]
    · simp [h, ih, takesAbort_bad e chg p h]

theorem pendN_mod {v : Nat → Bool} {ev : Ev} {level : Nat} {n : NSub} {p : Pend} (h : pendN v ev level n = some p) :
    p.nsub = stepN v ev level n ∧ p.nsub.mod = n.mod ∧ p.nsub.cur < n.cur ∧ p.subs.Sublist n.mod.subs ∧ p.subs ≠ [] := by
  unfold pendN at h
  cases hn : nx v ev level n with
  | none => rw [hn] at h; simp at h
  | some y =>
    obtain ⟨q, ss⟩ := y
    rw [hn] at h
    simp only [Option.some.injEq] at h
    have hl : n.level = level := by
      by_cases hl : n.level ≠ level
      · simp [nx, hl] at hn
      · simpa using hl
    have hf := nx_spec v ev level n hl
    rw [hn] at hf
    obtain ⟨f1, f2, f3, f4⟩ := hf
    subst h
    refine ⟨by simp [stepN, hn], rfl, f3, ?_, f1⟩
    simp only []
    rw [f2]; exact List.filter_sublist

theorem id_inj {ns : List NSub} (h : (ns.map (·.mod.id)).Nodup) {a b : NSub} (ha : a ∈ ns) (hb : b ∈ ns) (heq : a.mod.id = b.mod.id) : a = b := by
  induction ns with
  | nil => simp at ha
  | cons c l ih =>
    simp only [List.map_cons, List.nodup_cons] at h
    rcases List.mem_cons.mp ha with h3 | h3
    · rcases List.mem_cons.mp hb with h4 | h4
      · rw [h3, h4]
      · exact absurd (List.mem_map.mpr ⟨b, h4, by rw [← heq, h3]⟩) h.1
    · rcases List.mem_cons.mp hb with h4 | h4
      · exact absurd (List.mem_map.mpr ⟨a, h3, by rw [heq, h4]⟩) h.1
      · exact ih h.2 h3 h4

theorem pend_ids (v : Nat → Bool) (ev : Ev) (level : Nat) (ns : List NSub) :
    ((ns.filterMap (pendN v ev level)).map (·.nsub.mod.id)).Sublist (ns.map (·.mod.id)) := by
  induction ns with
  | nil => simp
  | cons n r ih =>
    cases hp : pendN v ev level n with
    | none => simp only [List.filterMap_cons, hp, List.map_cons]; exact List.Sublist.cons _ ih
    | some p =>
      have := (pendN_mod hp).2.1
      simp only [List.filterMap_cons, hp, List.map_cons, this]
      simpa using ih

theorem lockstep {e : Env} {v : Nat → Bool} (hc : Calm e v) : ∀ (fuel k level : Nat) (ns : List NSub) (tr : List Item) (k' : Nat)
    (tr' : List Item) (errs : List Err), (ns.map (·.mod.id)).Nodup → (∀ n ∈ ns, n.mod.subs.length < W) →
    changeLoop e fuel k level ns tr = some (k', tr', errs) → errs ≠ [] →
    (∀ x ∈ errs, ∃ n ∈ ns, n.mod.id = x.mod ∧ x.prio < n.cur) ∧
    ∃ add, tr' = tr ++ add ∧ ∀ (fuel2 k2 : Nat) (trA chg : List Item), fuel ≤ fuel2 → (∀ i ∈ add, i ∈ chg) →
      abortLoop e errs chg fuel2 k2 level ns trA = some (trA ++ add.filter (fun i => e.reply i.sub.id == .ok)) := by
  intro fuel
  induction fuel with
  | zero => intro k level ns tr k' tr' errs _ _ h; simp [changeLoop] at h
  | succ fuel ih =>
    intro k level ns tr k' tr' errs hnd hlen h hne
    have hs := roundScan_calm hc .change level ns k
    simp only [Prod.ext_iff] at hs
    obtain ⟨hs1, hs2⟩ := hs
    unfold changeLoop at h
    simp only [hs1, hs2] at h
    have hmods : (ns.map (stepN v .change level)).map (·.mod.id) = ns.map (·.mod.id) := by
      rw [List.map_map]
      exact List.map_congr_left (fun n _ => by simp [stepN_mod])
    have hnd' : ((ns.map (stepN v .change level)).map (·.mod.id)).Nodup := by rw [hmods]; exact hnd
    have hlen' : ∀ n ∈ ns.map (stepN v .change level), n.mod.subs.length < W := by
      intro n hn
      obtain ⟨x, hx, rfl⟩ := List.mem_map.mp hn
      rw [stepN_mod]; exact hlen x hx
    have hcur : ∀ n ∈ ns, (stepN v .change level n).cur ≤ n.cur := by
      intro n _
      cases hp : pendN v .change level n with
      | none =>
        have : nx v .change level n = none := by
          cases hx : nx v .change level n with
          | none => rfl
          | some y => obtain ⟨a, b⟩ := y; simp [pendN, hx] at hp
        simp [stepN, this]
      | some p =>
        obtain ⟨e1, _, e3, _⟩ := pendN_mod hp
        rw [← e1]; exact Nat.le_of_lt e3
    -- errors of later rounds: below the current priority
    have early : ∀ (l2 : Nat) (tr1 : List Item), changeLoop e fuel (roundScan e .change level k ns).1 l2 (ns.map (stepN v .change level)) tr1 = some (k', tr', errs) →
        (∀ x ∈ errs, ∃ n ∈ ns, n.mod.id = x.mod ∧ x.prio < n.cur) ∧
        (∀ k2, (abortScan e errs level k2 ns).2 = (ns.map (stepN v .change level), ns.filterMap (pendN v .change level), false)) ∧
        ∃ add, tr' = tr1 ++ add ∧ ∀ (fuel2 k2 : Nat) (trA chg : List Item), fuel ≤ fuel2 → (∀ i ∈ add, i ∈ chg) →
          abortLoop e errs chg fuel2 k2 l2 (ns.map (stepN v .change level)) trA = some (trA ++ add.filter (fun i => e.reply i.sub.id == .ok)) := by
      intro l2 tr1 hh
      obtain ⟨i1, add, i2, i3⟩ := ih _ _ _ _ _ _ _ hnd' hlen' hh hne
      refine ⟨?_, ?_, add, i2, i3⟩
      · intro x hx
        obtain ⟨n', hn', h1, h2⟩ := i1 x hx
        obtain ⟨n, hn, rfl⟩ := List.mem_map.mp hn'
        rw [stepN_mod] at h1
        have := hcur n hn
        exact ⟨n, hn, h1, by omega⟩
      · apply abortScan_early hc
        intro n hn x hx hm
        obtain ⟨n', hn', h1, h2⟩ := i1 x hx
        have : n' = stepN v .change level n := id_inj hnd' hn' (List.mem_map.mpr ⟨n, hn, rfl⟩) (by rw [stepN_mod, h1, hm])
        rw [← this]; exact h2
    by_cases hp : ns.filterMap (pendN v .change level) = []
    · rw [if_pos hp] at h
      by_cases hl : level = 0
      · rw [if_pos hl] at h
        simp only [Option.some.injEq, Prod.mk.injEq] at h
        exact absurd h.2.2.symm hne
      · rw [if_neg hl] at h
        obtain ⟨j1, j2, add, j3, j4⟩ := early _ _ h
        refine ⟨j1, add, j3, ?_⟩
        intro fuel2 k2 trA chg hf hchg
        obtain ⟨f2, rfl⟩ : ∃ f2, fuel2 = f2 + 1 := ⟨fuel2 - 1, by omega⟩
        unfold abortLoop
        simp only [j2 k2, hp, if_true, hl, if_false, Bool.false_eq_true]
        exact j4 f2 _ trA chg (by omega) hchg
    · rw [if_neg hp] at h
      by_cases he : errsOf e (ns.filterMap (pendN v .change level)) = []
      · rw [if_pos he] at h
        obtain ⟨j1, j2, add, j3, j4⟩ := early _ _ h
        refine ⟨j1, (ns.filterMap (pendN v .change level)).flatMap (calls e) ++ add, by rw [j3, List.append_assoc], ?_⟩
        intro fuel2 k2 trA chg hf hchg
        obtain ⟨f2, rfl⟩ : ∃ f2, fuel2 = f2 + 1 := ⟨fuel2 - 1, by omega⟩
        unfold abortLoop
        simp only [j2 k2, hp, if_false, Bool.false_eq_true]
        rw [j4 f2 _ _ chg (by omega) (fun i hi => hchg i (List.mem_append_right _ hi)),
          takesAbort_all e chg _ (fun i hi => hchg i (List.mem_append_left _ hi)), List.filter_append, List.append_assoc]
      · rw [if_neg he] at h
        simp only [Option.some.injEq, Prod.mk.injEq] at h
        obtain ⟨_, h2, h3⟩ := h
        constructor
        · intro x hx
          rw [← h3] at hx
          simp only [errsOf, List.mem_map, List.mem_filter] at hx
          obtain ⟨p, ⟨hp1, hb⟩, rfl⟩ := hx
          obtain ⟨n, hn, hpn⟩ := List.mem_filterMap.mp hp1
          obtain ⟨e1, e2, e3, _⟩ := pendN_mod hpn
          exact ⟨n, hn, by rw [e2], e3⟩
        · refine ⟨(ns.filterMap (pendN v .change level)).flatMap (calls e), h2.symm, ?_⟩
          intro fuel2 k2 trA chg hf hchg
          obtain ⟨f2, rfl⟩ : ∃ f2, fuel2 = f2 + 1 := ⟨fuel2 - 1, by omega⟩
          obtain ⟨a1, a2⟩ := abortScan_fail hc level (ns.filterMap (pendN v .change level)) (List.Nodup.sublist (pend_ids v .change level ns) hnd)
            (by
              intro p hp1
              obtain ⟨n, hn, hpn⟩ := List.mem_filterMap.mp hp1
              have h1 := (pendN_mod hpn).2.2.2.1.length_le
              have h2 := hlen n hn
              omega) ns (fun n hn p hpn => List.mem_filterMap.mpr ⟨n, hn, hpn⟩)
            (by
              intro n hn hx p hp1 hm
              obtain ⟨n', hn', hpn⟩ := List.mem_filterMap.mp hp1
              rw [(pendN_mod hpn).2.1] at hm
              have := id_inj hnd hn' hn hm
              subst this
              simp [pendN, hx] at hpn) k2
          have hlast : (ns.filterMap (pendN v .change level)).any (fun p => badCount e p != 0) = true := by
            rw [List.any_eq_true]
            apply Decidable.byContradiction
            intro hcon
            apply he
            simp only [errsOf, List.map_eq_nil_iff, List.filter_eq_nil_iff]
            intro p hp1 hb
            exact hcon ⟨p, hp1, hb⟩
          rw [← takesAbort_all e chg _ hchg, ← takesAbort_filter, ← h3]
          unfold abortLoop
          simp only [a1, a2, hlast, if_true]
          by_cases hz : (ns.filterMap (pendN v .change level)).filter (fun p => decide (badCount e p < p.subs.length)) = []
          · rw [if_pos hz, hz]
            simp
          · rw [if_neg hz]

theorem collect_abort {e : Env} {v : Nat → Bool} (hc : Calm e v) (mods : List Mod) : ∀ k k2, (collectAbort e k mods).2 = (collect e .change k2 mods).2 := by
  induction mods with
  | nil => intro k k2; rfl
  | cons m r ih =>
    intro k k2
    unfold collectAbort collect
    have e1 : hasSub e k .change m.subs = scanMax (okS v .change) m.subs none := by simp [hasSub, hc.subOk]
    have e2 : hasSub e k2 .change m.subs = scanMax (okS v .change) m.subs none := by simp [hasSub, hc.subOk]
    have e3 : hasSub e (k + 1) .abort m.subs = scanMax (okS v .change) m.subs none := by simp [hasSub, hc.subOk, okS_abort]
    rw [e1, e2]
    cases hs : scanMax (okS v .change) m.subs none with
    | none => exact ih _ _
    | some p => simp [e3, hs, ih (k + 2) (k2 + 1)]

theorem pendN_subs {v : Nat → Bool} {ev : Ev} {level : Nat} {n : NSub} {p : Pend} (h : pendN v ev level n = some p) :
    ∀ s ∈ p.subs, s ∈ n.mod.subs ∧ okS v ev s = true := by
  unfold pendN at h
  cases hn : nx v ev level n with
  | none => rw [hn] at h; simp at h
  | some y =>
    obtain ⟨q, ss⟩ := y
    rw [hn] at h
    simp only [Option.some.injEq] at h
    have hl : n.level = level := by
      by_cases hl : n.level ≠ level
      · simp [nx, hl] at hn
      · simpa using hl
    have hf := nx_spec v ev level n hl
    rw [hn] at hf
    obtain ⟨f1, f2, f3, f4⟩ := hf
    subst h
    intro s hs
    simp only [] at hs
    rw [f2] at hs
    have := List.mem_filter.mp hs
    simp only [Bool.and_eq_true] at this
    exact ⟨this.1, this.2.1⟩

theorem changeLoop_errs {e : Env} {v : Nat → Bool} (hc : Calm e v) : ∀ (fuel k level : Nat) (ns : List NSub) (tr : List Item) (k' : Nat)
    (tr' : List Item) (errs : List Err), changeLoop e fuel k level ns tr = some (k', tr', errs) → errs ≠ [] →
    ∃ n ∈ ns, ∃ s ∈ n.mod.subs, okS v .change s = true ∧ e.reply s.id ≠ .ok := by
  intro fuel
  induction fuel with
  | zero => intro k level ns tr k' tr' errs h; simp [changeLoop] at h
  | succ fuel ih =>
    intro k level ns tr k' tr' errs h hne
    have hs := roundScan_calm hc .change level ns k
    simp only [Prod.ext_iff] at hs
    obtain ⟨hs1, hs2⟩ := hs
    unfold changeLoop at h
    simp only [hs1, hs2] at h
    have back : (∃ n ∈ ns.map (stepN v .change level), ∃ s ∈ n.mod.subs, okS v .change s = true ∧ e.reply s.id ≠ .ok) →
        ∃ n ∈ ns, ∃ s ∈ n.mod.subs, okS v .change s = true ∧ e.reply s.id ≠ .ok := by
      rintro ⟨n', hn', s, hs, h1⟩
      obtain ⟨n, hn, rfl⟩ := List.mem_map.mp hn'
      rw [stepN_mod] at hs
      exact ⟨n, hn, s, hs, h1⟩
    by_cases hp : ns.filterMap (pendN v .change level) = []
    · rw [if_pos hp] at h
      by_cases hl : level = 0
      · rw [if_pos hl] at h
        simp only [Option.some.injEq, Prod.mk.injEq] at h
        exact absurd h.2.2.symm hne
      · rw [if_neg hl] at h
        exact back (ih _ _ _ _ _ _ _ h hne)
    · rw [if_neg hp] at h
      by_cases he : errsOf e (ns.filterMap (pendN v .change level)) = []
      · rw [if_pos he] at h
        exact back (ih _ _ _ _ _ _ _ h hne)
      · obtain ⟨x, hx⟩ := List.exists_mem_of_ne_nil _ he
        simp only [errsOf, List.mem_map, List.mem_filter] at hx
        obtain ⟨p, ⟨hp1, hb⟩, rfl⟩ := hx
        obtain ⟨n, hn, hpn⟩ := List.mem_filterMap.mp hp1
        have hpos : 0 < badCount e p := by simp only [bne_iff_ne, ne_eq] at hb; omega
        unfold badCount at hpos
        obtain ⟨s, hs, hr⟩ := List.countP_pos_iff.mp hpos
        obtain ⟨q1, q2⟩ := pendN_subs hpn s hs
        exact ⟨n, hn, s, q1, q2, by simpa using hr⟩

end Verif.ChangeNotify
