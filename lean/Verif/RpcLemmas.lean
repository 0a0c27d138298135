import Verif.Rpc

namespace Verif.Rpc

/-! ### Scanning the subscriptions -/

theorem scanMax_spec (v : Nat → Bool) (l : List Sub) : ∀ (seen : List Sub) (acc : Option Nat),
    (acc = none → ∀ s ∈ seen, v s.id = false) →
    (∀ m, acc = some m → (∃ s ∈ seen, v s.id = true ∧ s.prio = m) ∧ ∀ s ∈ seen, v s.id = true → s.prio ≤ m) →
    (scanMax v l acc = none → ∀ s ∈ seen ++ l, v s.id = false) ∧
    (∀ m, scanMax v l acc = some m → (∃ s ∈ seen ++ l, v s.id = true ∧ s.prio = m) ∧ ∀ s ∈ seen ++ l, v s.id = true → s.prio ≤ m) := by
  induction l with
  | nil => intro seen acc h1 h2; simpa [scanMax] using ⟨h1, h2⟩
  | cons a l ih =>
    intro seen acc h1 h2
    have hap : seen ++ a :: l = (seen ++ [a]) ++ l := by simp
    rw [hap]
    unfold scanMax
    by_cases hv : v a.id = true
    · rw [if_pos hv]
      refine ih (seen ++ [a]) _ (by simp) ?_
      intro m hm
      cases acc with
      | none =>
        simp only [Option.some.injEq] at hm
        subst hm
        refine ⟨⟨a, by simp, hv, rfl⟩, ?_⟩
        intro s hs hvs
        rcases List.mem_append.mp hs with hs | hs
        · rw [h1 rfl s hs] at hvs; cases hvs
        · simp at hs; subst hs; exact Nat.le_refl _
      | some m0 =>
        obtain ⟨⟨x, hx, hxv, hxp⟩, hle⟩ := h2 m0 rfl
        simp only [Option.some.injEq] at hm
        by_cases hgt : a.prio > m0
        · rw [if_pos hgt] at hm; subst hm
          refine ⟨⟨a, by simp, hv, rfl⟩, ?_⟩
          intro s hs hvs
          rcases List.mem_append.mp hs with hs | hs
          · have := hle s hs hvs; omega
          · simp at hs; subst hs; exact Nat.le_refl _
        · rw [if_neg hgt] at hm; subst hm
          refine ⟨⟨x, by simp [hx], hxv, hxp⟩, ?_⟩
          intro s hs hvs
          rcases List.mem_append.mp hs with hs | hs
          · exact hle s hs hvs
          · simp at hs; subst hs; omega
    · rw [if_neg hv]
      have hv' : v a.id = false := by simpa using hv
      refine ih (seen ++ [a]) acc ?_ ?_
      · intro h0 s hs
        rcases List.mem_append.mp hs with hs | hs
        · exact h1 h0 s hs
        · simp at hs; subst hs; exact hv'
      · intro m hm
        obtain ⟨⟨x, hx, hxv, hxp⟩, hle⟩ := h2 m hm
        refine ⟨⟨x, by simp [hx], hxv, hxp⟩, ?_⟩
        intro s hs hvs
        rcases List.mem_append.mp hs with hs | hs
        · exact hle s hs hvs
        · simp at hs; subst hs; rw [hv'] at hvs; cases hvs

/-- What a scan finds. -/
def Found (v : Nat → Bool) (last : Nat) (l : List Sub) (x : Option (Nat × List Sub)) : Prop :=
  match x with
  | none => ∀ s ∈ l, ¬ (v s.id = true ∧ s.prio < last)
  | some (p, ss) => ss ≠ [] ∧ ss = l.filter (fun s => v s.id && s.prio == p) ∧ p < last ∧
      ∀ s ∈ l, v s.id = true → s.prio < last → s.prio ≤ p

theorem scanNext_spec (v : Nat → Bool) (last : Nat) (l : List Sub) : ∀ (seen : List Sub) (acc : Option (Nat × List Sub)),
    Found v last seen acc → Found v last (seen ++ l) (scanNext v last l acc) := by
  induction l with
  | nil => intro seen acc h; simpa [scanNext] using h
  | cons a l ih =>
    intro seen acc h
    have hap : seen ++ a :: l = (seen ++ [a]) ++ l := by simp
    rw [hap]
    unfold scanNext
    by_cases hv : (v a.id && decide (last > a.prio)) = true
    · rw [if_pos hv]
      simp only [Bool.and_eq_true, decide_eq_true_eq] at hv
      apply ih
      cases acc with
      | none =>
        simp only [Found] at h ⊢
        refine ⟨by simp, ?_, hv.2, ?_⟩
        · rw [List.filter_append]
          have : seen.filter (fun s => v s.id && s.prio == a.prio) = [] := by
            rw [List.filter_eq_nil_iff]
            intro s hs hc
            simp only [Bool.and_eq_true, beq_iff_eq] at hc
            exact h s hs ⟨hc.1, by omega⟩
          rw [this]; simp [hv.1]
        · intro s hs hvs hlt
          rcases List.mem_append.mp hs with hs | hs
          · exact absurd ⟨hvs, hlt⟩ (h s hs)
          · simp at hs; subst hs; exact Nat.le_refl _
      | some y =>
        obtain ⟨p, ss⟩ := y
        simp only [Found] at h
        obtain ⟨hne, hss, hp, hle⟩ := h
        by_cases h1 : p < a.prio
        · simp only [if_pos h1, Found]
          refine ⟨by simp, ?_, hv.2, ?_⟩
          · rw [List.filter_append]
            have : seen.filter (fun s => v s.id && s.prio == a.prio) = [] := by
              rw [List.filter_eq_nil_iff]
              intro s hs hc
              simp only [Bool.and_eq_true, beq_iff_eq] at hc
              have := hle s hs hc.1 (by omega); omega
            rw [this]; simp [hv.1]
          · intro s hs hvs hlt
            rcases List.mem_append.mp hs with hs | hs
            · have := hle s hs hvs hlt; omega
            · simp at hs; subst hs; exact Nat.le_refl _
        · simp only [if_neg h1]
          by_cases h2 : a.prio = p
          · simp only [if_pos h2, Found]
            refine ⟨by simp, ?_, hp, ?_⟩
            · rw [List.filter_append, hss]; simp [hv.1, h2]
            · intro s hs hvs hlt
              rcases List.mem_append.mp hs with hs | hs
              · exact hle s hs hvs hlt
              · simp at hs; subst hs; omega
          · simp only [if_neg h2, Found]
            refine ⟨hne, ?_, hp, ?_⟩
            · rw [List.filter_append, ← hss]; simp [h2]
            · intro s hs hvs hlt
              rcases List.mem_append.mp hs with hs | hs
              · exact hle s hs hvs hlt
              · simp at hs; subst hs; omega
    · rw [if_neg hv]
      simp only [Bool.and_eq_true, decide_eq_true_eq, not_and] at hv
      apply ih
      cases acc with
      | none =>
        simp only [Found] at h ⊢
        intro s hs hc
        rcases List.mem_append.mp hs with hs | hs
        · exact h s hs hc
        · simp at hs; subst hs; exact hv hc.1 hc.2
      | some y =>
        obtain ⟨p, ss⟩ := y
        simp only [Found] at h ⊢
        obtain ⟨hne, hss, hp, hle⟩ := h
        refine ⟨hne, ?_, hp, ?_⟩
        · rw [List.filter_append, ← hss]
          have : [a].filter (fun s => v s.id && s.prio == p) = [] := by
            rw [List.filter_eq_nil_iff]
            intro s hs hc
            simp at hs; subst hs
            simp only [Bool.and_eq_true, beq_iff_eq] at hc
            exact hv hc.1 (by omega)
          rw [this]; simp
        · intro s hs hvs hlt
          rcases List.mem_append.mp hs with hs | hs
          · exact hle s hs hvs hlt
          · simp at hs; subst hs; exact absurd hlt (hv hvs)

theorem next_spec (e : Env) (k last : Nat) (subs : List Sub) : Found (e.view k) last subs (next e k last subs) := by
  have := scanNext_spec (e.view k) last subs [] none (by simp [Found])
  simpa [next] using this

theorem next_some {e : Env} {k last p : Nat} {subs ss : List Sub} (h : next e k last subs = some (p, ss)) :
    ss ≠ [] ∧ ss = subs.filter (fun s => e.view k s.id && s.prio == p) ∧ p < last ∧
      ∀ s ∈ subs, e.view k s.id = true → s.prio < last → s.prio ≤ p := by
  have := next_spec e k last subs
  rw [h] at this
  exact this

theorem next_mem {e : Env} {k last p : Nat} {subs ss : List Sub} (h : next e k last subs = some (p, ss)) :
    ∀ s ∈ ss, s ∈ subs ∧ s.prio = p := by
  obtain ⟨_, h2, _, _⟩ := next_some h
  intro s hs
  rw [h2] at hs
  simp only [List.mem_filter, Bool.and_eq_true, beq_iff_eq] at hs
  exact ⟨hs.1, hs.2.2⟩

/-! ### Every call ends -/

def lower (subs : List Sub) (p : Nat) : Nat := (subs.filter (fun s => decide (s.prio < p))).length

theorem lower_lt {subs : List Sub} {p last : Nat} {s : Sub} (hs : s ∈ subs) (hp : s.prio = p) (hlt : p < last) :
    lower subs p < lower subs last := by
  unfold lower
  induction subs with
  | nil => simp at hs
  | cons a l ih =>
    have hmono : (l.filter (fun s => decide (s.prio < p))).length ≤ (l.filter (fun s => decide (s.prio < last))).length := by
      clear ih hs
      induction l with
      | nil => simp
      | cons b l ih =>
        simp only [List.filter_cons]
        by_cases h1 : b.prio < p
        · have h2 : b.prio < last := by omega
          simp [h1, h2]; exact ih
        · by_cases h2 : b.prio < last
          · simp [h1, h2]; omega
          · simp [h1, h2]; exact ih
    simp only [List.filter_cons]
    rcases List.mem_cons.mp hs with rfl | hs
    · have h1 : ¬ s.prio < p := by omega
      have h2 : s.prio < last := by omega
      simp [h1, h2]; omega
    · have := ih hs
      by_cases h1 : a.prio < p
      · have h2 : a.prio < last := by omega
        simp [h1, h2]; exact this
      · by_cases h2 : a.prio < last
        · simp [h1, h2]; omega
        · simp [h1, h2]; exact this

theorem lower_le (subs : List Sub) (p : Nat) : lower subs p ≤ subs.length := List.length_filter_le _ _

theorem next_lower {e : Env} {k last p : Nat} {subs ss : List Sub} (h : next e k last subs = some (p, ss)) :
    lower subs p < lower subs last ∧ ss ≠ [] := by
  obtain ⟨h1, h2, h3, _⟩ := next_some h
  obtain ⟨s, r, hs⟩ := List.exists_cons_of_ne_nil h1
  have := next_mem h s (by rw [hs]; simp)
  exact ⟨lower_lt this.1 this.2 h3, h1⟩

theorem mainLoop_some (e : Env) (subs : List Sub) : ∀ (fuel k cur : Nat) (ss : List Sub) (tr : List (Nat × Ev)),
    lower subs cur < fuel → ss ≠ [] → ∃ o, mainLoop e subs fuel k cur ss tr = some o := by
  intro fuel
  induction fuel with
  | zero => intro k cur ss tr h; omega
  | succ fuel ih =>
    intro k cur ss tr h hne
    obtain ⟨s, r, rfl⟩ := List.exists_cons_of_ne_nil hne
    unfold mainLoop
    simp only []
    cases hn : next e k cur subs with
    | none => split <;> split <;> simp_all
    | some y =>
      obtain ⟨p, ss'⟩ := y
      obtain ⟨h1, h2⟩ := next_lower hn
      have := fun tr => ih (k + 1) p ss' tr (by omega) h2
      split <;> split <;> simp_all

theorem firstSub_some (e : Env) (subs : List Sub) : ∀ (fuel k cur : Nat) (out : Option Nat) (tr : List (Nat × Ev)),
    lower subs ((cur + 1) % W) < fuel → ∃ o, firstSub e subs fuel k cur out tr = some o := by
  intro fuel
  induction fuel with
  | zero => intro k cur out tr h; omega
  | succ fuel ih =>
    intro k cur out tr h
    unfold firstSub
    cases hn : next e k ((cur + 1) % W) subs with
    | none => simp
    | some y =>
      obtain ⟨p, ss⟩ := y
      obtain ⟨h1, h2⟩ := next_lower hn
      simp only []
      by_cases hi : isInternal e p = true
      · rw [if_pos hi]
        obtain ⟨s, r, rfl⟩ := List.exists_cons_of_ne_nil h2
        have hp : p = 10 := by simp [isInternal, intPrio] at hi; exact hi.2
        simp only []
        cases e.reply s.id with
        | ok o =>
          refine ih _ _ _ _ ?_
          have : (p - 1 + 1) % W = p := by subst hp; decide
          rw [this]; omega
        | fail => simp
        | timeout b => simp
        | lost => simp
        | bad => simp
      · rw [if_neg hi]
        exact mainLoop_some e subs _ _ _ _ _ (by omega) h2

/-! ### Order of the calls, whatever happens -/

/-- The RPC events in a trace. -/
def rpcs (tr : List (Nat × Ev)) : List Nat := (tr.filter (fun x => x.2 == Ev.rpc)).map (·.1)
def aborts (tr : List (Nat × Ev)) : List Nat := (tr.filter (fun x => x.2 == Ev.abort)).map (·.1)

theorem rpcs_append (a b : List (Nat × Ev)) : rpcs (a ++ b) = rpcs a ++ rpcs b := by simp [rpcs]
theorem aborts_append (a b : List (Nat × Ev)) : aborts (a ++ b) = aborts a ++ aborts b := by simp [aborts]
theorem rpcs_one (i : Nat) : rpcs [(i, .rpc)] = [i] := rfl
theorem aborts_one (i : Nat) : aborts [(i, .rpc)] = [] := rfl
theorem rpcs_map (l : List Nat) : rpcs (l.map (fun i => (i, Ev.abort))) = [] := by
  induction l with
  | nil => rfl
  | cons a l ih => simpa [rpcs] using ih
theorem aborts_map (l : List Nat) : aborts (l.map (fun i => (i, Ev.abort))) = l := by
  induction l with
  | nil => rfl
  | cons a l ih => simpa [aborts] using ih

theorem mem_rpcs (tr : List (Nat × Ev)) (i : Nat) : i ∈ rpcs tr ↔ (i, Ev.rpc) ∈ tr := by
  simp [rpcs]
theorem mem_aborts (tr : List (Nat × Ev)) (i : Nat) : i ∈ aborts tr ↔ (i, Ev.abort) ∈ tr := by
  simp [aborts]

/-- Called from the highest priority. -/
def Ordered (subs : List Sub) (ids : List Nat) : Prop :=
  ∃ L : List Sub, (∀ s ∈ L, s ∈ subs) ∧ L.Pairwise (fun a b => a.prio > b.prio) ∧ ids = L.map (·.id)

/-- State of the trace before the subscribers with a priority lower than `last` are called. -/
structure TInv (e : Env) (subs : List Sub) (last : Nat) (tr : List (Nat × Ev)) : Prop where
  ord : ∃ L : List Sub, (∀ s ∈ L, s ∈ subs ∧ last ≤ s.prio) ∧ L.Pairwise (fun a b => a.prio > b.prio) ∧ rpcs tr = L.map (·.id)
  noab : aborts tr = []
  ok : ∀ i ∈ rpcs tr, ∃ o, e.reply i = .ok o

/-- State of the trace after the RPC part. -/
structure NInv (e : Env) (subs : List Sub) (o : Out) : Prop where
  ord : Ordered subs (rpcs o.trace)
  ab : ∀ i ∈ aborts o.trace, i ∈ rpcs o.trace ∧ e.reply i = .lost
  abNodup : (aborts o.trace).Nodup
  ab0 : o.err.isSome = true → aborts o.trace = []

theorem TInv.call {e : Env} {subs : List Sub} {last cur : Nat} {tr : List (Nat × Ev)} (h : TInv e subs last tr) {s : Sub}
    (hs : s ∈ subs) (hp : s.prio = cur) (hlt : cur < last) : Ordered subs (rpcs (tr ++ [(s.id, .rpc)])) := by
  obtain ⟨L, h1, h2, h3⟩ := h.ord
  refine ⟨L ++ [s], ?_, ?_, ?_⟩
  · intro x hx
    rcases List.mem_append.mp hx with hx | hx
    · exact (h1 x hx).1
    · simp at hx; subst hx; exact hs
  · refine List.pairwise_append.mpr ⟨h2, by simp, ?_⟩
    intro x hx y hy
    simp at hy; subst hy
    have := (h1 x hx).2; omega
  · rw [rpcs_append, h3, rpcs_one]; simp

theorem TInv.next {e : Env} {subs : List Sub} {last cur : Nat} {tr : List (Nat × Ev)} (h : TInv e subs last tr) {s : Sub}
    (hs : s ∈ subs) (hp : s.prio = cur) (hlt : cur < last) {o : Nat} (hr : e.reply s.id = .ok o) :
    TInv e subs cur (tr ++ [(s.id, .rpc)]) := by
  obtain ⟨L, h1, h2, h3⟩ := h.ord
  refine ⟨⟨L ++ [s], ?_, ?_, ?_⟩, ?_, ?_⟩
  · intro x hx
    rcases List.mem_append.mp hx with hx | hx
    · exact ⟨(h1 x hx).1, by have := (h1 x hx).2; omega⟩
    · simp at hx; subst hx; exact ⟨hs, by omega⟩
  · refine List.pairwise_append.mpr ⟨h2, by simp, ?_⟩
    intro x hx y hy
    simp at hy; subst hy
    have := (h1 x hx).2; omega
  · rw [rpcs_append, h3, rpcs_one]; simp
  · rw [aborts_append, h.noab, aborts_one]; rfl
  · intro i hi
    rw [rpcs_append, rpcs_one] at hi
    rcases List.mem_append.mp hi with hi | hi
    · exact h.ok i hi
    · simp at hi; subst hi; exact ⟨o, hr⟩

theorem TInv.done {e : Env} {subs : List Sub} {last : Nat} {tr : List (Nat × Ev)} (h : TInv e subs last tr) (o : Out)
    (ho : o.trace = tr) : NInv e subs o := by
  subst ho
  obtain ⟨L, h1, h2, h3⟩ := h.ord
  exact ⟨⟨L, fun s hs => (h1 s hs).1, h2, h3⟩, by rw [h.noab]; simp, by rw [h.noab]; simp, fun _ => h.noab⟩

theorem TInv.fin {e : Env} {subs : List Sub} {last cur : Nat} {tr : List (Nat × Ev)} (h : TInv e subs last tr) {s : Sub}
    (hs : s ∈ subs) (hp : s.prio = cur) (hlt : cur < last) (o : Out) (ho : o.trace = tr ++ [(s.id, .rpc)]) : NInv e subs o := by
  have hab : aborts o.trace = [] := by rw [ho, aborts_append, h.noab, aborts_one]; rfl
  exact ⟨by rw [ho]; exact h.call hs hp hlt, by rw [hab]; simp, by rw [hab]; simp, fun _ => hab⟩

theorem mainLoop_inv (e : Env) (subs : List Sub) : ∀ (fuel k cur last : Nat) (ss : List Sub) (tr : List (Nat × Ev)) (o : Out),
    TInv e subs last tr → (∀ s ∈ ss, s ∈ subs ∧ s.prio = cur) → cur < last →
    mainLoop e subs fuel k cur ss tr = some o → NInv e subs o := by
  intro fuel
  induction fuel with
  | zero => intro k cur last ss tr o _ _ _ h; simp [mainLoop] at h
  | succ fuel ih =>
    intro k cur last ss tr o hT hss hlt h
    cases ss with
    | nil => simp [mainLoop] at h
    | cons s r =>
      obtain ⟨hs, hp⟩ := hss s (by simp)
      have step : ∀ x : Nat, e.reply s.id = .ok x →
          (match next e k cur subs with
            | none => some (⟨.success (some x), tr ++ [(s.id, .rpc)], k + 1, none, false⟩ : Out)
            | some (p, ss') => mainLoop e subs fuel (k + 1) p ss' (tr ++ [(s.id, .rpc)])) = some o → NInv e subs o := by
        intro x hr h
        cases hn : next e k cur subs with
        | none =>
          rw [hn] at h
          simp only [Option.some.injEq] at h
          exact hT.fin hs hp hlt o (by rw [← h])
        | some y =>
          obtain ⟨p, ss'⟩ := y
          rw [hn] at h
          exact ih _ _ _ _ _ _ (hT.next hs hp hlt hr) (next_mem hn) (next_some hn).2.2.1 h
      unfold mainLoop at h
      simp only [] at h
      by_cases hi : isInternal e cur = true
      · rw [if_pos hi] at h
        cases hr : e.reply s.id with
        | ok x => rw [hr] at h; exact step x hr h
        | fail => rw [hr] at h; simp only [Option.some.injEq] at h; exact hT.fin hs hp hlt o (by rw [← h])
        | timeout b => rw [hr] at h; simp only [Option.some.injEq] at h; exact hT.fin hs hp hlt o (by rw [← h])
        | lost => rw [hr] at h; simp only [Option.some.injEq] at h; exact hT.fin hs hp hlt o (by rw [← h])
        | bad => rw [hr] at h; simp only [Option.some.injEq] at h; exact hT.fin hs hp hlt o (by rw [← h])
      · rw [if_neg hi] at h
        cases hr : e.reply s.id with
        | ok x => rw [hr] at h; exact step x hr h
        | fail => rw [hr] at h; simp only [Option.some.injEq] at h; exact hT.fin hs hp hlt o (by rw [← h])
        | timeout b => rw [hr] at h; simp only [Option.some.injEq] at h; exact hT.fin hs hp hlt o (by rw [← h])
        | bad => rw [hr] at h; simp only [Option.some.injEq] at h; exact hT.fin hs hp hlt o (by rw [← h])
        | lost =>
          rw [hr] at h; simp only [Option.some.injEq] at h
          have e1 : o.trace = tr ++ [(s.id, .rpc)] ++ [s.id].map (fun i => (i, Ev.abort)) := by rw [← h]; simp
          have e2 : aborts o.trace = [s.id] := by
            rw [e1, aborts_append, aborts_append, hT.noab, aborts_one, aborts_map]; rfl
          have e3 : rpcs o.trace = rpcs (tr ++ [(s.id, .rpc)]) := by
            rw [e1, rpcs_append, rpcs_map]; simp
          refine ⟨by rw [e3]; exact hT.call hs hp hlt, ?_, by rw [e2]; simp, ?_⟩
          · intro i hi
            rw [e2] at hi; simp at hi; subst hi
            exact ⟨by rw [e3, rpcs_append, rpcs_one]; simp, hr⟩
          · rw [← h]; simp

theorem firstSub_inv (e : Env) (subs : List Sub) : ∀ (fuel k cur : Nat) (out : Option Nat) (tr : List (Nat × Ev)) (o : Out),
    TInv e subs ((cur + 1) % W) tr → firstSub e subs fuel k cur out tr = some o → NInv e subs o := by
  intro fuel
  induction fuel with
  | zero => intro k cur out tr o _ h; simp [firstSub] at h
  | succ fuel ih =>
    intro k cur out tr o hT h
    unfold firstSub at h
    cases hn : next e k ((cur + 1) % W) subs with
    | none =>
      rw [hn] at h; simp only [Option.some.injEq] at h
      exact hT.done o (by rw [← h])
    | some y =>
      obtain ⟨p, ss⟩ := y
      rw [hn] at h
      simp only [] at h
      have hlt := (next_some hn).2.2.1
      by_cases hi : isInternal e p = true
      · rw [if_pos hi] at h
        cases ss with
        | nil => simp at h
        | cons s r =>
          obtain ⟨hs, hp⟩ := next_mem hn s (by simp)
          simp only [] at h
          cases hr : e.reply s.id with
          | ok x =>
            rw [hr] at h
            refine ih _ _ _ _ _ ?_ h
            have hp10 : p = 10 := by simp [isInternal, intPrio] at hi; exact hi.2
            have : (p - 1 + 1) % W = p := by subst hp10; decide
            rw [this]
            exact hT.next hs hp hlt hr
          | fail => rw [hr] at h; simp only [Option.some.injEq] at h; exact hT.fin hs hp hlt o (by rw [← h])
          | timeout b => rw [hr] at h; simp only [Option.some.injEq] at h; exact hT.fin hs hp hlt o (by rw [← h])
          | lost => rw [hr] at h; simp only [Option.some.injEq] at h; exact hT.fin hs hp hlt o (by rw [← h])
          | bad => rw [hr] at h; simp only [Option.some.injEq] at h; exact hT.fin hs hp hlt o (by rw [← h])
      · rw [if_neg hi] at h
        exact mainLoop_inv e subs _ _ _ _ _ _ _ hT (next_mem hn) hlt h

theorem notify_inv (e : Env) (subs : List Sub) (o : Out) (h : notify e subs = some o) : NInv e subs o := by
  have h0 : ∀ n, TInv e subs n [] := fun n => ⟨⟨[], by simp, List.Pairwise.nil, rfl⟩, rfl, by simp [rpcs]⟩
  unfold notify at h
  cases hm : scanMax (e.view 0) subs none with
  | none =>
    rw [hm] at h; simp only [Option.some.injEq] at h
    exact (h0 0).done o (by rw [← h])
  | some m =>
    rw [hm] at h
    exact firstSub_inv e subs _ _ _ _ _ _ (h0 _) h

/-- The abort part adds abort events only, to those who processed the RPC event, once each. -/
structure AInv (e : Env) (tr tr' : List (Nat × Ev)) : Prop where
  rpc : rpcs tr' = rpcs tr
  ab : ∀ i ∈ aborts tr', i ∈ aborts tr ∨ (i ∈ rpcs tr ∧ processed e i = true)
  nodup : (aborts tr).Nodup → (aborts tr').Nodup

theorem AInv.refl (e : Env) (tr : List (Nat × Ev)) : AInv e tr tr := ⟨rfl, fun _ h => Or.inl h, id⟩

theorem AInv.trans {e : Env} {a b c : List (Nat × Ev)} (h1 : AInv e a b) (h2 : AInv e b c) : AInv e a c := by
  refine ⟨h2.rpc.trans h1.rpc, ?_, fun h => h2.nodup (h1.nodup h)⟩
  intro i hi
  rcases h2.ab i hi with h | ⟨h, hp⟩
  · exact h1.ab i h
  · rw [h1.rpc] at h; exact Or.inr ⟨h, hp⟩

theorem abort_step (e : Env) (tr : List (Nat × Ev)) (ss : List Sub) (hids : (ss.map (·.id)).Nodup) :
    AInv e tr (tr ++ (ss.filter (takesAbort e tr)).map (fun s => (s.id, Ev.abort))) := by
  have hm : (ss.filter (takesAbort e tr)).map (fun s => (s.id, Ev.abort)) =
      ((ss.filter (takesAbort e tr)).map (·.id)).map (fun i => (i, Ev.abort)) := by simp
  have key : ∀ i ∈ (ss.filter (takesAbort e tr)).map (·.id), i ∈ rpcs tr ∧ processed e i = true ∧ i ∉ aborts tr := by
    intro i hi
    obtain ⟨s, hs, rfl⟩ := List.mem_map.mp hi
    have := (List.mem_filter.mp hs).2
    simp only [takesAbort, Bool.and_eq_true, List.contains_iff_mem] at this
    refine ⟨(mem_rpcs _ _).mpr this.1.1.1, this.1.1.2, ?_⟩
    intro h
    have h' := (mem_aborts _ _).mp h
    have := this.1.2
    simp [h'] at this
  rw [hm]
  refine ⟨by rw [rpcs_append, rpcs_map]; simp, ?_, ?_⟩
  · intro i hi
    rw [aborts_append, aborts_map] at hi
    rcases List.mem_append.mp hi with hi | hi
    · exact Or.inl hi
    · exact Or.inr ⟨(key i hi).1, (key i hi).2.1⟩
  · intro hn
    rw [aborts_append, aborts_map]
    refine List.nodup_append.mpr ⟨hn, ?_, ?_⟩
    · exact List.Nodup.sublist (List.Sublist.map _ List.filter_sublist) hids
    · intro a ha b hb hab
      subst hab
      exact (key a hb).2.2 ha

theorem abortLoop_inv (e : Env) (subs : List Sub) (ep ec : Nat) (hids : (subs.map (·.id)).Nodup) :
    ∀ (fuel k cur : Nat) (tr : List (Nat × Ev)), AInv e tr (abortLoop e subs ep ec fuel k cur tr) := by
  intro fuel
  induction fuel with
  | zero => intro k cur tr; exact AInv.refl e tr
  | succ fuel ih =>
    intro k cur tr
    unfold abortLoop
    cases hn : next e k cur subs with
    | none => exact AInv.refl e tr
    | some y =>
      obtain ⟨p, ss⟩ := y
      have hss : (ss.map (·.id)).Nodup := by
        rw [(next_some hn).2.1]
        exact List.Nodup.sublist (List.Sublist.map _ List.filter_sublist) hids
      have h1 := abort_step e tr ss hss
      simp only []
      generalize (if p = ep then (ss.length + W - ec) % W else ss.length) = cnt
      split
      · exact AInv.refl e tr
      · split
        · exact h1
        · split
          · exact h1
          · exact h1.trans (ih _ _ _)

theorem abort_inv (e : Env) (subs : List Sub) (k ep ec : Nat) (hids : (subs.map (·.id)).Nodup) (tr : List (Nat × Ev)) :
    AInv e tr (abort e subs k ep ec tr) := by
  unfold abort
  cases scanMax (e.view k) subs none with
  | none => exact AInv.refl e tr
  | some m => exact abortLoop_inv e subs ep ec hids _ _ _ tr

theorem rpcs_lateAborts (e : Env) (tr : List (Nat × Ev)) : rpcs (lateAborts e tr) = [] := by
  have : lateAborts e tr = ((tr.filter (fun x => x.2 == Ev.rpc && e.reply x.1 == .timeout true)).map (·.1)).map (fun i => (i, Ev.abort)) := by
    simp [lateAborts]
  rw [this, rpcs_map]

theorem aborts_lateAborts (e : Env) (tr : List (Nat × Ev)) :
    aborts (lateAborts e tr) = (rpcs tr).filter (fun i => e.reply i == .timeout true) := by
  have : lateAborts e tr = ((tr.filter (fun x => x.2 == Ev.rpc && e.reply x.1 == .timeout true)).map (·.1)).map (fun i => (i, Ev.abort)) := by
    simp [lateAborts]
  rw [this, aborts_map]
  induction tr with
  | nil => rfl
  | cons x tr ih =>
    obtain ⟨i, ev⟩ := x
    have ih' := ih (by simp [lateAborts])
    cases ev with
    | rpc =>
      by_cases h : e.reply i = .timeout true
      · simp [rpcs, h] at ih' ⊢; exact ih'
      · simp [rpcs, h] at ih' ⊢; exact ih'
    | abort => simp [rpcs] at ih' ⊢; exact ih'

theorem Ordered.nodup {subs : List Sub} {ids : List Nat} (h : Ordered subs ids) (hids : (subs.map (·.id)).Nodup) : ids.Nodup := by
  obtain ⟨L, h1, h2, rfl⟩ := h
  rw [List.nodup_iff_pairwise_ne, List.pairwise_map]
  refine List.Pairwise.imp_of_mem ?_ h2
  intro a b ha hb hgt heq
  have hinj : ∀ (l : List Sub), (l.map (·.id)).Nodup → a ∈ l → b ∈ l → a = b := by
    intro l
    induction l with
    | nil => intro _ h; simp at h
    | cons c l ih =>
      intro hn hac hbc
      simp only [List.map_cons, List.nodup_cons] at hn
      rcases List.mem_cons.mp hac with h3 | h3
      · rcases List.mem_cons.mp hbc with h4 | h4
        · rw [h3, h4]
        · exact absurd (List.mem_map.mpr ⟨b, h4, by rw [← heq, h3]⟩) hn.1
      · rcases List.mem_cons.mp hbc with h4 | h4
        · exact absurd (List.mem_map.mpr ⟨a, h3, by rw [heq, h4]⟩) hn.1
        · exact ih hn.2 h3 h4
  have := hinj subs hids (h1 a ha) (h1 b hb)
  subst this
  exact absurd hgt (by simp)

/-! ### The exact behaviour -/

/-- What the exact theorem assumes: the subscriptions do not change during the call, `l` are the valid ones from the
highest priority, and there is no error of sysrepo itself. -/
structure Calm (e : Env) (subs l : List Sub) : Prop where
  same : ∀ k i, e.view k i = e.view 0 i
  perm : l.Perm (subs.filter (fun s => e.view 0 s.id))
  order : l.Pairwise (fun a b => a.prio > b.prio)
  ids : (l.map (·.id)).Nodup
  prio : ∀ s ∈ l, s.prio + 1 < W
  reply : ∀ s ∈ l, e.reply s.id ≠ .lost ∧ e.reply s.id ≠ .bad
  abortErr : ∀ s ∈ l, e.abortErr s.id = false
  internal : ∀ s ∈ l, isInternal e s.prio = true → ∃ o, e.reply s.id = .ok o

theorem Calm.mem {e : Env} {subs l : List Sub} (h : Calm e subs l) (s : Sub) : s ∈ l ↔ s ∈ subs ∧ e.view 0 s.id = true := by
  rw [h.perm.mem_iff, List.mem_filter]

theorem Calm.next_cons {e : Env} {subs l : List Sub} (h : Calm e subs l) {done r : List Sub} {s : Sub} (hl : l = done ++ s :: r)
    (k last : Nat) (hd : ∀ d ∈ done, last ≤ d.prio) (hs : s.prio < last) : next e k last subs = some (s.prio, [s]) := by
  have hf := next_spec e k last subs
  have hv : e.view k = e.view 0 := funext (h.same k)
  have hsl := (h.mem s).mp (by rw [hl]; simp)
  have ho := h.order
  rw [hl] at ho
  have ho2 := List.pairwise_append.mp ho
  have hr := List.pairwise_cons.mp ho2.2.1
  cases hn : next e k last subs with
  | none =>
    rw [hn, hv] at hf
    exact absurd ⟨hsl.2, hs⟩ (hf s hsl.1)
  | some y =>
    obtain ⟨p, ss⟩ := y
    rw [hn, hv] at hf
    obtain ⟨hne, hss, hp, hle⟩ := hf
    have hps : p = s.prio := by
      have h1 := hle s hsl.1 hsl.2 hs
      obtain ⟨x, xs, hx⟩ := List.exists_cons_of_ne_nil hne
      have hx' : x ∈ ss := by rw [hx]; simp
      rw [hss] at hx'
      simp only [List.mem_filter, Bool.and_eq_true, beq_iff_eq] at hx'
      have hxl := (h.mem x).mpr ⟨hx'.1, hx'.2.1⟩
      rw [hl] at hxl
      rcases List.mem_append.mp hxl with hxl | hxl
      · have := hd x hxl; omega
      · rcases List.mem_cons.mp hxl with rfl | hxl
        · exact hx'.2.2.symm
        · have := hr.1 x hxl; omega
    subst hps
    have h2 : ss.Perm (l.filter (fun x => x.prio == s.prio)) := by
      rw [hss]
      have : subs.filter (fun x => e.view 0 x.id && x.prio == s.prio) =
          (subs.filter (fun x => e.view 0 x.id)).filter (fun x => x.prio == s.prio) := by
        rw [List.filter_filter]
        congr 1; funext x; exact Bool.and_comm _ _
      rw [this]
      exact (h.perm.filter _).symm
    have h3 : l.filter (fun x => x.prio == s.prio) = [s] := by
      rw [hl, List.filter_append]
      have d0 : done.filter (fun x => x.prio == s.prio) = [] := by
        rw [List.filter_eq_nil_iff]
        intro x hx hc
        simp only [beq_iff_eq] at hc
        have := hd x hx; omega
      have r0 : r.filter (fun x => x.prio == s.prio) = [] := by
        rw [List.filter_eq_nil_iff]
        intro x hx hc
        simp only [beq_iff_eq] at hc
        have := hr.1 x hx; omega
      rw [d0, List.filter_cons]
      simp [r0]
    rw [h3] at h2
    rw [List.perm_singleton.mp h2]

theorem Calm.next_nil {e : Env} {subs l : List Sub} (h : Calm e subs l) (k last : Nat) (hd : ∀ d ∈ l, last ≤ d.prio) :
    next e k last subs = none := by
  have hf := next_spec e k last subs
  have hv : e.view k = e.view 0 := funext (h.same k)
  cases hn : next e k last subs with
  | none => rfl
  | some y =>
    obtain ⟨p, ss⟩ := y
    rw [hn, hv] at hf
    obtain ⟨hne, hss, hp, hle⟩ := hf
    obtain ⟨x, xs, hx⟩ := List.exists_cons_of_ne_nil hne
    have hx' : x ∈ ss := by rw [hx]; simp
    rw [hss] at hx'
    simp only [List.mem_filter, Bool.and_eq_true, beq_iff_eq] at hx'
    have := hd x ((h.mem x).mpr ⟨hx'.1, hx'.2.1⟩)
    omega

theorem Calm.max {e : Env} {subs l : List Sub} (h : Calm e subs l) (k : Nat) : scanMax (e.view k) subs none = l.head?.map (·.prio) := by
  have hv : e.view k = e.view 0 := funext (h.same k)
  rw [hv]
  obtain ⟨h1, h2⟩ := scanMax_spec (e.view 0) subs [] none (by simp) (by simp)
  simp only [List.nil_append] at h1 h2
  cases hm : scanMax (e.view 0) subs none with
  | none =>
    cases l with
    | nil => rfl
    | cons s r =>
      have := (h.mem s).mp (by simp)
      have h3 := h1 hm s this.1
      rw [this.2] at h3; cases h3
  | some m =>
    obtain ⟨⟨x, hx, hxv, hxp⟩, hle⟩ := h2 m hm
    have hxl := (h.mem x).mpr ⟨hx, hxv⟩
    cases l with
    | nil => simp at hxl
    | cons s r =>
      have hs := (h.mem s).mp (by simp)
      have h3 := hle s hs.1 hs.2
      rcases List.mem_cons.mp hxl with rfl | hxl
      · simp [hxp]
      · have := (List.pairwise_cons.mp h.order).1 x hxl
        omega

/-- What the RPC part leaves. -/
structure Left (e : Env) (rest : List Sub) (tr : List (Nat × Ev)) (out : Option Nat) (o : Out) : Prop where
  locked : o.locked = false
  good : o.err = none → (∀ s ∈ rest, ∃ x, e.reply s.id = .ok x) ∧ o.trace = tr ++ rest.map (fun s => (s.id, Ev.rpc)) ∧
    o.res = .success (rest.foldl (fun acc s => match e.reply s.id with | .ok x => some x | _ => acc) out)
  bad : ∀ p c, o.err = some (p, c) → c = 1 ∧ o.res = .failed ∧ ∃ mid x r', rest = mid ++ x :: r' ∧ p = x.prio ∧
    (∀ s ∈ mid, ∃ y, e.reply s.id = .ok y) ∧ (e.reply x.id = .fail ∨ ∃ b, e.reply x.id = .timeout b) ∧ isInternal e x.prio = false ∧
    o.trace = tr ++ (mid ++ [x]).map (fun s => (s.id, Ev.rpc))

theorem Left.cons {e : Env} {s : Sub} {rest : List Sub} {tr : List (Nat × Ev)} {out : Option Nat} {o : Out} {x : Nat} (hr : e.reply s.id = .ok x)
    (h : Left e rest (tr ++ [(s.id, .rpc)]) (some x) o) : Left e (s :: rest) tr out o := by
  refine ⟨h.locked, ?_, ?_⟩
  · intro h0
    obtain ⟨h1, h2, h3⟩ := h.good h0
    refine ⟨?_, by rw [h2]; simp, by rw [h3]; simp [hr]⟩
    intro t ht
    rcases List.mem_cons.mp ht with rfl | ht
    · exact ⟨x, hr⟩
    · exact h1 t ht
  · intro p c h0
    obtain ⟨hc, hres, mid, y, r', h1, h2, h3, h4, hni, h5⟩ := h.bad p c h0
    refine ⟨hc, hres, s :: mid, y, r', by rw [h1]; rfl, h2, ?_, h4, hni, by rw [h5]; simp⟩
    intro t ht
    rcases List.mem_cons.mp ht with rfl | ht
    · exact ⟨x, hr⟩
    · exact h3 t ht

theorem Left.stop {e : Env} {s : Sub} {rest : List Sub} {tr : List (Nat × Ev)} {out : Option Nat} (k : Nat) (hi : isInternal e s.prio = false)
    (hr : e.reply s.id = .fail ∨ ∃ b, e.reply s.id = .timeout b) :
    Left e (s :: rest) tr out ⟨.failed, tr ++ [(s.id, .rpc)], k, some (s.prio, 1), false⟩ := by
  refine ⟨rfl, by simp, ?_⟩
  intro p c h
  simp only [Option.some.injEq, Prod.mk.injEq] at h
  exact ⟨h.2.symm, rfl, [], s, rest, rfl, h.1.symm, by simp, hr, hi, by simp⟩

theorem Calm.main {e : Env} {subs l : List Sub} (h : Calm e subs l) : ∀ (r : List Sub) (s : Sub) (done : List Sub) (fuel k : Nat)
    (tr : List (Nat × Ev)) (out : Option Nat), l = done ++ s :: r → r.length < fuel →
    ∃ o, mainLoop e subs fuel k s.prio [s] tr = some o ∧ Left e (s :: r) tr out o := by
  intro r
  induction r with
  | nil =>
    intro s done fuel k tr out hl hf
    obtain ⟨f, rfl⟩ : ∃ f, fuel = f + 1 := ⟨fuel - 1, by omega⟩
    have hn : next e k s.prio subs = none := by
      refine h.next_nil k _ ?_
      intro d hd
      rw [hl] at hd
      have ho := h.order
      rw [hl] at ho
      have := (List.pairwise_append.mp ho).2.2
      rcases List.mem_append.mp hd with hd | hd
      · have := this d hd s (by simp); omega
      · simp at hd; subst hd; exact Nat.le_refl _
    have hsl : s ∈ l := by rw [hl]; simp
    have hok : ∀ x, e.reply s.id = .ok x → Left e [s] tr out ⟨.success (some x), tr ++ [(s.id, .rpc)], k + 1, none, false⟩ := by
      intro x hr
      refine ⟨rfl, ?_, by simp⟩
      intro _
      exact ⟨by simpa using ⟨x, hr⟩, by simp, by simp [hr]⟩
    unfold mainLoop
    simp only [hn]
    by_cases hi : isInternal e s.prio = true
    · obtain ⟨x, hx⟩ := h.internal s hsl hi
      rw [if_pos hi, hx]
      exact ⟨_, rfl, hok x hx⟩
    · rw [if_neg hi]
      have hi' : isInternal e s.prio = false := by simpa using hi
      have hb := h.reply s hsl
      cases hr : e.reply s.id with
      | ok x => exact ⟨_, rfl, hok x hr⟩
      | fail => exact ⟨_, rfl, Left.stop k hi' (Or.inl hr)⟩
      | timeout b => exact ⟨_, rfl, Left.stop k hi' (Or.inr ⟨b, hr⟩)⟩
      | lost => exact absurd hr hb.1
      | bad => exact absurd hr hb.2
  | cons t r ih =>
    intro s done fuel k tr out hl hf
    obtain ⟨f, rfl⟩ : ∃ f, fuel = f + 1 := ⟨fuel - 1, by omega⟩
    have hl' : l = (done ++ [s]) ++ t :: r := by rw [hl]; simp
    have ho := h.order
    rw [hl] at ho
    have ho2 := List.pairwise_append.mp ho
    have hst := (List.pairwise_cons.mp ho2.2.1).1 t (by simp)
    have hn : next e k s.prio subs = some (t.prio, [t]) := by
      refine h.next_cons hl' k _ ?_ hst
      intro d hd
      rcases List.mem_append.mp hd with hd | hd
      · have := ho2.2.2 d hd s (by simp); omega
      · simp at hd; subst hd; exact Nat.le_refl _
    have hsl : s ∈ l := by rw [hl]; simp
    simp only [List.length_cons] at hf
    have hok : ∀ x, e.reply s.id = .ok x → ∃ o, mainLoop e subs f (k + 1) t.prio [t] (tr ++ [(s.id, .rpc)]) = some o ∧ Left e (s :: t :: r) tr out o := by
      intro x hr
      obtain ⟨o, h1, h2⟩ := ih t (done ++ [s]) f (k + 1) (tr ++ [(s.id, .rpc)]) (some x) hl' (by omega)
      exact ⟨o, h1, h2.cons hr⟩
    unfold mainLoop
    simp only [hn]
    by_cases hi : isInternal e s.prio = true
    · obtain ⟨x, hx⟩ := h.internal s hsl hi
      rw [if_pos hi, hx]
      exact hok x hx
    · rw [if_neg hi]
      have hi' : isInternal e s.prio = false := by simpa using hi
      have hb := h.reply s hsl
      cases hr : e.reply s.id with
      | ok x => exact hok x hr
      | fail => exact ⟨_, rfl, Left.stop k hi' (Or.inl hr)⟩
      | timeout b => exact ⟨_, rfl, Left.stop k hi' (Or.inr ⟨b, hr⟩)⟩
      | lost => exact absurd hr hb.1
      | bad => exact absurd hr hb.2

theorem Calm.first {e : Env} {subs l : List Sub} (h : Calm e subs l) : ∀ (rest done : List Sub) (fuel k cur : Nat)
    (tr : List (Nat × Ev)) (out : Option Nat), l = done ++ rest → rest.length < fuel → (∀ d ∈ done, (cur + 1) % W ≤ d.prio) →
    (∀ d ∈ rest, d.prio < (cur + 1) % W) → ∃ o, firstSub e subs fuel k cur out tr = some o ∧ Left e rest tr out o := by
  intro rest
  induction rest with
  | nil =>
    intro done fuel k cur tr out hl hf hd _
    obtain ⟨f, rfl⟩ : ∃ f, fuel = f + 1 := ⟨fuel - 1, by omega⟩
    have hn : next e k ((cur + 1) % W) subs = none := h.next_nil k _ (by rw [hl]; simpa using hd)
    unfold firstSub
    rw [hn]
    exact ⟨_, rfl, rfl, by simp, by simp⟩
  | cons s r ih =>
    intro done fuel k cur tr out hl hf hd hlt
    obtain ⟨f, rfl⟩ : ∃ f, fuel = f + 1 := ⟨fuel - 1, by omega⟩
    have hn : next e k ((cur + 1) % W) subs = some (s.prio, [s]) := h.next_cons hl k _ hd (hlt s (by simp))
    simp only [List.length_cons] at hf
    have hsl : s ∈ l := by rw [hl]; simp
    have ho := h.order
    rw [hl] at ho
    have ho2 := List.pairwise_append.mp ho
    unfold firstSub
    simp only [hn]
    by_cases hi : isInternal e s.prio = true
    · obtain ⟨x, hx⟩ := h.internal s hsl hi
      rw [if_pos hi, hx]
      have hp10 : s.prio = 10 := by simp [isInternal, intPrio] at hi; exact hi.2
      have hmod : (s.prio - 1 + 1) % W = s.prio := by rw [hp10]; decide
      obtain ⟨o, h1, h2⟩ := ih (done ++ [s]) f (k + 1) (s.prio - 1) (tr ++ [(s.id, .rpc)]) (some x) (by rw [hl]; simp) (by omega)
        (by
          rw [hmod]
          intro d hd
          rcases List.mem_append.mp hd with hd | hd
          · have := ho2.2.2 d hd s (by simp); omega
          · simp at hd; subst hd; exact Nat.le_refl _)
        (by
          rw [hmod]
          intro d hd
          exact (List.pairwise_cons.mp ho2.2.1).1 d hd)
      exact ⟨o, h1, h2.cons hx⟩
    · rw [if_neg hi]
      exact h.main r s done (f + 1) (k + 1) tr out hl (by omega)

theorem Calm.abortL {e : Env} {subs l : List Sub} (h : Calm e subs l) (x : Sub) (r' : List Sub) (hx : e.reply x.id = .fail ∨ ∃ b, e.reply x.id = .timeout b) :
    ∀ (b a : List Sub) (fuel k last : Nat) (T : List (Nat × Ev)), l = a ++ b ++ x :: r' → b.length < fuel →
    (∀ d ∈ a, last ≤ d.prio) → (∀ d ∈ b ++ [x], d.prio < last) → (∀ d ∈ b, ∃ y, e.reply d.id = .ok y) →
    (∀ d ∈ b, (d.id, Ev.rpc) ∈ T) → aborts T = [] →
    abortLoop e subs x.prio 1 fuel k last (T ++ (a.filter (fun d => !isInternal e d.prio)).map (fun d => (d.id, Ev.abort))) =
      T ++ ((a ++ b).filter (fun d => !isInternal e d.prio)).map (fun d => (d.id, Ev.abort)) := by
  intro b
  induction b with
  | nil =>
    intro a fuel k last T hl hf ha hb _ _ _
    obtain ⟨f, rfl⟩ : ∃ f, fuel = f + 1 := ⟨fuel - 1, by omega⟩
    have hn : next e k last subs = some (x.prio, [x]) := h.next_cons (done := a) (r := r') (by rw [hl]; simp) k _ ha (hb x (by simp))
    unfold abortLoop
    rw [hn]
    simp [W]
  | cons d b ih =>
    intro a fuel k last T hl hf ha hb hok hT hab
    obtain ⟨f, rfl⟩ : ∃ f, fuel = f + 1 := ⟨fuel - 1, by omega⟩
    simp only [List.length_cons] at hf
    have hn : next e k last subs = some (d.prio, [d]) := h.next_cons (done := a) (r := b ++ x :: r') (by rw [hl]; simp) k _ ha (hb d (by simp))
    have ho := h.order
    have hl2 : l = a ++ (d :: (b ++ x :: r')) := by rw [hl]; simp
    rw [hl2] at ho
    have ho2 := List.pairwise_append.mp ho
    have ho3 := List.pairwise_cons.mp ho2.2.1
    have hdx : d.prio ≠ x.prio := by
      have := ho3.1 x (by simp); omega
    have hdl : d ∈ l := by rw [hl2]; simp
    have hids := h.ids
    rw [hl2] at hids
    simp only [List.map_append, List.map_cons] at hids
    have hida := (List.nodup_append.mp hids).2.2
    obtain ⟨y, hy⟩ := hok d (by simp)
    have htake : takesAbort e (T ++ (a.filter (fun d => !isInternal e d.prio)).map (fun d => (d.id, Ev.abort))) d = !isInternal e d.prio := by
      have h1 : (T ++ (a.filter (fun d => !isInternal e d.prio)).map (fun d => (d.id, Ev.abort))).contains (d.id, .rpc) = true := by
        simp only [List.contains_iff_mem]
        exact List.mem_append_left _ (hT d (by simp))
      have h2 : (T ++ (a.filter (fun d => !isInternal e d.prio)).map (fun d => (d.id, Ev.abort))).contains (d.id, .abort) = false := by
        rw [Bool.eq_false_iff]
        intro hc
        simp only [List.contains_iff_mem] at hc
        rcases List.mem_append.mp hc with hc | hc
        · have := (mem_aborts _ _).mpr hc
          rw [hab] at this; simp at this
        · obtain ⟨z, hz, hze⟩ := List.mem_map.mp hc
          simp only [Prod.mk.injEq, and_true] at hze
          exact hida z.id (List.mem_map.mpr ⟨z, (List.mem_filter.mp hz).1, rfl⟩) d.id (by simp) hze
      simp only [takesAbort, h1, h2, processed, hy]
      simp
    unfold abortLoop
    rw [hn]
    simp only [if_neg hdx, List.length_cons, List.length_nil, List.any_cons, List.any_nil, h.abortErr d hdl]
    rw [if_neg (by decide), if_neg (by decide)]
    have happ : (T ++ (a.filter (fun d => !isInternal e d.prio)).map (fun d => (d.id, Ev.abort))) ++
        ([d].filter (takesAbort e (T ++ (a.filter (fun d => !isInternal e d.prio)).map (fun d => (d.id, Ev.abort))))).map (fun d => (d.id, Ev.abort)) =
        T ++ ((a ++ [d]).filter (fun d => !isInternal e d.prio)).map (fun d => (d.id, Ev.abort)) := by
      rw [List.filter_cons, htake, List.filter_append, List.map_append, List.append_assoc]
      simp [List.filter_cons]
    rw [happ]
    have := ih (a ++ [d]) f (k + 1) d.prio T (by rw [hl]; simp) (by omega)
      (by
        intro z hz
        rcases List.mem_append.mp hz with hz | hz
        · have := ho2.2.2 z hz d (by simp); omega
        · simp at hz; subst hz; exact Nat.le_refl _)
      (by
        intro z hz
        refine ho3.1 z ?_
        rcases List.mem_append.mp hz with hz | hz
        · simp [hz]
        · simp at hz; subst hz; simp)
      (fun z hz => hok z (by simp [hz])) (fun z hz => hT z (by simp [hz])) hab
    rw [this]
    simp

theorem expected_ok (reply : Nat → Reply) (int : Sub → Bool) : ∀ (rest done : List Sub) (out : Option Nat),
    (∀ s ∈ rest, ∃ x, reply s.id = .ok x) → expected reply int done out rest =
      (.success (rest.foldl (fun acc s => match reply s.id with | .ok x => some x | _ => acc) out), rest.map (fun s => (s.id, Ev.rpc))) := by
  intro rest
  induction rest with
  | nil => intro done out _; rfl
  | cons s r ih =>
    intro done out h
    obtain ⟨x, hx⟩ := h s (by simp)
    unfold expected
    rw [hx]
    simp only []
    rw [ih _ _ (fun t ht => h t (by simp [ht]))]
    simp [hx]

theorem expected_bad (reply : Nat → Reply) (int : Sub → Bool) (x : Sub) (r' : List Sub) (hx : reply x.id = .fail ∨ ∃ b, reply x.id = .timeout b) :
    ∀ (mid done : List Sub) (out : Option Nat), (∀ s ∈ mid, ∃ x, reply s.id = .ok x) → expected reply int done out (mid ++ x :: r') =
      (.failed, (mid ++ [x]).map (fun s => (s.id, Ev.rpc)) ++ ((done ++ mid).filter (fun d => !int d)).map (fun d => (d.id, Ev.abort)) ++
        (if reply x.id = .timeout true then [(x.id, Ev.abort)] else [])) := by
  intro mid
  induction mid with
  | nil =>
    intro done out _
    rcases hx with hx | ⟨b, hx⟩
    · simp [expected, hx]
    · cases b <;> simp [expected, hx]
  | cons s r ih =>
    intro done out h
    obtain ⟨y, hy⟩ := h s (by simp)
    rw [List.cons_append]
    unfold expected
    rw [hy]
    simp only []
    rw [ih _ _ (fun t ht => h t (by simp [ht]))]
    simp

end Verif.Rpc
