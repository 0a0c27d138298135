import Verif.SnStream
/-!
C100: the notifications delivered are those of the stream that the filter lets through.
C101: replayed notifications, then `replay-completed`, then the new ones.
C102: the time from which notifications are replayed is reported.
-/
namespace Verif.SnStream

/-! ## C100 -/

/-- Filters without `not` and `true()` are true only of notifications of modules they name. -/
def positive : X → Bool
  | .tru => false
  | .path _ _ _ => true
  | .not _ => false
  | .and a b => positive a || positive b
  | .or a b => positive a && positive b

theorem named_of_positive {x : X} (h : positive x = true) : Named x := by
  induction x with
  | tru => cases h
  | path m k v =>
    intro n hn
    simp [X.eval] at hn
    simp [X.atoms, hn.1.1]
  | not a ih => cases h
  | and a b iha ihb =>
    intro n hn
    simp only [X.eval, Bool.and_eq_true] at hn
    simp only [positive, Bool.or_eq_true] at h
    simp only [X.atoms, List.mem_append]
    rcases h with h | h
    · exact Or.inl (iha h n hn.1)
    · exact Or.inr (ihb h n hn.2)
  | or a b iha ihb =>
    intro n hn
    simp only [X.eval, Bool.or_eq_true] at hn
    simp only [positive, Bool.and_eq_true] at h
    simp only [X.atoms, List.mem_append]
    rcases hn with hn | hn
    · exact Or.inl (iha h.1 n hn)
    · exact Or.inr (ihb h.2 n hn)

/-- **C100** (partial: the NETCONF stream with a filter only when the filter is true only of notifications of modules it names,
the modules at the time of the subscription, and filters that are not modified; the negations are below). A notification is
delivered exactly when it is a part of the stream and the filter is true of it. -/
theorem delivered_exact_partial {stream : Option Nat} {filter : Option X} {ctx : List Mod} {s : Sub}
    (h : subscribe stream filter ctx = some s) (hx : stream = none → ∀ x, filter = some x → Named x) {n : Notif}
    (hsys : n.mod ≠ sysrepo) (hn : InStream none ctx n) :
    delivers s n = true ↔ InStream stream ctx n ∧ Passes filter n := by
  unfold subscribe at h
  rw [Option.map_eq_some_iff] at h
  obtain ⟨ms, hm, rfl⟩ := h
  have hp : delivers ⟨ms, filter⟩ n = true ↔ ms.contains n.mod = true ∧ Passes filter n := by
    unfold Passes delivers
    cases filter with
    | none => simp
    | some x => simp
  rw [hp]
  unfold collectMods at hm
  split at hm
  · rename_i m
    split at hm
    · cases hm
      simp only [List.contains_eq_mem, List.mem_singleton, decide_eq_true_eq, InStream]
    · cases hm
  · split at hm
    · rename_i x
      cases hm
      refine ⟨fun h => ⟨hn, h.2⟩, fun h => ⟨?_, h.2⟩⟩
      have := hx rfl x rfl n (h.2 x rfl)
      simp [List.mem_eraseDups, this, hsys]
    · cases hm
      refine ⟨fun h => ⟨hn, h.2⟩, fun h => ⟨?_, h.2⟩⟩
      obtain ⟨y, hy, h1, h2, h3⟩ := hn
      simp only [List.contains_eq_mem, decide_eq_true_eq, List.mem_map, List.mem_filter, Bool.and_eq_true]
      exact ⟨y, ⟨hy, h2, h3⟩, h1⟩

/-- Two modules with notifications. -/
def ctx2 : List Mod := [⟨1, true, true⟩, ⟨2, true, true⟩, ⟨3, true, false⟩]

/-- The hypotheses are met, both sides true and both false. -/
example : ∃ s, subscribe none (some (.or (.path 1 5 none) (.and (.path 2 6 none) (.not (.path 2 6 (some 9)))))) ctx2 = some s ∧
    Named (.or (.path 1 5 none) (.and (.path 2 6 none) (.not (.path 2 6 (some 9))))) ∧
    delivers s ⟨2, 6, 8⟩ = true ∧ delivers s ⟨2, 6, 9⟩ = false ∧ InStream none ctx2 ⟨2, 6, 9⟩ :=
  ⟨_, rfl, named_of_positive rfl, by decide +kernel, by decide +kernel, ⟨_, List.mem_cons_of_mem _ (List.mem_cons_self ..), rfl, rfl, rfl⟩⟩

/-- **C100 does not hold of the code**: a subscription of the NETCONF stream with the filter `not(/a:n)` does not get the
notifications of other modules than `a`, of all of which the filter is true. -/
theorem negated_filter_missed (a k : Nat) (ctx : List Mod) (n : Notif) (h : n.mod ≠ a) :
    ∃ s, subscribe none (some (.not (.path a k none))) ctx = some s ∧ Passes (some (.not (.path a k none))) n ∧ delivers s n = false := by
  refine ⟨_, rfl, ?_, ?_⟩
  · intro x hx
    cases hx
    simp [X.eval, h]
  · simp [delivers, X.atoms, List.mem_eraseDups, h]

/-- **C100 does not hold of the code**: with a filter that names no module, `true()`, it gets nothing, not even a sysrepo
subscription is made. -/
theorem constant_filter_nothing (ctx : List Mod) : ∃ s, subscribe none (some .tru) ctx = some s ∧ s.mods = [] ∧
    ∀ n, Passes (some .tru) n ∧ delivers s n = false := by
  refine ⟨_, rfl, by simp [X.atoms], ?_⟩
  intro n
  exact ⟨by intro x hx; cases hx; rfl, by simp [delivers, X.atoms]⟩

/-- **C100 does not hold of the code**: when the filter of a subscription of the NETCONF stream is modified, or removed, the
modules subscribed to stay those of the first filter. -/
theorem modified_filter_missed (a b k : Nat) (ctx : List Mod) (n : Notif) (h : a ≠ b) (hn : n = ⟨b, k, 0⟩) :
    ∃ s, subscribe none (some (.path a k none)) ctx = some s ∧
      Passes (some (.path b k none)) n ∧ delivers (modify s (some (.path b k none))) n = false ∧ delivers (modify s none) n = false := by
  subst hn
  refine ⟨_, rfl, ?_, ?_, ?_⟩
  · intro x hx
    cases hx
    simp [X.eval]
  · simp [delivers, modify, X.atoms, List.mem_eraseDups, Ne.symm h]
  · simp [delivers, modify, X.atoms, List.mem_eraseDups, Ne.symm h]

/-- **C100 does not hold of the code**: a subscription of the NETCONF stream does not get the notifications of modules
installed after it was made. -/
theorem later_module_missed : ∃ s, subscribe none none ctx2 = some s ∧
    InStream none (⟨4, true, true⟩ :: ctx2) ⟨4, 1, 0⟩ ∧ delivers s ⟨4, 1, 0⟩ = false :=
  ⟨_, rfl, ⟨_, List.mem_cons_self .., rfl, rfl, rfl⟩, by decide +kernel⟩

/-! ## C101 -/

/-- What is known after some calls. -/
structure RInv (k : Nat) (evs : List Ev) (s : RSt) : Prop where
  cnt : s.count = k
  com : s.complete = (completes evs).length
  part : (completes evs).length < k → s.out = (replays evs).map .notif ∧ s.buf = realtimes evs
  full : (completes evs).length = k → s.out = (replays evs).map .notif ++ .replayCompleted :: (realtimes evs).map .notif

theorem completes_append (a b : List Ev) : completes (a ++ b) = completes a ++ completes b := by simp [completes]
theorem replays_append (a b : List Ev) : replays (a ++ b) = replays a ++ replays b := by simp [replays]
theorem realtimes_append (a b : List Ev) : realtimes (a ++ b) = realtimes a ++ realtimes b := by simp [realtimes]

theorem valid_append {k : Nat} {a b : List Ev} (h : Valid k (a ++ b)) : Valid k a ∧ Valid k b := by
  induction a with
  | nil => exact ⟨trivial, h⟩
  | cons e a ih =>
    simp only [List.cons_append, Valid] at h ⊢
    obtain ⟨h1, h2⟩ := h
    refine ⟨⟨?_, (ih h2).1⟩, (ih h2).2⟩
    cases e with
    | complete j =>
      simp only [completes_append, List.mem_append, not_or] at h1 ⊢
      exact ⟨h1.1, h1.2.1.1, fun m => (h1.2.2 m).1⟩
    | replay j m => exact h1
    | realtime j m => exact h1

theorem mem_completes {evs : List Ev} {j : Nat} : j ∈ completes evs ↔ .complete j ∈ evs := by
  unfold completes
  rw [List.mem_filterMap]
  constructor
  · rintro ⟨e, he, h⟩
    cases e <;> simp at h
    subst h; exact he
  · intro h; exact ⟨_, h, rfl⟩

theorem completes_nodup {k : Nat} {evs : List Ev} (h : Valid k evs) : (completes evs).Nodup ∧ ∀ j ∈ completes evs, j < k := by
  induction evs with
  | nil => exact ⟨by simp [completes], by simp [completes]⟩
  | cons e evs ih =>
    simp only [Valid] at h
    obtain ⟨h1, h2⟩ := h
    have := ih h2
    cases e with
    | complete j =>
      have e1 : completes (.complete j :: evs) = j :: completes evs := rfl
      rw [e1]
      refine ⟨List.nodup_cons.2 ⟨h1.2.1, this.1⟩, ?_⟩
      intro x hx
      rcases List.mem_cons.1 hx with rfl | hx
      · exact h1.1
      · exact this.2 x hx
    | replay j m => exact this
    | realtime j m => exact this

theorem nodup_subset_length {l m : List Nat} (h : l.Nodup) (hs : ∀ x ∈ l, x ∈ m) : l.length ≤ m.length := by
  induction l generalizing m with
  | nil => simp
  | cons a l ih =>
    rw [List.nodup_cons] at h
    have ha := hs a (by simp)
    have := ih (m := m.erase a) h.2 (fun x hx => by
      have hne : x ≠ a := fun e => h.1 (e ▸ hx)
      exact (List.mem_erase_of_ne hne).2 (hs x (by simp [hx])))
    rw [List.length_erase_of_mem ha] at this
    have hp : 0 < m.length := List.length_pos_of_mem ha
    simp only [List.length_cons]
    omega

theorem length_le_of_nodup {k : Nat} {l : List Nat} (h : l.Nodup) (hk : ∀ j ∈ l, j < k) : l.length ≤ k := by
  have := nodup_subset_length h (fun j hj => List.mem_range.2 (hk j hj))
  simpa using this

theorem replay_means_incomplete {k : Nat} {evs : List Ev} {j m : Nat} (h : Valid k (evs ++ [.replay j m])) :
    j < k ∧ j ∉ completes evs := by
  induction evs with
  | nil => simp only [List.nil_append, Valid] at h; exact ⟨h.1, by simp [completes]⟩
  | cons e evs ih =>
    simp only [List.cons_append, Valid] at h
    obtain ⟨h1, h2⟩ := h
    have := ih h2
    refine ⟨this.1, ?_⟩
    cases e with
    | complete i =>
      have e1 : completes (.complete i :: evs) = i :: completes evs := rfl
      rw [e1, List.mem_cons, not_or]
      refine ⟨?_, this.2⟩
      intro he
      subst he
      exact h1.2.2 m (by simp)
    | replay i x => exact this.2
    | realtime i x => exact this.2

theorem incomplete_lt {k j : Nat} {l : List Nat} (h : l.Nodup) (hk : ∀ j ∈ l, j < k) (hj : j < k) (hn : j ∉ l) : l.length < k := by
  have := length_le_of_nodup (k := k) (l := j :: l) (List.nodup_cons.2 ⟨hn, h⟩)
    (by intro x hx; rcases List.mem_cons.1 hx with rfl | hx; exact hj; exact hk x hx)
  rw [List.length_cons] at this
  omega

theorem rinv_run {k : Nat} (hk : 0 < k) (evs : List Ev) (h : Valid k evs) : RInv k evs (runCb (start k true) evs) := by
  induction hl : evs.length generalizing evs with
  | zero =>
    have := List.eq_nil_of_length_eq_zero hl
    subst this
    exact ⟨rfl, rfl, fun _ => ⟨rfl, rfl⟩, fun h0 => by simp [completes] at h0; omega⟩
  | succ n ih =>
    obtain ⟨evs', e, rfl⟩ : ∃ a e, evs = a ++ [e] := by
      have hne : evs ≠ [] := by intro h0; subst h0; simp at hl
      exact ⟨evs.dropLast, evs.getLast hne, (List.dropLast_concat_getLast hne).symm⟩
    have hv := valid_append h
    have hi := ih evs' hv.1 (by simpa using hl)
    have hrun : runCb (start k true) (evs' ++ [e]) = cb (runCb (start k true) evs') e := by simp [runCb]
    rw [hrun]
    generalize runCb (start k true) evs' = s at hi
    have hnd := completes_nodup hv.1
    have hle := length_le_of_nodup hnd.1 hnd.2
    cases e with
    | complete j =>
      have e1 : completes (evs' ++ [.complete j]) = completes evs' ++ [j] := by rw [completes_append]; rfl
      have e2 : replays (evs' ++ [.complete j]) = replays evs' := by rw [replays_append]; simp [replays]
      have e3 : realtimes (evs' ++ [.complete j]) = realtimes evs' := by rw [realtimes_append]; simp [realtimes]
      have hnd' := completes_nodup h
      have hle' := length_le_of_nodup hnd'.1 hnd'.2
      rw [e1, List.length_append, List.length_singleton] at hle'
      have hp := hi.part (by omega)
      simp only [cb]
      split
      · rename_i hlt
        rw [hi.cnt, hi.com] at hlt
        refine ⟨hi.cnt, by simp [e1, hi.com], ?_, ?_⟩
        · intro _; rw [e2, e3]; exact hp
        · intro h0; rw [e1, List.length_append, List.length_singleton] at h0; omega
      · rename_i hge
        rw [hi.cnt, hi.com] at hge
        refine ⟨hi.cnt, by simp [e1, hi.com], ?_, ?_⟩
        · intro h0; rw [e1, List.length_append, List.length_singleton] at h0; omega
        · intro _; rw [e2, e3]; simp only [hp.1, hp.2]
    | replay j m =>
      have e1 : completes (evs' ++ [.replay j m]) = completes evs' := by rw [completes_append]; simp [completes]
      have e2 : replays (evs' ++ [.replay j m]) = replays evs' ++ [m] := by rw [replays_append]; rfl
      have e3 : realtimes (evs' ++ [.replay j m]) = realtimes evs' := by rw [realtimes_append]; simp [realtimes]
      have hin := replay_means_incomplete h
      have hlt := incomplete_lt hnd.1 hnd.2 hin.1 hin.2
      have hp := hi.part hlt
      simp only [cb]
      refine ⟨hi.cnt, by rw [e1]; exact hi.com, ?_, ?_⟩
      · intro _; rw [e2, e3]; simp [hp.1, hp.2]
      · intro h0; rw [e1] at h0; omega
    | realtime j m =>
      have e1 : completes (evs' ++ [.realtime j m]) = completes evs' := by rw [completes_append]; simp [completes]
      have e2 : replays (evs' ++ [.realtime j m]) = replays evs' := by rw [replays_append]; simp [replays]
      have e3 : realtimes (evs' ++ [.realtime j m]) = realtimes evs' ++ [m] := by rw [realtimes_append]; rfl
      simp only [cb]
      split
      · rename_i hlt
        rw [hi.cnt, hi.com] at hlt
        have hp := hi.part hlt
        refine ⟨hi.cnt, by rw [e1]; exact hi.com, ?_, ?_⟩
        · intro _; rw [e2, e3]; exact ⟨hp.1, by simp [hp.2]⟩
        · intro h0; rw [e1] at h0; omega
      · rename_i hge
        rw [hi.cnt, hi.com] at hge
        have hp := hi.full (by omega)
        refine ⟨hi.cnt, by rw [e1]; exact hi.com, ?_, ?_⟩
        · intro h0; rw [e1] at h0; omega
        · intro _; rw [e2, e3]; simp [hp]

/-- **C101.** A subscription with a start time, of any number of modules: until the replay of all of them is complete, exactly the
replayed notifications are sent, in their order, and nothing else. -/
theorem replay_first {k : Nat} (hk : 0 < k) {evs : List Ev} (h : Valid k evs) (hc : ∃ j, j < k ∧ .complete j ∉ evs) :
    (runCb (start k true) evs).out = (replays evs).map .notif := by
  have hi := rinv_run hk evs h
  obtain ⟨j, hj, hn⟩ := hc
  have hnd := completes_nodup h
  exact (hi.part (incomplete_lt hnd.1 hnd.2 hj (by rwa [mem_completes]))).1

/-- **C101.** Once the replay of all the modules is complete, all the replayed notifications were sent, then one
`replay-completed`, then all the new ones, those that came during the replay included, in their order. -/
theorem replay_then_new {k : Nat} (hk : 0 < k) {evs : List Ev} (h : Valid k evs) (hc : ∀ j, j < k → .complete j ∈ evs) :
    (runCb (start k true) evs).out = (replays evs).map .notif ++ .replayCompleted :: (realtimes evs).map .notif := by
  have hi := rinv_run hk evs h
  have hnd := completes_nodup h
  have hle := length_le_of_nodup hnd.1 hnd.2
  apply hi.full
  have : (List.range k).length ≤ (completes evs).length := by
    apply nodup_subset_length List.nodup_range
    intro j hj
    rw [mem_completes]
    exact hc j (List.mem_range.1 hj)
  rw [List.length_range] at this
  omega

/-- **C101.** Without a start time all the new notifications are sent, in their order, and nothing else. -/
theorem new_only (k : Nat) (evs : List Ev) (h : ∀ e ∈ evs, ∃ j m, e = .realtime j m) :
    (runCb (start k false) evs).out = (realtimes evs).map .notif := by
  have key : ∀ (s : RSt), s.count ≤ s.complete → (runCb s evs).out = s.out ++ (realtimes evs).map .notif := by
    induction evs with
    | nil => intro s _; simp [runCb, realtimes]
    | cons e evs ih =>
      intro s hs
      obtain ⟨j, m, rfl⟩ := h e (by simp)
      have e1 : runCb s (.realtime j m :: evs) = runCb (cb s (.realtime j m)) evs := rfl
      rw [e1]
      have e2 : cb s (.realtime j m) = { s with out := s.out ++ [.notif m] } := by
        simp only [cb]; rw [if_neg (by omega)]
      rw [e2, ih (fun x hx => h x (List.mem_cons_of_mem _ hx)) { s with out := s.out ++ [.notif m] } hs]
      simp [realtimes]
  have := key (start k false) (by simp [start])
  simpa [start] using this

/-- The hypotheses are met: two modules, new notifications before, between and after the completions. -/
def evs2 : List Ev := [.replay 0 1, .realtime 1 8, .complete 0, .realtime 0 9, .replay 1 2, .complete 1, .realtime 0 10]

example : Valid 2 evs2 ∧ (∀ j, j < 2 → Ev.complete j ∈ evs2) := by
  refine ⟨?_, by decide⟩
  simp [evs2, Valid, completes]

example : (runCb (start 2 true) evs2).out = [.notif 1, .notif 2, .replayCompleted, .notif 8, .notif 9, .notif 10] := rfl

/-! ## C102 -/

/-- **C102 does not hold of the code**: the time returned is zero whatever the start time and the stored notifications are,
because the earliest time is looked for beginning with zero. -/
theorem replay_start_never (start : Option Ts) (earliest : List Ts) : replayStart start earliest = ⟨0, 0⟩ := by
  have key : ∀ l : List Ts, l.foldl (fun r t => if r.gt t then t else r) (⟨0, 0⟩ : Ts) = ⟨0, 0⟩ := by
    intro l
    induction l with
    | nil => rfl
    | cons t l ih =>
      rw [List.foldl_cons, if_neg]
      · exact ih
      · simp [Ts.gt]
  unfold replayStart
  rw [key]
  cases start with
  | none => rfl
  | some st => simp

/-- A subscription from the time 5 when the only stored notification is of the time 10: what RFC 8639 wants reported is 10. -/
example : replayStart (some ⟨5, 0⟩) [⟨10, 0⟩] ≠ ⟨10, 0⟩ := by decide

end Verif.SnStream
