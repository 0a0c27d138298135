import Verif.RpcLemmas

/-!
# Executing an RPC or action: properties (C27)

An RPC or action is delivered to its subscribers from the highest priority, the caller gets the output of the
last one, and after a failure every subscriber that succeeded before, and only those, are called with the
abort event.
-/

namespace Verif.Rpc

/-- C27: every call ends with a result, however the subscriptions and the callbacks behave. -/
theorem always_ends (e : Env) (subs : List Sub) : ∃ o, send e subs = some o := by
  have hn : ∃ o, notify e subs = some o := by
    unfold notify
    cases scanMax (e.view 0) subs none with
    | none => exact ⟨_, rfl⟩
    | some m => exact firstSub_some e subs _ _ _ _ _ (Nat.lt_succ_of_le (lower_le _ _))
  obtain ⟨o, ho⟩ := hn
  unfold send
  rw [ho]
  simp only []
  cases o.err with
  | none => exact ⟨_, rfl⟩
  | some y => exact ⟨_, rfl⟩

/-- C27: the subscribers are called with the RPC event from the highest priority to the lowest, each at most
once, whichever connections die and subscriptions are suspended meanwhile and whatever the callbacks return. -/
theorem called_by_priority (e : Env) (subs : List Sub) (o : Out) (h : send e subs = some o) :
    ∃ L : List Sub, (∀ s ∈ L, s ∈ subs) ∧ L.Pairwise (fun a b => a.prio > b.prio) ∧
      (o.trace.filter (fun x => x.2 == Ev.rpc)).map (·.1) = L.map (·.id) := by
  unfold send at h
  cases hn : notify e subs with
  | none => rw [hn] at h; cases h
  | some o' =>
    rw [hn] at h
    have hi := notify_inv e subs o' hn
    have hgen : ∀ ids, ids = rpcs o'.trace → ∃ L : List Sub, (∀ s ∈ L, s ∈ subs) ∧ L.Pairwise (fun a b => a.prio > b.prio) ∧ ids = L.map (·.id) := by
      rintro ids rfl; exact hi.ord
    apply hgen
    show rpcs o.trace = _
    cases he : o'.err with
    | none =>
      simp only [he, Option.some.injEq] at h
      rw [← h]
    | some y =>
      obtain ⟨p, c⟩ := y
      simp only [he, Option.some.injEq] at h
      rw [← h]
      show rpcs (_ ++ _) = _
      rw [rpcs_append, rpcs_lateAborts, List.append_nil]
      unfold abort
      cases scanMax (e.view o'.scans) subs none with
      | none => rfl
      | some m =>
        -- the abort loop adds abort events only
        have : ∀ (fuel k cur : Nat) (tr : List (Nat × Ev)), rpcs (abortLoop e subs p c fuel k cur tr) = rpcs tr := by
          intro fuel
          induction fuel with
          | zero => intro k cur tr; rfl
          | succ fuel ih =>
            intro k cur tr
            unfold abortLoop
            cases next e k cur subs with
            | none => rfl
            | some z =>
              obtain ⟨q, ss⟩ := z
              have hr : rpcs (tr ++ (ss.filter (takesAbort e tr)).map (fun s => (s.id, Ev.abort))) = rpcs tr := by
                have hm : (ss.filter (takesAbort e tr)).map (fun s => (s.id, Ev.abort)) =
                    ((ss.filter (takesAbort e tr)).map (·.id)).map (fun i => (i, Ev.abort)) := by simp
                rw [hm, rpcs_append, rpcs_map, List.append_nil]
              simp only []
              generalize (if q = p then (ss.length + W - c) % W else ss.length) = cnt
              split
              · rfl
              · split
                · exact hr
                · split
                  · exact hr
                  · rw [ih, hr]
        exact this _ _ _ _

/-- C27: only a subscriber that was called with the RPC event gets the abort event, and at most once; one whose
callback failed, or never returned success, does not. Whatever happens to the connections and
subscriptions meanwhile. -/
theorem only_called_aborted (e : Env) (subs : List Sub) (hids : (subs.map (·.id)).Nodup) (o : Out) (h : send e subs = some o) :
    o.trace.Nodup ∧ ∀ i, (i, Ev.abort) ∈ o.trace → (i, Ev.rpc) ∈ o.trace ∧ e.reply i ≠ .fail ∧ e.reply i ≠ .timeout false := by
  have split : ∀ tr : List (Nat × Ev), (rpcs tr).Nodup → (aborts tr).Nodup → tr.Nodup := by
    intro tr
    induction tr with
    | nil => intro _ _; exact List.nodup_nil
    | cons x tr ih =>
      obtain ⟨i, ev⟩ := x
      intro h1 h2
      cases ev with
      | rpc =>
        have e1 : rpcs ((i, Ev.rpc) :: tr) = i :: rpcs tr := rfl
        have e2 : aborts ((i, Ev.rpc) :: tr) = aborts tr := rfl
        rw [e1] at h1; rw [e2] at h2
        refine List.nodup_cons.mpr ⟨?_, ih (List.nodup_cons.mp h1).2 h2⟩
        intro hm
        exact (List.nodup_cons.mp h1).1 ((mem_rpcs _ _).mpr hm)
      | abort =>
        have e1 : rpcs ((i, Ev.abort) :: tr) = rpcs tr := rfl
        have e2 : aborts ((i, Ev.abort) :: tr) = i :: aborts tr := rfl
        rw [e1] at h1; rw [e2] at h2
        refine List.nodup_cons.mpr ⟨?_, ih h1 (List.nodup_cons.mp h2).2⟩
        intro hm
        exact (List.nodup_cons.mp h2).1 ((mem_aborts _ _).mpr hm)
  unfold send at h
  cases hn : notify e subs with
  | none => rw [hn] at h; cases h
  | some o' =>
    rw [hn] at h
    have hi := notify_inv e subs o' hn
    have hnod := hi.ord.nodup hids
    cases he : o'.err with
    | none =>
      simp only [he, Option.some.injEq] at h
      subst h
      refine ⟨split _ hnod hi.abNodup, ?_⟩
      intro i hm
      obtain ⟨h1, h2⟩ := hi.ab i ((mem_aborts _ _).mpr hm)
      exact ⟨(mem_rpcs _ _).mp h1, by rw [h2]; simp, by rw [h2]; simp⟩
    | some y =>
      obtain ⟨p, c⟩ := y
      simp only [he, Option.some.injEq] at h
      have ht : o.trace = abort e subs o'.scans p c o'.trace ++ lateAborts e o'.trace := by rw [← h]
      have ha := abort_inv e subs o'.scans p c hids o'.trace
      have h0 := hi.ab0 (by rw [he]; rfl)
      have e1 : rpcs o.trace = rpcs o'.trace := by
        rw [ht, rpcs_append, rpcs_lateAborts, List.append_nil, ha.rpc]
      have e2 : aborts o.trace = aborts (abort e subs o'.scans p c o'.trace) ++ (rpcs o'.trace).filter (fun i => e.reply i == .timeout true) := by
        rw [ht, aborts_append, aborts_lateAborts]
      have hp : ∀ i ∈ aborts (abort e subs o'.scans p c o'.trace), i ∈ rpcs o'.trace ∧ processed e i = true := by
        intro i hm
        rcases ha.ab i hm with hm | hm
        · rw [h0] at hm; simp at hm
        · exact hm
      refine ⟨split _ (by rw [e1]; exact hnod) ?_, ?_⟩
      · rw [e2]
        refine List.nodup_append.mpr ⟨ha.nodup hi.abNodup, List.Nodup.sublist List.filter_sublist hnod, ?_⟩
        intro a h1 b h2 hab
        subst hab
        have hp1 := (hp a h1).2
        have hp2 := (List.mem_filter.mp h2).2
        simp only [beq_iff_eq] at hp2
        simp [processed, hp2] at hp1
      · intro i hm
        have hm' := (mem_aborts _ _).mpr hm
        rw [e2] at hm'
        rcases List.mem_append.mp hm' with hm' | hm'
        · obtain ⟨h1, h2⟩ := hp i hm'
          refine ⟨(mem_rpcs _ _).mp (by rw [e1]; exact h1), ?_, ?_⟩
          · intro hc; simp [processed, hc] at h2
          · intro hc; simp [processed, hc] at h2
        · obtain ⟨h1, h2⟩ := List.mem_filter.mp hm'
          simp only [beq_iff_eq] at h2
          exact ⟨(mem_rpcs _ _).mp (by rw [e1]; exact h1), by rw [h2]; simp, by rw [h2]; simp⟩

/-- C27: an operation that has no subscriber, or only dead or suspended ones, fails and calls nobody. -/
theorem no_subscriber_fails (e : Env) (subs : List Sub) (h : ∀ s ∈ subs, e.view 0 s.id = false) :
    ∃ o, send e subs = some o ∧ o.res = .error ∧ o.trace = [] ∧ o.locked = false := by
  have hm : scanMax (e.view 0) subs none = none := by
    obtain ⟨_, h2⟩ := scanMax_spec (e.view 0) subs [] none (by simp) (by simp)
    cases hc : scanMax (e.view 0) subs none with
    | none => rfl
    | some m =>
      obtain ⟨⟨x, hx, hv, _⟩, _⟩ := h2 m hc
      rw [h x (by simpa using hx)] at hv; cases hv
  exact ⟨⟨.error, [], 1, none, false⟩, by unfold send notify; rw [hm], rfl, rfl, rfl⟩

example : ∃ o, send ⟨fun _ i => decide (i > 7), fun i => .ok i, fun _ => false, false⟩ [⟨0, 5⟩, ⟨1, 9⟩] = some o ∧ o.res = .error ∧
    o.trace = [] ∧ o.locked = false := no_subscriber_fails _ _ (by decide)

/-- C27 (partial): let the subscriptions stay as they are during the call, all priorities be lower than the
greatest 32-bit number, and sysrepo itself not fail. Then the callbacks called and the result are as
expected of the subscribers `l`, those valid from the highest priority: called in turn until one fails; if
none does, the output of the last is returned, otherwise the caller gets an error and all called
successfully before get the abort event, and nobody else except one that succeeds after its time ran out.

Missing: subscriptions suspended or killed between the two phases, errors of sysrepo in the middle, and the
greatest priority, see the theorems below. -/
theorem exact_partial (e : Env) (subs l : List Sub) (s0 : Sub) (hs0 : s0 ∈ l)
    (same : ∀ k i, e.view k i = e.view 0 i)
    (perm : l.Perm (subs.filter (fun s => e.view 0 s.id))) (order : l.Pairwise (fun a b => a.prio > b.prio))
    (ids : (l.map (·.id)).Nodup) (prio : ∀ s ∈ l, s.prio + 1 < 4294967296)
    (reply : ∀ s ∈ l, e.reply s.id ≠ .lost ∧ e.reply s.id ≠ .bad) (abortErr : ∀ s ∈ l, e.abortErr s.id = false)
    (internal : ∀ s ∈ l, (e.factory = true ∧ s.prio = 10) → ∃ o, e.reply s.id = .ok o) :
    ∃ o, send e subs = some o ∧ o.locked = false ∧
      (o.res, o.trace) = expected e.reply (fun s => e.factory && s.prio == 10) [] none l := by
  have hint : ∀ s : Sub, isInternal e s.prio = (e.factory && s.prio == 10) := fun s => rfl
  have hc : Calm e subs l := ⟨same, perm, order, ids, prio, reply, abortErr, fun s hs hi => internal s hs (by
    rw [hint] at hi; simpa using hi)⟩
  obtain ⟨h, t, hl⟩ : ∃ h t, l = h :: t := by
    cases l with
    | nil => simp at hs0
    | cons a b => exact ⟨a, b, rfl⟩
  have hW : (h.prio + 1) % W = h.prio + 1 := Nat.mod_eq_of_lt (hc.prio h (by rw [hl]; simp))
  have hlow : ∀ d ∈ l, d.prio < (h.prio + 1) % W := by
    rw [hW, hl]
    intro d hd
    have ho := hc.order
    rw [hl] at ho
    rcases List.mem_cons.mp hd with rfl | hd
    · omega
    · have := (List.pairwise_cons.mp ho).1 d hd; omega
  have hlen : l.length ≤ subs.length := by
    rw [hc.perm.length_eq]; exact List.length_filter_le _ _
  obtain ⟨o, ho, hleft⟩ := hc.first l [] (subs.length + 1) 1 h.prio [] none (by simp) (by omega) (by simp) hlow
  have hno : notify e subs = some o := by
    unfold notify
    rw [hc.max 0, hl]
    exact ho
  cases he : o.err with
  | none =>
    obtain ⟨h1, h2, h3⟩ := hleft.good he
    refine ⟨o, ?_, hleft.locked, ?_⟩
    · unfold send; rw [hno]; simp only [he]
    · rw [expected_ok _ _ _ _ _ h1, h2, h3]; simp
  | some y =>
    obtain ⟨p, c⟩ := y
    obtain ⟨rfl, hres, mid, x, r', h1, rfl, h3, h4, hni, h5⟩ := hleft.bad p c he
    rw [List.nil_append] at h5
    have hxl : ∀ d ∈ mid ++ [x], d ∈ l := by
      intro d hd; rw [h1]
      rcases List.mem_append.mp hd with hd | hd
      · simp [hd]
      · simp at hd; simp [hd]
    have hT0 : ∀ m : List Sub, aborts (m.map (fun s => (s.id, Ev.rpc))) = [] := by
      intro m
      induction m with
      | nil => rfl
      | cons a m ih => simpa [aborts] using ih
    have hR0 : ∀ m : List Sub, rpcs (m.map (fun s => (s.id, Ev.rpc))) = m.map (·.id) := by
      intro m
      induction m with
      | nil => rfl
      | cons a m ih => simpa [rpcs] using ih
    have hab : abort e subs o.scans x.prio 1 o.trace =
        o.trace ++ (mid.filter (fun d => !isInternal e d.prio)).map (fun d => (d.id, Ev.abort)) := by
      unfold abort
      rw [hc.max o.scans, hl]
      simp only [List.head?_cons, Option.map_some]
      have := hc.abortL x r' h4 mid [] (subs.length + 1) (o.scans + 1) ((h.prio + 1) % W) o.trace (by rw [h1]; simp)
        (by have : l.length = mid.length + (r'.length + 1) := by rw [h1]; simp
            omega)
        (by simp) (fun d hd => hlow d (hxl d hd)) h3
        (by intro d hd; rw [h5]; exact List.mem_map.mpr ⟨d, by simp [hd], rfl⟩) (by rw [h5]; exact hT0 _)
      simpa using this
    have hlate : lateAborts e o.trace = if e.reply x.id = .timeout true then [(x.id, Ev.abort)] else [] := by
      have hm : ∀ m : List Sub, (∀ s ∈ m, ∃ y, e.reply s.id = .ok y) → lateAborts e (m.map (fun s => (s.id, Ev.rpc))) = [] := by
        intro m hm
        unfold lateAborts
        rw [List.map_eq_nil_iff, List.filter_eq_nil_iff]
        intro z hz hc
        obtain ⟨s, hs, rfl⟩ := List.mem_map.mp hz
        obtain ⟨y, hy⟩ := hm s hs
        simp [hy] at hc
      rw [h5, List.map_append]
      have happ : ∀ a b, lateAborts e (a ++ b) = lateAborts e a ++ lateAborts e b := by intro a b; simp [lateAborts]
      rw [happ, hm mid h3]
      by_cases hx : e.reply x.id = .timeout true
      · simp [lateAborts, hx]
      · simp [lateAborts, hx]
    refine ⟨{ o with trace := abort e subs o.scans x.prio 1 o.trace ++ lateAborts e o.trace }, ?_, hleft.locked, ?_⟩
    · unfold send; rw [hno]; simp only [he]
    · rw [hab, hlate, h5, hres, h1, expected_bad _ _ x r' h4 mid [] none h3]
      simp [hint]

/-! ### Examples -/

/-- Everybody answers as given by `r`; nothing changes meanwhile. -/
def calm (r : Nat → Reply) (factory : Bool) : Env := ⟨fun _ _ => true, r, fun _ => false, factory⟩

/-- Three subscribers, the last of which fails: the two called before are aborted. -/
example : send (calm (fun i => if i = 2 then .fail else .ok i) false) [⟨0, 5⟩, ⟨1, 9⟩, ⟨2, 1⟩, ⟨3, 0⟩] =
    some ⟨.failed, [(1, .rpc), (0, .rpc), (2, .rpc), (1, .abort), (0, .abort)], 4, some (1, 1), false⟩ := by decide

/-- Three subscribers succeed, the output of the last one is returned. -/
example : send (calm (fun i => .ok (i + 100)) false) [⟨0, 5⟩, ⟨1, 9⟩, ⟨2, 1⟩] =
    some ⟨.success (some 102), [(1, .rpc), (0, .rpc), (2, .rpc)], 5, none, false⟩ := by decide

/-- The hypotheses of `exact_partial` are met by the first example. -/
example : (expected (fun i => if i = 2 then Reply.fail else .ok i) (fun s => false && s.prio == 10) [] none [⟨1, 9⟩, ⟨0, 5⟩, ⟨2, 1⟩, ⟨3, 0⟩]) =
    (.failed, [(1, .rpc), (0, .rpc), (2, .rpc), (1, .abort), (0, .abort)]) := by decide

example : ∃ o, send (calm (fun i => if i = 2 then .fail else .ok i) false) [⟨0, 5⟩, ⟨1, 9⟩, ⟨2, 1⟩, ⟨3, 0⟩] = some o ∧ o.locked = false ∧
    (o.res, o.trace) = expected (fun i => if i = 2 then Reply.fail else .ok i) (fun s => false && s.prio == 10) [] none [⟨1, 9⟩, ⟨0, 5⟩, ⟨2, 1⟩, ⟨3, 0⟩] := by
  refine exact_partial _ _ _ ⟨1, 9⟩ (by decide) (fun _ _ => rfl) (by decide) (by decide) (by decide) (by decide) ?_ (fun _ _ => rfl) ?_
  · intro s hs
    show (if s.id = 2 then Reply.fail else .ok s.id) ≠ _ ∧ (if s.id = 2 then Reply.fail else .ok s.id) ≠ _
    split <;> simp
  · intro s _ h; exact absurd h.1 (by decide)

/-! ### Where the code does not keep the property -/

/-- A subscription with the greatest priority: nobody is called and the caller gets success. -/
theorem greatest_priority_nobody_called :
    ∃ (e : Env) (subs : List Sub) (o : Out), (∀ k i, e.view k i = true) ∧ subs.length = 2 ∧ (∀ i, e.reply i = .fail) ∧
      send e subs = some o ∧ o.res = .success none ∧ o.trace = [] :=
  ⟨calm (fun _ => .fail) false, [⟨0, 4294967295⟩, ⟨1, 0⟩], _, fun _ _ => rfl, rfl, fun _ => rfl,
    (rfl : _ = some (⟨.success none, [], 2, none, false⟩ : Out)), rfl, rfl⟩

/-- A subscription suspended after its callback succeeded is not aborted although a later one fails. -/
theorem suspended_not_aborted :
    ∃ (e : Env) (subs : List Sub) (o : Out), send e subs = some o ∧ o.res = .failed ∧ e.reply 0 = .ok 0 ∧
      (0, Ev.rpc) ∈ o.trace ∧ (0, Ev.abort) ∉ o.trace :=
  ⟨⟨fun k i => !(i == 0 && decide (k > 1)), fun i => if i = 1 then .fail else .ok i, fun _ => false, false⟩, [⟨0, 5⟩, ⟨1, 1⟩], _,
    (rfl : _ = some (⟨.failed, [(0, .rpc), (1, .rpc)], 3, some (1, 1), false⟩ : Out)), by decide, by decide, by decide, by decide⟩

/-- Output that cannot be parsed: the caller gets an error and nobody is aborted. -/
theorem bad_output_not_aborted :
    ∃ (e : Env) (subs : List Sub) (o : Out), (∀ k i, e.view k i = true) ∧ send e subs = some o ∧ o.res = .error ∧ e.reply 0 = .ok 0 ∧
      (0, Ev.rpc) ∈ o.trace ∧ ∀ i, (i, Ev.abort) ∉ o.trace :=
  ⟨calm (fun i => if i = 1 then .bad else .ok i) false, [⟨0, 5⟩, ⟨1, 1⟩], _, fun _ _ => rfl,
    (rfl : _ = some (⟨.error, [(0, .rpc), (1, .rpc)], 3, none, false⟩ : Out)), by decide, by decide, by decide, by simp⟩

/-- The answer does not come while the sub SHM is being read: the caller gets an error and those called before
are not aborted. -/
theorem lost_not_aborted :
    ∃ (e : Env) (subs : List Sub) (o : Out), (∀ k i, e.view k i = true) ∧ send e subs = some o ∧ o.res = .error ∧ e.reply 0 = .ok 0 ∧
      (0, Ev.rpc) ∈ o.trace ∧ (0, Ev.abort) ∉ o.trace :=
  ⟨calm (fun i => if i = 1 then .lost else .ok i) false, [⟨0, 5⟩, ⟨1, 1⟩], _, fun _ _ => rfl,
    (rfl : _ = some (⟨.error, [(0, .rpc), (1, .rpc), (1, .abort)], 3, none, false⟩ : Out)), by decide, by decide, by decide, by decide⟩

/-- The internal factory-reset subscription fails after another one was called: that one is not aborted and the
lock of the sub SHM is never released. -/
theorem internal_failure_keeps_lock :
    ∃ (e : Env) (subs : List Sub) (o : Out), (∀ k i, e.view k i = true) ∧ send e subs = some o ∧ o.res = .error ∧ o.locked = true ∧
      (0, Ev.rpc) ∈ o.trace ∧ (0, Ev.abort) ∉ o.trace :=
  ⟨calm (fun i => if i = 1 then .fail else .ok i) true, [⟨0, 15⟩, ⟨1, 10⟩], _, fun _ _ => rfl,
    (rfl : _ = some (⟨.error, [(0, .rpc), (1, .rpc)], 3, none, true⟩ : Out)), by decide, by decide, by decide, by decide⟩

end Verif.Rpc
