import Verif.Replay

/-!
# Properties of notification subscriptions with replay (C42)
-/

namespace Verif.Replay

variable {sel deny : Notif → Bool}

theorem exec_reach {ls : List Label} {s t : St} (h : exec sel deny ls s = some t)
    (hs : Reach sel deny Any s) : Reach sel deny Any t := by
  induction ls generalizing s with
  | nil => simp only [exec, Option.some.injEq] at h; exact h ▸ hs
  | cons l ls ih =>
    simp only [exec] at h
    split at h
    · rename_i t' ht
      exact ih h (.step hs trivial ht)
    · cases h

theorem Reach.mono {ok : St → Label → Prop} {s : St} (h : Reach sel deny ok s) : Reach sel deny Any s := by
  induction h with
  | init => exact .init
  | step _ _ ht ih => exact .step ih trivial ht

theorem subtract_some {e e' : Ev} {k : Nat} (h : subtract e k = some e') :
    e'.n = e.n ∧ e'.rid = e.rid ∧ e'.oleft = e.oleft ∧ e'.late = e.late ∧ e'.cnt = e.cnt - k ∧ e.cnt ≠ k := by
  unfold subtract at h
  split at h
  · cases h
  · simp only [Option.some.injEq] at h
    subst h
    exact ⟨rfl, rfl, rfl, rfl, rfl, by assumption⟩

/-- Facts that hold in every run. -/
structure Inv (s : St) : Prop where
  used : ∀ n ∈ s.holding ++ s.before ++ s.after, n.id ∈ s.used
  nodup : ((s.holding ++ s.before ++ s.after).map (·.id)).Nodup
  slotIn : ∀ e, s.slot = some e → e.n ∈ s.before ++ s.after ∧ e.rid = s.rid
  liveIn : ∀ n, Got.live n ∈ s.got → n ∈ s.before ++ s.after
  fresh : ∀ u e, s.sub = some u → s.slot = some e → e.rid ≠ u.last → Got.live e.n ∉ s.got
  none : s.sub = none → s.got = [] ∧ s.after = []
  once : ∀ n, s.got.count (.live n) ≤ 1

theorem inv_init : Inv init := by
  refine ⟨?_, ?_, ?_, ?_, ?_, ?_, ?_⟩ <;> simp [init]

theorem perm_publish {s : St} {n : Notif} (hn : n ∈ s.holding) (b : Bool) :
    (s.holding.erase n ++ (if b then s.before ++ [n] else s.before) ++ (if b then s.after else s.after ++ [n])).Perm
      (s.holding ++ s.before ++ s.after) := by
  have h1 : s.holding.Perm (n :: s.holding.erase n) := List.perm_cons_erase hn
  refine List.Perm.trans ?_ (List.Perm.append (List.Perm.append h1.symm (List.Perm.refl _)) (List.Perm.refl _))
  rw [List.perm_iff_count]
  intro a
  cases b <;> simp [List.count_append, List.count_cons] <;> omega

theorem mem_publish {s : St} {n : Notif} (b : Bool) :
    n ∈ (if b then s.before ++ [n] else s.before) ++ (if b then s.after else s.after ++ [n]) := by
  cases b <;> simp

theorem mem_publish' {s : St} {n m : Notif} (b : Bool) (h : m ∈ s.before ++ s.after) :
    m ∈ (if b then s.before ++ [n] else s.before) ++ (if b then s.after else s.after ++ [n]) := by
  cases b <;> simp at h ⊢ <;> rcases h with h | h <;> simp [h]

theorem Inv.notin {s : St} (hi : Inv s) {n : Notif} (hn : n ∈ s.holding) : n ∉ s.before ++ s.after := by
  intro hc
  have h := hi.nodup
  rw [List.append_assoc, List.map_append, List.nodup_append] at h
  exact h.2.2 n.id (List.mem_map.2 ⟨n, hn, rfl⟩) n.id (List.mem_map.2 ⟨n, hc, rfl⟩) rfl

theorem inv_publish {s t : St} {n : Notif} {w : Bool} (hi : Inv s) (h : publish s n w = some t) : Inv t := by
  unfold publish at h
  by_cases hn : n ∈ s.holding
  case neg => rw [if_neg hn] at h; cases h
  rw [if_pos hn] at h
  have hp := perm_publish hn s.sub.isNone
  have hnl : Got.live n ∉ s.got := fun hc => hi.notin hn (hi.liveIn n hc)
  have common : ∀ t : St, t.holding = s.holding.erase n →
      t.before = (if s.sub.isNone then s.before ++ [n] else s.before) →
      t.after = (if s.sub.isNone then s.after else s.after ++ [n]) → t.used = s.used → t.got = s.got →
      t.sub = s.sub →
      ((t.slot = s.slot ∧ t.rid = s.rid) ∨ ∃ e, t.slot = some e ∧ e.n = n ∧ e.rid = t.rid) → Inv t := by
    intro t h1 h2 h3 h4 h5 h6 h7
    refine ⟨?_, ?_, ?_, ?_, ?_, ?_, ?_⟩
    · rw [h1, h2, h3, h4]
      intro m hm
      exact hi.used m (hp.mem_iff.1 hm)
    · rw [h1, h2, h3]
      exact (hp.map _).nodup_iff.2 hi.nodup
    · intro e he
      rw [h2, h3]
      rcases h7 with ⟨h7, h8⟩ | ⟨e', h7, h8, h9⟩
      · rw [h7] at he
        exact ⟨mem_publish' _ (hi.slotIn e he).1, by rw [h8]; exact (hi.slotIn e he).2⟩
      · rw [h7] at he
        cases he
        exact ⟨by rw [h8]; exact mem_publish _, h9⟩
    · intro m hm
      rw [h5] at hm
      rw [h2, h3]
      exact mem_publish' _ (hi.liveIn m hm)
    · intro u e hu he hr
      rw [h5]
      rcases h7 with ⟨h7, h8⟩ | ⟨e', h7, h8, h9⟩
      · exact hi.fresh u e (by rw [← h6]; exact hu) (by rw [← h7]; exact he) hr
      · rw [h7] at he
        cases he
        rw [h8]; exact hnl
    · intro hs
      rw [h6] at hs
      have := hi.none hs
      rw [h5, h3, hs]
      exact this
    · rw [h5]; exact hi.once
  split at h
  · simp only [Option.some.injEq] at h
    subst h
    exact common _ rfl rfl rfl rfl rfl rfl (.inl ⟨rfl, rfl⟩)
  · split at h
    · cases h
    · split at h
      · simp only [Option.some.injEq] at h
        subst h
        exact common _ rfl rfl rfl rfl rfl rfl (.inr ⟨_, rfl, rfl, rfl⟩)
      · simp only [Option.some.injEq] at h
        subst h
        exact common _ rfl rfl rfl rfl rfl rfl (.inr ⟨_, rfl, rfl, rfl⟩)

/-- Steps that change neither what was sent nor what was delivered: the event stays, with the same
notification and request ID, or disappears. -/
theorem Inv.frame {s t : St} (hi : Inv s) (h1 : t.holding = s.holding) (h2 : t.before = s.before)
    (h3 : t.after = s.after) (h4 : t.used = s.used) (h5 : t.got = s.got)
    (h6 : (t.sub = s.sub) ∨ (∃ u u', s.sub = some u ∧ t.sub = some u' ∧ u'.last = u.last) ∨ (s.sub = Option.none))
    (h7 : t.rid = s.rid) (h8 : ∀ e, t.slot = some e → ∃ e', s.slot = some e' ∧ e'.n = e.n ∧ e'.rid = e.rid)
    : Inv t := by
  refine ⟨?_, ?_, ?_, ?_, ?_, ?_, ?_⟩
  · rw [h1, h2, h3, h4]; exact hi.used
  · rw [h1, h2, h3]; exact hi.nodup
  · intro e he
    obtain ⟨e', he', hn, hr⟩ := h8 e he
    rw [h2, h3, h7, ← hn, ← hr]
    exact hi.slotIn e' he'
  · rw [h2, h3, h5]; exact hi.liveIn
  · intro u e hu he hr
    obtain ⟨e', he', hn, hr'⟩ := h8 e he
    rw [h5, ← hn]
    rcases h6 with h6 | ⟨v, v', hv, hv', hl⟩ | h6
    · exact hi.fresh u e' (by rw [← h6]; exact hu) he' (by rw [hr']; exact hr)
    · rw [hv'] at hu
      cases hu
      exact hi.fresh v e' hv he' (by rw [hr', ← hl]; exact hr)
    · rw [(hi.none h6).1]; simp
  · intro hs
    rw [h5, h3]
    rcases h6 with h6 | ⟨v, v', hv, hv', hl⟩ | h6
    · exact hi.none (by rw [← h6]; exact hs)
    · rw [hv'] at hs; cases hs
    · exact hi.none h6
  · rw [h5]; exact hi.once

theorem inv_step {s t : St} {l : Label} (hi : Inv s) (h : step sel deny s l = some t) : Inv t := by
  cases l with
  | publish n w => exact inv_publish hi h
  | tick m r =>
    simp only [step] at h
    split at h <;> cases h
    exact hi.frame rfl rfl rfl rfl rfl (.inl rfl) rfl (fun e he => ⟨e, he, rfl, rfl⟩)
  | begin id =>
    simp only [step, begin] at h
    split at h <;> cases h
    rename_i hid
    have hp : ((s.holding ++ [(⟨id, s.mono, s.real⟩ : Notif)] ++ s.before ++ s.after).Perm
        ((⟨id, s.mono, s.real⟩ : Notif) :: (s.holding ++ s.before ++ s.after))) := by
      simp only [List.append_assoc, List.singleton_append]
      exact List.perm_middle
    refine ⟨?_, ?_, hi.slotIn, hi.liveIn, hi.fresh, hi.none, hi.once⟩
    · intro n hn
      rcases List.mem_cons.1 (hp.mem_iff.1 hn) with rfl | hn
      · simp
      · exact List.mem_cons_of_mem _ (hi.used n hn)
    · refine (hp.map _).nodup_iff.2 ?_
      rw [List.map_cons, List.nodup_cons]
      refine ⟨?_, hi.nodup⟩
      intro hc
      obtain ⟨m, hm, he⟩ := List.mem_map.1 hc
      have := hi.used m hm
      rw [he] at this
      exact hid this
  | waitEnd n =>
    simp only [step, waitEnd] at h
    split at h <;> cases h
    exact hi.frame rfl rfl rfl rfl rfl (.inl rfl) rfl (fun e he => ⟨e, he, rfl, rfl⟩)
  | discard =>
    simp only [step, discard] at h
    split at h <;> cases h
    exact hi.frame rfl rfl rfl rfl rfl (.inl rfl) rfl (fun e he => by cases he)
  | store n =>
    simp only [step, store] at h
    split at h <;> cases h
    exact hi.frame rfl rfl rfl rfl rfl (.inl rfl) rfl (fun e he => ⟨e, he, rfl, rfl⟩)
  | storeFail n =>
    simp only [step, storeFail] at h
    split at h <;> cases h
    exact hi.frame rfl rfl rfl rfl rfl (.inl rfl) rfl (fun e he => ⟨e, he, rfl, rfl⟩)
  | otherOn =>
    simp only [step, otherOn] at h
    split at h <;> cases h
    refine hi.frame rfl rfl rfl rfl rfl (.inl rfl) rfl (fun e he => ?_)
    simp only [Option.map_eq_some_iff] at he
    obtain ⟨e', he', rfl⟩ := he
    exact ⟨e', he', rfl, rfl⟩
  | otherDone =>
    simp only [step, otherDone] at h
    split at h
    · rename_i e0 he0
      split at h <;> cases h
      refine hi.frame rfl rfl rfl rfl rfl (.inl rfl) rfl (fun e he => ?_)
      have := subtract_some he
      exact ⟨e0, he0, this.1.symm, this.2.1.symm⟩
    · cases h
  | lateOff =>
    simp only [step, lateOff] at h
    split at h
    · rename_i e0 he0
      split at h <;> cases h
      refine hi.frame rfl rfl rfl rfl rfl (.inl rfl) rfl (fun e he => ?_)
      have := subtract_some he
      exact ⟨e0, he0, this.1.symm, this.2.1.symm⟩
    · cases h
  | subscribe a b =>
    simp only [step, subscribe] at h
    split at h <;> cases h
    rename_i hc
    exact hi.frame rfl rfl rfl rfl rfl (.inr (.inr hc.1)) rfl (fun e he => ⟨e, he, rfl, rfl⟩)
  | finish =>
    simp only [step, finish] at h
    split at h
    · rename_i u hu
      split at h
      · rename_i r k hb
        cases h
        refine hi.frame rfl rfl rfl rfl rfl (.inr (.inl ⟨u, _, hu, rfl, rfl⟩)) rfl (fun e he => ?_)
        simp only at he
        split at he
        · rename_i e0 he0
          split at he
          · have := subtract_some he
            exact ⟨e0, he0, this.1.symm, this.2.1.symm⟩
          · cases he; exact ⟨_, he0, rfl, rfl⟩
        · cases he
      · cases h
    · cases h
  | stopTime =>
    simp only [step, stopTime] at h
    split at h
    · rename_i u hu
      split at h <;> cases h
      refine hi.frame rfl rfl rfl rfl rfl (.inr (.inl ⟨u, _, hu, rfl, rfl⟩)) rfl (fun e he => ?_)
      simp only at he
      split at he
      · rename_i e0 he0
        split at he
        · have := subtract_some he
          exact ⟨e0, he0, this.1.symm, this.2.1.symm⟩
        · cases he; exact ⟨_, he0, rfl, rfl⟩
      · cases he
    · cases h
  | replay =>
    simp only [step, replay] at h
    split at h
    · rename_i u hu
      split at h <;> cases h
      have hl : ∀ n, Got.live n ∈ s.got ++ ((s.stored.filter fun n =>
          decide (u.start ≤ n.real) && decide (n.real < replayStop u) && sel n).map Got.replay) ↔
          Got.live n ∈ s.got := by intro n; simp
      refine ⟨hi.used, hi.nodup, hi.slotIn, ?_, ?_, ?_, ?_⟩
      · intro n hn
        exact hi.liveIn n ((hl n).1 hn)
      · intro v e hv he hr
        cases hv
        intro hc
        exact hi.fresh u e hu he hr ((hl e.n).1 hc)
      · intro hc; cases hc
      · intro n
        rw [List.count_append]
        have := hi.once n
        have h0 : ((s.stored.filter fun n =>
          decide (u.start ≤ n.real) && decide (n.real < replayStop u) && sel n).map Got.replay).count (.live n) = 0 := by
          rw [List.count_eq_zero]; simp
        omega
    · cases h
  | read =>
    simp only [step, read] at h
    split at h
    · rename_i u e hu he
      split at h
      · rename_i hc
        split at h
        · cases h
          refine ⟨hi.used, hi.nodup, hi.slotIn, hi.liveIn, ?_, ?_, hi.once⟩
          · intro v e' hv he' hr
            cases hv
            rw [show s.slot = some e from he] at he'
            cases he'
            exact absurd rfl hr
          · intro hc; cases hc
        · cases h
          have hf := hi.fresh u e hu he hc.2.2.2
          refine ⟨hi.used, hi.nodup, hi.slotIn, ?_, ?_, ?_, ?_⟩
          · intro n hn
            rcases List.mem_append.1 hn with hn | hn
            · exact hi.liveIn n hn
            · split at hn
              · simp only [List.mem_singleton, Got.live.injEq] at hn
                subst hn
                exact (hi.slotIn e he).1
              · cases hn
          · intro v e' hv he' hr
            cases hv
            rw [show s.slot = some e from he] at he'
            cases he'
            exact absurd rfl hr
          · intro hc; cases hc
          · intro n
            rw [List.count_append]
            have := hi.once n
            by_cases hne : n = e.n
            · subst hne
              rw [List.count_eq_zero_of_not_mem hf]
              split <;> simp
            · have h0 : (if !deny e.n && sel e.n then [Got.live e.n] else []).count (.live n) = 0 := by
                rw [List.count_eq_zero]
                split
                · simpa using hne
                · simp
              omega
      · cases h
    · cases h

theorem inv_reach {ok : St → Label → Prop} {s : St} (h : Reach sel deny ok s) : Inv s := by
  induction h with
  | init => exact inv_init
  | step _ _ ht ih => exact inv_step ih ht

/-- C42: whatever happens, the subscription never gets the same notification twice live, and gets live
only notifications that were sent. -/
theorem live_at_most_once {s : St} (h : Reach sel deny Any s) (n : Notif) :
    s.got.count (.live n) ≤ 1 ∧ (Got.live n ∈ s.got → n ∈ s.before ++ s.after) :=
  ⟨(inv_reach h).once n, (inv_reach h).liveIn n⟩

/-! ## Regular runs -/

/-- the event the subscription still has to process -/
def toDo (u : Sub) (e : Ev) : Bool := decide (e.rid ≠ u.last) && decide (u.lmono ≤ e.n.mono)

def pending (u : Sub) : Option Ev → List Notif
  | some e => if toDo u e then [e.n] else []
  | none => []

/-- what the subscription will subtract from the event it is processing -/
def owed (u : Sub) (e : Ev) : Nat :=
  match u.busy with
  | some (r, k) => if r = e.rid then k else 0
  | none => 0

structure SubInv (sel deny : Notif → Bool) (s : St) (u : Sub) : Prop where
  on : u.ended = false
  now : u.lmono ≤ s.mono ∧ u.lreal ≤ s.real
  later : ∀ n ∈ s.holding ++ s.after, u.lmono ≤ n.mono ∧ u.lreal ≤ n.real
  earlier : ∀ n ∈ s.before, n.mono < u.lmono ∧ n.real < u.lreal
  last : u.last ≤ s.rid
  busy : ∀ r k, u.busy = some (r, k) → r = u.last
  count : ∀ e, s.slot = some e → e.cnt = e.oleft + (if toDo u e then 1 else 0) + owed u e
  gotten : ∃ R H, s.got = R.map Got.replay ++ (H.filter fun n => sel n && !deny n).map Got.live ∧
    s.after = H ++ pending u s.slot ∧ R.Nodup ∧
    (u.replayed = false → R = []) ∧
    (u.start ≠ 0 → u.replayed = false → H = []) ∧ (u.replayed = true → u.start ≠ 0) ∧
    (u.replayed = true → ∀ n, n ∈ R ↔ n ∈ s.before ∧ InWindow u.start u.stop n ∧ sel n = true)

structure RInv (sel deny : Notif → Bool) (s : St) : Prop where
  kept : ∀ n ∈ s.stored ++ s.unstored ++ s.waiting, n ∈ s.before ++ s.after
  keptOnce : (s.stored ++ s.unstored ++ s.waiting).Nodup
  alone : s.sub = none → ∀ e, s.slot = some e → e.cnt = e.oleft
  sub : ∀ u, s.sub = some u → SubInv sel deny s u

theorem owed_none {u : Sub} {e : Ev} (h : u.busy = none) : owed u e = 0 := by
  unfold owed; rw [h]

theorem owed_other {u : Sub} {e : Ev} (hb : ∀ r k, u.busy = some (r, k) → r = u.last) (h : e.rid ≠ u.last) :
    owed u e = 0 := by
  unfold owed
  split
  · rename_i r k hk
    have := hb r k hk
    rw [if_neg (by rw [this]; exact fun hc => h hc.symm)]
  · rfl

/-- Steps of others that leave the event and what was sent alone. -/
theorem SubInv.frame {s t : St} {u : Sub} (hi : SubInv sel deny s u) (h0 : s.mono ≤ t.mono ∧ s.real ≤ t.real)
    (h1 : ∀ n ∈ t.holding, n ∈ s.holding ∨ (u.lmono ≤ n.mono ∧ u.lreal ≤ n.real))
    (h2 : t.before = s.before) (h3 : t.after = s.after) (h4 : t.got = s.got) (h5 : t.rid = s.rid)
    (h6 : ∀ e, t.slot = some e → e.cnt = e.oleft + (if toDo u e then 1 else 0) + owed u e)
    (h7 : pending u t.slot = pending u s.slot) : SubInv sel deny t u := by
  refine ⟨hi.on, ⟨Nat.le_trans hi.now.1 h0.1, Nat.le_trans hi.now.2 h0.2⟩, ?_, ?_, ?_, hi.busy, h6, ?_⟩
  · intro n hn
    rw [h3] at hn
    rcases List.mem_append.1 hn with hn | hn
    · rcases h1 n hn with hn | hn
      · exact hi.later n (List.mem_append_left _ hn)
      · exact hn
    · exact hi.later n (List.mem_append_right _ hn)
  · rw [h2]; exact hi.earlier
  · rw [h5]; exact hi.last
  · rw [h2, h3, h4, h7]; exact hi.gotten

theorem keep_move {a b c : List Notif} {n : Notif} (hb : n ∈ b) :
    (a ++ [n] ++ b.erase n ++ c).Perm (a ++ b ++ c) := by
  have h := List.perm_cons_erase hb
  refine List.Perm.append ?_ (List.Perm.refl _)
  rw [List.append_assoc, List.singleton_append]
  exact List.Perm.append (List.Perm.refl _) h.symm

theorem keep_move' {a b c : List Notif} {n : Notif} (hc : n ∈ c) :
    (a ++ (b ++ [n]) ++ c.erase n).Perm (a ++ b ++ c) := by
  have h := List.perm_cons_erase hc
  rw [← List.append_assoc, List.append_assoc (a ++ b), List.singleton_append]
  exact List.Perm.append (List.Perm.refl _) h.symm

theorem rinv_init : RInv sel deny init := by
  refine ⟨?_, ?_, ?_, ?_⟩ <;> simp [init]

theorem subinv_publish {s t : St} {n : Notif} {w : Bool} {u : Sub} (hb : Inv s) (hi : SubInv sel deny s u)
    (hu : s.sub = some u) (h : publish s n w = some t) : SubInv sel deny t u := by
  unfold publish at h
  by_cases hn : n ∈ s.holding
  case neg => rw [if_neg hn] at h; cases h
  rw [if_pos hn] at h
  have hact : subscribers s = s.others + 1 := by
    unfold subscribers active
    rw [hu]
    simp [hi.on]
  rw [if_neg (by omega)] at h
  have hlat := hi.later n (List.mem_append_left _ hn)
  have common : ∀ t : St, t.holding = s.holding.erase n → t.before = s.before → t.after = s.after ++ [n] →
      t.got = s.got → t.mono = s.mono → t.real = s.real → s.slot = none → t.rid = s.rid + 1 →
      t.slot = some ⟨n, s.rid + 1, s.others + 1, s.others, 0⟩ → SubInv sel deny t u := by
    intro t h1 h2 h3 h4 h5 h6 h7 h8 h9
    have hl := hi.last
    have hdo : toDo u ⟨n, s.rid + 1, s.others + 1, s.others, 0⟩ = true := by
      simp only [toDo, Bool.and_eq_true, decide_eq_true_eq]
      exact ⟨by omega, hlat.1⟩
    refine ⟨hi.on, by rw [h5, h6]; exact hi.now, ?_, by rw [h2]; exact hi.earlier, by omega, hi.busy, ?_, ?_⟩
    · intro m hm
      rw [h1, h3] at hm
      rcases List.mem_append.1 hm with hm | hm
      · exact hi.later m (List.mem_append_left _ (List.mem_of_mem_erase hm))
      · rcases List.mem_append.1 hm with hm | hm
        · exact hi.later m (List.mem_append_right _ hm)
        · rw [List.mem_singleton.1 hm]; exact hlat
    · intro e he
      rw [h9] at he
      cases he
      rw [if_pos hdo, owed_other hi.busy (by show s.rid + 1 ≠ u.last; omega)]
    · obtain ⟨R, H, g1, g2, g3, g4, g5, g6, g7⟩ := hi.gotten
      have hnr : u.start = 0 ∨ u.replayed = true ∨ (u.start ≠ 0 ∧ u.replayed = false) := by
        by_cases h1 : u.start = 0
        · exact .inl h1
        · cases hr : u.replayed
          · exact .inr (.inr ⟨h1, rfl⟩)
          · exact .inr (.inl rfl)
      refine ⟨R, H, by rw [h4]; exact g1, ?_, g3, g4, g5, g6, by rw [h2]; exact g7⟩
      rw [h3, g2, h7, h9]
      simp only [pending, hdo, if_true, List.append_nil]
  have hsb : (sent s n).before = s.before := by simp [sent, hu]
  have hsa : (sent s n).after = s.after ++ [n] := by simp [sent, hu]
  cases hsl : s.slot with
  | some e => rw [hsl] at h; simp at h
  | none =>
    rw [hsl] at h
    rw [if_neg (by simp)] at h
    cases w with
    | true =>
      rw [if_pos rfl] at h
      simp only [Option.some.injEq] at h
      subst h
      exact common _ rfl hsb hsa rfl rfl rfl hsl rfl (by rw [hact])
    | false =>
      rw [if_neg (by simp)] at h
      simp only [Option.some.injEq] at h
      subst h
      exact common _ rfl hsb hsa rfl rfl rfl hsl rfl (by rw [hact])

theorem kept_publish {s t : St} {n : Notif} {w : Bool} (hb : Inv s) (hi : RInv sel deny s)
    (h : publish s n w = some t) :
    (∀ m ∈ t.stored ++ t.unstored ++ t.waiting, m ∈ t.before ++ t.after) ∧
    (t.stored ++ t.unstored ++ t.waiting).Nodup := by
  unfold publish at h
  by_cases hn : n ∈ s.holding
  case neg => rw [if_neg hn] at h; cases h
  rw [if_pos hn] at h
  have hnk : n ∉ s.stored ++ s.unstored ++ s.waiting := fun hc => hb.notin hn (hi.kept n hc)
  have common : ∀ t : St, t.before = (sent s n).before → t.after = (sent s n).after → t.stored = s.stored →
      ((t.unstored = s.unstored ++ [n] ∧ t.waiting = s.waiting) ∨
       (t.unstored = s.unstored ∧ t.waiting = s.waiting ++ [n])) →
      (∀ m ∈ t.stored ++ t.unstored ++ t.waiting, m ∈ t.before ++ t.after) ∧
      (t.stored ++ t.unstored ++ t.waiting).Nodup := by
    intro t h1 h2 h3 h4
    have hp : (t.stored ++ t.unstored ++ t.waiting).Perm (n :: (s.stored ++ s.unstored ++ s.waiting)) := by
      rw [h3]
      rcases h4 with ⟨h4, h5⟩ | ⟨h4, h5⟩ <;> rw [h4, h5] <;> rw [List.perm_iff_count] <;> intro a <;>
        simp [List.count_append, List.count_cons] <;> omega
    refine ⟨?_, hp.nodup_iff.2 (List.nodup_cons.2 ⟨hnk, hi.keptOnce⟩)⟩
    intro m hm
    rw [h1, h2]
    rcases List.mem_cons.1 (hp.mem_iff.1 hm) with rfl | hm
    · exact mem_publish _
    · exact mem_publish' _ (hi.kept m hm)
  split at h
  · cases h
    exact common _ rfl rfl rfl (.inl ⟨rfl, rfl⟩)
  · split at h
    · cases h
    · split at h
      · cases h
        exact common _ rfl rfl rfl (.inr ⟨rfl, rfl⟩)
      · cases h
        exact common _ rfl rfl rfl (.inl ⟨rfl, rfl⟩)

theorem replay_window {u : Sub} {n : Notif} (h : n.real < u.lreal) :
    n.real < replayStop u ↔ (u.stop = 0 ∨ n.real < u.stop) := by
  unfold replayStop
  split <;> omega

theorem replayStop_le (u : Sub) : replayStop u ≤ u.lreal := by
  unfold replayStop
  split <;> omega

theorem rinv_step {s t : St} {l : Label} (hb : Inv s) (hi : RInv sel deny s) (hok : Regular s l)
    (h : step sel deny s l = some t) : RInv sel deny t := by
  cases l with
  | publish n w =>
    have hk := kept_publish hb hi h
    refine ⟨hk.1, hk.2, ?_, ?_⟩
    · intro hn e he
      simp only [step, publish] at h
      split at h
      · split at h
        · cases h
          exact hi.alone hn e he
        · split at h
          · cases h
          · split at h <;> cases h <;> cases he <;> simp only [sent] at hn <;> simp [subscribers, active, hn]
      · cases h
    intro u hu
    have hsu : t.sub = s.sub := by
      simp only [step, publish] at h
      split at h
      · split at h
        · cases h; rfl
        · split at h
          · cases h
          · split at h <;> cases h <;> rfl
      · cases h
    rw [hsu] at hu
    exact subinv_publish hb (hi.sub u hu) hu h
  | tick m r =>
    simp only [step] at h
    split at h <;> cases h
    rename_i hm
    refine ⟨hi.kept, hi.keptOnce, hi.alone, fun u hu => ?_⟩
    exact (hi.sub u hu).frame ⟨hm, hok⟩ (fun n hn => .inl hn) rfl rfl rfl rfl (hi.sub u hu).count rfl
  | begin id =>
    simp only [step, begin] at h
    split at h <;> cases h
    refine ⟨hi.kept, hi.keptOnce, hi.alone, fun u hu => ?_⟩
    refine (hi.sub u hu).frame ⟨Nat.le_refl _, Nat.le_refl _⟩ (fun n hn => ?_) rfl rfl rfl rfl (hi.sub u hu).count rfl
    rcases List.mem_append.1 hn with hn | hn
    · exact .inl hn
    · rw [List.mem_singleton.1 hn]; exact .inr (hi.sub u hu).now
  | waitEnd n =>
    simp only [step, waitEnd] at h
    split at h <;> cases h
    rename_i hc
    have hp := keep_move' (a := s.stored) (b := s.unstored) hc.1
    refine ⟨fun m hm => hi.kept m (hp.mem_iff.1 hm), hp.nodup_iff.2 hi.keptOnce, hi.alone, fun u hu => ?_⟩
    exact (hi.sub u hu).frame ⟨Nat.le_refl _, Nat.le_refl _⟩ (fun n hn => .inl hn) rfl rfl rfl rfl (hi.sub u hu).count rfl
  | discard => exact absurd hok (by simp [Regular])
  | lateOff => exact absurd hok (by simp [Regular])
  | stopTime => exact absurd hok (by simp [Regular])
  | store n =>
    simp only [step, store] at h
    split at h <;> cases h
    rename_i hc
    have hp := keep_move (a := s.stored) (c := s.waiting) hc
    refine ⟨fun m hm => hi.kept m (hp.mem_iff.1 hm), hp.nodup_iff.2 hi.keptOnce, hi.alone, fun u hu => ?_⟩
    exact (hi.sub u hu).frame ⟨Nat.le_refl _, Nat.le_refl _⟩ (fun n hn => .inl hn) rfl rfl rfl rfl (hi.sub u hu).count rfl
  | storeFail n =>
    simp only [step, storeFail] at h
    split at h <;> cases h
    have hsub : (s.stored ++ s.unstored.erase n ++ s.waiting).Sublist (s.stored ++ s.unstored ++ s.waiting) :=
      List.Sublist.append (List.Sublist.append (List.Sublist.refl _) List.erase_sublist) (List.Sublist.refl _)
    refine ⟨fun m hm => hi.kept m (hsub.subset hm), hi.keptOnce.sublist hsub, hi.alone, fun u hu => ?_⟩
    exact (hi.sub u hu).frame ⟨Nat.le_refl _, Nat.le_refl _⟩ (fun n hn => .inl hn) rfl rfl rfl rfl (hi.sub u hu).count rfl
  | otherOn =>
    simp only [step, otherOn] at h
    split at h <;> cases h
    refine ⟨hi.kept, hi.keptOnce, ?_, fun u hu => ?_⟩
    · intro hn e he
      simp only [Option.map_eq_some_iff] at he
      obtain ⟨e', he', rfl⟩ := he
      exact hi.alone hn e' he'
    refine (hi.sub u hu).frame ⟨Nat.le_refl _, Nat.le_refl _⟩ (fun n hn => .inl hn) rfl rfl rfl rfl ?_ ?_
    · intro e he
      simp only [Option.map_eq_some_iff] at he
      obtain ⟨e', he', rfl⟩ := he
      exact (hi.sub u hu).count e' he'
    · cases hs : s.slot <;> rfl
  | otherDone =>
    simp only [step, otherDone] at h
    split at h
    · rename_i e0 he0
      split at h <;> cases h
      rename_i ho
      refine ⟨hi.kept, hi.keptOnce, ?_, fun u hu => ?_⟩
      · intro hn e he
        have hs := subtract_some he
        have := hi.alone hn e0 he0
        rw [hs.2.2.2.2.1, hs.2.2.1]
        show e0.cnt - 1 = e0.oleft - 1
        omega
      have hcnt := (hi.sub u hu).count e0 he0
      refine (hi.sub u hu).frame ⟨Nat.le_refl _, Nat.le_refl _⟩ (fun n hn => .inl hn) rfl rfl rfl rfl ?_ ?_
      · intro e he
        have hs := subtract_some he
        have h1 : toDo u e = toDo u e0 := by simp [toDo, hs.1, hs.2.1]
        have h2 : owed u e = owed u e0 := by simp [owed, hs.2.1]
        rw [h1, h2, hs.2.2.2.2.1, hs.2.2.1]
        show e0.cnt - 1 = e0.oleft - 1 + _ + _
        omega
      · show pending u (subtract { e0 with oleft := e0.oleft - 1 } 1) = _
        rw [he0]
        cases hs : subtract { e0 with oleft := e0.oleft - 1 } 1 with
        | none =>
          have hc : e0.cnt = 1 := by
            unfold subtract at hs
            split at hs
            · assumption
            · cases hs
          have : toDo u e0 = false := by
            cases hd : toDo u e0
            · rfl
            · rw [hd] at hcnt; simp only [if_true] at hcnt; omega
          simp [pending, this]
        | some e =>
          have hs := subtract_some hs
          have h1 : toDo u e = toDo u e0 := by simp [toDo, hs.1, hs.2.1]
          simp only [pending, h1, hs.1]
    · cases h
  | subscribe a b =>
    simp only [step, subscribe] at h
    split at h <;> cases h
    rename_i hc
    refine ⟨hi.kept, hi.keptOnce, (fun hn => by cases hn), fun u hu => ?_⟩
    cases hu
    have hno := hb.none hc.1
    have hpend : ∀ e, s.slot = some e →
        toDo ⟨a, b, s.mono, s.real, false, false, 0, none⟩ e = false := by
      intro e he
      have hin := (hb.slotIn e he).1
      rw [hno.2, List.append_nil] at hin
      have := (hok e.n hin).1
      simp only [toDo, Bool.and_eq_false_imp, decide_eq_true_eq, decide_eq_false_iff_not]
      intro _
      omega
    refine ⟨rfl, ⟨Nat.le_refl _, Nat.le_refl _⟩, ?_, hok, Nat.zero_le _, by simp, ?_, ?_⟩
    · intro n hn
      have : n ∈ s.holding ++ s.after := hn
      rw [hno.2, hc.2.1] at this
      cases this
    · intro e he
      rw [hpend e he]
      simpa [owed] using hi.alone hc.1 e he
    · refine ⟨[], [], ?_, ?_, List.nodup_nil, fun _ => rfl, fun _ _ => rfl, by simp, by simp⟩
      · simp [hno.1]
      · show s.after = [] ++ pending _ s.slot
        rw [hno.2]
        cases hs : s.slot with
        | none => rfl
        | some e => simp [pending, hpend e hs]
  | finish =>
    simp only [step, finish] at h
    split at h
    · rename_i u hu
      split at h
      · rename_i r k hbz
        cases h
        refine ⟨hi.kept, hi.keptOnce, (fun hn => by cases hn), fun v hv => ?_⟩
        cases hv
        have hs := hi.sub u hu
        have hrl := hs.busy r k hbz
        have key : ∀ o : Option Ev, (o = match s.slot with
              | some e => if e.rid = r then subtract e k else some e
              | none => none) →
            (∀ e, o = some e → e.cnt = e.oleft + (if toDo u e then 1 else 0)) ∧ pending u o = pending u s.slot := by
          intro o ho
          cases hsl : s.slot with
          | none => rw [hsl] at ho; subst ho; simp
          | some e0 =>
            rw [hsl] at ho
            simp only at ho
            have hcnt := hs.count e0 hsl
            by_cases hr : e0.rid = r
            · rw [if_pos hr] at ho
              have hd : toDo u e0 = false := by simp [toDo, hr, hrl]
              have hk : owed u e0 = k := by simp [owed, hbz, hr]
              rw [hd, hk] at hcnt
              simp only [Bool.false_eq_true, if_false] at hcnt
              cases hsb : subtract e0 k with
              | none =>
                rw [hsb] at ho
                subst ho
                simp [pending, hd]
              | some e =>
                rw [hsb] at ho
                subst ho
                have he := subtract_some hsb
                have hd' : toDo u e = false := by simp [toDo, he.2.1, hr, hrl]
                refine ⟨?_, by simp [pending, hd, hd']⟩
                intro e' he'
                cases he'
                rw [hd', he.2.2.2.2.1, he.2.2.1]
                simp only [Bool.false_eq_true, if_false]
                omega
            · rw [if_neg hr] at ho
              subst ho
              have hk : owed u e0 = 0 := by
                simp [owed, hbz]
                intro hc; exact absurd hc.symm hr
              refine ⟨?_, rfl⟩
              intro e' he'
              cases he'
              omega
        have hkey := key _ rfl
        refine ⟨hs.on, hs.now, hs.later, hs.earlier, hs.last, (fun r k hc => by cases hc), ?_, ?_⟩
        · intro e he
          exact hkey.1 e he
        · obtain ⟨R, H, g1, g2, g3, g4, g5, g6, g7⟩ := hs.gotten
          refine ⟨R, H, g1, ?_, g3, g4, g5, g6, g7⟩
          rw [g2, ← hkey.2]
          rfl
      · cases h
    · cases h
  | replay =>
    simp only [step, replay] at h
    split at h
    · rename_i u hu
      split at h <;> cases h
      rename_i hc
      refine ⟨hi.kept, hi.keptOnce, (fun hn => by cases hn), fun v hv => ?_⟩
      cases hv
      have hs := hi.sub u hu
      refine ⟨hs.on, hs.now, hs.later, hs.earlier, hs.last, hs.busy, hs.count, ?_⟩
      obtain ⟨R, H, g1, g2, g3, g4, g5, g6, g7⟩ := hs.gotten
      have hR := g4 hc.2.1
      have hH := g5 hc.1 hc.2.1
      subst hR hH
      have hg : s.got = [] := by rw [g1]; rfl
      refine ⟨s.stored.filter fun n => decide (u.start ≤ n.real) && decide (n.real < replayStop u) && sel n, [],
        ?_, g2, ?_, (by simp), (fun _ _ => rfl), (fun _ => hc.1), ?_⟩
      · show s.got ++ _ = _
        rw [hg]; simp
      · refine List.Nodup.sublist List.filter_sublist ?_
        exact hi.keptOnce.sublist (by rw [List.append_assoc]; exact List.sublist_append_left _ _)
      · intro _ n
        simp only [List.mem_filter, Bool.and_eq_true, decide_eq_true_eq]
        constructor
        · rintro ⟨h1, ⟨h2, h3⟩, h4⟩
          have hk := hi.kept n (by simp [h1])
          rcases List.mem_append.1 hk with hk | hk
          · exact ⟨hk, ⟨h2, (replay_window (hs.earlier n hk).2).1 h3⟩, h4⟩
          · have h5 := (hs.later n (List.mem_append_right _ hk)).2
            have h6 := replayStop_le u
            omega
        · rintro ⟨h1, h2, h4⟩
          exact ⟨hok n h1, ⟨h2.1, (replay_window (hs.earlier n h1).2).2 h2.2⟩, h4⟩
    · cases h
  | read =>
    simp only [step, read] at h
    split at h
    · rename_i u e hu he
      split at h
      · rename_i hc
        have hs := hi.sub u hu
        obtain ⟨R, H, g1, g2, g3, g4, g5, g6, g7⟩ := hs.gotten
        have hrid := (hb.slotIn e he).2
        have hcnt := hs.count e he
        rw [owed_none hc.2.2.1] at hcnt
        split at h
        · rename_i hm
          cases h
          refine ⟨hi.kept, hi.keptOnce, (fun hn => by cases hn), fun v hv => ?_⟩
          cases hv
          have hd : toDo u e = false := by
            simp only [toDo, Bool.and_eq_false_imp, decide_eq_true_eq, decide_eq_false_iff_not]
            intro _; omega
          refine ⟨hs.on, hs.now, hs.later, hs.earlier, ?_, ?_, ?_, ?_⟩
          · show e.rid ≤ s.rid
            omega
          · intro r k hk; cases hk; rfl
          · intro e' he'
            rw [show s.slot = some e from he] at he'
            cases he'
            rw [hd] at hcnt
            simp [toDo, owed, hcnt]
          · refine ⟨R, H, g1, ?_, g3, g4, g5, g6, g7⟩
            show s.after = H ++ pending _ s.slot
            rw [g2, he]
            simp [pending, toDo]
            omega
        · rename_i hm
          cases h
          refine ⟨hi.kept, hi.keptOnce, (fun hn => by cases hn), fun v hv => ?_⟩
          cases hv
          have hd : toDo u e = true := by
            simp only [toDo, Bool.and_eq_true, decide_eq_true_eq]
            exact ⟨hc.2.2.2, by omega⟩
          refine ⟨hs.on, hs.now, hs.later, hs.earlier, ?_, ?_, ?_, ?_⟩
          · show e.rid ≤ s.rid
            omega
          · intro r k hk; cases hk; rfl
          · intro e' he'
            rw [show s.slot = some e from he] at he'
            cases he'
            rw [hd] at hcnt
            simp [toDo, owed, hcnt]
          · refine ⟨R, H ++ [e.n], ?_, ?_, g3, g4, ?_, g6, g7⟩
            · show s.got ++ _ = _
              rw [g1, List.filter_append, List.map_append, ← List.append_assoc]
              congr 1
              cases h1 : deny e.n <;> cases h2 : sel e.n <;> simp [h1, h2]
            · show s.after = H ++ [e.n] ++ pending _ s.slot
              rw [g2, he]
              simp [pending, toDo]
              exact ⟨hc.2.2.2, by omega⟩
            · intro h1 h2
              rcases hc.2.1 with h3 | h3
              · exact absurd h3 h1
              · rw [show u.replayed = false from h2] at h3; cases h3
      · cases h
    · cases h

theorem rinv_reach {s : St} (h : Reach sel deny Regular s) : RInv sel deny s := by
  induction h with
  | init => exact rinv_init
  | step hs hok ht ih => exact rinv_step (inv_reach hs) ih hok ht

theorem count_map_inj {f : Notif → Got} (hf : ∀ a b, f a = f b → a = b) (l : List Notif) (n : Notif) :
    (l.map f).count (f n) = l.count n := by
  induction l with
  | nil => rfl
  | cons a l ih =>
    rw [List.map_cons, List.count_cons, List.count_cons, ih]
    by_cases h : a = n
    · simp [h]
    · have : f a ≠ f n := fun hc => h (hf a n hc)
      simp [h, this]

theorem count_nodup {l : List Notif} (h : l.Nodup) (n : Notif) (p : Prop) [Decidable p] (hp : n ∈ l ↔ p) :
    l.count n = if p then 1 else 0 := by
  by_cases hn : n ∈ l
  · rw [if_pos (hp.1 hn), h.count, if_pos hn]
  · rw [if_neg (fun hc => hn (hp.2 hc)), List.count_eq_zero_of_not_mem hn]

/-- C42 (part): in a run in which the clock goes forward, the earlier notifications are stored by the
time of the replay and no event is thrown away (`Regular`), once the subscription has replayed and
processed what was published:
* every earlier notification of its window that matches the filter was replayed exactly once, the
  others never, and none of them was delivered live;
* every later notification that matches the filter and is permitted was delivered live exactly once,
  the others never, and none of them was replayed;
* all replayed ones came first and the live ones came in the order they were sent.

What is missing: without these conditions it is false, see the examples below. -/
theorem exactly_once_partial {s : St} {u : Sub} (h : Reach sel deny Regular s) (hu : s.sub = some u)
    (hready : u.start = 0 ∨ u.replayed = true) (hidle : s.slot = none) :
    (∀ n ∈ s.before,
      s.got.count (.replay n) = (if u.start ≠ 0 ∧ InWindow u.start u.stop n ∧ sel n = true then 1 else 0) ∧
      s.got.count (.live n) = 0) ∧
    (∀ n ∈ s.after, s.got.count (.live n) = (if sel n = true ∧ deny n = false then 1 else 0) ∧
      s.got.count (.replay n) = 0) ∧
    (∀ g ∈ s.got, ∃ n ∈ s.before ++ s.after, g = .replay n ∨ g = .live n) ∧
    ∃ R : List Notif, s.got = R.map .replay ++ (s.after.filter fun n => sel n && !deny n).map .live := by
  have hb := inv_reach h
  have hi := rinv_reach h
  have hs := hi.sub u hu
  obtain ⟨R, H, g1, g2, g3, g4, g5, g6, g7⟩ := hs.gotten
  rw [hidle] at g2
  simp only [pending, List.append_nil] at g2
  subst g2
  have hnd : ((s.before ++ s.after).map (·.id)).Nodup := by
    have := hb.nodup
    rw [List.append_assoc, List.map_append, List.nodup_append] at this
    exact this.2.1
  have hnd' : (s.before ++ s.after).Nodup := by
    rw [List.nodup_iff_pairwise_ne] at hnd ⊢
    rw [List.pairwise_map] at hnd
    exact hnd.imp fun hab hc => hab (congrArg _ hc)
  have hna := (List.nodup_append.1 hnd').2.1
  have hdis := (List.nodup_append.1 hnd').2.2
  have hRb : ∀ n, n ∈ R ↔ n ∈ s.before ∧ u.start ≠ 0 ∧ InWindow u.start u.stop n ∧ sel n = true := by
    intro n
    rcases hready with hr | hr
    · have : u.replayed = false := by
        cases hc : u.replayed
        · rfl
        · exact absurd hr (g6 hc)
      rw [g4 this]
      simp [hr]
    · rw [g7 hr]
      have := g6 hr
      constructor
      · rintro ⟨a, b, c⟩; exact ⟨a, this, b, c⟩
      · rintro ⟨a, _, b, c⟩; exact ⟨a, b, c⟩
  have hcr : ∀ n, s.got.count (.replay n) = R.count n := by
    intro n
    rw [g1, List.count_append, count_map_inj (fun a b h => by injection h)]
    have : ((s.after.filter fun n => sel n && !deny n).map Got.live).count (.replay n) = 0 := by
      rw [List.count_eq_zero]; simp
    omega
  have hcl : ∀ n, s.got.count (.live n) = (s.after.filter fun n => sel n && !deny n).count n := by
    intro n
    rw [g1, List.count_append, count_map_inj (fun a b h => by injection h)]
    have : (R.map Got.replay).count (.live n) = 0 := by
      rw [List.count_eq_zero]; simp
    omega
  refine ⟨?_, ?_, ?_, R, g1⟩
  · intro n hn
    rw [hcr, hcl]
    refine ⟨count_nodup g3 n _ (by rw [hRb]; simp [hn]), ?_⟩
    rw [List.count_eq_zero]
    intro hc
    exact hdis n hn n (List.mem_filter.1 hc).1 rfl
  · intro n hn
    rw [hcr, hcl]
    refine ⟨count_nodup (hna.sublist List.filter_sublist) n _ (by simp [List.mem_filter, hn]), ?_⟩
    rw [List.count_eq_zero]
    intro hc
    exact hdis n ((hRb n).1 hc).1 n hn rfl
  · intro g hg
    rw [g1] at hg
    rcases List.mem_append.1 hg with hg | hg
    · obtain ⟨n, hn, rfl⟩ := List.mem_map.1 hg
      exact ⟨n, List.mem_append_left _ ((hRb n).1 hn).1, .inl rfl⟩
    · obtain ⟨n, hn, rfl⟩ := List.mem_map.1 hg
      exact ⟨n, List.mem_append_right _ (List.mem_filter.1 hn).1, .inr rfl⟩

/-! ## Runs -/

def all (_ : Notif) : Bool := true
def nobody (_ : Notif) : Bool := false

/-- notification 1, subscription, notification 2 and 3 -/
def goodRun : List Label :=
  [.tick 10 100, .begin 1, .publish ⟨1, 10, 100⟩ false, .store ⟨1, 10, 100⟩, .otherOn,
   .tick 20 110, .subscribe 50 0,
   .tick 30 120, .begin 2, .publish ⟨2, 30, 120⟩ true, .replay, .read, .otherDone, .finish, .waitEnd ⟨2, 30, 120⟩,
   .begin 3, .publish ⟨3, 30, 120⟩ false, .otherDone, .read, .store ⟨3, 30, 120⟩, .finish]

def regularB (s : St) : Label → Bool
  | .tick _ r => decide (s.real ≤ r)
  | .subscribe _ _ => s.before.all fun n => decide (n.mono < s.mono) && decide (n.real < s.real)
  | .replay => s.before.all fun n => decide (n ∈ s.stored)
  | .discard => false
  | .lateOff => false
  | .stopTime => false
  | _ => true

theorem regularB_ok {s : St} {l : Label} (h : regularB s l = true) : Regular s l := by
  cases l <;> simp_all [regularB, Regular]

def execR (sel deny : Notif → Bool) : List Label → St → Option St
  | [], s => some s
  | l :: ls, s =>
    if regularB s l then
      match step sel deny s l with
      | some t => execR sel deny ls t
      | none => none
    else none

theorem execR_reach {ls : List Label} {s t : St} (h : execR sel deny ls s = some t)
    (hs : Reach sel deny Regular s) : Reach sel deny Regular t := by
  induction ls generalizing s with
  | nil => simp only [execR, Option.some.injEq] at h; exact h ▸ hs
  | cons l ls ih =>
    simp only [execR] at h
    split at h
    · rename_i hr
      split at h
      · rename_i t' ht
        exact ih h (.step hs (regularB_ok hr) ht)
      · cases h
    · cases h

/-- The conditions are met by a run with a replay and live notifications. -/
example : ∃ s u, Reach all nobody Regular s ∧ s.sub = some u ∧ u.replayed = true ∧ s.slot = none ∧
    s.before = [⟨1, 10, 100⟩] ∧ s.after = [⟨2, 30, 120⟩, ⟨3, 30, 120⟩] ∧
    s.got = [.replay ⟨1, 10, 100⟩, .live ⟨2, 30, 120⟩, .live ⟨3, 30, 120⟩] := by
  refine ⟨(execR all nobody goodRun init).get (by decide), ⟨50, 0, 20, 110, true, false, 2, none⟩,
    execR_reach (Option.some_get _).symm .init, ?_⟩
  decide

/-- What a run ends with. -/
def outcome (sel deny : Notif → Bool) (ls : List Label) : Option (List Notif × List Notif × List Got × Bool) :=
  (exec sel deny ls init).map fun s => (s.before, s.after, s.got, s.slot.isNone && (s.sub.map (·.replayed)).getD false)

/-- C42 is false without the conditions: a notification sent just before the subscription was made and
stored only after its replay is never delivered. -/
theorem stored_late_missed :
    outcome all nobody
      [.tick 10 100, .begin 1, .publish ⟨1, 10, 100⟩ false, .tick 20 110, .subscribe 50 0, .replay,
       .store ⟨1, 10, 100⟩] = some ([⟨1, 10, 100⟩], [], [], true) := by decide

/-- A notification sent within the same clock reading as the subscription is made is neither replayed
nor delivered live. -/
theorem same_time_missed :
    outcome all nobody
      [.tick 10 100, .begin 1, .publish ⟨1, 10, 100⟩ false, .store ⟨1, 10, 100⟩, .subscribe 50 0, .replay]
      = some ([⟨1, 10, 100⟩], [], [], true) := by decide

/-- When the real-time clock is set back, a notification is delivered twice. -/
theorem clock_back_twice :
    outcome all nobody
      [.tick 10 100, .subscribe 50 0, .tick 20 90, .begin 1, .publish ⟨1, 20, 90⟩ false, .store ⟨1, 20, 90⟩,
       .replay, .read, .finish]
      = some ([], [⟨1, 20, 90⟩], [.replay ⟨1, 20, 90⟩, .live ⟨1, 20, 90⟩], true) := by decide

/-- A published notification that was not processed in time is thrown away and never delivered. -/
theorem discarded_missed :
    outcome all nobody
      [.tick 10 100, .subscribe 50 0, .replay, .begin 1, .publish ⟨1, 10, 100⟩ false, .store ⟨1, 10, 100⟩,
       .discard] = some ([], [⟨1, 10, 100⟩], [], true) := by decide

/-- Another subscription, made after the notification was published and removed again, makes this
subscription miss the notification. -/
theorem late_unsubscribe_loses :
    outcome all nobody
      [.tick 10 100, .subscribe 50 0, .replay, .begin 1, .publish ⟨1, 10, 100⟩ false, .otherOn, .lateOff]
      = some ([], [⟨1, 10, 100⟩], [], true) := by decide

/-- A notification sent before the stop time and not processed by then is lost. -/
theorem pending_at_stop_lost :
    outcome all nobody
      [.tick 10 100, .subscribe 50 150, .replay, .begin 1, .publish ⟨1, 10, 100⟩ false, .tick 20 150, .stopTime]
      = some ([], [⟨1, 10, 100⟩], [], true) := by decide

/-- A notification sent after the stop time can still be delivered. -/
theorem delivered_after_stop :
    outcome all nobody
      [.tick 10 100, .subscribe 50 150, .replay, .tick 20 160, .begin 1, .publish ⟨1, 20, 160⟩ false, .read, .finish]
      = some ([], [⟨1, 20, 160⟩], [.live ⟨1, 20, 160⟩], true) := by decide

/-- Access control is not asked for replayed notifications: a denied one is delivered. -/
theorem replay_ignores_access :
    outcome all all
      [.tick 10 100, .begin 1, .publish ⟨1, 10, 100⟩ false, .store ⟨1, 10, 100⟩, .tick 20 110, .subscribe 50 0,
       .replay, .begin 2, .publish ⟨2, 20, 110⟩ false, .read, .finish]
      = some ([⟨1, 10, 100⟩], [⟨2, 20, 110⟩], [.replay ⟨1, 10, 100⟩], true) := by decide

theorem outcome_reach {ls : List Label} (h : outcome sel deny ls ≠ none) :
    ∃ s, exec sel deny ls init = some s ∧ Reach sel deny Any s := by
  unfold outcome at h
  cases he : exec sel deny ls init with
  | none => rw [he] at h; exact absurd rfl h
  | some s => exact ⟨s, rfl, exec_reach he .init⟩

end Verif.Replay
