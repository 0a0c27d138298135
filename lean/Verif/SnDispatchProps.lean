import Verif.SnDispatchLemmas
/-!
C98: the dispatch thread passes every notification to the callback, once, in order, with the data of its subscription.
C99: nothing is passed after `srsn_terminate` returned.
-/
namespace Verif.SnDispatch

/-! ## C98 -/

/-- **C98.** For all numbers of subscriptions added, terminated and added again in their places, and all schedules: what was
passed to the callback from a subscription are the first notifications sent to it, each once and in their order. -/
theorem passed_in_order {t : Prop} {s : St} (h : Reach t s) (p : Nat) : ∃ rest, s.sent p = passed s.log p ++ rest := by
  obtain ⟨Z, hi⟩ := inv_reach h
  exact ⟨s.queue p, hi.sent p⟩

/-- **C98.** Every call of the callback has the data with which the subscription of the notification was added. -/
theorem passed_with_data {t : Prop} {s : St} (h : Reach t s) {p m d : Nat} (hm : (p, m, d) ∈ s.log) : s.added p = some d := by
  obtain ⟨Z, hi⟩ := inv_reach h
  exact hi.logOk (p, m, d) hm

/-- **C98.** When a subscription has been closed, all its notifications were passed before. -/
theorem all_passed {t : Prop} {s : St} (h : Reach t s) {p : Nat} (hp : p < s.npipes) (hc : ¬ Open s p) :
    passed s.log p = s.sent p := by
  obtain ⟨Z, hi⟩ := inv_reach h
  rw [hi.sent p, (hi.closed p hp hc).1]; simp

/-- **C98.** Only terminated subscriptions that were added are closed. -/
theorem only_terminated_closed {t : Prop} {s : St} (h : Reach t s) {p : Nat} (hp : p < s.npipes) (hc : ¬ Open s p) :
    s.hup p = true ∧ ∃ d, s.added p = some d := by
  obtain ⟨Z, hi⟩ := inv_reach h
  exact (hi.closed p hp hc).2

/-- **C98.** The arrays are never accessed out of their bounds. -/
theorem in_bounds {t : Prop} {s : St} (h : Reach t s) : s.ub = false := by
  obtain ⟨Z, hi⟩ := inv_reach h
  exact hi.ub

theorem filterMap_nodup {Z : List (Option Nat × Nat)} (h : Z.Pairwise (fun a b => a.1 = none ∨ a.1 ≠ b.1)) :
    (Z.filterMap (·.1)).Nodup := by
  induction Z with
  | nil => simp
  | cons z Z ih =>
    rw [List.pairwise_cons] at h
    cases hz : z.1 with
    | none => rw [List.filterMap_cons_none (by simpa using hz)]; exact ih h.2
    | some f =>
      rw [List.filterMap_cons_some (by simpa using hz)]
      rw [List.nodup_cons]
      refine ⟨?_, ih h.2⟩
      intro hm
      rw [List.mem_filterMap] at hm
      obtain ⟨y, hy, hyf⟩ := hm
      rcases h.1 y hy with h1 | h1
      · rw [hz] at h1; cases h1
      · exact h1 (by rw [hz]; exact hyf.symm)

theorem countP_filterMap (Z : List (Option Nat × Nat)) : Z.countP (fun z => z.1.isSome) = (Z.filterMap (·.1)).length := by
  induction Z with
  | nil => rfl
  | cons z Z ih =>
    cases hz : z.1 with
    | none => rw [List.filterMap_cons_none (by simpa using hz), List.countP_cons, hz]; simpa using ih
    | some f => rw [List.filterMap_cons_some (by simpa using hz), List.countP_cons, hz]; simpa using ih

/-- **C98.** `srsn_read_dispatch_count` is the number of subscriptions that were added and have not been closed. -/
theorem count_exact {t : Prop} {s : St} (h : Reach t s) :
    dispatchCount s = ((List.range s.npipes).filter (fun p => (s.added p).isSome && decide (s.fdt (s.rfd p) = some p))).length := by
  obtain ⟨Z, hi⟩ := inv_reach h
  unfold dispatchCount
  rw [hi.va, countP_filterMap, ← List.length_map (as := (List.range s.npipes).filter _) (f := s.rfd)]
  apply List.Perm.length_eq
  rw [List.perm_ext_iff_of_nodup (filterMap_nodup hi.uniq)]
  · intro f
    simp only [List.mem_filterMap, List.mem_map, List.mem_filter, List.mem_range, Bool.and_eq_true, decide_eq_true_eq]
    constructor
    · rintro ⟨⟨zf, zd⟩, hz, hzf⟩
      simp only at hzf
      subst hzf
      obtain ⟨p, hp, ha⟩ := hi.own f zd hz
      have hk := hi.kern f p hp
      exact ⟨p, ⟨hk.2, by simp [ha], by rw [hk.1]; exact hp⟩, hk.1⟩
    · rintro ⟨p, ⟨_, ha, ho⟩, rfl⟩
      obtain ⟨d, hd⟩ := Option.isSome_iff_exists.1 ha
      exact ⟨_, hi.mem p d hd ho, rfl⟩
  · rw [List.nodup_iff_pairwise_ne, List.pairwise_map]
    refine List.Pairwise.imp_of_mem ?_ (List.Pairwise.filter _ List.nodup_range)
    intro a b ha hb hne e
    simp only [List.mem_filter, Bool.and_eq_true, decide_eq_true_eq] at ha hb
    have h1 := ha.2.2
    rw [e, hb.2.2] at h1
    cases h1
    exact hne rfl

/-- A schedule. -/
def exec : List Act → St → Option St
  | [], s => some s
  | a :: as, s => (step s a).bind (exec as)

theorem reach_exec {t : Prop} {as : List Act} {s s' : St} (h : Reach t s) (ht : ∀ p, .timeout p ∈ as → t)
    (he : exec as s = some s') : Reach t s' := by
  induction as generalizing s with
  | nil => simp only [exec, Option.some.injEq] at he; exact he ▸ h
  | cons a as ih =>
    simp only [exec] at he
    cases hs : step s a with
    | none => simp [hs] at he
    | some s1 =>
      rw [hs] at he
      exact ih (.step a h (fun p e => ht p (by simp [e])) hs) (fun p hp => ht p (by simp [hp])) he

/-- Three subscriptions, the first is terminated, its descriptor is used for a fourth one, and that is added. -/
def run : List Act :=
  [.create 5, .create 6, .create 7, .add 5 50, .add 6 60, .send 0 1, .send 0 2, .send 1 3, .hangup 0, .poll] ++
    List.replicate 7 .item ++ [.send 1 4] ++ List.replicate 4 .item ++
    [.finish 0, .create 5, .add 7 70, .add 5 80, .send 3 8, .send 2 9, .poll] ++ List.replicate 10 .item

theorem run_some : (exec run {}).isSome := by decide +kernel

/-- The hypotheses are met, by a state with all of that. -/
example : ∃ s, Reach False s ∧ s.log = [(0, 1, 50), (0, 2, 50), (1, 3, 60), (1, 4, 60), (2, 9, 70), (3, 8, 80)] ∧
    dispatchCount s = 3 ∧ s.arr.pfds = [some 6, some 7, some 5] ∧ s.done 0 = true ∧ ¬ Open s 0 := by
  refine ⟨(exec run {}).get run_some, reach_exec .init ?_ (Option.some_get run_some).symm, ?_, ?_, ?_, ?_, ?_⟩
  · intro p hp
    simp [run] at hp
  · decide +kernel
  · decide +kernel
  · decide +kernel
  · decide +kernel
  · unfold Open; decide +kernel

/-! ## C99 -/

theorem done_closed {s : St} (h : Reach False s) : ∀ p, s.done p = true → p < s.npipes ∧ ¬ Open s p := by
  induction h with
  | init => intro p hp; simp at hp
  | @step s s' a hr ha hs ih =>
    have hstay : ∀ (f : Nat → Option Nat), (∀ x q, f x = some q → s.fdt x = some q) → ∀ p, s.done p = true → f (s.rfd p) ≠ some p := by
      intro f hf p hp hc
      exact (ih p hp).2 (hf _ _ hc)
    cases a with
    | create f =>
      simp only [step] at hs
      split at hs
      · cases hs
      · cases hs
        intro p hp
        have := ih p hp
        refine ⟨by simp only; omega, ?_⟩
        unfold Open
        simp only
        rw [upd_ne s.rfd f (by omega : p ≠ s.npipes)]
        by_cases e : s.rfd p = f
        · rw [e, upd_same]; simp; omega
        · rw [upd_ne _ _ e]; exact this.2
    | send p m =>
      simp only [step] at hs
      split at hs
      · cases hs; exact ih
      · cases hs
    | hangup p =>
      simp only [step] at hs
      split at hs
      · cases hs; exact ih
      · cases hs
    | finish p =>
      simp only [step] at hs
      split at hs
      · rename_i hc
        cases hs
        intro q hq
        simp only at hq
        by_cases e : q = p
        · subst e
          refine ⟨hc.1, ?_⟩
          intro ho
          unfold Open at ho
          simp only at ho
          rw [ho] at hc
          simp [hc.2.1] at hc
        · rw [upd_ne _ _ e] at hq; exact ih q hq
      · cases hs
    | timeout p => exact absurd (ha p rfl) id
    | add f d =>
      simp only [step] at hs
      split at hs
      · split at hs
        · cases hs
        · cases hs; exact ih
      · cases hs
    | poll =>
      simp only [step, poll] at hs
      split at hs
      · split at hs
        · cases hs
        · cases hs; exact ih
      · cases hs
    | item =>
      simp only [step] at hs
      split at hs
      · cases hs
      · rename_i x hx
        split at hs
        · cases hs
        · simp only [Option.some.injEq] at hs
          subst hs
          unfold item
          repeat' split
          all_goals first
            | exact ih
            | (intro p hp
               refine ⟨(ih p hp).1, ?_⟩
               unfold Open
               simp only
               apply hstay _ ?_ p hp
               intro y q hy
               first
                 | exact hy
                 | (unfold upd at hy
                    split at hy
                    · cases hy
                    · exact hy))

/-- **C99** (partial: no wait in `srsn_terminate` times out; a timeout is below). Once `srsn_terminate` of a subscription has
returned, no notification of it is passed to the callback any more. -/
theorem none_after_terminate_partial {s s' : St} (h : Reach False s) {p : Nat} (hd : s.done p = true) {a : Act}
    (hs : step s a = some s') : passed s'.log p = passed s.log p := by
  have hno := (done_closed h p hd).2
  obtain ⟨Z, hi⟩ := inv_reach h
  cases a with
  | create f =>
    simp only [step] at hs
    split at hs <;> cases hs; rfl
  | send p m => simp only [step] at hs; split at hs <;> cases hs; rfl
  | hangup p => simp only [step] at hs; split at hs <;> cases hs; rfl
  | finish p => simp only [step] at hs; split at hs <;> cases hs; rfl
  | timeout p => simp only [step] at hs; split at hs <;> cases hs; rfl
  | add f d =>
    simp only [step] at hs
    split at hs
    · split at hs <;> cases hs; rfl
    · cases hs
  | poll =>
    simp only [step, poll] at hs
    split at hs
    · split at hs <;> cases hs; rfl
    · cases hs
  | item =>
    simp only [step] at hs
    split at hs
    · cases hs
    · rename_i x hx
      split at hs
      · cases hs
      · simp only [Option.some.injEq] at hs
        subst hs
        unfold item
        split
        · rfl
        · split
          · split
            · split <;> rfl
            · split
              · rfl
              · rename_i q hq
                split
                · rfl
                · rfl
                · simp only
                  rw [passed_append]
                  rw [if_neg]
                  intro e
                  subst e
                  obtain ⟨f, hf, hfq⟩ := Option.bind_eq_some_iff.1 hq
                  have := (hi.kern f q hfq).1
                  exact hno (by unfold Open; rw [this]; exact hfq)
            · split <;> rfl
          · rfl

/-- **C99** (partial, as above). All notifications of the subscription were passed before `srsn_terminate` returned. -/
theorem all_before_terminate_partial {s : St} (h : Reach False s) {p : Nat} (hd : s.done p = true) :
    passed s.log p = s.sent p := by
  have := done_closed h p hd
  exact all_passed h this.1 this.2

/-- The callback takes longer than the timeout of one second. -/
def slowRun : List Act :=
  [.create 5, .add 5 50, .send 0 1, .send 0 2, .poll, .item, .item, .hangup 0, .timeout 0]

theorem slowRun_some : (exec slowRun {}).isSome := by decide +kernel

theorem slowRun_item : (step ((exec slowRun {}).get slowRun_some) .item).isSome := by decide +kernel

/-- **C99 does not hold of the code**: when a call of the callback takes longer than a second, `srsn_terminate` returns and
other notifications of the subscription are passed to the callback after that. -/
theorem passed_after_terminate : ∃ s s', Reach True s ∧ s.done 0 = true ∧ step s .item = some s' ∧
    passed s.log 0 = [1] ∧ passed s'.log 0 = [1, 2] := by
  refine ⟨(exec slowRun {}).get slowRun_some, (step ((exec slowRun {}).get slowRun_some) .item).get slowRun_item,
    reach_exec .init (fun _ _ => trivial) (Option.some_get slowRun_some).symm, ?_, (Option.some_get slowRun_item).symm, ?_, ?_⟩
  · decide +kernel
  · decide +kernel
  · decide +kernel

end Verif.SnDispatch
