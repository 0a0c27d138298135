import Verif.DsLock

/-!
Properties C14, C15 and C16.
-/
namespace Verif.DsLock

theorem owns_lk {E : Env} {st : St} {h : List Ev} {s k : Nat} (i : Inv E st h) (s0 : s ≠ 0) (o : own E s k h = .yes) :
    (st.lk k).sid = s ∧ st.dead (E.conn s) = false := by
  have hd : st.dead (E.conn s) = false := by
    cases hd : st.dead (E.conn s) with
    | false => rfl
    | true => have := (i.gone s hd).2 k; rw [o] at this; cases this
  have he : st.ended s = false := by
    cases he : st.ended s with
    | false => rfl
    | true => have := ((i.stopped s he).2.2 k).1; rw [o] at this; cases this
  refine ⟨?_, hd⟩
  have g := i.ghost s s0 hd he k
  rw [o] at g
  unfold G Same at g
  split at g <;> grind

/-- Two sessions and two modules in different processes. -/
def exE : Env := ⟨fun s => s + 10, [0, 1, 2]⟩

/-- State and history after some steps. -/
def exRun (ls : List Lab) : Option (List Lk × List Ev) :=
  (run exE ls St.init []).map fun x => ([x.1.lk 0, x.1.lk 1, x.1.lk 2], x.2)

/-- sr_lock of modules 0 and 1 by session 1. -/
def exLock : List Lab :=
  [.call 1 (.lock [0, 1]), .acq 1, .acq 1, .acq 1, .cdl 1, .cdl 1, .cdl 1, .rel 1, .rel 1, .rel 1]

theorem reach_of_run {E : Env} {ls : List Lab} {st : St} {h : List Ev} (e : run E ls St.init [] = some (st, h)) :
    Reach E st h := Reach.run ls .init e

/-! ## C14 -/

/-- While session `s` owns the lock of module `k`, whatever happens next: nobody else changes the data of `k`, nobody (not
even `s`) is granted the lock of `k`, a call of another session that comes to `k` is either kept waiting for the data lock
or refused with the locked error, and sr_get_lock of `k` names `s`.
Partial: holds if sessions unlock only what they have locked, see `failed_unlock_loses_lock`. -/
theorem locked_out_partial {E : Env} {st : St} {h : List Ev} {s k : Nat} (r : Reach E st h) (w : WellUnlocked E h)
    (s0 : s ≠ 0) (o : own E s k h = .yes) :
    (∀ l st' ev, step E st l = some (st', ev) →
      (∀ t, .wrote t k ∈ ev → t = s) ∧ (∀ t ks, .locked t ks ∈ ev → k ∉ ks)) ∧
    (∀ t c todo held, t ≠ s → st.pc t = .acq c (k :: todo) held →
      step E st (.acq t) = none ∨ ∃ st' ev, step E st (.acq t) = some (st', ev) ∧ .refused t k ∈ ev) ∧
    ∃ ts, getLock [st.lk k] = (some true, s, ts) := by
  have i := r.inv w
  obtain ⟨hl, hd⟩ := owns_lk i s0 o
  refine ⟨?_, ?_, ?_⟩
  · intro l st' ev e
    cases l with
    | put t =>
      simp only [step] at e
      split at e
      · next k' todo held hp =>
        simp only [Option.some.injEq, Prod.mk.injEq] at e
        obtain ⟨rfl, rfl⟩ := e
        have hh := i.held t
        rw [hp] at hh
        refine ⟨?_, by simp⟩
        intro t' ht
        simp only [List.mem_singleton, Ev.wrote.injEq] at ht
        obtain ⟨rfl, rfl⟩ := ht
        have := i.mine k t' (Or.inr (hh k (by simp)))
        grind
      · simp only [Option.some.injEq, Prod.mk.injEq] at e
        obtain ⟨rfl, rfl⟩ := e
        simp
      · simp at e
    | cdl t =>
      simp only [step] at e
      split at e
      · split at e <;> (simp only [Option.some.injEq, Prod.mk.injEq] at e; obtain ⟨rfl, rfl⟩ := e; simp)
      · next on done held hp =>
        simp only [Option.some.injEq, Prod.mk.injEq] at e
        obtain ⟨rfl, rfl⟩ := e
        cases on with
        | false => simp
        | true =>
          refine ⟨by simp, ?_⟩
          intro t' ks ht hk
          simp only [if_true, List.mem_singleton, Ev.locked.injEq] at ht
          obtain ⟨rfl, rfl⟩ := ht
          have hh := i.held t'
          obtain ⟨n0, n1, n2, n3⟩ := i.busy t' (by simp [hp])
          have g := i.ghost t' n0 n3 n2 k
          rw [hp] at hh g
          simp only [Held, List.append_nil] at hh
          have hk' : k ∈ done := by rw [← hh.2.1] at hk; simpa using hk
          simp only [G, hk', if_true] at g
          have : t' = s := by rw [← g.2, hl]
          rw [this, o] at g
          simp at g
      · simp at e
    | call t c =>
      simp only [step] at e
      repeat' split at e
      all_goals first
        | (simp at e; done)
        | (simp only [Option.some.injEq, Prod.mk.injEq] at e; obtain ⟨rfl, rfl⟩ := e; simp)
    | acq t =>
      simp only [step] at e
      repeat' split at e
      all_goals first
        | (simp at e; done)
        | (simp only [Option.some.injEq, Prod.mk.injEq] at e; obtain ⟨rfl, rfl⟩ := e; simp; done)
        | (next c _ _ _ _ _ _ _ => simp only [Option.some.injEq, Prod.mk.injEq] at e; obtain ⟨rfl, rfl⟩ := e; cases c <;> simp [failEv])
    | fail t =>
      simp only [step] at e
      split at e
      · next c _ _ _ => simp only [Option.some.injEq, Prod.mk.injEq] at e; obtain ⟨rfl, rfl⟩ := e; cases c <;> simp [failEv]
      all_goals first
        | (simp at e; done)
        | (simp only [Option.some.injEq, Prod.mk.injEq] at e; obtain ⟨rfl, rfl⟩ := e; simp)
    | rev t =>
      simp only [step] at e
      split at e
      · simp only [Option.some.injEq, Prod.mk.injEq] at e; obtain ⟨rfl, rfl⟩ := e; simp
      · next on _ _ => simp only [Option.some.injEq, Prod.mk.injEq] at e; obtain ⟨rfl, rfl⟩ := e; cases on <;> simp
      · simp at e
    | upg t | rel t | stp t | die t | half t =>
      simp only [step] at e
      repeat' split at e
      all_goals first
        | (simp at e; done)
        | (simp only [Option.some.injEq, Prod.mk.injEq] at e; obtain ⟨rfl, rfl⟩ := e; simp)
  · intro t c todo held ht hp
    simp only [step, hp]
    split
    · right
      have hc : dsCheck t (alive st) (st.lk k) = none := by
        have hcn := i.conn k (by rw [hl]; exact s0)
        rw [hl, hd] at hcn
        simp only [Bool.false_eq_true, and_false, or_false] at hcn
        simp [dsCheck, hl, s0, Ne.symm ht, alive, hcn.1, hcn.2, hd]
      rw [hc]
      exact ⟨_, _, rfl, by simp⟩
    · left; rfl
  · exact ⟨(st.lk k).ts, by simp [getLock, getLock.go, hl, s0]⟩

/-- The hypotheses are met: session 1 owns the lock of module 0. -/
example : ∃ st h, Reach exE st h ∧ WellUnlocked exE h ∧ own exE 1 0 h = .yes := by
  refine ⟨_, _, reach_of_run (E := exE) (ls := exLock) rfl, ?_, ?_⟩
  · simp [WellUnlocked]
  · decide

/-- A lock that is not owned is not held: when session `s` lives, runs no call and by its history does not own the lock of
`k` (never locked it, unlocked it or was stopped), the lock does not name it. -/
theorem lock_ends_partial {E : Env} {st : St} {h : List Ev} {s k : Nat} (r : Reach E st h) (w : WellUnlocked E h)
    (s0 : s ≠ 0) (hd : st.dead (E.conn s) = false) (hp : st.pc s = .idle) (o : own E s k h ≠ .yes) : (st.lk k).sid ≠ s := by
  have i := r.inv w
  cases he : st.ended s with
  | true => exact ((i.stopped s he).2.2 k).2
  | false =>
    have g := i.ghost s s0 hd he k
    simp only [hp, G, Same] at g
    grind

/-- Non-vacuous: after sr_unlock. -/
example : exRun (exLock ++ [.call 1 (.unlock [0, 1]), .acq 1, .acq 1, .acq 1, .cdl 1, .cdl 1, .cdl 1, .rel 1, .rel 1, .rel 1])
    = some ([⟨0, 0, 0⟩, ⟨0, 0, 0⟩, ⟨0, 0, 0⟩], [.unlocked 1 [0, 1], .unlockCall 1 [0, 1], .locked 1 [0, 1]]) := by rfl

/-- A lock ends: when by the history nobody owns the lock of `k` (every owner unlocked it, was stopped, or died) and no call
is running, any living session gets the lock. -/
theorem lock_available_partial {E : Env} {st : St} {h : List Ev} {t k : Nat} (r : Reach E st h) (w : WellUnlocked E h)
    (idle : ∀ s, st.pc s = .idle) (free : ∀ s, own E s k h = .no)
    (t0 : t ≠ 0) (tc : E.conn t ≠ 0) (te : st.ended t = false) (td : st.dead (E.conn t) = false) (km : k ∈ E.mods) :
    ∃ st', run E [.call t (.lock [k]), .acq t, .acq t, .cdl t, .cdl t] st h = some (st', .locked t [k] :: h) := by
  have i := r.inv w
  have o2 := r.own2
  have hrd : st.rd k = [] := by
    cases hr : st.rd k with
    | nil => rfl
    | cons a b => have := o2.has k a (Or.inl (by simp [hr])); simp [idle, heldKeys] at this
  have hwr : st.wr k = none := by
    cases hr : st.wr k with
    | none => rfl
    | some a => have := o2.has k a (Or.inr hr); simp [idle, heldKeys] at this
  have hc : ∃ l, dsCheck t (alive st) (st.lk k) = some l ∧ l.sid = 0 := by
    by_cases h0 : (st.lk k).sid = 0
    · exact ⟨_, by simp [dsCheck, h0], h0⟩
    · have hs : (st.lk k).sid ≠ t := lock_ends_partial r w t0 td (idle t) (by simp [free])
      have hdead : st.dead (E.conn (st.lk k).sid) = true := by
        cases hd : st.dead (E.conn (st.lk k).sid) with
        | true => rfl
        | false => exact absurd rfl (lock_ends_partial r w h0 hd (idle _) (by simp [free]))
      have hcn := i.conn k h0
      refine ⟨Lk.free, ?_, rfl⟩
      have ha : alive st (st.lk k).cid = false := by
        simp only [alive]
        rcases hcn.2 with hx | hx
        · rw [hx, hdead]; simp
        · simp [hx.1]
      simp [dsCheck, h0, hs, ha]
  obtain ⟨l, hl, hl0⟩ := hc
  have e1 : step E st (.call t (.lock [k])) =
      some ({ st with pc := upd st.pc t (.acq (.lock [k]) [k] []) }, []) := by
    simp [step, idle, t0, tc, te, td, Call.keys, km]
  have hal : alive { st with pc := upd st.pc t (.acq (.lock [k]) [k] []) } = alive st := rfl
  simp only [run, e1]
  simp only [step, upd_same, grant, hwr, hrd, hal, hl, decide_true, Bool.and_self, if_true, List.nil_append]
  simp [take, upd_same, enter, changeOne, hl0]

/-- Non-vacuous: the owner died, session 2 gets the locks. -/
example : exRun (exLock ++ [.die 11, .call 2 (.lock [0, 1]), .acq 2, .acq 2, .acq 2, .cdl 2, .cdl 2, .cdl 2]) =
    some ([⟨12, 2, 3⟩, ⟨12, 2, 4⟩, ⟨0, 0, 0⟩], [.locked 2 [0, 1], .died 11, .locked 1 [0, 1]]) := by rfl

/-- The full property does not hold: session 1 locks module 0, then an sr_unlock of modules 0 and 1 fails because module 1
is not locked. Reversing its partial effect forgets the connection of the lock (sysrepo.c 4880-4886), the lock then looks like
one of a dead process and session 2 locks the module although session 1 lives and has never unlocked it. -/
theorem failed_unlock_loses_lock :
    ∃ st h, Reach exE st (.locked 2 [0] :: h) ∧ own exE 1 0 h = .yes ∧ .unlockErr 1 [0, 1] ∈ h ∧
      (∀ c, .died c ∉ h) ∧ .stopCall 1 ∉ h := by
  refine ⟨_, _, reach_of_run (E := exE) (ls := [.call 1 (.lock [0]), .acq 1, .acq 1, .cdl 1, .cdl 1, .rel 1, .rel 1,
    .call 1 (.unlock [0, 1]), .acq 1, .acq 1, .acq 1, .cdl 1, .cdl 1, .rev 1, .rev 1, .rel 1, .rel 1, .rel 1,
    .call 2 (.lock [0]), .acq 2, .acq 2, .cdl 2, .cdl 2]) rfl, ?_, ?_, ?_, ?_⟩
  · decide
  · decide
  · intro c; simp
  · decide

/-! ## C15 -/

/-- sr_lock and sr_unlock of several modules: when the call succeeds all of them are locked (unlocked), when it fails the
session has exactly the locks it had before. Interleaved with any other calls and crashes.
Partial: holds if sessions unlock only what they have locked. -/
theorem all_or_nothing_partial {E : Env} {st st' : St} {h : List Ev} {l : Lab} {ev : List Ev} {t : Nat} {ks : List Nat}
    (r : Reach E st h) (e : step E st l = some (st', ev)) (w : WellUnlocked E (ev.reverse ++ h)) :
    (.locked t ks ∈ ev → ∀ k ∈ ks, (st'.lk k).sid = t) ∧
    (.lockErr t ks ∈ ev → ∀ k, (st'.lk k).sid = t ↔ own E t k h = .yes) ∧
    (.unlocked t ks ∈ ev → ∀ k ∈ ks, (st'.lk k).sid ≠ t) ∧
    (.unlockErr t ks ∈ ev → ∀ k ∈ ks, (st'.lk k).sid = t) := by
  have i := r.inv w.tail
  cases l with
  | cdl s =>
    simp only [step] at e
    split at e
    · split at e <;> (simp only [Option.some.injEq, Prod.mk.injEq] at e; obtain ⟨rfl, rfl⟩ := e; simp)
    · next on done held hp =>
      simp only [Option.some.injEq, Prod.mk.injEq] at e
      obtain ⟨rfl, rfl⟩ := e
      have hh := i.held s
      obtain ⟨n0, n1, n2, n3⟩ := i.busy s (by simp [hp])
      have g := i.ghost s n0 n3 n2
      rw [hp] at hh g
      simp only [Held, List.append_nil] at hh
      cases on with
      | true =>
        refine ⟨?_, by simp, by simp, by simp⟩
        simp only [if_true, List.mem_singleton, Ev.locked.injEq, and_imp]
        rintro rfl rfl k hk
        have g := g k
        have hk' : k ∈ done := by rw [← hh.2.1] at hk; simpa using hk
        simp only [G, hk', if_true] at g
        exact g.2
      | false =>
        refine ⟨by simp, by simp, ?_, by simp⟩
        simp only [Bool.false_eq_true, if_false, List.mem_singleton, Ev.unlocked.injEq, and_imp]
        rintro rfl rfl k hk
        have g := g k
        have hk' : k ∈ done := by rw [← hh.2.1] at hk; simpa using hk
        simp only [G, hk', if_true] at g
        exact g.2
    · simp at e
  | acq s =>
    simp only [step] at e
    split at e
    · next c k todo held hp =>
      have hh := i.held s
      obtain ⟨n0, n1, n2, n3⟩ := i.busy s (by simp [hp])
      have g := i.ghost s n0 n3 n2
      rw [hp] at hh g
      split at e
      · split at e
        · simp only [Option.some.injEq, Prod.mk.injEq] at e; obtain ⟨rfl, rfl⟩ := e; simp
        · simp only [Option.some.injEq, Prod.mk.injEq] at e; obtain ⟨rfl, rfl⟩ := e
          cases c <;> simp [failEv, Held, G, Same, Call.keys] at *
          case lock => rintro rfl rfl x; have := g x; grind
          case unlock => rintro rfl rfl x; have := g x; grind
      · simp at e
    · simp only [Option.some.injEq, Prod.mk.injEq] at e; obtain ⟨rfl, rfl⟩ := e; simp
    · simp at e
  | fail s =>
    simp only [step] at e
    split at e
    · next c todo held hp =>
      have hh := i.held s
      obtain ⟨n0, n1, n2, n3⟩ := i.busy s (by simp [hp])
      have g := i.ghost s n0 n3 n2
      rw [hp] at hh g
      simp only [Option.some.injEq, Prod.mk.injEq] at e; obtain ⟨rfl, rfl⟩ := e
      cases c <;> simp [failEv, Held, G, Same, Call.keys] at *
      case lock => rintro rfl rfl x; have := g x; grind
      case unlock => rintro rfl rfl x; have := g x; grind
    all_goals first
      | (simp at e; done)
      | (simp only [Option.some.injEq, Prod.mk.injEq] at e; obtain ⟨rfl, rfl⟩ := e; simp)
  | rev s =>
    simp only [step] at e
    split at e
    · simp only [Option.some.injEq, Prod.mk.injEq] at e; obtain ⟨rfl, rfl⟩ := e; simp
    · next on held hp =>
      obtain ⟨n0, n1, n2, n3⟩ := i.busy s (by simp [hp])
      have g := i.ghost s n0 n3 n2
      rw [hp] at g
      cases on with
      | false => exact (g 0).elim
      | true =>
        simp only [Option.some.injEq, Prod.mk.injEq] at e; obtain ⟨rfl, rfl⟩ := e
        simp [G, Same] at *
        rintro rfl rfl x; have := g x; grind
    · simp at e
  | call s c =>
    simp only [step] at e
    repeat' split at e
    all_goals first
      | (simp at e; done)
      | (simp only [Option.some.injEq, Prod.mk.injEq] at e; obtain ⟨rfl, rfl⟩ := e; simp)
  | upg s | put s | rel s | stp s | die s | half s =>
    simp only [step] at e
    repeat' split at e
    all_goals first
      | (simp at e; done)
      | (simp only [Option.some.injEq, Prod.mk.injEq] at e; obtain ⟨rfl, rfl⟩ := e; simp)

/-- Non-vacuous: session 1 has locked modules 0 and 1, then locking 2 and 1 fails and 2 is not locked. -/
example : exRun (exLock ++ [.call 1 (.lock [2, 1]), .acq 1, .acq 1, .acq 1, .cdl 1, .cdl 1, .rev 1, .rev 1]) =
    some ([⟨11, 1, 1⟩, ⟨11, 1, 2⟩, ⟨11, 0, 0⟩], [.lockErr 1 [2, 1], .locked 1 [0, 1]]) := by rfl

/-- `sr_change_dslock` alone, sysrepo.c 4802-4892, on locks that nobody else touches (they are write-locked): the loop with
the reversal of what has been done. -/
def changeAll (on : Bool) (cid sid now : Nat) : List Lk → Bool × List Lk
  | [] => (true, [])
  | l :: ls =>
    match changeOne on cid sid now l with
    | none => (false, l :: ls)
    | some l' =>
      match changeAll on cid sid now ls with
      | (true, ls') => (true, l' :: ls')
      | (false, ls') => (false, revertOne on sid now l' :: ls')

/-- sr_lock and sr_unlock over several modules, also when the session does not own all the locks: success changes the owner
of all of them, failure keeps the owner of all of them. -/
theorem change_all_or_nothing (on : Bool) (cid sid now : Nat) (s0 : sid ≠ 0) : ∀ ls : List Lk,
    (∀ l ∈ ls, l.sid = 0 ∨ l.sid = sid) →
    match changeAll on cid sid now ls with
    | (true, ls') => ls'.map Lk.sid = ls.map fun _ => if on then sid else 0
    | (false, ls') => ls'.map Lk.sid = ls.map Lk.sid
  | [], _ => by simp [changeAll]
  | l :: ls, hs => by
    have ih := change_all_or_nothing on cid sid now s0 ls fun x hx => hs x (by simp [hx])
    have hl := hs l (by simp)
    unfold changeAll
    cases hc : changeOne on cid sid now l with
    | none => simp
    | some l' =>
      simp only [changeOne] at hc
      cases ha : changeAll on cid sid now ls with
      | mk b ls' =>
        rw [ha] at ih
        have h1 : l'.sid = (if on then sid else 0) ∧ l.sid = (if on then 0 else sid) := by
          cases on <;> simp only [Bool.false_eq_true, if_true, if_false] at hc ⊢ <;> split at hc <;>
            first
            | (simp at hc; done)
            | (simp only [Option.some.injEq] at hc; subst hc; simp [Lk.free]; grind)
        cases b <;> cases on <;> simp_all [revertOne]

/-- Non-vacuous. -/
example : changeAll false 11 1 9 [⟨11, 1, 1⟩, ⟨0, 0, 0⟩] = (false, [⟨0, 1, 9⟩, ⟨0, 0, 0⟩]) ∧
    changeAll true 11 1 9 [⟨0, 0, 0⟩, ⟨0, 0, 0⟩] = (true, [⟨11, 1, 9⟩, ⟨11, 1, 9⟩]) := by decide

/-- A failed sr_unlock is not without effect: the connection of the lock and the time of locking are lost. -/
theorem failed_unlock_forgets_connection : ∃ ls, (changeAll false 11 1 9 ls).1 = false ∧ (changeAll false 11 1 9 ls).2 ≠ ls :=
  ⟨[⟨11, 1, 1⟩, ⟨0, 0, 0⟩], by decide⟩

/-! ## C16 -/

theorem go_spec {s : Nat} (s0 : s ≠ 0) : ∀ (t : List Lk) {ts : Nat},
    (if ∀ x ∈ t, x.sid = s then getLock.go t s ts = (true, s, ts) else True) ∧
    (¬ (∀ x ∈ t, x.sid = s) → ∃ a b, getLock.go t s ts = (false, a, b))
  | [], ts => by simp [getLock.go]
  | l :: t, ts => by
    have ih := go_spec s0 t (ts := ts)
    by_cases h0 : l.sid = 0
    · constructor
      · split
        · next hx => have := hx l (by simp); grind
        · trivial
      · intro _; exact ⟨s, ts, by simp [getLock.go, h0]⟩
    · by_cases hs : l.sid = s
      · simp only [getLock.go, s0, if_false, hs, ne_eq, not_true_eq_false, List.mem_cons, forall_eq_or_imp, true_and]
        exact ih
      · constructor
        · split
          · next hx => exact absurd (hx l (by simp)) hs
          · trivial
        · intro _; exact ⟨s, ts, by simp [getLock.go, h0, s0, Ne.symm hs]⟩

/-- sr_get_lock of at least one module, the locks not changing meanwhile: says locked by `s` exactly if all the modules are
locked by `s`, with the time when the first of them was locked; otherwise says not locked. -/
theorem get_lock_truth_partial (ls : List Lk) (hn : ls ≠ []) (s ts : Nat) :
    (getLock ls = (some true, s, ts) ↔ s ≠ 0 ∧ (∀ l ∈ ls, l.sid = s) ∧ ls.head?.map Lk.ts = some ts) ∧
    (getLock ls = (some false, 0, 0) ↔ ¬ ∃ s, s ≠ 0 ∧ ∀ l ∈ ls, l.sid = s) := by
  cases ls with
  | nil => simp at hn
  | cons l t =>
    by_cases h0 : l.sid = 0
    · simp [getLock, getLock.go, h0]
      grind
    · have hg := go_spec h0 t (ts := l.ts)
      by_cases ha : ∀ x ∈ t, x.sid = l.sid
      · have hg := hg.1
        rw [if_pos ha] at hg
        simp only [getLock, getLock.go, h0, if_false, if_true, hg]
        constructor
        · simp; grind
        · constructor
          · simp
          · intro hx; exact absurd ⟨l.sid, h0, by simpa using ha⟩ hx
      · obtain ⟨x, y, hxy⟩ := hg.2 ha
        simp only [getLock, getLock.go, h0, if_false, if_true, hxy]
        simp
        grind

/-- Non-vacuous, all the cases. -/
example : getLock [⟨11, 1, 5⟩, ⟨11, 1, 6⟩] = (some true, 1, 5) ∧ getLock [⟨11, 1, 5⟩, ⟨12, 2, 6⟩] = (some false, 0, 0) ∧
    getLock [⟨11, 1, 5⟩, ⟨0, 0, 0⟩] = (some false, 0, 0) := by decide

/-- With no module (none readable by the user) the answer is never written. -/
theorem get_lock_no_module : (getLock []).1 = none := by decide

/-- The locks are read one by one: sr_get_lock can say that session 1 has locked both modules although it never had both
locked at one time (the first value read is of a state before an sr_unlock, the second one of a state after the next
sr_lock). -/
theorem get_lock_not_snapshot : ∃ s1 h1 s2 h2, Reach exE s1 h1 ∧ Reach exE s2 (h2 ++ h1) ∧
    getLock [s1.lk 0, s2.lk 1] = (some true, 1, 1) ∧
    .locked 1 [0] ∈ h1 ∧ .unlocked 1 [0] ∈ h2 ∧ .locked 1 [1] ∈ h2 ∧ ∀ ks, .locked 1 ks ∈ h2 ++ h1 → ks = [0] ∨ ks = [1] := by
  refine ⟨_, [.locked 1 [0]], _, [.locked 1 [1], .unlocked 1 [0], .unlockCall 1 [0]],
    reach_of_run (E := exE) (ls := [.call 1 (.lock [0]), .acq 1, .acq 1, .cdl 1, .cdl 1, .rel 1, .rel 1]) rfl,
    reach_of_run (E := exE) (ls := [.call 1 (.lock [0]), .acq 1, .acq 1, .cdl 1, .cdl 1, .rel 1, .rel 1,
      .call 1 (.unlock [0]), .acq 1, .acq 1, .cdl 1, .cdl 1, .rel 1, .rel 1,
      .call 1 (.lock [1]), .acq 1, .acq 1, .cdl 1, .cdl 1]) rfl, ?_, ?_, ?_, ?_, ?_⟩
  · rfl
  · decide
  · decide
  · decide
  · intro ks; simp; grind

/-- A lock of a dead process is still reported as held: sr_get_lock does not check the connection. -/
theorem get_lock_reports_dead : ∃ st h, Reach exE st h ∧ own exE 1 0 h = .no ∧ .died 11 ∈ h ∧
    getLock [st.lk 0] = (some true, 1, 1) := by
  refine ⟨_, _, reach_of_run (E := exE) (ls := exLock ++ [.die 11]) rfl, ?_, ?_, ?_⟩
  · decide
  · decide
  · rfl

end Verif.DsLock
