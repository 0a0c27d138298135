/-!
Model of the condition variable of sysrepo: src/sr_cond/sr_cond_futex.c, together with the mutex its callers hold.

Threads run their atomic steps in an arbitrary interleaving: every access to the futex word, every system call and
every mutex operation is one step. All the callers of `sr_cond_broadcast` hold the mutex (common.c 2762, 2855,
replay.c 170, sysrepo.c 672), so a broadcast is modelled only for its owner. The mutex is robust: a thread that dies
releases it. Assumed of the kernel: FUTEX_WAIT atomically compares and goes to sleep, FUTEX_WAKE wakes all.
-/
namespace Verif.FutexCond

abbrev Tid := Nat

/-- Result of a wait. -/
inductive Result where
  | success
  | timeout
deriving DecidableEq

/-- Where a thread is. -/
inductive Th where
  /-- not using the condition -/
  | idle
  /-- owns the mutex -/
  | locked
  /-- in `sr_cond_wait_` after line 124, with `last_val` -/
  | loaded (v : Nat)
  /-- after line 127 (mutex released), about to call FUTEX_WAIT -/
  | released (v : Nat)
  /-- asleep in FUTEX_WAIT -/
  | sleeping (v : Nat)
  /-- FUTEX_WAIT returned, about to lock the mutex, line 136 -/
  | woken (r : Result)
  /-- in `sr_cond_broadcast`, loaded the word for the increment, line 163 -/
  | bload (v : Nat)
  /-- stored the incremented word, about to call FUTEX_WAKE, line 165 -/
  | bstored
  | dead
deriving DecidableEq

/-- State. `stores` and `born` are history: the number of all increments so far and its value when a thread started
its current wait; `wakes` and `bornWakes` the same for finished broadcasts. -/
structure State where
  futex : Nat
  mutex : Option Tid
  th : Tid → Th
  stores : Nat
  wakes : Nat
  born : Tid → Nat
  bornWakes : Tid → Nat

/-- `sr_cond_init`, sr_cond_futex.c 37-43. -/
def init : State := ⟨1, none, fun _ => .idle, 0, 0, fun _ => 0, fun _ => 0⟩

/-- `uint32_t`. -/
def u32 (n : Nat) : Nat := n % 4294967296

/-- Set a thread. -/
def set {α : Type} (f : Tid → α) (t : Tid) (x : α) : Tid → α := fun i => if i = t then x else f i

/-- Effect of FUTEX_WAKE on a thread. -/
def wake : Th → Th
  | .sleeping _ => .woken .success
  | x => x

/-- Atomic steps. -/
inductive Act where
  /-- lock the mutex, also at the end of a wait (line 136) -/
  | lock
  | unlock
  /-- line 124 -/
  | load
  /-- line 127 -/
  | release
  /-- the system call of line 132 -/
  | futexWait
  /-- it returns with ETIMEDOUT -/
  | timeout
  /-- it returns with EINTR and is called again, line 133 -/
  | eintr
  /-- line 163, load -/
  | bload
  /-- line 163, store -/
  | bstore
  /-- line 165 -/
  | bwake
  /-- the thread dies -/
  | crash

/-- One step of thread `t`; `none` when the thread cannot do it now. -/
def step (s : State) (t : Tid) : Act → Option State
  | .lock =>
    match s.mutex, s.th t with
    | none, .idle => some { s with mutex := some t, th := set s.th t .locked }
    | none, .woken _ => some { s with mutex := some t, th := set s.th t .locked }
    | _, _ => none
  | .unlock =>
    match s.th t with
    | .locked => some { s with mutex := none, th := set s.th t .idle }
    | _ => none
  | .load =>
    match s.th t with
    | .locked =>
      some { s with th := set s.th t (.loaded s.futex), born := set s.born t s.stores, bornWakes := set s.bornWakes t s.wakes }
    | _ => none
  | .release =>
    match s.th t with
    | .loaded v => some { s with mutex := none, th := set s.th t (.released v) }
    | _ => none
  | .futexWait =>
    match s.th t with
    | .released v => some { s with th := set s.th t (if s.futex = v then .sleeping v else .woken .success) }
    | _ => none
  | .timeout =>
    match s.th t with
    | .sleeping _ => some { s with th := set s.th t (.woken .timeout) }
    | _ => none
  | .eintr =>
    match s.th t with
    | .sleeping v => some { s with th := set s.th t (.released v) }
    | _ => none
  | .bload =>
    match s.th t with
    | .locked => some { s with th := set s.th t (.bload s.futex) }
    | _ => none
  | .bstore =>
    match s.th t with
    | .bload v => some { s with futex := u32 (v + 1), stores := s.stores + 1, th := set s.th t .bstored }
    | _ => none
  | .bwake =>
    match s.th t with
    | .bstored => some { s with wakes := s.wakes + 1, th := set (fun i => wake (s.th i)) t .locked }
    | _ => none
  | .crash => some { s with mutex := if s.mutex = some t then none else s.mutex, th := set s.th t .dead }

/-- Reachable states. -/
inductive Reach : State → Prop
  | init : Reach init
  | step {s s' : State} {t : Tid} {a : Act} : Reach s → step s t a = some s' → Reach s'

/-! ## Lemmas -/

theorem set_same {α : Type} (f : Tid → α) (t : Tid) (x : α) : set f t x t = x := by simp [set]
theorem set_ne {α : Type} (f : Tid → α) {t i : Tid} (x : α) (h : i ≠ t) : set f t x i = f i := by simp [set, h]

/-- States in which a thread owns the mutex. -/
def Th.owns : Th → Bool
  | .locked | .loaded _ | .bload _ | .bstored => true
  | _ => false

/-- Value a waiting thread compares with. -/
def Th.val : Th → Option Nat
  | .loaded v | .released v | .sleeping v => some v
  | _ => none

/-- Invariant. -/
structure WF (s : State) : Prop where
  own : ∀ t, (s.th t).owns = true → s.mutex = some t
  fut : s.futex = u32 (1 + s.stores)
  ble : ∀ t v, s.th t = .bload v → v = s.futex
  /-- compared values are the futex at the start of the wait -/
  val : ∀ t v, (s.th t).val = some v → v = u32 (1 + s.born t) ∧ s.born t ≤ s.stores
  /-- every broadcast finished since the start of a wait also incremented since then -/
  cnt : ∀ t v, (s.th t).val = some v → s.bornWakes t ≤ s.wakes ∧ s.wakes + s.born t ≤ s.bornWakes t + s.stores ∧
    ∀ b, s.th b = .bstored → s.wakes + s.born t < s.bornWakes t + s.stores
  slp : ∀ t v, s.th t = .sleeping v → s.stores < s.born t + 4294967296 → s.wakes = s.bornWakes t

theorem WF.init : WF init where
  own := by intro t h; simp [FutexCond.init, Th.owns] at h
  fut := rfl
  ble := by intro t v h; simp [FutexCond.init] at h
  val := by intro t v h; simp [FutexCond.init, Th.val] at h
  cnt := by intro t v h; simp [FutexCond.init, Th.val] at h
  slp := by intro t v h; simp [FutexCond.init] at h

/-- Steps that only change the state of one thread and the mutex. -/
theorem WF.one {s : State} (h : WF s) {t : Tid} {x : Th} {m : Option Tid}
    (hm : ∀ i, i ≠ t → (s.th i).owns = true → m = some i) (hx : x.owns = true → m = some t)
    (hv : ∀ v, x.val = some v → (s.th t).val = some v)
    (hb : ∀ v, x = .bload v → v = s.futex) (hbs : x = .bstored → False)
    (hs : ∀ v, x = .sleeping v → s.stores < s.born t + 4294967296 → s.wakes = s.bornWakes t) :
    WF { s with mutex := m, th := set s.th t x } where
  own := by
    intro i hi
    by_cases hit : i = t
    · subst hit; simp only [set_same] at hi; exact hx hi
    · simp only [set_ne _ _ hit] at hi; exact hm i hit hi
  fut := h.fut
  ble := by
    intro i v hi
    by_cases hit : i = t
    · subst hit; simp only [set_same] at hi; exact hb v hi
    · simp only [set_ne _ _ hit] at hi; exact h.ble i v hi
  val := by
    intro i v hi
    by_cases hit : i = t
    · subst hit; simp only [set_same] at hi; exact h.val i v (hv v hi)
    · simp only [set_ne _ _ hit] at hi; exact h.val i v hi
  cnt := by
    have hbb : ∀ b, set s.th t x b = .bstored → s.th b = .bstored := by
      intro b hb
      by_cases hbt : b = t
      · subst hbt; rw [set_same] at hb; exact (hbs hb).elim
      · rwa [set_ne _ _ hbt] at hb
    intro i v hi
    by_cases hit : i = t
    · subst hit; simp only [set_same] at hi
      have := h.cnt i v (hv v hi)
      exact ⟨this.1, this.2.1, fun b hb => this.2.2 b (hbb b hb)⟩
    · simp only [set_ne _ _ hit] at hi
      have := h.cnt i v hi
      exact ⟨this.1, this.2.1, fun b hb => this.2.2 b (hbb b hb)⟩
  slp := by
    intro i v hi
    by_cases hit : i = t
    · subst hit; simp only [set_same] at hi; exact hs v hi
    · simp only [set_ne _ _ hit] at hi; exact h.slp i v hi

theorem WF.free {s : State} (h : WF s) (hm : s.mutex = none) (t : Tid) : (s.th t).owns = false := by
  cases ho : (s.th t).owns with
  | false => rfl
  | true => have := h.own t ho; rw [hm] at this; simp at this

theorem WF.alone {s : State} (h : WF s) {t : Tid} (ht : (s.th t).owns = true) (i : Tid) (hi : i ≠ t) :
    (s.th i).owns = false := by
  cases ho : (s.th i).owns with
  | false => rfl
  | true =>
    have h1 := h.own t ht
    have h2 := h.own i ho
    rw [h1] at h2
    injection h2 with h2
    exact absurd h2.symm hi

theorem u32_inj {a b : Nat} (h : u32 (1 + a) = u32 (1 + b)) (hle : a ≤ b) (hlt : b < a + 4294967296) : a = b := by
  unfold u32 at h; omega

theorem WF.step {s s' : State} {t : Tid} {a : Act} (h : WF s) (e : step s t a = some s') : WF s' := by
  cases a with
  | lock =>
    simp only [FutexCond.step] at e
    split at e
    · rename_i hm ht
      injection e with e; subst e
      exact h.one (fun i _ hi => by rw [h.free hm i] at hi; simp at hi) (fun _ => rfl) (by simp [Th.val]) (by simp) (by simp)
        (by simp)
    · rename_i hm ht
      injection e with e; subst e
      exact h.one (fun i _ hi => by rw [h.free hm i] at hi; simp at hi) (fun _ => rfl) (by simp [Th.val]) (by simp) (by simp)
        (by simp)
    · simp at e
  | unlock =>
    simp only [FutexCond.step] at e
    split at e
    · rename_i ht
      injection e with e; subst e
      exact h.one (fun i hi ho => by rw [h.alone (t := t) (by rw [ht]; rfl) i hi] at ho; simp at ho) (by simp [Th.owns]) (by simp [Th.val])
        (by simp) (by simp) (by simp)
    · simp at e
  | load =>
    simp only [FutexCond.step] at e
    split at e
    · rename_i ht
      injection e with e; subst e
      have hal := h.alone (t := t) (by rw [ht]; rfl)
      refine ⟨?_, h.fut, ?_, ?_, ?_, ?_⟩
      · intro i hi
        by_cases hit : i = t
        · subst hit; exact h.own i (by rw [ht]; rfl)
        · simp only [set_ne _ _ hit] at hi; exact h.own i hi
      · intro i v hi
        by_cases hit : i = t
        · subst hit; simp only [set_same] at hi; simp at hi
        · simp only [set_ne _ _ hit] at hi; exact h.ble i v hi
      · intro i v hi
        by_cases hit : i = t
        · subst hit
          simp only [set_same, Th.val, Option.some.injEq] at hi ⊢
          exact ⟨hi ▸ h.fut, Nat.le_refl _⟩
        · simp only [set_ne _ _ hit] at hi ⊢; exact h.val i v hi
      · have hbb : ∀ b, set s.th t (.loaded s.futex) b ≠ .bstored := by
          intro b hb
          by_cases hbt : b = t
          · subst hbt; rw [set_same] at hb; simp at hb
          · rw [set_ne _ _ hbt] at hb
            have := hal b hbt
            rw [hb] at this; simp [Th.owns] at this
        intro i v hi
        by_cases hit : i = t
        · subst hit
          simp only [set_same]
          exact ⟨Nat.le_refl _, Nat.le_refl _, fun b hb => absurd hb (hbb b)⟩
        · simp only [set_ne _ _ hit] at hi ⊢
          have := h.cnt i v hi
          exact ⟨this.1, this.2.1, fun b hb => absurd hb (hbb b)⟩
      · intro i v hi
        by_cases hit : i = t
        · subst hit; simp only [set_same] at hi; simp at hi
        · simp only [set_ne _ _ hit] at hi ⊢; exact h.slp i v hi
    · simp at e
  | release =>
    simp only [FutexCond.step] at e
    split at e
    · rename_i v ht
      injection e with e; subst e
      exact h.one (fun i hi ho => by rw [h.alone (t := t) (by rw [ht]; rfl) i hi] at ho; simp at ho) (by simp [Th.owns])
        (by rw [ht]; simp [Th.val]) (by simp) (by simp) (by simp)
    · simp at e
  | futexWait =>
    simp only [FutexCond.step] at e
    split at e
    · rename_i v ht
      injection e with e; subst e
      by_cases hf : s.futex = v
      · simp only [if_pos hf]
        refine h.one (m := s.mutex) (fun i _ ho => h.own i ho) (by simp [Th.owns]) (by rw [ht]; simp [Th.val]) (by simp) (by simp) ?_
        intro _ _ hlt
        have hv := h.val t v (by rw [ht]; rfl)
        have hc := h.cnt t v (by rw [ht]; rfl)
        have : s.born t = s.stores := u32_inj (by rw [← hv.1, ← h.fut, hf]) hv.2 hlt
        omega
      · simp only [if_neg hf]
        exact h.one (m := s.mutex) (fun i _ ho => h.own i ho) (by simp [Th.owns]) (by simp [Th.val]) (by simp) (by simp) (by simp)
    · simp at e
  | timeout =>
    simp only [FutexCond.step] at e
    split at e
    · rename_i v ht
      injection e with e; subst e
      exact h.one (m := s.mutex) (fun i _ ho => h.own i ho) (by simp [Th.owns]) (by simp [Th.val]) (by simp) (by simp) (by simp)
    · simp at e
  | eintr =>
    simp only [FutexCond.step] at e
    split at e
    · rename_i v ht
      injection e with e; subst e
      exact h.one (m := s.mutex) (fun i _ ho => h.own i ho) (by simp [Th.owns]) (by rw [ht]; simp [Th.val]) (by simp) (by simp) (by simp)
    · simp at e
  | bload =>
    simp only [FutexCond.step] at e
    split at e
    · rename_i ht
      injection e with e; subst e
      exact h.one (m := s.mutex) (fun i _ ho => h.own i ho) (fun _ => h.own t (by rw [ht]; rfl)) (by simp [Th.val]) (by simp) (by simp)
        (by simp)
    · simp at e
  | bstore =>
    simp only [FutexCond.step] at e
    split at e
    · rename_i v ht
      injection e with e; subst e
      have hal := h.alone (t := t) (by rw [ht]; rfl)
      have hv := h.ble t v ht
      refine ⟨?_, ?_, ?_, ?_, ?_, ?_⟩
      · intro i hi
        by_cases hit : i = t
        · subst hit; exact h.own i (by rw [ht]; rfl)
        · simp only [set_ne _ _ hit] at hi; exact h.own i hi
      · simp only [hv, h.fut, u32]; omega
      · intro i w hi
        by_cases hit : i = t
        · subst hit; simp only [set_same] at hi; simp at hi
        · simp only [set_ne _ _ hit] at hi
          have := hal i hit
          rw [hi] at this; simp [Th.owns] at this
      · intro i w hi
        by_cases hit : i = t
        · subst hit; simp [set_same, Th.val] at hi
        · simp only [set_ne _ _ hit] at hi
          have := h.val i w hi
          exact ⟨this.1, by simp only; omega⟩
      · intro i w hi
        by_cases hit : i = t
        · subst hit; simp [set_same, Th.val] at hi
        · simp only [set_ne _ _ hit] at hi
          have := h.cnt i w hi
          exact ⟨this.1, by simp only; omega, fun b _ => by simp only; omega⟩
      · intro i w hi hlt
        by_cases hit : i = t
        · subst hit; simp [set_same] at hi
        · simp only [set_ne _ _ hit] at hi hlt
          exact h.slp i w hi (by omega)
    · simp at e
  | bwake =>
    simp only [FutexCond.step] at e
    split at e
    · rename_i ht
      injection e with e; subst e
      have hal := h.alone (t := t) (by rw [ht]; rfl)
      have hwo : ∀ x : Th, (wake x).owns = x.owns := by intro x; cases x <;> rfl
      have hwv : ∀ (x : Th) v, (wake x).val = some v → x.val = some v := by intro x v; cases x <;> simp [wake, Th.val]
      refine ⟨?_, h.fut, ?_, ?_, ?_, ?_⟩
      · intro i hi
        by_cases hit : i = t
        · subst hit; exact h.own i (by rw [ht]; rfl)
        · simp only [set_ne _ _ hit, hwo] at hi; exact h.own i hi
      · intro i v hi
        by_cases hit : i = t
        · subst hit; simp only [set_same] at hi; simp at hi
        · simp only [set_ne _ _ hit] at hi
          have : s.th i = .bload v := by cases hx : s.th i <;> rw [hx] at hi <;> simp [wake] at hi; rw [hi]
          exact h.ble i v this
      · intro i v hi
        by_cases hit : i = t
        · subst hit; simp [set_same, Th.val] at hi
        · simp only [set_ne _ _ hit] at hi; exact h.val i v (hwv _ _ hi)
      · intro i v hi
        by_cases hit : i = t
        · subst hit; simp [set_same, Th.val] at hi
        · simp only [set_ne _ _ hit] at hi
          have := h.cnt i v (hwv _ _ hi)
          have h2 := this.2.2 t ht
          refine ⟨by simp only; omega, by simp only; omega, ?_⟩
          intro b hb
          by_cases hbt : b = t
          · subst hbt; simp [set_same] at hb
          · simp only [set_ne _ _ hbt] at hb
            have h3 := hal b hbt
            rw [← hwo, hb] at h3
            simp [Th.owns] at h3
      · intro i v hi
        by_cases hit : i = t
        · subst hit; simp [set_same] at hi
        · simp only [set_ne _ _ hit] at hi
          cases hx : s.th i <;> rw [hx] at hi <;> simp [wake] at hi
    · simp at e
  | crash =>
    simp only [FutexCond.step] at e
    injection e with e; subst e
    refine h.one (fun i hi ho => ?_) (by simp [Th.owns]) (by simp [Th.val]) (by simp) (by simp) (by simp)
    have := h.own i ho
    split
    · rename_i hm; rw [this] at hm; injection hm with hm; exact absurd hm hi
    · exact this

theorem Reach.wf {s : State} (h : Reach s) : WF s := by
  induction h with
  | init => exact WF.init
  | step _ e ih => exact ih.step e

end Verif.FutexCond
