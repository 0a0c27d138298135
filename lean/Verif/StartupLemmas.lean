import Verif.Startup

/-!
# Starting: the invariants
-/

namespace Verif.Startup

/-- Between locking and unlocking, as a function. -/
def Pc.inside : Pc → Bool
  | .crit | .made _ | .opened _ _ | .leaving _ _ => true
  | _ => false

/-- With the mutex. -/
def Pc.holds : Pc → Bool
  | .haveM | .crit | .made _ | .opened _ _ | .leaving _ _ | .left _ _ => true
  | _ => false

theorem inside_iff (s : State) (t : Tid) : Inside s t ↔ (s.pc t).inside = true := by
  unfold Inside
  cases s.pc t <;> simp [Pc.inside]

theorem close_eq {l : Option Pid} {p q : Pid} (h : l = some q) (hne : q ≠ p) : close l p = some q := by
  simp [close, h, hne]

/-- The locks. -/
structure Locks (ow : Tid → Pid) (s : State) : Prop where
  mx : ∀ t, s.dead (ow t) = false → (s.pc t).holds = true → s.mutex (ow t) = some t
  rl : ∀ t, s.dead (ow t) = false → (s.pc t).inside = true → s.reclock = some (ow t)

/-- Closing while no other thread of the process is inside, in terms of places. -/
def Apart (ow : Tid → Pid) (s : State) (t : Tid) : Prop := ∀ u, ow u = ow t → (s.pc u).inside = false

theorem locks_step {ow : Tid → Pid} {s s' : State} {e : Ev} (h : Locks ow s) (hA : CloseApart ow s e) (hs : step ow s e = some s') : Locks ow s' := by
  obtain ⟨mx, rl⟩ := h
  cases e with
  | connect t =>
    simp only [step] at hs
    split at hs <;> simp only [reduceCtorEq, Option.some.injEq] at hs
    subst hs
    constructor <;> intros <;> simp only [upd] at * <;> grind [Pc.holds, Pc.inside]
  | connNewFails t =>
    simp only [step] at hs
    split at hs <;> simp only [reduceCtorEq, Option.some.injEq] at hs
    subst hs
    simp only [CloseApart, inside_iff] at hA
    constructor
    · exact mx
    · intro u hu hi
      exact close_eq (rl u hu hi) (fun he => hA u he hi)
  | disconnect t =>
    simp only [step] at hs
    simp only [CloseApart, inside_iff] at hA
    split at hs
    · split at hs <;> simp only [reduceCtorEq, Option.some.injEq] at hs
      rename_i hc
      subst hs
      constructor
      · intro u hu hi
        by_cases hut : u = t
        · subst hut; simp [upd, Pc.holds] at hi
        · exact mx u hu (by simpa [upd, hut] using hi)
      · intro u hu hi
        have hut : u ≠ t := by rintro rfl; simp [upd, Pc.inside] at hi
        have hi' : (s.pc u).inside = true := by simpa [upd, hut] using hi
        exact close_eq (rl u hu hi') (fun he => hA u he hi')
    · cases hs
  | crash p =>
    simp only [step, Option.some.injEq] at hs
    subst hs
    constructor
    · intro u hu hi
      simp only [upd] at hu
      split at hu
      · cases hu
      · exact mx u hu hi
    · intro u hu hi
      simp only [upd] at hu
      split at hu
      · cases hu
      · rename_i hne
        exact close_eq (rl u hu hi) hne
  | run t ok =>
    simp only [step] at hs
    split at hs
    case isFalse => cases hs
    rename_i hd
    simp only [CloseApart, inside_iff] at hA
    have hm := mx t hd
    have hr := rl t hd
    have hex : ∀ u, u ≠ t → s.dead (ow u) = false → (s.pc t).holds = true → (s.pc u).holds = true → ow u ≠ ow t := by
      intro u hut hud hth huh he
      have h1 := mx u hud huh
      have h2 := mx t hd hth
      rw [he, h2] at h1
      injection h1 with h1
      exact hut h1.symm
    have hih : ∀ q : Pc, q.inside = true → q.holds = true := by intro q; cases q <;> simp [Pc.inside, Pc.holds]
    unfold run at hs
    cases hp : s.pc t <;> simp only [hp, reduceCtorEq, Option.some.injEq] at hs
    case waitM =>
      split at hs <;> simp only [reduceCtorEq, Option.some.injEq] at hs
      subst hs
      constructor <;> intros <;> simp only [upd] at * <;> grind [Pc.holds, Pc.inside]
    case haveM =>
      split at hs <;> simp only [reduceCtorEq, Option.some.injEq] at hs
      subst hs
      constructor
      · intros; simp only [upd] at *; grind [Pc.holds, Pc.inside]
      · intro u hu hi
        by_cases hut : u = t
        · subst hut; rfl
        · have hi' : (s.pc u).inside = true := by simpa [upd, hut] using hi
          have h1 := rl u hu hi'
          have h2 := hex u hut hu (by rw [hp]; rfl) (hih _ hi')
          rename_i hor
          rcases hor with hor | hor
          · rw [hor] at h1; cases h1
          · rw [hor] at h1; injection h1 with h1; exact absurd h1.symm h2
    case crit =>
      split at hs <;> simp only [Option.some.injEq] at hs <;> subst hs
      · constructor <;> intros <;> simp only [upd] at * <;> grind [Pc.holds, Pc.inside]
      · constructor <;> intros <;> simp only [upd] at * <;> grind [Pc.holds, Pc.inside]
    case made m =>
      subst hs
      constructor <;> intros <;> simp only [upd] at * <;> grind [Pc.holds, Pc.inside]
    case opened m cr =>
      split at hs
      · split at hs <;> simp only [Option.some.injEq] at hs <;> subst hs <;>
          (constructor <;> intros <;> simp only [upd] at * <;> grind [Pc.holds, Pc.inside])
      · simp only [Option.some.injEq] at hs
        subst hs
        constructor <;> intros <;> simp only [upd] at * <;> grind [Pc.holds, Pc.inside]
    case leaving r cr =>
      subst hs
      constructor
      · intros; simp only [upd] at *; grind [Pc.holds, Pc.inside]
      · intro u hu hi
        have hut : u ≠ t := by rintro rfl; simp [upd, Pc.inside] at hi
        have hi' : (s.pc u).inside = true := by simpa [upd, hut] using hi
        exact close_eq (rl u hu hi') (hex u hut hu (by rw [hp]; rfl) (hih _ hi'))
    case left r cr =>
      subst hs
      constructor
      · intro u hu hi
        have hut : u ≠ t := by rintro rfl; revert hi; cases r <;> simp [upd, Pc.holds]
        have hi' : (s.pc u).holds = true := by simpa [upd, hut] using hi
        have := hex u hut hu (by rw [hp]; rfl) hi'
        simpa [upd, this] using mx u hu hi'
      · intro u hu hi
        have hut : u ≠ t := by rintro rfl; revert hi; cases r <;> simp [upd, Pc.inside]
        exact rl u hu (by simpa [upd, hut] using hi)
    case closing cr =>
      subst hs
      constructor
      · intro u hu hi
        have hut : u ≠ t := by rintro rfl; revert hi; cases cr <;> simp [upd, Pc.holds]
        exact mx u hu (by simpa [upd, hut] using hi)
      · intro u hu hi
        have hut : u ≠ t := by rintro rfl; revert hi; cases cr <;> simp [upd, Pc.inside]
        have hi' : (s.pc u).inside = true := by simpa [upd, hut] using hi
        exact close_eq (rl u hu hi') (fun he => hA ⟨cr, hp⟩ u he hi')
    case removing =>
      subst hs
      constructor <;> intros <;> simp only [upd] at * <;> grind [Pc.holds, Pc.inside]

theorem locks_reach {ow : Tid → Pid} {A : State → Ev → Prop} {s : State} (hA : ∀ s e, A s e → CloseApart ow s e) (h : Reach ow A init s) : Locks ow s := by
  induction h with
  | start => constructor <;> simp [init, Pc.holds, Pc.inside]
  | next _ ha hs ih => exact locks_step ih (hA _ _ ha) hs

/-- The connection a thread has or will have. -/
def Pc.got : Pc → Option Id
  | .opened m false | .leaving (some m) _ | .left (some m) _ | .connected m => some m
  | _ => none

/-- The main SHM a thread initialises. -/
def Pc.initing : Pc → Option Id
  | .made m | .opened m true => some m
  | _ => none

/-- A thread that created the main SHM and failed. -/
def Pc.spoilt : Pc → Bool
  | .leaving none true | .left none true | .closing true | .removing => true
  | _ => false

structure Fine (ow : Tid → Pid) (s : State) : Prop where
  got : ∀ t m, s.dead (ow t) = false → (s.pc t).got = some m → Good s m
  ini : ∀ t m, s.dead (ow t) = false → (s.pc t).initing = some m → s.main = some m ∧ s.ready m = false ∧ m < s.fresh
  all : ∀ m, s.main = some m → (Good s m ∧ s.header m = true) ∨ ∃ t, s.dead (ow t) = false ∧ (s.pc t).initing = some m
  spoilt : ∀ t, (s.pc t).spoilt = false
  fresh : ∀ m, s.ready m = true → m < s.fresh
  hdr : ∀ t m, s.dead (ow t) = false → s.pc t = .opened m true → s.header m = true

theorem initing_inside {q : Pc} {m : Id} (h : q.initing = some m) : q.inside = true := by
  revert h
  cases q <;> simp [Pc.initing, Pc.inside]

theorem initialising_iff (s : State) (t : Tid) : Initialising s t ↔ (s.pc t).initing ≠ none := by
  unfold Initialising
  cases s.pc t <;> simp [Pc.initing]
  rename_i m cr
  cases cr <;> simp

theorem excl {ow : Tid → Pid} {s : State} (h : Locks ow s) {t u : Tid} (ht : s.dead (ow t) = false) (hu : s.dead (ow u) = false)
    (hti : (s.pc t).inside = true) (hui : (s.pc u).inside = true) : t = u := by
  have hih : ∀ q : Pc, q.inside = true → q.holds = true := by intro q; cases q <;> simp [Pc.inside, Pc.holds]
  have h1 := h.rl t ht hti
  have h2 := h.rl u hu hui
  rw [h1] at h2
  injection h2 with h2
  have h3 := h.mx t ht (hih _ hti)
  have h4 := h.mx u hu (hih _ hui)
  rw [← h2, h3] at h4
  injection h4

/-- A step that changes only places and locks. -/
theorem fine_pc {ow : Tid → Pid} {s : State} (h : Fine ow s) {t : Tid} {q : Pc} {mx : Pid → Option Tid} {rl : Option Pid}
    (hg : ∀ m, q.got = some m → Good s m) (hi : q.initing = none) (hsp : q.spoilt = false) (ht : (s.pc t).initing = none) :
    Fine ow { s with pc := upd s.pc t q, mutex := mx, reclock := rl } := by
  obtain ⟨f1, f2, f3, f4, f5, f6⟩ := h
  refine ⟨?_, ?_, ?_, ?_, f5, ?_⟩
  · intro u m hu hm
    simp only [upd] at hm
    split at hm
    · exact hg m hm
    · exact f1 u m hu hm
  · intro u m hu hm
    simp only [upd] at hm
    split at hm
    · rw [hi] at hm; cases hm
    · exact f2 u m hu hm
  · intro m hm
    rcases f3 m hm with h | ⟨u, hu, hum⟩
    · exact .inl h
    · refine .inr ⟨u, hu, ?_⟩
      have : u ≠ t := by rintro rfl; rw [ht] at hum; cases hum
      simpa [upd, this] using hum
  · intro u
    simp only [upd]
    split
    · exact hsp
    · exact f4 u
  · intro u m hu hm
    simp only [upd] at hm
    split at hm
    · subst hm; cases hi
    · exact f6 u m hu hm

theorem fine_step {ow : Tid → Pid} {s s' : State} {e : Ev} (h : Fine ow s) (hl : Locks ow s) (hI : InitDone ow s e)
    (hs : step ow s e = some s') : Fine ow s' := by
  cases e with
  | connect t =>
    simp only [step] at hs
    split at hs <;> simp only [reduceCtorEq, Option.some.injEq] at hs
    rename_i hc
    subst hs
    exact fine_pc h (by simp [Pc.got]) rfl rfl (by rw [hc.2]; rfl)
  | connNewFails t =>
    simp only [step] at hs
    split at hs <;> simp only [reduceCtorEq, Option.some.injEq] at hs
    subst hs
    obtain ⟨f1, f2, f3, f4, f5, f6⟩ := h
    exact ⟨f1, f2, f3, f4, f5, f6⟩
  | disconnect t =>
    simp only [step] at hs
    split at hs
    · split at hs <;> simp only [reduceCtorEq, Option.some.injEq] at hs
      rename_i hc
      subst hs
      exact fine_pc h (by simp [Pc.got]) rfl rfl (by rw [hc]; rfl)
    · cases hs
  | crash p =>
    simp only [step, Option.some.injEq] at hs
    subst hs
    simp only [InitDone, initialising_iff] at hI
    obtain ⟨f1, f2, f3, f4, f5, f6⟩ := h
    refine ⟨?_, ?_, ?_, f4, f5, ?_⟩
    · intro u m hu hm
      simp only [upd] at hu
      split at hu
      · cases hu
      · exact f1 u m hu hm
    · intro u m hu hm
      simp only [upd] at hu
      split at hu
      · cases hu
      · exact f2 u m hu hm
    · intro m hm
      rcases f3 m hm with h | ⟨u, hu, hum⟩
      · exact .inl h
      · refine .inr ⟨u, ?_, hum⟩
        have : ow u ≠ p := fun he => hI u he (by rw [hum]; simp)
        simpa [upd, this] using hu
    · intro u m hu hm
      simp only [upd] at hu
      split at hu
      · cases hu
      · exact f6 u m hu hm
  | run t ok =>
    simp only [step] at hs
    split at hs
    case isFalse => cases hs
    rename_i hd
    have hsp := h.spoilt t
    unfold run at hs
    cases hp : s.pc t <;> simp only [hp, reduceCtorEq, Option.some.injEq] at hs <;> rw [hp] at hsp
    case waitM =>
      split at hs <;> simp only [reduceCtorEq, Option.some.injEq] at hs
      subst hs
      exact fine_pc h (by simp [Pc.got]) rfl rfl (by rw [hp]; rfl)
    case haveM =>
      split at hs <;> simp only [reduceCtorEq, Option.some.injEq] at hs
      subst hs
      exact fine_pc h (by simp [Pc.got]) rfl rfl (by rw [hp]; rfl)
    case crit =>
      have hti : (s.pc t).inside = true := by rw [hp]; rfl
      split at hs <;> simp only [Option.some.injEq] at hs <;> subst hs
      · rename_i hmn
        obtain ⟨f1, f2, f3, f4, f5, f6⟩ := h
        refine ⟨?_, ?_, ?_, ?_, ?_, ?_⟩
        · intro u m hu hm
          simp only [upd] at hm
          split at hm
          · cases hm
          · have := (f1 u m hu hm).1
            rw [hmn] at this
            cases this
        · intro u m hu hm
          simp only [upd] at hm
          split at hm
          · simp only [Pc.initing, Option.some.injEq] at hm
            subst hm
            refine ⟨rfl, ?_, Nat.lt_succ_self _⟩
            cases hx : s.ready s.fresh
            · rfl
            · exact absurd (f5 _ hx) (Nat.lt_irrefl _)
          · have := (f2 u m hu hm).1
            rw [hmn] at this
            cases this
        · intro m hm
          simp only [Option.some.injEq] at hm
          subst hm
          exact .inr ⟨t, hd, by simp [upd, Pc.initing]⟩
        · intro u
          simp only [upd]
          split
          · rfl
          · exact f4 u
        · intro m hm
          exact Nat.lt_succ_of_lt (f5 m hm)
        · intro u m hu hm
          simp only [upd] at hm
          split at hm
          · cases hm
          · exact f6 u m hu hm
      · rename_i m hmm
        have hgood : Good s m ∧ s.header m = true := by
          rcases h.all m hmm with h' | ⟨u, hu, hum⟩
          · exact h'
          · have := excl hl hd hu hti (initing_inside hum)
            subst this
            rw [hp] at hum
            cases hum
        rw [if_pos hgood.2]
        exact fine_pc h (by intro m' hm'; simp only [Pc.got, Option.some.injEq] at hm'; subst hm'; exact hgood.1) rfl rfl (by rw [hp]; rfl)
    case made m =>
      subst hs
      have hti : (s.pc t).inside = true := by rw [hp]; rfl
      have hm0 := h.ini t m hd (by rw [hp]; rfl)
      obtain ⟨f1, f2, f3, f4, f5, f6⟩ := h
      refine ⟨?_, ?_, ?_, ?_, f5, ?_⟩
      · intro u m' hu hm
        simp only [upd] at hm
        split at hm
        · cases hm
        · have hg := f1 u m' hu hm
          have : m' = m := by have := hg.1; rw [hm0.1] at this; injection this with this; exact this.symm
          subst this
          have := hg.2.1
          rw [hm0.2.1] at this
          cases this
      · intro u m' hu hm
        simp only [upd] at hm
        split at hm
        · simp only [Pc.initing, Option.some.injEq] at hm
          subst hm
          exact hm0
        · exact f2 u m' hu hm
      · intro m' hm
        have : m' = m := by have hx : s.main = some m' := hm; rw [hm0.1] at hx; injection hx with hx; exact hx.symm
        subst this
        exact .inr ⟨t, hd, by simp [upd, Pc.initing]⟩
      · intro u
        simp only [upd]
        split
        · rfl
        · exact f4 u
      · intro u m' hu hm
        simp only [upd] at hm ⊢
        split at hm
        · simp only [Pc.opened.injEq, and_true] at hm
          subst hm
          simp
        · split
          · rfl
          · exact f6 u m' hu hm
    case opened m cr =>
      cases cr with
      | false =>
        have hg : Good s m := h.got t m hd (by rw [hp]; rfl)
        split at hs <;> simp only [Bool.false_eq_true, if_false, Option.some.injEq] at hs <;> subst hs
        · exact fine_pc h (by intro m' hm'; simp only [Pc.got, Option.some.injEq] at hm'; subst hm'; exact hg) rfl rfl (by rw [hp]; rfl)
        · exact fine_pc h (by simp [Pc.got]) rfl rfl (by rw [hp]; rfl)
      | true =>
        have hok := hI ⟨m, hp⟩
        subst hok
        simp only [if_true, Option.some.injEq] at hs
        subst hs
        have hti : (s.pc t).inside = true := by rw [hp]; rfl
        have hm0 := h.ini t m hd (by rw [hp]; rfl)
        have hhd : Good { s with mods := true, ready := upd s.ready m true, pc := upd s.pc t (.leaving (some m) true) } m :=
          ⟨hm0.1, by simp [upd], rfl⟩
        obtain ⟨f1, f2, f3, f4, f5, f6⟩ := h
        refine ⟨?_, ?_, ?_, ?_, ?_, ?_⟩
        · intro u m' hu hm
          simp only [upd] at hm
          split at hm
          · simp only [Pc.got, Option.some.injEq] at hm
            subst hm
            exact hhd
          · have hg := (f1 u m' hu hm).1
            have : m' = m := by rw [hm0.1] at hg; injection hg with hg; exact hg.symm
            subst this
            exact hhd
        · intro u m' hu hm
          simp only [upd] at hm
          split at hm
          · cases hm
          · rename_i hut
            exact absurd (excl hl hu hd (initing_inside hm) hti) hut
        · intro m' hm
          have : m' = m := by have hx : s.main = some m' := hm; rw [hm0.1] at hx; injection hx with hx; exact hx.symm
          subst this
          exact .inl ⟨hhd, f6 t m' hd hp⟩
        · intro u
          simp only [upd]
          split
          · rfl
          · exact f4 u
        · intro m' hm
          simp only [upd] at hm
          split at hm
          · rename_i he; rw [he]; exact hm0.2.2
          · exact f5 m' hm
        · intro u m' hu hm
          simp only [upd] at hm
          split at hm
          · cases hm
          · exact f6 u m' hu hm
    case leaving r cr =>
      subst hs
      refine fine_pc h ?_ ?_ ?_ (by rw [hp]; rfl)
      · intro m hm
        refine h.got t m hd ?_
        rw [hp]
        revert hm
        cases r <;> simp [Pc.got]
      · cases r <;> rfl
      · revert hsp; cases r <;> cases cr <;> simp [Pc.spoilt]
    case left r cr =>
      subst hs
      refine fine_pc h ?_ ?_ ?_ (by rw [hp]; rfl)
      · intro m hm
        refine h.got t m hd ?_
        rw [hp]
        revert hm
        cases r <;> simp [Pc.got]
      · cases r <;> rfl
      · revert hsp; cases r <;> cases cr <;> simp [Pc.spoilt]
    case closing cr =>
      cases cr with
      | true => cases hsp
      | false =>
        subst hs
        exact fine_pc h (by simp [Pc.got]) rfl rfl (by rw [hp]; rfl)
    case removing => cases hsp

end Verif.Startup
