/-
Property of subscriptions with the current data: C130.
-/
import Verif.EnSub

namespace Verif.EnSub

/-- READ lock of the table. -/
def W.cs : W → Bool
  | .idle | .locked _ _ => false
  | _ => true

/-- WRITE lock of the data. -/
def W.wr : W → Bool
  | .writing _ _ | .stored _ _ => true
  | _ => false

/-- What the stored data are. -/
def W.now : W → Option Data
  | .idle => none
  | .locked o _ | .listed o _ | .asked o _ | .writing o _ => some o
  | .stored _ n | .telling _ n _ => some n

/-- A subscription waits for "done" of a change it accepted. -/
def W.wait : W → Nat → Option (Data × Data)
  | .asked o n, _ | .writing o n, _ | .stored o n, _ => some (o, n)
  | .telling o n todo, i => if i ∈ todo then some (o, n) else none
  | _, _ => none

/-- Stored and not told. -/
def W.owed : W → Nat → Option (Data × Data)
  | .stored o n, _ => some (o, n)
  | .telling o n todo, i => if i ∈ todo then some (o, n) else none
  | _, _ => none

def P.csW : P → Bool
  | .cs | .reading | .shown | .added => true
  | _ => false

def P.rd : P → Bool
  | .reading | .shown | .added | .csFree => true
  | _ => false

def P.tab : P → Bool
  | .added | .csFree | .active => true
  | _ => false

def P.told : P → Bool
  | .shown | .added | .csFree | .active => true
  | _ => false

/-- The invariant. -/
structure Inv (sel : Nat → Nat → Bool) (s : State) (due : Nat → List Rep) : Prop where
  up : ∀ w, s.w w ≠ .idle → s.up = some w
  busy : ∀ w, s.up = some w → s.w w ≠ .idle
  cs : ∀ w, w ∈ s.csR ↔ (s.w w).cs = true
  csW : ∀ i, s.csW = some i ↔ (s.p i).csW = true
  excl : ∀ i, s.csW = some i → s.csR = []
  rd : ∀ i, i ∈ s.rd ↔ (s.p i).rd = true
  wr : ∀ w, (s.w w).wr = true → s.wr = true
  wr' : s.wr = true → ∃ w, (s.w w).wr = true
  wrd : s.wr = true → s.rd = []
  now : ∀ w d, (s.w w).now = some d → s.data = d
  tab : ∀ i, i ∈ s.table ↔ (s.p i).tab = true
  todo : ∀ w o n l i, s.w w = .telling o n l → i ∈ l → i ∈ s.table
  fresh : ∀ i, (s.p i).told = false → s.p i ≠ .gone → s.log i = []
  fine : ∀ i, Fine (s.log i)
  start : ∀ i, (s.p i).told = true → s.log i ≠ []
  asked : ∀ w i o n, (s.w w).wait i = some (o, n) → i ∈ s.table → ∃ t, s.log i = .change (changeRep (sel i) o n) :: t
  owed : ∀ w i o n, (s.w w).owed i = some (o, n) → i ∈ s.table → due i = changeRep (sel i) o n :: dones (s.log i)
  paid : ∀ i, (s.p i).told = true → (∀ w, (s.w w).owed i = none) → due i = dones (s.log i)
  data : ∀ i, (s.p i).told = true → ∀ x, view (due i) x = if sel i x then s.data x else none

theorem inv_init (sel : Nat → Nat → Bool) (d : Data) : Inv sel (init d) (fun _ => []) := by
  constructor <;> simp [init, W.cs, W.wr, W.now, W.wait, W.owed, P.csW, P.rd, P.tab, P.told, Fine]

theorem put_same {α : Type} (f : Nat → α) (i : Nat) (v : α) : put f i v i = v := by simp [put]
theorem put_other {α : Type} (f : Nat → α) {i j : Nat} (v : α) (h : j ≠ i) : put f i v j = f j := by simp [put, h]

theorem P.told_of_tab {p : P} (h : p.tab = true) : p.told = true := by cases p <;> simp_all [P.tab, P.told]

theorem P.csW_of_shown {p : P} (h : p.told = true) (h' : p.tab = false) : p.csW = true := by
  cases p <;> simp_all [P.tab, P.told, P.csW]

theorem W.cs_of_wait {w : W} {i : Nat} {q : Data × Data} (h : w.wait i = some q) : w.cs = true := by
  cases w <;> simp_all [W.wait, W.cs]

theorem W.cs_of_owed {w : W} {i : Nat} {q : Data × Data} (h : w.owed i = some q) : w.cs = true := by
  cases w <;> simp_all [W.owed, W.cs]

theorem step_lock {sel : Nat → Nat → Bool} {s s' : State} {due : Nat → List Rep} {w : Nat} {new : Data} (h : Inv sel s due)
    (hs : step sel s (.lock w new) = some s') : Inv sel s' due := by
  simp only [step] at hs
  split at hs
  · next hw =>
    split at hs
    · next hu =>
      cases hs
      have hidle : ∀ v, s.w v = .idle := fun v => Classical.byContradiction fun hv => by simp [h.up v hv] at hu
      constructor
      all_goals (try (first | exact h.csW | exact h.excl | exact h.rd | exact h.wrd | exact h.tab | exact h.fresh | exact h.fine | exact h.start | exact h.data))
      all_goals grind [put, W.cs, W.wr, W.now, W.wait, W.owed, Inv]
    · cases hs
  · cases hs

theorem step_list {sel : Nat → Nat → Bool} {s s' : State} {due : Nat → List Rep} {w : Nat} (h : Inv sel s due)
    (hs : step sel s (.list w) = some s') : Inv sel s' due := by
  obtain ⟨hup, hbusy, hcs, hcsW, hexcl, hrd, hwr, hwr', hwrd, hnow, htab, htodo, hfresh, hfine, hstart, hasked, howed, hpaid, hdata⟩ := h
  simp only [step] at hs
  split at hs
  · next o n hw =>
    split at hs
    · next hg =>
      cases hs
      have honly : ∀ v, v ≠ w → s.w v = .idle := fun v hv => Classical.byContradiction fun hi => by
        have h1 := hup v hi
        have h2 := hup w (by rw [hw]; intro hc; cases hc)
        rw [h1] at h2
        exact hv (Option.some.inj h2)
      exact {
        up := by first | exact hup | grind [put, release, sRelease, W.cs, W.wr, W.now, W.wait, W.owed, P.csW, P.rd, P.tab, P.told, Fine, dones]
        busy := by first | exact hbusy | grind [put, release, sRelease, W.cs, W.wr, W.now, W.wait, W.owed, P.csW, P.rd, P.tab, P.told, Fine, dones]
        cs := by first | exact hcs | grind [put, release, sRelease, W.cs, W.wr, W.now, W.wait, W.owed, P.csW, P.rd, P.tab, P.told, Fine, dones]
        csW := by first | exact hcsW | grind [put, release, sRelease, W.cs, W.wr, W.now, W.wait, W.owed, P.csW, P.rd, P.tab, P.told, Fine, dones]
        excl := by first | exact hexcl | grind [put, release, sRelease, W.cs, W.wr, W.now, W.wait, W.owed, P.csW, P.rd, P.tab, P.told, Fine, dones]
        rd := by first | exact hrd | grind [put, release, sRelease, W.cs, W.wr, W.now, W.wait, W.owed, P.csW, P.rd, P.tab, P.told, Fine, dones]
        wr := by first | exact hwr | grind [put, release, sRelease, W.cs, W.wr, W.now, W.wait, W.owed, P.csW, P.rd, P.tab, P.told, Fine, dones]
        wr' := by first | exact hwr' | grind [put, release, sRelease, W.cs, W.wr, W.now, W.wait, W.owed, P.csW, P.rd, P.tab, P.told, Fine, dones]
        wrd := by first | exact hwrd | grind [put, release, sRelease, W.cs, W.wr, W.now, W.wait, W.owed, P.csW, P.rd, P.tab, P.told, Fine, dones]
        now := by first | exact hnow | grind [put, release, sRelease, W.cs, W.wr, W.now, W.wait, W.owed, P.csW, P.rd, P.tab, P.told, Fine, dones]
        tab := by first | exact htab | grind [put, release, sRelease, W.cs, W.wr, W.now, W.wait, W.owed, P.csW, P.rd, P.tab, P.told, Fine, dones]
        todo := by first | exact htodo | grind [put, release, sRelease, W.cs, W.wr, W.now, W.wait, W.owed, P.csW, P.rd, P.tab, P.told, Fine, dones]
        fresh := by first | exact hfresh | grind [put, release, sRelease, W.cs, W.wr, W.now, W.wait, W.owed, P.csW, P.rd, P.tab, P.told, Fine, dones]
        fine := by first | exact hfine | grind [put, release, sRelease, W.cs, W.wr, W.now, W.wait, W.owed, P.csW, P.rd, P.tab, P.told, Fine, dones]
        start := by first | exact hstart | grind [put, release, sRelease, W.cs, W.wr, W.now, W.wait, W.owed, P.csW, P.rd, P.tab, P.told, Fine, dones]
        asked := by first | exact hasked | grind [put, release, sRelease, W.cs, W.wr, W.now, W.wait, W.owed, P.csW, P.rd, P.tab, P.told, Fine, dones]
        owed := by first | exact howed | grind [put, release, sRelease, W.cs, W.wr, W.now, W.wait, W.owed, P.csW, P.rd, P.tab, P.told, Fine, dones]
        paid := by first | exact hpaid | grind [put, release, sRelease, W.cs, W.wr, W.now, W.wait, W.owed, P.csW, P.rd, P.tab, P.told, Fine, dones]
        data := by first | exact hdata | grind [put, release, sRelease, W.cs, W.wr, W.now, W.wait, W.owed, P.csW, P.rd, P.tab, P.told, Fine, dones]
      }
    · cases hs
  · cases hs

theorem step_update {sel : Nat → Nat → Bool} {s s' : State} {due : Nat → List Rep} {w : Nat} {new : Data} (h : Inv sel s due)
    (hs : step sel s (.update w new) = some s') : Inv sel s' due := by
  obtain ⟨hup, hbusy, hcs, hcsW, hexcl, hrd, hwr, hwr', hwrd, hnow, htab, htodo, hfresh, hfine, hstart, hasked, howed, hpaid, hdata⟩ := h
  simp only [step] at hs
  split at hs
  · next o n hw =>
    cases hs
    have honly : ∀ v, v ≠ w → s.w v = .idle := fun v hv => Classical.byContradiction fun hi => by
      have h1 := hup v hi
      have h2 := hup w (by rw [hw]; intro hc; cases hc)
      rw [h1] at h2
      exact hv (Option.some.inj h2)
    exact {
      up := by first | exact hup | grind [put, release, sRelease, W.cs, W.wr, W.now, W.wait, W.owed, P.csW, P.rd, P.tab, P.told, Fine, dones]
      busy := by first | exact hbusy | grind [put, release, sRelease, W.cs, W.wr, W.now, W.wait, W.owed, P.csW, P.rd, P.tab, P.told, Fine, dones]
      cs := by first | exact hcs | grind [put, release, sRelease, W.cs, W.wr, W.now, W.wait, W.owed, P.csW, P.rd, P.tab, P.told, Fine, dones]
      csW := by first | exact hcsW | grind [put, release, sRelease, W.cs, W.wr, W.now, W.wait, W.owed, P.csW, P.rd, P.tab, P.told, Fine, dones]
      excl := by first | exact hexcl | grind [put, release, sRelease, W.cs, W.wr, W.now, W.wait, W.owed, P.csW, P.rd, P.tab, P.told, Fine, dones]
      rd := by first | exact hrd | grind [put, release, sRelease, W.cs, W.wr, W.now, W.wait, W.owed, P.csW, P.rd, P.tab, P.told, Fine, dones]
      wr := by first | exact hwr | grind [put, release, sRelease, W.cs, W.wr, W.now, W.wait, W.owed, P.csW, P.rd, P.tab, P.told, Fine, dones]
      wr' := by first | exact hwr' | grind [put, release, sRelease, W.cs, W.wr, W.now, W.wait, W.owed, P.csW, P.rd, P.tab, P.told, Fine, dones]
      wrd := by first | exact hwrd | grind [put, release, sRelease, W.cs, W.wr, W.now, W.wait, W.owed, P.csW, P.rd, P.tab, P.told, Fine, dones]
      now := by first | exact hnow | grind [put, release, sRelease, W.cs, W.wr, W.now, W.wait, W.owed, P.csW, P.rd, P.tab, P.told, Fine, dones]
      tab := by first | exact htab | grind [put, release, sRelease, W.cs, W.wr, W.now, W.wait, W.owed, P.csW, P.rd, P.tab, P.told, Fine, dones]
      todo := by first | exact htodo | grind [put, release, sRelease, W.cs, W.wr, W.now, W.wait, W.owed, P.csW, P.rd, P.tab, P.told, Fine, dones]
      fresh := by first | exact hfresh | grind [put, release, sRelease, W.cs, W.wr, W.now, W.wait, W.owed, P.csW, P.rd, P.tab, P.told, Fine, dones]
      fine := by first | exact hfine | grind [put, release, sRelease, W.cs, W.wr, W.now, W.wait, W.owed, P.csW, P.rd, P.tab, P.told, Fine, dones]
      start := by first | exact hstart | grind [put, release, sRelease, W.cs, W.wr, W.now, W.wait, W.owed, P.csW, P.rd, P.tab, P.told, Fine, dones]
      asked := by first | exact hasked | grind [put, release, sRelease, W.cs, W.wr, W.now, W.wait, W.owed, P.csW, P.rd, P.tab, P.told, Fine, dones]
      owed := by first | exact howed | grind [put, release, sRelease, W.cs, W.wr, W.now, W.wait, W.owed, P.csW, P.rd, P.tab, P.told, Fine, dones]
      paid := by first | exact hpaid | grind [put, release, sRelease, W.cs, W.wr, W.now, W.wait, W.owed, P.csW, P.rd, P.tab, P.told, Fine, dones]
      data := by first | exact hdata | grind [put, release, sRelease, W.cs, W.wr, W.now, W.wait, W.owed, P.csW, P.rd, P.tab, P.told, Fine, dones]
    }
  · cases hs

theorem step_ask {sel : Nat → Nat → Bool} {s s' : State} {due : Nat → List Rep} {w : Nat} (h : Inv sel s due)
    (hs : step sel s (.ask w) = some s') : Inv sel s' due := by
  obtain ⟨hup, hbusy, hcs, hcsW, hexcl, hrd, hwr, hwr', hwrd, hnow, htab, htodo, hfresh, hfine, hstart, hasked, howed, hpaid, hdata⟩ := h
  simp only [step] at hs
  split at hs
  · next o n hw =>
    cases hs
    have honly : ∀ v, v ≠ w → s.w v = .idle := fun v hv => Classical.byContradiction fun hi => by
      have h1 := hup v hi
      have h2 := hup w (by rw [hw]; intro hc; cases hc)
      rw [h1] at h2
      exact hv (Option.some.inj h2)
    exact {
      up := by first | exact hup | grind [put, release, sRelease, W.cs, W.wr, W.now, W.wait, W.owed, P.csW, P.rd, P.tab, P.told, Fine, dones]
      busy := by first | exact hbusy | grind [put, release, sRelease, W.cs, W.wr, W.now, W.wait, W.owed, P.csW, P.rd, P.tab, P.told, Fine, dones]
      cs := by first | exact hcs | grind [put, release, sRelease, W.cs, W.wr, W.now, W.wait, W.owed, P.csW, P.rd, P.tab, P.told, Fine, dones]
      csW := by first | exact hcsW | grind [put, release, sRelease, W.cs, W.wr, W.now, W.wait, W.owed, P.csW, P.rd, P.tab, P.told, Fine, dones]
      excl := by first | exact hexcl | grind [put, release, sRelease, W.cs, W.wr, W.now, W.wait, W.owed, P.csW, P.rd, P.tab, P.told, Fine, dones]
      rd := by first | exact hrd | grind [put, release, sRelease, W.cs, W.wr, W.now, W.wait, W.owed, P.csW, P.rd, P.tab, P.told, Fine, dones]
      wr := by first | exact hwr | grind [put, release, sRelease, W.cs, W.wr, W.now, W.wait, W.owed, P.csW, P.rd, P.tab, P.told, Fine, dones]
      wr' := by first | exact hwr' | grind [put, release, sRelease, W.cs, W.wr, W.now, W.wait, W.owed, P.csW, P.rd, P.tab, P.told, Fine, dones]
      wrd := by first | exact hwrd | grind [put, release, sRelease, W.cs, W.wr, W.now, W.wait, W.owed, P.csW, P.rd, P.tab, P.told, Fine, dones]
      now := by first | exact hnow | grind [put, release, sRelease, W.cs, W.wr, W.now, W.wait, W.owed, P.csW, P.rd, P.tab, P.told, Fine, dones]
      tab := by first | exact htab | grind [put, release, sRelease, W.cs, W.wr, W.now, W.wait, W.owed, P.csW, P.rd, P.tab, P.told, Fine, dones]
      todo := by first | exact htodo | grind [put, release, sRelease, W.cs, W.wr, W.now, W.wait, W.owed, P.csW, P.rd, P.tab, P.told, Fine, dones]
      fresh := by 
        intro i h1 h2
        have : i ∉ s.table := fun hi => by rw [P.told_of_tab ((htab i).1 hi)] at h1; cases h1
        simp only [if_neg this]
        exact hfresh i h1 h2
      fine := by 
        intro i
        by_cases hi : i ∈ s.table
        · simp only [if_pos hi, Fine]
          exact ⟨hstart i (P.told_of_tab ((htab i).1 hi)), hfine i⟩
        · simp only [if_neg hi]
          exact hfine i
      start := by first | exact hstart | grind [put, release, sRelease, W.cs, W.wr, W.now, W.wait, W.owed, P.csW, P.rd, P.tab, P.told, Fine, dones]
      asked := by 
        intro v i o' n' h1 hi
        simp only [if_pos hi]
        by_cases hv : v = w
        · subst hv
          simp only [put_same, W.wait, Option.some.injEq, Prod.mk.injEq] at h1
          rw [h1.1, h1.2]
          exact ⟨_, rfl⟩
        · simp only [put_other _ _ hv, honly v hv, W.wait] at h1
          cases h1
      owed := by first | exact howed | grind [put, release, sRelease, W.cs, W.wr, W.now, W.wait, W.owed, P.csW, P.rd, P.tab, P.told, Fine, dones]
      paid := by first | exact hpaid | grind [put, release, sRelease, W.cs, W.wr, W.now, W.wait, W.owed, P.csW, P.rd, P.tab, P.told, Fine, dones]
      data := by first | exact hdata | grind [put, release, sRelease, W.cs, W.wr, W.now, W.wait, W.owed, P.csW, P.rd, P.tab, P.told, Fine, dones]
    }
  · cases hs

theorem step_upgrade {sel : Nat → Nat → Bool} {s s' : State} {due : Nat → List Rep} {w : Nat} (h : Inv sel s due)
    (hs : step sel s (.upgrade w) = some s') : Inv sel s' due := by
  obtain ⟨hup, hbusy, hcs, hcsW, hexcl, hrd, hwr, hwr', hwrd, hnow, htab, htodo, hfresh, hfine, hstart, hasked, howed, hpaid, hdata⟩ := h
  simp only [step] at hs
  split at hs
  · next o n hw =>
    split at hs
    · next hg =>
      cases hs
      have honly : ∀ v, v ≠ w → s.w v = .idle := fun v hv => Classical.byContradiction fun hi => by
        have h1 := hup v hi
        have h2 := hup w (by rw [hw]; intro hc; cases hc)
        rw [h1] at h2
        exact hv (Option.some.inj h2)
      exact {
        up := by first | exact hup | grind [put, release, sRelease, W.cs, W.wr, W.now, W.wait, W.owed, P.csW, P.rd, P.tab, P.told, Fine, dones]
        busy := by first | exact hbusy | grind [put, release, sRelease, W.cs, W.wr, W.now, W.wait, W.owed, P.csW, P.rd, P.tab, P.told, Fine, dones]
        cs := by first | exact hcs | grind [put, release, sRelease, W.cs, W.wr, W.now, W.wait, W.owed, P.csW, P.rd, P.tab, P.told, Fine, dones]
        csW := by first | exact hcsW | grind [put, release, sRelease, W.cs, W.wr, W.now, W.wait, W.owed, P.csW, P.rd, P.tab, P.told, Fine, dones]
        excl := by first | exact hexcl | grind [put, release, sRelease, W.cs, W.wr, W.now, W.wait, W.owed, P.csW, P.rd, P.tab, P.told, Fine, dones]
        rd := by first | exact hrd | grind [put, release, sRelease, W.cs, W.wr, W.now, W.wait, W.owed, P.csW, P.rd, P.tab, P.told, Fine, dones]
        wr := by first | exact hwr | grind [put, release, sRelease, W.cs, W.wr, W.now, W.wait, W.owed, P.csW, P.rd, P.tab, P.told, Fine, dones]
        wr' := by exact fun _ => ⟨w, by simp [put, W.wr]⟩
        wrd := by first | exact hwrd | grind [put, release, sRelease, W.cs, W.wr, W.now, W.wait, W.owed, P.csW, P.rd, P.tab, P.told, Fine, dones]
        now := by first | exact hnow | grind [put, release, sRelease, W.cs, W.wr, W.now, W.wait, W.owed, P.csW, P.rd, P.tab, P.told, Fine, dones]
        tab := by first | exact htab | grind [put, release, sRelease, W.cs, W.wr, W.now, W.wait, W.owed, P.csW, P.rd, P.tab, P.told, Fine, dones]
        todo := by first | exact htodo | grind [put, release, sRelease, W.cs, W.wr, W.now, W.wait, W.owed, P.csW, P.rd, P.tab, P.told, Fine, dones]
        fresh := by first | exact hfresh | grind [put, release, sRelease, W.cs, W.wr, W.now, W.wait, W.owed, P.csW, P.rd, P.tab, P.told, Fine, dones]
        fine := by first | exact hfine | grind [put, release, sRelease, W.cs, W.wr, W.now, W.wait, W.owed, P.csW, P.rd, P.tab, P.told, Fine, dones]
        start := by first | exact hstart | grind [put, release, sRelease, W.cs, W.wr, W.now, W.wait, W.owed, P.csW, P.rd, P.tab, P.told, Fine, dones]
        asked := by first | exact hasked | grind [put, release, sRelease, W.cs, W.wr, W.now, W.wait, W.owed, P.csW, P.rd, P.tab, P.told, Fine, dones]
        owed := by first | exact howed | grind [put, release, sRelease, W.cs, W.wr, W.now, W.wait, W.owed, P.csW, P.rd, P.tab, P.told, Fine, dones]
        paid := by first | exact hpaid | grind [put, release, sRelease, W.cs, W.wr, W.now, W.wait, W.owed, P.csW, P.rd, P.tab, P.told, Fine, dones]
        data := by first | exact hdata | grind [put, release, sRelease, W.cs, W.wr, W.now, W.wait, W.owed, P.csW, P.rd, P.tab, P.told, Fine, dones]
      }
    · cases hs
  · cases hs

theorem step_downgrade {sel : Nat → Nat → Bool} {s s' : State} {due : Nat → List Rep} {w : Nat} (h : Inv sel s due)
    (hs : step sel s (.downgrade w) = some s') : Inv sel s' due := by
  obtain ⟨hup, hbusy, hcs, hcsW, hexcl, hrd, hwr, hwr', hwrd, hnow, htab, htodo, hfresh, hfine, hstart, hasked, howed, hpaid, hdata⟩ := h
  simp only [step] at hs
  split at hs
  · next o n hw =>
    cases hs
    have honly : ∀ v, v ≠ w → s.w v = .idle := fun v hv => Classical.byContradiction fun hi => by
      have h1 := hup v hi
      have h2 := hup w (by rw [hw]; intro hc; cases hc)
      rw [h1] at h2
      exact hv (Option.some.inj h2)
    exact {
      up := by first | exact hup | grind [put, release, sRelease, W.cs, W.wr, W.now, W.wait, W.owed, P.csW, P.rd, P.tab, P.told, Fine, dones]
      busy := by first | exact hbusy | grind [put, release, sRelease, W.cs, W.wr, W.now, W.wait, W.owed, P.csW, P.rd, P.tab, P.told, Fine, dones]
      cs := by first | exact hcs | grind [put, release, sRelease, W.cs, W.wr, W.now, W.wait, W.owed, P.csW, P.rd, P.tab, P.told, Fine, dones]
      csW := by first | exact hcsW | grind [put, release, sRelease, W.cs, W.wr, W.now, W.wait, W.owed, P.csW, P.rd, P.tab, P.told, Fine, dones]
      excl := by first | exact hexcl | grind [put, release, sRelease, W.cs, W.wr, W.now, W.wait, W.owed, P.csW, P.rd, P.tab, P.told, Fine, dones]
      rd := by first | exact hrd | grind [put, release, sRelease, W.cs, W.wr, W.now, W.wait, W.owed, P.csW, P.rd, P.tab, P.told, Fine, dones]
      wr := by first | exact hwr | grind [put, release, sRelease, W.cs, W.wr, W.now, W.wait, W.owed, P.csW, P.rd, P.tab, P.told, Fine, dones]
      wr' := by first | exact hwr' | grind [put, release, sRelease, W.cs, W.wr, W.now, W.wait, W.owed, P.csW, P.rd, P.tab, P.told, Fine, dones]
      wrd := by first | exact hwrd | grind [put, release, sRelease, W.cs, W.wr, W.now, W.wait, W.owed, P.csW, P.rd, P.tab, P.told, Fine, dones]
      now := by first | exact hnow | grind [put, release, sRelease, W.cs, W.wr, W.now, W.wait, W.owed, P.csW, P.rd, P.tab, P.told, Fine, dones]
      tab := by first | exact htab | grind [put, release, sRelease, W.cs, W.wr, W.now, W.wait, W.owed, P.csW, P.rd, P.tab, P.told, Fine, dones]
      todo := by first | exact htodo | grind [put, release, sRelease, W.cs, W.wr, W.now, W.wait, W.owed, P.csW, P.rd, P.tab, P.told, Fine, dones]
      fresh := by first | exact hfresh | grind [put, release, sRelease, W.cs, W.wr, W.now, W.wait, W.owed, P.csW, P.rd, P.tab, P.told, Fine, dones]
      fine := by first | exact hfine | grind [put, release, sRelease, W.cs, W.wr, W.now, W.wait, W.owed, P.csW, P.rd, P.tab, P.told, Fine, dones]
      start := by first | exact hstart | grind [put, release, sRelease, W.cs, W.wr, W.now, W.wait, W.owed, P.csW, P.rd, P.tab, P.told, Fine, dones]
      asked := by first | exact hasked | grind [put, release, sRelease, W.cs, W.wr, W.now, W.wait, W.owed, P.csW, P.rd, P.tab, P.told, Fine, dones]
      owed := by first | exact howed | grind [put, release, sRelease, W.cs, W.wr, W.now, W.wait, W.owed, P.csW, P.rd, P.tab, P.told, Fine, dones]
      paid := by 
        intro i h1 h2
        have hi : i ∉ s.table := fun hi => by
          have := h2 w
          simp only [put_same, W.owed, if_pos hi] at this
          cases this
        have h3 := (hcsW i).2 (P.csW_of_shown h1 (by rw [← Bool.not_eq_true]; exact fun h => hi ((htab i).2 h)))
        have h4 : w ∈ s.csR := (hcs w).2 (by rw [hw]; rfl)
        rw [hexcl i h3] at h4
        cases h4
      data := by first | exact hdata | grind [put, release, sRelease, W.cs, W.wr, W.now, W.wait, W.owed, P.csW, P.rd, P.tab, P.told, Fine, dones]
    }
  · cases hs

theorem step_tell {sel : Nat → Nat → Bool} {s s' : State} {due : Nat → List Rep} {w i : Nat} (h : Inv sel s due)
    (hs : step sel s (.tell w i) = some s') : Inv sel s' due := by
  obtain ⟨hup, hbusy, hcs, hcsW, hexcl, hrd, hwr, hwr', hwrd, hnow, htab, htodo, hfresh, hfine, hstart, hasked, howed, hpaid, hdata⟩ := h
  simp only [step] at hs
  split at hs
  · next o n todo hw =>
    split at hs
    · next hg =>
      cases hs
      have honly : ∀ v, v ≠ w → s.w v = .idle := fun v hv => Classical.byContradiction fun hi => by
        have h1 := hup v hi
        have h2 := hup w (by rw [hw]; intro hc; cases hc)
        rw [h1] at h2
        exact hv (Option.some.inj h2)
      exact {
        up := by first | exact hup | grind [put, release, sRelease, W.cs, W.wr, W.now, W.wait, W.owed, P.csW, P.rd, P.tab, P.told, Fine, dones]
        busy := by first | exact hbusy | grind [put, release, sRelease, W.cs, W.wr, W.now, W.wait, W.owed, P.csW, P.rd, P.tab, P.told, Fine, dones]
        cs := by first | exact hcs | grind [put, release, sRelease, W.cs, W.wr, W.now, W.wait, W.owed, P.csW, P.rd, P.tab, P.told, Fine, dones]
        csW := by first | exact hcsW | grind [put, release, sRelease, W.cs, W.wr, W.now, W.wait, W.owed, P.csW, P.rd, P.tab, P.told, Fine, dones]
        excl := by first | exact hexcl | grind [put, release, sRelease, W.cs, W.wr, W.now, W.wait, W.owed, P.csW, P.rd, P.tab, P.told, Fine, dones]
        rd := by first | exact hrd | grind [put, release, sRelease, W.cs, W.wr, W.now, W.wait, W.owed, P.csW, P.rd, P.tab, P.told, Fine, dones]
        wr := by first | exact hwr | grind [put, release, sRelease, W.cs, W.wr, W.now, W.wait, W.owed, P.csW, P.rd, P.tab, P.told, Fine, dones]
        wr' := by first | exact hwr' | grind [put, release, sRelease, W.cs, W.wr, W.now, W.wait, W.owed, P.csW, P.rd, P.tab, P.told, Fine, dones]
        wrd := by first | exact hwrd | grind [put, release, sRelease, W.cs, W.wr, W.now, W.wait, W.owed, P.csW, P.rd, P.tab, P.told, Fine, dones]
        now := by first | exact hnow | grind [put, release, sRelease, W.cs, W.wr, W.now, W.wait, W.owed, P.csW, P.rd, P.tab, P.told, Fine, dones]
        tab := by first | exact htab | grind [put, release, sRelease, W.cs, W.wr, W.now, W.wait, W.owed, P.csW, P.rd, P.tab, P.told, Fine, dones]
        todo := by first | exact htodo | grind [put, release, sRelease, W.cs, W.wr, W.now, W.wait, W.owed, P.csW, P.rd, P.tab, P.told, Fine, dones]
        fresh := by first | exact hfresh | grind [put, release, sRelease, W.cs, W.wr, W.now, W.wait, W.owed, P.csW, P.rd, P.tab, P.told, Fine, dones]
        fine := by first | exact hfine | grind [put, release, sRelease, W.cs, W.wr, W.now, W.wait, W.owed, P.csW, P.rd, P.tab, P.told, Fine, dones]
        start := by first | exact hstart | grind [put, release, sRelease, W.cs, W.wr, W.now, W.wait, W.owed, P.csW, P.rd, P.tab, P.told, Fine, dones]
        asked := by first | exact hasked | grind [put, release, sRelease, W.cs, W.wr, W.now, W.wait, W.owed, P.csW, P.rd, P.tab, P.told, Fine, dones]
        owed := by first | exact howed | grind [put, release, sRelease, W.cs, W.wr, W.now, W.wait, W.owed, P.csW, P.rd, P.tab, P.told, Fine, dones]
        paid := by 
          intro j h1 h2
          by_cases hj : j = i
          · subst hj
            simp only [put_same, dones]
            exact howed w j o n (by rw [hw]; simp [W.owed, hg]) (htodo w o n todo j hw hg)
          · simp only [put_other _ _ hj]
            refine hpaid j h1 (fun v => ?_)
            by_cases hv : v = w
            · subst hv
              have := h2 v
              simp only [put_same, W.owed] at this
              rw [hw]
              simp only [W.owed]
              by_cases ht : j ∈ todo
              · simp [ht, hj] at this
              · simp [ht]
            · rw [honly v hv]; rfl
        data := by first | exact hdata | grind [put, release, sRelease, W.cs, W.wr, W.now, W.wait, W.owed, P.csW, P.rd, P.tab, P.told, Fine, dones]
      }
    · cases hs
  · cases hs

theorem step_finish {sel : Nat → Nat → Bool} {s s' : State} {due : Nat → List Rep} {w : Nat} (h : Inv sel s due)
    (hs : step sel s (.finish w) = some s') : Inv sel s' due := by
  obtain ⟨hup, hbusy, hcs, hcsW, hexcl, hrd, hwr, hwr', hwrd, hnow, htab, htodo, hfresh, hfine, hstart, hasked, howed, hpaid, hdata⟩ := h
  simp only [step, release] at hs
  split at hs
  · next o n hw =>
    cases hs
    have honly : ∀ v, v ≠ w → s.w v = .idle := fun v hv => Classical.byContradiction fun hi => by
      have h1 := hup v hi
      have h2 := hup w (by rw [hw]; intro hc; cases hc)
      rw [h1] at h2
      exact hv (Option.some.inj h2)
    exact {
      up := by first | exact hup | grind [put, release, sRelease, W.cs, W.wr, W.now, W.wait, W.owed, P.csW, P.rd, P.tab, P.told, Fine, dones]
      busy := by first | exact hbusy | grind [put, release, sRelease, W.cs, W.wr, W.now, W.wait, W.owed, P.csW, P.rd, P.tab, P.told, Fine, dones]
      cs := by first | exact hcs | grind [put, release, sRelease, W.cs, W.wr, W.now, W.wait, W.owed, P.csW, P.rd, P.tab, P.told, Fine, dones]
      csW := by first | exact hcsW | grind [put, release, sRelease, W.cs, W.wr, W.now, W.wait, W.owed, P.csW, P.rd, P.tab, P.told, Fine, dones]
      excl := by first | exact hexcl | grind [put, release, sRelease, W.cs, W.wr, W.now, W.wait, W.owed, P.csW, P.rd, P.tab, P.told, Fine, dones]
      rd := by first | exact hrd | grind [put, release, sRelease, W.cs, W.wr, W.now, W.wait, W.owed, P.csW, P.rd, P.tab, P.told, Fine, dones]
      wr := by first | exact hwr | grind [put, release, sRelease, W.cs, W.wr, W.now, W.wait, W.owed, P.csW, P.rd, P.tab, P.told, Fine, dones]
      wr' := by first | exact hwr' | grind [put, release, sRelease, W.cs, W.wr, W.now, W.wait, W.owed, P.csW, P.rd, P.tab, P.told, Fine, dones]
      wrd := by first | exact hwrd | grind [put, release, sRelease, W.cs, W.wr, W.now, W.wait, W.owed, P.csW, P.rd, P.tab, P.told, Fine, dones]
      now := by first | exact hnow | grind [put, release, sRelease, W.cs, W.wr, W.now, W.wait, W.owed, P.csW, P.rd, P.tab, P.told, Fine, dones]
      tab := by first | exact htab | grind [put, release, sRelease, W.cs, W.wr, W.now, W.wait, W.owed, P.csW, P.rd, P.tab, P.told, Fine, dones]
      todo := by first | exact htodo | grind [put, release, sRelease, W.cs, W.wr, W.now, W.wait, W.owed, P.csW, P.rd, P.tab, P.told, Fine, dones]
      fresh := by first | exact hfresh | grind [put, release, sRelease, W.cs, W.wr, W.now, W.wait, W.owed, P.csW, P.rd, P.tab, P.told, Fine, dones]
      fine := by first | exact hfine | grind [put, release, sRelease, W.cs, W.wr, W.now, W.wait, W.owed, P.csW, P.rd, P.tab, P.told, Fine, dones]
      start := by first | exact hstart | grind [put, release, sRelease, W.cs, W.wr, W.now, W.wait, W.owed, P.csW, P.rd, P.tab, P.told, Fine, dones]
      asked := by first | exact hasked | grind [put, release, sRelease, W.cs, W.wr, W.now, W.wait, W.owed, P.csW, P.rd, P.tab, P.told, Fine, dones]
      owed := by first | exact howed | grind [put, release, sRelease, W.cs, W.wr, W.now, W.wait, W.owed, P.csW, P.rd, P.tab, P.told, Fine, dones]
      paid := by first | exact hpaid | grind [put, release, sRelease, W.cs, W.wr, W.now, W.wait, W.owed, P.csW, P.rd, P.tab, P.told, Fine, dones]
      data := by first | exact hdata | grind [put, release, sRelease, W.cs, W.wr, W.now, W.wait, W.owed, P.csW, P.rd, P.tab, P.told, Fine, dones]
    }
  · cases hs

theorem step_sLock {sel : Nat → Nat → Bool} {s s' : State} {due : Nat → List Rep} {i : Nat} (h : Inv sel s due)
    (hs : step sel s (.sLock i) = some s') : Inv sel s' due := by
  obtain ⟨hup, hbusy, hcs, hcsW, hexcl, hrd, hwr, hwr', hwrd, hnow, htab, htodo, hfresh, hfine, hstart, hasked, howed, hpaid, hdata⟩ := h
  simp only [step] at hs
  split at hs
  · next hg =>
    cases hs
    exact {
      up := by first | exact hup | grind [put, release, sRelease, W.cs, W.wr, W.now, W.wait, W.owed, P.csW, P.rd, P.tab, P.told, Fine, dones]
      busy := by first | exact hbusy | grind [put, release, sRelease, W.cs, W.wr, W.now, W.wait, W.owed, P.csW, P.rd, P.tab, P.told, Fine, dones]
      cs := by first | exact hcs | grind [put, release, sRelease, W.cs, W.wr, W.now, W.wait, W.owed, P.csW, P.rd, P.tab, P.told, Fine, dones]
      csW := by first | exact hcsW | grind [put, release, sRelease, W.cs, W.wr, W.now, W.wait, W.owed, P.csW, P.rd, P.tab, P.told, Fine, dones]
      excl := by first | exact hexcl | grind [put, release, sRelease, W.cs, W.wr, W.now, W.wait, W.owed, P.csW, P.rd, P.tab, P.told, Fine, dones]
      rd := by first | exact hrd | grind [put, release, sRelease, W.cs, W.wr, W.now, W.wait, W.owed, P.csW, P.rd, P.tab, P.told, Fine, dones]
      wr := by first | exact hwr | grind [put, release, sRelease, W.cs, W.wr, W.now, W.wait, W.owed, P.csW, P.rd, P.tab, P.told, Fine, dones]
      wr' := by first | exact hwr' | grind [put, release, sRelease, W.cs, W.wr, W.now, W.wait, W.owed, P.csW, P.rd, P.tab, P.told, Fine, dones]
      wrd := by first | exact hwrd | grind [put, release, sRelease, W.cs, W.wr, W.now, W.wait, W.owed, P.csW, P.rd, P.tab, P.told, Fine, dones]
      now := by first | exact hnow | grind [put, release, sRelease, W.cs, W.wr, W.now, W.wait, W.owed, P.csW, P.rd, P.tab, P.told, Fine, dones]
      tab := by first | exact htab | grind [put, release, sRelease, W.cs, W.wr, W.now, W.wait, W.owed, P.csW, P.rd, P.tab, P.told, Fine, dones]
      todo := by first | exact htodo | grind [put, release, sRelease, W.cs, W.wr, W.now, W.wait, W.owed, P.csW, P.rd, P.tab, P.told, Fine, dones]
      fresh := by first | exact hfresh | grind [put, release, sRelease, W.cs, W.wr, W.now, W.wait, W.owed, P.csW, P.rd, P.tab, P.told, Fine, dones]
      fine := by first | exact hfine | grind [put, release, sRelease, W.cs, W.wr, W.now, W.wait, W.owed, P.csW, P.rd, P.tab, P.told, Fine, dones]
      start := by first | exact hstart | grind [put, release, sRelease, W.cs, W.wr, W.now, W.wait, W.owed, P.csW, P.rd, P.tab, P.told, Fine, dones]
      asked := by first | exact hasked | grind [put, release, sRelease, W.cs, W.wr, W.now, W.wait, W.owed, P.csW, P.rd, P.tab, P.told, Fine, dones]
      owed := by first | exact howed | grind [put, release, sRelease, W.cs, W.wr, W.now, W.wait, W.owed, P.csW, P.rd, P.tab, P.told, Fine, dones]
      paid := by first | exact hpaid | grind [put, release, sRelease, W.cs, W.wr, W.now, W.wait, W.owed, P.csW, P.rd, P.tab, P.told, Fine, dones]
      data := by first | exact hdata | grind [put, release, sRelease, W.cs, W.wr, W.now, W.wait, W.owed, P.csW, P.rd, P.tab, P.told, Fine, dones]
    }
  · cases hs

theorem step_sRead {sel : Nat → Nat → Bool} {s s' : State} {due : Nat → List Rep} {i : Nat} (h : Inv sel s due)
    (hs : step sel s (.sRead i) = some s') : Inv sel s' due := by
  obtain ⟨hup, hbusy, hcs, hcsW, hexcl, hrd, hwr, hwr', hwrd, hnow, htab, htodo, hfresh, hfine, hstart, hasked, howed, hpaid, hdata⟩ := h
  simp only [step] at hs
  split at hs
  · next hg =>
    cases hs
    exact {
      up := by first | exact hup | grind [put, release, sRelease, W.cs, W.wr, W.now, W.wait, W.owed, P.csW, P.rd, P.tab, P.told, Fine, dones]
      busy := by first | exact hbusy | grind [put, release, sRelease, W.cs, W.wr, W.now, W.wait, W.owed, P.csW, P.rd, P.tab, P.told, Fine, dones]
      cs := by first | exact hcs | grind [put, release, sRelease, W.cs, W.wr, W.now, W.wait, W.owed, P.csW, P.rd, P.tab, P.told, Fine, dones]
      csW := by first | exact hcsW | grind [put, release, sRelease, W.cs, W.wr, W.now, W.wait, W.owed, P.csW, P.rd, P.tab, P.told, Fine, dones]
      excl := by first | exact hexcl | grind [put, release, sRelease, W.cs, W.wr, W.now, W.wait, W.owed, P.csW, P.rd, P.tab, P.told, Fine, dones]
      rd := by first | exact hrd | grind [put, release, sRelease, W.cs, W.wr, W.now, W.wait, W.owed, P.csW, P.rd, P.tab, P.told, Fine, dones]
      wr := by first | exact hwr | grind [put, release, sRelease, W.cs, W.wr, W.now, W.wait, W.owed, P.csW, P.rd, P.tab, P.told, Fine, dones]
      wr' := by first | exact hwr' | grind [put, release, sRelease, W.cs, W.wr, W.now, W.wait, W.owed, P.csW, P.rd, P.tab, P.told, Fine, dones]
      wrd := by first | exact hwrd | grind [put, release, sRelease, W.cs, W.wr, W.now, W.wait, W.owed, P.csW, P.rd, P.tab, P.told, Fine, dones]
      now := by first | exact hnow | grind [put, release, sRelease, W.cs, W.wr, W.now, W.wait, W.owed, P.csW, P.rd, P.tab, P.told, Fine, dones]
      tab := by first | exact htab | grind [put, release, sRelease, W.cs, W.wr, W.now, W.wait, W.owed, P.csW, P.rd, P.tab, P.told, Fine, dones]
      todo := by first | exact htodo | grind [put, release, sRelease, W.cs, W.wr, W.now, W.wait, W.owed, P.csW, P.rd, P.tab, P.told, Fine, dones]
      fresh := by first | exact hfresh | grind [put, release, sRelease, W.cs, W.wr, W.now, W.wait, W.owed, P.csW, P.rd, P.tab, P.told, Fine, dones]
      fine := by first | exact hfine | grind [put, release, sRelease, W.cs, W.wr, W.now, W.wait, W.owed, P.csW, P.rd, P.tab, P.told, Fine, dones]
      start := by first | exact hstart | grind [put, release, sRelease, W.cs, W.wr, W.now, W.wait, W.owed, P.csW, P.rd, P.tab, P.told, Fine, dones]
      asked := by first | exact hasked | grind [put, release, sRelease, W.cs, W.wr, W.now, W.wait, W.owed, P.csW, P.rd, P.tab, P.told, Fine, dones]
      owed := by first | exact howed | grind [put, release, sRelease, W.cs, W.wr, W.now, W.wait, W.owed, P.csW, P.rd, P.tab, P.told, Fine, dones]
      paid := by first | exact hpaid | grind [put, release, sRelease, W.cs, W.wr, W.now, W.wait, W.owed, P.csW, P.rd, P.tab, P.told, Fine, dones]
      data := by first | exact hdata | grind [put, release, sRelease, W.cs, W.wr, W.now, W.wait, W.owed, P.csW, P.rd, P.tab, P.told, Fine, dones]
    }
  · cases hs

theorem step_sAdd {sel : Nat → Nat → Bool} {s s' : State} {due : Nat → List Rep} {i : Nat} (h : Inv sel s due)
    (hs : step sel s (.sAdd i) = some s') : Inv sel s' due := by
  obtain ⟨hup, hbusy, hcs, hcsW, hexcl, hrd, hwr, hwr', hwrd, hnow, htab, htodo, hfresh, hfine, hstart, hasked, howed, hpaid, hdata⟩ := h
  simp only [step] at hs
  split at hs
  · next hg =>
    cases hs
    exact {
      up := by first | exact hup | grind [put, release, sRelease, W.cs, W.wr, W.now, W.wait, W.owed, P.csW, P.rd, P.tab, P.told, Fine, dones]
      busy := by first | exact hbusy | grind [put, release, sRelease, W.cs, W.wr, W.now, W.wait, W.owed, P.csW, P.rd, P.tab, P.told, Fine, dones]
      cs := by first | exact hcs | grind [put, release, sRelease, W.cs, W.wr, W.now, W.wait, W.owed, P.csW, P.rd, P.tab, P.told, Fine, dones]
      csW := by first | exact hcsW | grind [put, release, sRelease, W.cs, W.wr, W.now, W.wait, W.owed, P.csW, P.rd, P.tab, P.told, Fine, dones]
      excl := by first | exact hexcl | grind [put, release, sRelease, W.cs, W.wr, W.now, W.wait, W.owed, P.csW, P.rd, P.tab, P.told, Fine, dones]
      rd := by first | exact hrd | grind [put, release, sRelease, W.cs, W.wr, W.now, W.wait, W.owed, P.csW, P.rd, P.tab, P.told, Fine, dones]
      wr := by first | exact hwr | grind [put, release, sRelease, W.cs, W.wr, W.now, W.wait, W.owed, P.csW, P.rd, P.tab, P.told, Fine, dones]
      wr' := by first | exact hwr' | grind [put, release, sRelease, W.cs, W.wr, W.now, W.wait, W.owed, P.csW, P.rd, P.tab, P.told, Fine, dones]
      wrd := by first | exact hwrd | grind [put, release, sRelease, W.cs, W.wr, W.now, W.wait, W.owed, P.csW, P.rd, P.tab, P.told, Fine, dones]
      now := by first | exact hnow | grind [put, release, sRelease, W.cs, W.wr, W.now, W.wait, W.owed, P.csW, P.rd, P.tab, P.told, Fine, dones]
      tab := by first | exact htab | grind [put, release, sRelease, W.cs, W.wr, W.now, W.wait, W.owed, P.csW, P.rd, P.tab, P.told, Fine, dones]
      todo := by first | exact htodo | grind [put, release, sRelease, W.cs, W.wr, W.now, W.wait, W.owed, P.csW, P.rd, P.tab, P.told, Fine, dones]
      fresh := by first | exact hfresh | grind [put, release, sRelease, W.cs, W.wr, W.now, W.wait, W.owed, P.csW, P.rd, P.tab, P.told, Fine, dones]
      fine := by first | exact hfine | grind [put, release, sRelease, W.cs, W.wr, W.now, W.wait, W.owed, P.csW, P.rd, P.tab, P.told, Fine, dones]
      start := by first | exact hstart | grind [put, release, sRelease, W.cs, W.wr, W.now, W.wait, W.owed, P.csW, P.rd, P.tab, P.told, Fine, dones]
      asked := by 
        intro v j o n h1 hj
        have h2 := (hcs v).2 (W.cs_of_wait h1)
        rw [hexcl i ((hcsW i).2 (by rw [hg]; rfl))] at h2
        cases h2
      owed := by 
        intro v j o n h1 hj
        have h2 := (hcs v).2 (W.cs_of_owed h1)
        rw [hexcl i ((hcsW i).2 (by rw [hg]; rfl))] at h2
        cases h2
      paid := by first | exact hpaid | grind [put, release, sRelease, W.cs, W.wr, W.now, W.wait, W.owed, P.csW, P.rd, P.tab, P.told, Fine, dones]
      data := by first | exact hdata | grind [put, release, sRelease, W.cs, W.wr, W.now, W.wait, W.owed, P.csW, P.rd, P.tab, P.told, Fine, dones]
    }
  · cases hs

theorem step_sFree {sel : Nat → Nat → Bool} {s s' : State} {due : Nat → List Rep} {i : Nat} (h : Inv sel s due)
    (hs : step sel s (.sFree i) = some s') : Inv sel s' due := by
  obtain ⟨hup, hbusy, hcs, hcsW, hexcl, hrd, hwr, hwr', hwrd, hnow, htab, htodo, hfresh, hfine, hstart, hasked, howed, hpaid, hdata⟩ := h
  simp only [step] at hs
  split at hs
  · next hg =>
    cases hs
    exact {
      up := by first | exact hup | grind [put, release, sRelease, W.cs, W.wr, W.now, W.wait, W.owed, P.csW, P.rd, P.tab, P.told, Fine, dones]
      busy := by first | exact hbusy | grind [put, release, sRelease, W.cs, W.wr, W.now, W.wait, W.owed, P.csW, P.rd, P.tab, P.told, Fine, dones]
      cs := by first | exact hcs | grind [put, release, sRelease, W.cs, W.wr, W.now, W.wait, W.owed, P.csW, P.rd, P.tab, P.told, Fine, dones]
      csW := by first | exact hcsW | grind [put, release, sRelease, W.cs, W.wr, W.now, W.wait, W.owed, P.csW, P.rd, P.tab, P.told, Fine, dones]
      excl := by first | exact hexcl | grind [put, release, sRelease, W.cs, W.wr, W.now, W.wait, W.owed, P.csW, P.rd, P.tab, P.told, Fine, dones]
      rd := by first | exact hrd | grind [put, release, sRelease, W.cs, W.wr, W.now, W.wait, W.owed, P.csW, P.rd, P.tab, P.told, Fine, dones]
      wr := by first | exact hwr | grind [put, release, sRelease, W.cs, W.wr, W.now, W.wait, W.owed, P.csW, P.rd, P.tab, P.told, Fine, dones]
      wr' := by first | exact hwr' | grind [put, release, sRelease, W.cs, W.wr, W.now, W.wait, W.owed, P.csW, P.rd, P.tab, P.told, Fine, dones]
      wrd := by first | exact hwrd | grind [put, release, sRelease, W.cs, W.wr, W.now, W.wait, W.owed, P.csW, P.rd, P.tab, P.told, Fine, dones]
      now := by first | exact hnow | grind [put, release, sRelease, W.cs, W.wr, W.now, W.wait, W.owed, P.csW, P.rd, P.tab, P.told, Fine, dones]
      tab := by first | exact htab | grind [put, release, sRelease, W.cs, W.wr, W.now, W.wait, W.owed, P.csW, P.rd, P.tab, P.told, Fine, dones]
      todo := by first | exact htodo | grind [put, release, sRelease, W.cs, W.wr, W.now, W.wait, W.owed, P.csW, P.rd, P.tab, P.told, Fine, dones]
      fresh := by first | exact hfresh | grind [put, release, sRelease, W.cs, W.wr, W.now, W.wait, W.owed, P.csW, P.rd, P.tab, P.told, Fine, dones]
      fine := by first | exact hfine | grind [put, release, sRelease, W.cs, W.wr, W.now, W.wait, W.owed, P.csW, P.rd, P.tab, P.told, Fine, dones]
      start := by first | exact hstart | grind [put, release, sRelease, W.cs, W.wr, W.now, W.wait, W.owed, P.csW, P.rd, P.tab, P.told, Fine, dones]
      asked := by first | exact hasked | grind [put, release, sRelease, W.cs, W.wr, W.now, W.wait, W.owed, P.csW, P.rd, P.tab, P.told, Fine, dones]
      owed := by first | exact howed | grind [put, release, sRelease, W.cs, W.wr, W.now, W.wait, W.owed, P.csW, P.rd, P.tab, P.told, Fine, dones]
      paid := by first | exact hpaid | grind [put, release, sRelease, W.cs, W.wr, W.now, W.wait, W.owed, P.csW, P.rd, P.tab, P.told, Fine, dones]
      data := by first | exact hdata | grind [put, release, sRelease, W.cs, W.wr, W.now, W.wait, W.owed, P.csW, P.rd, P.tab, P.told, Fine, dones]
    }
  · cases hs

theorem step_sEnd {sel : Nat → Nat → Bool} {s s' : State} {due : Nat → List Rep} {i : Nat} (h : Inv sel s due)
    (hs : step sel s (.sEnd i) = some s') : Inv sel s' due := by
  obtain ⟨hup, hbusy, hcs, hcsW, hexcl, hrd, hwr, hwr', hwrd, hnow, htab, htodo, hfresh, hfine, hstart, hasked, howed, hpaid, hdata⟩ := h
  simp only [step] at hs
  split at hs
  · next hg =>
    cases hs
    exact {
      up := by first | exact hup | grind [put, release, sRelease, W.cs, W.wr, W.now, W.wait, W.owed, P.csW, P.rd, P.tab, P.told, Fine, dones]
      busy := by first | exact hbusy | grind [put, release, sRelease, W.cs, W.wr, W.now, W.wait, W.owed, P.csW, P.rd, P.tab, P.told, Fine, dones]
      cs := by first | exact hcs | grind [put, release, sRelease, W.cs, W.wr, W.now, W.wait, W.owed, P.csW, P.rd, P.tab, P.told, Fine, dones]
      csW := by first | exact hcsW | grind [put, release, sRelease, W.cs, W.wr, W.now, W.wait, W.owed, P.csW, P.rd, P.tab, P.told, Fine, dones]
      excl := by first | exact hexcl | grind [put, release, sRelease, W.cs, W.wr, W.now, W.wait, W.owed, P.csW, P.rd, P.tab, P.told, Fine, dones]
      rd := by first | exact hrd | grind [put, release, sRelease, W.cs, W.wr, W.now, W.wait, W.owed, P.csW, P.rd, P.tab, P.told, Fine, dones]
      wr := by first | exact hwr | grind [put, release, sRelease, W.cs, W.wr, W.now, W.wait, W.owed, P.csW, P.rd, P.tab, P.told, Fine, dones]
      wr' := by first | exact hwr' | grind [put, release, sRelease, W.cs, W.wr, W.now, W.wait, W.owed, P.csW, P.rd, P.tab, P.told, Fine, dones]
      wrd := by first | exact hwrd | grind [put, release, sRelease, W.cs, W.wr, W.now, W.wait, W.owed, P.csW, P.rd, P.tab, P.told, Fine, dones]
      now := by first | exact hnow | grind [put, release, sRelease, W.cs, W.wr, W.now, W.wait, W.owed, P.csW, P.rd, P.tab, P.told, Fine, dones]
      tab := by first | exact htab | grind [put, release, sRelease, W.cs, W.wr, W.now, W.wait, W.owed, P.csW, P.rd, P.tab, P.told, Fine, dones]
      todo := by first | exact htodo | grind [put, release, sRelease, W.cs, W.wr, W.now, W.wait, W.owed, P.csW, P.rd, P.tab, P.told, Fine, dones]
      fresh := by first | exact hfresh | grind [put, release, sRelease, W.cs, W.wr, W.now, W.wait, W.owed, P.csW, P.rd, P.tab, P.told, Fine, dones]
      fine := by first | exact hfine | grind [put, release, sRelease, W.cs, W.wr, W.now, W.wait, W.owed, P.csW, P.rd, P.tab, P.told, Fine, dones]
      start := by first | exact hstart | grind [put, release, sRelease, W.cs, W.wr, W.now, W.wait, W.owed, P.csW, P.rd, P.tab, P.told, Fine, dones]
      asked := by first | exact hasked | grind [put, release, sRelease, W.cs, W.wr, W.now, W.wait, W.owed, P.csW, P.rd, P.tab, P.told, Fine, dones]
      owed := by first | exact howed | grind [put, release, sRelease, W.cs, W.wr, W.now, W.wait, W.owed, P.csW, P.rd, P.tab, P.told, Fine, dones]
      paid := by first | exact hpaid | grind [put, release, sRelease, W.cs, W.wr, W.now, W.wait, W.owed, P.csW, P.rd, P.tab, P.told, Fine, dones]
      data := by first | exact hdata | grind [put, release, sRelease, W.cs, W.wr, W.now, W.wait, W.owed, P.csW, P.rd, P.tab, P.told, Fine, dones]
    }
  · cases hs

theorem step_sFail {sel : Nat → Nat → Bool} {s s' : State} {due : Nat → List Rep} {i : Nat} (h : Inv sel s due)
    (hs : step sel s (.sFail i) = some s') : Inv sel s' due := by
  obtain ⟨hup, hbusy, hcs, hcsW, hexcl, hrd, hwr, hwr', hwrd, hnow, htab, htodo, hfresh, hfine, hstart, hasked, howed, hpaid, hdata⟩ := h
  simp only [step, sRelease] at hs
  split at hs
  · next hg =>
    cases hs
    exact {
      up := by first | exact hup | grind [put, release, sRelease, W.cs, W.wr, W.now, W.wait, W.owed, P.csW, P.rd, P.tab, P.told, Fine, dones]
      busy := by first | exact hbusy | grind [put, release, sRelease, W.cs, W.wr, W.now, W.wait, W.owed, P.csW, P.rd, P.tab, P.told, Fine, dones]
      cs := by first | exact hcs | grind [put, release, sRelease, W.cs, W.wr, W.now, W.wait, W.owed, P.csW, P.rd, P.tab, P.told, Fine, dones]
      csW := by first | exact hcsW | grind [put, release, sRelease, W.cs, W.wr, W.now, W.wait, W.owed, P.csW, P.rd, P.tab, P.told, Fine, dones]
      excl := by first | exact hexcl | grind [put, release, sRelease, W.cs, W.wr, W.now, W.wait, W.owed, P.csW, P.rd, P.tab, P.told, Fine, dones]
      rd := by first | exact hrd | grind [put, release, sRelease, W.cs, W.wr, W.now, W.wait, W.owed, P.csW, P.rd, P.tab, P.told, Fine, dones]
      wr := by first | exact hwr | grind [put, release, sRelease, W.cs, W.wr, W.now, W.wait, W.owed, P.csW, P.rd, P.tab, P.told, Fine, dones]
      wr' := by first | exact hwr' | grind [put, release, sRelease, W.cs, W.wr, W.now, W.wait, W.owed, P.csW, P.rd, P.tab, P.told, Fine, dones]
      wrd := by first | exact hwrd | grind [put, release, sRelease, W.cs, W.wr, W.now, W.wait, W.owed, P.csW, P.rd, P.tab, P.told, Fine, dones]
      now := by first | exact hnow | grind [put, release, sRelease, W.cs, W.wr, W.now, W.wait, W.owed, P.csW, P.rd, P.tab, P.told, Fine, dones]
      tab := by first | exact htab | grind [put, release, sRelease, W.cs, W.wr, W.now, W.wait, W.owed, P.csW, P.rd, P.tab, P.told, Fine, dones]
      todo := by first | exact htodo | grind [put, release, sRelease, W.cs, W.wr, W.now, W.wait, W.owed, P.csW, P.rd, P.tab, P.told, Fine, dones]
      fresh := by first | exact hfresh | grind [put, release, sRelease, W.cs, W.wr, W.now, W.wait, W.owed, P.csW, P.rd, P.tab, P.told, Fine, dones]
      fine := by first | exact hfine | grind [put, release, sRelease, W.cs, W.wr, W.now, W.wait, W.owed, P.csW, P.rd, P.tab, P.told, Fine, dones]
      start := by first | exact hstart | grind [put, release, sRelease, W.cs, W.wr, W.now, W.wait, W.owed, P.csW, P.rd, P.tab, P.told, Fine, dones]
      asked := by first | exact hasked | grind [put, release, sRelease, W.cs, W.wr, W.now, W.wait, W.owed, P.csW, P.rd, P.tab, P.told, Fine, dones]
      owed := by first | exact howed | grind [put, release, sRelease, W.cs, W.wr, W.now, W.wait, W.owed, P.csW, P.rd, P.tab, P.told, Fine, dones]
      paid := by first | exact hpaid | grind [put, release, sRelease, W.cs, W.wr, W.now, W.wait, W.owed, P.csW, P.rd, P.tab, P.told, Fine, dones]
      data := by first | exact hdata | grind [put, release, sRelease, W.cs, W.wr, W.now, W.wait, W.owed, P.csW, P.rd, P.tab, P.told, Fine, dones]
    }
  · cases hs

theorem step_sDel {sel : Nat → Nat → Bool} {s s' : State} {due : Nat → List Rep} {i : Nat} (h : Inv sel s due)
    (hs : step sel s (.sDel i) = some s') : Inv sel s' due := by
  obtain ⟨hup, hbusy, hcs, hcsW, hexcl, hrd, hwr, hwr', hwrd, hnow, htab, htodo, hfresh, hfine, hstart, hasked, howed, hpaid, hdata⟩ := h
  simp only [step] at hs
  split at hs
  · next hg =>
    cases hs
    exact {
      up := by first | exact hup | grind [put, release, sRelease, W.cs, W.wr, W.now, W.wait, W.owed, P.csW, P.rd, P.tab, P.told, Fine, dones]
      busy := by first | exact hbusy | grind [put, release, sRelease, W.cs, W.wr, W.now, W.wait, W.owed, P.csW, P.rd, P.tab, P.told, Fine, dones]
      cs := by first | exact hcs | grind [put, release, sRelease, W.cs, W.wr, W.now, W.wait, W.owed, P.csW, P.rd, P.tab, P.told, Fine, dones]
      csW := by first | exact hcsW | grind [put, release, sRelease, W.cs, W.wr, W.now, W.wait, W.owed, P.csW, P.rd, P.tab, P.told, Fine, dones]
      excl := by first | exact hexcl | grind [put, release, sRelease, W.cs, W.wr, W.now, W.wait, W.owed, P.csW, P.rd, P.tab, P.told, Fine, dones]
      rd := by first | exact hrd | grind [put, release, sRelease, W.cs, W.wr, W.now, W.wait, W.owed, P.csW, P.rd, P.tab, P.told, Fine, dones]
      wr := by first | exact hwr | grind [put, release, sRelease, W.cs, W.wr, W.now, W.wait, W.owed, P.csW, P.rd, P.tab, P.told, Fine, dones]
      wr' := by first | exact hwr' | grind [put, release, sRelease, W.cs, W.wr, W.now, W.wait, W.owed, P.csW, P.rd, P.tab, P.told, Fine, dones]
      wrd := by first | exact hwrd | grind [put, release, sRelease, W.cs, W.wr, W.now, W.wait, W.owed, P.csW, P.rd, P.tab, P.told, Fine, dones]
      now := by first | exact hnow | grind [put, release, sRelease, W.cs, W.wr, W.now, W.wait, W.owed, P.csW, P.rd, P.tab, P.told, Fine, dones]
      tab := by first | exact htab | grind [put, release, sRelease, W.cs, W.wr, W.now, W.wait, W.owed, P.csW, P.rd, P.tab, P.told, Fine, dones]
      todo := by first | exact htodo | grind [put, release, sRelease, W.cs, W.wr, W.now, W.wait, W.owed, P.csW, P.rd, P.tab, P.told, Fine, dones]
      fresh := by first | exact hfresh | grind [put, release, sRelease, W.cs, W.wr, W.now, W.wait, W.owed, P.csW, P.rd, P.tab, P.told, Fine, dones]
      fine := by first | exact hfine | grind [put, release, sRelease, W.cs, W.wr, W.now, W.wait, W.owed, P.csW, P.rd, P.tab, P.told, Fine, dones]
      start := by first | exact hstart | grind [put, release, sRelease, W.cs, W.wr, W.now, W.wait, W.owed, P.csW, P.rd, P.tab, P.told, Fine, dones]
      asked := by first | exact hasked | grind [put, release, sRelease, W.cs, W.wr, W.now, W.wait, W.owed, P.csW, P.rd, P.tab, P.told, Fine, dones]
      owed := by first | exact howed | grind [put, release, sRelease, W.cs, W.wr, W.now, W.wait, W.owed, P.csW, P.rd, P.tab, P.told, Fine, dones]
      paid := by first | exact hpaid | grind [put, release, sRelease, W.cs, W.wr, W.now, W.wait, W.owed, P.csW, P.rd, P.tab, P.told, Fine, dones]
      data := by first | exact hdata | grind [put, release, sRelease, W.cs, W.wr, W.now, W.wait, W.owed, P.csW, P.rd, P.tab, P.told, Fine, dones]
    }
  · cases hs

theorem step_fail {sel : Nat → Nat → Bool} {s s' : State} {due : Nat → List Rep} {w : Nat} (h : Inv sel s due)
    (hs : step sel s (.fail w) = some s') : Inv sel s' due := by
  have key : s.w w ≠ .idle ∧ (∀ i, (s.w w).owed i = none) ∧ s' = release s w := by
    simp only [step] at hs
    split at hs <;> first | cases hs; done | (next hw => cases hs; rw [hw]; exact ⟨(fun hc => by cases hc), (fun _ => rfl), rfl⟩)
  obtain ⟨hw, ho, rfl⟩ := key
  obtain ⟨hup, hbusy, hcs, hcsW, hexcl, hrd, hwr, hwr', hwrd, hnow, htab, htodo, hfresh, hfine, hstart, hasked, howed, hpaid, hdata⟩ := h
  have honly : ∀ v, v ≠ w → s.w v = .idle := fun v hv => Classical.byContradiction fun hi => by
    have h1 := hup v hi
    rw [hup w hw] at h1
    exact hv (Option.some.inj h1).symm
  have hall : ∀ v, put s.w w .idle v = .idle := fun v => by
    by_cases hv : v = w
    · simp [put, hv]
    · rw [put_other _ _ hv, honly v hv]
  simp only [release]
  exact {
    up := by first | exact hup | grind [put, release, sRelease, W.cs, W.wr, W.now, W.wait, W.owed, P.csW, P.rd, P.tab, P.told, Fine, dones]
    busy := by first | exact hbusy | grind [put, release, sRelease, W.cs, W.wr, W.now, W.wait, W.owed, P.csW, P.rd, P.tab, P.told, Fine, dones]
    cs := by first | exact hcs | grind [put, release, sRelease, W.cs, W.wr, W.now, W.wait, W.owed, P.csW, P.rd, P.tab, P.told, Fine, dones]
    csW := by first | exact hcsW | grind [put, release, sRelease, W.cs, W.wr, W.now, W.wait, W.owed, P.csW, P.rd, P.tab, P.told, Fine, dones]
    excl := by first | exact hexcl | grind [put, release, sRelease, W.cs, W.wr, W.now, W.wait, W.owed, P.csW, P.rd, P.tab, P.told, Fine, dones]
    rd := by first | exact hrd | grind [put, release, sRelease, W.cs, W.wr, W.now, W.wait, W.owed, P.csW, P.rd, P.tab, P.told, Fine, dones]
    wr := by first | exact hwr | grind [put, release, sRelease, W.cs, W.wr, W.now, W.wait, W.owed, P.csW, P.rd, P.tab, P.told, Fine, dones]
    wr' := by first | exact hwr' | grind [put, release, sRelease, W.cs, W.wr, W.now, W.wait, W.owed, P.csW, P.rd, P.tab, P.told, Fine, dones]
    wrd := by first | exact hwrd | grind [put, release, sRelease, W.cs, W.wr, W.now, W.wait, W.owed, P.csW, P.rd, P.tab, P.told, Fine, dones]
    now := by first | exact hnow | grind [put, release, sRelease, W.cs, W.wr, W.now, W.wait, W.owed, P.csW, P.rd, P.tab, P.told, Fine, dones]
    tab := by first | exact htab | grind [put, release, sRelease, W.cs, W.wr, W.now, W.wait, W.owed, P.csW, P.rd, P.tab, P.told, Fine, dones]
    todo := by first | exact htodo | grind [put, release, sRelease, W.cs, W.wr, W.now, W.wait, W.owed, P.csW, P.rd, P.tab, P.told, Fine, dones]
    fresh := by first | exact hfresh | grind [put, release, sRelease, W.cs, W.wr, W.now, W.wait, W.owed, P.csW, P.rd, P.tab, P.told, Fine, dones]
    fine := by first | exact hfine | grind [put, release, sRelease, W.cs, W.wr, W.now, W.wait, W.owed, P.csW, P.rd, P.tab, P.told, Fine, dones]
    start := by first | exact hstart | grind [put, release, sRelease, W.cs, W.wr, W.now, W.wait, W.owed, P.csW, P.rd, P.tab, P.told, Fine, dones]
    asked := by first | exact hasked | grind [put, release, sRelease, W.cs, W.wr, W.now, W.wait, W.owed, P.csW, P.rd, P.tab, P.told, Fine, dones]
    owed := by first | exact howed | grind [put, release, sRelease, W.cs, W.wr, W.now, W.wait, W.owed, P.csW, P.rd, P.tab, P.told, Fine, dones]
    paid := by 
      intro i h1 _
      refine hpaid i h1 (fun v => ?_)
      by_cases hv : v = w
      · rw [hv]; exact ho i
      · rw [honly v hv]; rfl
    data := by first | exact hdata | grind [put, release, sRelease, W.cs, W.wr, W.now, W.wait, W.owed, P.csW, P.rd, P.tab, P.told, Fine, dones]
  }

theorem step_store {sel : Nat → Nat → Bool} {s s' : State} {due : Nat → List Rep} {w : Nat} (h : Inv sel s due)
    (hs : step sel s (.store w) = some s') : Inv sel s' (fun j => if s.p j = .shown ∨ s.p j = .added ∨ s.p j = .csFree ∨ s.p j = .active
        then changeRep (sel j) s.data s'.data :: due j else due j) := by
  obtain ⟨hup, hbusy, hcs, hcsW, hexcl, hrd, hwr, hwr', hwrd, hnow, htab, htodo, hfresh, hfine, hstart, hasked, howed, hpaid, hdata⟩ := h
  simp only [step] at hs
  split at hs
  · next o n hw =>
    cases hs
    have honly : ∀ v, v ≠ w → s.w v = .idle := fun v hv => Classical.byContradiction fun hi => by
      have h1 := hup v hi
      have h2 := hup w (by rw [hw]; intro hc; cases hc)
      rw [h1] at h2
      exact hv (Option.some.inj h2)
    have htold : ∀ j, (s.p j = .shown ∨ s.p j = .added ∨ s.p j = .csFree ∨ s.p j = .active) ↔ (s.p j).told = true := by
      intro j
      cases s.p j <;> simp [P.told]
    have ho : s.data = o := hnow w o (by rw [hw]; rfl)
    have hpre : ∀ j v, (s.w v).owed j = none := fun j v => by
      by_cases hv : v = w
      · rw [hv, hw]; rfl
      · rw [honly v hv]; rfl
    exact {
      up := by first | exact hup | grind [put, release, sRelease, W.cs, W.wr, W.now, W.wait, W.owed, P.csW, P.rd, P.tab, P.told, Fine, dones]
      busy := by first | exact hbusy | grind [put, release, sRelease, W.cs, W.wr, W.now, W.wait, W.owed, P.csW, P.rd, P.tab, P.told, Fine, dones]
      cs := by first | exact hcs | grind [put, release, sRelease, W.cs, W.wr, W.now, W.wait, W.owed, P.csW, P.rd, P.tab, P.told, Fine, dones]
      csW := by first | exact hcsW | grind [put, release, sRelease, W.cs, W.wr, W.now, W.wait, W.owed, P.csW, P.rd, P.tab, P.told, Fine, dones]
      excl := by first | exact hexcl | grind [put, release, sRelease, W.cs, W.wr, W.now, W.wait, W.owed, P.csW, P.rd, P.tab, P.told, Fine, dones]
      rd := by first | exact hrd | grind [put, release, sRelease, W.cs, W.wr, W.now, W.wait, W.owed, P.csW, P.rd, P.tab, P.told, Fine, dones]
      wr := by first | exact hwr | grind [put, release, sRelease, W.cs, W.wr, W.now, W.wait, W.owed, P.csW, P.rd, P.tab, P.told, Fine, dones]
      wr' := by exact fun _ => ⟨w, by simp [put, W.wr]⟩
      wrd := by first | exact hwrd | grind [put, release, sRelease, W.cs, W.wr, W.now, W.wait, W.owed, P.csW, P.rd, P.tab, P.told, Fine, dones]
      now := by first | exact hnow | grind [put, release, sRelease, W.cs, W.wr, W.now, W.wait, W.owed, P.csW, P.rd, P.tab, P.told, Fine, dones]
      tab := by first | exact htab | grind [put, release, sRelease, W.cs, W.wr, W.now, W.wait, W.owed, P.csW, P.rd, P.tab, P.told, Fine, dones]
      todo := by first | exact htodo | grind [put, release, sRelease, W.cs, W.wr, W.now, W.wait, W.owed, P.csW, P.rd, P.tab, P.told, Fine, dones]
      fresh := by first | exact hfresh | grind [put, release, sRelease, W.cs, W.wr, W.now, W.wait, W.owed, P.csW, P.rd, P.tab, P.told, Fine, dones]
      fine := by first | exact hfine | grind [put, release, sRelease, W.cs, W.wr, W.now, W.wait, W.owed, P.csW, P.rd, P.tab, P.told, Fine, dones]
      start := by first | exact hstart | grind [put, release, sRelease, W.cs, W.wr, W.now, W.wait, W.owed, P.csW, P.rd, P.tab, P.told, Fine, dones]
      asked := by first | exact hasked | grind [put, release, sRelease, W.cs, W.wr, W.now, W.wait, W.owed, P.csW, P.rd, P.tab, P.told, Fine, dones]
      owed := by 
        intro v i o' n' h1 hi
        have ht := P.told_of_tab ((htab i).1 hi)
        by_cases hv : v = w
        · subst hv
          simp only [put_same, W.owed, Option.some.injEq, Prod.mk.injEq] at h1
          rw [if_pos ((htold i).2 ht), ho, h1.1, h1.2, hpaid i ht (hpre i)]
        · simp only [put_other _ _ hv, honly v hv, W.owed] at h1
          cases h1
      paid := by 
        intro i _ h2
        have := h2 w
        simp only [put_same, W.owed] at this
        cases this
      data := by 
        intro i h1 x
        rw [if_pos ((htold i).2 h1)]
        have := hdata i h1 x
        simp only [view, changeRep]
        by_cases hs : sel i x = true
        · by_cases hc : s.data x = n x
          · simp [hs, hc, this]
          · simp [hs, hc]
        · simp [hs, this]
    }
  · cases hs

theorem step_sShow {sel : Nat → Nat → Bool} {s s' : State} {due : Nat → List Rep} {i : Nat} (h : Inv sel s due)
    (hs : step sel s (.sShow i) = some s') : Inv sel s' (fun j => if j = i then [enabledRep (sel j) s.data] else due j) := by
  obtain ⟨hup, hbusy, hcs, hcsW, hexcl, hrd, hwr, hwr', hwrd, hnow, htab, htodo, hfresh, hfine, hstart, hasked, howed, hpaid, hdata⟩ := h
  simp only [step] at hs
  split at hs
  · next hg =>
    cases hs
    have hl : s.log i = [] := hfresh i (by rw [hg]; rfl) (by rw [hg]; intro hc; cases hc)
    have hni : i ∉ s.table := fun hi => by have := (htab i).1 hi; rw [hg] at this; cases this
    have hmem : ∀ j, j ∈ s.table → j ≠ i := fun j hj h => hni (h ▸ hj)
    exact {
      up := by first | exact hup | grind [put, release, sRelease, W.cs, W.wr, W.now, W.wait, W.owed, P.csW, P.rd, P.tab, P.told, Fine, dones]
      busy := by first | exact hbusy | grind [put, release, sRelease, W.cs, W.wr, W.now, W.wait, W.owed, P.csW, P.rd, P.tab, P.told, Fine, dones]
      cs := by first | exact hcs | grind [put, release, sRelease, W.cs, W.wr, W.now, W.wait, W.owed, P.csW, P.rd, P.tab, P.told, Fine, dones]
      csW := by first | exact hcsW | grind [put, release, sRelease, W.cs, W.wr, W.now, W.wait, W.owed, P.csW, P.rd, P.tab, P.told, Fine, dones]
      excl := by first | exact hexcl | grind [put, release, sRelease, W.cs, W.wr, W.now, W.wait, W.owed, P.csW, P.rd, P.tab, P.told, Fine, dones]
      rd := by first | exact hrd | grind [put, release, sRelease, W.cs, W.wr, W.now, W.wait, W.owed, P.csW, P.rd, P.tab, P.told, Fine, dones]
      wr := by first | exact hwr | grind [put, release, sRelease, W.cs, W.wr, W.now, W.wait, W.owed, P.csW, P.rd, P.tab, P.told, Fine, dones]
      wr' := by first | exact hwr' | grind [put, release, sRelease, W.cs, W.wr, W.now, W.wait, W.owed, P.csW, P.rd, P.tab, P.told, Fine, dones]
      wrd := by first | exact hwrd | grind [put, release, sRelease, W.cs, W.wr, W.now, W.wait, W.owed, P.csW, P.rd, P.tab, P.told, Fine, dones]
      now := by first | exact hnow | grind [put, release, sRelease, W.cs, W.wr, W.now, W.wait, W.owed, P.csW, P.rd, P.tab, P.told, Fine, dones]
      tab := by first | exact htab | grind [put, release, sRelease, W.cs, W.wr, W.now, W.wait, W.owed, P.csW, P.rd, P.tab, P.told, Fine, dones]
      todo := by first | exact htodo | grind [put, release, sRelease, W.cs, W.wr, W.now, W.wait, W.owed, P.csW, P.rd, P.tab, P.told, Fine, dones]
      fresh := by first | exact hfresh | grind [put, release, sRelease, W.cs, W.wr, W.now, W.wait, W.owed, P.csW, P.rd, P.tab, P.told, Fine, dones]
      fine := by 
        intro j
        by_cases hj : j = i
        · subst hj; simp [put, hl, Fine]
        · simp only [put_other _ _ hj]; exact hfine j
      start := by first | exact hstart | grind [put, release, sRelease, W.cs, W.wr, W.now, W.wait, W.owed, P.csW, P.rd, P.tab, P.told, Fine, dones]
      asked := by 
        intro v j o n h1 hj
        simp only [put_other _ _ (hmem j hj)]
        exact hasked v j o n h1 hj
      owed := by 
        intro v j o n h1 hj
        simp only [if_neg (hmem j hj), put_other _ _ (hmem j hj)]
        exact howed v j o n h1 hj
      paid := by 
        intro j h1 h2
        by_cases hj : j = i
        · subst hj; simp [put, hl, dones]
        · simp only [put_other _ _ hj] at h1
          simp only [if_neg hj, put_other _ _ hj]
          exact hpaid j h1 h2
      data := by 
        intro j h1 x
        by_cases hj : j = i
        · subst hj
          simp only [if_true, view, enabledRep]
          cases hd : s.data x <;> cases sel j x <;> simp
        · rw [if_neg hj]
          simp only [put_other _ _ hj] at h1
          exact hdata j h1 x
    }
  · cases hs

theorem inv_reach {sel : Nat → Nat → Bool} {d : Data} {s : State} {due : Nat → List Rep} (h : Reach sel d s due) : Inv sel s due := by
  induction h with
  | init => exact inv_init sel d
  | @quiet s s' due op _ hs h1 h2 ih =>
    cases op with
    | lock w new => exact step_lock ih hs
    | list w => exact step_list ih hs
    | update w new => exact step_update ih hs
    | ask w => exact step_ask ih hs
    | upgrade w => exact step_upgrade ih hs
    | store w => exact absurd rfl (h1 w).1
    | downgrade w => exact step_downgrade ih hs
    | tell w i => exact step_tell ih hs
    | finish w => exact step_finish ih hs
    | fail w => exact step_fail ih hs
    | lateFail w => exact absurd rfl (h1 w).2
    | sLock i => exact step_sLock ih hs
    | sRead i => exact step_sRead ih hs
    | sShow i => exact absurd rfl (h2 i)
    | sAdd i => exact step_sAdd ih hs
    | sFree i => exact step_sFree ih hs
    | sEnd i => exact step_sEnd ih hs
    | sFail i => exact step_sFail ih hs
    | sDel i => exact step_sDel ih hs
  | «show» _ hs ih => exact step_sShow ih hs
  | store _ hs ih => exact step_store ih hs

/-- No process is between storing its changes and the last "done" event of them. -/
def Settled (s : State) : Prop := ∀ w, (∀ o n, s.w w ≠ .stored o n) ∧ ∀ o n todo, s.w w ≠ .telling o n todo

theorem owed_settled {s : State} (h : Settled s) (w i : Nat) : (s.w w).owed i = none := by
  cases hw : s.w w with
  | stored o n => exact absurd hw ((h w).1 o n)
  | telling o n todo => exact absurd hw ((h w).2 o n todo)
  | _ => rfl

/-- C130, without failures after the data are stored: whatever processes change the data while a subscription is being made and
later, its callback was told about the data at one moment and then about every change stored since then, once and in order, except
for the last one if it is just being told. -/
theorem every_change_once_partial {sel : Nat → Nat → Bool} {d : Data} {s : State} {due : Nat → List Rep} (h : Reach sel d s due) {i : Nat}
    (hi : i ∈ s.table) :
    dones (s.log i) = due i ∨
      ∃ w o, ((∃ todo, s.w w = .telling o s.data todo ∧ i ∈ todo) ∨ s.w w = .stored o s.data) ∧
        due i = changeRep (sel i) o s.data :: dones (s.log i) := by
  have hv := inv_reach h
  by_cases hp : ∀ w, (s.w w).owed i = none
  · exact .inl (hv.paid i (P.told_of_tab ((hv.tab i).1 hi)) hp).symm
  · obtain ⟨w, hw⟩ := Classical.not_forall.1 hp
    cases hq : (s.w w).owed i with
    | none => exact absurd hq hw
    | some q =>
      obtain ⟨o, n⟩ := q
      have h1 := hv.owed w i o n hq hi
      have h2 : s.data = n := hv.now w n (by
        cases hs : s.w w <;> rw [hs] at hq <;> simp only [W.owed] at hq
        · cases hq
        · cases hq
        · cases hq
        · cases hq
        · cases hq
        · cases hq; rfl
        · split at hq
          · cases hq; rfl
          · cases hq)
      subst h2
      refine .inr ⟨w, o, ?_, h1⟩
      cases hs : s.w w <;> rw [hs] at hq <;> simp only [W.owed] at hq
      · cases hq
      · cases hq
      · cases hq
      · cases hq
      · cases hq
      · cases hq; exact .inr rfl
      · split at hq
        · next hm => cases hq; exact .inl ⟨_, rfl, hm⟩
        · cases hq

/-- C130, without failures after the data are stored: a subscriber that starts with nothing and follows the changes its callback is
told to be done has exactly the data its XPath selects whenever no change is just being told. -/
theorem follows_data_partial {sel : Nat → Nat → Bool} {d : Data} {s : State} {due : Nat → List Rep} (h : Reach sel d s due)
    (hs : Settled s) {i : Nat} (hi : i ∈ s.table) (x : Nat) :
    view (dones (s.log i)) x = if sel i x then s.data x else none := by
  have hv := inv_reach h
  have ht := P.told_of_tab ((hv.tab i).1 hi)
  rw [← hv.paid i ht (fun w => owed_settled hs w i)]
  exact hv.data i ht x

/-- C130: the first call is an "enabled" event, followed by "done"; every later "done" event was preceded by the "change" event with
the same changes, which the callback could refuse. -/
theorem done_was_accepted {sel : Nat → Nat → Bool} {d : Data} {s : State} {due : Nat → List Rep} (h : Reach sel d s due) (i : Nat) :
    Fine (s.log i) := (inv_reach h).fine i

/-- C130: subscribing and applying changes do not block each other for ever: unless all the calls are finished, one of them can go on
without failing. -/
theorem not_stuck_partial {sel : Nat → Nat → Bool} {d : Data} {s : State} {due : Nat → List Rep} (h : Reach sel d s due)
    (hb : (∃ w, s.w w ≠ .idle) ∨ ∃ i, s.p i = .cs ∨ s.p i = .reading ∨ s.p i = .shown ∨ s.p i = .added ∨ s.p i = .csFree) :
    ∃ op s', step sel s op = some s' ∧ (∀ w new, op ≠ .lock w new ∧ op ≠ .update w new ∧ op ≠ .fail w ∧ op ≠ .lateFail w) ∧
      ∀ i, op ≠ .sLock i ∧ op ≠ .sFail i ∧ op ≠ .sDel i := by
  have hv := inv_reach h
  -- a subscribing call that is not waiting for the lock of the data
  have hsub : (∃ i, s.p i = .reading ∨ s.p i = .shown ∨ s.p i = .added ∨ s.p i = .csFree) →
      ∃ op s', step sel s op = some s' ∧ (∀ w new, op ≠ .lock w new ∧ op ≠ .update w new ∧ op ≠ .fail w ∧ op ≠ .lateFail w) ∧
        ∀ i, op ≠ .sLock i ∧ op ≠ .sFail i ∧ op ≠ .sDel i := by
    rintro ⟨i, hi | hi | hi | hi⟩
    · exact ⟨.sShow i, _, by simp only [step, if_pos hi]; rfl, by simp, by simp⟩
    · exact ⟨.sAdd i, _, by simp only [step, if_pos hi]; rfl, by simp, by simp⟩
    · exact ⟨.sFree i, _, by simp only [step, if_pos hi]; rfl, by simp, by simp⟩
    · exact ⟨.sEnd i, _, by simp only [step, if_pos hi]; rfl, by simp, by simp⟩
  by_cases hs : ∃ i, s.p i = .reading ∨ s.p i = .shown ∨ s.p i = .added ∨ s.p i = .csFree
  · exact hsub hs
  · have hrd : s.rd = [] := by
      cases hr : s.rd with
      | nil => rfl
      | cons i t =>
        have := (hv.rd i).1 (by rw [hr]; exact List.mem_cons_self)
        refine absurd ⟨i, ?_⟩ hs
        cases hp : s.p i <;> rw [hp] at this <;> simp_all [P.rd]
    by_cases hc : ∃ i, s.p i = .cs
    · obtain ⟨i, hi⟩ := hc
      have hcs := hv.excl i ((hv.csW i).2 (by rw [hi]; rfl))
      have hwr : s.wr = false := by
        cases hw : s.wr with
        | false => rfl
        | true =>
          obtain ⟨w, hw⟩ := hv.wr' hw
          have : w ∈ s.csR := (hv.cs w).2 (by cases h1 : s.w w <;> rw [h1] at hw <;> simp_all [W.wr, W.cs])
          rw [hcs] at this
          cases this
      exact ⟨.sRead i, _, by simp only [step, if_pos (And.intro hi hwr)]; rfl, by simp, by simp⟩
    · rcases hb with ⟨w, hw⟩ | ⟨i, hi⟩
      · have hcw : s.csW = none := by
          cases hq : s.csW with
          | none => rfl
          | some i =>
            have := (hv.csW i).1 hq
            exfalso
            cases hp : s.p i <;> rw [hp] at this <;> simp [P.csW] at this
            · exact hc ⟨i, hp⟩
            · exact hs ⟨i, by simp [hp]⟩
            · exact hs ⟨i, by simp [hp]⟩
            · exact hs ⟨i, by simp [hp]⟩
        cases hq : s.w w with
        | idle => exact absurd hq hw
        | locked o n => exact ⟨.list w, _, by simp only [step, hq, if_pos hcw]; rfl, by simp, by simp⟩
        | listed o n => exact ⟨.ask w, _, by simp only [step, hq]; rfl, by simp, by simp⟩
        | asked o n => exact ⟨.upgrade w, _, by simp only [step, hq, if_pos hrd]; rfl, by simp, by simp⟩
        | writing o n => exact ⟨.store w, _, by simp only [step, hq]; rfl, by simp, by simp⟩
        | stored o n => exact ⟨.downgrade w, _, by simp only [step, hq]; rfl, by simp, by simp⟩
        | telling o n todo =>
          cases todo with
          | nil => exact ⟨.finish w, _, by simp only [step, hq]; rfl, by simp, by simp⟩
          | cons i t => exact ⟨.tell w i, _, by simp only [step, hq, if_pos List.mem_cons_self]; rfl, by simp, by simp⟩
      · exfalso
        rcases hi with hi | hi
        · exact hc ⟨i, hi⟩
        · exact hs ⟨i, hi⟩

/-- Steps one after another. -/
def run (sel : Nat → Nat → Bool) (s : State) : List Op → Option State
  | [] => some s
  | op :: t => match step sel s op with
    | none => none
    | some s' => run sel s' t

theorem run_reach {sel : Nat → Nat → Bool} {d : Data} (ops : List Op) : ∀ {s s' : State} {due : Nat → List Rep}, Reach sel d s due →
    (∀ w, Op.lateFail w ∉ ops) → run sel s ops = some s' → ∃ due', Reach sel d s' due' := by
  induction ops with
  | nil => intro s s' due h _ hr; cases hr; exact ⟨_, h⟩
  | cons op t ih =>
    intro s s' due h hn hr
    simp only [run] at hr
    have hn' : ∀ w, Op.lateFail w ∉ t := fun w hw => hn w (List.mem_cons_of_mem _ hw)
    cases hs : step sel s op with
    | none => rw [hs] at hr; cases hr
    | some s1 =>
      rw [hs] at hr
      simp only at hr
      by_cases h1 : ∃ i, op = .sShow i
      · obtain ⟨i, rfl⟩ := h1
        exact ih (.show h hs) hn' hr
      · by_cases h2 : ∃ w, op = .store w
        · obtain ⟨w, rfl⟩ := h2
          exact ih (.store h hs) hn' hr
        · refine ih (.quiet h hs (fun w => ⟨fun hc => h2 ⟨w, hc⟩, fun hc => hn w ?_⟩) (fun i hc => h1 ⟨i, hc⟩)) hn' hr
          rw [hc]
          exact List.mem_cons_self

/-- A process changes node 1 to 5 while somebody subscribes to nodes 1 and 2, of which 2 is 7, and changes node 2 to 8 then. -/
def schedule : List Op :=
  [.lock 0 (fun x => if x = 1 then some 5 else if x = 2 then some 7 else none), .sLock 3, .sRead 3, .sShow 3, .sAdd 3, .sFree 3,
   .list 0, .ask 0, .sEnd 3, .upgrade 0, .store 0, .downgrade 0, .tell 0 3, .finish 0,
   .lock 1 (fun x => if x = 1 then some 5 else if x = 2 then some 8 else none), .list 1, .ask 1, .upgrade 1, .store 1, .downgrade 1,
   .tell 1 3, .finish 1]

/-- It can happen, and the subscriber has the data. -/
example : ((run (fun _ x => x < 3) (init (fun x => if x = 2 then some 7 else if x = 4 then some 1 else none)) schedule).map
    (fun s => ((s.log 3).length, view (dones (s.log 3)) 1, view (dones (s.log 3)) 2, view (dones (s.log 3)) 4))) =
    some (6, some 5, some 8, none) := by decide +kernel

/-- A state that meets the hypotheses: the first change is stored and not told yet. -/
example : ∃ s due, Reach (fun _ x => x < 3) (fun _ => none) s due ∧ 3 ∈ s.table ∧ s.w 0 ≠ .idle ∧ due 3 ≠ [] := by
  have h : ∃ s, run (fun _ x => x < 3) (init (fun _ => none)) (schedule.take 11) = some s ∧ 3 ∈ s.table ∧ s.w 0 ≠ .idle :=
    ⟨_, rfl, by decide, by simp [step, schedule, init, put]⟩
  obtain ⟨s, hr, ht, hw⟩ := h
  obtain ⟨due, hd⟩ := run_reach _ .init (by simp [schedule]) hr
  have hv := inv_reach hd
  refine ⟨s, due, hd, ht, hw, fun hc => ?_⟩
  rcases every_change_once_partial hd ht with h1 | ⟨w, o, _, h1⟩
  · have := hv.fine 3
    have h2 := hv.start 3 (P.told_of_tab ((hv.tab 3).1 ht))
    cases hr
    exact absurd (h1.trans hc) (by simp [step, schedule, init, put, dones])
  · rw [hc] at h1; cases h1

/-- C130 is violated when a process fails after its changes were stored (the lock of the data cannot be downgraded, or it crashes):
the subscriber accepted the "change" event and is never told about "done", and later changes are reported on top of data it does
not know. -/
theorem late_failure_missed :
    ∃ s, run (fun _ _ => true) (init (fun _ => none)) [.sLock 3, .sRead 3, .sShow 3, .sAdd 3, .sFree 3, .sEnd 3,
        .lock 0 (fun x => if x = 1 then some 5 else none), .list 0, .ask 0, .upgrade 0, .store 0, .lateFail 0] = some s ∧
      Settled s ∧ 3 ∈ s.table ∧ s.data 1 = some 5 ∧ view (dones (s.log 3)) 1 = none := by
  refine ⟨_, rfl, fun w => ?_, by decide, by decide, by decide⟩
  by_cases hw : w = 0
  · subst hw
    exact ⟨fun o n => by simp [run, step, release, init, put], fun o n todo => by simp [run, step, release, init, put]⟩
  · exact ⟨fun o n => by simp [run, step, release, init, put, hw], fun o n todo => by simp [run, step, release, init, put, hw]⟩

end Verif.EnSub
