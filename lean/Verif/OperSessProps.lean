import Verif.OperSessLemmas

/-
Properties of the changes of the operational datastore made by one session.
-/
namespace Verif.OperSess

/-- States of sessions that use the functions other than batches. -/
abbrev ReachP (C : Cfg) (s : State) : Prop := Reach C (fun s _ c => Plain C s c) s

theorem inv_reach {C : Cfg} (hC : C.mods.Nodup) {s : State} (h : ReachP C s) : Inv C s := by
  induction h with
  | init => exact inv_init C
  | call v c _ ha _ ih => exact inv_call hC ih ha

/-- A session used in the examples: module 1 has the trees (1, 0), with leaf 5, and (1, 1), module 2 has the tree
(7, 0), and all the nodes 3 of module 2 are discarded; everything was applied. -/
def demo (C : Cfg) : State :=
  let s1 := (call C s0 {} (.set 1 (1, 0) (some (5, 50)))).2
  let s2 := (call C s1 {} (.set 2 (7, 0) none)).2
  let s3 := (call C s2 {} (.set 1 (1, 1) none)).2
  let s4 := (call C s3 {} (.discardItems 2 3)).2
  (call C s4 {} .apply).2

/-- Two modules, assertions compiled in. -/
def C1 : Cfg := ⟨[1, 2], true⟩

/-- Two modules, assertions compiled out. -/
def C2 : Cfg := ⟨[1, 2], false⟩

theorem demo_reach (C : Cfg) (h : C.mods = [1, 2]) : ReachP C (demo C) := by
  obtain ⟨ms, d⟩ := C
  cases h
  refine .call _ .apply (.call _ (.discardItems 2 3) (.call _ (.set 1 (1, 1) none) (.call _ (.set 2 (7, 0) none)
    (.call _ (.set 1 (1, 0) (some (5, 50))) .init ?_ ?_) ?_ ?_) ?_ ?_) ?_ ?_) ?_ ?_
  all_goals first | (simp [Plain]; done) | (cases d <;> decide)

/-! ### C117: operational data are changed as requested -/

/-- **C117 (partial), setting.** Setting a tree or a leaf of operational data changes exactly that in the data the
session will have when it applies its changes, and nothing in the data it has; or the call fails with a time-out and
changes nothing. Missing: the stored data cannot be read, see `lost_without_error`. -/
theorem set_exact_partial {C : Cfg} (hC : C.mods.Nodup) {s : State} (hr : ReachP C s) (v : Env)
    (hv : v.getFails = false) (m : Nat) (n : Name) (lv : Option (Nat × Nat)) :
    let r := call C s v (.set m n lv)
    (r.1 = .ok ∧ view r.2 = (view s).set m n lv ∧ storedView r.2 = storedView s) ∨ (r.1 = .locked ∧ r.2 = s) := by
  have I := inv_reach hC hr
  simp only [call]
  split
  · rename_i r hs
    right
    refine ⟨?_, rfl⟩
    simp only [start, hv] at hs
    split at hs
    · cases hs
    · simp only [Bool.false_eq_true, if_false] at hs
      split at hs <;> cases hs
      rfl
  · rename_i e hs
    left
    refine ⟨rfl, ?_, rfl⟩
    obtain ⟨E, hview⟩ := start_ok hC I hs
    rw [← hview, ← add_view]
    refine view_finish ?_
    have : editAdd e.tops m n lv ≠ [] := by
      simp only [editAdd]
      split
      · rename_i h
        cases ht : e.tops with
        | nil => rw [ht] at h; cases h
        | cons a l => simp
      · exact insTop_ne _ _
    simp only [Edit.isEmpty, Bool.and_eq_false_iff]
    left
    cases hh : editAdd e.tops m n lv with
    | nil => exact absurd hh this
    | cons a l => rfl

example : ∃ s, ReachP C1 s ∧ ((view s).tree 1 (1, 0)).map (· 5) = some (some 50) ∧ ((view s).tree 2 (7, 0)).isSome :=
  ⟨_, demo_reach C1 rfl, by decide, by decide⟩

/-- **C117 (partial), deleting.** Deleting a leaf, a tree or all the instances of a list removes exactly that from the
data the session will have, and fails (if required to) exactly if there is no such thing. Missing: the stored data
cannot be read, see `lost_without_error`, and deleting the last data, see `last_delete_lost`. -/
theorem delete_exact_partial {C : Cfg} (hC : C.mods.Nodup) {s : State} (hr : ReachP C s) (v : Env)
    (hv : v.getFails = false) (t : Target) (strict : Bool)
    (hl : ¬ ((view s).del t).Empty ∨ (storedView s).Empty) :
    let r := call C s v (.delete t strict)
    ((view s).Has t ∧ r.1 = .ok ∧ view r.2 = (view s).del t ∧ storedView r.2 = storedView s) ∨
    (¬ (view s).Has t ∧ r.1 = (if strict then .notFound else .ok) ∧ view r.2 = view s ∧
      storedView r.2 = storedView s) ∨
    (r.1 = .locked ∧ r.2 = s) := by
  have I := inv_reach hC hr
  simp only [call]
  split
  · rename_i r hs
    right; right
    refine ⟨?_, rfl⟩
    simp only [start, hv] at hs
    split at hs
    · cases hs
    · simp only [Bool.false_eq_true, if_false] at hs
      split at hs <;> cases hs
      rfl
  · rename_i e hs
    obtain ⟨E, hview⟩ := start_ok hC I hs
    split
    · rename_i hf
      left
      rw [found_has, hview] at hf
      refine ⟨hf, rfl, ?_, rfl⟩
      have hd := del_view e t
      rw [hview] at hd
      cases he : Edit.isEmpty { e with tops := editDel e.tops t } with
      | false => rw [view_finish he, hd]
      | true =>
        rw [view_finish_empty he]
        have h1 := isEmpty_view.1 he
        rw [hd] at h1
        rcases hl with hl | hl
        · exact absurd h1 hl
        · exact View.ext' (fun m n => by rw [hl.1, h1.1]) (fun m x => by rw [hl.2, h1.2])
    · rename_i hf
      right; left
      rw [found_has, hview] at hf
      refine ⟨hf, rfl, ?_, rfl⟩
      cases he : e.isEmpty with
      | false => rw [view_finish he, hview]
      | true =>
        rw [view_finish_empty he]
        have h1 := isEmpty_view.1 he
        rw [hview] at h1
        cases hp : s.pending with
        | none => simp [view, hp]
        | some e' =>
          have : start C s v = .inr e' := by simp [start, hp]
          rw [this] at hs
          cases hs
          rw [I.ne _ hp] at he; cases he

example : ∃ s, ReachP C1 s ∧ (view s).Has (.leaf 1 (1, 0) 5) ∧ ¬ ((view s).del (.leaf 1 (1, 0) 5)).Empty :=
  ⟨_, demo_reach C1 rfl, ⟨_, 50, rfl, rfl⟩, fun h => by
    have := h.1 1 (1, 0)
    revert this
    decide⟩

/-- **C117 (partial), discarding nodes of other origin.** -/
theorem discard_items_exact_partial {C : Cfg} (hC : C.mods.Nodup) {s : State} (hr : ReachP C s) (v : Env)
    (hv : v.getFails = false) (m x : Nat) :
    let r := call C s v (.discardItems m x)
    (r.1 = .ok ∧ view r.2 = (view s).disc m x ∧ storedView r.2 = storedView s) ∨ (r.1 = .locked ∧ r.2 = s) := by
  have I := inv_reach hC hr
  simp only [call]
  split
  · rename_i r hs
    right
    refine ⟨?_, rfl⟩
    simp only [start, hv] at hs
    split at hs
    · cases hs
    · simp only [Bool.false_eq_true, if_false] at hs
      split at hs <;> cases hs
      rfl
  · rename_i e hs
    left
    refine ⟨rfl, ?_, rfl⟩
    obtain ⟨E, hview⟩ := start_ok hC I hs
    rw [← hview, ← disc_view e m x .replace]
    refine view_finish ?_
    simp [Edit.isEmpty]

/-- **C117 (partial), applying.** With assertions compiled out, applying succeeds unless a subscriber refuses, and the
data of the session are then exactly those requested; if it fails nothing is changed and the changes stay pending.
With assertions compiled in the process may end, but only if a module loses all its data (see
`module_emptied_aborts`).
Missing: batches, and discarding of the stored data with pending changes. -/
theorem apply_exact_partial {C : Cfg} (hC : C.mods.Nodup) {s : State} (hr : ReachP C s) (v : Env) :
    let r := call C s v .apply
    (r.1 = .ok ∧ storedView r.2 = view s ∧ view r.2 = view s ∧ r.2.pending = none) ∨
    (r.1 = .callback ∧ v.refuse = true ∧ r.2 = s) ∨
    (r.1 = .abort ∧ C.dbg = true ∧ s.pending ≠ none ∧ ∃ m, ¬ (storedView s).NoMod m ∧ (view s).NoMod m) := by
  have I := inv_reach hC hr
  simp only [call]
  cases hp : s.pending with
  | none => exact .inl ⟨rfl, by simp [view, hp], by simp, by simp [hp]⟩
  | some e =>
    simp only []
    have hview : view s = editView e := by simp [view, hp]
    by_cases hok : (applyOper C s none false v).1 = .ok
    · left
      obtain ⟨hf, hs⟩ := applyOper_ok (s' := (applyOper C s none false v).2) (Prod.ext hok rfl)
      have h1 := result_view (e := e) (s := s) (f := newData C s none) (newData_eq I hp hf)
      have h2 : storedView { s with
          stored := newData C s none
          has := fun m => if m ∈ changed C s none then (newData C s none m).any else s.has m
          flag := s.flag || !(changed C s none).isEmpty
          pending := none } = editView e := h1
      rw [if_pos hok, hs]
      exact ⟨rfl, by rw [hview]; exact h2, by rw [hview]; exact h2, rfl⟩
    · right
      rw [if_neg hok]
      cases h : applyOper C s none false v with
      | mk r s' =>
        rw [h] at hok
        have hs := applyOper_err hok h
        subst hs
        unfold applyOper at h
        rcases failure_eq I hp with ⟨hf, _⟩ | ⟨hf, hd, m, hm1, hm2⟩
        · rw [hf] at h
          simp only [] at h
          split at h
          · rename_i hc
            simp only [Prod.mk.injEq, and_true] at h
            exact .inl ⟨h.symm, hc.1, rfl⟩
          · simp only [Bool.false_eq_true, false_and, and_false, if_false, Prod.mk.injEq] at h
            exact absurd h.1.symm hok
        · rw [hf] at h
          simp only [Prod.mk.injEq, and_true] at h
          refine .inr ⟨h.symm, hd, by simp, m, ?_, ?_⟩
          · intro hn
            rw [I.has] at hm1
            have h3 : s'.stored m = noPush := by
              have h4 : (s'.stored m).trees = [] := by
                cases ht : (s'.stored m).trees with
                | nil => rfl
                | cons t ts =>
                  have := hn.1 t.1
                  simp [storedView, ht] at this
              have h5 : (s'.stored m).discs = [] := by
                cases ht : (s'.stored m).discs with
                | nil => rfl
                | cons t ts =>
                  have := hn.2 t
                  simp [storedView, ht] at this
              cases hh : s'.stored m with
              | mk a b => rw [hh] at h4 h5; simp only [] at h4 h5; rw [h4, h5]; rfl
            rw [h3] at hm1; cases hm1
          · rw [hview]; exact view_out hm2

example : ∃ s, ReachP C1 s ∧ s.pending ≠ none ∧ (call C1 s {} .apply).1 = .ok := by
  refine ⟨(call C1 (demo C1) {} (.set 1 (1, 0) (some (6, 60)))).2,
    .call _ _ (demo_reach C1 rfl) (by simp [Plain, C1]) (by decide), by decide, by decide⟩

/-- **C117 is violated.** If the stored data of the session cannot be read, for example because a lock timed out,
setting, deleting and discarding return success although nothing was recorded: the code is kept in a variable that
is not returned. -/
theorem lost_without_error (C : Cfg) {s : State} (hp : s.pending = none) (v : Env) (hv : v.getFails = true) (m : Nat)
    (n : Name) (lv : Option (Nat × Nat)) (t : Target) (strict : Bool) (x : Nat) :
    call C s v (.set m n lv) = (.ok, s) ∧ call C s v (.delete t strict) = (.ok, s) ∧
    call C s v (.discardItems m x) = (.ok, s) := by
  simp [call, start, hp, hv]

/-- **C117 is violated.** Deleting the last data of the session leaves an edit without nodes, which is released. The
call succeeds, applying succeeds, and the data are still there. -/
theorem last_delete_lost {C : Cfg} (hC : C.mods.Nodup) {s : State} (hr : ReachP C s) (t : Target) (strict : Bool)
    (hh : (view s).Has t) (he : ((view s).del t).Empty) (v v' : Env) (hv : v.getFails = false)
    (hl : v.lockFails = false) :
    let r := call C s v (.delete t strict)
    r.1 = .ok ∧ (call C r.2 v' .apply).1 = .ok ∧ storedView (call C r.2 v' .apply).2 = storedView s := by
  have I := inv_reach hC hr
  have hs : ∃ e, start C s v = .inr e := by
    simp only [start, hv, hl]
    cases s.pending <;> simp
  obtain ⟨e, hs⟩ := hs
  obtain ⟨E, hview⟩ := start_ok hC I hs
  have hf : found e.tops t = true := by rw [found_has, hview]; exact hh
  have hd := del_view e t
  rw [hview] at hd
  have he' : Edit.isEmpty { e with tops := editDel e.tops t } = true := by
    rw [isEmpty_view, hd]; exact he
  simp only [call, hs, hf, if_true]
  have hp : (finish s { e with tops := editDel e.tops t }).pending = none := by
    simp only [finish, he', if_true]
  simp only [hp, true_and]
  rfl

/-- A session with one tree that deletes it. -/
example : ∃ s, ReachP C1 s ∧ (storedView s).Has (.top 1 (1, 0)) ∧ (view s).Has (.top 1 (1, 0)) ∧
    ((view s).del (.top 1 (1, 0))).Empty := by
  refine ⟨(call C1 (call C1 s0 {} (.set 1 (1, 0) none)).2 {} .apply).2,
    .call _ _ (.call _ _ .init (by simp [Plain, C1]) (by decide)) (by simp [Plain]) (by decide), ⟨_, rfl⟩, ⟨_, rfl⟩,
    fun m n => ?_, fun m x => ?_⟩
  · by_cases h : m = 1
    · subst h
      by_cases hn : n = (1, 0)
      · subst hn; rfl
      · have h2 : ((1, 0) == n) = false := by simp; exact fun e => hn e.symm
        have h3 : (view (call C1 (call C1 s0 {} (.set 1 (1, 0) none)).2 {} .apply).2).tree 1 n =
            ([((1, 0), [])].find? (fun t : Name × Leaves => t.1 == n)).map (fun t => leafAt t.2) := rfl
        simp only [View.del, hn, and_false, if_false, h3]
        simp [h2]
    · have h3 : ∀ s : State, s.pending = none → s.stored m = noPush → (view s).tree m n = none := by
        intro s h1 h2; simp [view, h1, storedView, h2, noPush]
      simp only [View.del, h, false_and, if_false]
      apply h3 _ rfl
      have hm : m ∉ collected C1 (call C1 s0 {} (.set 1 (1, 0) none)).2 none := by
        intro hm
        have : collected C1 (call C1 s0 {} (.set 1 (1, 0) none)).2 none = [1] := by decide
        rw [this] at hm; simp at hm; exact h hm
      have : (call C1 (call C1 s0 {} (.set 1 (1, 0) none)).2 {} .apply).2.stored m =
        newData C1 (call C1 s0 {} (.set 1 (1, 0) none)).2 none m := rfl
      rw [this]
      simp only [newData, hm, if_false]
      rfl
  · have h3 : ∀ s : State, s.pending = none → (s.stored m).discs = [] → (view s).discs m x = 0 := by
      intro s h1 h2; simp [view, h1, storedView, h2]
    simp only [View.del]
    apply h3 _ rfl
    by_cases h : m = 1
    · subst h; rfl
    · have hm : m ∉ collected C1 (call C1 s0 {} (.set 1 (1, 0) none)).2 none := by
        intro hm
        have : collected C1 (call C1 s0 {} (.set 1 (1, 0) none)).2 none = [1] := by decide
        rw [this] at hm; simp at hm; exact h hm
      have : (call C1 (call C1 s0 {} (.set 1 (1, 0) none)).2 {} .apply).2.stored m =
        newData C1 (call C1 s0 {} (.set 1 (1, 0) none)).2 none m := rfl
      rw [this]
      simp only [newData, hm, if_false]
      rfl

/-- **C117 is violated.** A session with data of two modules deletes all the data of one of them: applying fails an
assertion and ends the process, in builds with assertions (the default build type). -/
theorem module_emptied_aborts : ∃ s, ReachP C1 s ∧ (call C1 s {} .apply).1 = .abort := by
  refine ⟨(call C1 (call C1 (demo C1) {} (.delete (.top 1 (1, 0)) true)).2 {} (.delete (.top 1 (1, 1)) true)).2,
    .call _ _ (.call _ _ (demo_reach C1 rfl) trivial (by decide)) trivial (by decide), by decide⟩

/-! ### C118: discarding -/

/-- **C118 (partial), pending changes.** Discarding all pending changes leaves the data the session has. -/
theorem discard_exact_partial {C : Cfg} (s : State) (v : Env) :
    let r := call C s v .discard
    r.1 = .ok ∧ view r.2 = storedView s ∧ storedView r.2 = storedView s := ⟨rfl, rfl, rfl⟩

/-- **C118 (partial), stored data.** Discarding the stored operational data, of one module or of all, without pending
changes, succeeds unless a subscriber refuses and removes exactly these. Missing: pending changes, see
`discard_applies`. -/
theorem discard_oper_exact_partial {C : Cfg} (hC : C.mods.Nodup) {s : State} (hr : ReachP C s)
    (hp : s.pending = none) (v : Env) (only : Option Nat) :
    let r := call C s v (.discardOper only)
    (r.1 = .ok ∧ storedView r.2 = (storedView s).drop only ∧ r.2.pending = none) ∨
    (r.1 = .callback ∧ v.refuse = true ∧ r.2 = s) := by
  have I := inv_reach hC hr
  simp only [call]
  have hf : failure C s only = none := by
    simp only [failure, hp, List.findSome?_eq_none_iff]
    intro m _
    rfl
  cases h : applyOper C s only false v with
  | mk r s' =>
    by_cases hok : r = .ok
    · subst hok
      left
      obtain ⟨_, rfl⟩ := applyOper_ok h
      refine ⟨rfl, View.ext' (fun m n => ?_) (fun m x => ?_), hp⟩
      · simp only [storedView, newData_discard I hp, View.drop]
        split <;> rfl
      · simp only [storedView, newData_discard I hp, View.drop]
        split <;> rfl
    · right
      have hs := applyOper_err hok h
      subst hs
      unfold applyOper at h
      rw [hf] at h
      simp only [] at h
      split at h
      · rename_i hc
        simp only [Prod.mk.injEq, and_true] at h
        exact ⟨h.symm, hc.1, rfl⟩
      · simp only [Bool.false_eq_true, false_and, and_false, if_false, Prod.mk.injEq] at h
        exact absurd h.1.symm hok

example : ∃ s, ReachP C1 s ∧ s.pending = none ∧ (storedView s).Has (.top 1 (1, 0)) :=
  ⟨_, demo_reach C1 rfl, by decide, ⟨_, rfl⟩⟩

/-- **C118 is violated.** With pending changes, discarding the stored data of one module stores the pending changes
of all modules instead, and discards nothing. -/
theorem discard_applies : ∃ s, ReachP C2 s ∧ (storedView s).Has (.top 2 (7, 0)) ∧
    ¬ (storedView s).Has (.leaf 1 (1, 0) 6) ∧
    let r := call C2 s {} (.discardOper (some 2))
    r.1 = .ok ∧ (storedView r.2).Has (.top 2 (7, 0)) ∧ (storedView r.2).Has (.leaf 1 (1, 0) 6) := by
  refine ⟨(call C2 (demo C2) {} (.set 1 (1, 0) (some (6, 60)))).2,
    .call _ _ (demo_reach C2 rfl) (by simp [Plain, C2]) (by decide), ⟨_, rfl⟩, ?_, by decide, ⟨_, rfl⟩,
    ⟨_, 60, rfl, rfl⟩⟩
  rintro ⟨f, v, h1, h2⟩
  cases h1
  cases h2

/-- **C118 is violated.** The edit of a session contains its stored data, and discarding a part of the pending changes
removes that part of the edit: a leaf that had a value before the change is deleted when the rest is applied. -/
theorem discard_xpath_deletes : ∃ s, ReachP C1 s ∧ (storedView s).Has (.leaf 1 (1, 0) 5) ∧
    (view s).Has (.leaf 1 (1, 0) 6) ∧
    let r := call C1 s {} (.discardXpath (.leaf 1 (1, 0) 5))
    r.1 = .ok ∧ (call C1 r.2 {} .apply).1 = .ok ∧
    ¬ (storedView (call C1 r.2 {} .apply).2).Has (.leaf 1 (1, 0) 5) := by
  refine ⟨(call C1 (demo C1) {} (.set 1 (1, 0) (some (6, 60)))).2,
    .call _ _ (demo_reach C1 rfl) (by simp [Plain, C1]) (by decide), ⟨_, 50, rfl, rfl⟩, ⟨_, 60, rfl, rfl⟩,
    by decide, by decide, ?_⟩
  rintro ⟨f, v, h1, h2⟩
  cases h1
  cases h2

/-! ### C119: batches -/

/-- The batch as an edit. -/
def batchEdit (ts : List (Nat × Name × Leaves)) (ds : List (Nat × Nat)) (o : Op) : Edit :=
  ⟨ts.map (fun t => ⟨t.1, t.2.1, o, t.2.2⟩), ds.map (fun d => ⟨d.1, d.2, o⟩)⟩

/-- Trees as libyang keeps them: those of a module are neighbours, no tree or leaf is there twice, the modules are
installed. -/
structure BatchOk (C : Cfg) (ts : List (Nat × Name × Leaves)) (ds : List (Nat × Nat)) : Prop where
  grp : G (ts.map (·.1))
  uniq : (ts.map (fun t => (t.1, t.2.1))).Nodup
  leaves : ∀ t ∈ ts, (t.2.2.map (·.1)).Nodup
  modT : ∀ t ∈ ts, t.1 ∈ C.mods
  modD : ∀ d ∈ ds, d.1 ∈ C.mods

/-- **C119 (partial).** A batch applied with the default operation merge merges its data into those of the session,
one with replace replaces them. Missing: batches without data of some module the session has data of, for which
the claim is that the data of this module stay, see `batch_drops_others`. -/
theorem batch_exact_partial {C : Cfg} (hC : C.mods.Nodup) {s : State} (hr : ReachP C s) (hp : s.pending = none)
    {ts : List (Nat × Name × Leaves)} {ds : List (Nat × Nat)} (hb : BatchOk C ts ds) (o : Op)
    (hcov : ∀ m, ¬ (storedView s).NoMod m → ¬ (editView (batchEdit ts ds o)).NoMod m) (v v' : Env)
    (hv : v.lockFails = false) :
    let r := call C s v (.batch ts ds o)
    let r' := call C r.2 v' .apply
    r.1 = .ok ∧
    ((r'.1 = .ok ∧ r'.2.pending = none ∧
        storedView r'.2 = (storedView s).batch (editView (batchEdit ts ds o)) o) ∨
     (r'.1 = .callback ∧ v'.refuse = true ∧ r'.2 = r.2)) := by
  have I := inv_reach hC hr
  let e := batchEdit ts ds o
  let t : State := { s with pending := some e }
  have hG : G (e.tops.map (·.mod)) := by
    simp only [e, batchEdit, List.map_map]; exact hb.grp
  have h1 : ∀ t ∈ e.tops, t.op = o ∧ t.mod ∈ C.mods := by
    intro u hu
    obtain ⟨w, hw, rfl⟩ := List.mem_map.1 hu
    exact ⟨rfl, hb.modT w hw⟩
  have h2 : ∀ d ∈ e.discs, d.op = o ∧ d.mod ∈ C.mods := by
    intro u hu
    obtain ⟨w, hw, rfl⟩ := List.mem_map.1 hu
    exact ⟨rfl, hb.modD w hw⟩
  have hin : ∀ m, s.has m = true → inEdit (some e) m = true := by
    intro m hm
    cases h : inEdit (some e) m with
    | true => rfl
    | false =>
      refine absurd (view_out h) (hcov m (fun hn => ?_))
      rw [I.has] at hm
      have h3 : s.stored m = noPush := by
        have h4 : (s.stored m).trees = [] := by
          cases ht : (s.stored m).trees with
          | nil => rfl
          | cons t ts =>
            have := hn.1 t.1
            simp [storedView, ht] at this
        have h5 : (s.stored m).discs = [] := by
          cases ht : (s.stored m).discs with
          | nil => rfl
          | cons t ts =>
            have := hn.2 t
            simp [storedView, ht] at this
        cases hh : s.stored m with
        | mk a b => rw [hh] at h4 h5; simp only [] at h4 h5; rw [h4, h5]; rfl
      rw [h3] at hm; cases hm
  have hcol : ∀ m, m ∈ collected C t none ↔ inEdit (some e) m = true := by
    intro m
    simp only [collected, List.mem_filter, t]
    constructor
    · rintro ⟨_, h⟩
      simp only [Bool.or_eq_true, Bool.and_eq_true] at h
      rcases h with h | h
      · exact hin m h.1
      · exact h
    · intro h
      refine ⟨?_, by simp [h]⟩
      simp only [inEdit, Bool.or_eq_true, List.any_eq_true, beq_iff_eq] at h
      rcases h with ⟨t, ht, rfl⟩ | ⟨t, ht, rfl⟩
      · exact (h1 t ht).2
      · exact (h2 t ht).2
  have hf : failure C t none = none := by
    simp only [failure, List.findSome?_eq_none_iff]
    intro m hm
    rw [hcol] at hm
    have : t.pending = some e := rfl
    rw [this, applyMod_same hG (fun t ht => (h1 t ht).1) (fun d hd => (h2 d hd).1) hm]
    rfl
  have hnew : ∀ m, newData C t none m =
      if inEdit (some e) m = true then resultOf e m (s.stored m) o else noPush := by
    intro m
    simp only [newData, hcol]
    split
    · rename_i hm
      have : t.pending = some e := rfl
      rw [this, applyMod_same hG (fun t ht => (h1 t ht).1) (fun d hd => (h2 d hd).1) hm]
    · rename_i hm
      have : s.has m = false := by
        cases h : s.has m with
        | false => rfl
        | true => exact (hm (hin m h)).elim
      rw [I.has] at this
      exact any_false this
  have hcall : call C s v (.batch ts ds o) = (.ok, t) := by
    simp only [call, hp, hv]; rfl
  simp only [hcall, true_and]
  have hview : storedView { t with stored := newData C t none } =
      (storedView s).batch (editView (batchEdit ts ds o)) o := by
    cases o with
    | replace =>
      simp only [View.batch]
      apply View.ext'
      · intro m n
        simp only [storedView, hnew]
        split
        · simp only [resultOf, result, find_filter_map, editView]; rfl
        · rename_i hm
          have := (view_out (e := e) (m := m) (by simpa using hm)).1 n
          rw [show editView (batchEdit ts ds .replace) = editView e from rfl, this]; rfl
      · intro m x
        simp only [storedView, hnew]
        split
        · simp only [resultOf, result, newDiscs_replace, count_filter_map, editView]; rfl
        · rename_i hm
          have := (view_out (e := e) (m := m) (by simpa using hm)).2 x
          rw [show editView (batchEdit ts ds .replace) = editView e from rfl, this]; rfl
    | merge =>
      have hs : ∀ m, ¬ inEdit (some e) m = true → s.stored m = noPush := by
        intro m hm
        have : s.has m = false := by
          cases h : s.has m with
          | false => rfl
          | true => exact (hm (hin m h)).elim
        rw [I.has] at this
        exact any_false this
      simp only [View.batch]
      apply View.ext'
      · intro m n
        show ((newData C t none m).trees.find? _).map _ = _
        rw [hnew]
        split
        · have hn : ((e.tops.filter (fun t => t.mod == m)).map (·.name)).Nodup := by
            have hu : (e.tops.map (fun t => (t.mod, t.name))).Nodup := by
              simp only [e, batchEdit, List.map_map]; exact hb.uniq
            have hu2 : ((e.tops.filter (fun t => t.mod == m)).map (fun t => (t.mod, t.name))).Nodup :=
              hu.sublist (List.filter_sublist.map _)
            have : (e.tops.filter (fun t => t.mod == m)).map (fun t => (t.mod, t.name)) =
                ((e.tops.filter (fun t => t.mod == m)).map (·.name)).map (fun n => (m, n)) := by
              rw [List.map_map]
              apply List.map_congr_left
              intro u hu
              have := (List.mem_filter.1 hu).2
              simp only [beq_iff_eq] at this
              simp [this]
            rw [this] at hu2
            exact (List.pairwise_map.1 hu2).imp (fun h e => h (by rw [e]))
          have hl : ∀ t ∈ e.tops.filter (fun t => t.mod == m), (t.leaves.map (·.1)).Nodup := by
            intro u hu
            obtain ⟨w, hw, rfl⟩ := List.mem_map.1 (List.mem_filter.1 hu).1
            exact hb.leaves w hw
          have := viewT_fold _ hn hl (s.stored m).trees n
          rw [find_filter] at this
          simp only [resultOf]
          refine Eq.trans this ?_
          simp only [View.merge, storedView, editView, viewT]
          rw [show (batchEdit ts ds .merge).tops = e.tops from rfl]
          cases e.tops.find? (fun t => t.mod == m && t.name == n) <;> rfl
        · rename_i hm
          have h3 := (view_out (e := e) (m := m) (by simpa using hm)).1 n
          simp only [View.merge]
          rw [show editView (batchEdit ts ds .merge) = editView e from rfl, h3]
          simp only [storedView, hs m hm]
      · intro m x
        show (newData C t none m).discs.count x = _
        rw [hnew]
        split
        · simp only [resultOf, newDiscs_merge, count_filter_map, View.merge, storedView, editView]
          rw [Nat.max_comm]
        · rename_i hm
          have h3 := (view_out (e := e) (m := m) (by simpa using hm)).2 x
          simp only [View.merge]
          rw [show editView (batchEdit ts ds .merge) = editView e from rfl, h3]
          simp [storedView, hs m hm, noPush]
  have happ : call C t v' .apply =
      if (applyOper C t none false v').1 = .ok then (.ok, { (applyOper C t none false v').2 with pending := none })
      else applyOper C t none false v' := rfl
  rw [happ]
  by_cases hok : (applyOper C t none false v').1 = .ok
  · left
    obtain ⟨_, hs⟩ := applyOper_ok (s' := (applyOper C t none false v').2) (Prod.ext hok rfl)
    rw [if_pos hok, hs]
    exact ⟨rfl, rfl, hview⟩
  · right
    rw [if_neg hok]
    cases h : applyOper C t none false v' with
    | mk r s' =>
      rw [h] at hok
      have hs := applyOper_err hok h
      subst hs
      unfold applyOper at h
      rw [hf] at h
      simp only [] at h
      split at h
      · rename_i hc
        simp only [Prod.mk.injEq, and_true] at h
        exact ⟨h.symm, hc.1, rfl⟩
      · simp only [Bool.false_eq_true, false_and, and_false, if_false, Prod.mk.injEq] at h
        exact absurd h.1.symm hok

/-- A batch for both modules of the example. -/
example : ∃ s, ReachP C1 s ∧ s.pending = none ∧
    BatchOk C1 [(1, (1, 0), [(6, 60)]), (2, (8, 0), [])] [(2, 4)] ∧
    (∀ m, ¬ (storedView s).NoMod m →
      ¬ (editView (batchEdit [(1, (1, 0), [(6, 60)]), (2, (8, 0), [])] [(2, 4)] .merge)).NoMod m) := by
  refine ⟨_, demo_reach C1 rfl, by decide, ⟨by simp [G], by decide, by decide, by decide, by decide⟩, ?_⟩
  intro m hm hn
  apply hm
  by_cases h1 : m = 1
  · subst h1; exact absurd (hn.1 (1, 0)) (by decide)
  · by_cases h2 : m = 2
    · subst h2; exact absurd (hn.1 (8, 0)) (by decide)
    · have I := inv_reach (C := C1) (by decide) (demo_reach C1 rfl)
      have : (demo C1).stored m = noPush := I.mods m (by simp [C1, h1, h2])
      exact ⟨fun n => by simp [storedView, this, noPush], fun x => by simp [storedView, this, noPush]⟩

/-- **C119 is violated.** A batch to be merged that has data of one module only drops the data of another module the
session has data of (with assertions compiled in it ends the process). -/
theorem batch_drops_others : ∃ s, ReachP C2 s ∧ s.pending = none ∧ (storedView s).Has (.top 1 (1, 0)) ∧
    let r := call C2 (call C2 s {} (.batch [(2, (8, 0), [])] [] .merge)).2 {} .apply
    r.1 = .ok ∧ ¬ (storedView r.2).Has (.top 1 (1, 0)) ∧
    (call C1 (call C1 (demo C1) {} (.batch [(2, (8, 0), [])] [] .merge)).2 {} .apply).1 = .abort := by
  refine ⟨_, demo_reach C2 rfl, by decide, ⟨_, rfl⟩, by decide, ?_, by decide⟩
  rintro ⟨f, h⟩
  cases h

/-- **C119 is violated.** After a batch to be merged, setting a new tree is accepted, but then the changes cannot be
applied any more: the tree has the operation replace and an internal error is returned. -/
theorem batch_then_set_fails :
    let s1 := (call C1 s0 {} (.batch [(1, (1, 0), [])] [] .merge)).2
    let r := call C1 s1 {} (.set 1 (1, 1) none)
    r.1 = .ok ∧ (call C1 r.2 {} .apply).1 = .internal := by decide

end Verif.OperSess
