/-
Property of the replay support: C129.
-/
import Verif.ReplaySupp

namespace Verif.ReplaySupp

theorem upd_some {e : Env} {en : Bool} {pers pers' : Nat → Option Nat} {m : Nat} {c : Bool} (h : upd e en pers m = some (c, pers')) :
    (∀ x, (pers' x).isSome = if x = m then en else (pers x).isSome) ∧ (c = false → pers' = pers ∧ (pers m).isSome = en) := by
  unfold upd at h
  split at h
  · next h1 =>
    cases h
    simp only [Bool.and_eq_true, Bool.not_eq_true'] at h1
    refine ⟨fun x => ?_, fun h => by cases h⟩
    by_cases hx : x = m <;> simp [hx, h1.1]
  · next h1 =>
    split at h
    · next h2 =>
      split at h
      · cases h
      · cases h
        simp only [Bool.and_eq_true] at h2
        refine ⟨fun x => ?_, fun h => by cases h⟩
        by_cases hx : x = m <;> simp [hx, h2.1]
    · next h2 =>
      cases h
      have : (pers m).isSome = en := by
        cases en <;> cases hp : pers m <;> simp_all
      refine ⟨fun x => ?_, fun _ => ⟨rfl, this⟩⟩
      by_cases hx : x = m
      · subst hx; simp [this]
      · simp [hx]

theorem updAll_some {e : Env} {en : Bool} : ∀ (l : List Nat) {pers pers' : Nat → Option Nat} {cs : List Nat},
    updAll e en pers l = some (cs, pers') →
    (∀ x, (pers' x).isSome = if x ∈ l then en else (pers x).isSome) ∧ (∀ x, x ∈ cs → x ∈ l) ∧
    ∀ x, x ∈ l → x ∉ cs → (pers x).isSome = en := by
  intro l
  induction l with
  | nil => intro pers pers' cs h; cases h; simp
  | cons m t ih =>
    intro pers pers' cs h
    simp only [updAll] at h
    cases h1 : upd e en pers m with
    | none => rw [h1] at h; cases h
    | some q =>
      obtain ⟨c, p1⟩ := q
      rw [h1] at h
      simp only at h
      cases h2 : updAll e en p1 t with
      | none => rw [h2] at h; cases h
      | some q =>
        obtain ⟨cs', p2⟩ := q
        rw [h2] at h
        simp only [Option.some.injEq, Prod.mk.injEq] at h
        obtain ⟨h3, h4⟩ := h
        subst h4
        obtain ⟨a1, a2⟩ := upd_some h1
        obtain ⟨b1, b2, b3⟩ := ih h2
        refine ⟨fun x => ?_, fun x hx => ?_, fun x hx hn => ?_⟩
        · rw [b1 x, a1 x]
          by_cases hx : x = m <;> by_cases ht : x ∈ t <;> simp [hx, ht]
        · subst h3
          split at hx
          · rcases List.mem_cons.1 hx with hx | hx
            · exact hx ▸ List.mem_cons_self
            · exact List.mem_cons_of_mem _ (b2 x hx)
          · exact List.mem_cons_of_mem _ (b2 x hx)
        · subst h3
          have hcs : x ∉ cs' := by
            intro hx'
            apply hn
            split
            · exact List.mem_cons_of_mem _ hx'
            · exact hx'
          have ha := a1 x
          by_cases hxm : x = m
          · subst hxm
            cases c with
            | true => simp at hn
            | false => exact (a2 rfl).2
          · rw [if_neg hxm] at ha
            rw [← ha]
            exact b3 x ((List.mem_cons.1 hx).resolve_left hxm) hcs

theorem tell_ok {e : Env} {en : Bool} (h : ∀ m, e.refuse m = false) (cs : List Nat) (plug : Nat → Bool) :
    (tell e en cs plug).1 = true ∧ ∀ x, (tell e en cs plug).2 x = if x ∈ cs then en else plug x := by
  induction cs generalizing plug with
  | nil => simp [tell]
  | cons m t ih =>
    simp only [tell, h m, Bool.false_eq_true, if_false]
    obtain ⟨h1, h2⟩ := ih (fun x => if x = m then en else plug x)
    refine ⟨h1, fun x => ?_⟩
    rw [h2]
    by_cases hx : x = m <;> by_cases ht : x ∈ t <;> simp [hx, ht]

/-- The internal data, the SHM and the plugins agree. -/
def Coherent (s : State) : Prop := ∀ m, s.shm m = (s.pers m).isSome ∧ s.plug m = (s.pers m).isSome

/-- C129, one call without a crash and without a plugin that fails in the end: it succeeds for exactly the given module or all of
them, or changes nothing. -/
theorem set_exact_partial {e : Env} {s : State} (hc : Coherent s) (h1 : e.crash = false) (h2 : ∀ m, e.refuse m = false) (n : Option Nat)
    (en : Bool) :
    ((set e s n en).1 ≠ .ok → (set e s n en).2 = s) ∧
    ((set e s n en).1 = .ok → (∀ k, n = some k → k ∈ s.mods) ∧ (set e s n en).2.mods = s.mods ∧ Coherent (set e s n en).2 ∧
      ∀ m ∈ s.mods, get (set e s n en).2 m = some (if n = none ∨ n = some m then en else s.shm m)) := by
  unfold set
  split
  · exact ⟨fun _ => rfl, fun h => by cases h⟩
  · next hn =>
    have hmem : ∀ k, n = some k → k ∈ s.mods := by
      intro k hk
      subst hk
      simpa using hn
    split
    · exact ⟨fun _ => rfl, fun h => by cases h⟩
    · next cs pers hu =>
      obtain ⟨a1, a2, a3⟩ := updAll_some _ hu
      split
      · exact ⟨fun _ => rfl, fun h => by cases h⟩
      · rw [h1]
        simp only [Bool.false_eq_true, if_false]
        obtain ⟨b1, b2⟩ := tell_ok (en := en) h2 cs s.plug
        rw [b1]
        have hshm : ∀ m, putShm en cs s.shm m = (pers m).isSome := by
          intro m
          rw [a1 m]
          unfold putShm
          by_cases hm : m ∈ cs
          · rw [if_pos hm, if_pos (a2 m hm)]
          · rw [if_neg hm, (hc m).1]
            by_cases ht : m ∈ n.elim s.mods (fun n => [n])
            · rw [if_pos ht]; exact a3 m ht hm
            · rw [if_neg ht]
        refine ⟨fun h => absurd rfl h, fun _ => ⟨hmem, trivial, fun m => ⟨hshm m, ?_⟩, fun m hm => ?_⟩⟩
        · rw [← hshm m]
          simp only [b2, putShm]
          by_cases hm : m ∈ cs
          · rw [if_pos hm, if_pos hm]
          · rw [if_neg hm, if_neg hm, (hc m).1, (hc m).2]
        · simp only [get, if_pos hm, hshm m, a1 m, Option.some.injEq]
          cases n with
          | none => simp [hm]
          | some k =>
            simp only [Option.elim_some, List.mem_singleton, reduceCtorEq, false_or, Option.some.injEq, (hc m).1]
            by_cases hk : m = k
            · rw [if_pos hk, if_pos hk.symm]
            · rw [if_neg hk, if_neg (fun h => hk h.symm)]

/-- C129 for all histories of calls and restarts without crashes and without plugins that fail in the end: the support returned is
what the last successful call for the module or for all of them made. -/
theorem support_exact_partial (ops : List Op) : ∀ {s : State} {w : Nat → Bool}, Coherent s → Calm ops → (∀ m ∈ s.mods, s.shm m = w m) →
    ∀ m ∈ s.mods, get (ops.foldl step s) m = some (want s w ops m) := by
  induction ops with
  | nil =>
    intro s w _ _ hw m hm
    simp only [List.foldl_nil, get, if_pos hm, want, hw m hm]
  | cons op t ih =>
    intro s w hc hcalm hw m hm
    cases op with
    | restart =>
      have : restart s = { s with shm := s.shm } := by
        unfold restart
        congr
        funext m
        exact ((hc m).1).symm
      have hr : restart s = s := this
      simp only [List.foldl_cons, step, want, hr]
      exact ih hc hcalm hw m hm
    | set e n en =>
      simp only [List.foldl_cons, step, want]
      obtain ⟨h1, h2⟩ := set_exact_partial hc hcalm.1.1 hcalm.1.2 n en
      by_cases hr : (set e s n en).1 = .ok
      · obtain ⟨_, h3, h4, h5⟩ := h2 hr
        refine ih h4 hcalm.2 (fun k hk => ?_) m (by rw [h3]; exact hm)
        rw [h3] at hk
        have := h5 k hk
        simp only [get, h3, if_pos hk, Option.some.injEq] at this
        rw [this]
        simp only [hr, true_and, hw k hk]
      · rw [h1 hr]
        simp only [hr, false_and, if_false]
        exact ih hc hcalm.2 hw m hm

theorem updAll_isSome {e : Env} (h : ∀ m, e.bad m = false) (en : Bool) (l : List Nat) (pers : Nat → Option Nat) :
    (updAll e en pers l).isSome := by
  induction l generalizing pers with
  | nil => rfl
  | cons m t ih =>
    simp only [updAll]
    cases h1 : upd e en pers m with
    | none =>
      unfold upd at h1
      simp only [h m, Bool.false_eq_true, if_false] at h1
      split at h1
      · cases h1
      · split at h1 <;> cases h1
    | some q =>
      obtain ⟨c, p1⟩ := q
      have := ih p1
      simp only
      cases h2 : updAll e en p1 t with
      | none => rw [h2] at this; cases this
      | some q => rfl

/-- C129: when nothing fails, a call is successful for all the modules and for any existing one, and for no other. -/
theorem set_succeeds {e : Env} {s : State} (h1 : e.crash = false) (h2 : ∀ m, e.refuse m = false) (h3 : ∀ m, e.bad m = false)
    (h4 : e.full = false) (n : Option Nat) (en : Bool) :
    (set e s n en).1 = if ∀ k, n = some k → k ∈ s.mods then .ok else .notFound := by
  have key : (n.any (fun n => decide (n ∉ s.mods)) = true) ↔ ¬ ∀ k, n = some k → k ∈ s.mods := by
    cases n <;> simp
  unfold set
  by_cases hk : ∀ k, n = some k → k ∈ s.mods
  · have : ¬ (n.any (fun n => decide (n ∉ s.mods)) = true) := fun h => key.1 h hk
    rw [if_neg this, if_pos hk]
    have hs := updAll_isSome h3 en (n.elim s.mods (fun n => [n])) s.pers
    cases hu : updAll e en s.pers (n.elim s.mods (fun n => [n])) with
    | none => rw [hu] at hs; cases hs
    | some q =>
      obtain ⟨cs, pers⟩ := q
      simp [h1, h4, (tell_ok (en := en) h2 cs s.plug).1]
  · rw [if_pos (key.2 hk), if_neg hk]

/-- Nothing fails. -/
def fine : Env := ⟨fun _ => false, fun m => if m = 1 then 7 else 0, 100, false, false, fun _ => false⟩

/-- Two modules without replay support. -/
def fresh : State := ⟨[1, 2], fun _ => none, fun _ => false, fun _ => false⟩

/-- They meet the hypotheses, with a history. -/
example : Coherent fresh ∧ Calm [.set fine none true, .restart, .set fine (some 2) false, .set fine (some 5) true] ∧
    get ([Op.set fine none true, .restart, .set fine (some 2) false, .set fine (some 5) true].foldl step fresh) 1 = some true ∧
    get ([Op.set fine none true, .restart, .set fine (some 2) false, .set fine (some 5) true].foldl step fresh) 2 = some false := by
  refine ⟨fun _ => ⟨rfl, rfl⟩, ?_, by decide, by decide⟩
  simp [Calm, fine]

/-- All modules and an unknown one. -/
example : (set fine fresh none true).1 = .ok ∧ (set fine fresh (some 5) true).1 = .notFound := by decide

/-- C129: the support of a module is remembered with the time of its earliest notification. -/
theorem enabled_since {e : Env} {s : State} {m : Nat} (hm : m ∈ s.mods) (hn : s.pers m = none) (h : (set e s (some m) true).1 = .ok) :
    (set e s (some m) true).2.pers m = some (if e.earliest m = 0 then e.now else e.earliest m) := by
  have hu : upd e true s.pers m = if e.bad m then none else
      some (true, fun x => if x = m then some (if e.earliest m = 0 then e.now else e.earliest m) else s.pers x) := by
    simp [upd, hn]
  unfold set at h ⊢
  simp only [Option.any_some, hm, not_true_eq_false, decide_false, Bool.false_eq_true, if_false, Option.elim_some, updAll, hu] at h ⊢
  by_cases hb : e.bad m
  · simp [hb] at h
  · simp only [hb, Bool.false_eq_true, if_false, if_true] at h ⊢
    by_cases hf : e.full
    · simp [hf] at h
    · by_cases hcr : e.crash
      · simp [hf, hcr] at h
      · simp [hf, hcr]

/-- A module. -/
example : (1 : Nat) ∈ fresh.mods ∧ fresh.pers 1 = none ∧ (set fine fresh (some 1) true).1 = .ok := by decide

theorem updAll_keeps {e : Env} {k t : Nat} (l : List Nat) : ∀ {pers pers' : Nat → Option Nat} {cs : List Nat},
    pers k = some t → updAll e true pers l = some (cs, pers') → pers' k = some t := by
  induction l with
  | nil => intro pers pers' cs hk h; cases h; exact hk
  | cons m r ih =>
    intro pers pers' cs hk h
    simp only [updAll] at h
    cases h1 : upd e true pers m with
    | none => rw [h1] at h; cases h
    | some q =>
      obtain ⟨c, p1⟩ := q
      have hp : p1 k = some t := by
        unfold upd at h1
        simp only [Bool.not_true, Bool.false_and, Bool.false_eq_true, if_false, Bool.true_and] at h1
        split at h1
        · next h2 =>
          split at h1
          · cases h1
          · cases h1
            have : k ≠ m := by
              intro hkm
              subst hkm
              rw [hk] at h2
              cases h2
            simp only [if_neg this, hk]
        · cases h1
          exact hk
      rw [h1] at h
      simp only at h
      cases h2 : updAll e true p1 r with
      | none => rw [h2] at h; cases h
      | some q =>
        obtain ⟨cs', p2⟩ := q
        rw [h2] at h
        simp only [Option.some.injEq, Prod.mk.injEq] at h
        rw [← h.2]
        exact ih hp h2

/-- C129: enabling the support again, of the module or of all of them, with any result, keeps the time it is remembered with. -/
theorem enabled_kept {e : Env} {s : State} {k t : Nat} (hk : s.pers k = some t) (n : Option Nat) :
    (set e s n true).2.pers k = some t := by
  unfold set
  split
  · exact hk
  · split
    · exact hk
    · next cs pers hu =>
      have := updAll_keeps _ hk hu
      split
      · exact hk
      · split <;> exact this

/-- An enabled module. -/
example : (set fine fresh none true).2.pers 1 = some 7 ∧ (set fine fresh none true).2.pers 2 = some 100 := by decide

/-- C129 fails after a crash: the internal data say that replay is supported, so further calls are successful and do nothing,
and it is not supported until the system is restarted. -/
theorem ignored_after_crash (e e' : Env) (hc : e.crash = true) (hf : e.full = false) (hb : e.bad 1 = false) (he : e'.crash = false)
    (hf' : e'.full = false) :
    (set e' (set e fresh (some 1) true).2 (some 1) true).1 = .ok ∧
    get (set e' (set e fresh (some 1) true).2 (some 1) true).2 1 = some false := by
  have h1 : (set e fresh (some 1) true).2 = { fresh with pers := fun x => if x = 1 then some (if e.earliest 1 = 0 then e.now else e.earliest 1) else none } := by
    simp [set, fresh, updAll, upd, hb, hf, hc]
  rw [h1]
  simp [set, fresh, updAll, upd, he, hf', tell, get, putShm]

/-- There are such calls. -/
example : (set { fine with crash := true } fresh (some 1) true).1 = .crashed := by decide

/-- C129 fails when the plugin fails: an error is returned, but replay is supported, and further calls are successful without
telling the plugin. -/
theorem enabled_despite_error (e e' : Env) (hr : e.refuse 1 = true) (hc : e.crash = false) (hf : e.full = false) (hb : e.bad 1 = false)
    (he : e'.crash = false) (hf' : e'.full = false) :
    (set e fresh (some 1) true).1 = .error ∧ get (set e fresh (some 1) true).2 1 = some true ∧
    (set e' (set e fresh (some 1) true).2 (some 1) true).1 = .ok ∧
    (set e' (set e fresh (some 1) true).2 (some 1) true).2.plug 1 = false := by
  have h1 : set e fresh (some 1) true = (.error, { fresh with
      pers := fun x => if x = 1 then some (if e.earliest 1 = 0 then e.now else e.earliest 1) else none,
      shm := putShm true [1] fresh.shm }) := by
    simp [set, fresh, updAll, upd, hb, hf, hc, tell, hr]
  rw [h1]
  simp [set, fresh, updAll, upd, he, hf', tell, get, putShm]

/-- There are such calls. -/
example : (set { fine with refuse := fun m => m == 1 } fresh (some 1) true).1 = .error := by decide

end Verif.ReplaySupp
