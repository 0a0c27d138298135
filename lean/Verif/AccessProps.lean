/-
Properties of the access to modules: C126 (access returned), C127 (access to data), C128 (access to notifications).
-/
import Verif.Access

namespace Verif.Access

/-! ### One file -/

theorem Arg.zero_iff (a : Arg) : a.zero = true ↔ a.perm = Perm.none ∧ a.exec = false ∧ a.high = false := by
  simp [Arg.zero, and_assoc]

theorem chmodown_fail {e : Env} {p : Proc} {a : Attr} {o g : Option Nat} {m : Arg} (h : (chmodown e p a o g m).1 ≠ .ok) :
    (chmodown e p a o g m).2 = a := by
  unfold chmodown at h ⊢
  split
  · rfl
  · split
    · rfl
    · split
      · rfl
      · split
        · rfl
        · next h1 h2 h3 h4 =>
          rw [if_neg h1, if_neg h2, if_neg h3, if_neg h4] at h
          dsimp only at h ⊢
          split
          · next hz => rw [if_pos hz] at h; exact absurd rfl h
          · next hz =>
            rw [if_neg hz] at h
            split
            · next hc =>
              simp only [chmodOk, chownOk] at hc h4
              cases hr : p.root with
              | true => simp [hr] at hc
              | false =>
                simp only [hr, Bool.false_or] at hc h4
                cases hu : o.bind e.uidOf with
                | some u =>
                  cases hg : g.bind e.gidOf <;> (simp [hu, hg] at hc h4; grind)
                | none =>
                  cases hg : g.bind e.gidOf with
                  | some gg => simp [hu, hg] at hc h4; grind
                  | none => rfl
            · next hc => rw [if_neg hc] at h; exact absurd rfl h

/-- What a successful change of a file does. -/
theorem chmodown_ok {e : Env} {p : Proc} {a : Attr} {o g : Option Nat} {m : Arg} (h : (chmodown e p a o g m).1 = .ok) :
    m.high = false ∧ m.exec = false ∧ (∀ n, o = some n → (e.uidOf n).isSome) ∧ (∀ n, g = some n → (e.gidOf n).isSome) ∧
    (chmodown e p a o g m).2 = ⟨(o.bind e.uidOf).getD a.uid, (g.bind e.gidOf).getD a.gid, if m.zero then a.perm else m.perm⟩ := by
  unfold chmodown at h ⊢
  split
  · next h1 => rw [if_pos h1] at h; cases h
  · next h1 =>
    rw [if_neg h1] at h
    split
    · next h2 => rw [if_pos h2] at h; cases h
    · next h2 =>
      rw [if_neg h2] at h
      split
      · next h3 => rw [if_pos h3] at h; cases h
      · next h3 =>
        rw [if_neg h3] at h
        split
        · next h4 => rw [if_pos h4] at h; cases h
        · next h4 =>
          rw [if_neg h4] at h
          dsimp only at h ⊢
          simp only [Bool.or_eq_true, not_or, Bool.not_eq_true] at h1
          refine ⟨h1.1, h1.2, ?_, ?_, ?_⟩
          · intro n hn; subst hn; simpa [Option.isSome_iff_ne_none] using h2
          · intro n hn; subst hn; simpa [Option.isSome_iff_ne_none] using h3
          · split
            · next hz => simp [hz]
            · next hz =>
              rw [if_neg hz] at h
              split
              · next hc => rw [if_pos hc] at h; cases h
              · simp [hz]

/-- The attributes are the requested ones. -/
theorem chmodown_wanted {e : Env} {p : Proc} {f : Attr} {o g : Option Nat} {a : Arg}
    (h : (chmodown e p f o (useGroup e g) (useArg e a)).1 = .ok) :
    Wanted e o g a f (chmodown e p f o (useGroup e g) (useArg e a)).2 := by
  obtain ⟨h1, h2, h3, h4, h5⟩ := chmodown_ok h
  rw [h5]
  refine ⟨?_, ?_, ?_, ?_, ?_, ?_⟩
  · intro n hn
    subst hn
    obtain ⟨u, hu⟩ := Option.isSome_iff_exists.1 (h3 n rfl)
    simp [hu]
  · intro hn; subst hn; rfl
  · intro n hn hs
    subst hn
    have hg : useGroup e (some n) = some n := by
      unfold useGroup
      rcases hs with hs | hs <;> rw [hs]
      simp
    rw [hg] at h4 ⊢
    obtain ⟨u, hu⟩ := Option.isSome_iff_exists.1 (h4 n rfl)
    simp [hu]
  · intro hn
    have hg : useGroup e g = none := by
      unfold useGroup
      rcases hn with hn | ⟨s, hs, hn⟩
      · subst hn; split <;> simp
      · rw [hs]; simp [hn]
    rw [hg]; rfl
  · intro hm
    have : (useArg e a).zero = false := by
      cases hz : (useArg e a).zero with
      | false => rfl
      | true => exact absurd ((Arg.zero_iff _).1 hz).1 hm
    simp [this]; rfl
  · intro hm
    have : (useArg e a).zero = true := (Arg.zero_iff _).2 ⟨hm, h2, h1⟩
    simp [this]

theorem wanted_nothing {e : Env} {o g : Option Nat} {a : Arg} (h : (o.isNone && (useGroup e g).isNone && (useArg e a).zero) = true)
    (f : Attr) : Wanted e o g a f f := by
  simp only [Bool.and_eq_true, Option.isNone_iff_eq_none] at h
  obtain ⟨⟨h1, h2⟩, h3⟩ := h
  subst h1
  refine ⟨(fun n hn => by cases hn), (fun _ => rfl), ?_, fun _ => rfl, ?_, fun _ => rfl⟩
  · intro n hn hs
    subst hn
    unfold useGroup at h2
    rcases hs with hs | hs <;> rw [hs] at h2 <;> simp at h2
  · intro hm; exact absurd ((Arg.zero_iff _).1 h3).1 hm

/-! ### A datastore -/

theorem setPermFile_get (e : Env) (p : Proc) (m : Mod) (d : Ds) (o g : Option Nat) (a : Arg) :
    (setPermFile e p m d o g a).2.data = m.data ∧ (setPermFile e p m d o g a).2.oper = m.oper ∧
    (setPermFile e p m d o g a).2.noRunning = m.noRunning ∧
    (∀ x, (setPermFile e p m d o g a).2.permf x = if x = d then (chmodown e p (m.permf d) o g a).2 else m.permf x) :=
  ⟨rfl, rfl, rfl, fun _ => rfl⟩

theorem accessSet_noRunning (e : Env) (p : Proc) (m : Mod) (d : Ds) (o g : Option Nat) (a : Arg) :
    (accessSet e p m d o g a).2.noRunning = m.noRunning := by
  unfold accessSet
  split
  · dsimp only; split <;> rfl
  · split <;> rfl
  · split <;> rfl
  · split
    · rfl
    · dsimp only; split <;> rfl
  · split
    · rfl
    · dsimp only; split <;> rfl

/-- What the access becomes. -/
theorem accessSet_get {e : Env} {p : Proc} {m : Mod} {d : Ds} {o g : Option Nat} {a : Arg} {old : Attr} (h : accessGet m d = some old) :
    ((accessSet e p m d o g a).1 = .ok → (chmodown e p old o g a).1 = .ok ∧
      accessGet (accessSet e p m d o g a).2 d = some (chmodown e p old o g a).2) ∧
    ((accessSet e p m d o g a).1 ≠ .ok → accessGet (accessSet e p m d o g a).2 d = some old) ∧
    ∀ d', d' ≠ d → accessGet (accessSet e p m d o g a).2 d' = accessGet m d' := by
  have hp : ∀ (m' : Mod) (d : Ds) (old : Attr), m'.permf d = old → (d ≠ .startup ∧ d ≠ .factory) →
      ((setPermFile e p m' d o g a).1 = .ok → (chmodown e p old o g a).1 = .ok ∧
        accessGet (setPermFile e p m' d o g a).2 d = some (chmodown e p old o g a).2) ∧
      ((setPermFile e p m' d o g a).1 ≠ .ok → accessGet (setPermFile e p m' d o g a).2 d = some old) ∧
      ∀ d', d' ≠ d → accessGet (setPermFile e p m' d o g a).2 d' = accessGet m' d' := by
    intro m' d old ho hd
    subst ho
    refine ⟨fun h => ⟨h, ?_⟩, fun h => ?_, fun d' hd' => ?_⟩
    · cases d <;> simp_all [accessGet, setPermFile, Mod.putPerm]
    · have := chmodown_fail h
      cases d <;> simp_all [accessGet, setPermFile, Mod.putPerm]
    · cases d' <;> simp_all [accessGet, setPermFile, Mod.putPerm]
  have hd : ∀ d, (d = .startup ∨ d = .factory) → accessGet m d = some old →
      accessSet e p m d o g a = ((chmodown e p old o g a).1, m.putData d (chmodown e p old o g a).2) := by
    intro d hd h
    rcases hd with rfl | rfl <;> simp only [accessGet] at h <;> simp only [accessSet, h]
  have hd2 : ∀ d, (d = .startup ∨ d = .factory) → accessGet m d = some old →
      ((accessSet e p m d o g a).1 = .ok → (chmodown e p old o g a).1 = .ok ∧
        accessGet (accessSet e p m d o g a).2 d = some (chmodown e p old o g a).2) ∧
      ((accessSet e p m d o g a).1 ≠ .ok → accessGet (accessSet e p m d o g a).2 d = some old) ∧
      ∀ d', d' ≠ d → accessGet (accessSet e p m d o g a).2 d' = accessGet m d' := by
    intro d hdd h
    rw [hd d hdd h]
    refine ⟨fun h => ⟨h, ?_⟩, fun h => ?_, fun d' hd' => ?_⟩
    · rcases hdd with rfl | rfl <;> simp [accessGet, Mod.putData]
    · have := chmodown_fail h
      rcases hdd with rfl | rfl <;> simp [accessGet, Mod.putData, this]
    · cases d' <;> simp_all [accessGet, Mod.putData]
  have hv : ∀ d, (d = .running ∨ d = .candidate) → accessGet m d = some old →
      ((accessSet e p m d o g a).1 = .ok → (chmodown e p old o g a).1 = .ok ∧
        accessGet (accessSet e p m d o g a).2 d = some (chmodown e p old o g a).2) ∧
      ((accessSet e p m d o g a).1 ≠ .ok → accessGet (accessSet e p m d o g a).2 d = some old) ∧
      ∀ d', d' ≠ d → accessGet (accessSet e p m d o g a).2 d' = accessGet m d' := by
    intro d hdd h
    have ho : m.permf d = old := by rcases hdd with rfl | rfl <;> simpa [accessGet] using h
    have hne : d ≠ .startup ∧ d ≠ .factory := by rcases hdd with rfl | rfl <;> simp
    cases hf : m.data d with
    | none =>
      have : accessSet e p m d o g a = setPermFile e p m d o g a := by
        rcases hdd with rfl | rfl <;> simp only [accessSet, hf]
      rw [this]; exact hp m d old ho hne
    | some f =>
      by_cases hr : (chmodown e p f o g a).1 = .ok
      · have : accessSet e p m d o g a = setPermFile e p (m.putData d (chmodown e p f o g a).2) d o g a := by
          rcases hdd with rfl | rfl <;> simp only [accessSet, hf, hr, if_true]
        rw [this]
        obtain ⟨h1, h2, h3⟩ := hp (m.putData d (chmodown e p f o g a).2) d old ho hne
        refine ⟨h1, h2, fun d' hd' => (h3 d' hd').trans ?_⟩
        cases d' <;> simp_all [accessGet, Mod.putData]
      · have : accessSet e p m d o g a = ((chmodown e p f o g a).1, m.putData d (chmodown e p f o g a).2) := by
          rcases hdd with rfl | rfl <;> simp only [accessSet, hf, hr, if_false]
        rw [this]
        refine ⟨fun h => absurd h hr, fun _ => ?_, fun d' hd' => ?_⟩
        · rcases hdd with rfl | rfl <;> simp [accessGet, Mod.putData, ho]
        · cases d' <;> simp_all [accessGet, Mod.putData]
  cases d with
  | startup => exact hd2 _ (Or.inl rfl) h
  | factory => exact hd2 _ (Or.inr rfl) h
  | running => exact hv _ (Or.inl rfl) h
  | candidate => exact hv _ (Or.inr rfl) h
  | operational =>
    have ho : m.permf .operational = old := by simpa [accessGet] using h
    by_cases hr : (chmodAll e p o g a m.oper).1 = .ok
    · have : accessSet e p m .operational o g a = setPermFile e p { m with oper := (chmodAll e p o g a m.oper).2 } .operational o g a := by
        simp only [accessSet, hr, if_true]
      rw [this]
      obtain ⟨h1, h2, h3⟩ := hp { m with oper := (chmodAll e p o g a m.oper).2 } .operational old ho (by simp)
      exact ⟨h1, h2, fun d' hd' => (h3 d' hd').trans (by cases d' <;> rfl)⟩
    · have : accessSet e p m .operational o g a = ((chmodAll e p o g a m.oper).1, { m with oper := (chmodAll e p o g a m.oper).2 }) := by
        simp only [accessSet, hr, if_false]
      rw [this]
      refine ⟨fun h => absurd h hr, fun _ => ?_, fun d' _ => by cases d' <;> rfl⟩
      simp [accessGet, ho]

/-! ### Histories -/

/-- The module is installed: its persistent files exist. -/
def Installed (m : Mod) : Prop := (m.data .startup).isSome ∧ (m.data .factory).isSome

theorem installed_get {m : Mod} (h : Installed m) (d : Ds) : ∃ a, accessGet m d = some a := by
  cases d with
  | startup => exact Option.isSome_iff_exists.1 h.1
  | factory => exact Option.isSome_iff_exists.1 h.2
  | _ => exact ⟨_, rfl⟩

theorem installed_of_get {m m' : Mod} (h : Installed m)
    (hg : ∀ d, (accessGet m d).isSome → (accessGet m' d).isSome) : Installed m' :=
  ⟨hg .startup h.1, hg .factory h.2⟩

theorem target_congr {m m' : Mod} (h : m'.noRunning = m.noRunning) (d : Ds) : target m' d = target m d := by
  simp only [target, h]

/-- C126: a call with nothing to set or with execute permissions is refused and changes nothing. -/
theorem set_refused (e : Env) (p : Proc) (m : Mod) (d : Ds) (o g : Option Nat) (a : Arg)
    (h : (o = none ∧ g = none ∧ a = ⟨Perm.none, false, false⟩) ∨ a.exec = true) : set e p m d o g a = (.inval, m) := by
  unfold set
  refine if_pos ?_
  rcases h with ⟨h1, h2, h3⟩ | h
  · subst h1; subst h2; subst h3
    rfl
  · simp [h]

/-- Such calls. -/
example : (⟨Perm.none, true, false⟩ : Arg).exec = true := rfl

/-- C126, one call: the attributes are the requested ones of the datastore and unchanged of all the other ones, and all
unchanged if an error is returned. -/
theorem set_exact {e : Env} {p : Proc} {m : Mod} (hi : Installed m) (d : Ds) (o g : Option Nat) (a : Arg) :
    (set e p m d o g a).2.noRunning = m.noRunning ∧
    ((set e p m d o g a).1 = .ok →
      ∃ old new, get m d = some old ∧ get (set e p m d o g a).2 d = some new ∧ Wanted e o g a old new) ∧
    ((set e p m d o g a).1 ≠ .ok → ∀ d', get (set e p m d o g a).2 d' = get m d') ∧
    ∀ d', target m d' ≠ target m d → get (set e p m d o g a).2 d' = get m d' := by
  obtain ⟨old, ho⟩ := installed_get hi (target m d)
  unfold set
  split
  · exact ⟨rfl, (fun h => by cases h), fun _ _ => rfl, fun _ _ => rfl⟩
  · split
    · next hn => exact ⟨rfl, fun _ => ⟨old, old, ho, ho, wanted_nothing hn old⟩, fun _ _ => rfl, fun _ _ => rfl⟩
    · have hnr := accessSet_noRunning e p m (target m d) o (useGroup e g) (useArg e a)
      obtain ⟨h1, h2, h3⟩ := accessSet_get (e := e) (p := p) (o := o) (g := useGroup e g) (a := useArg e a) ho
      have ht : ∀ d', target (accessSet e p m (target m d) o (useGroup e g) (useArg e a)).2 d' = target m d' := by
        intro d'
        exact target_congr hnr d'
      refine ⟨hnr, fun h => ?_, fun h d' => ?_, fun d' hd' => ?_⟩
      · obtain ⟨h4, h5⟩ := h1 h
        exact ⟨old, _, ho, by rw [get, ht]; exact h5, chmodown_wanted h4⟩
      · simp only [get, ht]
        by_cases hd : target m d' = target m d
        · rw [hd, h2 h, ho]
        · exact h3 _ hd
      · simp only [get, ht]
        exact h3 _ hd'

theorem step_keeps {e : Env} {m : Mod} (hi : Installed m) (op : Op) :
    Installed (step e m op).2 ∧ (step e m op).2.noRunning = m.noRunning ∧
    ((∀ p d o g a, op ≠ .set p d o g a) → ∀ d, get (step e m op).2 d = get m d) := by
  have ho : ∀ m' : Mod, m'.noRunning = m.noRunning → m'.permf = m.permf → m'.data .startup = m.data .startup →
      m'.data .factory = m.data .factory → Installed m' ∧ m'.noRunning = m.noRunning ∧ ∀ d, get m' d = get m d := by
    intro m' h1 h2 h3 h4
    refine ⟨⟨by rw [h3]; exact hi.1, by rw [h4]; exact hi.2⟩, h1, fun d => ?_⟩
    have : target m' d = target m d := by simp only [target, h1]
    unfold get
    rw [this]
    cases target m d <;> simp [accessGet, h2, h3, h4]
  cases op with
  | set p d o g a =>
    obtain ⟨h1, h2, h3, h4⟩ := set_exact (e := e) (p := p) hi d o g a
    refine ⟨?_, h1, fun h => absurd rfl (h p d o g a)⟩
    have ht : ∀ d', target (set e p m d o g a).2 d' = target m d' := fun d' => by simp only [target, h1]
    have key : ∀ d', (get m d').isSome → (get (set e p m d o g a).2 d').isSome := by
      intro d' hd'
      by_cases hr : (set e p m d o g a).1 = .ok
      · by_cases he : target m d' = target m d
        · obtain ⟨old, new, _, hn, _⟩ := h2 hr
          have : get (set e p m d o g a).2 d' = get (set e p m d o g a).2 d := by
            simp only [get, ht, he]
          rw [this, hn]; rfl
        · rw [h4 d' he]; exact hd'
      · rw [h3 hr d']; exact hd'
    exact ⟨key .startup hi.1, key .factory hi.2⟩
  | store p d sid =>
    have : ∀ m', (step e m (.store p d sid)).2 = m' → m'.noRunning = m.noRunning ∧ m'.permf = m.permf ∧
        m'.data .startup = m.data .startup ∧ m'.data .factory = m.data .factory := by
      intro m' hm'
      subst hm'
      simp only [step, store]
      split
      · split <;> exact ⟨rfl, rfl, rfl, rfl⟩
      · split <;> exact ⟨rfl, rfl, rfl, rfl⟩
      · split <;> exact ⟨rfl, rfl, rfl, rfl⟩
      · exact ⟨rfl, rfl, rfl, rfl⟩
      · exact ⟨rfl, rfl, rfl, rfl⟩
    obtain ⟨h1, h2, h3, h4⟩ := this _ rfl
    obtain ⟨h5, h6, h7⟩ := ho _ h1 h2 h3 h4
    exact ⟨h5, h6, fun _ => h7⟩
  | init p =>
    have : ∀ m', (step e m (.init p)).2 = m' → m'.noRunning = m.noRunning ∧ m'.permf = m.permf ∧
        m'.data .startup = m.data .startup ∧ m'.data .factory = m.data .factory := by
      intro m' hm'
      subst hm'
      simp only [step, init]
      split
      · exact ⟨rfl, rfl, rfl, rfl⟩
      · split
        · exact ⟨rfl, rfl, rfl, rfl⟩
        · split <;> exact ⟨rfl, rfl, rfl, rfl⟩
    obtain ⟨h1, h2, h3, h4⟩ := this _ rfl
    obtain ⟨h5, h6, h7⟩ := ho _ h1 h2 h3 h4
    exact ⟨h5, h6, fun _ => h7⟩
  | reset =>
    obtain ⟨h5, h6, h7⟩ := ho (step e m .reset).2 rfl rfl rfl rfl
    exact ⟨h5, h6, fun _ => h7⟩
  | drop sid =>
    obtain ⟨h5, h6, h7⟩ := ho (step e m (.drop sid)).2 rfl rfl rfl rfl
    exact ⟨h5, h6, fun _ => h7⟩

theorem run_append (e : Env) (m : Mod) (a b : List Op) : run e m (a ++ b) = run e (run e m a) b := by
  induction a generalizing m with
  | nil => rfl
  | cons o t ih => exact ih _

theorem run_installed {e : Env} {m : Mod} (hi : Installed m) (ops : List Op) :
    Installed (run e m ops) ∧ (run e m ops).noRunning = m.noRunning := by
  induction ops generalizing m with
  | nil => exact ⟨hi, rfl⟩
  | cons o t ih =>
    obtain ⟨h1, h2, _⟩ := step_keeps (e := e) hi o
    obtain ⟨h3, h4⟩ := ih h1
    exact ⟨h3, h4.trans h2⟩

/-- In none of the calls was the access to the datastore set. -/
def Untouched (e : Env) (m : Mod) (d : Ds) : List Op → Prop
  | [] => True
  | .set p d' o g a :: t => ((set e p m d' o g a).1 = .ok → target m d' ≠ target m d) ∧ Untouched e (set e p m d' o g a).2 d t
  | op :: t => Untouched e (step e m op).2 d t

/-- C126 for all histories: the access returned is what the last successful call setting it made of the access before, whatever is
stored, created and removed, and whichever calls fail. -/
theorem access_exact {e : Env} {m : Mod} (hi : Installed m) (before after : List Op) (p : Proc) (d : Ds) (o g : Option Nat) (a : Arg)
    (hok : (set e p (run e m before) d o g a).1 = .ok) (hu : Untouched e (set e p (run e m before) d o g a).2 d after) :
    ∃ old new, get (run e m before) d = some old ∧ get (run e m (before ++ .set p d o g a :: after)) d = some new ∧
      Wanted e o g a old new := by
  have hun : ∀ (ops : List Op) (m : Mod), Installed m → Untouched e m d ops → get (run e m ops) d = get m d := by
    intro ops
    induction ops with
    | nil => intro m _ _; rfl
    | cons op t ih =>
      intro m hi hu
      obtain ⟨h1, h2, h3⟩ := step_keeps (e := e) hi op
      cases op with
      | set p' d' o' g' a' =>
        obtain ⟨h4, h5⟩ := hu
        refine (ih _ h1 h5).trans ?_
        obtain ⟨_, _, h6, h7⟩ := set_exact (e := e) (p := p') hi d' o' g' a'
        by_cases hr : (set e p' m d' o' g' a').1 = .ok
        · exact h7 d (fun h => h4 hr h.symm)
        · exact h6 hr d
      | store p' d' s => exact (ih _ h1 hu).trans (h3 (by simp) d)
      | init p' => exact (ih _ h1 hu).trans (h3 (by simp) d)
      | reset => exact (ih _ h1 hu).trans (h3 (by simp) d)
      | drop s => exact (ih _ h1 hu).trans (h3 (by simp) d)
  have hb := run_installed (e := e) hi before
  obtain ⟨_, h2, _, _⟩ := set_exact (e := e) (p := p) hb.1 d o g a
  obtain ⟨old, new, h3, h4, h5⟩ := h2 hok
  refine ⟨old, new, h3, ?_, h5⟩
  rw [run_append]
  exact (hun after _ (step_keeps (e := e) hb.1 (.set p d o g a)).1 hu).trans h4

/-- Users 1000 (alice) and 1001 (bob), sysrepo group 50, others may not write. -/
def env : Env where
  uidOf := fun n => if n = 0 ∨ n = 1000 ∨ n = 1001 then some n else none
  gidOf := fun n => if n < 100 then some n else none
  srGroup := some 50
  umask := ⟨false, false, false, false, false, true⟩

def root : Proc := ⟨true, 0, 0, [0]⟩
def alice : Proc := ⟨false, 1000, 60, [60, 50]⟩
def bob : Proc := ⟨false, 1001, 61, [61, 50]⟩

/-- Owner and others. -/
def rw_ : Perm := ⟨true, true, false, false, false, false⟩
def rwrw : Perm := ⟨true, true, true, true, false, false⟩

/-- A module installed by alice for the group. -/
def installed : Mod where
  data := fun d => if d = .startup ∨ d = .factory then some ⟨1000, 50, rwrw⟩ else none
  oper := []
  permf := fun _ => ⟨1000, 50, rwrw⟩
  noRunning := false

/-- It meets the hypotheses; bob stores a candidate, alice sets the permissions before, forbidden bits and other groups are
ignored. -/
example : Installed installed ∧
    (set env alice (run env installed [.store alice .startup 0]) .candidate none (some 7) ⟨⟨true, true, true, false, false, true⟩, false, false⟩).1 = .ok ∧
    get (run env installed [.store alice .startup 0,
      .set alice .candidate none (some 7) ⟨⟨true, true, true, false, false, true⟩, false, false⟩, .store bob .candidate 0]) .candidate =
      some ⟨1000, 50, ⟨true, true, true, false, false, false⟩⟩ := by
  refine ⟨⟨rfl, rfl⟩, by decide, by decide⟩

/-! ### Data -/

theorem chmodAll_ok {e : Env} {p : Proc} {o g : Option Nat} {a : Arg} : ∀ (l : List (Nat × Attr)), (chmodAll e p o g a l).1 = .ok →
    ∀ i f, (i, f) ∈ (chmodAll e p o g a l).2 → ∃ f0, (i, f0) ∈ l ∧ (chmodown e p f0 o g a).1 = .ok ∧ f = (chmodown e p f0 o g a).2 := by
  intro l
  induction l with
  | nil => intro _ i f h; cases h
  | cons x t ih =>
    obtain ⟨j, b⟩ := x
    intro h i f hf
    simp only [chmodAll] at h hf
    generalize hq : chmodown e p b o g a = q at h hf
    obtain ⟨r, b'⟩ := q
    cases r with
    | ok =>
      simp only at h hf
      rcases List.mem_cons.1 hf with hf | hf
      · cases hf
        exact ⟨b, List.mem_cons_self, by rw [hq], by rw [hq]⟩
      · obtain ⟨f0, h1, h2⟩ := ih h i f hf
        exact ⟨f0, List.mem_cons_of_mem _ h1, h2⟩
    | _ => cases h

/-- The files after a successful change come from those before. -/
theorem accessSet_files {e : Env} {p : Proc} {m : Mod} {d : Ds} {o g : Option Nat} {a : Arg} (h : (accessSet e p m d o g a).1 = .ok)
    {f : Attr} (hf : Holds (accessSet e p m d o g a).2 d f) :
    ∃ f0, Holds m d f0 ∧ (chmodown e p f0 o g a).1 = .ok ∧ f = (chmodown e p f0 o g a).2 := by
  cases d with
  | operational =>
    simp only [accessSet] at h hf
    by_cases hr : (chmodAll e p o g a m.oper).1 = .ok
    · rw [if_pos hr] at hf
      obtain ⟨i, hf⟩ := hf
      obtain ⟨f0, h1, h2⟩ := chmodAll_ok m.oper hr i f hf
      exact ⟨f0, ⟨i, h1⟩, h2⟩
    · rw [if_neg hr] at h; exact absurd h hr
  | startup =>
    simp only [accessSet] at h hf
    cases hd : m.data .startup with
    | none => rw [hd] at h; cases h
    | some f0 =>
      rw [hd] at h hf
      simp only [Holds, Mod.putData, if_true, Option.some.injEq] at hf
      exact ⟨f0, hd, h, hf.symm⟩
  | factory =>
    simp only [accessSet] at h hf
    cases hd : m.data .factory with
    | none => rw [hd] at h; cases h
    | some f0 =>
      rw [hd] at h hf
      simp only [Holds, Mod.putData, if_true, Option.some.injEq] at hf
      exact ⟨f0, hd, h, hf.symm⟩
  | running =>
    simp only [accessSet] at h hf
    cases hd : m.data .running with
    | none =>
      rw [hd] at hf
      simp only [Holds, setPermFile, Mod.putPerm, hd] at hf
      cases hf
    | some f0 =>
      rw [hd] at h hf
      simp only at h hf
      by_cases hr : (chmodown e p f0 o g a).1 = .ok
      · rw [if_pos hr] at hf
        simp only [Holds, setPermFile, Mod.putPerm, Mod.putData, if_true, Option.some.injEq] at hf
        exact ⟨f0, hd, hr, hf.symm⟩
      · rw [if_neg hr] at h; exact absurd h hr
  | candidate =>
    simp only [accessSet] at h hf
    cases hd : m.data .candidate with
    | none =>
      rw [hd] at hf
      simp only [Holds, setPermFile, Mod.putPerm, hd] at hf
      cases hf
    | some f0 =>
      rw [hd] at h hf
      simp only at h hf
      by_cases hr : (chmodown e p f0 o g a).1 = .ok
      · rw [if_pos hr] at hf
        simp only [Holds, setPermFile, Mod.putPerm, Mod.putData, if_true, Option.some.injEq] at hf
        exact ⟨f0, hd, hr, hf.symm⟩
      · rw [if_neg hr] at h; exact absurd h hr

/-- C127: a successful call changes all the existing data files of the datastore as requested. -/
theorem set_effective {e : Env} {p : Proc} {m : Mod} {d : Ds} {o g : Option Nat} {a : Arg} (h : (set e p m d o g a).1 = .ok)
    {f : Attr} (hf : Holds (set e p m d o g a).2 (target m d) f) :
    ∃ f0, Holds m (target m d) f0 ∧ Wanted e o g a f0 f := by
  unfold set at h hf
  split at h
  · cases h
  · next h1 =>
    rw [if_neg h1] at hf
    split at h
    · next h2 => rw [if_pos h2] at hf; exact ⟨f, hf, wanted_nothing h2 f⟩
    · next h2 =>
      rw [if_neg h2] at hf
      obtain ⟨f0, h3, h4, h5⟩ := accessSet_files h hf
      exact ⟨f0, h3, by rw [h5]; exact chmodown_wanted h4⟩

/-- A candidate that exists is changed. -/
example : (set env root (run env installed [.store bob .candidate 0]) .candidate (some 1000) none ⟨rw_, false, false⟩).1 = .ok ∧
    Holds (set env root (run env installed [.store bob .candidate 0]) .candidate (some 1000) none ⟨rw_, false, false⟩).2 .candidate ⟨1000, 50, rw_⟩ := by
  refine ⟨by decide, ?_⟩
  simp only [Holds]; decide

/-- The processes are in the group of sysrepo. -/
def member (G : Nat) (p : Proc) : Prop := p.root = true ∨ G ∈ p.gids

/-- The calls are made by members of the group and access is set successfully. -/
def Regular (e : Env) (G : Nat) : Mod → List Op → Prop
  | _, [] => True
  | m, .set p d o g a :: t => (set e p m d o g a).1 = .ok ∧ Regular e G (set e p m d o g a).2 t
  | m, .store p d sid :: t => member G p ∧ Regular e G (step e m (.store p d sid)).2 t
  | m, .init p :: t => member G p ∧ Regular e G (step e m (.init p)).2 t
  | m, op :: t => Regular e G (step e m op).2 t

/-- The data files have the group and the permissions of the datastore. -/
def Sync (e : Env) (G : Nat) (m : Mod) : Prop :=
  (∀ d f, Holds m d f → d ≠ .startup → d ≠ .factory → f.gid = G ∧ f.perm = (m.permf d).perm) ∧
  ∀ d, (m.permf d).gid = G ∧ (m.permf d).perm.mask e.umask = (m.permf d).perm

theorem mask_mask (p u : Perm) : (p.mask u).mask u = p.mask u := by
  simp [Perm.mask, Bool.and_assoc]

theorem useGroup_gid {e : Env} {s G : Nat} (hs : e.srGroup = some s) (hG : e.gidOf s = some G) (g : Option Nat) (x : Nat) (hx : x = G) :
    (((useGroup e g).bind e.gidOf).getD x) = G := by
  unfold useGroup
  rw [hs]
  simp only
  split
  · next h => rw [h]; simp [hG]
  · simp [hx]

theorem sync_chmodown {e : Env} {s G : Nat} (hs : e.srGroup = some s) (hG : e.gidOf s = some G) {p : Proc} {f a : Attr} {o g : Option Nat}
    {m : Arg} (hf : (chmodown e p f o (useGroup e g) (useArg e m)).1 = .ok) (ha : (chmodown e p a o (useGroup e g) (useArg e m)).1 = .ok)
    (hg : f.gid = G) (hp : f.perm = a.perm) :
    (chmodown e p f o (useGroup e g) (useArg e m)).2.gid = G ∧
    (chmodown e p f o (useGroup e g) (useArg e m)).2.perm = (chmodown e p a o (useGroup e g) (useArg e m)).2.perm := by
  rw [(chmodown_ok hf).2.2.2.2, (chmodown_ok ha).2.2.2.2]
  exact ⟨useGroup_gid hs hG g _ hg, by simp only [hp]⟩

theorem sync_perm {e : Env} {s G : Nat} (hs : e.srGroup = some s) (hG : e.gidOf s = some G) {p : Proc} {a : Attr} {o g : Option Nat}
    {m : Arg} (ha : (chmodown e p a o (useGroup e g) (useArg e m)).1 = .ok)
    (h : a.gid = G ∧ a.perm.mask e.umask = a.perm) :
    (chmodown e p a o (useGroup e g) (useArg e m)).2.gid = G ∧
    (chmodown e p a o (useGroup e g) (useArg e m)).2.perm.mask e.umask = (chmodown e p a o (useGroup e g) (useArg e m)).2.perm := by
  rw [(chmodown_ok ha).2.2.2.2]
  refine ⟨useGroup_gid hs hG g _ h.1, ?_⟩
  simp only
  split
  · exact h.2
  · exact mask_mask _ _

theorem accessSet_permf {e : Env} {p : Proc} {m : Mod} {d : Ds} {o g : Option Nat} {a : Arg} (h : (accessSet e p m d o g a).1 = .ok)
    (hd : d ≠ .startup) (hd' : d ≠ .factory) :
    (chmodown e p (m.permf d) o g a).1 = .ok ∧
    ∀ x, (accessSet e p m d o g a).2.permf x = if x = d then (chmodown e p (m.permf d) o g a).2 else m.permf x := by
  have hv : ∀ d, (d = .running ∨ d = .candidate) → (accessSet e p m d o g a).1 = .ok → (chmodown e p (m.permf d) o g a).1 = .ok ∧
      ∀ x, (accessSet e p m d o g a).2.permf x = if x = d then (chmodown e p (m.permf d) o g a).2 else m.permf x := by
    intro d hdd h
    cases hf : m.data d with
    | none =>
      have : accessSet e p m d o g a = setPermFile e p m d o g a := by
        rcases hdd with rfl | rfl <;> simp only [accessSet, hf]
      rw [this] at h ⊢; exact ⟨h, fun _ => rfl⟩
    | some f =>
      by_cases hr : (chmodown e p f o g a).1 = .ok
      · have : accessSet e p m d o g a = setPermFile e p (m.putData d (chmodown e p f o g a).2) d o g a := by
          rcases hdd with rfl | rfl <;> simp only [accessSet, hf, hr, if_true]
        rw [this] at h ⊢; exact ⟨h, fun _ => rfl⟩
      · have : accessSet e p m d o g a = ((chmodown e p f o g a).1, m.putData d (chmodown e p f o g a).2) := by
          rcases hdd with rfl | rfl <;> simp only [accessSet, hf, hr, if_false]
        rw [this] at h; exact absurd h hr
  cases d with
  | startup => exact absurd rfl hd
  | factory => exact absurd rfl hd'
  | running => exact hv _ (Or.inl rfl) h
  | candidate => exact hv _ (Or.inr rfl) h
  | operational =>
    simp only [accessSet] at h ⊢
    by_cases hr : (chmodAll e p o g a m.oper).1 = .ok
    · rw [if_pos hr] at h ⊢; exact ⟨h, fun _ => rfl⟩
    · rw [if_neg hr] at h; exact absurd h hr

theorem accessSet_frame {e : Env} {p : Proc} {m : Mod} {d d' : Ds} {o g : Option Nat} {a : Arg} (hne : d' ≠ d) (f : Attr) :
    Holds (accessSet e p m d o g a).2 d' f ↔ Holds m d' f := by
  have hput : ∀ x b, Holds (m.putData x b) d' f ↔ (if d' = x ∧ d' ≠ .operational then b = f else Holds m d' f) := by
    intro x b
    by_cases hx : d' = x
    · subst hx
      cases d' <;> simp [Holds, Mod.putData]
    · cases d' <;> simp_all [Holds, Mod.putData]
  have hperm : ∀ (m' : Mod) x b, Holds (m'.putPerm x b) d' f ↔ Holds m' d' f := by
    intro m' x b; cases d' <;> simp [Holds, Mod.putPerm]
  cases d with
  | operational =>
    simp only [accessSet]
    split <;> (cases d' <;> first | exact absurd rfl hne | exact Iff.rfl)
  | startup =>
    simp only [accessSet]
    split
    · exact Iff.rfl
    · rw [hput, if_neg (fun h => hne h.1)]
  | factory =>
    simp only [accessSet]
    split
    · exact Iff.rfl
    · rw [hput, if_neg (fun h => hne h.1)]
  | running =>
    simp only [accessSet]
    split
    · simp only [setPermFile, hperm]
    · split
      · simp only [setPermFile, hperm, hput]; rw [if_neg (fun h => hne h.1)]
      · rw [hput, if_neg (fun h => hne h.1)]
  | candidate =>
    simp only [accessSet]
    split
    · simp only [setPermFile, hperm]
    · split
      · simp only [setPermFile, hperm, hput]; rw [if_neg (fun h => hne h.1)]
      · rw [hput, if_neg (fun h => hne h.1)]

theorem accessSet_permf_persistent {e : Env} {p : Proc} {m : Mod} {d : Ds} {o g : Option Nat} {a : Arg}
    (hd : d = .startup ∨ d = .factory) : (accessSet e p m d o g a).2.permf = m.permf := by
  rcases hd with rfl | rfl <;> (simp only [accessSet]; split <;> rfl)

theorem sync_set {e : Env} {s G : Nat} (hs : e.srGroup = some s) (hG : e.gidOf s = some G) {p : Proc} {m : Mod} {d : Ds}
    {o g : Option Nat} {a : Arg} (h : (set e p m d o g a).1 = .ok) (hsy : Sync e G m) : Sync e G (set e p m d o g a).2 := by
  unfold set at h ⊢
  split at h
  · cases h
  · next h1 =>
    rw [if_neg h1]
    split at h
    · next h2 => rw [if_pos h2]; exact hsy
    · next h2 =>
      rw [if_neg h2]
      generalize target m d = d at h ⊢
      by_cases hper : d = .startup ∨ d = .factory
      · have hpf := accessSet_permf_persistent (e := e) (p := p) (m := m) (o := o) (g := useGroup e g) (a := useArg e a) hper
        refine ⟨fun d' f hf h3 h4 => ?_, fun d' => by rw [hpf]; exact hsy.2 d'⟩
        rw [hpf]
        have hne : d' ≠ d := by rcases hper with rfl | rfl; exact h3; exact h4
        exact hsy.1 d' f ((accessSet_frame hne f).1 hf) h3 h4
      · have hd1 : d ≠ .startup := fun x => hper (Or.inl x)
        have hd2 : d ≠ .factory := fun x => hper (Or.inr x)
        obtain ⟨h3, h4⟩ := accessSet_permf h hd1 hd2
        refine ⟨fun d' f hf h5 h6 => ?_, fun d' => ?_⟩
        · rw [h4]
          by_cases he : d' = d
          · subst he
            rw [if_pos rfl]
            obtain ⟨f0, h7, h8, h9⟩ := accessSet_files h hf
            obtain ⟨h10, h11⟩ := hsy.1 d' f0 h7 h5 h6
            rw [h9]
            exact sync_chmodown hs hG h8 h3 h10 h11
          · rw [if_neg he]
            exact hsy.1 d' f ((accessSet_frame he f).1 hf) h5 h6
        · rw [h4]
          by_cases he : d' = d
          · rw [if_pos he]; exact sync_perm hs hG h3 (hsy.2 d)
          · rw [if_neg he]; exact hsy.2 d'

theorem mk_member {e : Env} {s G : Nat} (hs : e.srGroup = some s) (hG : e.gidOf s = some G) {p : Proc} (hp : member G p) (q : Perm) :
    mk e p q = (true, ⟨p.uid, G, q.mask e.umask⟩) := by
  unfold mk
  rw [hs]
  simp only [hG]
  have : chownOk p ⟨p.uid, p.gid, q.mask e.umask⟩ none (some G) = true := by
    unfold chownOk
    rcases hp with hp | hp
    · simp [hp]
    · simp [hp]
  rw [if_pos this]

theorem sync_step {e : Env} {s G : Nat} (hs : e.srGroup = some s) (hG : e.gidOf s = some G) {m : Mod} (hsy : Sync e G m) :
    (∀ p d sid, member G p → Sync e G (step e m (.store p d sid)).2) ∧ (∀ p, member G p → Sync e G (step e m (.init p)).2) ∧
    Sync e G (step e m .reset).2 ∧ ∀ sid, Sync e G (step e m (.drop sid)).2 := by
  have hput : ∀ d b, b.gid = G → b.perm = (m.permf d).perm → Sync e G (m.putData d b) := by
    intro d b h1 h2
    refine ⟨fun d' f hf h3 h4 => ?_, hsy.2⟩
    by_cases he : d' = d
    · subst he
      cases d' with
      | operational => exact hsy.1 .operational f hf h3 h4
      | _ =>
        simp only [Holds, Mod.putData, if_true, Option.some.injEq] at hf
        subst hf
        exact ⟨h1, h2⟩
    · refine hsy.1 d' f ?_ h3 h4
      cases d' <;> simp_all [Holds, Mod.putData]
  refine ⟨?_, ?_, ?_, ?_⟩
  · intro p d sid hp
    have hmk := mk_member hs hG hp
    have hopen : ∀ d, d = .running ∨ d = .candidate → Sync e G (m.putData d (openFile e p (m.data d) (m.permf d).perm).2) := by
      intro d hd
      cases hdd : m.data d with
      | none =>
        simp only [openFile, hmk]
        exact hput d _ rfl (hsy.2 d).2
      | some f =>
        simp only [openFile]
        have := hsy.1 d f (by rcases hd with rfl | rfl <;> exact hdd) (by rcases hd with rfl | rfl <;> simp) (by rcases hd with rfl | rfl <;> simp)
        exact hput d f this.1 this.2
    cases d with
    | startup => simp only [step, store]; split <;> exact hsy
    | factory => simp only [step, store]; split <;> exact hsy
    | running => exact hopen _ (Or.inl rfl)
    | candidate => exact hopen _ (Or.inr rfl)
    | operational =>
      simp only [step, store]
      split
      · exact hsy
      · simp only [openFile, hmk]
        refine ⟨fun d' f hf h3 h4 => ?_, hsy.2⟩
        cases d' with
        | operational =>
          obtain ⟨i, hf⟩ := hf
          rcases List.mem_append.1 hf with hf | hf
          · exact hsy.1 .operational f ⟨i, hf⟩ h3 h4
          · simp only [List.mem_singleton, Prod.mk.injEq] at hf
            rw [hf.2]
            exact ⟨rfl, (hsy.2 .operational).2⟩
        | _ => exact hsy.1 _ f hf h3 h4
  · intro p hp
    have hmk := mk_member hs hG hp
    simp only [step, init]
    split
    · exact hsy
    · rw [hmk]
      simp only [Bool.not_true, Bool.false_eq_true, if_false]
      split
      · exact hput .running _ (hsy.2 .running).1 (hsy.2 .running).2
      · exact hput .running _ rfl (hsy.2 .running).2
  · refine ⟨fun d f hf h3 h4 => ?_, hsy.2⟩
    cases d with
    | candidate => simp [step, Holds] at hf
    | running => exact hsy.1 .running f (by simpa [step, Holds] using hf) h3 h4
    | operational => exact hsy.1 .operational f hf h3 h4
    | startup => exact absurd rfl h3
    | factory => exact absurd rfl h4
  · intro sid
    refine ⟨fun d f hf h3 h4 => ?_, hsy.2⟩
    cases d with
    | operational =>
      obtain ⟨i, hf⟩ := hf
      exact hsy.1 .operational f ⟨i, (List.mem_filter.1 hf).1⟩ h3 h4
    | _ => exact hsy.1 _ f hf h3 h4

theorem sync_run {e : Env} {s G : Nat} (hs : e.srGroup = some s) (hG : e.gidOf s = some G) (ops : List Op) :
    ∀ {m : Mod}, Sync e G m → Regular e G m ops → Sync e G (run e m ops) := by
  induction ops with
  | nil => intro m h _; exact h
  | cons op t ih =>
    intro m h hr
    obtain ⟨h1, h2, h3, h4⟩ := sync_step hs hG h
    cases op with
    | set p d o g a => exact ih (sync_set hs hG hr.1 h) hr.2
    | store p d sid => exact ih (h1 p d sid hr.1) hr.2
    | init p => exact ih (h2 p hr.1) hr.2
    | reset => exact ih h3 hr
    | drop sid => exact ih (h4 sid) hr

/-- C127 for all histories of calls by members of the group of sysrepo in which access is set successfully, for root and for
processes of neither the owner of the datastore, nor the owner of the data file: the access the check reports is the access to
every data file. -/
theorem data_access_partial {e : Env} {s G : Nat} (hs : e.srGroup = some s) (hG : e.gidOf s = some G) {m : Mod} (hsy : Sync e G m)
    (ops : List Op) (hr : Regular e G m ops) (p : Proc) (d : Ds) (f : Attr)
    (hf : Holds (run e m ops) (target (run e m ops) d) f) (a : Attr) (ha : get (run e m ops) d = some a)
    (hp : p.root = true ∨ (p.uid ≠ a.uid ∧ p.uid ≠ f.uid)) :
    check p (run e m ops) d = some (canRead p f, canWrite p f) := by
  have h := sync_run hs hG ops hsy hr
  generalize run e m ops = m' at *
  have key : f.gid = a.gid ∧ f.perm = a.perm := by
    unfold get at ha
    generalize target m' d = d' at *
    cases d' with
    | startup => simp only [Holds, accessGet] at hf ha; rw [hf] at ha; cases ha; exact ⟨rfl, rfl⟩
    | factory => simp only [Holds, accessGet] at hf ha; rw [hf] at ha; cases ha; exact ⟨rfl, rfl⟩
    | _ =>
      obtain ⟨h1, h2⟩ := h.1 _ f hf (by simp) (by simp)
      simp only [accessGet, Option.some.injEq] at ha
      subst ha
      exact ⟨h1.trans (h.2 _).1.symm, h2⟩
  unfold check
  rw [ha]
  simp only [Option.map_some, Option.some.injEq, Prod.mk.injEq]
  rcases hp with hp | ⟨h1, h2⟩
  · simp [canRead, canWrite, hp]
  · simp only [canRead, canWrite, if_neg h1, if_neg h2, key.1, key.2]
    exact ⟨trivial, trivial⟩

/-- The installed module meets the hypotheses, with a history. -/
example : Sync env 50 installed ∧ Regular env 50 installed [.init root, .store bob .candidate 0,
    .set root .candidate none none ⟨rw_, false, false⟩, .store alice .operational 3, .reset] := by
  refine ⟨⟨fun d f hf h1 h2 => ?_, fun d => ⟨rfl, rfl⟩⟩, ?_⟩
  · cases d <;> simp [Holds, installed] at hf h1 h2
  · simp only [Regular]
    refine ⟨Or.inl rfl, Or.inr (by decide), by decide, Or.inr (by decide), trivial⟩

/-- C127 fails for owners: a data file belongs to who created it. Here bob stores the candidate of a datastore only its owner
alice has access to: the check grants her access to data she cannot read. -/
theorem owner_cannot_read : ∃ ops, Regular env 50 installed ops ∧ get (run env installed ops) .candidate = some ⟨1000, 50, rw_⟩ ∧
    check alice (run env installed ops) .candidate = some (true, true) ∧
    ∃ f, Holds (run env installed ops) .candidate f ∧ canRead alice f = false := by
  refine ⟨[.set alice .candidate none none ⟨rw_, false, false⟩, .store root .candidate 0], ?_, by decide, by decide,
    ⟨0, 50, rw_⟩, ?_, by decide⟩
  · simp only [Regular]; exact ⟨by decide, Or.inl rfl, trivial⟩
  · simp only [Holds]; decide

/-- C127 fails for owners: the owner of the datastore may not set its permissions then. -/
theorem owner_cannot_set : ∃ ops, Regular env 50 installed ops ∧ (get (run env installed ops) .candidate).map (·.uid) = some 1000 ∧
    (set env alice (run env installed ops) .candidate none none ⟨rwrw, false, false⟩).1 = .unauthorized := by
  refine ⟨[.store bob .candidate 0], ?_, by decide, by decide⟩
  simp only [Regular]; exact ⟨Or.inr (by decide), trivial⟩

/-- C127 fails when an error is returned: some of the data files were changed already, so their access is not that of the
datastore. -/
theorem failed_set_changes : ∃ ops, Regular env 50 installed ops ∧
    (set env alice (run env installed ops) .operational none none ⟨rw_, false, false⟩).1 = .unauthorized ∧
    check bob (set env alice (run env installed ops) .operational none none ⟨rw_, false, false⟩).2 .operational = some (true, true) ∧
    ∃ f, Holds (set env alice (run env installed ops) .operational none none ⟨rw_, false, false⟩).2 .operational f ∧
      canRead bob f = false := by
  refine ⟨[.store alice .operational 1, .store bob .operational 2], ?_, by decide, by decide, ⟨1000, 50, rw_⟩, ⟨1, ?_⟩, by decide⟩
  · simp only [Regular]; exact ⟨Or.inr (by decide), Or.inr (by decide), trivial⟩
  · decide

/-- The same for all the modules at once: the access to those before the first refused one was changed. -/
theorem half_of_modules : ∃ ms, (setAll env alice .startup none none ⟨rw_, false, false⟩ ms).1 = .unauthorized ∧
    ms.map (fun m => get m .startup) = [some ⟨1000, 50, rwrw⟩, some ⟨1001, 50, rwrw⟩] ∧
    (setAll env alice .startup none none ⟨rw_, false, false⟩ ms).2.map (fun m => get m .startup) = [some ⟨1000, 50, rw_⟩, some ⟨1001, 50, rwrw⟩] :=
  ⟨[installed, { installed with data := fun d => if d = .startup ∨ d = .factory then some ⟨1001, 50, rwrw⟩ else none }],
    by decide, by decide, by decide⟩

/-- C126 for all the modules at once: what is returned is what is returned for each of them, up to the first error. -/
theorem set_all_exact (e : Env) (p : Proc) (d : Ds) (o g : Option Nat) (a : Arg) (ms : List Mod) :
    ((setAll e p d o g a ms).1 = .ok ↔ ∀ m ∈ ms, (set e p m d o g a).1 = .ok) ∧
    ((setAll e p d o g a ms).1 = .ok → (setAll e p d o g a ms).2 = ms.map (fun m => (set e p m d o g a).2)) := by
  induction ms with
  | nil => simp [setAll]
  | cons m t ih =>
    simp only [setAll]
    generalize hq : set e p m d o g a = q
    obtain ⟨r, m'⟩ := q
    cases r with
    | ok =>
      simp only [List.mem_cons, forall_eq_or_imp, hq, true_and, List.map_cons]
      exact ⟨ih.1, fun h => by rw [ih.2 h]⟩
    | _ => simp [hq]

/-- Two modules. -/
example : (setAll env alice .running none none ⟨rw_, false, false⟩ [installed, { installed with noRunning := true }]).1 = .ok := by decide

/-! ### Notifications -/

theorem findStep_or (c : Nat × Nat) (f : NtfJson.File) : NtfJson.findStep 1 1 c f = c ∨
    (NtfJson.findStep 1 1 c f = (f.lo, f.hi) ∧ f.lo ≠ 0 ∧ f.hi ≠ 0) := by
  unfold NtfJson.findStep
  split
  · exact Or.inl rfl
  · rw [if_pos (by decide)]
    split
    · exact Or.inl rfl
    · split
      · exact Or.inl rfl
      · exact Or.inr ⟨rfl, by omega, by omega⟩

theorem find_keeps (l : List NtfJson.File) (c : Nat × Nat) (hc : c.1 ≠ 0 ∧ c.2 ≠ 0) (all : List NtfJson.File)
    (hm : ∃ f ∈ all, c = (f.lo, f.hi)) (hl : ∀ f ∈ l, f ∈ all) :
    (l.foldl (NtfJson.findStep 1 1) c).1 ≠ 0 ∧ (l.foldl (NtfJson.findStep 1 1) c).2 ≠ 0 ∧
    ∃ f ∈ all, l.foldl (NtfJson.findStep 1 1) c = (f.lo, f.hi) := by
  induction l generalizing c with
  | nil => exact ⟨hc.1, hc.2, hm⟩
  | cons f l ih =>
    rw [List.foldl_cons]
    have hl' : ∀ f ∈ l, f ∈ all := fun g hg => hl g (List.mem_cons_of_mem _ hg)
    rcases findStep_or c f with h | ⟨h, h1, h2⟩
    · rw [h]; exact ih c hc hm hl'
    · rw [h]; exact ih _ ⟨h1, h2⟩ ⟨f, hl f List.mem_cons_self, rfl⟩ hl'

theorem find_some (l : List NtfJson.File) (h : ∃ f ∈ l, 1 ≤ f.lo ∧ f.lo ≤ f.hi ∧ 1 < f.hi) (all : List NtfJson.File) (hl : ∀ f ∈ l, f ∈ all) :
    (NtfJson.findFile l 1 1).1 ≠ 0 ∧ (NtfJson.findFile l 1 1).2 ≠ 0 ∧ ∃ f ∈ all, NtfJson.findFile l 1 1 = (f.lo, f.hi) := by
  unfold NtfJson.findFile
  induction l with
  | nil => obtain ⟨f, hf, _⟩ := h; cases hf
  | cons f l ih =>
    rw [List.foldl_cons]
    have hl' : ∀ f ∈ l, f ∈ all := fun g hg => hl g (List.mem_cons_of_mem _ hg)
    have hstep : NtfJson.findStep 1 1 (0, 0) f = (0, 0) ∧ ¬(1 ≤ f.lo ∧ f.lo ≤ f.hi ∧ 1 < f.hi) ∨
        NtfJson.findStep 1 1 (0, 0) f = (f.lo, f.hi) ∧ f.lo ≠ 0 ∧ f.hi ≠ 0 := by
      unfold NtfJson.findStep
      split
      · left; exact ⟨rfl, by omega⟩
      · rw [if_pos (by decide)]
        split
        · left; exact ⟨rfl, by omega⟩
        · right
          rw [if_neg (by simp)]
          exact ⟨rfl, by omega, by omega⟩
    rcases hstep with ⟨h1, h2⟩ | ⟨h1, h2⟩
    · rw [h1]
      refine ih ?_ hl'
      obtain ⟨g, hg, hg'⟩ := h
      rcases List.mem_cons.1 hg with rfl | hg
      · exact absurd hg' h2
      · exact ⟨g, hg, hg'⟩
    · rw [h1]
      exact find_keeps l _ h2 all ⟨f, hl f List.mem_cons_self, rfl⟩ hl'

/-- C128 fails: setting the access to notifications never returns when there are any, the loop always goes on with the first
file. -/
theorem ntf_set_never_returns {e : Env} {p : Proc} (hroot : p.root = true) {o g : Option Nat} {m : Arg}
    (ho : ∀ n, o = some n → (e.uidOf n).isSome) (hg : ∀ n, g = some n → (e.gidOf n).isSome) (hm : m.exec = false ∧ m.high = false)
    (fs : List NtfFile) (hfs : ∃ f ∈ fs, 1 ≤ f.file.lo ∧ f.file.lo ≤ f.file.hi ∧ 1 < f.file.hi) (n : Nat) :
    ntfSet e p o g m n fs = none := by
  have hch : ∀ a, (chmodown e p a o g m).1 = .ok := by
    intro a
    unfold chmodown
    rw [if_neg (by simp [hm.1, hm.2])]
    have h1 : (o.isSome && (o.bind e.uidOf).isNone) = false := by
      cases o with
      | none => rfl
      | some n => have := ho n rfl; simp [Option.isSome_iff_ne_none] at this ⊢; exact this
    have h2 : (g.isSome && (g.bind e.gidOf).isNone) = false := by
      cases g with
      | none => rfl
      | some n => have := hg n rfl; simp [Option.isSome_iff_ne_none] at this ⊢; exact this
    rw [h1, h2]
    simp only [Bool.false_eq_true, if_false]
    rw [if_neg (by simp [chownOk, hroot])]
    split
    · rfl
    · rw [if_neg (by simp [chmodOk, hroot])]
  obtain ⟨h1, h2, f, hf, h3⟩ := find_some (fs.map (·.file)) (by
    obtain ⟨f, hf, h⟩ := hfs
    exact ⟨f.file, List.mem_map.2 ⟨f, hf, rfl⟩, h⟩) (fs.map (·.file)) (fun _ h => h)
  unfold ntfSet
  generalize NtfJson.findFile (fs.map (·.file)) 1 1 = cur at h1 h2 h3
  have hex : (cur.1, cur.2) ∈ fs.map (fun f => (f.file.lo, f.file.hi)) := by
    obtain ⟨x, hx, rfl⟩ := List.mem_map.1 hf
    exact List.mem_map.2 ⟨x, hx, h3.symm⟩
  clear hf h3 hfs
  induction n generalizing fs with
  | zero => rfl
  | succ n ih =>
    have hfind : ∃ f, fs.find? (fun f => f.file.lo == cur.1 && f.file.hi == cur.2) = some f := by
      obtain ⟨x, hx, hx'⟩ := List.mem_map.1 hex
      cases hq : fs.find? (fun f => f.file.lo == cur.1 && f.file.hi == cur.2) with
      | some f => exact ⟨f, rfl⟩
      | none =>
        have := List.find?_eq_none.1 hq x hx
        simp only [Prod.mk.injEq] at hx'
        simp [hx'.1, hx'.2] at this
    obtain ⟨f, hf⟩ := hfind
    simp only [ntfLoop, ntfIter]
    rw [if_neg (by simp [h1, h2]), hf]
    simp only [hch]
    apply ih
    rw [List.map_map]
    have : ((fun f : NtfFile => (f.file.lo, f.file.hi)) ∘ fun x => if (x.file.lo == cur.1 && x.file.hi == cur.2) = true then
        { x with attr := (chmodown e p f.attr o g m).2 } else x) = fun f => (f.file.lo, f.file.hi) := by
      funext x
      simp only [Function.comp]
      split <;> rfl
    rw [this]; exact hex

/-- One file is enough. -/
example : ∃ f ∈ [(⟨⟨100, 200, [], 1⟩, ⟨1000, 50, rw_⟩⟩ : NtfFile)], 1 ≤ f.file.lo ∧ f.file.lo ≤ f.file.hi ∧ 1 < f.file.hi := by
  refine ⟨_, List.mem_singleton.2 rfl, ?_⟩; decide

/-- C128 without notifications: the call returns. -/
theorem ntf_set_returns_partial (e : Env) (p : Proc) (o g : Option Nat) (m : Arg) (n : Nat) :
    ntfSet e p o g m (n + 1) [] = some (.ok, []) := rfl

/-- C128 fails: whatever the access was, a new file of notifications can be accessed by its creator only. -/
theorem ntf_new_file_default (e : Env) (p q : Proc) (hq : q.root = false) (hu : q.uid ≠ p.uid) :
    canRead q (ntfNew e p).2 = false ∧ canWrite q (ntfNew e p).2 = false := by
  have h : (ntfNew e p).2.uid = p.uid ∧ (ntfNew e p).2.perm = ntfPerm.mask e.umask := by
    unfold ntfNew mk
    dsimp only
    split
    · exact ⟨rfl, rfl⟩
    · split
      · exact ⟨rfl, rfl⟩
      · split <;> exact ⟨rfl, rfl⟩
  have hne : q.uid ≠ (ntfNew e p).2.uid := by rw [h.1]; exact hu
  simp [canRead, canWrite, hq, hne, h.2, ntfPerm, Perm.mask]

/-- Bob and a file of alice. -/
example : bob.root = false ∧ bob.uid ≠ alice.uid := by decide

end Verif.Access
