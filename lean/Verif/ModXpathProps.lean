import Verif.ModXpath

/-!
# Changing the XPath of a subscription (properties, C132)
-/

namespace Verif.ModXpath

/-! ## Helper lemmas -/

theorem find_upd (st : List Sub) (id i : Nat) (f : Sub → Sub) (hf : ∀ s, (f s).id = s.id) :
    find (upd st id f) i = if id = i then (find st i).map f else find st i := by
  unfold find upd
  induction st with
  | nil => simp
  | cons s st ih => grind

theorem find_subscribe (st : List Sub) (id i : Nat) (o : Bool) (x : Option Nat)
    (h : find st id = none) :
    find (subscribe st id o x) i = if id = i then some ⟨id, o, x, x⟩ else find st i := by
  unfold find subscribe at *
  rw [List.find?_append]
  by_cases hi : id = i
  · subst hi; simp [h]
  · simp [hi]

/-- IDs are unique. -/
def Uniq (st : List Sub) : Prop := (st.map Sub.id).Nodup

theorem uniq_upd {st : List Sub} (id : Nat) (f : Sub → Sub) (hf : ∀ s, (f s).id = s.id)
    (h : Uniq st) : Uniq (upd st id f) := by
  have : (upd st id f).map Sub.id = st.map Sub.id := by
    unfold upd; rw [List.map_map]; congr 1; funext s; grind
  unfold Uniq; rw [this]; exact h

theorem uniq_step {st : List Sub} (c : Call) (h : Uniq st) : Uniq (step st c).2 := by
  cases c with
  | subscribe id o x =>
    unfold step
    by_cases hf : (find st id).isSome
    · simp [hf, h]
    · simp only [hf, Bool.false_eq_true, ↓reduceIte]
      have : find st id = none := by simpa using hf
      unfold Uniq subscribe at *
      rw [List.map_append, List.nodup_append]
      refine ⟨h, by simp, ?_⟩
      unfold find at this
      rw [List.find?_eq_none] at this
      intro a ha b hb
      grind
  | modify id x e =>
    simp only [step, modify]
    split
    · exact h
    · split
      · exact h
      · split
        · exact h
        · split
          · exact uniq_upd id _ (by simp) h
          · split
            · exact uniq_upd id _ (by simp) h
            · exact uniq_upd id _ (by simp) h

theorem find_mem {st : List Sub} (h : Uniq st) (s : Sub) : s ∈ st ↔ find st s.id = some s := by
  constructor
  · intro hm
    unfold find Uniq at *
    induction st with
    | nil => simp at hm
    | cons t st ih =>
      simp only [List.map_cons, List.nodup_cons] at h
      rw [List.find?_cons]
      rcases List.mem_cons.mp hm with rfl | hm
      · simp
      · have : t.id ≠ s.id := fun he => h.1 (he ▸ List.mem_map_of_mem hm)
        rw [show (t.id == s.id) = false by simp [this]]
        exact ih h.2 hm
  · intro hf; exact List.mem_of_find?_eq_some hf

/-- Calls without a failure after the XPath was found valid. -/
def Fine : Call → Prop
  | .subscribe .. => True
  | .modify _ _ e => e.mem = true ∧ e.shmOk = true

/-- The subscriptions are what was asked for, in both copies. -/
def Same (st : List Sub) (h : List (Call × Ret)) : Prop :=
  ∀ i, Asked h i = (find st i).map (fun s => (s.orig, s.loc)) ∧
    ∀ s, find st i = some s → s.shm = s.loc

theorem same_step {st : List Sub} {h : List (Call × Ret)} (c : Call) (hc : Fine c)
    (hs : Same st h) : Same (step st c).2 ((c, (step st c).1) :: h) := by
  cases c with
  | subscribe id o x =>
    unfold step
    by_cases hf : (find st id).isSome
    · simp only [hf, ↓reduceIte]
      intro i; have := hs i; simpa [Asked] using this
    · simp only [hf, Bool.false_eq_true, ↓reduceIte]
      have hn : find st id = none := by simpa using hf
      intro i
      rw [find_subscribe st id i o x hn]
      have := hs i
      by_cases hi : id = i
      · simp [Asked, hi]
      · simpa [Asked, hi] using this
  | modify id x e =>
    obtain ⟨hm, hk⟩ := hc
    intro i
    have hi := hs i
    simp only [step, modify, hm, hk]
    cases hf : find st id with
    | none => simpa [Asked] using hi
    | some s =>
      simp only [Bool.not_true, Bool.and_false, Bool.false_eq_true, ↓reduceIte]
      have key : ∀ s : Sub, ({ s with loc := x, shm := x } : Sub).id = s.id := fun _ => rfl
      by_cases hx : s.loc = x
      · simp only [hx, ↓reduceIte]
        by_cases he : id = i
        · subst he; rw [hf] at hi ⊢
          simp only [Asked, hi.1]
          simp [hx]
          have := hi.2 s rfl
          simp [this, hx]
        · simpa [Asked, he] using hi
      · simp only [hx, ↓reduceIte]
        split
        · simpa [Asked] using hi
        · simp only []
          rw [find_upd st id i _ key]
          by_cases he : id = i
          · subst he; rw [hf] at hi ⊢
            simp [Asked, hi.1]
          · simpa [Asked, he] using hi

theorem same_run (cs : List Call) : ∀ (st : List Sub) (h : List (Call × Ret)),
    (∀ c ∈ cs, Fine c) → Uniq st → Same st h →
    Same (run st cs) (results st cs h) ∧ Uniq (run st cs) := by
  induction cs with
  | nil => intro st h _ hu hs; exact ⟨hs, hu⟩
  | cons c cs ih =>
    intro st h hf hu hs
    exact ih _ _ (fun d hd => hf d (List.mem_cons_of_mem _ hd)) (uniq_step c hu)
      (same_step c (hf c List.mem_cons_self) hs)

/-! ## Properties -/

/-- C132 (partial).  After any sequence of subscribing and changing XPaths, without failures
other than refused XPaths and unknown IDs, and when every subscription filtering in the
originator has an XPath: a change is processed, without a time-out, and when some
subscription is notified of it, callbacks are called for exactly the subscriptions whose XPath
of the last successful call selects something changed; when none is notified, there is no such
subscription.

Full statement: without the two hypotheses; `failed_modify_times_out` and
`orig_without_xpath` show it false. -/
theorem modify_exact_partial (cs : List Call) (hdr : Bool) (c : Change)
    (hf : ∀ d ∈ cs, Fine d)
    (hx : ∀ i, Asked (results [] cs []) i ≠ some (true, none)) :
    (deliver hdr c (run [] cs)).2 = true ∧
    ∀ i, i ∈ (deliver hdr c (run [] cs)).1 ↔
      ∃ o x, Asked (results [] cs []) i = some (o, x) ∧ Wants c x := by
  have hs0 : Same [] [] := fun i => ⟨rfl, by simp [find]⟩
  obtain ⟨hs, hu⟩ := same_run cs [] [] hf (by simp [Uniq]) hs0
  generalize run [] cs = st at *
  generalize results [] cs [] = h at *
  have hloc : ∀ s ∈ st, s.shm = s.loc ∧ (s.orig = true → s.loc ≠ none) := by
    intro s hm
    have hfd := (find_mem hu s).mp hm
    refine ⟨(hs s.id).2 s hfd, fun ho hl => hx s.id ?_⟩
    rw [(hs s.id).1, hfd]; simp [ho, hl]
  have hcr : ∀ s ∈ st, counted hdr c s = reports c s := by
    intro s hm
    obtain ⟨h1, h2⟩ := hloc s hm
    unfold counted reports calls
    rw [h1]
    cases ho : s.orig <;> cases hl : s.loc <;> simp_all
  have hcc : ∀ s ∈ st, calls c s = true → counted hdr c s = true := by
    intro s hm hcl
    rw [hcr s hm]; simp [reports, hcl]
  have hwant : ∀ s : Sub, calls c s = true ↔ Wants c s.loc := by
    intro s; unfold calls Wants; cases s.loc <;> simp
  have hask : ∀ i, (∃ s ∈ st, calls c s = true ∧ s.id = i) ↔
      ∃ o x, Asked h i = some (o, x) ∧ Wants c x := by
    intro i
    constructor
    · rintro ⟨s, hm, hcl, rfl⟩
      refine ⟨s.orig, s.loc, ?_, (hwant s).mp hcl⟩
      rw [(hs s.id).1, (find_mem hu s).mp hm]; rfl
    · rintro ⟨o, x, ha, hw⟩
      rw [(hs i).1] at ha
      cases hfd : find st i with
      | none => simp [hfd] at ha
      | some s =>
        simp only [hfd, Option.map_some, Option.some.injEq, Prod.mk.injEq] at ha
        refine ⟨s, List.mem_of_find?_eq_some hfd, (hwant s).mpr (ha.2 ▸ hw), ?_⟩
        have := List.find?_some hfd; simpa using this
  unfold deliver
  split
  · refine ⟨?_, fun i => ?_⟩
    · simp only [beq_iff_eq]
      exact List.countP_congr (fun s hm => by rw [hcr s hm])
    · rw [← hask i]; simp [and_assoc]
  · rename_i hany
    refine ⟨rfl, fun i => ?_⟩
    rw [← hask i]
    constructor
    · intro hm; simp at hm
    · rintro ⟨s, hm, hcl, _⟩
      exact absurd (List.any_eq_true.mpr ⟨s, hm, hcc s hm hcl⟩) hany

/-- Three subscriptions, one XPath changed, one change refused. -/
def exCalls : List Call :=
  [.subscribe 1 true (some 10), .subscribe 2 false none, .subscribe 3 true (some 10),
   .modify 1 (some 11) ⟨true, true, true⟩, .modify 3 (some 12) ⟨false, true, true⟩]

example : (∀ d ∈ exCalls, Fine d) ∧
    (results [] exCalls []).map Prod.snd = [.inval, .ok, .ok, .ok, .ok] ∧
    deliver false (· == 10) (run [] exCalls) = ([2, 3], true) ∧
    deliver false (· == 11) (run [] exCalls) = ([1, 2], true) := by
  refine ⟨?_, by decide, by decide, by decide⟩
  intro d hd
  simp only [exCalls, List.mem_cons, List.not_mem_nil, or_false] at hd
  rcases hd with rfl | rfl | rfl | rfl | rfl <;> simp [Fine]

/-- C132: calls with an unknown ID or an XPath that is refused change nothing, in any state, and
no call changes another subscription. -/
theorem modify_others (st : List Sub) (id : Nat) (x : Option Nat) (e : Env) :
    ((modify st id x e).1 = .notFound ↔ ∀ s ∈ st, s.id ≠ id) ∧
    ((modify st id x e).1 = .notFound ∨ (modify st id x e).1 = .inval → (modify st id x e).2 = st) ∧
    ∀ i ≠ id, find (modify st id x e).2 i = find st i := by
  have hnf : find st id = none ↔ ∀ s ∈ st, s.id ≠ id := by
    unfold find; rw [List.find?_eq_none]; simp
  unfold modify
  cases hf : find st id with
  | none => simp [← hnf, hf]
  | some s =>
    have hne : ¬ ∀ s ∈ st, s.id ≠ id := by rw [← hnf, hf]; simp
    simp only
    refine ⟨?_, ?_, ?_⟩
    · simp only [hne, iff_false]
      repeat' split
      all_goals simp
    · repeat' split
      all_goals simp
    · intro i hi
      have hi' : id ≠ i := fun h => hi h.symm
      repeat' split
      all_goals first
        | rfl
        | (show find (upd _ _ _) _ = _; rw [find_upd, if_neg hi']; intro s; rfl)

/-- C132: a call that times out on the shared memory has changed what the callback is called for, and
calling it again with the same XPath succeeds without doing anything, whatever
happens in it: the two copies stay different.  Holds for all states. -/
theorem retry_does_nothing (st : List Sub) (id : Nat) (x : Option Nat) (e e' : Env)
    (h : (modify st id x e).1 = .timeOut) :
    modify (modify st id x e).2 id x e' = (.ok, (modify st id x e).2) ∧
    ∃ s s', find st id = some s ∧ find (modify st id x e).2 id = some s' ∧
      s.loc ≠ x ∧ s'.loc = x ∧ s'.shm = s.shm := by
  unfold modify at h
  cases hf : find st id with
  | none => simp [hf] at h
  | some s =>
    have hm : modify st id x e = (.timeOut, upd st id fun s => { s with loc := x }) ∧ s.loc ≠ x := by
      unfold modify
      simp only [hf] at h ⊢
      grind
    have hfd : find (modify st id x e).2 id = some { s with loc := x } := by
      rw [hm.1]; simp only
      rw [find_upd]
      · simp [hf]
      · intro s; rfl
    refine ⟨?_, s, _, rfl, hfd, hm.2, rfl, rfl⟩
    generalize (modify st id x e).2 = st' at hfd ⊢
    simp [modify, hfd]

/-- C132 is false after a failure: the XPath of a subscription filtering in the originator is changed
while the shared memory is locked; the call fails, repeating it succeeds, and then every change
of what the old XPath selects times out, and changes of what the new one selects are
not reported. -/
theorem failed_modify_times_out :
    let cs := [.subscribe 1 true (some 10), .modify 1 (some 11) ⟨true, true, false⟩,
      .modify 1 (some 11) ⟨true, true, true⟩]
    (results [] cs []).map Prod.snd = [.ok, .timeOut, .ok] ∧
    ∀ hdr, deliver hdr (· == 10) (run [] cs) = ([], false) ∧
      deliver hdr (· == 11) (run [] cs) = ([], true) := by
  refine ⟨by decide, fun hdr => ?_⟩
  cases hdr <;> decide

/-- C132 is false for a subscription that filters in the originator without an XPath, subscribed so or
modified so: with no holes in the shared memory (`hdr` false) it is not notified of any change, for all
changes; if another subscription is, the event times out. -/
theorem orig_without_xpath (c : Change) :
    deliver false c (run [] [.subscribe 1 true none]) = ([], true) ∧
    deliver false c (run [] [.subscribe 1 true (some 10), .modify 1 none ⟨true, true, true⟩]) = ([], true) ∧
    (deliver false c (run [] [.subscribe 1 true none, .subscribe 2 false none])).2 = false := by
  refine ⟨?_, ?_, ?_⟩ <;>
    simp [run, step, find, subscribe, modify, upd, deliver, counted, calls, reports]

/-- C132, locks: with the table of the module locked first, as subscribing does, whatever is going on, with any number
of calls, goes on: in every state with an unfinished change or call, one of them or
the listener can make a step. -/
theorem subscribing_never_stuck (s : LS) (h : Unfinished s) : Progress .moduleFirst s := by
  unfold Progress
  by_cases hb : Pc.both ∈ s.calls
  · obtain ⟨i, hi⟩ := List.mem_iff_getElem?.mp hb
    exact .inl ⟨i, .both, hi, rfl⟩
  have hsubs : s.calls.any (holdsSubs .moduleFirst) = false := by
    rw [List.any_eq_false]
    intro p hp
    cases p <;> simp_all [holdsSubs]
  cases hl : s.listening with
  | true => exact .inr (.inr (.inl rfl))
  | false =>
    cases hp : s.pending with
    | true => exact .inr (.inr (.inr ⟨rfl, rfl, hsubs⟩))
    | false =>
      cases hw : s.waiting with
      | true => exact .inr (.inl ⟨rfl, rfl⟩)
      | false =>
        by_cases hfst : Pc.first ∈ s.calls
        · obtain ⟨i, hi⟩ := List.mem_iff_getElem?.mp hfst
          exact .inl ⟨i, .first, hi, by simp [canStep, subsFree, hl, hsubs]⟩
        · obtain ⟨p, hpm, hpd⟩ := h.resolve_left (by simp [hw])
          have hps : p = .start := by cases p <;> simp_all
          subst hps
          obtain ⟨i, hi⟩ := List.mem_iff_getElem?.mp hpm
          refine .inl ⟨i, .start, hi, ?_⟩
          simp only [canStep, tableFree, hw, Bool.not_false, Bool.true_and, Bool.not_eq_true',
            List.any_eq_false]
          intro q hq
          cases q <;> simp_all [holdsTable]

/-- An unfinished change next to a call. -/
example : Reach .moduleFirst idle ⟨true, true, false, [.start]⟩ ∧ Unfinished ⟨true, true, false, [.start]⟩ :=
  ⟨.step (.step (.refl _) (.change _ rfl rfl)) (.call _), .inl rfl⟩

/-- C132, locks: progress is a step of the system. -/
theorem progress_step (o : Order) (s : LS) (h : Progress o s) : ∃ s', Step o s s' := by
  rcases h with ⟨i, p, hi, hc⟩ | ⟨hw, hp⟩ | hl | ⟨hp, hl, hs⟩
  · exact ⟨_, .go s i p hi hc⟩
  · exact ⟨_, .finish s hw hp⟩
  · exact ⟨_, .process s hl⟩
  · exact ⟨_, .listen s hp hl hs⟩

/-- C132, locks: with either order, in every state that can occur, the subscriptions of a module do not change while a
change waits for its subscribers, nor while the listener goes through them. -/
theorem subscriptions_stable (o : Order) (s : LS) (h : Reach o idle s) (hb : Pc.both ∈ s.calls) :
    s.waiting = false ∧ s.listening = false := by
  have inv : (s.waiting = true → ∀ p ∈ s.calls, holdsTable o p = false) ∧
      (s.listening = true → ∀ p ∈ s.calls, holdsSubs o p = false) := by
    clear hb
    induction h with
    | refl => simp [idle]
    | step _ hst ih =>
      obtain ⟨h1, h2⟩ := ih
      cases hst with
      | change hw hc =>
        exact ⟨fun _ p hp => by simpa using List.any_eq_false.mp hc p hp, h2⟩
      | listen hp hl hc =>
        exact ⟨h1, fun _ p hp => by simpa using List.any_eq_false.mp hc p hp⟩
      | process hl => exact ⟨h1, by simp⟩
      | finish hw hp => exact ⟨by simp, h2⟩
      | call =>
        refine ⟨fun hw p hp => ?_, fun hl p hp => ?_⟩
        · rcases List.mem_append.mp hp with hp | hp
          · exact h1 hw p hp
          · simp at hp; subst hp; cases o <;> rfl
        · rcases List.mem_append.mp hp with hp | hp
          · exact h2 hl p hp
          · simp at hp; subst hp; cases o <;> rfl
      | go i q hi hc =>
        have hq := List.mem_of_getElem? hi
        refine ⟨fun hw p hp => ?_, fun hl p hp => ?_⟩
        · rcases List.mem_or_eq_of_mem_set hp with hp | rfl
          · exact h1 hw p hp
          · have := h1 hw q hq
            have hw' : _ = true := hw
            cases o <;> cases q <;> simp_all [next, holdsTable, canStep, tableFree]
        · rcases List.mem_or_eq_of_mem_set hp with hp | rfl
          · exact h2 hl p hp
          · have := h2 hl q hq
            cases o <;> cases q <;> simp_all [next, holdsSubs, canStep, subsFree]
  refine ⟨?_, ?_⟩
  · cases hw : s.waiting with
    | false => rfl
    | true => have := inv.1 hw _ hb; cases o <;> simp [holdsTable] at this
  · cases hl : s.listening with
    | false => rfl
    | true => have := inv.2 hl _ hb; cases o <;> simp [holdsSubs] at this

example : Reach .moduleFirst idle ⟨false, false, false, [.both]⟩ :=
  .step (.step (.step (.refl _) (.call _)) (.go _ 0 .start rfl rfl)) (.go _ 0 .first rfl rfl)

/-- C132 is false for the locks of changing an XPath: a change waits for the listener, which waits for the
call, which waits for the change; the state is reached from the idle one, and in it and
all the states that follow nothing of this goes on: only locks and the callback timing out end it. -/
theorem modify_stuck :
    Reach .processFirst idle ⟨true, true, false, [.first]⟩ ∧
    ∀ s, Reach .processFirst ⟨true, true, false, [.first]⟩ s →
      s.waiting = true ∧ s.pending = true ∧ ¬ Progress .processFirst s := by
  refine ⟨?_, fun s hr => ?_⟩
  · have h1 : Reach .processFirst idle ⟨true, true, false, []⟩ := .step (.refl _) (.change _ rfl rfl)
    have h2 : Reach .processFirst idle ⟨true, true, false, [.start]⟩ := .step h1 (.call _)
    exact .step h2 (.go _ 0 .start rfl rfl)
  · have inv : s.waiting = true ∧ s.pending = true ∧ s.listening = false ∧
        s.calls[0]? = some .first ∧ ∀ p ∈ s.calls, p = .start ∨ p = .first := by
      induction hr with
      | refl => simp
      | step _ hst ih =>
        obtain ⟨hw, hp, hl, h0, hd⟩ := ih
        cases hst with
        | change hwf => simp [hw] at hwf
        | listen _ _ hs =>
          have := List.any_eq_false.mp hs .first (List.mem_of_getElem? h0)
          simp [holdsSubs] at this
        | process hlt => simp [hl] at hlt
        | finish _ hpf => simp [hp] at hpf
        | call =>
          refine ⟨hw, hp, hl, ?_, ?_⟩
          · grind
          · intro p hpm
            grind
        | go i p hi hc =>
          have hany : (List.any _ (holdsSubs .processFirst)) = true :=
            List.any_eq_true.mpr ⟨.first, List.mem_of_getElem? h0, rfl⟩
          have hmem := List.mem_of_getElem? hi
          exfalso
          cases p with
          | start => simp [canStep, subsFree, hany] at hc
          | first => simp [canStep, tableFree, hw] at hc
          | both => have := hd _ hmem; simp at this
          | done => have := hd _ hmem; simp at this
    obtain ⟨hw, hp, hl, h0, hd⟩ := inv
    refine ⟨hw, hp, ?_⟩
    have hany : s.calls.any (holdsSubs .processFirst) = true :=
      List.any_eq_true.mpr ⟨.first, List.mem_of_getElem? h0, rfl⟩
    rintro (⟨i, p, hi, hc⟩ | ⟨_, hpf⟩ | hlt | ⟨_, _, hs⟩)
    · cases p with
      | start => simp [canStep, subsFree, hany] at hc
      | first => simp [canStep, tableFree, hw] at hc
      | both => have := hd _ (List.mem_of_getElem? hi); simp at this
      | done => have := hd _ (List.mem_of_getElem? hi); simp at this
    · simp [hp] at hpf
    · simp [hl] at hlt
    · simp [hany] at hs

end Verif.ModXpath
