import Verif.ChangeNotifyLemmas

/-!
# Properties C21 and C22 for the publishing of one change operation

The environment `e` chooses what every subscriber replies and, for every scan of a table of subscriptions, which
subscriptions are alive and not suspended. `apply` is the whole operation: change events, then either abort events or
storing and done events. Its result lists the callbacks called with each event, in order.
-/

namespace Verif.ChangeNotify

/-! ### Specification -/

/-- The modules of the operation: different, their priorities are 32-bit numbers, a module has different subscriptions and
fewer than 2³² of them. -/
structure Config (mods : List Mod) : Prop where
  ids : (mods.map (·.id)).Nodup
  prio : ∀ m ∈ mods, m.prio < 4294967296
  subs : ∀ m ∈ mods, m.subs.Nodup
  len : ∀ m ∈ mods, m.subs.length < 4294967296

/-- No subscription has the greatest priority that can be asked for. -/
def BelowMax (mods : List Mod) : Prop := ∀ m ∈ mods, ∀ s ∈ m.subs, s.prio < 4294967295

/-- Only the subscriptions `alive` take part in the operation, from its beginning to its end. -/
def Steady (e : Env) (alive : Nat → Bool) : Prop := ∀ k i, e.view k i = alive i

/-- The callbacks are called by priority: of modules first, of the subscriptions of one module then. -/
def ByPriority (l : List Item) : Prop :=
  ∀ (i j : Nat) (a b : Item), i < j → l[i]? = some a → l[j]? = some b →
    b.mod.prio ≤ a.mod.prio ∧ (a.mod = b.mod → b.sub.prio ≤ a.sub.prio)

/-- The callbacks are of subscriptions of the modules. -/
def Of (mods : List Mod) (l : List Item) : Prop := ∀ i ∈ l, i.mod ∈ mods ∧ i.sub ∈ i.mod.subs

def accepted (e : Env) (s : Sub) : Prop := e.reply s.id = .ok ∨ e.reply s.id = .late

/-! ### Proofs -/

theorem Config.ok {mods : List Mod} (h : Config mods) : ModsOk mods := by
  refine ⟨?_, h.prio, h.subs⟩
  have := h.ids
  rw [List.nodup_iff_pairwise_ne, List.pairwise_map] at this
  rw [List.nodup_iff_pairwise_ne]
  exact this.imp (fun hne hc => hne (by rw [hc]))

theorem Good.byPriority {mods : List Mod} {ev : Ev} {l : List Item} (h : Good mods ev l) : ByPriority l ∧ l.Nodup ∧ Of mods l := by
  refine ⟨?_, ?_, ?_⟩
  · intro i j a b hij ha hb
    have hi := (List.getElem?_eq_some_iff.mp ha)
    have hj := (List.getElem?_eq_some_iff.mp hb)
    obtain ⟨hi, rfl⟩ := hi
    obtain ⟨hj, rfl⟩ := hj
    have := List.pairwise_iff_getElem.mp h.1 i j hi hj hij
    exact ⟨this.1, this.2.1⟩
  · rw [List.nodup_iff_pairwise_ne]
    exact h.1.imp (fun hb => hb.2.2)
  · exact fun i hi => ⟨(h.2 i hi).1, (h.2 i hi).2.1⟩

theorem changePhase_ends {mods : List Mod} (hm : ModsOk mods) (e : Env) (k : Nat) : ∃ o, changePhase e k mods = some o := by
  unfold changePhase
  simp only []
  by_cases hz : (collect e .change k mods).2 = []
  · rw [if_pos hz]; exact ⟨_, rfl⟩
  · rw [if_neg hz]
    obtain ⟨ns, level, h1, _, h3, _⟩ := init_inv hm .change _ (collect_mods e .change mods k) hz
    rw [h1]
    exact changeLoop_some e _ _ _ _ _ h3

theorem changePhase_good {mods : List Mod} (hm : ModsOk mods) {e : Env} {k k' : Nat} {chg : List Item} {errs : List Err}
    (h : changePhase e k mods = some (k', chg, errs)) : Good mods .change chg := by
  unfold changePhase at h
  simp only [] at h
  by_cases hz : (collect e .change k mods).2 = []
  · rw [if_pos hz] at h
    simp only [Option.some.injEq, Prod.mk.injEq] at h
    rw [← h.2.1]; exact ⟨List.Pairwise.nil, by simp⟩
  · rw [if_neg hz] at h
    obtain ⟨ns, level, h1, h2, _⟩ := init_inv hm .change _ (collect_mods e .change mods k) hz
    rw [h1] at h
    exact changeLoop_good e _ _ _ _ _ _ _ _ h2 h

theorem donePhase_ends {mods : List Mod} (hm : ModsOk mods) (e : Env) (k : Nat) : ∃ o, donePhase e k mods = some o := by
  unfold donePhase
  simp only []
  by_cases hz : (collect e .done k mods).2 = []
  · rw [if_pos hz]; exact ⟨_, rfl⟩
  · rw [if_neg hz]
    obtain ⟨ns, level, h1, _, h3, _⟩ := init_inv hm .done _ (collect_mods e .done mods k) hz
    rw [h1]
    obtain ⟨o, ho⟩ := doneLoop_some e _ (collect e .done k mods).1 _ _ [] h3
    simp only [ho]; exact ⟨_, rfl⟩

theorem donePhase_good {mods : List Mod} (hm : ModsOk mods) {e : Env} {k : Nat} {d : List Item}
    (h : donePhase e k mods = some d) : Good mods .done d := by
  unfold donePhase at h
  simp only [] at h
  by_cases hz : (collect e .done k mods).2 = []
  · rw [if_pos hz] at h
    simp only [Option.some.injEq] at h
    rw [← h]; exact ⟨List.Pairwise.nil, by simp⟩
  · rw [if_neg hz] at h
    obtain ⟨ns, level, h1, h2, _⟩ := init_inv hm .done _ (collect_mods e .done mods k) hz
    rw [h1] at h
    simp only [Option.map_eq_some_iff] at h
    obtain ⟨⟨k', tr'⟩, ho, rfl⟩ := h
    exact doneLoop_good e _ _ _ _ _ _ _ h2 ho

theorem abortPhase_ends {mods : List Mod} (hm : ModsOk mods) (e : Env) (k : Nat) (chg : List Item) (errs : List Err) :
    ∃ o, abortPhase e k mods chg errs = some o := by
  unfold abortPhase
  simp only []
  by_cases hz : (collectAbort e k mods).2 = []
  · rw [if_pos hz]; exact ⟨_, rfl⟩
  · rw [if_neg hz]
    obtain ⟨ns, level, h1, _, h3, _⟩ := init_inv hm .abort _ (collectAbort_mods e mods k) hz
    rw [h1]
    exact abortLoop_some e errs chg _ _ _ _ _ h3

theorem abortPhase_good {mods : List Mod} (hm : ModsOk mods) {e : Env} {k : Nat} {chg : List Item} {errs : List Err} {a : List Item}
    (h : abortPhase e k mods chg errs = some a) : Good mods .abort a ∧ ∀ i ∈ a, i ∈ chg ∧ e.reply i.sub.id = .ok := by
  unfold abortPhase at h
  simp only [] at h
  by_cases hz : (collectAbort e k mods).2 = []
  · rw [if_pos hz] at h
    simp only [Option.some.injEq] at h
    rw [← h]; exact ⟨⟨List.Pairwise.nil, by simp⟩, by simp⟩
  · rw [if_neg hz] at h
    obtain ⟨ns, level, h1, h2, _⟩ := init_inv hm .abort _ (collectAbort_mods e mods k) hz
    rw [h1] at h
    exact abortLoop_good e errs chg _ _ _ _ _ _ h2 (by simp) h

/-- The operation ends, whatever the subscribers do. -/
theorem always_ends {mods : List Mod} (h : Config mods) (e : Env) (storeOk : Bool) : ∃ r, apply e mods storeOk = some r := by
  unfold apply
  obtain ⟨⟨k, chg, errs⟩, h1⟩ := changePhase_ends h.ok e 0
  obtain ⟨a, h2⟩ := abortPhase_ends h.ok e k chg errs
  obtain ⟨d, h3⟩ := donePhase_ends h.ok e k
  rw [h1]
  simp only [h2, h3]
  split
  · exact ⟨_, rfl⟩
  · split <;> exact ⟨_, rfl⟩

/-- Two of the three parts of C21, for every environment: in each phase the callbacks are called by priority and none of them
twice, and only subscribers that selected the event are called. (A subscriber that accepts the change after it is over
calls its abort callback on its own, out of any order.) -/
theorem called_by_priority {mods : List Mod} (h : Config mods) (e : Env) (storeOk : Bool) {r : Out} (hr : apply e mods storeOk = some r) :
    ByPriority r.chg ∧ ByPriority r.done ∧ ByPriority (r.abt.filter (fun i => e.reply i.sub.id != .late)) ∧
    r.chg.Nodup ∧ r.done.Nodup ∧ r.abt.Nodup ∧ Of mods r.chg ∧ Of mods r.done ∧ Of mods r.abt ∧
    (∀ i ∈ r.chg, i.sub.doneOnly = false) ∧ (∀ i ∈ r.abt, i.sub.doneOnly = false) := by
  have nil : ByPriority [] := by intro i j a b _ ha; simp at ha
  unfold apply at hr
  cases h1 : changePhase e 0 mods with
  | none => rw [h1] at hr; simp at hr
  | some x =>
    obtain ⟨k, chg, errs⟩ := x
    have hg := changePhase_good h.ok h1
    obtain ⟨c1, c2, c3⟩ := hg.byPriority
    have c4 : ∀ i ∈ chg, i.sub.doneOnly = false := by
      intro i hi
      have := (hg.2 i hi).2.2
      simpa [evValid] using this
    rw [h1] at hr
    simp only [] at hr
    by_cases he : errs ≠ []
    · rw [if_pos he] at hr
      cases h2 : abortPhase e k mods chg errs with
      | none => rw [h2] at hr; simp at hr
      | some a =>
        obtain ⟨ga, gb⟩ := abortPhase_good h.ok h2
        obtain ⟨a1, a2, a3⟩ := ga.byPriority
        rw [h2] at hr
        simp only [Option.some.injEq] at hr
        subst hr
        have hfil : (a ++ chg.filter (fun i => e.reply i.sub.id == .late)).filter (fun i => e.reply i.sub.id != .late) = a := by
          rw [List.filter_append, List.filter_filter, List.filter_eq_self.mpr, List.filter_eq_nil_iff.mpr]
          · simp
          · intro i _; simp only [Bool.and_eq_true, bne_iff_ne, ne_eq, beq_iff_eq, not_and, Decidable.not_not]
            intro hne he; exact absurd he hne
          · intro i hi; rw [(gb i hi).2]; rfl
        refine ⟨c1, nil, by rw [hfil]; exact a1, c2, List.nodup_nil, ?_, c3, by intro i hi; simp at hi, ?_, c4, ?_⟩
        · refine List.nodup_append.mpr ⟨a2, c2.sublist List.filter_sublist, ?_⟩
          intro x hx y hy hc
          subst hc
          have e1 := (gb x hx).2
          have e2 := (List.mem_filter.mp hy).2
          rw [e1] at e2; simp at e2
        · intro i hi
          rcases List.mem_append.mp hi with hi | hi
          · exact a3 i hi
          · exact c3 i (List.mem_filter.mp hi).1
        · intro i hi
          rcases List.mem_append.mp hi with hi | hi
          · exact c4 i (gb i hi).1
          · exact c4 i (List.mem_filter.mp hi).1
    · rw [if_neg he] at hr
      cases storeOk with
      | false =>
        simp only [Bool.not_false, if_true, Option.some.injEq] at hr
        subst hr
        exact ⟨c1, nil, nil, c2, List.nodup_nil, List.nodup_nil, c3, by intro i hi; simp at hi, by intro i hi; simp at hi, c4, by simp⟩
      | true =>
        simp only [Bool.not_true, if_false, Bool.false_eq_true] at hr
        cases h3 : donePhase e k mods with
        | none => rw [h3] at hr; simp at hr
        | some d =>
          obtain ⟨d1, d2, d3⟩ := (donePhase_good h.ok h3).byPriority
          rw [h3] at hr
          simp only [Option.some.injEq] at hr
          subst hr
          exact ⟨c1, d1, nil, c2, d2, List.nodup_nil, c3, d3, by intro i hi; simp at hi, c4, by simp⟩

theorem Calm.of {e : Env} {alive : Nat → Bool} (h : Steady e alive) : Calm e alive := h

theorem allOf_mem {v : Nat → Bool} {ev : Ev} {mods : List Mod} {m : Mod} {s : Sub} :
    (⟨m, s⟩ : Item) ∈ allOf v ev mods ↔ m ∈ mods ∧ s ∈ m.subs ∧ okS v ev s = true := by
  simp only [allOf, List.mem_flatMap, List.mem_map, List.mem_filter, Item.mk.injEq]
  constructor
  · rintro ⟨a, ha, b, ⟨hb, hb'⟩, rfl, rfl⟩
    exact ⟨ha, hb, hb'⟩
  · rintro ⟨h1, h2, h3⟩
    exact ⟨m, h1, s, ⟨h2, h3⟩, rfl, rfl⟩

theorem changePhase_calm {mods : List Mod} (h : Config mods) (hb : BelowMax mods) {e : Env} {v : Nat → Bool} (hc : Calm e v)
    {k k' : Nat} {chg : List Item} (h1 : changePhase e k mods = some (k', chg, [])) :
    chg.Perm (allOf v .change mods) ∧ ∀ i ∈ chg, e.reply i.sub.id = .ok := by
  have hW : ∀ m ∈ mods, ∀ s ∈ m.subs, s.prio + 1 < W := fun m hm s hs => by have := hb m hm s hs; unfold W; omega
  have hf := collect_fut hc .change mods hW k
  unfold changePhase at h1
  simp only [] at h1
  by_cases hz : (collect e .change k mods).2 = []
  · rw [if_pos hz] at h1
    rw [hz] at hf
    simp only [Option.some.injEq, Prod.mk.injEq] at h1
    rw [← h1.2.1, ← hf]; simp
  · rw [if_neg hz] at h1
    obtain ⟨ns, level, i1, i2, i3, i4, i5, i6⟩ := init_inv h.ok .change _ (collect_mods e .change mods k) hz
    rw [i1] at h1
    obtain ⟨j1, j2⟩ := changeLoop_calm hc _ _ _ _ _ _ _ h1
    rw [fut_init i4 i5 i6, hf] at j1
    refine ⟨by simpa using j1, ?_⟩
    intro i hi
    have := j2 i hi
    simpa using this

theorem donePhase_calm {mods : List Mod} (h : Config mods) (hb : BelowMax mods) {e : Env} {v : Nat → Bool} (hc : Calm e v)
    {k : Nat} {d : List Item} (h1 : donePhase e k mods = some d) : d.Perm (allOf v .done mods) := by
  have hW : ∀ m ∈ mods, ∀ s ∈ m.subs, s.prio + 1 < W := fun m hm s hs => by have := hb m hm s hs; unfold W; omega
  have hf := collect_fut hc .done mods hW k
  unfold donePhase at h1
  simp only [] at h1
  by_cases hz : (collect e .done k mods).2 = []
  · rw [if_pos hz] at h1
    rw [hz] at hf
    simp only [Option.some.injEq] at h1
    rw [← h1, ← hf]; simp
  · rw [if_neg hz] at h1
    obtain ⟨ns, level, i1, i2, i3, i4, i5, i6⟩ := init_inv h.ok .done _ (collect_mods e .done mods k) hz
    rw [i1] at h1
    simp only [Option.map_eq_some_iff] at h1
    obtain ⟨⟨k', tr'⟩, ho, rfl⟩ := h1
    have j1 := doneLoop_calm hc _ _ _ _ _ _ _ ho
    rw [fut_init i4 i5 i6, hf] at j1
    simpa using j1

theorem abortPhase_calm {mods : List Mod} (h : Config mods) {e : Env} {v : Nat → Bool} (hc : Calm e v)
    {k k' k2 : Nat} {chg : List Item} {errs : List Err} (h1 : changePhase e k mods = some (k', chg, errs)) (hne : errs ≠ []) :
    abortPhase e k2 mods chg errs = some (chg.filter (fun i => e.reply i.sub.id == .ok)) := by
  have hca := collect_abort hc mods k2 k
  unfold changePhase at h1
  simp only [] at h1
  by_cases hz : (collect e .change k mods).2 = []
  · rw [if_pos hz] at h1
    simp only [Option.some.injEq, Prod.mk.injEq] at h1
    exact absurd h1.2.2.symm hne
  · rw [if_neg hz] at h1
    obtain ⟨ns, level, i1, i2, i3, i4, i5, i6⟩ := init_inv h.ok .change _ (collect_mods e .change mods k) hz
    rw [i1] at h1
    have hsub : (ns.map (·.mod)).Sublist mods := by rw [i4]; exact collect_mods e .change mods k
    have hids : (ns.map (·.mod.id)).Nodup := by
      have := List.Nodup.sublist (hsub.map (·.id)) h.ids
      rw [List.map_map] at this
      exact this
    have hlen : ∀ n ∈ ns, n.mod.subs.length < W := fun n hn => h.len _ (i2.src n hn)
    obtain ⟨_, add, j1, j2⟩ := lockstep hc _ _ _ _ _ _ _ _ hids hlen h1 hne
    simp only [List.nil_append] at j1
    subst j1
    unfold abortPhase
    simp only [hca]
    rw [if_neg hz, i1]
    have := j2 (fuelFor ns level) (collectAbort e k2 mods).1 [] chg (Nat.le_refl _) (fun i hi => hi)
    simpa using this

theorem changePhase_errs {mods : List Mod} (h : Config mods) {e : Env} {v : Nat → Bool} (hc : Calm e v)
    {k k' : Nat} {chg : List Item} {errs : List Err} (h1 : changePhase e k mods = some (k', chg, errs)) (hne : errs ≠ []) :
    ∃ m ∈ mods, ∃ s ∈ m.subs, okS v .change s = true ∧ e.reply s.id ≠ .ok := by
  unfold changePhase at h1
  simp only [] at h1
  by_cases hz : (collect e .change k mods).2 = []
  · rw [if_pos hz] at h1
    simp only [Option.some.injEq, Prod.mk.injEq] at h1
    exact absurd h1.2.2.symm hne
  · rw [if_neg hz] at h1
    obtain ⟨ns, level, i1, i2, _⟩ := init_inv h.ok .change _ (collect_mods e .change mods k) hz
    rw [i1] at h1
    obtain ⟨n, hn, s, hs, q⟩ := changeLoop_errs hc _ _ _ _ _ _ _ _ h1 hne
    exact ⟨n.mod, i2.src n hn, s, hs, q⟩

/-- The third part of C21: when no subscription disappears or is suspended meanwhile, a successful operation calls every subscriber
exactly once with the change event (unless it asked for done events only) and exactly once with the done event. -/
theorem each_called_once_partial {mods : List Mod} (h : Config mods) (hb : BelowMax mods) {e : Env} {alive : Nat → Bool} (hc : Steady e alive)
    {r : Out} (hr : apply e mods true = some r) (hres : r.res = .stored) (m : Mod) (hm : m ∈ mods) (s : Sub) (hs : s ∈ m.subs) :
    r.chg.count ⟨m, s⟩ = (if alive s.id = true ∧ s.doneOnly = false then 1 else 0) ∧
    r.done.count ⟨m, s⟩ = (if alive s.id = true then 1 else 0) := by
  obtain ⟨_, _, _, n1, n2, _⟩ := called_by_priority h e true hr
  have count_one : ∀ (l : List Item) (x : Item), l.Nodup → l.count x = if x ∈ l then 1 else 0 := fun l x hl => hl.count
  unfold apply at hr
  cases h1 : changePhase e 0 mods with
  | none => rw [h1] at hr; simp at hr
  | some x =>
    obtain ⟨k, chg, errs⟩ := x
    rw [h1] at hr
    simp only [] at hr
    by_cases he : errs ≠ []
    · rw [if_pos he] at hr
      cases h2 : abortPhase e k mods chg errs with
      | none => rw [h2] at hr; simp at hr
      | some a =>
        rw [h2] at hr
        simp only [Option.some.injEq] at hr
        subst hr
        simp at hres
    · rw [if_neg he] at hr
      have he' : errs = [] := by simpa using he
      subst he'
      simp only [Bool.not_true, if_false, Bool.false_eq_true] at hr
      cases h3 : donePhase e k mods with
      | none => rw [h3] at hr; simp at hr
      | some d =>
        rw [h3] at hr
        simp only [Option.some.injEq] at hr
        subst hr
        have p1 := (changePhase_calm h hb (Calm.of hc) h1).1
        have p2 := donePhase_calm h hb (Calm.of hc) h3
        simp only [] at n1 n2 ⊢
        rw [count_one _ _ n1, count_one _ _ n2]
        have q1 : (⟨m, s⟩ : Item) ∈ chg ↔ alive s.id = true ∧ s.doneOnly = false := by
          rw [p1.mem_iff, allOf_mem]
          simp [hm, hs, okS, evValid]
        have q2 : (⟨m, s⟩ : Item) ∈ d ↔ alive s.id = true := by
          rw [p2.mem_iff, allOf_mem]
          simp [hm, hs, okS, evValid]
        simp only [q1, q2]
        exact ⟨by trivial, by trivial⟩

/-- C22 for every environment: done events follow only a stored change that every called subscriber accepted, abort
events only a refused one, and only subscribers that accepted the change get one. -/
theorem only_accepted_aborted {mods : List Mod} (h : Config mods) (e : Env) (storeOk : Bool) {r : Out} (hr : apply e mods storeOk = some r) :
    (r.done ≠ [] → r.res = .stored) ∧ (r.abt ≠ [] → r.res = .refused) ∧
    (∀ i ∈ r.abt, i ∈ r.chg ∧ accepted e i.sub) ∧ (r.res = .stored → storeOk = true) ∧
    r.abt.Nodup ∧ r.done.Nodup := by
  obtain ⟨_, _, _, _, n2, n3, _⟩ := called_by_priority h e storeOk hr
  refine ⟨?_, ?_, ?_, ?_, n3, n2⟩ <;> unfold apply at hr <;> (
    cases h1 : changePhase e 0 mods with
    | none => rw [h1] at hr; simp at hr
    | some x =>
      obtain ⟨k, chg, errs⟩ := x
      rw [h1] at hr
      simp only [] at hr
      by_cases he : errs ≠ []
      · rw [if_pos he] at hr
        cases h2 : abortPhase e k mods chg errs with
        | none => rw [h2] at hr; simp at hr
        | some a =>
          obtain ⟨_, gb⟩ := abortPhase_good h.ok h2
          rw [h2] at hr
          simp only [Option.some.injEq] at hr
          subst hr
          first
            | (simp; done)
            | (intro i hi
               rcases List.mem_append.mp hi with hi | hi
               · exact ⟨(gb i hi).1, Or.inl (gb i hi).2⟩
               · have := List.mem_filter.mp hi
                 exact ⟨this.1, Or.inr (by simpa using this.2)⟩)
      · rw [if_neg he] at hr
        cases storeOk with
        | false =>
          simp only [Bool.not_false, if_true, Option.some.injEq] at hr
          subst hr
          simp
        | true =>
          simp only [Bool.not_true, if_false, Bool.false_eq_true] at hr
          cases h3 : donePhase e k mods with
          | none => rw [h3] at hr; simp at hr
          | some d =>
            rw [h3] at hr
            simp only [Option.some.injEq] at hr
            subst hr
            simp)

/-- C22 when the data can be stored once every subscriber accepted and no subscription disappears or is suspended
meanwhile: every subscriber that accepted the change gets exactly one of done, if it was stored, and abort, if it was not; a subscriber
that refused it gets neither, and the change is not stored then. -/
theorem done_or_abort_partial {mods : List Mod} (h : Config mods) (hb : BelowMax mods) {e : Env} {alive : Nat → Bool} (hc : Steady e alive)
    {r : Out} (hr : apply e mods true = some r) :
    (∀ i ∈ r.chg, accepted e i.sub →
      (r.res = .stored ∧ r.done.count i = 1 ∧ r.abt.count i = 0) ∨ (r.res = .refused ∧ r.done.count i = 0 ∧ r.abt.count i = 1)) ∧
    (∀ i ∈ r.chg, e.reply i.sub.id = .refuse → r.res = .refused ∧ r.done.count i = 0 ∧ r.abt.count i = 0) ∧
    (∀ i, i ∉ r.chg → r.abt.count i = 0 ∧ (i ∈ r.done → i.sub.doneOnly = true)) ∧
    (r.res = .stored ↔ ∀ m ∈ mods, ∀ s ∈ m.subs, alive s.id = true → s.doneOnly = false → e.reply s.id = .ok) := by
  obtain ⟨_, _, _, n1, n2, n3, o1, o2, o3, _⟩ := called_by_priority h e true hr
  obtain ⟨_, _, s3, _⟩ := only_accepted_aborted h e true hr
  have count_one : ∀ (l : List Item) (x : Item), l.Nodup → l.count x = if x ∈ l then 1 else 0 := fun l x hl => hl.count
  unfold apply at hr
  cases h1 : changePhase e 0 mods with
  | none => rw [h1] at hr; simp at hr
  | some x =>
    obtain ⟨k, chg, errs⟩ := x
    rw [h1] at hr
    simp only [] at hr
    by_cases he : errs ≠ []
    · have ha := abortPhase_calm (k2 := k) h (Calm.of hc) h1 he
      rw [if_pos he, ha] at hr
      simp only [Option.some.injEq] at hr
      subst hr
      simp only [] at n1 n3 s3 ⊢
      have hmem : ∀ i ∈ chg, (i ∈ chg.filter (fun i => e.reply i.sub.id == .ok) ++ chg.filter (fun i => e.reply i.sub.id == .late)) ↔ accepted e i.sub := by
        intro i hi
        simp [List.mem_filter, hi, accepted]
      refine ⟨?_, ?_, ?_, ?_⟩
      · intro i hi hacc
        right
        refine ⟨by trivial, by simp, ?_⟩
        rw [count_one _ _ n3, if_pos ((hmem i hi).mpr hacc)]
      · intro i hi hrf
        refine ⟨by trivial, by simp, ?_⟩
        rw [count_one _ _ n3, if_neg]
        rw [hmem i hi]
        simp [accepted, hrf]
      · intro i hi
        refine ⟨?_, by simp⟩
        rw [List.count_eq_zero]
        intro hm
        exact hi (s3 i hm).1
      · constructor
        · intro hc; simp at hc
        · intro hall
          exfalso
          -- an error means that somebody called did not accept
          obtain ⟨m, hm, s, hs, q1, q2⟩ := changePhase_errs h (Calm.of hc) h1 he
          simp only [okS, evValid, Bool.and_eq_true] at q1
          exact q2 (hall m hm s hs q1.1 (by simpa using q1.2))
    · rw [if_neg he] at hr
      have he' : errs = [] := by simpa using he
      subst he'
      obtain ⟨p1, p1'⟩ := changePhase_calm h hb (Calm.of hc) h1
      simp only [Bool.not_true, if_false, Bool.false_eq_true] at hr
      cases h3 : donePhase e k mods with
      | none => rw [h3] at hr; simp at hr
      | some d =>
        have p2 := donePhase_calm h hb (Calm.of hc) h3
        rw [h3] at hr
        simp only [Option.some.injEq] at hr
        subst hr
        simp only [] at n1 n2 ⊢
        refine ⟨?_, ?_, ?_, ?_⟩
        · intro i hi _
          left
          refine ⟨by trivial, ?_, by simp⟩
          rw [count_one _ _ n2, if_pos]
          obtain ⟨m, s⟩ := i
          rw [p2.mem_iff, allOf_mem]
          obtain ⟨a1, a2, a3⟩ := allOf_mem.mp (p1.mem_iff.mp hi)
          refine ⟨a1, a2, ?_⟩
          simp only [okS, evValid, Bool.and_eq_true] at a3 ⊢
          exact ⟨a3.1, trivial⟩
        · intro i hi hrf
          have := p1' i hi
          rw [this] at hrf; cases hrf
        · intro i hi
          refine ⟨by simp, ?_⟩
          intro hd
          obtain ⟨m, s⟩ := i
          obtain ⟨a1, a2, a3⟩ := allOf_mem.mp (p2.mem_iff.mp hd)
          cases hdo : s.doneOnly with
          | true => rfl
          | false =>
            exfalso
            apply hi
            rw [p1.mem_iff, allOf_mem]
            refine ⟨a1, a2, ?_⟩
            simp only [okS, evValid, Bool.and_eq_true] at a3 ⊢
            exact ⟨a3.1, by simp [hdo]⟩
        · simp only [true_iff]
          intro m hm s hs hv hd
          refine p1' ⟨m, s⟩ (p1.mem_iff.mpr (allOf_mem.mpr ⟨hm, hs, ?_⟩))
          simp [okS, evValid, hv, hd]

/-! ### Cases that meet the hypotheses -/

/-- Three modules, two with the same priority, and an operation all the subscribers accept. -/
def mod0 : Mod := ⟨0, 5, [⟨0, 10, false⟩, ⟨1, 20, false⟩, ⟨2, 10, true⟩]⟩
def mods3 : List Mod :=
  [mod0, ⟨1, 900, [⟨3, 0, false⟩]⟩, ⟨2, 5, [⟨4, 20, false⟩, ⟨5, 3, false⟩]⟩]

def calmEnv (f : Nat → Reply) : Env := ⟨fun _ _ => true, f⟩

theorem mods3_ok : Config mods3 ∧ BelowMax mods3 :=
  ⟨⟨by decide, by decide, by decide, by decide⟩, by unfold BelowMax; decide⟩

theorem calmEnv_steady (f : Nat → Reply) : Steady (calmEnv f) (fun _ => true) := fun _ _ => rfl

/-- All accept: the module with priority 900 first, then those with priority 5 together, by the priority of subscriptions. -/
example : ∃ r, apply (calmEnv (fun _ => .ok)) mods3 true = some r ∧ r.res = .stored ∧
    r.chg.map (·.sub.id) = [3, 1, 4, 0, 5] ∧ r.done.map (·.sub.id) = [3, 1, 4, 0, 2, 5] :=
  ⟨_, rfl, by decide, by decide, by decide⟩

example : ∃ r, apply (calmEnv (fun _ => .ok)) mods3 true = some r ∧ r.res = .stored ∧ r.done.count ⟨mod0, ⟨2, 10, true⟩⟩ = 1 :=
  ⟨_, rfl, by decide, by decide⟩

/-- Subscriber 4 refuses: those called before and beside it get the abort event, subscribers 0 and 5 are not called at all. -/
example : ∃ r, apply (calmEnv (fun i => if i = 4 then .refuse else .ok)) mods3 true = some r ∧ r.res = .refused ∧
    r.chg.map (·.sub.id) = [3, 1, 4] ∧ r.abt.map (·.sub.id) = [3, 1] ∧ r.done = [] :=
  ⟨_, rfl, by decide, by decide, by decide, by decide⟩

/-- Subscriber 1 answers too late. -/
example : ∃ r, apply (calmEnv (fun i => if i = 1 then .late else .ok)) mods3 true = some r ∧ r.res = .refused ∧
    r.chg.map (·.sub.id) = [3, 1, 4] ∧ r.abt.map (·.sub.id) = [3, 4, 1] :=
  ⟨_, rfl, by decide, by decide, by decide⟩

/-! ### Where the code does not keep C21 and C22 -/

/-- C22 fails when the data cannot be stored after all the subscribers accepted (sysrepo.c 4105-4112): no subscriber gets done or abort. -/
theorem store_error_neither : ∃ mods e r i, Config mods ∧ BelowMax mods ∧ Steady e (fun _ => true) ∧ apply e mods false = some r ∧
    i ∈ r.chg ∧ accepted e i.sub ∧ r.done.count i = 0 ∧ r.abt.count i = 0 :=
  ⟨mods3, calmEnv (fun _ => .ok), ⟨.storeError, _, [], []⟩, ⟨mod0, ⟨0, 10, false⟩⟩, mods3_ok.1, mods3_ok.2, calmEnv_steady _,
    rfl, by decide, by unfold accepted; decide, by decide, by decide⟩

/-- C22 fails when a subscription is suspended after it accepted the change: it learns neither of its storing. -/
theorem suspended_neither : ∃ mods e r i, Config mods ∧ BelowMax mods ∧ apply e mods true = some r ∧ r.res = .stored ∧
    i ∈ r.chg ∧ accepted e i.sub ∧ r.done.count i = 0 ∧ r.abt.count i = 0 :=
  ⟨[⟨0, 5, [⟨0, 10, false⟩, ⟨1, 20, false⟩]⟩], ⟨fun k i => i != 0 || decide (k < 3), fun _ => .ok⟩, _,
    ⟨⟨0, 5, [⟨0, 10, false⟩, ⟨1, 20, false⟩]⟩, ⟨0, 10, false⟩⟩,
    ⟨by decide, by decide, by decide, by decide⟩, by unfold BelowMax; decide,
    (rfl : _ = some (⟨.stored, _, [], _⟩ : Out)), rfl, by decide, by unfold accepted; decide, by decide, by decide⟩

/-- … nor of its refusal by another subscriber. -/
theorem suspended_not_aborted : ∃ mods e r i, Config mods ∧ BelowMax mods ∧ apply e mods true = some r ∧ r.res = .refused ∧
    i ∈ r.chg ∧ accepted e i.sub ∧ r.done.count i = 0 ∧ r.abt.count i = 0 :=
  ⟨[⟨0, 5, [⟨0, 20, false⟩, ⟨1, 10, false⟩]⟩], ⟨fun k i => i != 0 || decide (k < 3), fun i => if i = 1 then .refuse else .ok⟩, _,
    ⟨⟨0, 5, [⟨0, 20, false⟩, ⟨1, 10, false⟩]⟩, ⟨0, 20, false⟩⟩,
    ⟨by decide, by decide, by decide, by decide⟩, by unfold BelowMax; decide,
    (rfl : _ = some (⟨.refused, _, _, []⟩ : Out)), rfl, by decide, by unfold accepted; decide, by decide, by decide⟩

/-- C21 fails when a subscription has the priority 4294967295 (shm_sub.c 1599, 1792): no subscriber of the module is called. -/
theorem greatest_priority_nobody_called : ∃ mods e r, Config mods ∧ Steady e (fun _ => true) ∧ apply e mods true = some r ∧ r.res = .stored ∧
    (∃ m ∈ mods, m.subs.length = 2) ∧ r.chg = [] ∧ r.done = [] :=
  ⟨[⟨0, 5, [⟨0, 4294967295, false⟩, ⟨1, 10, false⟩]⟩], calmEnv (fun _ => .refuse), _, ⟨by decide, by decide, by decide, by decide⟩,
    calmEnv_steady _, (rfl : _ = some (⟨.stored, [], [], []⟩ : Out)), rfl, by decide, rfl, rfl⟩

end Verif.ChangeNotify
