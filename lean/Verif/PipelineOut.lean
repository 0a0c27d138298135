import Verif.PipelineMods
/-!
What follows for the result of a call from the way it ended.
-/
namespace Verif.Pipeline
variable {D : Type} [DecidableEq D]

/-! ## From the two kinds of outcomes -/

theorem storePhase_quiet (env : Env D) (s : Store D) (old : Nat → D) (mi : MI D) (err2 : Bool) (log : List (Ev D))
    (h1 : hasDiff env mi = false) (h2 : isChanged mi = false) : storePhase env s old mi err2 log = ⟨s, log, err2⟩ := by
  unfold storePhase
  rw [h1, h2]; rfl

theorem Outcome.kept {env : Env D} {s : Store D} {ds : Ds} {o : Out D} (h : Outcome env s ds o) (hf : StoresFine env) (he : o.err = true) :
    o.st = s := by
  cases h with
  | early => rfl
  | @last mi err2 log hn hds hw hl hc hd hq =>
    cases e2 : err2 with
    | false =>
      subst e2
      exact (storePhase_spec env s (s.read ds) mi false log hn (by rw [hds])).calm rfl hf he
    | true =>
      obtain ⟨q1, q2⟩ := hq e2
      rw [storePhase_quiet env s _ mi true log q1 q2]

theorem Outcome.announced {env : Env D} {s : Store D} {ds : Ds} {o : Out D} (h : Outcome env s ds o) (hno : NoLoss env)
    (he : o.err = false) (old new : Nat → D) (hev : Ev.change old new ∈ o.log ∨ Ev.done old new ∈ o.log) :
    old = s.read ds ∧ ∀ m, o.st.read ds m = new m := by
  cases h with
  | early => cases he
  | @last mi err2 log hn hds hw hl hc hd hq =>
    have sp := storePhase_spec env s (s.read ds) mi err2 log hn (by rw [hds])
    have hok := sp.ok (hw hno) he
    rw [hds] at hok
    obtain ⟨l, hlog, hlev⟩ := sp.log
    rw [hlog] at hev
    have hboth : old = s.read ds ∧ new = mi.data := by
      rcases hev with hev | hev
      · rcases List.mem_append.1 hev with h' | h'
        · exact hc old new h'
        · rcases hlev _ h' with ⟨x, -, -, hx⟩ | hx <;> cases hx
      · rcases List.mem_append.1 hev with h' | h'
        · exact absurd h' (hd old new)
        · rcases hlev _ h' with ⟨x, -, -, hx⟩ | hx
          · cases hx
          · cases hx; exact ⟨rfl, rfl⟩
    exact ⟨hboth.1, fun m => by rw [hok m, hboth.2]⟩

theorem Outcome.each {env : Env D} {s : Store D} {ds : Ds} {o : Out D} (h : Outcome env s ds o) (m : Nat) :
    o.st.read ds m = s.read ds m ∨ (∃ lock, Ev.store m lock (o.st.read ds m) ∈ o.log) ∨ env.store m = .failed (o.st.read ds m) := by
  cases h with
  | early => exact Or.inl rfl
  | @last mi err2 log hn hds hw hl hc hd hq =>
    have sp := storePhase_spec env s (s.read ds) mi err2 log hn (by rw [hds])
    have := sp.each m
    rw [hds] at this
    rcases this with h | ⟨h, l, hm⟩ | h
    · exact Or.inl h
    · exact Or.inr (Or.inl ⟨l, by rw [h]; exact hm⟩)
    · exact Or.inr (Or.inr h)

theorem Outcome.one {env : Env D} {s : Store D} {ds : Ds} {o : Out D} (h : Outcome env s ds o) (m k : Nat) (hmk : m ≠ k)
    (hm : o.st.read ds m ≠ s.read ds m) (hl : ∀ lock d, Ev.store m lock d ∉ o.log) :
    o.st.read ds k = s.read ds k ∨ ∃ lock, Ev.store k lock (o.st.read ds k) ∈ o.log := by
  cases h with
  | early => exact Or.inl rfl
  | @last mi err2 log hn hds hw hl2 hc hd hq =>
    have sp := storePhase_spec env s (s.read ds) mi err2 log hn (by rw [hds])
    have := sp.one m k hmk (by rw [hds]; exact hm) hl
    rw [hds] at this
    rcases this with h | ⟨h, l, hm⟩
    · exact Or.inl h
    · exact Or.inr ⟨l, by rw [h]; exact hm⟩

/-- What is stored is what was announced. -/
theorem Outcome.store_new {env : Env D} {s : Store D} {ds : Ds} {o : Out D} (h : Outcome env s ds o) (old new : Nat → D)
    (hev : Ev.change old new ∈ o.log ∨ Ev.done old new ∈ o.log) (m : Nat) (lock : Lock) (d : D) (hs : Ev.store m lock d ∈ o.log) :
    old = s.read ds ∧ d = new m := by
  cases h with
  | early hl => exact absurd (hl _ hs) (by simp [Ev.isStore])
  | @last mi err2 log hn hds hw hl hc hd hq =>
    have sp := storePhase_spec env s (s.read ds) mi err2 log hn (by rw [hds])
    obtain ⟨l, hlog, hlev⟩ := sp.log
    rw [hlog] at hev hs
    have hboth : old = s.read ds ∧ new = mi.data := by
      rcases hev with hev | hev
      · rcases List.mem_append.1 hev with h' | h'
        · exact hc old new h'
        · rcases hlev _ h' with ⟨x, -, -, hx⟩ | hx <;> cases hx
      · rcases List.mem_append.1 hev with h' | h'
        · exact absurd h' (hd old new)
        · rcases hlev _ h' with ⟨x, -, -, hx⟩ | hx
          · cases hx
          · cases hx; exact ⟨rfl, rfl⟩
    refine ⟨hboth.1, ?_⟩
    rcases List.mem_append.1 hs with h' | h'
    · exact absurd (hl _ h') (by simp [Ev.isStore])
    · rcases hlev _ h' with ⟨x, -, -, hx⟩ | hx
      · cases hx; rw [hboth.2]
      · cases hx

/-! ## Other datastores -/

theorem storeLoop_ind (env : Env D) (ds : Ds) (data : Nat → D) (P : Store D → Prop) (hP : ∀ t m d, P t → P (t.write ds m d))
    (ms : List Mod) (s : Store D) (h : P s) : P (storeLoop env ds data ms s).1 := by
  induction ms generalizing s with
  | nil => exact h
  | cons x xs ih =>
    unfold storeLoop
    split
    · split
      · exact hP _ _ _ h
      · exact hP _ _ _ h
      · exact ih _ (hP _ _ _ h)
    · exact ih _ h

theorem storePhase_ind (env : Env D) (s : Store D) (old : Nat → D) (mi : MI D) (err2 : Bool) (log : List (Ev D)) (P : Store D → Prop)
    (hP : ∀ t m d, P t → P (t.write mi.ds m d)) (h : P s) : P (storePhase env s old mi err2 log).st := by
  unfold storePhase
  split
  · exact h
  · split
    · exact h
    · have := storeLoop_ind env mi.ds mi.data P hP (upgradeMods mi.mods) s h
      generalize storeLoop env mi.ds mi.data (upgradeMods mi.mods) s = r at this ⊢
      obtain ⟨s', l, ok⟩ := r
      cases ok with
      | false => exact this
      | true =>
        simp only
        split
        · exact this
        · split <;> exact this

theorem Outcome.ind {env : Env D} {s : Store D} {ds : Ds} {o : Out D} (h : Outcome env s ds o) (P : Store D → Prop)
    (hP : ∀ t m d, P t → P (t.write ds m d)) (h0 : P s) : P o.st := by
  cases h with
  | early => exact h0
  | @last mi err2 log hn hds hw hl hc hd hq =>
    subst hds
    exact storePhase_ind env s _ mi err2 log P hP h0

/-! ## Events and storing only after the checks -/

theorem changePhase_out (env : Env D) (s : Store D) (mi : MI D) (log : List (Ev D)) (Q : Out D → Prop)
    (h1 : ∀ l, (∀ ev ∈ l, ev.isStore = false) → (∀ o n, Ev.done o n ∉ l) → Q ⟨s, log ++ l, true⟩)
    (h2 : ∀ l, (∀ ev ∈ l, ev.isStore = false) → Q (storePhase env s (s.read mi.ds) mi false (log ++ l))) :
    Q (changePhase env s (s.read mi.ds) mi log) := by
  have hp := changePhase_path env s (s.read mi.ds) mi log
  generalize changePhase env s (s.read mi.ds) mi log = o at hp ⊢
  cases hp with
  | noDiff => simpa using h2 [] (by simp)
  | nobody => simpa using h2 [] (by simp)
  | internal h hs hr => exact h1 [Ev.change (s.read mi.ds) mi.data] (by simp [Ev.isStore]) (by simp)
  | refused h hs hr =>
    rw [List.append_assoc]
    exact h1 [Ev.change (s.read mi.ds) mi.data, Ev.abort (s.read mi.ds) mi.data] (by simp [Ev.isStore]) (by simp)
  | accepted h hs hr => exact h2 [Ev.change (s.read mi.ds) mi.data] (by simp [Ev.isStore])

/-- Without a difference the last phase only stores. -/
theorem storePhase_noDiff (env : Env D) (s : Store D) (old : Nat → D) (mi : MI D) (err2 : Bool) (h : hasDiff env mi = false) :
    ∀ ev ∈ (storePhase env s old mi err2 []).log, ev.isStore = true := by
  have hl : ∀ (ms : List Mod) (t : Store D), ∀ ev ∈ (storeLoop env mi.ds mi.data ms t).2.1, ev.isStore = true := by
    intro ms
    induction ms with
    | nil => intro t ev hev; simp [storeLoop] at hev
    | cons x xs ih =>
      intro t ev hev
      unfold storeLoop at hev
      split at hev
      · split at hev
        · simp at hev
        · have : ev = .store x.id x.lock (mi.data x.id) := by simpa using hev
          rw [this]; rfl
        · rcases List.mem_cons.1 hev with he | he
          · rw [he]; rfl
          · exact ih _ ev he
      · exact ih _ ev hev
  unfold storePhase
  split
  · simp
  · split
    · simp
    · have := hl (upgradeMods mi.mods) s
      generalize storeLoop env mi.ds mi.data (upgradeMods mi.mods) s = r at this ⊢
      obtain ⟨s', l, ok⟩ := r
      cases ok with
      | false => simpa using this
      | true =>
        simp only
        split
        · simpa using this
        · rw [h, Bool.and_false]
          simp only [Bool.false_eq_true, if_false]
          split <;> simpa using this

/-- Unless everything was checked, subscribers are not called, and nothing but operational data is stored. -/
theorem notifyStore_checked (env : Env D) (s : Store D) (mi : MI D) (err2 : Bool) (hg : Good mi.base mi.mods mi.data) :
    (∃ mi1, Checked env mi mi1) ∨ ((∀ ev ∈ (notifyStore env s (s.read mi.ds) mi err2).log, ev.isStore = true) ∧
      (mi.ds ≠ .operational → (notifyStore env s (s.read mi.ds) mi err2).log = [] ∧ (notifyStore env s (s.read mi.ds) mi err2).st = s)) := by
  have hp := notifyStore_path env s (s.read mi.ds) mi err2
  generalize notifyStore env s (s.read mi.ds) mi err2 = o at hp ⊢
  cases hp with
  | noDiff h =>
    right
    refine ⟨storePhase_noDiff env s _ mi err2 h, fun ho => ?_⟩
    rw [storePhase_quiet env s _ mi err2 [] h (hg.quiet h ho)]
    exact ⟨rfl, rfl⟩
  | refused => exact Or.inr ⟨by simp, fun _ => ⟨rfl, rfl⟩⟩
  | @vanished mi1 hd hn hv h =>
    right
    refine ⟨storePhase_noDiff env s _ mi1 err2 h, fun ho => ?_⟩
    have hg1 := check_good hv hg
    have : Good mi1.base mi1.mods mi1.data := by rw [hg1.2.1]; exact hg1.1
    rw [storePhase_quiet env s _ mi1 err2 [] h (this.quiet h (by rw [hg1.2.2]; exact ho))]
    exact ⟨rfl, rfl⟩
  | update hc => exact Or.inl ⟨_, hc⟩
  | change hc he hu => exact Or.inl ⟨_, hc⟩

/-- Modules without errors of the final validation. -/
theorem check_valid {env : Env D} {a b : Bool} {mi mi' : MI D} (h : check env a b mi = some (mi', 0))
    (hd : mi.ds = .startup ∨ mi.ds = .running) : ∀ x ∈ mi'.mods, (x.changed = true ∨ x.inv = true) → env.valFinal x.id mi'.data = 0 := by
  have hval : ∀ mi', validate env (withDeps env mi) = (mi', 0) →
      ∀ x ∈ mi'.mods, (x.changed = true ∨ x.inv = true) → env.valFinal x.id mi'.data = 0 := by
    intro mi' he x hx hc
    simp only [validate, Prod.mk.injEq] at he
    obtain ⟨he, hz⟩ := he
    subst he
    simp only at hx ⊢
    have hsum := (Nat.add_eq_zero_iff.1 hz).2
    refine List.sum_eq_zero_iff_forall_eq_nat.1 hsum _ (List.mem_map.2 ⟨x, List.mem_filter.2 ⟨hx, ?_⟩, rfl⟩)
    simpa using hc
  unfold check at h
  rcases hd with hd | hd
  all_goals
    rw [hd] at h; simp only at h
    split at h
    · exact hval _ (Option.some.inj h)
    · cases h

theorem applyLoop_has {f : Mod → Bool} (hs : Stays f) (e : Edit D) (mi : MI D) {m : Nat} (h : Has f m mi.mods) :
    Has f m (editApply e mi).mods := h.unmark hs (applyLoop_loop e mi.mods mi.data).same

theorem replaceLoop_has {f : Mod → Bool} (hs : Stays f) (src : Nat → D) (mi : MI D) {m : Nat} (h : Has f m mi.mods) :
    Has f m (replaceData src mi).mods := h.unmark hs (replaceLoop_loop src mi.mods mi.data).same

theorem withForeign_has {f : Mod → Bool} (hs : Stays f) (env : Env D) (e : Edit D) (mi : MI D) {m : Nat} (h : Has f m mi.mods) :
    Has f m (withForeign env e mi).mods := by
  unfold withForeign
  split
  · exact (Has.foldl _ (fun a x ha => ha.addMod hs) _ h).consolidate hs env _ _ _
  · exact h

theorem Updated.has {f : Mod → Bool} (hs : Stays f) {env : Env D} {old : Nat → D} {mi1 mi2 : MI D} (h : Updated env old mi1 mi2) {m : Nat}
    (hm : Has f m mi1.mods) : Has f m mi2.mods := by
  cases h with
  | none => exact hm
  | some _ _ ha =>
    obtain ⟨mi3, k, hc, rfl, -⟩ := updateApply_some ha
    have h3 : Has f m mi3.mods := (applyLoop_has hs _ _ (withForeign_has hs env _ mi1 hm)).check hs hc
    exact h3

/-- The final data were validated. -/
theorem Updated.valid {env : Env D} {old : Nat → D} {mi mi1 mi2 : MI D} (hc : check env env.depsOk env.valOk mi = Option.some (mi1, 0))
    (h : Updated env old mi1 mi2) (hd : mi.ds = .startup ∨ mi.ds = .running) :
    ∀ x ∈ mi2.mods, (x.changed = true ∨ x.inv = true) → env.valFinal x.id mi2.data = 0 := by
  cases h with
  | none => exact check_valid hc hd
  | @some e _ _ _ ha =>
    obtain ⟨mi3, k, hc3, rfl, hk⟩ := updateApply_some ha
    have : k = 0 := by omega
    subst this
    have hds : (editApply e (withForeign env e mi1)).ds = mi.ds :=
      ((withForeign_frame env e mi1).2).trans (check_frame hc).2.2
    have h3 := check_valid hc3 (by rw [hds]; exact hd)
    exact h3

/-! ## The locks of stored modules -/

theorem storePhase_lock (env : Env D) (s : Store D) (mi : MI D) (err2 : Bool) (log : List (Ev D)) (hn : (ids mi.mods).Nodup)
    (hl : ∀ ev ∈ log, ev.isStore = false) {m : Nat} (hm : Has (fun x => x.req && decide (x.lock = .upgr)) m mi.mods) (lock : Lock) (d : D)
    (hs : Ev.store m lock d ∈ (storePhase env s (s.read mi.ds) mi err2 log).log) : lock = .write := by
  have sp := storePhase_spec env s (s.read mi.ds) mi err2 log hn rfl
  obtain ⟨l, hlog, hlev⟩ := sp.log
  rw [hlog] at hs
  rcases List.mem_append.1 hs with h | h
  · exact absurd (hl _ h) (by simp [Ev.isStore])
  · rcases hlev _ h with ⟨x, hx, -, he⟩ | he
    · cases he
      obtain ⟨y, hy, rfl⟩ := List.mem_map.1 hx
      obtain ⟨z, hz, hzm, hzf⟩ := hm
      have hid : z.id = y.id := by rw [hzm]; split <;> rfl
      have hzy : z = y := by
        obtain ⟨i, hi, hi'⟩ := List.getElem_of_mem hz
        obtain ⟨j, hj, hj'⟩ := List.getElem_of_mem hy
        have e : (ids mi.mods)[i]'(by simpa [ids] using hi) = (ids mi.mods)[j]'(by simpa [ids] using hj) := by
          simp only [ids, List.getElem_map, hi', hj', hid]
        have := (List.getElem_inj hn).1 e
        subst this
        rw [← hi', ← hj']
      subst hzy
      simp only [Bool.and_eq_true, decide_eq_true_eq] at hzf
      rw [if_pos hzf]
    · cases he

theorem notifyStore_lock (env : Env D) (s : Store D) (mi : MI D) (err2 : Bool) (hn : (ids mi.mods).Nodup) {m : Nat}
    (hm : Has (fun x => x.req && decide (x.lock = .upgr)) m mi.mods) (lock : Lock) (d : D)
    (hs : Ev.store m lock d ∈ (notifyStore env s (s.read mi.ds) mi err2).log) : lock = .write := by
  have hp := notifyStore_path env s (s.read mi.ds) mi err2
  generalize notifyStore env s (s.read mi.ds) mi err2 = o at hp hs
  cases hp with
  | noDiff h => exact storePhase_lock env s mi err2 [] hn (by simp) hm lock d hs
  | refused => simp at hs
  | @vanished mi1 hd hn' hv h =>
    have hf := check_frame hv
    rw [← hf.2.2] at hs
    exact storePhase_lock env s mi1 err2 [] (hf.1 hn) (by simp) (hm.check stays_upgr hv) lock d hs
  | @update mi1 hc => cases updLog_shape env _ mi1 _ hs
  | @change mi1 mi2 hc he hu =>
    have hf := check_frame hc.valid
    have hf2 := hu.frame (hf.1 hn)
    have hm2 := hu.has stays_upgr (hm.check stays_upgr hc.valid)
    have hul : ∀ ev ∈ updLog env (s.read mi.ds) mi1, ev.isStore = false := by
      intro ev hev; rw [updLog_shape env _ mi1 ev hev]; rfl
    have hds : mi.ds = mi2.ds := (hf2.2.2.trans hf.2.2).symm
    rw [hds] at hs hul
    revert hs
    refine changePhase_out env s mi2 _ (fun o => Ev.store m lock d ∈ o.log → lock = .write) (fun l hl _ hs => ?_) (fun l hl hs => ?_)
    · rcases List.mem_append.1 hs with h | h
      · exact absurd (hul _ h) (by simp [Ev.isStore])
      · exact absurd (hl _ h) (by simp [Ev.isStore])
    · refine storePhase_lock env s mi2 false _ hf2.1 (fun ev hev => ?_) hm2 lock d hs
      rcases List.mem_append.1 hev with h | h
      · exact hul _ h
      · exact hl _ h

/-! ## The content stored -/

/-- Update subscribers change nothing. -/
def NoUpdates (env : Env D) : Prop := ∀ (o n : Nat → D) (e : Edit D), env.updSub = true → env.upd o n ≠ .ok (some e)

/-- The content after success: the one validated last. -/
theorem notifyStore_content (env : Env D) (s : Store D) (mi : MI D) (err2 : Bool) (hb : mi.base = s.read mi.ds)
    (hg : Good mi.base mi.mods mi.data) (hno : NoLoss env) (he : (notifyStore env s (s.read mi.ds) mi err2).err = false) :
    ∃ mi' : MI D, (∀ m, (notifyStore env s (s.read mi.ds) mi err2).st.read mi.ds m = mi'.data m) ∧
      Weak (s.read mi.ds) mi'.mods mi'.data ∧
      (NoUpdates env → Neutral env → mi'.data = mi.data) ∧
      ((∃ m, mi'.data m ≠ s.read mi.ds m) → mi.ds = .startup ∨ mi.ds = .running →
        (∀ x ∈ mi'.mods, (x.changed = true ∨ x.inv = true) → env.valFinal x.id mi'.data = 0) ∧
        ∀ k, Has (·.inv) k mi.mods → Has (·.inv) k mi'.mods) := by
  have hp := notifyStore_path env s (s.read mi.ds) mi err2
  generalize notifyStore env s (s.read mi.ds) mi err2 = o at hp he ⊢
  have hsame : ∀ mi1 : MI D, Good mi1.base mi1.mods mi1.data → mi1.base = s.read mi.ds → mi1.ds = mi.ds → hasDiff env mi1 = false →
      (mi.ds = .startup ∨ mi.ds = .running) → (∃ m, mi1.data m ≠ s.read mi.ds m) → False := by
    intro mi1 h1 hb1 hds hnd hd ⟨m, hm⟩
    have ho : mi1.ds ≠ .operational := by rw [hds]; rcases hd with hd | hd <;> rw [hd] <;> simp
    have hq := h1.quiet hnd ho
    have := not_changed h1.weak hq m
    rw [hb1] at this
    exact hm this
  cases hp with
  | noDiff h =>
    have sp := storePhase_spec env s (s.read mi.ds) mi err2 [] hg.nodup rfl
    have hw : Weak (s.read mi.ds) mi.mods mi.data := by rw [← hb]; exact hg.weak
    exact ⟨mi, sp.ok hw he, hw, fun _ _ => rfl, fun hex hd => (hsame mi hg hb rfl h hd hex).elim⟩
  | refused => cases he
  | @vanished mi1 hd hn hv h =>
    have hg1 := check_good hv hg
    have sp := storePhase_spec env s (s.read mi.ds) mi1 err2 [] hg1.1.nodup (by rw [hg1.2.2])
    have hw : Weak (s.read mi.ds) mi1.mods mi1.data := by rw [← hb]; exact hg1.1.weak
    have hok := sp.ok hw he
    rw [hg1.2.2] at hok
    refine ⟨mi1, hok, hw, fun _ hne => (check_neutral hne hv).1, fun hex hd => ?_⟩
    exact (hsame mi1 (by rw [hg1.2.1]; exact hg1.1) (hg1.2.1.trans hb) hg1.2.2 h hd hex).elim
  | update hc => cases he
  | @change mi1 mi2 hc he2 hu =>
    have hg1 := check_good hc.valid hg
    have hf := hu.frame hg1.1.nodup
    have hw : Weak (s.read mi.ds) mi2.mods mi2.data := by
      rw [← hb]
      cases hu with
      | none => exact hg1.1.weak
      | some hs hr ha =>
        rcases hno with h | h
        · exact absurd hr (h _ _ _ hs)
        · exact updateApply_weak h ha hg1.1.weak
    have hds : mi2.ds = mi.ds := hf.2.2.trans hg1.2.2
    refine ⟨mi2, ?_, hw, fun hnu hne => ?_, fun _ hd => ⟨hu.valid hc.valid hd, fun k hk => hu.has stays_inv (hk.check stays_inv hc.valid)⟩⟩
    · rw [← hds] at he ⊢
      revert he
      refine changePhase_out env s mi2 _ (fun o => o.err = false → ∀ m, o.st.read mi2.ds m = mi2.data m) (fun l _ _ he => by cases he)
        (fun l _ he => ?_)
      exact (storePhase_spec env s (s.read mi2.ds) mi2 false _ hf.1 rfl).ok (by rw [hds]; exact hw) he
    · cases hu with
      | none => exact (check_neutral hne hc.valid).1
      | some hs hr ha => exact absurd hr (hnu _ _ _ hs)

/-! ## Replacing -/

theorem loaded_req (env : Env D) (s : Store D) (ds : Ds) (l : List Nat) (inv : Bool) :
    ∀ x ∈ (loaded env s ds l inv).mods, x.req = true → x.id ∈ l := by
  have hids : ∀ (l : List Nat) (a : List Mod) (x : Mod), x ∈ l.foldl (fun a m => addMod m a) a → x.id ∈ ids a ∨ x.id ∈ l := by
    intro l
    induction l with
    | nil => intro a x hx; exact Or.inl (mem_ids hx)
    | cons m l ih =>
      intro a x hx
      rcases ih _ x hx with h | h
      · have hsub : ∀ k ∈ ids (addMod m a), k ∈ ids a ∨ k = m := by
          intro k hk
          unfold addMod at hk
          split at hk
          · obtain ⟨y, hy, rfl⟩ := List.mem_map.1 hk
            obtain ⟨z, hz, rfl⟩ := List.mem_map.1 hy
            left
            have : (if (z.id == m && !z.req) = true then ({ z with new := true } : Mod) else z).id = z.id := by split <;> rfl
            rw [this]; exact mem_ids hz
          · simp only [ids, List.map_append, List.mem_append, List.map_cons, List.map_nil, List.mem_singleton] at hk
            rcases hk with hk | hk
            · exact Or.inl hk
            · exact Or.inr hk
        rcases hsub _ h with h | h
        · exact Or.inl h
        · exact Or.inr (by rw [h]; simp)
      · exact Or.inr (List.mem_cons_of_mem _ h)
  have hinv : ∀ (k : Nat) (a : List Mod), (∀ x ∈ a, x.req = true → x.id ∈ l) → ∀ x ∈ addInv k a, x.req = true → x.id ∈ l := by
    intro k a ha x hx hr
    unfold addInv at hx
    split at hx
    · obtain ⟨y, hy, rfl⟩ := List.mem_map.1 hx
      have h1 : (if (y.id == k) = true then y.setKind .inv else y).req = y.req := by split <;> rfl
      have h2 : (if (y.id == k) = true then y.setKind .inv else y).id = y.id := by split <;> rfl
      rw [h1] at hr; rw [h2]; exact ha y hy hr
    · rcases List.mem_append.1 hx with hx | hx
      · exact ha x hx hr
      · have : x = { id := k, inv := true } := by simpa using hx
        rw [this] at hr; cases hr
  have hfold : ∀ {α : Type} (g : List Mod → α → List Mod),
      (∀ a x, (∀ y ∈ a, y.req = true → y.id ∈ l) → ∀ y ∈ g a x, y.req = true → y.id ∈ l) →
      ∀ (xs : List α) (a : List Mod), (∀ y ∈ a, y.req = true → y.id ∈ l) → ∀ y ∈ xs.foldl g a, y.req = true → y.id ∈ l := by
    intro α g hg xs
    induction xs with
    | nil => intro a ha; exact ha
    | cons x xs ih => intro a ha; exact ih _ (hg a x ha)
  have hbase : ∀ x ∈ l.foldl (fun a m => addMod m a) [], x.id ∈ l := by
    intro x hx
    rcases hids l [] x hx with h | h
    · simp [ids] at h
    · exact h
  have hlk : ∀ a : List Mod, (∀ y ∈ a, y.req = true → y.id ∈ l) → ∀ y ∈ lockMods .upgr a, y.req = true → y.id ∈ l := by
    intro a ha y hy hr
    obtain ⟨z, hz, rfl⟩ := List.mem_map.1 hy
    have h1 : (if z.lock = .none then ({ z with lock := .upgr } : Mod) else z).req = z.req := by split <;> rfl
    have h2 : (if z.lock = .none then ({ z with lock := .upgr } : Mod) else z).id = z.id := by split <;> rfl
    rw [h1] at hr; rw [h2]; exact ha z hz hr
  have hmn : ∀ y ∈ markNew .req (l.foldl (fun a m => addMod m a) []), y.req = true → y.id ∈ l := by
    intro y hy _
    obtain ⟨z, hz, rfl⟩ := List.mem_map.1 hy
    have h2 : (if z.new = true then z.setKind .req else z).id = z.id := by split <;> rfl
    rw [h2]; exact hbase z hz
  show ∀ x ∈ consolidate env .req inv .upgr (l.foldl (fun a m => addMod m a) []), x.req = true → x.id ∈ l
  unfold consolidate
  split
  · cases inv with
    | false => exact hlk _ hmn
    | true =>
      refine hlk _ ?_
      simp only [if_true]
      exact hfold _ (fun a x ha => hfold _ (fun b k hb => hinv k b hb) _ a ha) _ _ hmn
  · exact fun x hx _ => hbase x hx

/-- The data after replacing. -/
theorem replaceData_data (env : Env D) (s : Store D) (ds : Ds) (ms : List Nat) (src : Nat → D) (inv : Bool) (m : Nat) :
    (replaceData src (loaded env s ds ms inv)).data m = if m ∈ ms then src m else s.read ds m := by
  have hg := loaded_good env s ds ms inv
  show (replaceLoop src (loaded env s ds ms inv).mods (s.read ds)).2 m = _
  rw [replaceLoop_data src _ _ hg.nodup]
  have : (∃ x ∈ (loaded env s ds ms inv).mods, x.id = m ∧ x.req = true) ↔ m ∈ ms := by
    constructor
    · rintro ⟨x, hx, rfl, hr⟩
      exact loaded_req env s ds ms inv x hx hr
    · intro hm
      obtain ⟨x, hx, h1, h2⟩ := (loaded_has env s ds ms inv m hm).1
      simp only [Bool.and_eq_true] at h2
      exact ⟨x, hx, h1, h2.1⟩
  simp only [this]

end Verif.Pipeline
