import Verif.ModOpsLemmas2

/-! Lemmas for installing: the preparation and the new internal data. -/

namespace Verif.ModOps

/-- The features a request names (an installed module has no feature called "*"). -/
def Req.named (r : Req) : List Feat := if r.star then [] else r.feats

/-- Enabling a feature of an installed module is asked for together with all features it has enabled. -/
def NoHole (m : Mods) (reqs : List Req) : Prop :=
  ∀ r ∈ reqs, ∀ i, m r.name = some i →
    (∀ f ∈ r.named, i.feats f = true) ∨ (∀ f, i.feats f = true → f ∈ r.named)

/-- The module as the request wants it. -/
def want (lib : Lib) (m : Mods) (r : Req) : Info :=
  match m r.name with
  | some i => { i with feats := fun f => i.feats f || r.named.contains f }
  | none => ⟨r.rev, fun f => if r.star then (lib.declared (r.name, r.rev)).contains f
      else r.feats.contains f⟩

/-- What the preparation of some requests has made. -/
structure Prepared (lib : Lib) (m : Mods) (done : List Req) (p : Prep) : Prop where
  wanted : ∀ r ∈ done, p.mods r.name = some (want lib m r)
  other : ∀ n, n ∉ done.map (·.name) → p.mods n = m n
  wf : Wf lib p.mods
  adds : ∀ n, n ∈ p.adds ↔ n ∈ done.map (·.name) ∧ m n = none
  ens : ∀ n fs, (n, fs) ∈ p.ens → ∃ r ∈ done, r.name = n ∧ ∃ i, m n = some i ∧
    (∀ f, f ∈ fs ↔ i.feats f = false ∧ f ∈ r.named)
  enNodup : (p.ens.map (·.1)).Nodup
  addNodup : p.adds.Nodup
  noEn : ∀ r ∈ done, ∀ i, m r.name = some i → (r.name ∉ p.ens.map (·.1)) →
    ∀ f ∈ r.named, i.feats f = true

theorem readArray_all {l : List Feat} {req : List Feat} (h : ∀ f ∈ l, f ∈ req) :
    readArray (l.map fun f => if req.contains f then some f else none) = l := by
  induction l with
  | nil => rfl
  | cons a l ih =>
    have ha : req.contains a = true := by simpa using h a (by simp)
    simp only [List.map_cons, ha, if_true, readArray]
    rw [ih fun f hf => h f (by simp [hf])]

theorem prepare1_prepared {lib : Lib} {call : Call} {m : Mods} {done : List Req} {p p' : Prep}
    {r : Req} (hm : Wf lib m) (hp : Prepared lib m done p) (hnew : r.name ∉ done.map (·.name))
    (hname : r.name ∈ lib.names) (hhole : NoHole m [r])
    (h : prepare1 lib call m p r = some p') : Prepared lib m (done ++ [r]) p' := by
  have hcase : ∀ n, n ∈ (done ++ [r]).map (·.name) ↔ n ∈ done.map (·.name) ∨ n = r.name := by
    intro n; simp [or_comm, eq_comm]
  have hnm : ∀ q ∈ done, q.name ≠ r.name := by
    intro q hq he
    exact hnew (List.mem_map.2 ⟨q, hq, he⟩)
  have hneen : r.name ∉ p.ens.map (·.1) := by
    intro hx
    obtain ⟨⟨n, fs⟩, he, hn⟩ := List.mem_map.1 hx
    obtain ⟨q, hq, hqn, _⟩ := hp.ens n fs he
    exact hnm q hq (hqn.trans hn)
  unfold prepare1 at h
  cases hi : m r.name with
  | some i =>
    rw [hi] at h
    simp only at h
    have hnamed : (if r.star = true then ([] : List Feat) else r.feats) = r.named := rfl
    rw [hnamed] at h
    split at h
    · cases h
    · rename_i hall
      have hall : ∀ f ∈ r.named, f ∈ lib.declared (r.name, i.rev) := by
        intro f hf
        simp only [Bool.not_eq_true, Bool.not_eq_false', List.all_eq_true] at hall
        simpa using hall f hf
      have hmem : ∀ f, f ∈ toEnable (lib.declared (r.name, i.rev)) i.feats r.named ↔
          i.feats f = false ∧ f ∈ r.named := by
        intro f
        simp only [toEnable, List.mem_filter, Bool.and_eq_true, Bool.not_eq_true', List.contains_eq_mem,
          decide_eq_true_eq]
        exact ⟨fun h => h.2, fun h => ⟨hall f h.2, h⟩⟩
      split at h
      · rename_i hempty
        have hnone : ∀ f ∈ r.named, i.feats f = true := by
          intro f hf
          cases hx : i.feats f with
          | true => rfl
          | false =>
            have := (hmem f).2 ⟨hx, hf⟩
            rw [List.isEmpty_iff.1 hempty] at this; cases this
        cases h
        refine ⟨?_, ?_, hp.wf, ?_, ?_, hp.enNodup, hp.addNodup, ?_⟩
        · intro q hq
          rcases List.mem_append.1 hq with hq | hq
          · exact hp.wanted q hq
          · rw [List.mem_singleton] at hq; subst hq
            rw [hp.other _ hnew, hi]
            simp only [want, hi]
            congr 1
            cases i with
            | mk rev feats =>
              simp only [Info.mk.injEq, true_and]
              funext f
              cases hf : feats f with
              | true => rfl
              | false =>
                cases hc : q.named.contains f with
                | false => rfl
                | true => have := hnone f (by simpa using hc); simp [hf] at this
        · intro n hn
          rw [hcase] at hn
          exact hp.other n (fun h => hn (Or.inl h))
        · intro n
          rw [hcase, hp.adds]
          constructor
          · rintro ⟨h1, h2⟩; exact ⟨Or.inl h1, h2⟩
          · rintro ⟨h1 | h1, h2⟩
            · exact ⟨h1, h2⟩
            · rw [h1, hi] at h2; cases h2
        · intro n fs hn
          obtain ⟨q, hq, hrest⟩ := hp.ens n fs hn
          exact ⟨q, by simp [hq], hrest⟩
        · intro q hq j hj hne
          rcases List.mem_append.1 hq with hq | hq
          · exact hp.noEn q hq j hj hne
          · rw [List.mem_singleton] at hq; subst hq
            rw [hi] at hj; cases hj
            exact hnone
      · rename_i hnempty
        split at h
        · cases h
        · cases h
          have hsome : ∃ f, i.feats f = false ∧ f ∈ r.named := by
            cases hx : toEnable (lib.declared (r.name, i.rev)) i.feats r.named with
            | nil => rw [hx] at hnempty; simp at hnempty
            | cons a l => exact ⟨a, (hmem a).1 (by rw [hx]; simp)⟩
          have hincl : ∀ f, i.feats f = true → f ∈ r.named := by
            rcases hhole r (by simp) i hi with h1 | h1
            · obtain ⟨f, hf0, hf1⟩ := hsome
              rw [h1 f hf1] at hf0; cases hf0
            · exact h1
          have hread : readArray (featArray (lib.declared (r.name, i.rev)) i.feats r.named) =
              (lib.declared (r.name, i.rev)).filter fun f => i.feats f || r.named.contains f := by
            unfold featArray
            refine readArray_all ?_
            intro f hf
            simp only [List.mem_filter, Bool.or_eq_true, List.contains_eq_mem, decide_eq_true_eq] at hf
            rcases hf.2 with h1 | h1
            · exact hincl f h1
            · exact h1
          have hinfo : ({ i with feats := fun f =>
              (readArray (featArray (lib.declared (r.name, i.rev)) i.feats r.named)).contains f } : Info) =
              want lib m r := by
            simp only [want, hi, hread, Info.mk.injEq, true_and]
            funext f
            rw [Bool.eq_iff_iff]
            simp only [List.contains_eq_mem, List.mem_filter, Bool.or_eq_true, decide_eq_true_eq]
            constructor
            · exact fun h => h.2
            · intro h
              refine ⟨?_, h⟩
              rcases h with h | h
              · exact (hm r.name i hi).2 f h
              · exact hall f h
          have hwfw : ∀ f, (want lib m r).feats f = true → f ∈ lib.declared (r.name, (want lib m r).rev) := by
            intro f hf
            simp only [want, hi, Bool.or_eq_true, List.contains_eq_mem, decide_eq_true_eq] at hf ⊢
            rcases hf with hf | hf
            · exact (hm r.name i hi).2 f hf
            · exact hall f hf
          refine ⟨?_, ?_, ?_, ?_, ?_, ?_, hp.addNodup, ?_⟩
          · intro q hq
            simp only [Mods.set]
            rcases List.mem_append.1 hq with hq | hq
            · rw [if_neg (hnm q hq)]; exact hp.wanted q hq
            · rw [List.mem_singleton] at hq; subst hq
              rw [if_pos rfl, hinfo]
          · intro n hn
            rw [hcase] at hn
            simp only [Mods.set]
            rw [if_neg fun h => hn (Or.inr h)]
            exact hp.other n (fun h => hn (Or.inl h))
          · intro n j hj
            simp only [Mods.set] at hj
            split at hj
            · rename_i hn
              rw [hinfo] at hj
              cases hj
              subst hn
              exact ⟨hname, hwfw⟩
            · exact hp.wf n j hj
          · intro n
            rw [hcase]
            simp only
            rw [hp.adds]
            constructor
            · rintro ⟨h1, h2⟩; exact ⟨Or.inl h1, h2⟩
            · rintro ⟨h1 | h1, h2⟩
              · exact ⟨h1, h2⟩
              · rw [h1, hi] at h2; cases h2
          · intro n fs hn
            rcases List.mem_append.1 hn with hn | hn
            · obtain ⟨q, hq, hrest⟩ := hp.ens n fs hn
              exact ⟨q, by simp [hq], hrest⟩
            · rw [List.mem_singleton] at hn
              cases hn
              exact ⟨r, by simp, rfl, i, hi, hmem⟩
          · rw [List.map_append, List.nodup_append]
            refine ⟨hp.enNodup, by simp, ?_⟩
            intro a ha b hb
            simp only [List.map_cons, List.map_nil, List.mem_singleton] at hb
            subst hb
            intro hab
            subst hab
            exact hneen ha
          · intro q hq j hj hne
            simp only [List.map_append, List.map_cons, List.map_nil, List.mem_append,
              List.mem_singleton, not_or] at hne
            rcases List.mem_append.1 hq with hq | hq
            · exact hp.noEn q hq j hj hne.1
            · rw [List.mem_singleton] at hq; subst hq
              exact absurd rfl hne.2
  | none =>
    rw [hi] at h
    simp only at h
    split at h
    · cases h
    · split at h
      · cases h
      · rename_i hall
        cases h
        have hinfo : (⟨r.rev, fun f => if r.star = true then (lib.declared (r.name, r.rev)).contains f
            else r.feats.contains f⟩ : Info) = want lib m r := by
          simp only [want, hi]
        have hwfw : ∀ f, (want lib m r).feats f = true → f ∈ lib.declared (r.name, (want lib m r).rev) := by
          intro f hf
          simp only [want, hi] at hf ⊢
          cases hs : r.star with
          | true => simpa [hs] using hf
          | false =>
            simp only [hs, Bool.not_false, Bool.true_and, Bool.not_eq_true, Bool.not_eq_false',
              List.all_eq_true] at hall
            simp only [hs, Bool.false_eq_true, if_false, List.contains_eq_mem, decide_eq_true_eq] at hf
            simpa using hall f hf
        refine ⟨?_, ?_, ?_, ?_, ?_, hp.enNodup, ?_, ?_⟩
        · intro q hq
          simp only [Mods.set]
          rcases List.mem_append.1 hq with hq | hq
          · rw [if_neg (hnm q hq)]; exact hp.wanted q hq
          · rw [List.mem_singleton] at hq; subst hq
            rw [if_pos rfl, hinfo]
        · intro n hn
          rw [hcase] at hn
          simp only [Mods.set]
          rw [if_neg fun h => hn (Or.inr h)]
          exact hp.other n (fun h => hn (Or.inl h))
        · intro n j hj
          simp only [Mods.set] at hj
          split at hj
          · rename_i hn
            rw [hinfo] at hj
            cases hj
            subst hn
            exact ⟨hname, hwfw⟩
          · exact hp.wf n j hj
        · intro n
          rw [hcase, List.mem_append, hp.adds, List.mem_singleton]
          constructor
          · rintro (⟨h1, h2⟩ | h1)
            · exact ⟨Or.inl h1, h2⟩
            · exact ⟨Or.inr h1, by rw [h1, hi]⟩
          · rintro ⟨h1 | h1, h2⟩
            · exact Or.inl ⟨h1, h2⟩
            · exact Or.inr h1
        · intro n fs hn
          obtain ⟨q, hq, hrest⟩ := hp.ens n fs hn
          exact ⟨q, by simp [hq], hrest⟩
        · rw [List.nodup_append]
          refine ⟨hp.addNodup, by simp, ?_⟩
          intro a ha b hb
          rw [List.mem_singleton] at hb
          subst hb
          intro hab
          subst hab
          exact hnew ((hp.adds _).1 ha).1
        · intro q hq j hj hne
          rcases List.mem_append.1 hq with hq | hq
          · exact hp.noEn q hq j hj hne
          · rw [List.mem_singleton] at hq; subst hq
            rw [hi] at hj; cases hj

theorem prepare_prepared {lib : Lib} {call : Call} {m : Mods} (hm : Wf lib m) :
    ∀ (reqs done : List Req) (p p' : Prep), Prepared lib m done p →
      ((done ++ reqs).map (·.name)).Nodup → (∀ r ∈ reqs, r.name ∈ lib.names) → NoHole m reqs →
      prepare lib call m p reqs = some p' → Prepared lib m (done ++ reqs) p' := by
  intro reqs
  induction reqs with
  | nil => intro done p p' hp _ _ _ h; cases h; simpa using hp
  | cons r l ih =>
    intro done p p' hp hnd hnm hh h
    unfold prepare at h
    split at h
    · cases h
    · rename_i p1 h1
      have hp1 := prepare1_prepared hm hp (by
        intro hx
        rw [List.map_append, List.nodup_append] at hnd
        exact hnd.2.2 _ hx _ (by simp) rfl) (hnm r (by simp))
        (fun q hq i hi => hh q (by rw [List.mem_singleton] at hq; simp [hq]) i hi) h1
      have := ih (done ++ [r]) p1 p' hp1 (by simpa using hnd) (fun q hq => hnm q (by simp [hq]))
        (fun q hq i hi => hh q (by simp [hq]) i hi) h
      simpa using this

theorem prepared_nil {lib : Lib} {m : Mods} (hm : Wf lib m) : Prepared lib m [] ⟨m, [], []⟩ :=
  ⟨by simp, by simp, hm, by simp, by simp, by simp, by simp, by simp⟩

/-- Enabling features in the internal data. -/
theorem lydEnable_spec : ∀ (l : List (Name × List Feat)) (m m' : Mods), (l.map (·.1)).Nodup →
    lydEnable m l = some m' →
    (∀ n, n ∉ l.map (·.1) → m' n = m n) ∧
    (∀ n fs, (n, fs) ∈ l → ∃ i, m n = some i ∧ (∀ f ∈ fs, i.feats f = false) ∧
      m' n = some { i with feats := fun f => i.feats f || fs.contains f }) := by
  intro l
  induction l with
  | nil => intro m m' _ h; cases h; simp
  | cons a l ih =>
    obtain ⟨n, fs⟩ := a
    intro m m' hnd h
    unfold lydEnable at h
    split at h
    · cases h
    · rename_i i hi
      split at h
      · cases h
      · rename_i j hj
        simp only [List.map_cons, List.nodup_cons] at hnd
        obtain ⟨h1, h2⟩ := ih _ _ hnd.2 h
        unfold addFeats at hj
        split at hj
        · cases hj
        · rename_i hany
          cases hj
          refine ⟨?_, ?_⟩
          · intro x hx
            simp only [List.map_cons, List.mem_cons, not_or] at hx
            rw [h1 x hx.2]
            simp [Mods.set, hx.1]
          · intro x gs hx
            rcases List.mem_cons.1 hx with hx | hx
            · cases hx
              refine ⟨i, hi, ?_, ?_⟩
              · intro f hf
                cases hff : i.feats f with
                | false => rfl
                | true => exact absurd (List.any_eq_true.2 ⟨f, hf, hff⟩) hany
              · rw [h1 n hnd.1]; simp [Mods.set]
            · obtain ⟨j, hj, hrest⟩ := h2 x gs hx
              have hne : x ≠ n := by
                intro hxn
                exact hnd.1 (List.mem_map.2 ⟨(x, gs), hx, hxn⟩)
              rw [show (m.set n { i with feats := fun f => i.feats f || fs.contains f }) x = m x by
                simp [Mods.set, hne]] at hj
              exact ⟨j, hj, hrest⟩

/-- Adding modules to the internal data. -/
theorem lydAdd_spec {ctx : Mods} : ∀ (l : List Name) (m m' : Mods), lydAdd ctx m l = some m' →
    (∀ n, m' n = if n ∈ l then ctx n else m n) ∧
    (∀ n ∈ l, m n = none ∧ (ctx n).isSome = true) ∧ l.Nodup := by
  intro l
  induction l with
  | nil => intro m m' h; cases h; simp
  | cons a l ih =>
    intro m m' h
    unfold lydAdd at h
    split at h
    · rename_i i hm hc
      obtain ⟨h1, h2, h3⟩ := ih _ _ h
      have ha : a ∉ l := by
        intro ha
        have := (h2 a ha).1
        simp [Mods.set] at this
      refine ⟨?_, ?_, ?_⟩
      · intro n
        rw [h1 n]
        by_cases hn : n = a
        · subst hn; simp [ha, Mods.set, hc]
        · simp [hn, Mods.set]
      · intro n hn
        rcases List.mem_cons.1 hn with hn | hn
        · subst hn; exact ⟨hm, by simp [hc]⟩
        · have := h2 n hn
          have hne : n ≠ a := fun hna => ha (hna ▸ hn)
          refine ⟨?_, this.2⟩
          have h4 := this.1
          simpa [Mods.set, hne] using h4
      · exact List.nodup_cons.2 ⟨ha, h3⟩
    · cases h

/-- The check of the dependencies. -/
def depsOk (lib : Lib) (ctx m : Mods) : Prop :=
  ∀ n ∈ lib.names, (m n).isSome = true → (ctx n).isSome = true ∧ ∀ t ∈ lib.deps ctx n, (m t).isSome = true

theorem withDeps_check {lib : Lib} {ctx m : Mods} :
    (lib.names.all fun n => match m n with
      | some _ => (ctx n).isSome && (lib.deps ctx n).all fun t => (m t).isSome
      | none => true) = true ↔ depsOk lib ctx m := by
  unfold depsOk
  rw [List.all_eq_true]
  constructor
  · intro h n hn hs
    have := h n hn
    obtain ⟨i, hi⟩ := Option.isSome_iff_exists.1 hs
    rw [hi] at this
    simpa [List.all_eq_true] using this
  · intro h n hn
    cases hm : m n with
    | none => rfl
    | some i =>
      obtain ⟨h1, h2⟩ := h n hn (by simp [hm])
      simp only [h1, Bool.true_and, List.all_eq_true]
      exact h2

theorem withDeps_ok {lib : Lib} {a ctx m : Mods} {r : Rec} (h : withDeps lib a ctx m = some r) :
    depsOk lib ctx m := by
  unfold withDeps at h
  split at h
  · rename_i hc; exact withDeps_check.1 hc
  · cases h

theorem withDeps_of {lib : Lib} {a ctx m : Mods} (h : depsOk lib ctx m) :
    ∃ r, withDeps lib a ctx m = some r ∧ r.mods = m := by
  cases hx : withDeps lib a ctx m with
  | some r => exact ⟨r, rfl, withDeps_mods hx⟩
  | none =>
    unfold withDeps at hx
    split at hx
    · cases hx
    · rename_i hc; exact absurd (withDeps_check.2 h) hc

/-- What the new internal data of an installation are. -/
structure NewData (lib : Lib) (ctx m : Mods) (p : Prep) (r : Rec) (newM : List Name) : Prop where
  deps : depsOk lib ctx r.mods
  new : ∀ n ∈ newM, m n = none ∧ r.mods n = ctx n ∧ (ctx n).isSome = true
  enabled : ∀ n fs, (n, fs) ∈ p.ens → ∃ i, m n = some i ∧ (∀ f ∈ fs, i.feats f = false) ∧
    r.mods n = some { i with feats := fun f => i.feats f || fs.contains f }
  other : ∀ n, n ∉ newM → n ∉ p.ens.map (·.1) → r.mods n = m n
  adds : ∀ n ∈ p.adds, n ∈ newM
  imp : ∀ n ∈ newM, n ∈ p.adds ∨ ∃ a ∈ p.adds, ∃ i j, ctx n = some i ∧ ctx a = some j ∧
    (n, i.rev) ∈ reach lib (a, j.rev)

theorem lydInstall_spec {lib : Lib} {ctx m : Mods} {p : Prep} {r : Rec} {newM : List Name}
    (hens : (p.ens.map (·.1)).Nodup)
    (h : lydInstall lib ctx m p = some (r, newM)) : NewData lib ctx m p r newM := by
  unfold lydInstall at h
  split at h
  · cases h
  · rename_i m1 h1
    obtain ⟨e1, e2⟩ := lydEnable_spec _ _ _ hens h1
    split at h
    · cases h
    · rename_i m2 h2
      obtain ⟨a1, a2, a3⟩ := lydAdd_spec _ _ _ h2
      simp only at h
      split at h
      · cases h
      · rename_i m3 h3
        obtain ⟨b1, b2, b3⟩ := lydAdd_spec _ _ _ h3
        split at h
        · cases h
        · rename_i r' h4
          cases h
          have hr := withDeps_mods h4
          have hm1none : ∀ n, m1 n = none → m n = none := by
            intro n hn
            by_cases hin : n ∈ p.ens.map (·.1)
            · obtain ⟨⟨x, fs⟩, he, rfl⟩ := List.mem_map.1 hin
              obtain ⟨i, _, _, hx⟩ := e2 x fs he
              simp only at hn
              rw [hx] at hn; cases hn
            · rw [← e1 n hin]; exact hn
          have hnewnone : ∀ n ∈ p.adds ++ implied lib ctx m2 p, m1 n = none := by
            intro n hn
            rcases List.mem_append.1 hn with hn | hn
            · exact (a2 n hn).1
            · have h5 := (b2 n hn).1
              rw [a1 n] at h5
              split at h5
              · rename_i ha; exact (a2 n ha).1
              · exact h5
          refine ⟨by rw [hr]; exact withDeps_ok h4, ?_, ?_, ?_, ?_, ?_⟩
          · intro n hn
            refine ⟨hm1none n (hnewnone n hn), ?_, ?_⟩
            · rw [hr, b1 n]
              split
              · rfl
              · rename_i hni
                rcases List.mem_append.1 hn with hn | hn
                · rw [a1 n, if_pos hn]
                · exact absurd hn hni
            · rcases List.mem_append.1 hn with hn | hn
              · exact (a2 n hn).2
              · exact (b2 n hn).2
          · intro n fs he
            obtain ⟨i, hi, hf, hx⟩ := e2 n fs he
            refine ⟨i, hi, hf, ?_⟩
            have hnot : n ∉ p.adds ++ implied lib ctx m2 p := by
              intro hin
              rw [hnewnone n hin] at hx; cases hx
            rw [List.mem_append, not_or] at hnot
            rw [hr, b1 n, if_neg hnot.2, a1 n, if_neg hnot.1, hx]
          · intro n hn hne
            rw [List.mem_append, not_or] at hn
            rw [hr, b1 n, if_neg hn.2, a1 n, if_neg hn.1, e1 n hne]
          · intro n hn; simp [hn]
          · intro n hn
            rcases List.mem_append.1 hn with hn | hn
            · exact Or.inl hn
            · right
              unfold implied at hn
              rw [List.mem_filter] at hn
              have h6 := hn.2
              split at h6
              · rename_i i hci _
                rw [List.any_eq_true] at h6
                obtain ⟨a, ha, h7⟩ := h6
                split at h7
                · rename_i j hj
                  refine ⟨a, ha, i, j, hci, hj, ?_⟩
                  exact walk_sub_reach lib _ _ _ _ (by simpa using h7)
                · cases h7
              · cases h6

end Verif.ModOps
