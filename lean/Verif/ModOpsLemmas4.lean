import Verif.ModOpsLemmas3

/-! Lemmas for installing: the body, its undo and the result. -/

namespace Verif.ModOps

/-- The state while an installation is under way. -/
structure Mid (lib : Lib) (s1 : State) (r : Rec) (newM : List Name) (w : Work) : Prop where
  frame : w.s = { s1 with lyd := r, shm := w.s.shm, inst := w.s.inst, yang := w.s.yang }
  shm : w.s.shm = if w.shmCh then r else s1.shm
  inst : ∀ x d, w.s.inst x d = (s1.inst x d || w.flagI.contains (x, d))
  flags : ∀ x d, (x, d) ∈ w.flagI → x ∈ newM
  yang : ∀ g, s1.yang g = true → w.s.yang g = true

theorem mid_installCb {lib : Lib} {call : Call} {s1 : State} {r : Rec} {newM : List Name} {n : Name}
    {d : Ds} (hn : n ∈ newM) : Keeps (Mid lib s1 r newM) (installCb call n d) := by
  intro w hw
  unfold installCb
  split
  · exact hw
  · refine keeps_andThen (keeps_andThen keeps_gate ?_) keeps_gate w hw
    intro w hw
    refine ⟨?_, hw.shm, ?_, ?_, hw.yang⟩
    · simp only
      rw [hw.frame]
    · intro x e
      simp only
      rw [List.contains_cons]
      by_cases hx : x = n ∧ e = d
      · obtain ⟨rfl, rfl⟩ := hx; simp
      · rw [if_neg hx, hw.inst x e]
        have : ((x, e) == (n, d)) = false := by
          rw [beq_eq_false_iff_ne]; intro h; cases h; exact hx ⟨rfl, rfl⟩
        rw [this, Bool.false_or]
    · intro x e hx
      rcases List.mem_cons.1 hx with hx | hx
      · cases hx; exact hn
      · exact hw.flags x e hx

theorem mid_yangStore {lib : Lib} {call : Call} {s1 : State} {r : Rec} {newM : List Name} {f : File} :
    Keeps (Mid lib s1 r newM) (yangStore lib call f) := by
  intro w hw
  unfold yangStore
  cases call.fate (.yang f.1) <;>
  · refine ⟨?_, hw.shm, hw.inst, hw.flags, ?_⟩
    · rw [hw.frame]
    · intro g hg; simp [hw.yang g hg]

theorem mid_shmWrite {lib : Lib} {call : Call} {s1 : State} {r : Rec} {newM : List Name}
    (h : call.fate .shmStore ≠ .fail) : Keeps (Mid lib s1 r newM) (shmWrite call .shmStore r) := by
  intro w hw
  unfold shmWrite
  cases hp : call.fate .shmStore with
  | go =>
    refine ⟨?_, by simp, hw.inst, hw.flags, hw.yang⟩
    simp only
    rw [hw.frame]
  | fail => exact absurd hp h
  | die => exact hw

theorem mid_updateData {lib : Lib} {call : Call} {c : Nat} {ctx : Mods} {s1 : State} {r : Rec}
    {newM : List Name} {given : Bool} :
    Keeps (Mid lib s1 r newM) (updateData lib call c ctx newM given) := by
  unfold updateData loadOld validate
  refine keeps_andThen (keeps_andThen keeps_gate keeps_check) (keeps_andThen ?_
    (keeps_andThen keeps_check keeps_gate))
  split
  · exact keeps_act_id
  · exact keeps_each fun d _ => keeps_each fun n hn => mid_installCb hn

theorem mid_addModules {lib : Lib} {call : Call} {ctx : Mods} {s1 : State} {r : Rec}
    {newM : List Name} : Keeps (Mid lib s1 r newM) (addModules lib call ctx newM) :=
  keeps_each fun _ hn => keeps_andThen (keeps_each fun _ _ => mid_installCb hn) mid_yangStore

theorem installCb_ok {call : Call} {n : Name} {d : Ds} {w w' : Work}
    (h : installCb call n d w = (w', .ok)) : (n, d) ∈ w'.flagI := by
  unfold installCb at h
  split at h
  · rename_i hc
    cases h
    simpa using hc
  · obtain ⟨w1, h1, h2⟩ := andThen_ok.1 h
    obtain ⟨w2, h3, h4⟩ := andThen_ok.1 h1
    obtain ⟨_, rfl⟩ := gate_ok.1 h2
    simp only [Prod.mk.injEq, and_true] at h4
    rw [← h4]
    simp

theorem flagI_mono {call : Call} {n x : Name} {d e : Ds} :
    Keeps (fun w => (x, e) ∈ w.flagI) (installCb call n d) := by
  intro w hw
  unfold installCb
  split
  · exact hw
  · refine keeps_andThen (I := fun w => (x, e) ∈ w.flagI) (keeps_andThen keeps_gate ?_) keeps_gate w hw
    intro w hw
    exact List.mem_cons_of_mem _ hw

theorem flagI_yang {lib : Lib} {call : Call} {f : File} {x : Name} {e : Ds} :
    Keeps (fun w => (x, e) ∈ w.flagI) (yangStore lib call f) := by
  intro w hw
  unfold yangStore
  cases call.fate (.yang f.1) <;> exact hw

theorem yang_mono_install {call : Call} {n : Name} {d : Ds} {g : File} :
    Keeps (fun w => w.s.yang g = true) (installCb call n d) := by
  intro w hw
  unfold installCb
  split
  · exact hw
  · refine keeps_andThen (I := fun w => w.s.yang g = true) (keeps_andThen keeps_gate ?_) keeps_gate w hw
    intro w hw
    exact hw

theorem yang_mono_store {lib : Lib} {call : Call} {f g : File} :
    Keeps (fun w => w.s.yang g = true) (yangStore lib call f) := by
  intro w hw
  unfold yangStore
  cases call.fate (.yang f.1) <;> simp [hw]

theorem addModules_ok {lib : Lib} {call : Call} {ctx : Mods} {newM : List Name} {w w' : Work}
    (h : addModules lib call ctx newM w = (w', .ok)) :
    ∀ n ∈ newM, (∀ d, (n, d) ∈ w'.flagI) ∧
      ∀ i, ctx n = some i → ∀ g ∈ reach lib (n, i.rev), w'.s.yang g = true := by
  refine each_all (fun _ => True) (fun n w => (∀ d, (n, d) ∈ w.flagI) ∧
      ∀ i, ctx n = some i → ∀ g ∈ reach lib (n, i.rev), w.s.yang g = true)
    (fun _ _ _ _ => trivial) ?_ ?_ w w' trivial h
  · intro n _ v v' _ hv
    obtain ⟨v1, h1, h2⟩ := andThen_ok.1 hv
    refine ⟨fun d => ?_, ?_⟩
    · have : (n, d) ∈ v1.flagI :=
        each_all (fun _ => True) (fun d w => (n, d) ∈ w.flagI) (fun _ _ _ _ => trivial)
          (fun d _ u u' _ hu => installCb_ok hu)
          (fun d _ e _ u hu => ⟨trivial, flagI_mono u hu.2⟩) v v1 trivial h1 d (mem_allDs d)
      exact flagI_yang.res this h2
    · intro i hi g hg
      rw [show revOf ctx n = i.rev by simp [revOf, hi]] at h2
      exact yangStore_ok h2 g hg
  · intro n _ x _ v hv
    refine ⟨trivial, fun d => ?_, fun i hi g hg => ?_⟩
    · exact keeps_andThen (I := fun w => (n, d) ∈ w.flagI) (keeps_each fun _ _ => flagI_mono)
        flagI_yang v (hv.2.1 d)
    · exact keeps_andThen (I := fun w => w.s.yang g = true) (keeps_each fun _ _ => yang_mono_install)
        yang_mono_store v (hv.2.2 i hi g hg)

/-- The modules of the new context are new or were there. -/
theorem updateData_dom {lib : Lib} {call : Call} {c : Nat} {ctx : Mods} {newM : List Name}
    {given : Bool} {s1 : State} {r : Rec} {w w' : Work} (hw : Mid lib s1 r newM w)
    (hch : w.s.shm = s1.shm) (h : updateData lib call c ctx newM given w = (w', .ok)) :
    ∀ n ∈ lib.names, (ctx n).isSome = true → n ∈ newM ∨ (s1.shm.mods n).isSome = true := by
  unfold updateData loadOld validate at h
  obtain ⟨w1, h1, h2⟩ := andThen_ok.1 h
  have k1 : Keeps (fun w => w.s.shm = s1.shm) (andThen (gate call .loadData) (check (fun s =>
    lib.names.all fun n => ((s.conn c).ctx n).isNone || (s.shm.mods n).isSome) .err)) :=
    keeps_andThen keeps_gate keeps_check
  have e1 := k1.res hch h1
  obtain ⟨w3, h5, h6⟩ := andThen_ok.1 h2
  have k2 : Keeps (fun w => w.s.shm = s1.shm) (if given then act id else
      each confDs fun d => each newM fun n => installCb call n d) := by
    split
    · exact keeps_act_id
    · refine keeps_each fun d _ => keeps_each fun n _ => ?_
      intro w hw
      unfold installCb
      split
      · exact hw
      · refine keeps_andThen (I := fun w => w.s.shm = s1.shm) (keeps_andThen keeps_gate ?_) keeps_gate w hw
        intro w hw
        exact hw
  have e3 := k2.res e1 h5
  obtain ⟨w4, h7, h8⟩ := andThen_ok.1 h6
  obtain ⟨hall, rfl⟩ := (check_ok (by simp)).1 h7
  intro n hn hc
  have := List.all_eq_true.1 hall n hn
  simp only [Bool.or_eq_true, List.contains_eq_mem, decide_eq_true_eq, e3] at this
  rcases this with (hx | hx) | hx
  · cases hc' : ctx n with
    | none => rw [hc'] at hc; cases hc
    | some i => rw [hc'] at hx; cases hx
  · exact Or.inl hx
  · exact Or.inr hx

/-! ## The undo -/

/-- Removes features from modules. -/
def removeFeats (m : Mods) (l : List (Name × Feat)) : Mods := fun n =>
  (m n).map fun i => { i with feats := fun f => i.feats f && !l.contains (n, f) }

theorem removeFeats_dom (m : Mods) (l : List (Name × Feat)) (n : Name) :
    (removeFeats m l n).isSome = (m n).isSome := by
  simp [removeFeats]

/-- The steps of the undo do not fail. -/
structure UndoGoes (call : Call) : Prop where
  feat : ∀ n f, call.fate (.uFeat n f) = .go
  del : call.fate .uDel = .go
  shm : call.fate .uShm = .go
  uninstall : ∀ n d, call.fate (.uUninstall n d) = .go

theorem depsOk_congr {lib : Lib} {ctx m m' : Mods} (h : ∀ n, (m' n).isSome = (m n).isSome)
    (hd : depsOk lib ctx m) : depsOk lib ctx m' := by
  intro n hn hs
  rw [h n] at hs
  obtain ⟨h1, h2⟩ := hd n hn hs
  exact ⟨h1, fun t ht => by rw [h t]; exact h2 t ht⟩

theorem undoFeats_spec {lib : Lib} {call : Call} {old ctx : Mods} (hu : UndoGoes call) :
    ∀ (l : List (Name × Feat)) (w : Work), depsOk lib ctx w.s.lyd.mods →
      ∃ r, undoFeats lib call old ctx l w = ({ w with s := { w.s with lyd := r } }, .ok) ∧
        r.mods = removeFeats w.s.lyd.mods l := by
  intro l
  induction l with
  | nil =>
    intro w _
    refine ⟨w.s.lyd, rfl, ?_⟩
    funext n
    simp only [removeFeats]
    cases w.s.lyd.mods n <;> simp
  | cons a l ih =>
    obtain ⟨n, f⟩ := a
    intro w hd
    unfold undoFeats orGo
    cases hx : lydFeature lib old ctx w.s.lyd.mods n f false with
    | some r =>
      have hw : undoFeat lib call old ctx n f w = ({ w with s := { w.s with lyd := r } }, .ok) := by
        unfold undoFeat
        rw [hx]
        exact lydWrite_ok.2 ⟨hu.feat n f, rfl⟩
      rw [hw]
      simp only
      have hm := lydFeature_mods hx
      obtain ⟨r', h1, h2⟩ := ih { w with s := { w.s with lyd := r } } (by
        refine depsOk_congr (m := w.s.lyd.mods) (fun x => ?_) hd
        simp only [hm, featureMods]
        split
        · rename_i hxn; subst hxn; simp
        · rfl)
      refine ⟨r', h1, ?_⟩
      rw [h2]
      simp only [hm]
      funext x
      simp only [removeFeats, featureMods]
      by_cases hxn : x = n
      · subst hxn
        cases w.s.lyd.mods x with
        | none => simp
        | some i =>
          simp only [if_true, Option.map_some, Option.some.injEq, Info.mk.injEq, true_and]
          funext y
          rw [List.contains_cons]
          by_cases hy : y = f
          · simp [hy]
          · have : ((x, y) == (x, f)) = false := by
              rw [beq_eq_false_iff_ne]; intro h; cases h; exact hy rfl
            rw [if_neg hy, this, Bool.false_or]
      · rw [if_neg hxn]
        cases w.s.lyd.mods x with
        | none => rfl
        | some i =>
          simp only [Option.map_some, Option.some.injEq, Info.mk.injEq, true_and]
          funext y
          rw [List.contains_cons]
          have : ((x, y) == (n, f)) = false := by
            rw [beq_eq_false_iff_ne]; intro h; cases h; exact hxn rfl
          rw [this, Bool.false_or]
    | none =>
      have hw : undoFeat lib call old ctx n f w = (w, .err) := by
        unfold undoFeat
        rw [hx]
      rw [hw]
      simp only
      obtain ⟨r', h1, h2⟩ := ih w hd
      refine ⟨r', h1, ?_⟩
      rw [h2]
      funext x
      simp only [removeFeats]
      cases hmx : w.s.lyd.mods x with
      | none => rfl
      | some i =>
        simp only [Option.map_some, Option.some.injEq, Info.mk.injEq, true_and]
        funext y
        rw [List.contains_cons]
        cases he : ((x, y) == (n, f)) with
        | false => rw [Bool.false_or]
        | true =>
          have he := eq_of_beq he
          obtain ⟨rfl, rfl⟩ := Prod.mk.inj he
          -- the feature is not enabled, otherwise it could be disabled
          have : i.feats y = false := by
            cases hf : i.feats y with
            | false => rfl
            | true =>
              exfalso
              unfold lydFeature at hx
              rw [hmx] at hx
              simp only [Bool.false_eq_true, if_false, hf, if_true] at hx
              obtain ⟨r, hr, _⟩ := withDeps_of (a := old) (depsOk_congr (m := w.s.lyd.mods)
                (m' := w.s.lyd.mods.set x { i with feats := fun z => i.feats z && z != y })
                (fun z => by
                  unfold Mods.set
                  split
                  · rename_i hz; rw [hz, hmx]; rfl
                  · rfl) hd)
              rw [hr] at hx; cases hx
          simp [this]

/-- What the revert keeps. -/
structure Reverting (lib : Lib) (old : Mods) (newM : List Name) (w0 w : Work) : Prop where
  frame : w = { w0 with s := { w0.s with inst := w.s.inst, data := w.s.data, yang := w.s.yang } }
  inst : ∀ x d, (x, d) ∉ w0.flagI → w.s.inst x d = w0.s.inst x d
  data : ∀ d k, w.s.data d k = w0.s.data d k ∨ (lib.home k ∈ newM ∧ w.s.data d k = none)
  yang : ∀ g, inCtx lib old g = true → w0.s.yang g = true → w.s.yang g = true

theorem reverting_uninstall {lib : Lib} {call : Call} {old : Mods} {newM : List Name} {w0 : Work}
    {n : Name} {d : Ds} (hn : n ∈ newM) :
    Keeps (Reverting lib old newM w0) (revertDs lib call n d) := by
  intro w hw
  unfold revertDs
  split
  · rename_i hf
    have hf0 : (n, d) ∈ w0.flagI := by rw [hw.frame] at hf; simpa using hf
    refine keeps_andThen (I := Reverting lib old newM w0) keeps_gate ?_ w hw
    intro w hw
    refine ⟨?_, ?_, ?_, hw.yang⟩
    · simp only [act, uninstall]; rw [hw.frame]
    · intro x e hx
      have : ¬ (x = n ∧ e = d) := by rintro ⟨rfl, rfl⟩; exact hx hf0
      simp only [act, uninstall, this, if_false]
      exact hw.inst x e hx
    · intro e k
      simp only [act, uninstall]
      split
      · rename_i h; right; exact ⟨h.2 ▸ hn, rfl⟩
      · exact hw.data e k
  · exact hw

theorem reverting_yang {lib : Lib} {old : Mods} {newM : List Name} {w0 : Work} {n : Name} {f : Nat} :
    Keeps (Reverting lib old newM w0) (revertYang lib old n f) := by
  intro w hw
  unfold revertYang
  split
  · refine ⟨?_, hw.inst, hw.data, ?_⟩
    · simp only [act, yangRemove]; rw [hw.frame]
    · intro g hg h0
      simp [act, yangRemove, hw.yang g hg h0, hg]
  · exact hw

theorem revert_spec {lib : Lib} {call : Call} {old ctx : Mods} {newM : List Name} (hu : UndoGoes call)
    {w w' : Work} {r : Res} (h : revert lib call old ctx newM w = (w', r)) :
    r = .ok ∧ Reverting lib old newM w w' ∧
      ∀ n ∈ newM, ∀ d, (n, d) ∈ w.flagI → w'.s.inst n d = false := by
  have hk : Keeps (Reverting lib old newM w) (revert lib call old ctx newM) :=
    keeps_each fun n hn => keeps_andThen (keeps_each fun d _ => reverting_uninstall hn) reverting_yang
  have hfr : Reverting lib old newM w w' := hk.res ⟨rfl, fun _ _ _ => rfl, fun _ _ => Or.inl rfl, fun _ _ h => h⟩ h
  have okAnd : ∀ a b : Step, (∀ w, (a w).2 = .ok) → (∀ w, (b w).2 = .ok) → ∀ w, (andThen a b w).2 = .ok := by
    intro a b ha hb w
    unfold andThen
    have := ha w
    rcases hx : a w with ⟨w1, r1⟩
    rw [hx] at this
    simp only at this
    subst this
    exact hb w1
  have okEach : ∀ {α : Type} (l : List α) (f : α → Step), (∀ a ∈ l, ∀ w, (f a w).2 = .ok) →
      ∀ w, (each l f w).2 = .ok := by
    intro α l f
    induction l with
    | nil => intro _ w; rfl
    | cons a l ih =>
      intro hf w
      exact okAnd _ _ (hf a (by simp)) (ih fun b hb => hf b (by simp [hb])) w
  have okStep : ∀ n d w, (revertDs lib call n d w).2 = .ok := by
    intro n d w
    unfold revertDs
    split
    · exact okAnd _ _ (fun w => by simp [gate, hu.uninstall n d]) (fun w => rfl) w
    · rfl
  have hok : r = .ok := by
    have := okEach newM (fun n => andThen (each allDs fun d => revertDs lib call n d)
      (revertYang lib old n (revOf ctx n))) (fun n _ w => okAnd _ _ (okEach _ _ fun d _ => okStep n d)
          (fun w => by unfold revertYang; split <;> rfl) w) w
    unfold revert at h
    rw [h] at this
    exact this
  subst hok
  refine ⟨rfl, hfr, ?_⟩
  have hinv : ∀ n ∈ newM, Keeps (fun v => v.flagI = w.flagI) (andThen
      (each allDs fun d => revertDs lib call n d) (revertYang lib old n (revOf ctx n))) := by
    intro n _
    refine keeps_andThen (keeps_each fun d _ => ?_) ?_
    · intro v hv
      unfold revertDs
      split
      · refine keeps_andThen (I := fun v => v.flagI = w.flagI) keeps_gate ?_ v hv
        intro v hv; exact hv
      · exact hv
    · intro v hv
      unfold revertYang
      split
      · exact hv
      · exact hv
  have hmono : ∀ n d x e, Keeps (fun v => v.s.inst x e = false) (revertDs lib call n d) := by
    intro n d x e v hv
    unfold revertDs
    split
    · refine keeps_andThen (I := fun v => v.s.inst x e = false) keeps_gate ?_ v hv
      intro v hv
      simp only [act, uninstall]
      split
      · rfl
      · exact hv
    · exact hv
  refine each_all (fun v => v.flagI = w.flagI) (fun n v => ∀ d, (n, d) ∈ w.flagI → v.s.inst n d = false)
    hinv ?_ ?_ w w' rfl h
  · intro n _ v v' hv hr d hd
    obtain ⟨v1, h1, h2⟩ := andThen_ok.1 hr
    have h3 : v1.s.inst n d = false := by
      refine each_all (fun v => v.flagI = w.flagI) (fun d v => (n, d) ∈ w.flagI → v.s.inst n d = false)
        ?_ ?_ ?_ v v1 hv h1 d (mem_allDs d) hd
      · intro d _ v hv
        unfold revertDs
        split
        · refine keeps_andThen (I := fun v => v.flagI = w.flagI) keeps_gate ?_ v hv
          intro v hv; exact hv
        · exact hv
      · intro d _ u u' hu' hr' hd'
        unfold revertDs at hr'
        rw [if_pos (by rw [hu']; simpa using hd')] at hr'
        obtain ⟨u1, h4, h5⟩ := andThen_ok.1 hr'
        rw [act_ok.1 h5]
        simp [uninstall]
      · intro d _ e _ u hu'
        refine ⟨?_, fun hd' => hmono n e n d u (hu'.2 hd')⟩
        unfold revertDs
        split
        · refine keeps_andThen (I := fun v => v.flagI = w.flagI) keeps_gate ?_ u hu'.1
          intro v hv; exact hv
        · exact hu'.1
    unfold revertYang at h2
    split at h2
    · rw [act_ok.1 h2]; exact h3
    · cases h2; exact h3
  · intro n hn x hx v hv
    refine ⟨hinv x hx v hv.1, fun d hd => ?_⟩
    refine keeps_andThen (I := fun v => v.s.inst n d = false) (keeps_each fun e _ => hmono x e n d) ?_ v (hv.2 d hd)
    intro v hv
    unfold revertYang
    split
    · exact hv
    · exact hv

/-- Undoing gives the old modules back. -/
theorem installUndo_spec {lib : Lib} {call : Call} {ctx : Mods} {p : Prep} {r : Rec}
    {newM : List Name} {s1 : State} {w w' : Work} {res : Res} (hu : UndoGoes call)
    (hg : Good lib s1) (hN : NewData lib ctx s1.lyd.mods p r newM)
    (hback : ∀ n t, (s1.shm.mods n).isSome = true → t ∈ lib.deps ctx n → (s1.shm.mods t).isSome = true)
    (hens : (p.ens.map (·.1)).Nodup)
    (hw : Mid lib s1 r newM w)
    (h : installUndo lib call s1.shm.mods ctx p newM w = (w', res)) :
    Good lib w'.s ∧ SameMods s1 w'.s ∧ w'.s.conns = s1.conns ∧ w'.s.oper = s1.oper := by
  unfold installUndo at h
  have hlyd : w.s.lyd = r := by rw [hw.frame]
  obtain ⟨r1, h1, hr1⟩ := undoFeats_spec (old := s1.shm.mods) hu (undoList p) w (by rw [hlyd]; exact hN.deps)
  rw [hlyd] at hr1
  -- the modules without the new ones and the enabled features are the old ones
  have hback1 : (r1.mods.drop newM) = s1.lyd.mods := by
    funext n
    unfold Mods.drop
    split
    · rename_i hn; rw [(hN.new n hn).1]
    · rename_i hn
      rw [hr1]
      unfold removeFeats
      by_cases he : n ∈ p.ens.map (·.1)
      · obtain ⟨⟨x, fs⟩, hmem, hx⟩ := List.mem_map.1 he
        simp only at hx
        subst hx
        obtain ⟨i, hi, hoff, hnew⟩ := hN.enabled x fs hmem
        rw [hnew, hi]
        simp only [Option.map_some, Option.some.injEq]
        cases i with
        | mk rev feats =>
          simp only [Info.mk.injEq, true_and]
          funext f
          have hcon : (undoList p).contains (x, f) = fs.contains f := by
            rw [Bool.eq_iff_iff]
            simp only [List.contains_eq_mem, decide_eq_true_eq, undoList, List.mem_flatMap, List.mem_map,
              Prod.mk.injEq]
            constructor
            · rintro ⟨⟨y, gs⟩, hy, g, hgm, hyx, rfl⟩
              simp only at hyx hgm
              subst hyx
              have : gs = fs := by
                have hp : p.ens.Pairwise (fun a b => a.1 ≠ b.1) := by
                  have := hens
                  unfold List.Nodup at this
                  rw [List.pairwise_map] at this
                  exact this
                clear hN hnew hw h1
                generalize p.ens = L at hp hmem hy
                induction L with
                | nil => cases hy
                | cons a L ih =>
                  rw [List.pairwise_cons] at hp
                  rcases List.mem_cons.1 hy with hy | hy <;> rcases List.mem_cons.1 hmem with hm | hm
                  · rw [← hy] at hm; cases hm; rfl
                  · exact absurd (by rw [← hy]) (hp.1 _ hm)
                  · exact absurd (by rw [← hm]) (hp.1 _ hy)
                  · exact ih hp.2 hm hy
              rw [← this]; exact hgm
            · intro hf
              exact ⟨(x, fs), hmem, f, hf, rfl, rfl⟩
          rw [hcon]
          cases hf : fs.contains f with
          | true =>
            have := hoff f (by simpa using hf)
            simp only at this
            simp [this]
          | false => simp
      · rw [hN.other n hn he]
        cases hx : s1.lyd.mods n with
        | none => rfl
        | some i =>
          simp only [Option.map_some, Option.some.injEq]
          cases i with
          | mk rev feats =>
            simp only [Info.mk.injEq, true_and]
            funext f
            have : (undoList p).contains (n, f) = false := by
              rw [List.contains_eq_mem, decide_eq_false_iff_not]
              intro hin
              simp only [undoList, List.mem_flatMap, List.mem_map, Prod.mk.injEq] at hin
              obtain ⟨⟨y, gs⟩, hy, g, _, hyn, _⟩ := hin
              exact he (List.mem_map.2 ⟨(y, gs), hy, hyn⟩)
            rw [this]; simp
  have hdom1 : ∀ n, (r1.mods n).isSome = (r.mods n).isSome := by
    intro n; rw [hr1]; exact removeFeats_dom _ _ _
  have hrem : ∃ r2, lydRemove lib s1.shm.mods ctx r1.mods newM = some r2 ∧ r2.mods = s1.lyd.mods := by
    unfold lydRemove
    rw [if_pos (List.all_eq_true.2 fun n hn => by
      obtain ⟨_, h2, h3⟩ := hN.new n hn
      rw [hdom1 n, h2]; exact h3), hback1]
    refine withDeps_of ?_
    intro n hn hs
    rw [hg.same] at hs
    have hrs : (r.mods n).isSome = true := by
      rw [← hdom1 n]
      have : (r1.mods.drop newM n).isSome = true := by rw [hback1, hg.same]; exact hs
      unfold Mods.drop at this
      split at this
      · cases this
      · exact this
    refine ⟨(hN.deps n hn hrs).1, fun t ht => ?_⟩
    rw [hg.same]
    exact hback n t hs ht
  obtain ⟨r2, hr2, hr2m⟩ := hrem
  -- the state before the revert
  have hmid : ∃ w2, undoMods lib call s1.shm.mods ctx newM { w with s := { w.s with lyd := r1 } } = (w2, .ok) ∧
      w2.s = { w.s with lyd := r2, shm := w2.s.shm } ∧ w2.s.shm.mods = s1.shm.mods ∧ w2.flagI = w.flagI := by
    unfold undoMods
    simp only [hr2]
    rw [show lydWrite call .uDel r2 { w with s := { w.s with lyd := r1 } } =
      ({ w with s := { w.s with lyd := r2 } }, .ok) from lydWrite_ok.2 ⟨hu.del, rfl⟩]
    simp only
    split
    · rw [show shmWrite call .uShm r2 { w with s := { w.s with lyd := r2 } } =
        ({ w with s := { w.s with lyd := r2, shm := r2 }, shmCh := true }, .ok) by
        simp [shmWrite, hu.shm]]
      exact ⟨_, rfl, rfl, by rw [hr2m, hg.same], rfl⟩
    · rename_i hch
      refine ⟨_, rfl, rfl, ?_, rfl⟩
      have := hw.shm
      rw [if_neg hch] at this
      simp only [this]
  obtain ⟨w2, h2, hs2, hshm2, hflag2⟩ := hmid
  have h : revert lib call s1.shm.mods ctx newM w2 = (w', res) := by
    unfold andThen at h
    rw [h1] at h
    simp only at h
    rw [h2] at h
    exact h
  obtain ⟨_, hR, hfl⟩ := revert_spec hu h
  have hnewnone : ∀ n ∈ newM, s1.shm.mods n = none := by
    intro n hn; rw [← hg.same]; exact (hN.new n hn).1
  have e1 : w'.s.lyd = r2 := by rw [hR.frame, hs2]
  have e2 : w'.s.shm.mods = s1.shm.mods := by rw [hR.frame]; exact hshm2
  have e3 : w'.s.cid = s1.cid ∧ w'.s.conns = s1.conns ∧ w'.s.oper = s1.oper := by
    rw [hR.frame, hs2, hw.frame]; exact ⟨rfl, rfl, rfl⟩
  have e4 : w2.s.data = s1.data ∧ w2.s.inst = w.s.inst ∧ w2.s.yang = w.s.yang := by
    rw [hs2]
    refine ⟨?_, rfl, rfl⟩
    simp only
    rw [hw.frame]
  have hinst : w'.s.inst = s1.inst := by
    funext x d
    by_cases hx : (x, d) ∈ w.flagI
    · have hn := hw.flags x d hx
      rw [hfl x hn d (by rw [hflag2]; exact hx), hg.clean x (hnewnone x hn) d]
    · rw [hR.inst x d (by rw [hflag2]; exact hx), e4.2.1, hw.inst x d]
      have : w.flagI.contains (x, d) = false := by simpa using hx
      rw [this, Bool.or_false]
  have hdata : w'.s.data = s1.data := by
    funext d k
    rcases hR.data d k with h | ⟨hn, h⟩
    · rw [h, e4.1]
    · rw [h, hg.nodata d k (hnewnone _ hn)]
  refine ⟨⟨?_, ?_, ?_, ?_, ?_, ?_, ?_, ?_⟩, ⟨?_, e2, hinst, hdata, e3.1⟩, e3.2.1, e3.2.2⟩
  · rw [e1, hr2m, e2, hg.same]
  · rw [e2]; exact hg.closed
  · rw [e2, haveFiles_iff]
    intro n hn i hi g hg'
    refine hR.yang g (inCtx_iff.2 ⟨n, hn, i, hi, hg'⟩) ?_
    rw [e4.2.2]
    exact hw.yang g (haveFiles_iff.1 hg.files n hn i hi g hg')
  · rw [e2, hinst]; exact hg.inst
  · rw [e2, hinst]; exact hg.clean
  · rw [e2, hdata]; exact hg.nodata
  · rw [e2, e3.1]; exact hg.cid
  · rw [e3.2.1]; exact hg.conns
  · rw [e1, hr2m]

/-! ## The whole installation -/

/-- What is promised about an installation that succeeded. -/
structure Installed (lib : Lib) (c : Nat) (reqs : List Req) (init : Key → Option Val) (s s' : State) :
    Prop where
  good : Good lib s'
  wanted : ∀ r ∈ reqs, s'.shm.mods r.name = some (want lib s.shm.mods r)
  kept : ∀ n i, n ∉ reqs.map (·.name) → s.shm.mods n = some i → s'.shm.mods n = some i
  implied : ∀ n i, n ∉ reqs.map (·.name) → s.shm.mods n = none → s'.shm.mods n = some i →
    ∃ r ∈ reqs, s.shm.mods r.name = none ∧ (n, i.rev) ∈ reach lib (r.name, r.rev)
  data : ∀ d k, s'.data d k =
    if d ∈ confDs ∧ (s'.shm.mods (lib.home k)).isSome = true then
      (match init k with
        | some v => some v
        | none => if lib.known s'.shm.mods k then s.data d k else none)
    else s.data d k
  ctx : (s'.conn c).ctx = s'.shm.mods
  others : ∀ x, x ≠ c → s'.conns x = s.conns x
  oper : s'.oper = s.oper

set_option maxHeartbeats 1000000 in
theorem installBody_ok {lib : Lib} (laws : Laws lib) {call : Call} {c : Nat} {ctx : Mods} {r : Rec}
    {newM : List Name} {init : Option (Key → Option Val)} {p : Prep} {reqs : List Req} {s1 : State}
    {w w' : Work} (hg : Good lib s1) (hP : Prepared lib s1.shm.mods reqs p)
    (hload : lib.load p.mods = some ctx)
    (hN : NewData lib ctx s1.lyd.mods p r newM) (hw : Mid lib s1 r newM w) (hch : w.shmCh = false)
    (h : installBody lib call c ctx r newM init s1.data
      (migrate lib s1.shm.mods ctx (init.getD fun _ => none) s1.data) w = (w', .ok)) :
    Installed lib c reqs (init.getD fun _ => none) s1 w'.s := by
  unfold installBody at h
  obtain ⟨w1, h1, h2⟩ := andThen_ok.1 h
  have hdomv := updateData_dom hw (by rw [hw.shm, hch]; rfl) h1
  have m1 := mid_updateData.res hw h1
  obtain ⟨w2, h3, h4⟩ := andThen_ok.1 h2
  have h3 := shmWrite_ok h3
  have m2 : Mid lib s1 r newM w2 := by
    rw [h3]
    refine ⟨?_, by simp, m1.inst, m1.flags, m1.yang⟩
    simp only
    rw [m1.frame]
  obtain ⟨w3, h5, h6⟩ := andThen_ok.1 h4
  have hshmKeep : Keeps (fun w => w.s.shm = r) (addModules lib call ctx newM) := by
    refine keeps_each fun n _ => keeps_andThen (keeps_each fun d _ => ?_) ?_
    · intro w hw
      unfold installCb
      split
      · exact hw
      · refine keeps_andThen (I := fun w => w.s.shm = r) (keeps_andThen keeps_gate ?_) keeps_gate w hw
        intro w hw; exact hw
    · intro w hw
      unfold yangStore
      cases call.fate (.yang (n, revOf ctx n).1) <;> exact hw
  have m3 := mid_addModules.res m2 h5
  have hshm3 : w3.s.shm = r := hshmKeep.res (by rw [h3]) h5
  have hAdd := addModules_ok h5
  have hwf := laws.wf hload
  have d3 : w3.s.data = s1.data ∧ w3.s.lyd = r ∧ w3.s.conns = s1.conns ∧ w3.s.oper = s1.oper := by
    rw [m3.frame]; exact ⟨rfl, rfl, rfl, rfl⟩
  obtain ⟨td, tl, ts, ty, ti, tc, to, tk⟩ := tail_ok laws (fun n i hi => (hwf n i hi).1)
    (by intro d k _; rw [d3.1]) h6
  -- the new internal data are the new context
  have hm : s1.lyd.mods = s1.shm.mods := hg.same
  have hrctx : r.mods = ctx := by
    funext n
    by_cases hn : n ∈ newM
    · exact (hN.new n hn).2.1
    · by_cases he : n ∈ p.ens.map (·.1)
      · obtain ⟨⟨x, fs⟩, hmem, hx⟩ := List.mem_map.1 he
        simp only at hx
        subst hx
        obtain ⟨i, hi, _, hnew⟩ := hN.enabled x fs hmem
        obtain ⟨q, hq, hqn, j, hj, hfs⟩ := hP.ens x fs hmem
        rw [hm, hj] at hi
        have hi := Option.some.inj hi
        subst hi
        have hw1 := hP.wanted q hq
        rw [hqn] at hw1
        rw [laws.keeps hP.wf hload hw1, hnew]
        simp only [want, hqn, hj, Option.some.injEq, Info.mk.injEq, true_and]
        funext f
        cases hf : j.feats f with
        | true => rfl
        | false =>
          simp only [Bool.false_or]
          rw [Bool.eq_iff_iff]
          simp only [List.contains_eq_mem, decide_eq_true_eq]
          rw [hfs f]
          simp [hf]
      · rw [hN.other n hn he, hm]
        cases hx : s1.shm.mods n with
        | some i =>
          refine (laws.keeps hP.wf hload ?_).symm
          by_cases hr : n ∈ reqs.map (·.name)
          · obtain ⟨q, hq, rfl⟩ := List.mem_map.1 hr
            rw [hP.wanted q hq]
            simp only [want, hx]
            cases i with
            | mk rev feats =>
              simp only [Option.some.injEq, Info.mk.injEq, true_and]
              funext f
              cases hf : feats f with
              | true => rfl
              | false =>
                cases hc : q.named.contains f with
                | false => rfl
                | true =>
                  have := hP.noEn q hq _ hx he f (by simpa using hc)
                  simp [hf] at this
          · rw [hP.other n hr, hx]
        | none =>
          cases hc : ctx n with
          | none => rfl
          | some i =>
            rcases hdomv n (hwf n i hc).1 (by simp [hc]) with h | h
            · exact absurd h hn
            · rw [hx] at h; cases h
  have hmods : w'.s.shm.mods = ctx := by rw [ts, hshm3, hrctx]
  have hctxShm : ∀ n i, s1.shm.mods n = some i → n ∉ newM := by
    intro n i hi hn
    have := (hN.new n hn).1
    rw [hm, hi] at this; cases this
  have hnone : ∀ n, ctx n = none → s1.shm.mods n = none ∧ n ∉ newM := by
    intro n hn
    have hnn : n ∉ newM := by
      intro h
      have := (hN.new n h).2.2
      rw [hn] at this; cases this
    refine ⟨?_, hnn⟩
    rw [← hrctx] at hn
    by_cases he : n ∈ p.ens.map (·.1)
    · obtain ⟨⟨x, fs⟩, hmem, hx⟩ := List.mem_map.1 he
      simp only at hx
      subst hx
      obtain ⟨i, _, _, hnew⟩ := hN.enabled x fs hmem
      rw [hnew] at hn; cases hn
    · rw [hN.other n hnn he, hm] at hn
      exact hn
  have hinst : ∀ n d, w'.s.inst n d = (s1.inst n d || w3.flagI.contains (n, d)) := by
    intro n d; rw [ti]; exact m3.inst n d
  have hdata : ∀ d k, w'.s.data d k =
      if d ∈ confDs ∧ (ctx (lib.home k)).isSome = true then
        (match (init.getD fun _ => none) k with
          | some v => some v
          | none => if lib.known ctx k then s1.data d k else none)
      else s1.data d k := by
    intro d k
    split
    · rename_i hc
      rw [(td d k).1 hc]
      unfold migrate
      cases hi : (init.getD fun _ => none) k with
      | some v => rfl
      | none =>
        simp only
        cases hs : s1.shm.mods (lib.home k) with
        | some i => simp
        | none => simp [hg.nodata d k hs]
    · rename_i hc
      rw [(td d k).2 hc, d3.1]
  refine ⟨⟨?_, ?_, ?_, ?_, ?_, ?_, ?_, ?_⟩, ?_, ?_, ?_, ?_, ?_, ?_, ?_⟩
  · rw [tl, d3.2.1, ts, hshm3]
  · rw [hmods]; exact laws.closed hload
  · rw [hmods, haveFiles_iff, ty]
    intro n hn i hi g hg'
    by_cases hnew : n ∈ newM
    · exact (hAdd n hnew).2 i hi g hg'
    · rcases hdomv n hn (by simp [hi]) with h | h
      · exact absurd h hnew
      · obtain ⟨j, hj⟩ := Option.isSome_iff_exists.1 h
        have hrev : i.rev = j.rev := by
          have h7 : ctx n = r.mods n := by rw [hrctx]
          rw [hi] at h7
          by_cases he : n ∈ p.ens.map (·.1)
          · obtain ⟨⟨x, fs⟩, hmem, hx⟩ := List.mem_map.1 he
            simp only at hx
            subst hx
            obtain ⟨i', hi', _, hnew'⟩ := hN.enabled x fs hmem
            rw [hm, hj] at hi'
            cases hi'
            rw [hnew'] at h7
            cases h7
            rfl
          · rw [hN.other n hnew he, hm, hj] at h7
            cases h7; rfl
        refine m3.yang g (haveFiles_iff.1 hg.files n hn j hj g ?_)
        rw [← hrev]; exact hg'
  · intro n i hi d
    rw [hmods] at hi
    rw [hinst n d]
    by_cases hnew : n ∈ newM
    · have := (hAdd n hnew).1 d
      simp [this]
    · rcases hdomv n (hwf n i hi).1 (by simp [hi]) with h | h
      · exact absurd h hnew
      · obtain ⟨j, hj⟩ := Option.isSome_iff_exists.1 h
        rw [hg.inst n j hj d]; rfl
  · intro n hn d
    rw [hmods] at hn
    obtain ⟨h7, h8⟩ := hnone n hn
    rw [hinst n d, hg.clean n h7 d, Bool.false_or]
    cases hc : w3.flagI.contains (n, d) with
    | false => rfl
    | true => exact absurd (m3.flags n d (by simpa using hc)) h8
  · intro d k hk
    rw [hmods] at hk
    rw [hdata d k, hk]
    simp [hg.nodata d k (hnone _ hk).1]
  · rw [hmods]; exact tc
  · intro x k hk
    rw [tk x] at hk
    split at hk
    · cases hk; exact ⟨rfl, laws.closed hload⟩
    · rw [d3.2.2.1] at hk; exact hg.conns x k hk
  · intro q hq
    rw [hmods]
    exact laws.keeps hP.wf hload (hP.wanted q hq)
  · intro n i hn hi
    rw [hmods]
    refine laws.keeps hP.wf hload ?_
    rw [hP.other n hn, hi]
  · intro n i hn hnone' hi
    rw [hmods] at hi
    have hnew : n ∈ newM := by
      rcases hdomv n (hwf n i hi).1 (by simp [hi]) with h | h
      · exact h
      · rw [hnone'] at h; cases h
    rcases hN.imp n hnew with h | ⟨a, ha, i', j, hi', hj, hreach⟩
    · exact absurd ((hP.adds n).1 h).1 hn
    · rw [hi] at hi'
      cases hi'
      obtain ⟨haname, hanone⟩ := (hP.adds a).1 ha
      obtain ⟨q, hq, rfl⟩ := List.mem_map.1 haname
      refine ⟨q, hq, hanone, ?_⟩
      have := laws.keeps hP.wf hload (hP.wanted q hq)
      rw [hj] at this
      cases this
      simpa [want, hanone] using hreach
  · intro d k; rw [hmods]; exact hdata d k
  · rw [hmods]; simp [State.conn, tk c]
  · intro x hx; rw [tk x, if_neg hx, d3.2.2.1]
  · rw [to, d3.2.2.2]

/-- Where an installation can fail before anything is written, and where it is undone. -/
theorem installBody_err {lib : Lib} {call : Call} (hlate : Late call) {c : Nat} {ctx : Mods} {r : Rec}
    {newM : List Name} {init : Option (Key → Option Val)} {s1 : State} {old new : Ds → Key → Option Val}
    {w w' : Work} (hw : Mid lib s1 r newM w)
    (h : installBody lib call c ctx r newM init old new w = (w', .err)) : Mid lib s1 r newM w' := by
  unfold installBody at h
  rcases andThen_err.1 h with h1 | ⟨w1, h1, h2⟩
  · exact mid_updateData.res hw h1
  have m1 := mid_updateData.res hw h1
  rcases andThen_err.1 h2 with h3 | ⟨w2, h3, h4⟩
  · exact (mid_shmWrite hlate.shm).res m1 h3
  have m2 := (mid_shmWrite hlate.shm).res m1 h3
  rcases andThen_err.1 h4 with h5 | ⟨w3, h5, h6⟩
  · exact mid_addModules.res m2 h5
  · exact absurd h6 (noErr_ok (noErr_andThen (storeData_noErr hlate.store) switchCtx_noErr))

/-- The data of an installed module depend on installed modules only, whatever is loaded. -/
def NoBack (lib : Lib) (m : Mods) : Prop :=
  ∀ l ctx n t, lib.load l = some ctx → (m n).isSome = true → t ∈ lib.deps ctx n → (m t).isSome = true

set_option maxHeartbeats 1000000 in
theorem install_cases {lib : Lib} (laws : Laws lib) {call : Call} {c : Nat}
    {reqs : List Req} {init : Option (Key → Option Val)} {s s' : State} {res : Res}
    (hlate : res = .err → Late call) (hu : res = .err → UndoGoes call) (hg : Good lib s) (hsnap : (s.conn c).snap = some s.shm.mods)
    (hnd : (reqs.map (·.name)).Nodup) (hnm : ∀ r ∈ reqs, r.name ∈ lib.names)
    (hhole : NoHole s.shm.mods reqs) (hback : res = .err → NoBack lib s.shm.mods)
    (h : install lib call c reqs init s = (s', res)) (hr : res ≠ .dead) :
    (res = .ok ∧ (Installed lib c reqs (init.getD fun _ => none) s s' ∨
      ((∀ r ∈ reqs, ∃ i, s.shm.mods r.name = some i ∧ ∀ f ∈ r.named, i.feats f = true) ∧
        Good lib s' ∧ SameMods s s' ∧ (s'.conn c).ctx = s'.shm.mods ∧
        ∀ x, x ≠ c → s'.conns x = s.conns x))) ∨
    (res = .err ∧ Good lib s' ∧ SameMods s s' ∧ ∀ x, x ≠ c → s'.conns x = s.conns x) := by
  unfold install at h
  rw [hsnap] at h
  simp only at h
  rcases hl : ctxLock lib call c s with ⟨s1, r1⟩
  obtain ⟨hg1, ⟨cf, hs1, hcf⟩, hctx⟩ := ctxLock_good laws hg hl
  have hsame1 : SameMods s s1 := by rw [hs1]; exact ⟨rfl, rfl, rfl, rfl, rfl⟩
  have hother1 : ∀ x, x ≠ c → s1.conns x = s.conns x := by
    intro x hx; rw [hs1]; exact hcf x hx
  have hE : res = .err → s' = s1 → (res = .err ∧ Good lib s' ∧ SameMods s s' ∧
      ∀ x, x ≠ c → s'.conns x = s.conns x) := by
    rintro rfl rfl; exact ⟨rfl, hg1, hsame1, hother1⟩
  rw [hl] at h
  cases r1 with
  | err => cases h; exact Or.inr (hE rfl rfl)
  | dead => cases h; exact absurd rfl hr
  | ok =>
    obtain ⟨hctx, hsome⟩ := hctx rfl
    have hshm : s1.shm = s.shm := by rw [hs1]
    simp only [hctx] at h
    have hwf0 := laws.wf hg.closed
    split at h
    · cases h; exact Or.inr (hE rfl rfl)
    · rename_i p hp
      have hP : Prepared lib s.shm.mods reqs p := by
        have := prepare_prepared hwf0 reqs [] _ p (prepared_nil hwf0) (by simpa using hnd) hnm hhole hp
        simpa using this
      split at h
      · rename_i hnothing
        cases h
        left
        refine ⟨rfl, Or.inr ⟨?_, hg1, hsame1, by rw [hctx, hshm], hother1⟩⟩
        have he : p.adds = [] ∧ p.ens = [] := by simpa using hnothing
        intro q hq
        cases hx : s.shm.mods q.name with
        | none =>
          have := (hP.adds q.name).2 ⟨List.mem_map.2 ⟨q, hq, rfl⟩, hx⟩
          rw [he.1] at this; cases this
        | some i => exact ⟨i, rfl, hP.noEn q hq i hx (by rw [he.2]; simp)⟩
      · split at h
        · cases h; exact Or.inr (hE rfl rfl)
        · rename_i ctx hload
          split at h
          · cases h; exact Or.inr (hE rfl rfl)
          · split at h
            · rename_i wg hgate
              split at h
              · cases h; exact Or.inr (hE rfl rfl)
              · rename_i rec newM hinst
                have hN := lydInstall_spec hP.enNodup hinst
                obtain ⟨w', hfin, rfl⟩ := fin_eq h
                have hmid0 : Mid lib s1 rec newM { startWork s1 with s := { s1 with lyd := rec } } :=
                  ⟨rfl, rfl, by intro x d; simp [startWork], by simp [startWork], fun _ h => h⟩
                have hP1 : Prepared lib s1.shm.mods reqs p := by rw [hshm]; exact hP
                have hback1 : res = .err → NoBack lib s1.shm.mods := by rw [hshm]; exact hback
                rw [← hshm] at hfin
                cases res with
                | dead => exact absurd rfl hr
                | ok =>
                  left
                  refine ⟨rfl, Or.inl ?_⟩
                  obtain ⟨w1, h1, h2⟩ := andThen_ok.1 hfin
                  obtain ⟨w2, h3, h4⟩ := andThen_ok.1 h1
                  obtain ⟨_, rfl⟩ := gate_ok.1 h3
                  obtain ⟨_, rfl⟩ := lydWrite_ok.1 h4
                  unfold withUndo at h2
                  split at h2
                  · split at h2 <;> cases h2
                  · have hI := installBody_ok laws hg1 hP1 hload hN hmid0 rfl h2
                    refine ⟨hI.good, ?_, ?_, ?_, ?_, hI.ctx, ?_, ?_⟩
                    · intro q hq; rw [hI.wanted q hq, hshm]
                    · intro n i hn hi; exact hI.kept n i hn (by rw [hshm]; exact hi)
                    · intro n i hn h0 hi
                      have := hI.implied n i hn (by rw [hshm]; exact h0) hi
                      rw [hshm] at this; exact this
                    · intro d k; rw [hI.data d k, hsame1.data]
                    · intro x hx; rw [hI.others x hx, hother1 x hx]
                    · rw [hI.oper, hs1]
                | err =>
                  right
                  rcases andThen_err.1 hfin with h1 | ⟨w1, h1, h2⟩
                  · rcases andThen_err.1 h1 with h3 | ⟨w2, h3, h4⟩
                    · refine hE rfl ?_
                      rw [(gate_err.1 h3).2]; rfl
                    · obtain ⟨_, rfl⟩ := gate_ok.1 h3
                      refine hE rfl ?_
                      rw [lydWrite_err h4]; rfl
                  · obtain ⟨w2, h3, h4⟩ := andThen_ok.1 h1
                    obtain ⟨_, rfl⟩ := gate_ok.1 h3
                    obtain ⟨_, rfl⟩ := lydWrite_ok.1 h4
                    unfold withUndo at h2
                    split at h2
                    · rename_i w3 hbody
                      have hmid := installBody_err (hlate rfl) hmid0 hbody
                      have hfinal : ∃ rr, installUndo lib call s1.shm.mods ctx p newM w3 = (w', rr) := by
                        split at h2
                        · cases h2
                        · rename_i w4 rr hne hundo
                          cases h2
                          exact ⟨_, hundo⟩
                      obtain ⟨rr, hundo⟩ := hfinal
                      obtain ⟨g1, g2, g3, g4⟩ := installUndo_spec (hu rfl) hg1 hN
                        (fun n t hn ht => hback1 rfl p.mods ctx n t hload hn ht) hP.enNodup hmid hundo
                      refine ⟨rfl, g1, ?_, ?_⟩
                      · exact ⟨g2.lyd.trans hsame1.lyd, g2.shm.trans hsame1.shm, g2.inst.trans hsame1.inst,
                          g2.data.trans hsame1.data, g2.cid.trans hsame1.cid⟩
                      · intro x hx; rw [g3]; exact hother1 x hx
                    · rename_i hne
                      exact absurd h2 (fun h => hne _ (by rw [h]))
            · rename_i e hgate hne
              cases h
              refine Or.inr (hE ?_ rfl)
              cases res with
              | ok => exact (hgate rfl).elim
              | err => rfl
              | dead => exact absurd rfl hr

end Verif.ModOps
