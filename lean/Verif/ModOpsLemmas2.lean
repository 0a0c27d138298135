import Verif.ModOpsLemmas

/-! Lemmas for removing, updating and changing features. -/

namespace Verif.ModOps

/-- The steps after the point of no return go on. -/
structure Late (call : Call) : Prop where
  shm : call.fate .shmStore ≠ .fail
  store : ∀ n d, call.fate (.store n d) ≠ .fail
  uninstall : ∀ n d, call.fate (.uninstall n d) ≠ .fail

theorem Keeps.res {I : Work → Prop} {st : Step} (h : Keeps I st) {w w' : Work} {r : Res}
    (hw : I w) (hr : st w = (w', r)) : I w' := by
  have := h w hw
  rw [hr] at this
  exact this

theorem lydWrite_ok {call : Call} {p : Pt} {r : Rec} {w w' : Work} :
    lydWrite call p r w = (w', .ok) ↔
      call.fate p = .go ∧ w' = { w with s := { w.s with lyd := r } } := by
  unfold lydWrite
  rw [andThen_ok]
  constructor
  · rintro ⟨w1, h1, h2⟩
    obtain ⟨hf, rfl⟩ := gate_ok.1 h1
    exact ⟨hf, act_ok.1 h2⟩
  · rintro ⟨hf, rfl⟩
    exact ⟨w, gate_ok.2 ⟨hf, rfl⟩, act_ok.2 rfl⟩

theorem lydWrite_err {call : Call} {p : Pt} {r : Rec} {w w' : Work} :
    lydWrite call p r w = (w', .err) → w' = w := by
  unfold lydWrite
  rw [andThen_err]
  rintro (h | ⟨w1, h1, h2⟩)
  · exact (gate_err.1 h).2
  · simp [act] at h2

theorem shmWrite_ok {call : Call} {p : Pt} {r : Rec} {w w' : Work} :
    shmWrite call p r w = (w', .ok) → w' = { w with s := { w.s with shm := r }, shmCh := true } := by
  unfold shmWrite
  cases call.fate p <;> simp
  intro h; exact h.symm

theorem shmWrite_noErr {call : Call} {p : Pt} {r : Rec} (h : call.fate p ≠ .fail) :
    NoErr (shmWrite call p r) := by
  intro w
  unfold shmWrite
  cases hp : call.fate p <;> simp_all

/-- The mods of the record made are those given. -/
theorem withDeps_mods {lib : Lib} {a b m : Mods} {r : Rec} (h : withDeps lib a b m = some r) :
    r.mods = m := by
  unfold withDeps at h
  split at h
  · cases h; rfl
  · cases h

theorem lydRemove_mods {lib : Lib} {a b m : Mods} {del : List Name} {r : Rec}
    (h : lydRemove lib a b m del = some r) : r.mods = m.drop del := by
  unfold lydRemove at h
  split at h
  · exact withDeps_mods h
  · cases h

theorem withRec_none {k : Rec → Step} {w w' : Work} {r : Res} (h : withRec none k w = (w', r)) :
    r = .err ∧ w' = w := by
  simp only [withRec, check, Bool.false_eq_true, if_false, Prod.mk.injEq] at h
  exact ⟨h.2.symm, h.1.symm⟩

theorem withRec_some {rec : Rec} {k : Rec → Step} {w : Work} : withRec (some rec) k w = k rec w := rfl

/-- Only checks. -/
theorem updateData_keeps {lib : Lib} {call : Call} {c : Nat} {ctx : Mods} {I : Work → Prop} :
    Keeps I (updateData lib call c ctx [] true) := by
  unfold updateData loadOld validate
  refine keeps_andThen (keeps_andThen keeps_gate keeps_check) (keeps_andThen ?_
    (keeps_andThen keeps_check keeps_gate))
  simpa using keeps_act_id

theorem updateData_ok {lib : Lib} {call : Call} {c : Nat} {ctx : Mods} {w w' : Work}
    (h : updateData lib call c ctx [] true w = (w', .ok)) :
    w' = w ∧ ∀ n ∈ lib.names, (ctx n).isSome = true → (w.s.shm.mods n).isSome = true := by
  unfold updateData loadOld validate at h
  obtain ⟨w1, h1, h2⟩ := andThen_ok.1 h
  obtain ⟨w2, h3, h4⟩ := andThen_ok.1 h1
  obtain ⟨_, rfl⟩ := gate_ok.1 h3
  obtain ⟨_, rfl⟩ := (check_ok (by simp)).1 h4
  obtain ⟨w3, h5, h6⟩ := andThen_ok.1 h2
  simp only [if_true] at h5
  have h5 := act_ok.1 h5
  subst h5
  obtain ⟨w4, h7, h8⟩ := andThen_ok.1 h6
  obtain ⟨hall, rfl⟩ := (check_ok (by simp)).1 h7
  obtain ⟨_, rfl⟩ := gate_ok.1 h8
  refine ⟨rfl, fun n hn hc => ?_⟩
  have := List.all_eq_true.1 hall n hn
  simp only [Option.isNone_iff_eq_none, List.contains_nil, Bool.or_false, id, Bool.or_eq_true] at this
  rcases this with hx | hx
  · rw [hx] at hc; cases hc
  · exact hx

theorem Wf.drop {lib : Lib} {m : Mods} (h : Wf lib m) (del : List Name) : Wf lib (m.drop del) := by
  intro n i hi
  unfold Mods.drop at hi
  split at hi
  · cases hi
  · exact h n i hi

/-! ## Removing -/

/-- What removing keeps. -/
structure Deleting (lib : Lib) (new : Mods) (del : List Name) (w0 w : Work) : Prop where
  frame : w = { w0 with s := { w0.s with inst := w.s.inst, data := w.s.data, yang := w.s.yang } }
  inst : ∀ x d, x ∉ del → w.s.inst x d = w0.s.inst x d
  data : ∀ d k, lib.home k ∉ del → w.s.data d k = w0.s.data d k
  yang : ∀ g, inCtx lib new g = true → w0.s.yang g = true → w.s.yang g = true

theorem deleting_uninstall {lib : Lib} {call : Call} {new : Mods} {del : List Name} {w0 : Work}
    {n : Name} {d : Ds} (hn : n ∈ del) :
    Keeps (Deleting lib new del w0)
      (andThen (gate call (.uninstall n d)) (act (uninstall lib n d))) := by
  refine keeps_andThen keeps_gate ?_
  intro w hw
  refine ⟨?_, ?_, ?_, ?_⟩
  · simp only [act, uninstall]
    rw [hw.frame]
  · intro x e hx
    have : ¬ (x = n ∧ e = d) := by rintro ⟨rfl, _⟩; exact hx hn
    simp only [act, uninstall, this, if_false]
    exact hw.inst x e hx
  · intro e k hk
    have : ¬ (e = d ∧ lib.home k = n) := by rintro ⟨_, rfl⟩; exact hk hn
    simp only [act, uninstall, this, if_false]
    exact hw.data e k hk
  · intro g hg h0
    exact hw.yang g hg h0

theorem deleting_yang {lib : Lib} {new : Mods} {del : List Name} {w0 : Work} {f : File} :
    Keeps (Deleting lib new del w0) (act (yangRemove lib new f)) := by
  intro w hw
  refine ⟨?_, hw.inst, hw.data, ?_⟩
  · simp only [act, yangRemove]
    rw [hw.frame]
  · intro g hg h0
    simp [act, yangRemove, hw.yang g hg h0, hg]

theorem deleting_keeps {lib : Lib} {call : Call} {old new : Mods} {del : List Name} {w0 : Work} :
    Keeps (Deleting lib new del w0) (delModules lib call old new del) :=
  keeps_each fun _ hn => keeps_andThen (keeps_each fun _ _ => deleting_uninstall hn) deleting_yang

theorem delModules_noErr {lib : Lib} {call : Call} {old new : Mods} {del : List Name}
    (h : ∀ n d, call.fate (.uninstall n d) ≠ .fail) : NoErr (delModules lib call old new del) :=
  noErr_each fun n _ => noErr_andThen
    (noErr_each fun d _ => noErr_andThen (noErr_gate (h n d)) noErr_act) noErr_act

theorem mem_allDs (d : Ds) : d ∈ allDs := by cases d <;> simp [allDs]

/-- Nothing of a module is in a datastore. -/
def Gone (lib : Lib) (n : Name) (d : Ds) (w : Work) : Prop :=
  w.s.inst n d = false ∧ ∀ k, lib.home k = n → w.s.data d k = none

theorem gone_uninstall {lib : Lib} {call : Call} {n m : Name} {d e : Ds} :
    Keeps (Gone lib n d) (andThen (gate call (.uninstall m e)) (act (uninstall lib m e))) := by
  refine keeps_andThen keeps_gate ?_
  intro w hw
  refine ⟨?_, fun k hk => ?_⟩
  · simp only [act, uninstall]
    split
    · rfl
    · exact hw.1
  · simp only [act, uninstall]
    split
    · rfl
    · exact hw.2 k hk

theorem delModules_gone {lib : Lib} {call : Call} {old new : Mods} {del : List Name} {w w' : Work}
    (h : delModules lib call old new del w = (w', .ok)) :
    ∀ n ∈ del, ∀ d, Gone lib n d w' := by
  refine each_all (fun _ => True) (fun n w => ∀ d, Gone lib n d w) (fun _ _ _ _ => trivial)
    ?_ ?_ w w' trivial h
  · intro n _ v v' _ hv d
    obtain ⟨v1, h1, h2⟩ := andThen_ok.1 hv
    have h3 : Gone lib n d v1 := by
      refine each_all (fun _ => True) (fun d w => Gone lib n d w) (fun _ _ _ _ => trivial)
        ?_ ?_ v v1 trivial h1 d (mem_allDs d)
      · intro e _ u u' _ hu
        obtain ⟨u1, hg, ha⟩ := andThen_ok.1 hu
        obtain ⟨_, rfl⟩ := gate_ok.1 hg
        rw [act_ok.1 ha]
        refine ⟨by simp [uninstall], fun k hk => by simp [uninstall, hk]⟩
      · intro e _ e' _ u hu
        exact ⟨trivial, gone_uninstall u hu.2⟩
    rw [act_ok.1 h2]
    exact h3
  · intro n _ m _ v hv
    refine ⟨trivial, fun d => ?_⟩
    refine keeps_andThen (I := Gone lib n d) (keeps_each fun e _ => gone_uninstall) ?_ v (hv.2 d)
    intro u hu
    exact hu

/-- The context without removed modules is the old one without them. -/
theorem new_eq_drop {lib : Lib} (laws : Laws lib) {m new : Mods} {del : List Name}
    (hm : lib.load m = some m) (hl : lib.load (m.drop del) = some new)
    (hdel : (del.any (stays m new)) = false) : new = m.drop del := by
  have hwf := laws.wf hm
  funext n
  cases hd : m.drop del n with
  | some i => exact laws.keeps (hwf.drop del) hl hd
  | none =>
    cases hn : new n with
    | none => rfl
    | some i =>
      obtain ⟨j, hj, hr⟩ := laws.less (hwf.drop del) hwf hl hm (by
        intro x j hx
        unfold Mods.drop at hx
        split at hx
        · cases hx
        · exact hx) hn
      have hin : n ∈ del := by
        unfold Mods.drop at hd
        split at hd
        · assumption
        · rw [hd] at hj; cases hj
      rw [List.any_eq_false] at hdel
      have := hdel n hin
      simp [stays, hj, hn, hr] at this

/-- The parts of a state that matter are those of another one. -/
structure SameMods (s s' : State) : Prop where
  lyd : s'.lyd.mods = s.lyd.mods
  shm : s'.shm.mods = s.shm.mods
  inst : s'.inst = s.inst
  data : s'.data = s.data
  cid : s'.cid = s.cid

theorem SameMods.refl (s : State) : SameMods s s := ⟨rfl, rfl, rfl, rfl, rfl⟩

/-- What is promised about a removal that succeeded. -/
structure Removed (lib : Lib) (c : Nat) (del : List Name) (s s' : State) : Prop where
  good : Good lib s'
  mods : ∀ n, s'.shm.mods n = if n ∈ del then none else s.shm.mods n
  inst : ∀ n d, s'.inst n d = if n ∈ del then false else s.inst n d
  data : ∀ d k, s'.data d k =
    if lib.home k ∈ del then none
    else if d ∈ confDs ∧ lib.known s'.shm.mods k = false then none else s.data d k
  ctx : (s'.conn c).ctx = s'.shm.mods
  others : ∀ x, x ≠ c → s'.conns x = s.conns x

/-- The modules removed by a call. -/
def delOf (lib : Lib) (s : State) (asked : List Name) (force : Bool) : List Name :=
  toRemove lib s.shm.mods force asked

theorem migrate_none {lib : Lib} {old new : Mods} {data : Ds → Key → Option Val} {d : Ds} {k : Key} :
    migrate lib old new (fun _ => none) data d k =
      if (old (lib.home k)).isSome && lib.known new k then data d k else none := rfl

/-- The last steps of an operation. -/
theorem tail_ok {lib : Lib} (laws : Laws lib) {call : Call} {c : Nat} {ctx : Mods}
    {old new : Ds → Key → Option Val} {w w' : Work}
    (hnames : ∀ n i, ctx n = some i → n ∈ lib.names)
    (hold : ∀ d k, (ctx (lib.home k)).isSome = true → w.s.data d k = old d k)
    (h : andThen (storeData lib call ctx old new) (switchCtx lib c ctx) w = (w', .ok)) :
    (∀ d k, (d ∈ confDs ∧ (ctx (lib.home k)).isSome = true → w'.s.data d k = new d k) ∧
      (¬ (d ∈ confDs ∧ (ctx (lib.home k)).isSome = true) → w'.s.data d k = w.s.data d k)) ∧
    w'.s.lyd = w.s.lyd ∧ w'.s.shm = w.s.shm ∧ w'.s.yang = w.s.yang ∧ w'.s.inst = w.s.inst ∧
    w'.s.cid = lib.hash ctx ∧ w'.s.oper = w.s.oper ∧
    (∀ x, w'.s.conns x = if x = c then some ⟨ctx, lib.hash ctx, none⟩ else w.s.conns x) := by
  obtain ⟨w1, h1, h2⟩ := andThen_ok.1 h
  obtain ⟨hf, hd⟩ := storeData_ok laws.listed hnames hold h1
  have h3 := act_ok.1 h2
  subst h3
  refine ⟨hd, ?_⟩
  refine ⟨?_, ?_, ?_, ?_, rfl, ?_, ?_⟩ <;> (try intro x) <;> rw [hf] <;> rfl

/-- A loop of steps that change operational data only. -/
def OperOnly (w0 w : Work) : Prop := w = { w0 with s := { w0.s with oper := w.s.oper } }

theorem operOnly_refl (w : Work) : OperOnly w w := rfl

theorem operDel_keeps {w0 : Work} {call : Call} {n : Name} :
    Keeps (OperOnly w0) (andThen (gate call (.operDel n)) (act fun s =>
              { s with oper := fun x => if x = n then false else s.oper x })) := by
  refine keeps_andThen keeps_gate ?_
  intro w hw
  unfold OperOnly at hw ⊢
  simp only [act]
  rw [hw]

theorem fin_eq {x : Work × Res} {s : State} {r : Res} (h : fin x = (s, r)) :
    ∃ w, x = (w, r) ∧ w.s = s := by
  obtain ⟨w, r'⟩ := x
  simp only [fin, Prod.mk.injEq] at h
  exact ⟨w, by rw [h.2], h.1⟩

theorem good_same {lib : Lib} {s : State} (h : Good lib s) {f : Name → Bool} :
    Good lib { s with oper := f } :=
  ⟨h.same, h.closed, h.files, h.inst, h.clean, h.nodata, h.cid, h.conns⟩

theorem noErr_ok {st : Step} (h : NoErr st) {w w' : Work} : st w ≠ (w', .err) := by
  intro hh
  have := h w
  rw [hh] at this
  exact this rfl

theorem switchCtx_noErr {lib : Lib} {c : Nat} {ctx : Mods} : NoErr (switchCtx lib c ctx) := noErr_act

set_option maxHeartbeats 1000000 in
theorem remove_cases {lib : Lib} (laws : Laws lib) {call : Call} {c : Nat}
    {asked : List Name} {force : Bool} {s s' : State} {r : Res} (hlate : r = .err → Late call) (hg : Good lib s)
    (h : remove lib call c asked force s = (s', r)) (hr : r ≠ .dead) :
    (r = .ok ∧ Removed lib c (delOf lib s asked force) s s') ∨
    (r = .err ∧ Good lib s' ∧ SameMods s s' ∧ ∀ x, x ≠ c → s'.conns x = s.conns x) := by
  unfold remove at h
  rcases hl : ctxLock lib call c s with ⟨s1, r1⟩
  obtain ⟨hg1, ⟨cf, hs1, hcf⟩, hctx⟩ := ctxLock_good laws hg hl
  have hsame1 : SameMods s s1 := by rw [hs1]; exact ⟨rfl, rfl, rfl, rfl, rfl⟩
  have hother1 : ∀ x, x ≠ c → s1.conns x = s.conns x := by
    intro x hx; rw [hs1]; exact hcf x hx
  rw [hl] at h
  cases r1 with
  | err => cases h; exact Or.inr ⟨rfl, hg1, hsame1, hother1⟩
  | dead => cases h; exact absurd rfl hr
  | ok =>
    obtain ⟨hctx, hsome⟩ := hctx rfl
    have hshm : s1.shm = s.shm := by rw [hs1]
    simp only [hctx] at h
    split at h
    · cases h; exact Or.inr ⟨rfl, hg1, hsame1, hother1⟩
    · have hdeldef : toRemove lib s.shm.mods force asked = delOf lib s asked force := rfl
      rw [hdeldef] at h
      generalize hdel : delOf lib s asked force = del at h
      split at h
      · cases h; exact Or.inr ⟨rfl, hg1, hsame1, hother1⟩
      · rename_i new hnew
        split at h
        · cases h; exact Or.inr ⟨rfl, hg1, hsame1, hother1⟩
        · rename_i hnodel
          rw [hshm] at hnew
          obtain ⟨hload, hfiles⟩ := loadStored_some hnew
          have hneq : new = s.shm.mods.drop del :=
            new_eq_drop laws hg.closed hload (by simpa using hnodel)
          obtain ⟨w', hfin, rfl⟩ := fin_eq h
          -- the steps without effect
          have hearly : ∀ w r, OperOnly (startWork s1) w → w = w' → r = Res.err →
              (r = .err ∧ Good lib w'.s ∧ SameMods s w'.s ∧ ∀ x, x ≠ c → w'.s.conns x = s.conns x) := by
            intro w r hw hww hr
            subst hww
            unfold OperOnly at hw
            have hs : w.s = { s1 with oper := w.s.oper } := by
              rw [hw]; rfl
            refine ⟨hr, ?_, ?_, ?_⟩
            · rw [hs]; exact good_same hg1
            · rw [hs]; exact ⟨hsame1.1, hsame1.2, hsame1.3, hsame1.4, hsame1.5⟩
            · intro x hx; rw [hs]; exact hother1 x hx
          have k1 : Keeps (OperOnly (startWork s1)) (each del fun n =>
              andThen (gate call (.operDel n)) (act fun s =>
                { s with oper := fun x => if x = n then false else s.oper x })) :=
            keeps_each fun _ _ => operDel_keeps
          cases r with
          | dead => exact absurd rfl hr
          | err =>
            right
            rcases andThen_err.1 hfin with h1 | ⟨w1, h1, h2⟩
            · exact hearly _ _ (keeps_gate.res (operOnly_refl _) h1) rfl rfl
            have o1 := keeps_gate.res (operOnly_refl _) h1
            rcases andThen_err.1 h2 with h3 | ⟨w2, h3, h4⟩
            · exact hearly _ _ (k1.res o1 h3) rfl rfl
            have o2 := k1.res o1 h3
            rcases andThen_err.1 h4 with h5 | ⟨w3, h5, h6⟩
            · exact hearly _ _ (keeps_gate.res o2 h5) rfl rfl
            have o3 := keeps_gate.res o2 h5
            rcases andThen_err.1 h6 with h7 | ⟨w4, h7, h8⟩
            · exact hearly _ _ (updateData_keeps.res o3 h7) rfl rfl
            have o4 := updateData_keeps.res o3 h7
            generalize hrec : lydRemove lib _ new s1.lyd.mods del = o at h8
            cases o with
            | none => exact hearly _ _ ((withRec_none h8).2 ▸ o4) rfl rfl
            | some rec =>
              rcases andThen_err.1 (withRec_some ▸ h8) with h9 | ⟨w5, h9, h10⟩
              · have := lydWrite_err h9
                subst this
                exact hearly _ _ o4 rfl rfl
              · exfalso
                refine noErr_ok ?_ h10
                exact noErr_andThen (shmWrite_noErr (hlate rfl).shm) (noErr_andThen
                  (delModules_noErr (hlate rfl).uninstall) (noErr_andThen (storeData_noErr (hlate rfl).store)
                    switchCtx_noErr))
          | ok =>
            left
            refine ⟨rfl, ?_⟩
            obtain ⟨w1, h1, h2⟩ := andThen_ok.1 hfin
            have o1 := keeps_gate.res (operOnly_refl _) h1
            obtain ⟨w2, h3, h4⟩ := andThen_ok.1 h2
            have o2 := k1.res o1 h3
            obtain ⟨w3, h5, h6⟩ := andThen_ok.1 h4
            have o3 := keeps_gate.res o2 h5
            obtain ⟨w4, h7, h8⟩ := andThen_ok.1 h6
            have o4 := updateData_keeps.res o3 h7
            generalize hrec : lydRemove lib _ new s1.lyd.mods del = o at h8
            cases o with
            | none => exact absurd (withRec_none h8).1 (by simp)
            | some rec =>
              have hrm := lydRemove_mods hrec
              obtain ⟨w5, h9, h10⟩ := andThen_ok.1 (withRec_some ▸ h8)
              obtain ⟨_, rfl⟩ := lydWrite_ok.1 h9
              obtain ⟨w6, h11, h12⟩ := andThen_ok.1 h10
              have h11 := shmWrite_ok h11
              obtain ⟨w7, h13, h14⟩ := andThen_ok.1 h12
              have hD : Deleting lib new del w6 w7 :=
                deleting_keeps.res ⟨rfl, fun _ _ _ => rfl, fun _ _ _ => rfl, fun _ _ h => h⟩ h13
              have hG := delModules_gone h13
              unfold OperOnly at o4
              have hrec2 : rec.mods = new := by
                rw [hrm, hg1.same, hshm, hneq]
              have w6data : w6.s.data = s1.data := by rw [h11, o4]; rfl
              have w6inst : w6.s.inst = s1.inst := by rw [h11, o4]; rfl
              have w6yang : w6.s.yang = s1.yang := by rw [h11, o4]; rfl
              have w6conns : w6.s.conns = s1.conns := by rw [h11, o4]; rfl
              have w6lyd : w6.s.lyd = rec := by rw [h11]
              have w6shm : w6.s.shm = rec := by rw [h11]
              have hnewnone : ∀ n, n ∈ del → new n = none := by
                intro n hn; rw [hneq]; simp [Mods.drop, hn]
              have hwfn := laws.wf hload
              obtain ⟨td, tl, ts, ty, ti, tc, _, tk⟩ := tail_ok laws (fun n i hi => (hwfn n i hi).1)
                (by
                  intro d k hk
                  rw [hD.data d k (by intro hin; rw [hnewnone _ hin] at hk; cases hk), w6data]) h14
              have hw7 : w7.s.lyd = rec ∧ w7.s.shm = rec ∧ w7.s.conns = s1.conns := by
                rw [hD.frame]; exact ⟨w6lyd, w6shm, w6conns⟩
              have hmods : w'.s.shm.mods = new := by rw [ts, hw7.2.1, hrec2]
              have hinst : ∀ n d, w'.s.inst n d = if n ∈ del then false else s.inst n d := by
                intro n d
                rw [ti]
                split
                · rename_i hn; exact (hG n hn d).1
                · rename_i hn
                  rw [hD.inst n d hn, w6inst, hs1]
              have hdata : ∀ d k, w'.s.data d k =
                  if lib.home k ∈ del then none
                  else if d ∈ confDs ∧ lib.known new k = false then none else s.data d k := by
                intro d k
                by_cases hn : lib.home k ∈ del
                · simp only [hn, if_true]
                  rw [(td d k).2 (by rw [hnewnone _ hn]; simp)]
                  exact (hG _ hn d).2 k rfl
                · simp only [hn, if_false]
                  have hh : new (lib.home k) = s.shm.mods (lib.home k) := by
                    rw [hneq]; simp [Mods.drop, hn]
                  by_cases hc : d ∈ confDs ∧ (new (lib.home k)).isSome = true
                  · rw [(td d k).1 hc, migrate_none]
                    have hd1 : s1.data = s.data := by rw [hs1]
                    rw [← hh, hc.2, hd1]
                    cases lib.known new k <;> simp [hc.1]
                  · rw [(td d k).2 hc, hD.data d k hn, w6data, hs1]
                    simp only
                    by_cases hcd : d ∈ confDs
                    · have : new (lib.home k) = none := by
                        cases hx : new (lib.home k) with
                        | none => rfl
                        | some i => exact absurd ⟨hcd, by simp [hx]⟩ hc
                      rw [hg.nodata d k (by rw [← hh, this])]
                      simp
                    · simp [hcd]
              refine ⟨?_, ?_, hinst, ?_, ?_, ?_⟩
              · refine ⟨?_, ?_, ?_, ?_, ?_, ?_, ?_, ?_⟩
                · rw [tl, ts, hw7.1, hw7.2.1]
                · rw [hmods]; exact laws.closed hload
                · rw [hmods, haveFiles_iff, ty]
                  intro n hn i hi f hf
                  refine hD.yang f (inCtx_iff.2 ⟨n, hn, i, hi, hf⟩) ?_
                  rw [w6yang]
                  exact haveFiles_iff.1 hfiles n hn i hi f hf
                · intro n i hi d
                  rw [hmods] at hi
                  have hn : n ∉ del := by intro hn; rw [hnewnone n hn] at hi; cases hi
                  rw [hinst n d, if_neg hn]
                  refine hg.inst n i ?_ d
                  rw [hneq] at hi
                  simpa [Mods.drop, hn] using hi
                · intro n hi d
                  rw [hmods] at hi
                  rw [hinst n d]
                  split
                  · rfl
                  · rename_i hn
                    refine hg.clean n ?_ d
                    rw [hneq] at hi
                    simpa [Mods.drop, hn] using hi
                · intro d k hk
                  rw [hmods] at hk
                  rw [hdata d k]
                  split
                  · rfl
                  · rename_i hn
                    have : s.shm.mods (lib.home k) = none := by
                      rw [hneq] at hk
                      simpa [Mods.drop, hn] using hk
                    rw [hg.nodata d k this]; simp
                · rw [hmods]; exact tc
                · intro x k hk
                  rw [tk x] at hk
                  split at hk
                  · cases hk; exact ⟨rfl, laws.closed hload⟩
                  · rw [hw7.2.2] at hk
                    exact hg1.conns x k hk
              · intro n; rw [hmods, hneq]; rfl
              · intro d k; rw [hmods]; exact hdata d k
              · rw [hmods]; simp [State.conn, tk c]
              · intro x hx
                rw [tk x, if_neg hx, hw7.2.2]
                exact hother1 x hx

/-! ## Updating and changing features -/

/-- What is promised about an update or a change of features that succeeded. -/
structure Changed (lib : Lib) (c : Nat) (new : Mods) (s s' : State) : Prop where
  good : Good lib s'
  mods : s'.shm.mods = new
  inst : s'.inst = s.inst
  data : ∀ d k, s'.data d k =
    if d ∈ confDs ∧ lib.known new k = false then none else s.data d k
  ctx : (s'.conn c).ctx = new
  others : ∀ x, x ≠ c → s'.conns x = s.conns x
  oper : s'.oper = s.oper

set_option maxHeartbeats 1000000 in
theorem change_cases {lib : Lib} (laws : Laws lib) {call : Call} {c : Nat}
    {s1 : State} {w' : Work} {r : Res} {l new : Mods} {o : Option Rec} {mid : Step}
    (hlate : r = .err → Late call) (hg : Good lib s1)
    (hload : lib.load l = some new)
    (hrec : ∀ rec, o = some rec →
      (∀ n ∈ lib.names, (new n).isSome = true → (s1.shm.mods n).isSome = true) → rec.mods = new)
    (hdom : ∀ n, (s1.shm.mods n).isSome = true → (new n).isSome = true)
    (hmid : r = .err → NoErr mid)
    (hframe : ∀ w w2, mid w = (w2, .ok) →
      w2.s = { w.s with yang := w2.s.yang } ∧
      (w.s.yang = s1.yang →
        (∀ n ∈ lib.names, (new n).isSome = true → (s1.shm.mods n).isSome = true) →
        haveFiles lib w2.s.yang new = true))
    (h : andThen (gate call .subs) (andThen (gate call .relock)
            (andThen (updateData lib call c new [] true)
            (withRec o fun r => andThen (lydWrite call .lydPrint r) (andThen (shmWrite call .shmStore r)
                (andThen mid
                (andThen (storeData lib call new s1.data
                  (migrate lib s1.shm.mods new (fun _ => none) s1.data)) (switchCtx lib c new)))))))
          (startWork s1) = (w', r)) (hr : r ≠ .dead) :
    (r = .ok ∧ Changed lib c new s1 w'.s) ∨ (r = .err ∧ w'.s = s1) := by
  cases r with
  | dead => exact absurd rfl hr
  | err =>
    right
    refine ⟨rfl, ?_⟩
    rcases andThen_err.1 h with h1 | ⟨w1, h1, h2⟩
    · rw [(gate_err.1 h1).2]; rfl
    obtain ⟨_, rfl⟩ := gate_ok.1 h1
    rcases andThen_err.1 h2 with h3 | ⟨w2, h3, h4⟩
    · rw [(gate_err.1 h3).2]; rfl
    obtain ⟨_, rfl⟩ := gate_ok.1 h3
    rcases andThen_err.1 h4 with h5 | ⟨w3, h5, h6⟩
    · have := (updateData_keeps (I := fun w => w.s = s1)).res rfl h5
      exact this
    obtain ⟨rfl, hv⟩ := updateData_ok h5
    cases o with
    | none => rw [(withRec_none h6).2]; rfl
    | some rec =>
      rcases andThen_err.1 (withRec_some ▸ h6) with h7 | ⟨w4, h7, h8⟩
      · rw [lydWrite_err h7]; rfl
      · exfalso
        refine noErr_ok ?_ h8
        exact noErr_andThen (shmWrite_noErr (hlate rfl).shm) (noErr_andThen (hmid rfl)
          (noErr_andThen (storeData_noErr (hlate rfl).store) switchCtx_noErr))
  | ok =>
    left
    refine ⟨rfl, ?_⟩
    obtain ⟨w1, h1, h2⟩ := andThen_ok.1 h
    obtain ⟨_, rfl⟩ := gate_ok.1 h1
    obtain ⟨w2, h3, h4⟩ := andThen_ok.1 h2
    obtain ⟨_, rfl⟩ := gate_ok.1 h3
    obtain ⟨w3, h5, h6⟩ := andThen_ok.1 h4
    obtain ⟨rfl, hv⟩ := updateData_ok h5
    cases o with
    | none => exact absurd (withRec_none h6).1 (by simp)
    | some rec =>
      obtain ⟨w4, h7, h8⟩ := andThen_ok.1 (withRec_some ▸ h6)
      obtain ⟨_, rfl⟩ := lydWrite_ok.1 h7
      obtain ⟨w5, h9, h10⟩ := andThen_ok.1 h8
      have h9 := shmWrite_ok h9
      obtain ⟨w6, h11, h12⟩ := andThen_ok.1 h10
      obtain ⟨hfr, hfiles⟩ := hframe w5 w6 h11
      have hm := hrec rec rfl hv
      have hfiles := hfiles (by rw [h9]; rfl) hv
      have hwf := laws.wf hload
      have e6 : w6.s.data = s1.data ∧ w6.s.inst = s1.inst ∧ w6.s.lyd = rec ∧ w6.s.shm = rec ∧
          w6.s.conns = s1.conns ∧ w6.s.oper = s1.oper := by
        rw [hfr, h9]; exact ⟨rfl, rfl, rfl, rfl, rfl, rfl⟩
      obtain ⟨e1, e2, e3, e4, e5, e7⟩ := e6
      obtain ⟨td, tl, ts, ty, ti, tc, to, tk⟩ := tail_ok laws (fun n i hi => (hwf n i hi).1)
        (by intro d k _; rw [e1]) h12
      have hmods : w'.s.shm.mods = new := by rw [ts, e4, hm]
      have hiff : ∀ n, new n = none ↔ s1.shm.mods n = none := by
        intro n
        constructor
        · intro hn
          cases hx : s1.shm.mods n with
          | none => rfl
          | some i =>
            have := hdom n (by simp [hx])
            rw [hn] at this; cases this
        · intro hn
          cases hx : new n with
          | none => rfl
          | some i =>
            have := hv n (hwf n i hx).1 (by simp [hx])
            simp only [startWork, hn] at this; cases this
      have hdata : ∀ d k, w'.s.data d k =
          if d ∈ confDs ∧ lib.known new k = false then none else s1.data d k := by
        intro d k
        by_cases hn : new (lib.home k) = none
        · rw [(td d k).2 (by simp [hn]), e1, hg.nodata d k ((hiff _).1 hn)]
          simp
        · have hsn : (new (lib.home k)).isSome = true := by
            cases hx : new (lib.home k) with
            | none => exact absurd hx hn
            | some i => rfl
          have hss : (s1.shm.mods (lib.home k)).isSome = true := by
            cases hx : s1.shm.mods (lib.home k) with
            | none => exact absurd ((hiff _).2 hx) hn
            | some i => rfl
          by_cases hc : d ∈ confDs
          · rw [(td d k).1 ⟨hc, hsn⟩, migrate_none, hss]
            cases lib.known new k <;> simp [hc]
          · rw [(td d k).2 (by simp [hc]), e1]; simp [hc]
      refine ⟨⟨?_, ?_, ?_, ?_, ?_, ?_, ?_, ?_⟩, hmods, by rw [ti, e2], hdata, ?_, ?_, by rw [to, e7]⟩
      · rw [tl, ts, e3, e4]
      · rw [hmods]; exact laws.closed hload
      · rw [hmods, ty]; exact hfiles
      · intro n i hi d
        rw [hmods] at hi
        rw [ti, e2]
        cases hx : s1.shm.mods n with
        | none => rw [(hiff n).2 hx] at hi; cases hi
        | some j => exact hg.inst n j hx d
      · intro n hn d
        rw [hmods] at hn
        rw [ti, e2]
        exact hg.clean n ((hiff n).1 hn) d
      · intro d k hk
        rw [hmods] at hk
        rw [hdata d k, hg.nodata d k ((hiff _).1 hk)]; simp
      · rw [hmods]; exact tc
      · intro x k hk
        rw [tk x] at hk
        split at hk
        · cases hk; exact ⟨rfl, laws.closed hload⟩
        · rw [e5] at hk; exact hg.conns x k hk
      · simp [State.conn, tk c]
      · intro x hx; rw [tk x, if_neg hx, e5]

/-- The modules after a change of a feature. -/
def featureMods (m : Mods) (n : Name) (f : Feat) (enable : Bool) : Mods := fun x =>
  if x = n then (m n).map fun i => { i with feats := fun y => if y = f then enable else i.feats y }
  else m x

theorem lydFeature_mods {lib : Lib} {a b m : Mods} {n : Name} {f : Feat} {en : Bool} {r : Rec}
    (h : lydFeature lib a b m n f en = some r) : r.mods = featureMods m n f en := by
  unfold lydFeature at h
  split at h
  · cases h
  · rename_i i hi
    split at h
    · rename_i hen
      split at h
      · cases h
      · rename_i j hj
        rw [withDeps_mods h]
        unfold addFeats at hj
        split at hj
        · cases hj
        · cases hj
          funext x
          unfold Mods.set featureMods
          split
          · rw [hi]
            simp only [Option.map_some, Option.some.injEq, Info.mk.injEq, true_and]
            funext y
            by_cases hy : y = f <;> simp [hy, hen]
          · rfl
    · rename_i hen
      split at h
      · rw [withDeps_mods h]
        funext x
        unfold Mods.set featureMods
        split
        · rw [hi]
          simp only [Option.map_some, Option.some.injEq, Info.mk.injEq, true_and]
          funext y
          by_cases hy : y = f
          · simp [hy, hen]
          · simp [hy]
        · rfl
      · cases h

theorem feature_cases {lib : Lib} (laws : Laws lib) {call : Call} {c : Nat}
    {n : Name} {f : Feat} {en : Bool} {s s' : State} {r : Res} (hlate : r = .err → Late call) (hg : Good lib s)
    (h : feature lib call c n f en s = (s', r)) (hr : r ≠ .dead) :
    (r = .ok ∧ Changed lib c (featureMods s.shm.mods n f en) s s' ∧
      ∃ i, s.shm.mods n = some i ∧ f ∈ lib.declared (n, i.rev) ∧ i.feats f = !en) ∨
    (r = .err ∧ Good lib s' ∧ SameMods s s' ∧ ∀ x, x ≠ c → s'.conns x = s.conns x) := by
  unfold feature at h
  rcases hl : ctxLock lib call c s with ⟨s1, r1⟩
  obtain ⟨hg1, ⟨cf, hs1, hcf⟩, hctx⟩ := ctxLock_good laws hg hl
  have hsame1 : SameMods s s1 := by rw [hs1]; exact ⟨rfl, rfl, rfl, rfl, rfl⟩
  have hother1 : ∀ x, x ≠ c → s1.conns x = s.conns x := by
    intro x hx; rw [hs1]; exact hcf x hx
  have hE : r = .err → s' = s1 → (r = .err ∧ Good lib s' ∧ SameMods s s' ∧
      ∀ x, x ≠ c → s'.conns x = s.conns x) := by
    rintro rfl rfl; exact ⟨rfl, hg1, hsame1, hother1⟩
  rw [hl] at h
  cases r1 with
  | err => cases h; exact Or.inr (hE rfl rfl)
  | dead => cases h; exact absurd rfl hr
  | ok =>
    obtain ⟨hctx, hsome⟩ := hctx rfl
    have hshm : s1.shm = s.shm := by rw [hs1]
    simp only [hctx] at h
    split at h
    · cases h; exact Or.inr (hE rfl rfl)
    · rename_i i hi
      split at h
      · cases h; exact Or.inr (hE rfl rfl)
      · split at h
        · cases h; exact Or.inr (hE rfl rfl)
        · rename_i hdecl
          split at h
          · cases h; exact Or.inr (hE rfl rfl)
          · rename_i hdiff
            split at h
            · cases h; exact Or.inr (hE rfl rfl)
            · rename_i new hnew
              obtain ⟨w', hfin, rfl⟩ := fin_eq h
              obtain ⟨hload, hfiles⟩ := loadStored_some hnew
              have hwf := laws.wf hg.closed
              have hdecl' : f ∈ lib.declared (n, i.rev) := by simpa using hdecl
              have hlook : (s1.shm.mods.drop [n]).set n (chngFeats lib n i f en) =
                  featureMods s.shm.mods n f en := by
                funext x
                unfold Mods.set featureMods
                by_cases hx : x = n
                · simp only [hx, if_true, hi, Option.map_some, chngFeats, Option.some.injEq,
                    Info.mk.injEq, true_and]
                  funext y
                  by_cases hy : y = f
                  · subst hy
                    cases hf : i.feats y <;> cases en <;> simp_all
                  · cases hfy : i.feats y with
                    | false => simp [hy]
                    | true =>
                      have := (hwf n i hi).2 y hfy
                      simp [hy, this]
                · simp [hx, Mods.drop, hshm]
              rw [hlook] at hload
              have hwfm : Wf lib (featureMods s.shm.mods n f en) := by
                intro x j hj
                unfold featureMods at hj
                split at hj
                · rename_i hx
                  subst hx
                  rw [hi] at hj
                  simp only [Option.map_some, Option.some.injEq] at hj
                  subst hj
                  refine ⟨(hwf x i hi).1, fun y hy => ?_⟩
                  simp only at hy
                  split at hy
                  · rename_i hyf; rw [hyf]; exact hdecl'
                  · exact (hwf x i hi).2 y hy
                · exact hwf x j hj
              have hdomf : ∀ x, (featureMods s.shm.mods n f en x).isSome = (s.shm.mods x).isSome := by
                intro x
                unfold featureMods
                split
                · rename_i hx; subst hx; simp
                · rfl
              have hdom : ∀ x, (s1.shm.mods x).isSome = true → (new x).isSome = true := by
                intro x hx
                rw [hshm, ← hdomf x] at hx
                obtain ⟨j, hj⟩ := Option.isSome_iff_exists.1 hx
                rw [laws.keeps hwfm hload hj]; rfl
              have hnew2 : (∀ x ∈ lib.names, (new x).isSome = true → (s1.shm.mods x).isSome = true) →
                  featureMods s.shm.mods n f en = new := by
                intro hv
                funext x
                cases hx : featureMods s.shm.mods n f en x with
                | some j => rw [laws.keeps hwfm hload hx]
                | none =>
                  cases hnx : new x with
                  | none => rfl
                  | some j =>
                    have := hv x (laws.wf hload x j hnx).1 (by simp [hnx])
                    rw [hshm, ← hdomf x, hx] at this; cases this
              rw [← hshm] at hfin
              have := change_cases laws hlate hg1 hload
                (o := lydFeature lib s1.shm.mods new s1.lyd.mods n f en) (mid := act id)
                (by
                  intro rec hrec hv
                  rw [lydFeature_mods hrec, hg1.same, hshm]
                  exact hnew2 hv)
                hdom (fun _ => noErr_act)
                (by
                  intro w w2 hw
                  rw [act_ok.1 hw]
                  refine ⟨rfl, fun hy _ => ?_⟩
                  simp only [id]
                  rw [hy]; exact hfiles) hfin hr
              rcases this with ⟨rfl, hch⟩ | ⟨rfl, hch⟩
              · left
                refine ⟨rfl, ?_, i, hi, hdecl', ?_⟩
                · have hneq : new = featureMods s.shm.mods n f en := by
                    refine (hnew2 ?_).symm
                    intro x _ hx
                    cases hy : s1.shm.mods x with
                    | some j => rfl
                    | none =>
                      obtain ⟨j, hj⟩ := Option.isSome_iff_exists.1 hx
                      have a := hch.good.inst x j (by rw [hch.mods]; exact hj) .startup
                      rw [hch.inst, hg1.clean x hy .startup] at a
                      cases a
                  rw [hneq] at hch
                  exact ⟨hch.good, hch.mods, by rw [hch.inst, hsame1.inst],
                    fun d k => by rw [hch.data d k, hsame1.data], hch.ctx,
                    fun x hx => by rw [hch.others x hx, hother1 x hx], by rw [hch.oper, hs1]⟩
                · cases hf : i.feats f <;> cases en <;> simp_all
              · exact Or.inr (hE rfl hch)

/-- The modules after an update: those listed have the new revision. -/
def updatedMods (m : Mods) (upd : List (Name × Nat)) : Mods := fun n =>
  match upd.find? (fun u => u.1 == n) with
  | some u => (m n).map fun i => { i with rev := u.2 }
  | none => m n

theorem lydUpdate_mods {lib : Lib} {a b m : Mods} {upd : List (Name × Nat)} {r : Rec}
    (h : lydUpdate lib a b m upd = some r) : r.mods = updatedMods m upd := by
  unfold lydUpdate at h
  split at h
  · rw [withDeps_mods h]
    funext n
    unfold updatedMods
    cases upd.find? (fun u => u.1 == n) <;> cases m n <;> rfl
  · cases h

theorem updMods_eq {lib : Lib} {m : Mods} {upd : List (Name × Nat)} (hwf : Wf lib m) :
    updMods lib m m upd = updatedMods m upd := by
  funext n
  unfold updMods updatedMods
  cases upd.find? (fun u => u.1 == n) with
  | none => rfl
  | some u =>
    cases hn : m n with
    | none => rfl
    | some i =>
      simp only [Option.map_some, Option.some.injEq, Info.mk.injEq, true_and]
      funext f
      cases hf : i.feats f with
      | false => rfl
      | true =>
        have := (hwf n i hn).2 f hf
        simp [this]

theorem updated_dom (m : Mods) (upd : List (Name × Nat)) (n : Name) :
    (updatedMods m upd n).isSome = (m n).isSome := by
  unfold updatedMods
  split <;> simp

theorem updated_wf {lib : Lib} {m : Mods} {upd : List (Name × Nat)} (hwf : Wf lib m)
    (hk : featsKept lib m upd = true) : Wf lib (updatedMods m upd) := by
  intro n i hi
  unfold updatedMods at hi
  split at hi
  · rename_i u hu
    cases hn : m n with
    | none => rw [hn] at hi; cases hi
    | some j =>
      rw [hn] at hi
      simp only [Option.map_some, Option.some.injEq] at hi
      subst hi
      refine ⟨(hwf n j hn).1, fun f hf => ?_⟩
      simp only at hf
      have hmem := List.mem_of_find?_eq_some hu
      have hname : u.1 = n := by simpa using List.find?_some hu
      have := List.all_eq_true.1 hk u hmem
      rw [hname, hn] at this
      have := List.all_eq_true.1 this f ((hwf n j hn).2 f hf)
      simp only [hf, Bool.not_true, Bool.false_or, List.contains_eq_mem, decide_eq_true_eq] at this
      rw [show (n, u.2) = u by rw [← hname]]
      exact this
  · exact hwf n i hi

/-- What storing YANG files keeps. -/
structure Filing (lib : Lib) (new : Mods) (w0 w : Work) : Prop where
  frame : w.s = { w0.s with yang := w.s.yang }
  keep : ∀ g, inCtx lib new g = true → w0.s.yang g = true → w.s.yang g = true

theorem yangStore_keeps {lib : Lib} {call : Call} {f : File} {new : Mods} {w0 : Work} :
    Keeps (Filing lib new w0) (yangStore lib call f) := by
  intro w hw
  unfold yangStore
  cases call.fate (.yang f.1) <;>
  · refine ⟨?_, ?_⟩
    · rw [hw.frame]
    · intro g hg h0
      simp [hw.keep g hg h0]

theorem yangRemove_keeps {lib : Lib} {f : File} {new : Mods} {w0 : Work} :
    Keeps (Filing lib new w0) (act (yangRemove lib new f)) := by
  intro w hw
  refine ⟨?_, ?_⟩
  · simp only [act, yangRemove]; rw [hw.frame]
  · intro g hg h0
    simp [act, yangRemove, hw.keep g hg h0, hg]

theorem yangStore_noErr {lib : Lib} {call : Call} {f : File} (h : call.fate (.yang f.1) ≠ .fail) :
    NoErr (yangStore lib call f) := by
  intro w
  unfold yangStore
  cases hp : call.fate (.yang f.1) <;> simp_all

theorem yangStore_ok {lib : Lib} {call : Call} {f : File} {w w' : Work}
    (h : yangStore lib call f w = (w', .ok)) : ∀ g ∈ reach lib f, w'.s.yang g = true := by
  unfold yangStore at h
  cases hp : call.fate (.yang f.1) with
  | go =>
    rw [hp] at h
    cases h
    intro g hg
    simp [hg]
  | fail => rw [hp] at h; cases h
  | die => rw [hp] at h; cases h

theorem updFiles_ok {lib : Lib} {call : Call} {old new : Mods} {upd : List (Name × Nat)} {w w' : Work}
    (h : updFiles lib call old new upd w = (w', .ok)) :
    Filing lib new w w' ∧ ∀ u ∈ upd, ∀ g ∈ reach lib u, inCtx lib new g = true → w'.s.yang g = true := by
  have hf : Keeps (Filing lib new w) (updFiles lib call old new upd) :=
    keeps_each fun u _ => keeps_andThen yangRemove_keeps yangStore_keeps
  refine ⟨hf.res ⟨rfl, fun _ _ h => h⟩ h, ?_⟩
  refine each_all (fun _ => True) (fun u w => ∀ g ∈ reach lib u, inCtx lib new g = true →
    w.s.yang g = true) (fun _ _ _ _ => trivial) ?_ ?_ w w' trivial h
  · intro u _ v v' _ hv g hg _
    obtain ⟨v1, _, h2⟩ := andThen_ok.1 hv
    exact yangStore_ok h2 g hg
  · intro u _ x _ v hv
    refine ⟨trivial, fun g hg hc => ?_⟩
    have : Keeps (fun w => w.s.yang g = true) (andThen
        (act (yangRemove lib new (x.1, revOf old x.1)))
        (yangStore lib call x)) := by
      refine keeps_andThen ?_ ?_
      · intro u hu
        simp [act, yangRemove, hu, hc]
      · intro u hu
        unfold yangStore
        cases call.fate (.yang x.1) <;> simp [hu]
    exact this v (hv.2 g hg hc)

set_option maxHeartbeats 1000000 in
theorem update_cases {lib : Lib} (laws : Laws lib) {call : Call} {c : Nat}
    {upd : List (Name × Nat)} {s s' : State} {r : Res} (hlate : r = .err → Late call)
    (hyang : r = .err → ∀ n, call.fate (.yang n) ≠ .fail) (hg : Good lib s)
    (h : update lib call c upd s = (s', r)) (hr : r ≠ .dead) :
    (r = .ok ∧ Changed lib c (updatedMods s.shm.mods upd) s s' ∧
      ∀ u ∈ upd, ∃ i, s.shm.mods u.1 = some i ∧ u.2 ≠ 0 ∧ (i.rev = 0 ∨ i.rev < u.2)) ∨
    (r = .err ∧ Good lib s' ∧ SameMods s s' ∧ ∀ x, x ≠ c → s'.conns x = s.conns x) := by
  unfold update at h
  rcases hl : ctxLock lib call c s with ⟨s1, r1⟩
  obtain ⟨hg1, ⟨cf, hs1, hcf⟩, hctx⟩ := ctxLock_good laws hg hl
  have hsame1 : SameMods s s1 := by rw [hs1]; exact ⟨rfl, rfl, rfl, rfl, rfl⟩
  have hother1 : ∀ x, x ≠ c → s1.conns x = s.conns x := by
    intro x hx; rw [hs1]; exact hcf x hx
  have hE : r = .err → s' = s1 → (r = .err ∧ Good lib s' ∧ SameMods s s' ∧
      ∀ x, x ≠ c → s'.conns x = s.conns x) := by
    rintro rfl rfl; exact ⟨rfl, hg1, hsame1, hother1⟩
  rw [hl] at h
  cases r1 with
  | err => cases h; exact Or.inr (hE rfl rfl)
  | dead => cases h; exact absurd rfl hr
  | ok =>
    obtain ⟨hctx, hsome⟩ := hctx rfl
    have hshm : s1.shm = s.shm := by rw [hs1]
    simp only [hctx] at h
    split at h
    · cases h; exact Or.inr (hE rfl rfl)
    · rename_i hpre
      have hkept : featsKept lib s.shm.mods upd = true := by
        cases hx : featsKept lib s.shm.mods upd with
        | true => rfl
        | false => simp [hx] at hpre
      split at h
      · cases h; exact Or.inr (hE rfl rfl)
      · rename_i new hload
        split at h
        · cases h; exact Or.inr (hE rfl rfl)
        · rename_i hrevs
          obtain ⟨w', hfin, rfl⟩ := fin_eq h
          have hwf := laws.wf hg.closed
          rw [hshm, updMods_eq hwf] at hload
          have hwfm := updated_wf hwf hkept
          have hdom : ∀ x, (s1.shm.mods x).isSome = true → (new x).isSome = true := by
            intro x hx
            rw [hshm, ← updated_dom _ upd x] at hx
            obtain ⟨j, hj⟩ := Option.isSome_iff_exists.1 hx
            rw [laws.keeps hwfm hload hj]; rfl
          have hnew2 : (∀ x ∈ lib.names, (new x).isSome = true → (s1.shm.mods x).isSome = true) →
              updatedMods s.shm.mods upd = new := by
            intro hv
            funext x
            cases hx : updatedMods s.shm.mods upd x with
            | some j => rw [laws.keeps hwfm hload hx]
            | none =>
              cases hnx : new x with
              | none => rfl
              | some j =>
                have := hv x (laws.wf hload x j hnx).1 (by simp [hnx])
                rw [hshm, ← updated_dom _ upd x, hx] at this; cases this
          rw [← hshm] at hfin
          have := change_cases laws hlate hg1 hload
            (o := lydUpdate lib s1.shm.mods new s1.lyd.mods upd)
            (mid := updFiles lib call s1.shm.mods new upd)
            (by
              intro rec hrec hv
              rw [lydUpdate_mods hrec, hg1.same, hshm]
              exact hnew2 hv)
            hdom
            (fun hr => noErr_each fun u _ => noErr_andThen noErr_act (yangStore_noErr (hyang hr _)))
            (by
              intro w w2 hw
              obtain ⟨hF, hS⟩ := updFiles_ok hw
              refine ⟨hF.frame, fun hy hv => ?_⟩
              rw [haveFiles_iff]
              intro n hn i hi g hg'
              have hin := inCtx_iff.2 ⟨n, hn, i, hi, hg'⟩
              rw [← hnew2 hv] at hi
              unfold updatedMods at hi
              split at hi
              · rename_i u hu
                cases hn' : s.shm.mods n with
                | none => rw [hn'] at hi; cases hi
                | some j =>
                  rw [hn'] at hi
                  simp only [Option.map_some, Option.some.injEq] at hi
                  subst hi
                  have hname : u.1 = n := by simpa using List.find?_some hu
                  refine hS u (List.mem_of_find?_eq_some hu) g ?_ hin
                  rw [show u = (n, u.2) by rw [← hname]]
                  exact hg'
              · refine hF.keep g hin ?_
                rw [hy, hs1]
                exact haveFiles_iff.1 hg.files n hn i hi g hg')
            hfin hr
          rcases this with ⟨rfl, hch⟩ | ⟨rfl, hch⟩
          · left
            have hneq : new = updatedMods s.shm.mods upd := by
              refine (hnew2 ?_).symm
              intro x _ hx
              cases hy : s1.shm.mods x with
              | some j => rfl
              | none =>
                obtain ⟨j, hj⟩ := Option.isSome_iff_exists.1 hx
                have a := hch.good.inst x j (by rw [hch.mods]; exact hj) .startup
                rw [hch.inst, hg1.clean x hy .startup] at a
                cases a
            rw [hneq] at hch
            refine ⟨rfl, ⟨hch.good, hch.mods, by rw [hch.inst, hsame1.inst],
              fun d k => by rw [hch.data d k, hsame1.data], hch.ctx,
              fun x hx => by rw [hch.others x hx, hother1 x hx], by rw [hch.oper, hs1]⟩, ?_⟩
            intro u hu
            have hrevs : laterRevs s.shm.mods upd = true := by simpa using hrevs
            have := List.all_eq_true.1 hrevs u hu
            simp only [Bool.and_eq_true, bne_iff_ne, ne_eq] at this
            obtain ⟨h0, h1⟩ := this
            split at h1
            · rename_i i hi
              refine ⟨i, hi, h0, ?_⟩
              simpa using h1
            · cases h1
          · exact Or.inr (hE rfl hch)

end Verif.ModOps
