import Verif.ModOps

/-! Lemmas for the module operations. -/

namespace Verif.ModOps

/-- Modules in play with declared features only. -/
def Wf (lib : Lib) (l : Mods) : Prop :=
  ∀ n i, l n = some i → n ∈ lib.names ∧ ∀ f, i.feats f = true → f ∈ lib.declared (n, i.rev)

/-- What is assumed of libyang. -/
structure Laws (lib : Lib) : Prop where
  /-- contexts have modules in play with declared features -/
  wf : ∀ {l c : Mods}, lib.load l = some c → Wf lib c
  /-- the modules asked for are implemented as asked -/
  keeps : ∀ {l c : Mods} {n : Name} {i : Info}, Wf lib l → lib.load l = some c → l n = some i →
    c n = some i
  /-- loading all implemented modules of a context gives the same context -/
  closed : ∀ {l c : Mods}, lib.load l = some c → lib.load c = some c
  /-- fewer modules need no others -/
  less : ∀ {l m c d : Mods} {n : Name} {i : Info}, Wf lib l → Wf lib m →
    lib.load l = some c → lib.load m = some d →
    (∀ x j, l x = some j → m x = some j) → c n = some i → ∃ j, d n = some j ∧ j.rev = i.rev
  /-- every key is listed -/
  listed : ∀ k, lib.home k ∈ lib.names → k ∈ lib.keys
  /-- contexts with the same hash are the same -/
  hash : ∀ {a b : Mods}, lib.load a = some a → lib.load b = some b → lib.hash a = lib.hash b → a = b

/-! ## Steps -/

theorem andThen_ok {a b : Step} {w w2 : Work} :
    andThen a b w = (w2, .ok) ↔ ∃ w1, a w = (w1, .ok) ∧ b w1 = (w2, .ok) := by
  unfold andThen
  rcases h : a w with ⟨w1, r⟩
  cases r <;> simp

theorem andThen_err {a b : Step} {w w2 : Work} :
    andThen a b w = (w2, .err) ↔
      a w = (w2, .err) ∨ ∃ w1, a w = (w1, .ok) ∧ b w1 = (w2, .err) := by
  unfold andThen
  rcases h : a w with ⟨w1, r⟩
  cases r <;> simp

/-- A step keeps an invariant whatever its result. -/
def Keeps (I : Work → Prop) (st : Step) : Prop := ∀ w, I w → I (st w).1

theorem keeps_andThen {I : Work → Prop} {a b : Step} (ha : Keeps I a) (hb : Keeps I b) :
    Keeps I (andThen a b) := by
  intro w hw
  unfold andThen
  have h1 := ha w hw
  rcases h : a w with ⟨w1, r⟩
  rw [h] at h1
  cases r with
  | ok => exact hb w1 h1
  | err => exact h1
  | dead => exact h1

theorem keeps_act_id {I : Work → Prop} : Keeps I (act id) := fun _ h => h

theorem keeps_each {α : Type} {I : Work → Prop} {l : List α} {f : α → Step}
    (h : ∀ a ∈ l, Keeps I (f a)) : Keeps I (each l f) := by
  induction l with
  | nil => exact keeps_act_id
  | cons a l ih =>
    exact keeps_andThen (h a (by simp)) (ih fun b hb => h b (by simp [hb]))

theorem keeps_gate {I : Work → Prop} {call : Call} {p : Pt} : Keeps I (gate call p) := fun _ h => h

theorem keeps_check {I : Work → Prop} {b : State → Bool} {r : Res} : Keeps I (check b r) := by
  intro w h
  unfold check
  split <;> exact h

/-- A step has no error. -/
def NoErr (st : Step) : Prop := ∀ w, (st w).2 ≠ .err

theorem noErr_andThen {a b : Step} (ha : NoErr a) (hb : NoErr b) : NoErr (andThen a b) := by
  intro w
  unfold andThen
  have h1 := ha w
  rcases h : a w with ⟨w1, r⟩
  rw [h] at h1
  cases r with
  | ok => exact hb w1
  | err => exact absurd rfl h1
  | dead => simp

theorem noErr_act {f : State → State} : NoErr (act f) := fun _ => by simp [act]

theorem noErr_each {α : Type} {l : List α} {f : α → Step} (h : ∀ a ∈ l, NoErr (f a)) :
    NoErr (each l f) := by
  induction l with
  | nil => exact noErr_act
  | cons a l ih => exact noErr_andThen (h a (by simp)) (ih fun b hb => h b (by simp [hb]))

theorem noErr_gate {call : Call} {p : Pt} (h : call.fate p ≠ .fail) : NoErr (gate call p) := by
  intro w
  unfold gate
  cases hp : call.fate p <;> simp_all

theorem gate_ok {call : Call} {p : Pt} {w w2 : Work} :
    gate call p w = (w2, .ok) ↔ call.fate p = .go ∧ w2 = w := by
  unfold gate
  cases hp : call.fate p <;> simp [eq_comm]

theorem gate_err {call : Call} {p : Pt} {w w2 : Work} :
    gate call p w = (w2, .err) ↔ call.fate p = .fail ∧ w2 = w := by
  unfold gate
  cases hp : call.fate p <;> simp [eq_comm]

theorem check_ok {b : State → Bool} {r : Res} {w w2 : Work} (hr : r ≠ .ok) :
    check b r w = (w2, .ok) ↔ b w.s = true ∧ w2 = w := by
  unfold check
  split
  · rename_i h
    simp only [Prod.mk.injEq, and_true, h, true_and]
    exact eq_comm
  · rename_i h
    constructor
    · intro hh; cases hh; exact absurd rfl hr
    · intro hh; exact absurd hh.1 h

theorem act_ok {f : State → State} {w w2 : Work} :
    act f w = (w2, .ok) ↔ w2 = { w with s := f w.s } := by
  simp [act, eq_comm]

/-- If all steps of a loop went well, so did each one, and what one established and the others keep
holds in the end. -/
theorem each_all {α : Type} {l : List α} {f : α → Step} (I : Work → Prop) (P : α → Work → Prop)
    (hI : ∀ a ∈ l, Keeps I (f a))
    (hest : ∀ a ∈ l, ∀ w w', I w → f a w = (w', .ok) → P a w')
    (hkeep : ∀ a ∈ l, ∀ b ∈ l, Keeps (fun w => I w ∧ P a w) (f b)) :
    ∀ w w', I w → each l f w = (w', .ok) → ∀ a ∈ l, P a w' := by
  induction l with
  | nil => intro w w' _ _ a ha; cases ha
  | cons x l ih =>
    intro w w' hw h a ha
    obtain ⟨w1, h1, h2⟩ := andThen_ok.1 h
    have hw1 : I w1 := by have := hI x (by simp) w hw; rw [h1] at this; exact this
    rcases List.mem_cons.1 ha with rfl | ha
    · have hk : Keeps (fun w => I w ∧ P a w) (each l f) :=
        keeps_each fun b hb => hkeep a (by simp) b (by simp [hb])
      have := hk w1 ⟨hw1, hest a (by simp) w w1 hw h1⟩
      rw [h2] at this
      exact this.2
    · exact ih (fun b hb => hI b (by simp [hb])) (fun b hb => hest b (by simp [hb]))
        (fun b hb d hd => hkeep b (by simp [hb]) d (by simp [hd])) w1 w' hw1 h2 a ha

/-! ## Reach -/

theorem mem_reach_self (lib : Lib) (f : File) : f ∈ reach lib f := by
  unfold reach
  cases lib.depth <;> simp [walk]

theorem walk_sub_reach (lib : Lib) (cut : File → Bool) :
    ∀ (k : Nat) (f g : File), g ∈ walk lib cut k f → g ∈ walk lib (fun _ => false) k f := by
  intro k
  induction k with
  | zero => intro f g; simp only [walk]; split <;> simp
  | succ k ih =>
    intro f g
    simp only [walk]
    split
    · simp
    · intro h
      rcases List.mem_cons.1 h with h | h
      · subst h; simp
      · obtain ⟨x, hx, hg⟩ := List.mem_flatMap.1 h
        simp only [Bool.false_eq_true, if_false]
        exact List.mem_cons_of_mem _ (List.mem_flatMap.2 ⟨x, hx, ih x g hg⟩)

theorem inCtx_iff {lib : Lib} {c : Mods} {f : File} :
    inCtx lib c f = true ↔ ∃ n ∈ lib.names, ∃ i, c n = some i ∧ f ∈ reach lib (n, i.rev) := by
  unfold inCtx
  rw [List.any_eq_true]
  constructor
  · rintro ⟨n, hn, h⟩
    split at h
    · rename_i i hi
      exact ⟨n, hn, i, hi, by simpa using h⟩
    · simp at h
  · rintro ⟨n, hn, i, hi, h⟩
    exact ⟨n, hn, by simp [hi, h]⟩

theorem haveFiles_iff {lib : Lib} {y : File → Bool} {c : Mods} :
    haveFiles lib y c = true ↔
      ∀ n ∈ lib.names, ∀ i, c n = some i → ∀ f ∈ reach lib (n, i.rev), y f = true := by
  unfold haveFiles
  rw [List.all_eq_true]
  constructor
  · intro h n hn i hi f hf
    have := h n hn
    rw [hi] at this
    exact List.all_eq_true.1 this f hf
  · intro h n hn
    split
    · rename_i i hi
      exact List.all_eq_true.2 (h n hn i hi)
    · rfl

theorem loadStored_some {lib : Lib} {y : File → Bool} {l c : Mods}
    (h : loadStored lib y l = some c) : lib.load l = some c ∧ haveFiles lib y c = true := by
  unfold loadStored at h
  split at h
  · rename_i c' hc
    split at h
    · cases h; exact ⟨hc, by assumption⟩
    · cases h
  · cases h

theorem loadStored_of {lib : Lib} {y : File → Bool} {l c : Mods} (h : lib.load l = some c)
    (hf : haveFiles lib y c = true) : loadStored lib y l = some c := by
  simp [loadStored, h, hf]

/-! ## The good states -/

/-- Internal data, shared memory, files, plugins and contexts agree. -/
structure Good (lib : Lib) (s : State) : Prop where
  same : s.lyd.mods = s.shm.mods
  closed : lib.load s.shm.mods = some s.shm.mods
  files : haveFiles lib s.yang s.shm.mods = true
  inst : ∀ n i, s.shm.mods n = some i → ∀ d, s.inst n d = true
  clean : ∀ n, s.shm.mods n = none → ∀ d, s.inst n d = false
  nodata : ∀ d k, s.shm.mods (lib.home k) = none → s.data d k = none
  cid : s.cid = lib.hash s.shm.mods
  conns : ∀ c k, s.conns c = some k → k.cid = lib.hash k.ctx ∧ lib.load k.ctx = some k.ctx

theorem Good.stored {lib : Lib} {s : State} (h : Good lib s) :
    loadStored lib s.yang s.shm.mods = some s.shm.mods := loadStored_of h.closed h.files

theorem Good.setConn {lib : Lib} {s : State} (h : Good lib s) (c : Nat) (k : Conn)
    (hk : k.cid = lib.hash k.ctx ∧ lib.load k.ctx = some k.ctx) : Good lib (s.setConn c k) := by
  refine ⟨h.same, h.closed, h.files, h.inst, h.clean, h.nodata, h.cid, ?_⟩
  intro x y hy
  simp only [State.setConn] at hy
  split at hy
  · cases hy; exact hk
  · exact h.conns x y hy

theorem conn_setConn (s : State) (c : Nat) (k : Conn) : (s.setConn c k).conn c = k := by
  simp [State.conn, State.setConn]

/-- After the lock of a good state the context of the connection has exactly the installed modules
and nothing else has changed. -/
theorem ctxLock_good {lib : Lib} (laws : Laws lib) {call : Call} {c : Nat} {s s1 : State} {r : Res}
    (hg : Good lib s) (h : ctxLock lib call c s = (s1, r)) :
    Good lib s1 ∧ (∃ f, s1 = { s with conns := f } ∧ ∀ x, x ≠ c → f x = s.conns x) ∧
      (r = .ok → (s1.conn c).ctx = s.shm.mods ∧ (s1.conns c).isSome = true) := by
  have hsame : Good lib s ∧ (∃ f, s = { s with conns := f } ∧ ∀ x, x ≠ c → f x = s.conns x) :=
    ⟨hg, s.conns, rfl, fun _ _ => rfl⟩
  unfold ctxLock at h
  split at h
  · cases h; exact ⟨hsame.1, hsame.2, by simp⟩
  · cases h; exact ⟨hsame.1, hsame.2, by simp⟩
  · split at h
    · cases h; exact ⟨hsame.1, hsame.2, by simp⟩
    · rename_i hsome
      split at h
      · rename_i hcid
        cases h
        refine ⟨hsame.1, hsame.2, fun _ => ?_⟩
        obtain ⟨k, hk⟩ : ∃ k, s.conns c = some k := by
          cases hc : s.conns c with
          | none => simp [hc] at hsome
          | some k => exact ⟨k, rfl⟩
        have h1 := hg.conns c k hk
        have h2 : s.conn c = k := by simp [State.conn, hk]
        rw [h2] at hcid ⊢
        refine ⟨laws.hash h1.2 hg.closed ?_, by simp [hk]⟩
        rw [← h1.1, ← hcid, hg.cid]
      · rw [hg.stored] at h
        cases h
        refine ⟨hg.setConn c _ ⟨by rw [hg.cid], hg.closed⟩, ⟨_, rfl, ?_⟩, fun _ => ?_⟩
        · intro x hx
          simp [hx]
        · rw [conn_setConn]
          exact ⟨rfl, by simp [State.setConn]⟩

/-! ## Storing data -/

/-- What storing data keeps: everything but the data, and the data are the old ones or the new. -/
structure Storing (lib : Lib) (ctx : Mods) (new : Ds → Key → Option Val) (w0 w : Work) : Prop where
  frame : w = { w0 with s := { w0.s with data := w.s.data } }
  mix : ∀ d k, w.s.data d k = w0.s.data d k ∨
    (d ∈ confDs ∧ (ctx (lib.home k)).isSome = true ∧ w.s.data d k = new d k)

theorem storing_step {lib : Lib} {call : Call} {ctx : Mods} {old new : Ds → Key → Option Val}
    {w0 : Work} {d : Ds} {n : Name} (hd : d ∈ confDs) :
    Keeps (Storing lib ctx new w0) (if (ctx n).isSome && differs lib n d old new then
      andThen (gate call (.store n d)) (act (writeData lib n d new)) else act id) := by
  split
  · rename_i hc
    have hn : (ctx n).isSome = true := by
      cases h : (ctx n).isSome <;> simp_all
    refine keeps_andThen keeps_gate ?_
    intro w hw
    refine ⟨?_, ?_⟩
    · simp only [act, writeData]
      rw [hw.frame]
    · intro e k
      simp only [act, writeData]
      split
      · rename_i h
        obtain ⟨rfl, rfl⟩ := h
        exact Or.inr ⟨hd, hn, rfl⟩
      · exact hw.mix e k
  · exact keeps_act_id

theorem storing_keeps {lib : Lib} {call : Call} {ctx : Mods} {old new : Ds → Key → Option Val}
    {w0 : Work} : Keeps (Storing lib ctx new w0) (storeData lib call ctx old new) :=
  keeps_each fun _ hd => keeps_each fun _ _ => storing_step hd

theorem storeData_noErr {lib : Lib} {call : Call} {ctx : Mods} {old new : Ds → Key → Option Val}
    (h : ∀ n d, call.fate (.store n d) ≠ .fail) : NoErr (storeData lib call ctx old new) := by
  refine noErr_each fun d _ => noErr_each fun n _ => ?_
  split
  · exact noErr_andThen (noErr_gate (h n d)) noErr_act
  · exact noErr_act

/-- After the data were stored: the new ones for the modules of the new context. -/
theorem storeData_ok {lib : Lib} (hk : ∀ k, lib.home k ∈ lib.names → k ∈ lib.keys) {call : Call} {ctx : Mods}
    {old new : Ds → Key → Option Val} {w w' : Work}
    (hnames : ∀ n i, ctx n = some i → n ∈ lib.names)
    (hold : ∀ d k, (ctx (lib.home k)).isSome = true → w.s.data d k = old d k)
    (h : storeData lib call ctx old new w = (w', .ok)) :
    w' = { w with s := { w.s with data := w'.s.data } } ∧
    (∀ d k, (d ∈ confDs ∧ (ctx (lib.home k)).isSome = true → w'.s.data d k = new d k) ∧
      (¬ (d ∈ confDs ∧ (ctx (lib.home k)).isSome = true) → w'.s.data d k = w.s.data d k)) := by
  have h0 : Storing lib ctx new w w := ⟨rfl, fun _ _ => Or.inl rfl⟩
  have h1 : Storing lib ctx new w w' := by
    have := storing_keeps (lib := lib) (call := call) (old := old) w h0
    rw [h] at this
    exact this
  refine ⟨h1.frame, fun d k => ⟨?_, ?_⟩⟩
  · rintro ⟨hd, hc⟩
    have hn : lib.home k ∈ lib.names := by
      obtain ⟨i, hi⟩ := Option.isSome_iff_exists.1 hc
      exact hnames _ i hi
    have houter := each_all (l := confDs)
      (f := fun d => each lib.names fun n =>
        if (ctx n).isSome && differs lib n d old new then
          andThen (gate call (.store n d)) (act (writeData lib n d new)) else act id)
      (Storing lib ctx new w)
      (fun d w' => ∀ n ∈ lib.names, ∀ k, lib.home k = n → (ctx n).isSome = true →
        w'.s.data d k = new d k)
      (fun d hd => keeps_each fun n _ => storing_step hd)
      (fun d hd u u' hu hok => by
        refine each_all (Storing lib ctx new w)
          (fun n u => ∀ k, lib.home k = n → (ctx n).isSome = true → u.s.data d k = new d k)
          (fun n _ => storing_step hd) ?_ ?_ u u' hu hok
        · intro n hnn v v' hv hok k hkn hcn
          split at hok
          · obtain ⟨v1, hg, ha⟩ := andThen_ok.1 hok
            obtain ⟨_, rfl⟩ := gate_ok.1 hg
            rw [act_ok.1 ha]
            simp [writeData, hkn]
          · rename_i hnd
            rw [act_ok.1 hok]
            have hnd' : differs lib n d old new = false := by
              cases hx : differs lib n d old new with
              | false => rfl
              | true => simp [hcn, hx] at hnd
            unfold differs at hnd'
            rw [List.any_eq_false] at hnd'
            have := hnd' k (hk k (hkn ▸ hnn))
            simp only [hkn, beq_self_eq_true, Bool.true_and, bne_iff_ne, ne_eq, Decidable.not_not] at this
            rcases hv.mix d k with hm | hm
            · simp only [id]
              rw [hm, hold d k (hkn ▸ hcn), this]
            · exact hm.2.2
        · intro n _ m _ v hv
          refine ⟨storing_step hd v hv.1, ?_⟩
          intro k hkn hcn
          split
          · have hst : ∀ u : Work, (u.s.data d k = new d k) →
                ((andThen (gate call (.store m d)) (act (writeData lib m d new))) u).1.s.data d k = new d k := by
              intro u hu
              refine keeps_andThen (I := fun u => u.s.data d k = new d k) keeps_gate ?_ u hu
              intro u hu
              simp only [act, writeData]
              split
              · rfl
              · exact hu
            exact hst v (hv.2 k hkn hcn)
          · exact hv.2 k hkn hcn)
      (fun d hd e he u hu => by
        refine ⟨keeps_each (fun n _ => storing_step he) u hu.1, ?_⟩
        intro n hn k hkn hcn
        refine keeps_each (I := fun u => u.s.data d k = new d k) (fun m _ => ?_) u (hu.2 n hn k hkn hcn)
        split
        · refine keeps_andThen keeps_gate ?_
          intro u hu
          simp only [act, writeData]
          split
          · rename_i hh; rw [hh.1]
          · exact hu
        · exact keeps_act_id)
      w w' h0 h
    exact houter d hd _ hn k rfl hc
  · intro hno
    rcases h1.mix d k with hm | hm
    · exact hm
    · exact absurd ⟨hm.1, hm.2.1⟩ hno

end Verif.ModOps
