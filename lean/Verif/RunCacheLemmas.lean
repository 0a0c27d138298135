import Verif.RunCache

/-!
# The invariant of the cache of running data
-/
namespace Verif.RunCache

theorem upd_same {α : Type} (f : Nat → α) (k : Nat) (v : α) : upd f k v k = v := by simp [upd]
theorem upd_other {α : Type} (f : Nat → α) {k x : Nat} (v : α) (h : x ≠ k) : upd f k v x = f x := by
  simp [upd, h]

theorem alone_iff {A : Cfg} {s : State} {t : Nat} {p : Pc → Bool} :
    alone A s t p = true ↔ ∀ t' < A.nt, t' ≠ t → A.conn t' = A.conn t → p (s.th t').pc = false := by
  simp only [alone, List.all_eq_true, List.mem_range, Bool.or_eq_true, beq_iff_eq, bne_iff_ne,
    Bool.not_eq_true']
  grind

theorem nodesOf_append (a b : List (Nat × Nat)) (m : Nat) :
    nodesOf (a ++ b) m = nodesOf a m ++ nodesOf b m := by simp [nodesOf]

theorem nodesOf_unlink (d : List (Nat × Nat)) (m : Nat) : nodesOf (unlink d m) m = [] := by
  induction d with
  | nil => rfl
  | cons x d ih =>
    simp only [unlink, nodesOf] at ih ⊢
    by_cases h : x.1 = m <;> simp [h, List.filter_cons, List.filterMap_cons] <;> simpa using ih

theorem nodesOf_unlink_other (d : List (Nat × Nat)) {m k : Nat} (hk : k ≠ m) :
    nodesOf (unlink d m) k = nodesOf d k := by
  induction d with
  | nil => rfl
  | cons x d ih =>
    simp only [unlink, nodesOf] at ih ⊢
    by_cases h : x.1 = m
    · have : ¬ x.1 = k := by omega
      simp only [List.filter_cons, h, bne_self_eq_false, Bool.false_eq_true, if_false,
        List.filterMap_cons]
      rw [ih]
      have : ¬ m = k := by omega
      simp [this]
    · have hb : (x.1 != m) = true := by simpa using h
      simp only [List.filter_cons, hb, if_true, List.filterMap_cons]
      rw [ih]

theorem nodesOf_tree (m : Nat) (v : List Nat) : nodesOf (tree m v) m = v := by
  induction v with
  | nil => rfl
  | cons x v ih => simp only [tree, nodesOf] at ih ⊢; simp [List.filterMap_cons, ih]

theorem nodesOf_tree_other {m k : Nat} (v : List Nat) (hk : k ≠ m) : nodesOf (tree m v) k = [] := by
  induction v with
  | nil => rfl
  | cons x v ih =>
    simp only [tree, nodesOf] at ih ⊢
    have : ¬ m = k := by omega
    simp [List.filterMap_cons, this]

theorem nodesOf_insert (d : List (Nat × Nat)) (m : Nat) (v : List Nat) :
    nodesOf (insert (unlink d m) m v) m = v := by
  rw [insert, nodesOf_append, nodesOf_unlink, nodesOf_tree]; rfl

theorem nodesOf_insert_other (d : List (Nat × Nat)) {m k : Nat} (v : List Nat) (h : k ≠ m) :
    nodesOf (insert (unlink d m) m v) k = nodesOf d k := by
  rw [insert, nodesOf_append, nodesOf_unlink_other d h, nodesOf_tree_other v h, List.append_nil]

theorem nodesOf_select (nf : Bool) (req : List Nat) (d : List (Nat × Nat)) {m : Nat} (h : m ∈ req) :
    nodesOf (select nf req d) m = nodesOf d m := by
  induction d with
  | nil => rfl
  | cons x d ih =>
    simp only [select, nodesOf] at ih ⊢
    by_cases hx : x.1 = m
    · have : (nf || req.contains m) = true := by simp [h]
      simp only [List.filter_cons, hx, this, if_true, List.filterMap_cons]
      rw [ih]
    · cases hc : (nf || req.contains x.1)
      · simp only [List.filter_cons, hc, Bool.false_eq_true, if_false, List.filterMap_cons, hx]
        exact ih
      · simp only [List.filter_cons, hc, if_true, List.filterMap_cons, hx, if_false]
        exact ih

theorem filter_map_nodes (d : List (Nat × Nat)) (m : Nat) :
    (d.filter (fun x => x.1 == m)).map (·.2) = nodesOf d m := by
  induction d with
  | nil => rfl
  | cons x d ih =>
    simp only [nodesOf] at ih ⊢
    by_cases hx : x.1 = m <;> simp [List.filter_cons, List.filterMap_cons, hx, ih]

theorem nodesOf_flat {ms : List Nat} (f : Nat → List Nat) (hnd : ms.Nodup) {m : Nat} (h : m ∈ ms) :
    nodesOf (ms.flatMap (fun k => tree k (f k))) m = f m := by
  induction ms with
  | nil => simp at h
  | cons a ms ih =>
    rw [List.flatMap_cons, nodesOf_append]
    have hnd' := List.nodup_cons.mp hnd
    by_cases ha : m = a
    · subst ha
      rw [nodesOf_tree]
      have : nodesOf (ms.flatMap (fun k => tree k (f k))) m = [] := by
        clear ih hnd h
        have hn := hnd'.1
        clear hnd'
        induction ms with
        | nil => rfl
        | cons b ms ih =>
          rw [List.flatMap_cons, nodesOf_append, nodesOf_tree_other _ (by simp at hn; omega),
            ih (by simp at hn; exact hn.2)]; rfl
      rw [this, List.append_nil]
    · rw [nodesOf_tree_other _ ha, ih hnd'.2 (by simpa [ha] using h)]; rfl

theorem findEnt_some {es : List (Nat × Nat)} {m j : Nat} (h : findEnt es m = some j) :
    ∃ e, es[j]? = some e ∧ e.1 = m := by
  rw [findEnt, List.findIdx?_eq_some_iff_getElem] at h
  obtain ⟨hj, he, -⟩ := h
  exact ⟨es[j], by simp [hj], by simpa using he⟩

theorem findEnt_none {es : List (Nat × Nat)} {m : Nat} (h : findEnt es m = none) :
    ∀ e ∈ es, e.1 ≠ m := by
  intro e he
  rw [findEnt, List.findIdx?_eq_none_iff] at h
  simpa using h e he

/-! ## The invariant -/

/-- A module whose cached copy is checked by `run_cache_id` and whose running data are its own. -/
def Good (A : Cfg) (s : State) (m : Nat) : Prop :=
  A.hasVer m = false ∧ A.runDisabled m = false ∧ s.n m < idNone

/-- Number of modules of the operation already processed by the update. -/
def prog : Pc → Nat → Nat
  | .idle, _ => 0
  | .upd i _, _ | .waitAdd i, _ | .check i _ _, _ | .waitLoad i _, _ | .load i _, _ => i
  | _, len => len

/-- The cache entry the update works with. -/
def entOf : Pc → Option (Nat × Nat)
  | .check i j _ | .waitLoad i j | .load i j => some (i, j)
  | _ => none

def Pc.isStored : Pc → Bool
  | .stored _ => true
  | _ => false

def Pc.isBumped : Pc → Bool
  | .bumped _ => true
  | _ => false

/-- New data in the hands of a write. -/
def Pc.newData : Pc → Option (List Nat)
  | .stored d | .bumped d => some d
  | _ => none

/-- The module a write stores now. -/
def wmod (th : Th) : Option Nat := th.wr.map (·.1)

structure Inv (A : Cfg) (s : State) : Prop where
  cid : ∀ m, s.cid m = s.n m % 4294967296
  tlt : ∀ t, (s.th t).pc ≠ .idle → t < A.nt
  excl : ∀ t t', t ≠ t' → A.conn t = A.conn t' → (s.th t).pc.holdsW = true →
    (s.th t').pc.holdsR = false ∧ (s.th t').pc.holdsW = false
  mlock : ∀ t t' m, t ≠ t' → (s.th t).pc.storing = true → wmod (s.th t) = some m →
    (s.th t').pc ≠ .idle → m ∉ (s.th t').ms
  wf : ∀ t m, (s.th t).pc ≠ .idle → wmod (s.th t) = some m → m ∈ (s.th t).ms
  sub : ∀ t m, (s.th t).pc ≠ .idle → m ∈ (s.th t).ms → m ∈ (s.th t).req
  nodup : ∀ t, (s.th t).pc ≠ .idle → (s.th t).ms.Nodup
  ids : ∀ c e, e ∈ s.ents c → A.hasVer e.1 = false → e.2 = idNone ∨ e.2 ≤ s.n e.1
  cur : ∀ c e, e ∈ s.ents c → Good A s e.1 → e.2 = s.n e.1 →
    (∀ t, (s.th t).pc.isStored = true → wmod (s.th t) ≠ some e.1) →
    nodesOf (s.data c) e.1 = s.file e.1
  has : ∀ t k m, A.cached (A.conn t) = true → k < prog (s.th t).pc (s.th t).ms.length →
    (s.th t).ms[k]? = some m → ∃ e ∈ s.ents (A.conn t), e.1 = m
  fresh : ∀ t k m, A.cached (A.conn t) = true → k < prog (s.th t).pc (s.th t).ms.length →
    (s.th t).ms[k]? = some m → Good A s m → (s.th t).pc.storing = false →
    nodesOf (s.data (A.conn t)) m = s.file m
  res : ∀ t r m, (s.th t).pc = .done r → m ∈ (s.th t).ms → Good A s m → nodesOf r m = s.file m
  base : ∀ t d m f, (s.th t).pc = .ready d → (s.th t).wr = some (m, f) → Good A s m →
    d = f (s.file m)
  new : ∀ t d m, (s.th t).pc.newData = some d → wmod (s.th t) = some m → Good A s m → d = s.file m
  ent : ∀ t i j, entOf (s.th t).pc = some (i, j) →
    ∃ e, (s.ents (A.conn t))[j]? = some e ∧ (s.th t).ms[i]? = some e.1
  old : ∀ t m e, (s.th t).pc.isBumped = true → wmod (s.th t) = some m → e ∈ s.ents (A.conn t) →
    e.1 = m → A.hasVer m = false → e.2 = idNone ∨ e.2 < s.n m
  cch : ∀ t, (s.th t).pc.isBumped = true → A.cached (A.conn t) = true
  upc : ∀ t, entOf (s.th t).pc ≠ none ∨ (∃ i l, (s.th t).pc = .upd i l) ∨ (∃ i, (s.th t).pc = .waitAdd i) →
    A.cached (A.conn t) = true

theorem inv_init {A : Cfg} {s : State} (h : Init s) : Inv A s := by
  obtain ⟨h1, h2, h3, h4, h5, h6⟩ := h
  constructor <;> intros <;>
    simp_all [Pc.holdsW, Pc.holdsR, Pc.storing, Pc.isStored, Pc.isBumped, Pc.newData, entOf, prog]


/-- An operation moves on without changing anything shared. -/
theorem inv_go {A : Cfg} {s : State} (h : Inv A s) (t : Nat) (p : Pc)
    (hq : p ≠ .idle → (s.th t).pc ≠ .idle)
    (hw : p.holdsW = true → (s.th t).pc.holdsW = true ∨ canW A s t = true)
    (hr : p.holdsR = true → (s.th t).pc.holdsR = true ∨ (s.th t).pc.holdsW = true)
    (hs : p.storing = false) (hs' : (s.th t).pc.isStored = false)
    (hp : prog p (s.th t).ms.length ≤ prog (s.th t).pc (s.th t).ms.length ∨
      ∃ m, (s.th t).ms[prog (s.th t).pc (s.th t).ms.length]? = some m ∧
        prog p (s.th t).ms.length = prog (s.th t).pc (s.th t).ms.length + 1 ∧
        (∃ e ∈ s.ents (A.conn t), e.1 = m) ∧
        (Good A s m → nodesOf (s.data (A.conn t)) m = s.file m))
    (hst : (s.th t).pc.storing = false)
    (hres : ∀ r m, p = .done r → m ∈ (s.th t).ms → Good A s m → nodesOf r m = s.file m)
    (hbase : ∀ d m f, p = .ready d → (s.th t).wr = some (m, f) → Good A s m → d = f (s.file m))
    (hent : ∀ i j, entOf p = some (i, j) →
      ∃ e, (s.ents (A.conn t))[j]? = some e ∧ (s.th t).ms[i]? = some e.1)
    (hupc : entOf p ≠ none ∨ (∃ i l, p = .upd i l) ∨ (∃ i, p = .waitAdd i) →
      A.cached (A.conn t) = true) : Inv A (s.go t p) := by
  have hnb : p.isBumped = false := by cases p <;> simp_all [Pc.storing, Pc.isBumped]
  have hnd : p.newData = none := by cases p <;> simp_all [Pc.storing, Pc.newData]
  have hns : p.isStored = false := by cases p <;> simp_all [Pc.storing, Pc.isStored]
  have hth : ∀ x, x ≠ t → (s.go t p).th x = s.th x := fun x hx => by simp [State.go, upd, hx]
  have htt : (s.go t p).th t = { s.th t with pc := p } := by simp [State.go, upd]
  have hwm : ∀ x, wmod ((s.go t p).th x) = wmod (s.th x) := by
    intro x; by_cases hx : x = t
    · subst hx; rw [htt]; rfl
    · rw [hth x hx]
  have hms : ∀ x, ((s.go t p).th x).ms = (s.th x).ms := by
    intro x; by_cases hx : x = t
    · subst hx; rw [htt]
    · rw [hth x hx]
  have hrq : ∀ x, ((s.go t p).th x).req = (s.th x).req := by
    intro x; by_cases hx : x = t
    · subst hx; rw [htt]
    · rw [hth x hx]
  have hwr : ∀ x, ((s.go t p).th x).wr = (s.th x).wr := by
    intro x; by_cases hx : x = t
    · subst hx; rw [htt]
    · rw [hth x hx]
  have hpc : ∀ x, ((s.go t p).th x).pc = if x = t then p else (s.th x).pc := by
    intro x; by_cases hx : x = t
    · subst hx; rw [htt]; simp
    · rw [hth x hx]; simp [hx]
  have hgood : ∀ m, Good A (s.go t p) m ↔ Good A s m := fun m => Iff.rfl
  have hne : ∀ x, ((s.go t p).th x).pc ≠ .idle → (s.th x).pc ≠ .idle := by
    intro x; rw [hpc]; split
    · rename_i hx; subst hx; exact hq
    · exact id
  constructor
  · exact h.cid
  · exact fun x hx => h.tlt x (hne x hx)
  · intro x y hxy hc hx
    rw [hpc] at hx ⊢
    have htl := h.tlt
    split at hx
    · rename_i hxt; subst hxt
      rw [if_neg (by omega)]
      rcases hw hx with hx' | hx'
      · exact h.excl _ _ hxy hc hx'
      · rw [canW, alone_iff] at hx'
        by_cases hyi : (s.th y).pc = .idle
        · rw [hyi]; exact ⟨rfl, rfl⟩
        · have := hx' y (htl y hyi) (by omega) hc.symm
          simpa using this
    · split
      · rename_i hxt hyt; subst hyt
        have := h.excl _ _ hxy hc hx
        refine ⟨?_, ?_⟩
        · cases hpr : p.holdsR
          · rfl
          · rcases hr hpr with h' | h' <;> simp_all
        · cases hpr : p.holdsW
          · rfl
          · rcases hw hpr with h' | h'
            · simp_all
            · rw [canW, alone_iff] at h'
              have hxi : (s.th x).pc ≠ .idle := by intro hh; rw [hh] at hx; simp [Pc.holdsW] at hx
              have := h' x (htl x hxi) (by omega) hc
              simp_all
      · exact h.excl _ _ hxy hc hx
  · intro x y m hxy hx hm hy
    rw [hms]
    refine h.mlock x y m hxy ?_ (by rw [← hwm]; exact hm) (hne y hy)
    rw [hpc] at hx; split at hx
    · rw [hs] at hx; cases hx
    · exact hx
  · intro x m hx hm; rw [hms]; exact h.wf x m (hne x hx) (by rw [← hwm]; exact hm)
  · intro x m hx hm; rw [hms] at hm; rw [hrq]; exact h.sub x m (hne x hx) hm
  · intro x hx; rw [hms]; exact h.nodup x (hne x hx)
  · exact h.ids
  · intro c e he hg hn hst2
    refine h.cur c e he hg hn ?_
    intro x hx
    have := hst2 x
    rw [hwm] at this
    refine this ?_
    rw [hpc]; split
    · rename_i hxt; subst hxt; rw [hs'] at hx; cases hx
    · exact hx
  · intro x k m hc hk hm
    rw [hms] at hk hm
    rw [hpc] at hk
    split at hk
    · rename_i hxt; subst hxt
      rcases hp with hp | ⟨m', hm', hpp, he, -⟩
      · exact h.has x k m hc (by omega) hm
      · by_cases hkk : k < prog (s.th x).pc (s.th x).ms.length
        · exact h.has x k m hc hkk hm
        · have : k = prog (s.th x).pc (s.th x).ms.length := by omega
          rw [this, hm'] at hm; cases hm; exact he
    · exact h.has x k m hc hk hm
  · intro x k m hc hk hm hg hsx
    rw [hms] at hk hm
    rw [hpc] at hk hsx
    split at hk
    · rename_i hxt; subst hxt
      rcases hp with hp | ⟨m', hm', hpp, -, he⟩
      · exact h.fresh x k m hc (by omega) hm hg hst
      · by_cases hkk : k < prog (s.th x).pc (s.th x).ms.length
        · exact h.fresh x k m hc hkk hm hg hst
        · have : k = prog (s.th x).pc (s.th x).ms.length := by omega
          rw [this, hm'] at hm; cases hm; exact he hg
    · rename_i hxt; rw [if_neg hxt] at hsx; exact h.fresh x k m hc hk hm hg hsx
  · intro x r m hx hm hg
    rw [hms] at hm; rw [hpc] at hx
    split at hx
    · rename_i hxt; subst hxt; exact hres r m hx hm hg
    · exact h.res x r m hx hm hg
  · intro x d m f hx hm hg
    rw [hwr] at hm; rw [hpc] at hx
    split at hx
    · rename_i hxt; subst hxt; exact hbase d m f hx hm hg
    · exact h.base x d m f hx hm hg
  · intro x d m hx hm hg
    rw [hwm] at hm; rw [hpc] at hx
    split at hx
    · rw [hnd] at hx; cases hx
    · exact h.new x d m hx hm hg
  · intro x i j hx
    rw [hms]; rw [hpc] at hx
    split at hx
    · rename_i hxt; subst hxt; exact hent i j hx
    · exact h.ent x i j hx
  · intro x m e hx hm
    rw [hwm] at hm; rw [hpc] at hx
    split at hx
    · rw [hnb] at hx; cases hx
    · exact h.old x m e hx hm
  · intro x hx
    rw [hpc] at hx
    split at hx
    · rw [hnb] at hx; cases hx
    · exact h.cch x hx
  · intro x hx
    rw [hpc] at hx
    split at hx
    · rename_i hxt; subst hxt; exact hupc hx
    · exact h.upc x hx

/-- A module is added to the cache. -/
theorem inv_append {A : Cfg} {s : State} (h : Inv A s) (c m : Nat) :
    Inv A { s with ents := upd s.ents c (s.ents c ++ [(m, idNone)]) } := by
  have hsub : ∀ c' e, e ∈ s.ents c' → e ∈ upd s.ents c (s.ents c ++ [(m, idNone)]) c' := by
    intro c' e he; unfold upd; split
    · rename_i hc; subst hc; exact List.mem_append_left _ he
    · exact he
  have hinv : ∀ c' e, e ∈ upd s.ents c (s.ents c ++ [(m, idNone)]) c' → e ∈ s.ents c' ∨ e.2 = idNone := by
    intro c' e he; unfold upd at he; split at he
    · rename_i hc; subst hc
      rcases List.mem_append.mp he with he | he
      · exact Or.inl he
      · simp at he; right; rw [he]
    · exact Or.inl he
  exact {
    cid := h.cid, tlt := h.tlt, excl := h.excl, mlock := h.mlock, wf := h.wf, sub := h.sub
    nodup := h.nodup
    ids := fun c' e he hv => (hinv c' e he).elim (fun he => h.ids c' e he hv) Or.inl
    cur := by
      intro c' e he hg hn hs
      rcases hinv c' e he with he | he
      · exact h.cur c' e he hg hn hs
      · have := hg.2.2; simp only [] at hn this; omega
    has := by
      intro t k m' hc hk hm
      obtain ⟨e, he, h1⟩ := h.has t k m' hc hk hm
      exact ⟨e, hsub _ _ he, h1⟩
    fresh := h.fresh, res := h.res, base := h.base, new := h.new
    ent := by
      intro t i j hx
      obtain ⟨e, he, h1⟩ := h.ent t i j hx
      refine ⟨e, ?_, h1⟩
      show (upd s.ents c _ _)[j]? = _
      unfold upd; split
      · rename_i hc; rw [← hc, List.getElem?_append_left]
        · exact he
        · exact (List.getElem?_eq_some_iff.mp he).1
      · exact he
    old := by
      intro t m' e hb hm he h1 hv
      rcases hinv _ e he with he | he
      · exact h.old t m' e hb hm he h1 hv
      · exact Or.inl he
    cch := h.cch, upc := h.upc }

/-- The current data of a module are loaded by an operation having it. -/
theorem inv_load {A : Cfg} {s : State} (h : Inv A s) {t i j m : Nat} (hp : (s.th t).pc = .load i j)
    (hm : (s.th t).ms[i]? = some m) :
    Inv A { s with
      data := upd s.data (A.conn t) (insert (unlink (s.data (A.conn t)) m) m (s.file m))
      ents := upd s.ents (A.conn t) ((s.ents (A.conn t)).set j (m, curId A s m)) } := by
  have hact : (s.th t).pc ≠ .idle := by rw [hp]; simp
  have hmem : m ∈ (s.th t).ms := List.mem_of_getElem? hm
  obtain ⟨e0, he0, hm0⟩ := h.ent t i j (by rw [hp]; rfl)
  have hm0' : m = e0.1 := by rw [hm] at hm0; exact Option.some.inj hm0
  have hnst : ∀ x, (s.th x).pc.storing = true → wmod (s.th x) ≠ some m := by
    intro x hx hw
    by_cases hxt : x = t
    · subst hxt; rw [hp] at hx; simp [Pc.storing] at hx
    · exact h.mlock x t m hxt hx hw hact hmem
  have hdat : ∀ c k, (nodesOf (s.data c) k = s.file k ∨ (k = m ∧ c = A.conn t)) →
      nodesOf (upd s.data (A.conn t) (insert (unlink (s.data (A.conn t)) m) m (s.file m)) c) k = s.file k := by
    intro c k hk; unfold upd; split
    · rename_i hc; subst hc
      by_cases hkm : k = m
      · subst hkm; exact nodesOf_insert _ _ _
      · rw [nodesOf_insert_other _ _ hkm]; rcases hk with hk | hk
        · exact hk
        · exact absurd hk.1 hkm
    · rename_i hc; rcases hk with hk | hk
      · exact hk
      · exact absurd hk.2 hc
  have hinv : ∀ c e, e ∈ upd s.ents (A.conn t) ((s.ents (A.conn t)).set j (m, curId A s m)) c →
      e ∈ s.ents c ∨ (e = (m, curId A s m) ∧ c = A.conn t) := by
    intro c e he; unfold upd at he; split at he
    · rename_i hc; subst hc
      rcases List.mem_or_eq_of_mem_set he with he | he
      · exact Or.inl he
      · exact Or.inr ⟨he, rfl⟩
    · exact Or.inl he
  have hget : ∀ (c x : Nat) (e : Nat × Nat), (s.ents c)[x]? = some e →
      ∃ e', (upd s.ents (A.conn t) ((s.ents (A.conn t)).set j (m, curId A s m)) c)[x]? = some e' ∧ e'.1 = e.1 := by
    intro c x e he; unfold upd; split
    · rename_i hc; subst hc
      by_cases hxj : x = j
      · subst hxj
        rw [he] at he0; cases he0
        refine ⟨(m, curId A s m), ?_, hm0'⟩
        rw [List.getElem?_set_self (List.getElem?_eq_some_iff.mp he).1]
      · exact ⟨e, by rw [List.getElem?_set_ne (Ne.symm hxj)]; exact he, rfl⟩
    · exact ⟨e, he, rfl⟩
  exact {
    cid := h.cid, tlt := h.tlt, excl := h.excl, mlock := h.mlock, wf := h.wf, sub := h.sub
    nodup := h.nodup
    ids := by
      intro c e he hv
      rcases hinv c e he with he | ⟨he, -⟩
      · exact h.ids c e he hv
      · subst he; right
        show curId A s m ≤ s.n m
        have hv' : A.hasVer m = false := hv
        rw [curId, hv', h.cid m]; simp; exact Nat.mod_le _ _
    cur := by
      intro c e he hg hn hs
      apply hdat
      rcases hinv c e he with he | ⟨he, hc⟩
      · exact Or.inl (h.cur c e he hg hn hs)
      · exact Or.inr ⟨by rw [he], hc⟩
    has := by
      intro x k m' hc hk hmk
      obtain ⟨e, he, h1⟩ := h.has x k m' hc hk hmk
      obtain ⟨y, hy⟩ := List.getElem?_of_mem he
      obtain ⟨e', he', h1'⟩ := hget _ y e hy
      exact ⟨e', List.mem_of_getElem? he', h1'.trans h1⟩
    fresh := by
      intro x k m' hc hk hmk hg hs
      exact hdat _ _ (Or.inl (h.fresh x k m' hc hk hmk hg hs))
    res := h.res, base := h.base, new := h.new
    ent := by
      intro x i' j' hx
      obtain ⟨e, he, h1⟩ := h.ent x i' j' hx
      obtain ⟨e', he', h1'⟩ := hget _ j' e he
      exact ⟨e', he', by rw [h1']; exact h1⟩
    old := by
      intro x m' e hb hmx he h1 hv
      rcases hinv _ e he with he | ⟨he, -⟩
      · exact h.old x m' e hb hmx he h1 hv
      · exfalso
        rw [he] at h1
        refine hnst x ?_ (by rw [hmx, ← h1])
        cases hpx : (s.th x).pc <;> rw [hpx] at hb <;> simp [Pc.isBumped, Pc.storing] at hb ⊢
    cch := h.cch, upc := h.upc }

/-- An operation begins. -/
theorem inv_begin {A : Cfg} {s : State} (h : Inv A s) {t : Nat} (th : Th) (ht : t < A.nt)
    (hi : (s.th t).pc = .idle) (hr : canR A s t = true) (hm : canRdMods A s t th.ms = true)
    (hpc : th.pc = start A t th.ms) (hwf : ∀ m, wmod th = some m → m ∈ th.ms)
    (hsub : ∀ m ∈ th.ms, m ∈ th.req) (hnd : th.ms.Nodup) :
    Inv A { s with th := upd s.th t th } := by
  have hpc' : (th.pc = .upd 0 .rd ∧ A.cached (A.conn t) = true) ∨
      (th.pc = .fin ∧ (A.cached (A.conn t) = true → th.ms = [])) := by
    rw [hpc, start]; split
    · rename_i hh; simp at hh; exact Or.inl ⟨rfl, hh.1⟩
    · rename_i hh; simp at hh; exact Or.inr ⟨rfl, hh⟩
  have hth : ∀ x, x ≠ t → upd s.th t th x = s.th x := fun x hx => upd_other _ _ hx
  have htt : upd s.th t th t = th := upd_same _ _ _
  have hW : th.pc.holdsW = false := by rcases hpc' with ⟨hp, -⟩ | ⟨hp, -⟩ <;> rw [hp] <;> rfl
  have hS : th.pc.storing = false := by rcases hpc' with ⟨hp, -⟩ | ⟨hp, -⟩ <;> rw [hp] <;> rfl
  have hSt : th.pc.isStored = false := by rcases hpc' with ⟨hp, -⟩ | ⟨hp, -⟩ <;> rw [hp] <;> rfl
  have hB : th.pc.isBumped = false := by rcases hpc' with ⟨hp, -⟩ | ⟨hp, -⟩ <;> rw [hp] <;> rfl
  have hN : th.pc.newData = none := by rcases hpc' with ⟨hp, -⟩ | ⟨hp, -⟩ <;> rw [hp] <;> rfl
  have hE : entOf th.pc = none := by rcases hpc' with ⟨hp, -⟩ | ⟨hp, -⟩ <;> rw [hp] <;> rfl
  have hP : A.cached (A.conn t) = true → prog th.pc th.ms.length = 0 := by
    intro hc
    rcases hpc' with ⟨hp, -⟩ | ⟨hp, hh⟩
    · rw [hp]; rfl
    · rw [hp, hh hc]; rfl
  rw [canR, alone_iff] at hr
  constructor
  · exact h.cid
  · intro x hx
    by_cases hxt : x = t
    · omega
    · simp only [hth x hxt] at hx; exact h.tlt x hx
  · intro x y hxy hc hx
    by_cases hxt : x = t
    · subst hxt; simp only [htt] at hx; rw [hW] at hx; cases hx
    · simp only [hth x hxt] at hx
      by_cases hyt : y = t
      · subst hyt
        have hxi : (s.th x).pc ≠ .idle := by intro hh; rw [hh] at hx; simp [Pc.holdsW] at hx
        have := hr x (h.tlt x hxi) hxt hc
        rw [hx] at this; cases this
      · simp only [hth y hyt]; exact h.excl x y hxy hc hx
  · intro x y m hxy hx hw hy
    by_cases hxt : x = t
    · subst hxt; simp only [htt] at hx; rw [hS] at hx; cases hx
    · simp only [hth x hxt] at hx hw
      by_cases hyt : y = t
      · subst hyt
        simp only [htt]
        have hxi : (s.th x).pc ≠ .idle := by intro hh; rw [hh] at hx; simp [Pc.storing] at hx
        rw [canRdMods, List.all_eq_true] at hm
        have := hm x (by simpa using h.tlt x hxi)
        rw [wmod, Option.map_eq_some_iff] at hw
        obtain ⟨⟨m', f⟩, hw, hm'⟩ := hw
        rw [hw, hx] at this
        simp at this hm'
        rw [← hm']
        rcases this with h' | h'
        · exact absurd h' hxt
        · exact h'
      · simp only [hth y hyt] at hy ⊢; exact h.mlock x y m hxy hx hw hy
  · intro x m hx hw
    by_cases hxt : x = t
    · subst hxt; simp only [htt] at hw ⊢; exact hwf m hw
    · simp only [hth x hxt] at hx hw ⊢; exact h.wf x m hx hw
  · intro x m hx hw
    by_cases hxt : x = t
    · subst hxt; simp only [htt] at hw ⊢; exact hsub m hw
    · simp only [hth x hxt] at hx hw ⊢; exact h.sub x m hx hw
  · intro x hx
    by_cases hxt : x = t
    · subst hxt; simp only [htt]; exact hnd
    · simp only [hth x hxt] at hx ⊢; exact h.nodup x hx
  · exact h.ids
  · intro c e he hg hn hs
    refine h.cur c e he hg hn ?_
    intro x hx
    by_cases hxt : x = t
    · subst hxt; rw [hi] at hx; simp [Pc.isStored] at hx
    · have := hs x; simp only [hth x hxt] at this; exact this hx
  · intro x k m hc hk hmk
    by_cases hxt : x = t
    · subst hxt; simp only [htt] at hk; rw [hP hc] at hk; omega
    · simp only [hth x hxt] at hk hmk; exact h.has x k m hc hk hmk
  · intro x k m hc hk hmk
    by_cases hxt : x = t
    · subst hxt; simp only [htt] at hk; rw [hP hc] at hk; omega
    · simp only [hth x hxt] at hk hmk ⊢; exact h.fresh x k m hc hk hmk
  · intro x r m hx
    by_cases hxt : x = t
    · subst hxt; simp only [htt] at hx; rcases hpc' with ⟨hp, -⟩ | ⟨hp, -⟩ <;> rw [hp] at hx <;> cases hx
    · simp only [hth x hxt] at hx ⊢; exact h.res x r m hx
  · intro x r m f hx
    by_cases hxt : x = t
    · subst hxt; simp only [htt] at hx; rcases hpc' with ⟨hp, -⟩ | ⟨hp, -⟩ <;> rw [hp] at hx <;> cases hx
    · simp only [hth x hxt] at hx ⊢; exact h.base x r m f hx
  · intro x d m hx
    by_cases hxt : x = t
    · subst hxt; simp only [htt] at hx; rw [hN] at hx; cases hx
    · simp only [hth x hxt] at hx ⊢; exact h.new x d m hx
  · intro x i j hx
    by_cases hxt : x = t
    · subst hxt; simp only [htt] at hx; rw [hE] at hx; cases hx
    · simp only [hth x hxt] at hx ⊢; exact h.ent x i j hx
  · intro x m e hx
    by_cases hxt : x = t
    · subst hxt; simp only [htt] at hx; rw [hB] at hx; cases hx
    · simp only [hth x hxt] at hx ⊢; exact h.old x m e hx
  · intro x hx
    by_cases hxt : x = t
    · subst hxt; simp only [htt] at hx; rw [hB] at hx; cases hx
    · simp only [hth x hxt] at hx; exact h.cch x hx
  · intro x hx
    by_cases hxt : x = t
    · subst hxt; simp only [htt] at hx
      rcases hpc' with ⟨hp, hc⟩ | ⟨hp, -⟩
      · exact hc
      · rw [hp] at hx; simp [entOf] at hx
    · simp only [hth x hxt] at hx; exact h.upc x hx

/-- The new data are stored. -/
theorem inv_store {A : Cfg} {s : State} (h : Inv A s) {t m : Nat} {d : List Nat}
    {f : List Nat → List Nat} (hp : (s.th t).pc = .ready d) (hw : (s.th t).wr = some (m, f))
    (hc : canWrMod A s t m = true) :
    Inv A { s.go t (.stored d) with file := upd s.file m d, ver := upd s.ver m (s.ver m + 1) } := by
  have hact : (s.th t).pc ≠ .idle := by rw [hp]; simp
  have hwm : wmod (s.th t) = some m := by rw [wmod, hw]; rfl
  have hmm := h.wf t m hact hwm
  have hother : ∀ x, x ≠ t → (s.th x).pc ≠ .idle → m ∉ (s.th x).ms := by
    intro x hx hxi
    rw [canWrMod, List.all_eq_true] at hc
    have := hc x (by simpa using h.tlt x hxi)
    simp [hx, hxi] at this
    exact this
  have hth : ∀ x, x ≠ t → upd s.th t { s.th t with pc := .stored d } x = s.th x :=
    fun x hx => upd_other _ _ hx
  have htt : upd s.th t { s.th t with pc := .stored d } t = { s.th t with pc := .stored d } :=
    upd_same _ _ _
  have hfo : ∀ k, k ≠ m → upd s.file m d k = s.file k := fun k hk => upd_other _ _ hk
  constructor
  · exact h.cid
  · intro x hx
    by_cases hxt : x = t
    · subst hxt; exact h.tlt x hact
    · simp only [State.go, hth x hxt] at hx; exact h.tlt x hx
  · intro x y hxy hcc hx
    by_cases hxt : x = t
    · subst hxt; simp [State.go, htt, Pc.holdsW] at hx
    · simp only [State.go, hth x hxt] at hx
      by_cases hyt : y = t
      · subst hyt; simp only [State.go, htt]; exact ⟨rfl, rfl⟩
      · simp only [State.go, hth y hyt]; exact h.excl x y hxy hcc hx
  · intro x y k hxy hx hwx hy
    by_cases hxt : x = t
    · subst hxt
      have hwx' : wmod (s.th x) = some k := by simp only [State.go, htt] at hwx; exact hwx
      rw [hwm] at hwx'; cases hwx'
      simp only [State.go, hth y (Ne.symm hxy)] at hy ⊢
      exact hother y (Ne.symm hxy) hy
    · simp only [State.go, hth x hxt] at hx hwx
      by_cases hyt : y = t
      · subst hyt
        simp only [State.go, htt]
        exact h.mlock x y k hxy hx hwx hact
      · simp only [State.go, hth y hyt] at hy ⊢; exact h.mlock x y k hxy hx hwx hy
  · intro x k hx hwx
    by_cases hxt : x = t
    · subst hxt; simp only [State.go, htt] at hwx ⊢; exact h.wf x k hact hwx
    · simp only [State.go, hth x hxt] at hx hwx ⊢; exact h.wf x k hx hwx
  · intro x k hx hwx
    by_cases hxt : x = t
    · subst hxt; simp only [State.go, htt] at hwx ⊢; exact h.sub x k hact hwx
    · simp only [State.go, hth x hxt] at hx hwx ⊢; exact h.sub x k hx hwx
  · intro x hx
    by_cases hxt : x = t
    · subst hxt; simp only [State.go, htt]; exact h.nodup x hact
    · simp only [State.go, hth x hxt] at hx ⊢; exact h.nodup x hx
  · exact h.ids
  · intro c e he hg hn hs
    have hem : e.1 ≠ m := by
      intro hh
      have := hs t
      simp only [State.go, htt] at this
      exact this rfl (by rw [hh]; exact hwm)
    show nodesOf (s.data c) e.1 = upd s.file m d e.1
    rw [hfo _ hem]
    refine h.cur c e he hg hn ?_
    intro x hx
    by_cases hxt : x = t
    · subst hxt; rw [hp] at hx; simp [Pc.isStored] at hx
    · have := hs x; simp only [State.go, hth x hxt] at this; exact this hx
  · intro x k m' hcc hk hmk
    by_cases hxt : x = t
    · subst hxt; simp only [State.go, htt] at hk hmk
      exact h.has x k m' hcc (by rw [hp]; exact hk) hmk
    · simp only [State.go, hth x hxt] at hk hmk; exact h.has x k m' hcc hk hmk
  · intro x k m' hcc hk hmk hg hst
    by_cases hxt : x = t
    · subst hxt; simp [State.go, htt, Pc.storing] at hst
    · simp only [State.go, hth x hxt] at hk hmk hst ⊢
      have hxi : (s.th x).pc ≠ .idle := by intro hh; rw [hh] at hk; simp [prog] at hk
      have : m' ≠ m := by
        intro hh; exact hother x hxt hxi (hh ▸ List.mem_of_getElem? hmk)
      rw [hfo _ this]
      exact h.fresh x k m' hcc hk hmk hg hst
  · intro x r k hx hk hg
    by_cases hxt : x = t
    · subst hxt; simp [State.go, htt] at hx
    · simp only [State.go, hth x hxt] at hx hk ⊢
      have : k ≠ m := by
        intro hh; exact hother x hxt (by rw [hx]; simp) (hh ▸ hk)
      rw [hfo _ this]
      exact h.res x r k hx hk hg
  · intro x r k g hx hk hg
    by_cases hxt : x = t
    · subst hxt; simp [State.go, htt] at hx
    · simp only [State.go, hth x hxt] at hx hk ⊢
      have : k ≠ m := by
        intro hh; refine hother x hxt (by rw [hx]; simp) (h.wf x m (by rw [hx]; simp) ?_)
        rw [wmod, hk, ← hh]; rfl
      rw [hfo _ this]
      exact h.base x r k g hx hk hg
  · intro x d' k hx hk hg
    by_cases hxt : x = t
    · subst hxt; simp only [State.go, htt] at hx hk ⊢
      have hk' : wmod (s.th x) = some k := hk
      rw [hwm] at hk'; cases hk'
      rw [upd_same]
      simp [Pc.newData] at hx; exact hx.symm
    · simp only [State.go, hth x hxt] at hx hk ⊢
      have hxi : (s.th x).pc ≠ .idle := by intro hh; rw [hh] at hx; simp [Pc.newData] at hx
      have : k ≠ m := by
        intro hh; exact hother x hxt hxi (hh ▸ h.wf x k hxi hk)
      rw [hfo _ this]
      exact h.new x d' k hx hk hg
  · intro x i j hx
    by_cases hxt : x = t
    · subst hxt; simp [State.go, htt, entOf] at hx
    · simp only [State.go, hth x hxt] at hx ⊢; exact h.ent x i j hx
  · intro x k e hx hk he
    by_cases hxt : x = t
    · subst hxt; simp [State.go, htt, Pc.isBumped] at hx
    · simp only [State.go, hth x hxt] at hx hk ⊢; exact h.old x k e hx hk he
  · intro x hx
    by_cases hxt : x = t
    · subst hxt; simp [State.go, htt, Pc.isBumped] at hx
    · simp only [State.go, hth x hxt] at hx; exact h.cch x hx
  · intro x hx
    by_cases hxt : x = t
    · subst hxt; simp [State.go, htt, entOf] at hx
    · simp only [State.go, hth x hxt] at hx; exact h.upc x hx

/-- The version of the stored data is incremented. -/
theorem inv_bump {A : Cfg} {s : State} (h : Inv A s) {t m : Nat} {d : List Nat}
    {f : List Nat → List Nat} (hp : (s.th t).pc = .stored d) (hw : (s.th t).wr = some (m, f)) :
    Inv A { s.go t (if A.cached (A.conn t) then .bumped d else .idle) with
        cid := upd s.cid m ((s.cid m + 1) % 4294967296), n := upd s.n m (s.n m + 1) } := by
  have hact : (s.th t).pc ≠ .idle := by rw [hp]; simp
  have hwm : wmod (s.th t) = some m := by rw [wmod, hw]; rfl
  generalize hq : (if A.cached (A.conn t) then Pc.bumped d else .idle) = q
  have hq' : (q = .bumped d ∧ A.cached (A.conn t) = true) ∨ q = .idle := by
    rw [← hq]; split
    · rename_i hh; exact Or.inl ⟨rfl, hh⟩
    · exact Or.inr rfl
  have hth : ∀ x, x ≠ t → upd s.th t { s.th t with pc := q } x = s.th x :=
    fun x hx => upd_other _ _ hx
  have htt : upd s.th t { s.th t with pc := q } t = { s.th t with pc := q } := upd_same _ _ _
  have hno : ∀ k, k ≠ m → upd s.n m (s.n m + 1) k = s.n k := fun k hk => upd_other _ _ hk
  have hns : upd s.n m (s.n m + 1) m = s.n m + 1 := upd_same _ _ _
  have hnle : ∀ k, s.n k ≤ upd s.n m (s.n m + 1) k := by
    intro k; unfold upd; split
    · rename_i hk; subst hk; omega
    · exact Nat.le_refl _
  have hgood : ∀ k, (A.hasVer k = false ∧ A.runDisabled k = false ∧ upd s.n m (s.n m + 1) k < idNone) →
      Good A s k := by
    intro k ⟨h1, h2, h3⟩
    exact ⟨h1, h2, Nat.lt_of_le_of_lt (hnle k) h3⟩
  have hqs : q.isStored = false := by rcases hq' with ⟨hh, -⟩ | hh <;> rw [hh] <;> rfl
  have hqw : q.holdsW = false := by rcases hq' with ⟨hh, -⟩ | hh <;> rw [hh] <;> rfl
  have hqr : q.holdsR = false := by rcases hq' with ⟨hh, -⟩ | hh <;> rw [hh] <;> rfl
  have hqe : entOf q = none := by rcases hq' with ⟨hh, -⟩ | hh <;> rw [hh] <;> rfl
  constructor
  · intro k
    show upd s.cid m _ k = upd s.n m _ k % _
    by_cases hk : k = m
    · subst hk; rw [upd_same, upd_same, h.cid k]; omega
    · rw [upd_other _ _ hk, upd_other _ _ hk]; exact h.cid k
  · intro x hx
    by_cases hxt : x = t
    · subst hxt; exact h.tlt x hact
    · simp only [State.go, hth x hxt] at hx; exact h.tlt x hx
  · intro x y hxy hcc hx
    by_cases hxt : x = t
    · subst hxt; simp only [State.go, htt] at hx; rw [hqw] at hx; cases hx
    · simp only [State.go, hth x hxt] at hx
      by_cases hyt : y = t
      · subst hyt; simp only [State.go, htt]; exact ⟨hqr, hqw⟩
      · simp only [State.go, hth y hyt]; exact h.excl x y hxy hcc hx
  · intro x y k hxy hx hwx hy
    by_cases hxt : x = t
    · subst hxt
      have hwx' : wmod (s.th x) = some k := by simp only [State.go, htt] at hwx; exact hwx
      simp only [State.go, hth y (Ne.symm hxy)] at hy ⊢
      exact h.mlock x y k hxy (by rw [hp]; rfl) hwx' hy
    · simp only [State.go, hth x hxt] at hx hwx
      by_cases hyt : y = t
      · subst hyt
        simp only [State.go, htt]
        exact h.mlock x y k hxy hx hwx hact
      · simp only [State.go, hth y hyt] at hy ⊢; exact h.mlock x y k hxy hx hwx hy
  · intro x k hx hwx
    by_cases hxt : x = t
    · subst hxt; simp only [State.go, htt] at hwx ⊢; exact h.wf x k hact hwx
    · simp only [State.go, hth x hxt] at hx hwx ⊢; exact h.wf x k hx hwx
  · intro x k hx hwx
    by_cases hxt : x = t
    · subst hxt; simp only [State.go, htt] at hwx ⊢; exact h.sub x k hact hwx
    · simp only [State.go, hth x hxt] at hx hwx ⊢; exact h.sub x k hx hwx
  · intro x hx
    by_cases hxt : x = t
    · subst hxt; simp only [State.go, htt]; exact h.nodup x hact
    · simp only [State.go, hth x hxt] at hx ⊢; exact h.nodup x hx
  · intro c e he hv
    exact (h.ids c e he hv).imp id (fun hh => Nat.le_trans hh (hnle _))
  · intro c e he hg hn hs
    by_cases hem : e.1 = m
    · exfalso
      have h1 := h.ids c e he hg.1
      have h2 : upd s.n m (s.n m + 1) e.1 < idNone := hg.2.2
      have h3 : e.2 = upd s.n m (s.n m + 1) e.1 := hn
      rw [hem, hns] at h2 h3
      rw [hem] at h1
      omega
    · have h3 : e.2 = upd s.n m (s.n m + 1) e.1 := hn
      rw [hno _ hem] at h3
      refine h.cur c e he (hgood _ hg) h3 ?_
      intro x hx
      by_cases hxt : x = t
      · subst hxt; rw [hwm]; intro hh; cases hh; exact hem rfl
      · have := hs x; simp only [State.go, hth x hxt] at this; exact this hx
  · intro x k m' hcc hk hmk
    by_cases hxt : x = t
    · subst hxt; simp only [State.go, htt] at hk hmk
      refine h.has x k m' hcc ?_ hmk
      rw [hp]
      rcases hq' with ⟨hh, -⟩ | hh <;> rw [hh] at hk <;> simp [prog] at hk ⊢; exact hk
    · simp only [State.go, hth x hxt] at hk hmk; exact h.has x k m' hcc hk hmk
  · intro x k m' hcc hk hmk hg hst
    by_cases hxt : x = t
    · subst hxt; simp only [State.go, htt] at hk hst
      rcases hq' with ⟨hh, -⟩ | hh
      · rw [hh] at hst; simp [Pc.storing] at hst
      · rw [hh] at hk; simp [prog] at hk
    · simp only [State.go, hth x hxt] at hk hmk hst ⊢
      exact h.fresh x k m' hcc hk hmk (hgood _ hg) hst
  · intro x r k hx hk hg
    by_cases hxt : x = t
    · subst hxt; simp only [State.go, htt] at hx; rcases hq' with ⟨hh, -⟩ | hh <;> rw [hh] at hx <;> cases hx
    · simp only [State.go, hth x hxt] at hx hk ⊢
      exact h.res x r k hx hk (hgood _ hg)
  · intro x r k g hx hk hg
    by_cases hxt : x = t
    · subst hxt; simp only [State.go, htt] at hx; rcases hq' with ⟨hh, -⟩ | hh <;> rw [hh] at hx <;> cases hx
    · simp only [State.go, hth x hxt] at hx hk ⊢
      exact h.base x r k g hx hk (hgood _ hg)
  · intro x d' k hx hk hg
    by_cases hxt : x = t
    · subst hxt; simp only [State.go, htt] at hx hk ⊢
      rcases hq' with ⟨hh, -⟩ | hh
      · rw [hh] at hx
        exact h.new x d' k (by rw [hp]; exact hx) hk (hgood _ hg)
      · rw [hh] at hx; cases hx
    · simp only [State.go, hth x hxt] at hx hk ⊢
      exact h.new x d' k hx hk (hgood _ hg)
  · intro x i j hx
    by_cases hxt : x = t
    · subst hxt; simp only [State.go, htt] at hx; rw [hqe] at hx; cases hx
    · simp only [State.go, hth x hxt] at hx ⊢; exact h.ent x i j hx
  · intro x k e hx hk he h1 hv
    by_cases hxt : x = t
    · subst hxt
      have hk' : wmod (s.th x) = some k := by simp only [State.go, htt] at hk; exact hk
      rw [hwm] at hk'; cases hk'
      refine (h.ids _ e he (by rw [h1]; exact hv)).imp id ?_
      intro hh
      show e.2 < upd s.n m (s.n m + 1) m
      rw [hns]; rw [h1] at hh; omega
    · simp only [State.go, hth x hxt] at hx hk
      exact (h.old x k e hx hk he h1 hv).imp id (fun hh => Nat.lt_of_lt_of_le hh (hnle _))
  · intro x hx
    by_cases hxt : x = t
    · subst hxt; simp only [State.go, htt] at hx
      rcases hq' with ⟨-, hc⟩ | hh
      · exact hc
      · rw [hh] at hx; cases hx
    · simp only [State.go, hth x hxt] at hx; exact h.cch x hx
  · intro x hx
    by_cases hxt : x = t
    · subst hxt; simp only [State.go, htt] at hx
      rcases hq' with ⟨-, hc⟩ | hh
      · exact hc
      · rw [hh] at hx; simp [entOf] at hx
    · simp only [State.go, hth x hxt] at hx; exact h.upc x hx

/-- The new data replace the old ones in the cache of the writing connection. -/
theorem inv_replace {A : Cfg} {s : State} (h : Inv A s) {t m j : Nat} {d : List Nat}
    {f : List Nat → List Nat} (hp : (s.th t).pc = .bumped d) (hw : (s.th t).wr = some (m, f))
    (hj : findEnt (s.ents (A.conn t)) m = some j) :
    Inv A { s.go t .idle with
              data := upd s.data (A.conn t) (insert (unlink (s.data (A.conn t)) m) m d)
              ents := upd s.ents (A.conn t) ((s.ents (A.conn t)).set j (m, s.cid m)) } := by
  have hact : (s.th t).pc ≠ .idle := by rw [hp]; simp
  have hwm : wmod (s.th t) = some m := by rw [wmod, hw]; rfl
  obtain ⟨e0, he0, hm0⟩ := findEnt_some hj
  have hother : ∀ x, x ≠ t → (s.th x).pc ≠ .idle → m ∉ (s.th x).ms :=
    fun x hx hxi => h.mlock t x m (Ne.symm hx) (by rw [hp]; rfl) hwm hxi
  have hth : ∀ x, x ≠ t → upd s.th t { s.th t with pc := .idle } x = s.th x :=
    fun x hx => upd_other _ _ hx
  have htt : upd s.th t { s.th t with pc := .idle } t = { s.th t with pc := .idle } := upd_same _ _ _
  have hne : ∀ x, (upd s.th t { s.th t with pc := .idle } x).pc ≠ .idle → x ≠ t ∧ (s.th x).pc ≠ .idle := by
    intro x hx
    by_cases hxt : x = t
    · subst hxt; rw [htt] at hx; exact absurd rfl hx
    · rw [hth x hxt] at hx; exact ⟨hxt, hx⟩
  have hdo : ∀ c k, k ≠ m → nodesOf (upd s.data (A.conn t) (insert (unlink (s.data (A.conn t)) m) m d) c) k
      = nodesOf (s.data c) k := by
    intro c k hk; unfold upd; split
    · rename_i hc; subst hc; exact nodesOf_insert_other _ _ hk
    · rfl
  have hinv : ∀ c e, e ∈ upd s.ents (A.conn t) ((s.ents (A.conn t)).set j (m, s.cid m)) c →
      e ∈ s.ents c ∨ (e = (m, s.cid m) ∧ c = A.conn t) := by
    intro c e he; unfold upd at he; split at he
    · rename_i hc; subst hc
      rcases List.mem_or_eq_of_mem_set he with he | he
      · exact Or.inl he
      · exact Or.inr ⟨he, rfl⟩
    · exact Or.inl he
  have hget : ∀ (c x : Nat) (e : Nat × Nat), (s.ents c)[x]? = some e →
      ∃ e', (upd s.ents (A.conn t) ((s.ents (A.conn t)).set j (m, s.cid m)) c)[x]? = some e' ∧ e'.1 = e.1 := by
    intro c x e he; unfold upd; split
    · rename_i hc; subst hc
      by_cases hxj : x = j
      · subst hxj
        rw [he] at he0; cases he0
        refine ⟨(m, s.cid m), ?_, hm0.symm⟩
        rw [List.getElem?_set_self (List.getElem?_eq_some_iff.mp he).1]
      · exact ⟨e, by rw [List.getElem?_set_ne (Ne.symm hxj)]; exact he, rfl⟩
    · exact ⟨e, he, rfl⟩
  constructor
  · exact h.cid
  · intro x hx; exact h.tlt x (hne x hx).2
  · intro x y hxy hcc hx
    by_cases hxt : x = t
    · subst hxt; simp [State.go, htt, Pc.holdsW] at hx
    · simp only [State.go, hth x hxt] at hx
      by_cases hyt : y = t
      · subst hyt; simp only [State.go, htt]; exact ⟨rfl, rfl⟩
      · simp only [State.go, hth y hyt]; exact h.excl x y hxy hcc hx
  · intro x y k hxy hx hwx hy
    obtain ⟨hyt, hy⟩ := hne y hy
    by_cases hxt : x = t
    · subst hxt; simp [State.go, htt, Pc.storing] at hx
    · simp only [State.go, hth x hxt, hth y hyt] at hx hwx ⊢
      exact h.mlock x y k hxy hx hwx hy
  · intro x k hx hwx
    obtain ⟨hxt, hx⟩ := hne x hx
    simp only [State.go, hth x hxt] at hwx ⊢; exact h.wf x k hx hwx
  · intro x k hx hwx
    obtain ⟨hxt, hx⟩ := hne x hx
    simp only [State.go, hth x hxt] at hwx ⊢; exact h.sub x k hx hwx
  · intro x hx
    obtain ⟨hxt, hx⟩ := hne x hx
    simp only [State.go, hth x hxt]; exact h.nodup x hx
  · intro c e he hv
    rcases hinv c e he with he | ⟨he, -⟩
    · exact h.ids c e he hv
    · subst he; right
      show s.cid m ≤ s.n m
      rw [h.cid m]; exact Nat.mod_le _ _
  · intro c e he hg hn hs
    by_cases hem : e.1 = m
    · by_cases hc : c = A.conn t
      · subst hc
        show nodesOf (upd s.data (A.conn t) _ (A.conn t)) e.1 = s.file e.1
        rw [upd_same, hem, nodesOf_insert]
        exact h.new t d m (by rw [hp]; rfl) hwm (hem ▸ hg)
      · rcases hinv c e he with he | ⟨-, hh⟩
        · show nodesOf (upd s.data (A.conn t) _ c) e.1 = s.file e.1
          rw [upd_other _ _ hc]
          refine h.cur c e he hg hn ?_
          intro x hx
          by_cases hxt : x = t
          · subst hxt; rw [hp] at hx; cases hx
          · have := hs x; simp only [State.go, hth x hxt] at this; exact this hx
        · exact absurd hh hc
    · show nodesOf (upd s.data (A.conn t) _ c) e.1 = s.file e.1
      rw [hdo c _ hem]
      rcases hinv c e he with he | ⟨he, -⟩
      · refine h.cur c e he hg hn ?_
        intro x hx
        by_cases hxt : x = t
        · subst hxt; rw [hp] at hx; cases hx
        · have := hs x; simp only [State.go, hth x hxt] at this; exact this hx
      · rw [he] at hem; exact absurd rfl hem
  · intro x k m' hcc hk hmk
    by_cases hxt : x = t
    · subst hxt; simp [State.go, htt, prog] at hk
    · simp only [State.go, hth x hxt] at hk hmk
      obtain ⟨e, he, h1⟩ := h.has x k m' hcc hk hmk
      obtain ⟨y, hy⟩ := List.getElem?_of_mem he
      obtain ⟨e', he', h1'⟩ := hget _ y e hy
      exact ⟨e', List.mem_of_getElem? he', h1'.trans h1⟩
  · intro x k m' hcc hk hmk hg hst
    by_cases hxt : x = t
    · subst hxt; simp [State.go, htt, prog] at hk
    · simp only [State.go, hth x hxt] at hk hmk hst ⊢
      have hxi : (s.th x).pc ≠ .idle := by intro hh; rw [hh] at hk; simp [prog] at hk
      have hmm : m' ≠ m := by
        intro hh; exact hother x hxt hxi (hh ▸ List.mem_of_getElem? hmk)
      rw [hdo _ _ hmm]
      exact h.fresh x k m' hcc hk hmk hg hst
  · intro x r k hx hk hg
    by_cases hxt : x = t
    · subst hxt; simp [State.go, htt] at hx
    · simp only [State.go, hth x hxt] at hx hk ⊢; exact h.res x r k hx hk hg
  · intro x r k g hx hk hg
    by_cases hxt : x = t
    · subst hxt; simp [State.go, htt] at hx
    · simp only [State.go, hth x hxt] at hx hk ⊢; exact h.base x r k g hx hk hg
  · intro x d' k hx hk hg
    by_cases hxt : x = t
    · subst hxt; simp [State.go, htt, Pc.newData] at hx
    · simp only [State.go, hth x hxt] at hx hk ⊢; exact h.new x d' k hx hk hg
  · intro x i' j' hx
    by_cases hxt : x = t
    · subst hxt; simp [State.go, htt, entOf] at hx
    · simp only [State.go, hth x hxt] at hx ⊢
      obtain ⟨e, he, h1⟩ := h.ent x i' j' hx
      obtain ⟨e', he', h1'⟩ := hget _ j' e he
      exact ⟨e', he', by rw [h1']; exact h1⟩
  · intro x k e hx hk he h1 hv
    by_cases hxt : x = t
    · subst hxt; simp [State.go, htt, Pc.isBumped] at hx
    · simp only [State.go, hth x hxt] at hx hk
      have hxi : (s.th x).pc ≠ .idle := by intro hh; rw [hh] at hx; simp [Pc.isBumped] at hx
      rcases hinv _ e he with he | ⟨he, -⟩
      · exact h.old x k e hx hk he h1 hv
      · exfalso; rw [he] at h1
        exact hother x hxt hxi (by have := h.wf x k hxi hk; rw [← h1] at this; exact this)
  · intro x hx
    by_cases hxt : x = t
    · subst hxt; simp [State.go, htt, Pc.isBumped] at hx
    · simp only [State.go, hth x hxt] at hx; exact h.cch x hx
  · intro x hx
    by_cases hxt : x = t
    · subst hxt; simp [State.go, htt, entOf] at hx
    · simp only [State.go, hth x hxt] at hx; exact h.upc x hx

/-- The cache is emptied while nobody of the connection works. -/
theorem inv_flush {A : Cfg} {s : State} (h : Inv A s) {c : Nat}
    (hc : ∀ t < A.nt, A.conn t = c → (s.th t).pc = .idle) :
    Inv A { s with ents := upd s.ents c [], data := upd s.data c [] } := by
  have hc' : ∀ t, (s.th t).pc ≠ .idle → A.conn t ≠ c := fun t ht hh => ht (hc t (h.tlt t ht) hh)
  have he : ∀ t, (s.th t).pc ≠ .idle → upd s.ents c [] (A.conn t) = s.ents (A.conn t) :=
    fun t ht => upd_other _ _ (hc' t ht)
  have hd : ∀ t, (s.th t).pc ≠ .idle → upd s.data c [] (A.conn t) = s.data (A.conn t) :=
    fun t ht => upd_other _ _ (hc' t ht)
  have hin : ∀ c' e, e ∈ upd s.ents c [] c' → e ∈ s.ents c' ∧ c' ≠ c := by
    intro c' e hh; unfold upd at hh; split at hh
    · cases hh
    · rename_i hx; exact ⟨hh, hx⟩
  have hpr : ∀ t k, k < prog (s.th t).pc (s.th t).ms.length → (s.th t).pc ≠ .idle := by
    intro t k hk hh; rw [hh] at hk; simp [prog] at hk
  exact {
    cid := h.cid, tlt := h.tlt, excl := h.excl, mlock := h.mlock, wf := h.wf, sub := h.sub
    nodup := h.nodup
    ids := fun c' e hh hv => h.ids c' e (hin c' e hh).1 hv
    cur := by
      intro c' e hh hg hn hs
      show nodesOf (upd s.data c [] c') e.1 = s.file e.1
      rw [upd_other _ _ (hin c' e hh).2]
      exact h.cur c' e (hin c' e hh).1 hg hn hs
    has := by
      intro t k m hcc hk hm
      show ∃ e ∈ upd s.ents c [] (A.conn t), e.1 = m
      rw [he t (hpr t k hk)]; exact h.has t k m hcc hk hm
    fresh := by
      intro t k m hcc hk hm hg hs
      show nodesOf (upd s.data c [] (A.conn t)) m = s.file m
      rw [hd t (hpr t k hk)]; exact h.fresh t k m hcc hk hm hg hs
    res := h.res, base := h.base, new := h.new
    ent := by
      intro t i j hx
      show ∃ e, (upd s.ents c [] (A.conn t))[j]? = some e ∧ (s.th t).ms[i]? = some e.1
      rw [he t (by intro hh; rw [hh] at hx; simp [entOf] at hx)]; exact h.ent t i j hx
    old := by
      intro t m e hb hm hh
      exact h.old t m e hb hm (hin _ e hh).1
    cch := h.cch, upc := h.upc }

/-- Data of a module that is not checked by `run_cache_id` change. -/
theorem inv_edit {A : Cfg} {s : State} (h : Inv A s) {m : Nat} (d : List Nat) (v : Nat → Nat)
    (hm : A.hasVer m = true ∨ A.runDisabled m = true) :
    Inv A { s with file := upd s.file m d, ver := v } := by
  have hf : ∀ k, Good A s k → upd s.file m d k = s.file k := by
    intro k hk; apply upd_other; intro hh; subst hh
    rcases hm with hm | hm
    · rw [hk.1] at hm; cases hm
    · rw [hk.2.1] at hm; cases hm
  exact {
    cid := h.cid, tlt := h.tlt, excl := h.excl, mlock := h.mlock, wf := h.wf, sub := h.sub
    nodup := h.nodup, ids := h.ids, has := h.has
    cur := fun c e he hg hn hs => (h.cur c e he hg hn hs).trans (hf _ hg).symm
    fresh := fun t k m' hc hk hmk hg hs => (h.fresh t k m' hc hk hmk hg hs).trans (hf _ hg).symm
    res := fun t r m' hx hk hg => (h.res t r m' hx hk hg).trans (hf _ hg).symm
    base := fun t d' m' f hx hk hg => by
      show d' = f (upd s.file m d m'); rw [hf _ hg]; exact h.base t d' m' f hx hk hg
    new := fun t d' m' hx hk hg => (h.new t d' m' hx hk hg).trans (hf _ hg).symm
    ent := h.ent, old := h.old, cch := h.cch, upc := h.upc }

/-- The base of an operation is current. -/
theorem loaded_fresh {A : Cfg} {s : State} (h : Inv A s) {t m : Nat} (hp : (s.th t).pc = .fin)
    (hm : m ∈ (s.th t).ms) (hg : Good A s m) : nodesOf (loaded A s t) m = s.file m := by
  have hne : (s.th t).ms.isEmpty = false := by cases hms : (s.th t).ms <;> simp_all
  rw [loaded]; split
  · rename_i hc
    rw [hne] at hc
    obtain ⟨k, hk⟩ := List.getElem?_of_mem hm
    exact h.fresh t k m (by simpa using hc) (by rw [hp]; exact (List.getElem?_eq_some_iff.mp hk).1) hk hg
      (by rw [hp]; rfl)
  · exact nodesOf_flat _ (h.nodup t (by rw [hp]; simp)) hm

theorem go_append {s : State} (c m t : Nat) (p : Pc) :
    ({ s.go t p with ents := upd s.ents c (s.ents c ++ [(m, idNone)]) } : State) =
    State.go { s with ents := upd s.ents c (s.ents c ++ [(m, idNone)]) } t p := rfl

theorem inv_step {A : Cfg} (hA : A.loadsFail = false) {s s' : State} {l : Label} (h : Inv A s)
    (hs : step A s l = some s') : Inv A s' := by
  cases l with
  | beginRead t req nf chk =>
    simp only [step] at hs
    split at hs
    · rename_i hh; cases hs
      obtain ⟨h1, h2, h3, h4, h5⟩ := hh
      refine inv_begin h _ h1 h2 h3 h4 rfl ?_ ?_ ?_
      · intro m hm; simp [wmod] at hm
      · intro m hm; simp only [permitted] at hm; split at hm
        · exact (List.mem_filter.mp hm).1
        · exact hm
      · show (permitted s chk req).Nodup
        rw [permitted]; split
        · exact h5.filter _
        · exact h5
    · cases hs
  | beginWrite t ms m f =>
    simp only [step] at hs
    split at hs
    · rename_i hh; cases hs
      obtain ⟨h1, h2, h3, h4, h5, h6⟩ := hh
      refine inv_begin h _ h1 h2 h3 h4 rfl ?_ (fun _ => id) h6
      intro k hk; simp [wmod] at hk; rw [← hk]; exact h5
    · cases hs
  | find t =>
    simp only [step] at hs
    split at hs
    · rename_i i lk hp
      have hcc := h.upc t (Or.inr (Or.inl ⟨i, lk, hp⟩))
      split at hs
      · rename_i hm
        cases hs
        have hlen : (s.th t).ms.length ≤ i := by simpa using hm
        refine inv_go h t .fin (fun _ => by rw [hp]; simp) (fun hh => by cases hh) ?_ rfl (by rw [hp]; rfl)
          (Or.inl ?_) (by rw [hp]; rfl) (fun r m hh => by cases hh) (fun d m f hh => by cases hh)
          (fun i j hh => by cases hh) (fun _ => hcc)
        · intro _; rw [hp]; cases lk
          · exact Or.inl rfl
          · exact Or.inr rfl
        · rw [hp]; exact hlen
      · rename_i m hm
        split at hs
        · rename_i j hj
          cases hs
          refine inv_go h t _ (fun _ => by rw [hp]; simp) ?_ ?_ rfl (by rw [hp]; rfl)
            (Or.inl (by rw [hp]; exact Nat.le_refl _)) (by rw [hp]; rfl) (fun r m hh => by cases hh)
            (fun d m f hh => by cases hh) ?_ (fun _ => hcc)
          · intro hh; left; rw [hp]; cases lk
            · cases hh
            · rfl
          · intro hh; left; rw [hp]; cases lk
            · rfl
            · cases hh
          · intro i' j' hh
            simp [entOf] at hh
            obtain ⟨rfl, rfl⟩ := hh
            obtain ⟨e, he, hem⟩ := findEnt_some hj
            exact ⟨e, he, by rw [hem]; exact hm⟩
        · split at hs
          · cases hs
            refine inv_go h t _ (fun _ => by rw [hp]; simp) (fun hh => by cases hh) (fun hh => by cases hh)
              rfl (by rw [hp]; rfl) (Or.inl (by rw [hp]; exact Nat.le_refl _)) (by rw [hp]; rfl)
              (fun r m hh => by cases hh) (fun d m f hh => by cases hh) (fun i j hh => by cases hh)
              (fun _ => hcc)
          · cases hs
            rw [go_append]
            refine inv_go (inv_append h (A.conn t) m) t _ (fun _ => by show (s.th t).pc ≠ _; rw [hp]; simp) ?_
              (fun hh => by cases hh) rfl (by show (s.th t).pc.isStored = _; rw [hp]; rfl)
              (Or.inl (by show _ ≤ prog (s.th t).pc _; rw [hp]; exact Nat.le_refl _))
              (by show (s.th t).pc.storing = _; rw [hp]; rfl)
              (fun r m hh => by cases hh) (fun d m f hh => by cases hh) ?_ (fun _ => hcc)
            · intro _; left; show (s.th t).pc.holdsW = _; rw [hp]; rfl
            · intro i' j' hh
              simp [entOf] at hh
              obtain ⟨rfl, rfl⟩ := hh
              refine ⟨(m, idNone), ?_, hm⟩
              show (upd s.ents (A.conn t) _ (A.conn t))[_]? = _
              rw [upd_same]; simp
    · cases hs
  | add t =>
    simp only [step] at hs
    split at hs
    · rename_i i hp
      have hcc := h.upc t (Or.inr (Or.inr ⟨i, hp⟩))
      split at hs
      · cases hs
      · rename_i m hm
        split at hs
        · rename_i hw
          cases hs
          rw [go_append]
          refine inv_go (inv_append h (A.conn t) m) t _ (fun _ => by show (s.th t).pc ≠ _; rw [hp]; simp) ?_
            (fun hh => by cases hh) rfl (by show (s.th t).pc.isStored = _; rw [hp]; rfl)
            (Or.inl (by show _ ≤ prog (s.th t).pc _; rw [hp]; exact Nat.le_refl _))
            (by show (s.th t).pc.storing = _; rw [hp]; rfl)
            (fun r m hh => by cases hh) (fun d m f hh => by cases hh) ?_ (fun _ => hcc)
          · intro _; right; exact hw
          · intro i' j' hh
            simp [entOf] at hh
            obtain ⟨rfl, rfl⟩ := hh
            refine ⟨(m, idNone), ?_, hm⟩
            show (upd s.ents (A.conn t) _ (A.conn t))[_]? = _
            rw [upd_same]; simp
        · cases hs
    · cases hs
  | check t =>
    simp only [step] at hs
    split at hs
    · rename_i i j lk hp
      have hcc := h.upc t (Or.inl (by rw [hp]; simp [entOf]))
      obtain ⟨e0, he0, hm0⟩ := h.ent t i j (by rw [hp]; rfl)
      split at hs
      · rename_i m e hm he
        obtain rfl : e = e0 := by rw [he] at he0; exact Option.some.inj he0
        obtain rfl : m = e.1 := by rw [hm] at hm0; exact Option.some.inj hm0
        have hact : (s.th t).pc ≠ .idle := by rw [hp]; simp
        split at hs
        · rename_i hid
          cases hs
          refine inv_go h t _ (fun _ => hact) ?_ ?_ rfl (by rw [hp]; rfl)
            (Or.inr ⟨e.1, ?_, ?_, ⟨e, List.mem_of_getElem? he, rfl⟩, ?_⟩) (by rw [hp]; rfl)
            (fun r m hh => by cases hh) (fun d m f hh => by cases hh) (fun i j hh => by cases hh)
            (fun _ => hcc)
          · intro hh; left; rw [hp]; cases lk
            · cases hh
            · rfl
          · intro hh; left; rw [hp]; cases lk
            · rfl
            · cases hh
          · rw [hp]; exact hm
          · rw [hp]; rfl
          · intro hg
            refine h.cur _ e (List.mem_of_getElem? he) hg ?_ ?_
            · rw [hid, curId, hg.1]; simp only [Bool.false_eq_true, if_false]
              rw [h.cid]; have := hg.2.2; simp only [idNone] at this; omega
            · intro x hx hwx
              by_cases hxt : x = t
              · subst hxt; rw [hp] at hx; cases hx
              · refine h.mlock x t e.1 hxt ?_ hwx hact (List.mem_of_getElem? hm)
                cases hpx : (s.th x).pc <;> rw [hpx] at hx <;> simp [Pc.isStored, Pc.storing] at hx ⊢
        · split at hs
          · cases hs
            refine inv_go h t _ (fun _ => hact) (fun _ => Or.inl (by rw [hp]; rfl)) (fun hh => by cases hh)
              rfl (by rw [hp]; rfl) (Or.inl (by rw [hp]; exact Nat.le_refl _)) (by rw [hp]; rfl)
              (fun r m hh => by cases hh) (fun d m f hh => by cases hh) ?_ (fun _ => hcc)
            intro i' j' hh
            simp [entOf] at hh; obtain ⟨rfl, rfl⟩ := hh
            exact ⟨e, he, hm⟩
          · cases hs
            refine inv_go h t _ (fun _ => hact) (fun hh => by cases hh) (fun hh => by cases hh)
              rfl (by rw [hp]; rfl) (Or.inl (by rw [hp]; exact Nat.le_refl _)) (by rw [hp]; rfl)
              (fun r m hh => by cases hh) (fun d m f hh => by cases hh) ?_ (fun _ => hcc)
            intro i' j' hh
            simp [entOf] at hh; obtain ⟨rfl, rfl⟩ := hh
            exact ⟨e, he, hm⟩
      · cases hs
    · cases hs
  | lockLoad t =>
    simp only [step] at hs
    split at hs
    · rename_i i j hp
      split at hs
      · rename_i hw
        cases hs
        refine inv_go h t _ (fun _ => by rw [hp]; simp) (fun _ => Or.inr hw) (fun hh => by cases hh)
          rfl (by rw [hp]; rfl) (Or.inl (by rw [hp]; exact Nat.le_refl _)) (by rw [hp]; rfl)
          (fun r m hh => by cases hh) (fun d m f hh => by cases hh) ?_
          (fun _ => h.upc t (Or.inl (by rw [hp]; simp [entOf])))
        intro i' j' hh
        simp [entOf] at hh; obtain ⟨rfl, rfl⟩ := hh
        exact h.ent t i j (by rw [hp]; rfl)
      · cases hs
    · cases hs
  | load t =>
    simp only [step] at hs
    split at hs
    · rename_i i j hp
      have hcc := h.upc t (Or.inl (by rw [hp]; simp [entOf]))
      split at hs
      · rename_i m hm
        cases hs
        refine inv_go (inv_load h hp hm) t (.upd (i + 1) .wr) (fun _ => by show (s.th t).pc ≠ _; rw [hp]; simp)
          (fun _ => Or.inl (by show (s.th t).pc.holdsW = _; rw [hp]; rfl)) (fun hh => by cases hh) rfl
          (by show (s.th t).pc.isStored = _; rw [hp]; rfl) (Or.inr ⟨m, ?_, ?_, ?_, ?_⟩)
          (by show (s.th t).pc.storing = _; rw [hp]; rfl)
          (fun r m hh => by cases hh) (fun d m f hh => by cases hh) (fun i j hh => by cases hh) (fun _ => hcc)
        · show (s.th t).ms[prog (s.th t).pc _]? = _; rw [hp]; exact hm
        · show _ = prog (s.th t).pc _ + 1; rw [hp]; rfl
        · obtain ⟨e0, he0, -⟩ := h.ent t i j (by rw [hp]; rfl)
          refine ⟨(m, curId A s m), ?_, rfl⟩
          show _ ∈ upd s.ents (A.conn t) _ (A.conn t)
          rw [upd_same]
          exact List.mem_set (List.getElem?_eq_some_iff.mp he0).1 _
        · intro _
          show nodesOf (upd s.data (A.conn t) _ (A.conn t)) m = s.file m
          rw [upd_same]; exact nodesOf_insert _ _ _
      · cases hs
    · cases hs
  | loadFail t =>
    simp only [step] at hs
    split at hs
    · split at hs
      · rw [hA] at hs; simp at hs
      · cases hs
    · cases hs
  | fin t =>
    simp only [step] at hs
    split at hs
    · rename_i hp
      have hact : (s.th t).pc ≠ .idle := by rw [hp]; simp
      split at hs
      · cases hs
        refine inv_go h t _ (fun _ => hact) (fun hh => by cases hh) (fun _ => Or.inl (by rw [hp]; rfl))
          rfl (by rw [hp]; rfl) (Or.inl (by rw [hp]; exact Nat.le_refl _)) (by rw [hp]; rfl)
          ?_ (fun d m f hh => by cases hh) (fun i j hh => by cases hh) (fun hh => by simp [entOf] at hh)
        intro r m hr hm hg
        cases hr
        rw [nodesOf_select _ _ _ (h.sub t m hact hm)]
        exact loaded_fresh h hp hm hg
      · rename_i m f hw
        cases hs
        refine inv_go h t _ (fun _ => hact) (fun hh => by cases hh) (fun hh => by cases hh)
          rfl (by rw [hp]; rfl) (Or.inl (by rw [hp]; exact Nat.le_refl _)) (by rw [hp]; rfl)
          (fun r m hh => by cases hh) ?_ (fun i j hh => by cases hh) (fun hh => by simp [entOf] at hh)
        intro d m' f' hd hw' hg
        cases hd
        rw [hw] at hw'; cases hw'
        rw [filter_map_nodes, loaded_fresh h hp (h.wf t m hact (by rw [wmod, hw]; rfl)) hg]
    · cases hs
  | ret t =>
    simp only [step] at hs
    split at hs
    · rename_i r hp
      cases hs
      exact inv_go h t _ (fun hh => absurd rfl hh) (fun hh => by cases hh) (fun hh => by cases hh)
        rfl (by rw [hp]; rfl) (Or.inl (Nat.zero_le _)) (by rw [hp]; rfl)
        (fun r m hh => by cases hh) (fun d m f hh => by cases hh) (fun i j hh => by cases hh)
        (fun hh => by simp [entOf] at hh)
    · cases hs
  | store t =>
    simp only [step] at hs
    split at hs
    · rename_i d m f hp hw
      split at hs
      · rename_i hc; cases hs; exact inv_store h hp hw hc
      · cases hs
    · cases hs
  | bump t =>
    simp only [step] at hs
    split at hs
    · rename_i d m f hp hw
      cases hs; exact inv_bump h hp hw
    · cases hs
  | replace t =>
    simp only [step] at hs
    split at hs
    · rename_i d m f hp hw
      split at hs
      · split at hs
        · cases hs
          exact ⟨h.cid, h.tlt, h.excl, h.mlock, h.wf, h.sub, h.nodup, h.ids, h.cur, h.has, h.fresh, h.res,
            h.base, h.new, h.ent, h.old, h.cch, h.upc⟩
        · rename_i j hj
          split at hs
          · cases hs
            exact ⟨h.cid, h.tlt, h.excl, h.mlock, h.wf, h.sub, h.nodup, h.ids, h.cur, h.has, h.fresh, h.res,
              h.base, h.new, h.ent, h.old, h.cch, h.upc⟩
          · cases hs; exact inv_replace h hp hw hj
      · cases hs
    · cases hs
  | flush c =>
    simp only [step] at hs
    split at hs
    · rename_i hall
      split at hs
      · cases hs
        refine inv_flush h ?_
        intro t ht hc
        rw [List.all_eq_true] at hall
        have := hall t (by simpa using ht)
        simpa [hc] using this
      · cases hs; exact h
    · cases hs
  | editStartup m d =>
    simp only [step] at hs
    split at hs
    · rename_i hh; cases hs; exact inv_edit h d _ (Or.inr hh)
    · cases hs
  | external m d v =>
    simp only [step] at hs
    split at hs
    · rename_i hh; cases hs; exact inv_edit h d _ (Or.inl hh.1)
    · cases hs
  | chmod m b =>
    simp only [step] at hs
    cases hs
    exact ⟨h.cid, h.tlt, h.excl, h.mlock, h.wf, h.sub, h.nodup, h.ids, h.cur, h.has, h.fresh, h.res,
      h.base, h.new, h.ent, h.old, h.cch, h.upc⟩

theorem inv_reach {A : Cfg} (hA : A.loadsFail = false) {s : State} (h : Reach A s) : Inv A s := by
  induction h with
  | init h => exact inv_init h
  | step l _ hs ih => exact inv_step hA ih hs

end Verif.RunCache
