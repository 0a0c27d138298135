import Verif.EditDiff
/-!
The diff of an edit says at every path exactly what happened there. The model is in `Verif.Edit`.
-/
namespace Verif.Edit

/-- Operation of the diff at a path. -/
def opAt (ds : List Diff) : Path → Option DOp
  | [] => none
  | i :: q =>
    match ds.find? fun d => d.id = i with
    | none => none
    | some d => if q = [] then some d.op else opAt d.kids q

/-- What an operation says about the value and default flag at its path before and after. -/
def Says (old new : Option (Nat × Bool)) : Option DOp → Prop
  | none => new = old
  | some .none => new = old ∧ old ≠ none
  | some (.dflt d od) => d ≠ od ∧ ∃ v, old = some (v, od) ∧ new = some (v, d)
  | some (.create v d) => old = none ∧ new = some (v, d)
  | some (.replace v d ov od) => v ≠ ov ∧ old = some (ov, od) ∧ new = some (v, d)
  | some (.delete v d) => old = some (v, d) ∧ new = none

mutual
/-- Siblings in a diff are different nodes, and a node without an operation has others below. -/
def Tidy : Diff → Prop
  | .mk _ op kids => (op = .none → kids ≠ []) ∧ Tidys kids
/-- The same for siblings. -/
def Tidys : List Diff → Prop
  | [] => True
  | d :: ds => Tidy d ∧ (∀ x ∈ ds, x.id ≠ d.id) ∧ Tidys ds
end

theorem Tidys.append {d1 d2 : List Diff} (h1 : Tidys d1) (h2 : Tidys d2) (h : ∀ a ∈ d1, ∀ b ∈ d2, a.id ≠ b.id) :
    Tidys (d1 ++ d2) := by
  induction d1 with
  | nil => exact h2
  | cons d ds ih =>
    simp only [Tidys] at h1
    simp only [List.cons_append, Tidys]
    refine ⟨h1.1, ?_, ih h1.2.2 (fun a ha => h a (by simp [ha]))⟩
    intro x hx
    rcases List.mem_append.mp hx with hx | hx
    · exact h1.2.1 x hx
    · exact (h d (by simp) x hx).symm

theorem opAt_none_of {ds : List Diff} {i : Id} (h : ∀ d ∈ ds, d.id ≠ i) (q : Path) : opAt ds (i :: q) = none := by
  have : ds.find? (fun d => d.id = i) = none := by
    rw [List.find?_eq_none]; intro d hd; simp [h d hd]
  simp [opAt, this]

theorem opAt_append_left {d1 d2 : List Diff} {i : Id} {a : Diff} (ha : a ∈ d1) (hai : a.id = i) (q : Path) :
    opAt (d1 ++ d2) (i :: q) = opAt d1 (i :: q) := by
  have hfs : (d1.find? fun d => d.id = i).isSome := by
    rw [List.find?_isSome]; exact ⟨a, ha, by simp [hai]⟩
  obtain ⟨x, hx⟩ := Option.isSome_iff_exists.mp hfs
  simp only [opAt, List.find?_append, hx, Option.some_or]

theorem opAt_append_right {d1 d2 : List Diff} {i : Id} (h : ∀ a ∈ d1, a.id ≠ i) (q : Path) :
    opAt (d1 ++ d2) (i :: q) = opAt d2 (i :: q) := by
  have hn : d1.find? (fun d => d.id = i) = none := by
    rw [List.find?_eq_none]; intro d hd; simp [h d hd]
  simp only [opAt, List.find?_append, hn, Option.none_or]

/-- The diff describes the step from `f` to `g`. -/
structure Exact (f g : Path → Option (Nat × Bool)) (ds : List Diff) : Prop where
  says : ∀ q, q ≠ [] → Says (f q) (g q) (opAt ds q)
  tidy : Tidys ds

theorem Exact.same (f : Path → Option (Nat × Bool)) : Exact f f [] :=
  ⟨fun q _ => by cases q <;> simp [opAt, Says], trivial⟩

theorem Exact.trans {f g h : Path → Option (Nat × Bool)} {d1 d2 : List Diff} (h1 : Exact f g d1) (h2 : Exact g h d2)
    (hd : ∀ a ∈ d1, ∀ b ∈ d2, a.id ≠ b.id) : Exact f h (d1 ++ d2) := by
  refine ⟨?_, h1.tidy.append h2.tidy hd⟩
  intro q hq
  cases q with
  | nil => simp at hq
  | cons i q =>
    by_cases hi : ∃ a ∈ d1, a.id = i
    · obtain ⟨a, ha, hai⟩ := hi
      rw [opAt_append_left ha hai]
      have e2 := h2.says (i :: q) hq
      rw [opAt_none_of (fun b hb => by rw [← hai]; exact (hd a ha b hb).symm)] at e2
      have e2' : h (i :: q) = g (i :: q) := e2
      rw [e2']
      exact h1.says _ hq
    · have hi' : ∀ a ∈ d1, a.id ≠ i := fun a ha hai => hi ⟨a, ha, hai⟩
      rw [opAt_append_right hi']
      have e1 := h1.says (i :: q) hq
      rw [opAt_none_of hi'] at e1
      have e1' : g (i :: q) = f (i :: q) := e1
      rw [← e1']
      exact h2.says _ hq

theorem Exact.congr {f f' g g' : Path → Option (Nat × Bool)} {ds : List Diff} (h : Exact f g ds)
    (hf : ∀ q, q ≠ [] → f q = f' q) (hg : ∀ q, q ≠ [] → g q = g' q) : Exact f' g' ds :=
  ⟨fun q hq => by rw [← hf q hq, ← hg q hq]; exact h.says q hq, h.tidy⟩

/-- One node of a diff with what is below. -/
theorem Exact.node {f g : Path → Option (Nat × Bool)} {i : Id} {op : DOp} {kids : List Diff}
    (ht : op = .none → kids ≠ []) (hi : Says (f [i]) (g [i]) (some op))
    (hk : Exact (fun q => f (i :: q)) (fun q => g (i :: q)) kids)
    (ho : ∀ j q, j ≠ i → g (j :: q) = f (j :: q)) : Exact f g [.mk i op kids] := by
  refine ⟨?_, ⟨ht, hk.tidy⟩, by simp, trivial⟩
  intro q hq
  cases q with
  | nil => simp at hq
  | cons j q =>
    by_cases hj : j = i
    · subst hj
      simp only [opAt, List.find?_cons, Diff.id, decide_true, Diff.op, Diff.kids]
      by_cases hq' : q = []
      · subst hq'; simpa using hi
      · simp only [hq', if_false]; exact hk.says q hq'
    · rw [opAt_none_of (by simpa [Diff.id] using Ne.symm hj)]
      exact ho j q hj

theorem delDiff_go (ts : List Tree) : delDiff.go ts = ts.map delDiff := by
  induction ts with
  | nil => simp [delDiff.go]
  | cons t ts ih => simp [delDiff.go, ih]

theorem delDiff_kids (t : Tree) : (delDiff t).kids = t.kids.map delDiff := by
  cases t; simp [delDiff, Diff.kids, Tree.kids, delDiff_go]

theorem find_delDiff (ts : List Tree) (i : Id) :
    (ts.map delDiff).find? (fun d => d.id = i) = (ts.find? fun t => t.id = i).map delDiff := by
  induction ts with
  | nil => simp
  | cons t ts ih =>
    simp only [List.map_cons, List.find?_cons, delDiff_id]
    by_cases h : t.id = i <;> simp [h, ih]

theorem opAt_del (q : Path) : ∀ ts : List Tree, opAt (ts.map delDiff) q = (get ts q).map fun x => .delete x.1 x.2 := by
  induction q with
  | nil => intro ts; simp [opAt, get]
  | cons i q ih =>
    intro ts
    simp only [opAt, get, find_delDiff]
    cases ts.find? (fun t => t.id = i) with
    | none => simp
    | some t =>
      simp only [Option.map_some, delDiff_op, delDiff_kids]
      by_cases hq : q = []
      · simp [hq]
      · simp [hq, ih]

mutual
theorem delDiff_tidy (K : Nat → Kind) : ∀ t : Tree, WF K t → Tidy (delDiff t)
  | .mk i v d kids, w => by
    simp only [delDiff, delDiff_go, Tidy]
    exact ⟨by simp, delDiffs_tidy K kids w.2.2⟩
theorem delDiffs_tidy (K : Nat → Kind) : ∀ ts : List Tree, WFs K ts → Tidys (ts.map delDiff)
  | [], _ => by simp [Tidys]
  | t :: ts, w => by
    simp only [List.map_cons, Tidys]
    refine ⟨delDiff_tidy K t w.1, ?_, delDiffs_tidy K ts w.2.2⟩
    intro x hx
    obtain ⟨y, hy, rfl⟩ := List.mem_map.mp hx
    simpa using w.2.1 y hy
end

/-- Removing some of the siblings. -/
theorem exact_removed {K : Nat → Kind} {ts : List Tree} (w : WFs K ts) (p : Id → Bool) :
    Exact (get ts) (get (ts.filter fun t => !p t.id)) ((ts.filter fun t => p t.id).map delDiff) := by
  refine ⟨?_, delDiffs_tidy K _ (w.filter _)⟩
  intro q hq
  cases q with
  | nil => simp at hq
  | cons i q =>
    rw [opAt_del]
    have h1 := get_filter w p (i :: q)
    have h2 := get_filter w (fun c => !p c) (i :: q)
    simp only [List.head?_cons, Option.any_some] at h1 h2
    rw [h1, h2]
    by_cases hp : p i = true
    · simp only [hp, Bool.not_true, Bool.false_eq_true, if_false, if_true]
      cases hg : get ts (i :: q) with
      | none => simp [Says]
      | some x => simp [Says]
    · simp [hp, Says]

/-- Below a removed node every node of the edit is removed. -/
theorem node_gone {K : Nat → Kind} {inh : Option Op} {repl : Bool} {sibs : List Tree} {e : Edit} {r : Res}
    (h : applyNode K inh ⟨repl, true⟩ false sibs e = some r) : ∀ c ∈ ids r.data, c ∈ ids sibs ∧ c ≠ e.id := by
  obtain ⟨i, o, v, d, kids⟩ := e
  obtain ⟨op, ho, hnb, hap⟩ := applyNode_inv h
  simp only [Bool.true_and] at hnb
  intro c hc
  simp only [Edit.id]
  cases hap with
  | purge r' hk =>
    obtain ⟨t, ht, rfl⟩ := List.mem_map.mp hc
    obtain ⟨h1, h2⟩ := List.mem_filter.mp ht
    refine ⟨List.mem_map_of_mem h1, ?_⟩
    intro hti
    simp only [purged, hti] at h2
    split at h2 <;> simp at h2
  | skip op hop hf r' hk =>
    refine ⟨hc, ?_⟩
    simp only [Bool.false_eq_true, false_or] at hf
    rw [List.find?_eq_none] at hf
    obtain ⟨t, ht, rfl⟩ := List.mem_map.mp hc
    simpa using hf t ht
  | new op hop hm' hf r' hk => rcases hop with rfl | rfl | rfl <;> simp [notBelowDelete] at hnb
  | del op t hop hm' hf hact r' hk =>
    obtain ⟨t, ht, rfl⟩ := List.mem_map.mp hc
    obtain ⟨h1, h2⟩ := List.mem_filter.mp ht
    exact ⟨List.mem_map_of_mem h1, by simpa using h2⟩
  | stay op t a repl base rest nv nd diff ch hop hm' hf hact hr hrest hbase r' hk hres =>
    cases op <;> simp_all [notBelowDelete]

theorem kids_gone {K : Nat → Kind} {inh : Option Op} {repl : Bool} (es : List Edit) : ∀ {sibs : List Tree} {r : Res},
    applyKids K inh ⟨repl, true⟩ false sibs es = some r → ∀ c ∈ ids r.data, c ∈ ids sibs ∧ c ∉ es.map Edit.id := by
  induction es with
  | nil => intro sibs r h c hc; rw [applyKids_nil h] at hc; simpa using hc
  | cons e es ih =>
    intro sibs r h c hc
    simp only [applyKids] at h
    cases h1 : applyNode K inh ⟨repl, true⟩ false sibs e with
    | none => simp [h1] at h
    | some r1 =>
      cases h2 : applyKids K inh ⟨repl, true⟩ false r1.data es with
      | none => simp [h1, h2] at h
      | some r2 =>
        simp only [h1, h2, Option.some.injEq] at h; subst h
        obtain ⟨a, b⟩ := ih h2 c hc
        obtain ⟨a', b'⟩ := node_gone h1 c a
        exact ⟨a', by simp [b, b']⟩

/-- The children: first the ones that are not in the edit are removed. -/
theorem exact_kids {K : Nat → Kind} {kids : List Edit} {ts rest base : List Tree} {repl : Bool} {r : Res}
    (w : WFs K ts)
    (hrest : rest = if repl then ts.filter fun c => !(kids.map Edit.id).contains c.id else [])
    (hbase : base = if repl then ts.filter fun c => (kids.map Edit.id).contains c.id else ts)
    (he : Exact (get base) (get r.data) r.diff) (hid : ∀ d ∈ r.diff, d.id ∈ kids.map Edit.id ∨ d.id ∈ ids base) :
    Exact (get ts) (get r.data) (rest.map delDiff ++ r.diff) := by
  cases repl with
  | false =>
    simp only [Bool.false_eq_true, if_false] at hrest hbase
    subst hrest hbase
    simpa using he
  | true =>
    simp only [if_true] at hrest hbase
    have h1 := exact_removed w (fun c => !(kids.map Edit.id).contains c)
    simp only [Bool.not_not] at h1
    rw [← hrest, ← hbase] at h1
    refine h1.trans he ?_
    intro a ha b hb hab
    obtain ⟨t, ht, rfl⟩ := List.mem_map.mp ha
    rw [delDiff_id] at hab
    have hout : t.id ∉ kids.map Edit.id := by
      rw [hrest] at ht
      simpa using (List.mem_filter.mp ht).2
    rcases hid b hb with h | h
    · exact hout (hab ▸ h)
    · rw [hbase] at h
      simp only [ids, List.mem_map, List.mem_filter] at h
      obtain ⟨x, ⟨_, hx⟩, hxi⟩ := h
      apply hout
      rw [hab, ← hxi]; simpa using hx

mutual
theorem exact_node (K : Nat → Kind) : ∀ (e : Edit) (inh : Option Op) (fl : Flags) (miss : Bool) (sibs : List Tree) (r : Res),
    WFE K e → Distinct K inh e → WFs K sibs → (miss = true → sibs = []) →
    applyNode K inh fl miss sibs e = some r → Exact (get sibs) (get r.data) r.diff
  | .mk i o v d kids, inh, fl, miss, sibs, r, we, hd, ws, hm, ha => by
    obtain ⟨wv, wk, wks⟩ := we
    obtain ⟨op, ho, hnb, hap⟩ := applyNode_inv ha
    simp only [Distinct, ho] at hd
    cases hap with
    | purge r' hk =>
      exact exact_removed ws (fun c => if K i.1 = .list ∨ K i.1 = .leaflist then decide (c.1 = i.1) else decide (c = i))
    | skip op hop hf r' hk => exact Exact.same _
    | new op hop hm' hf r' hk =>
      have ih := exact_kids_all K kids (some op) fl false [] r' wks hd trivial (fun h => by simp at h) hk
      have hnone' : sibs.find? (fun t => t.id = (Tree.mk i v d r'.data).id) = none := hf
      have hold : ∀ q, get sibs (i :: q) = none := fun q => get_head_none hf q
      refine Exact.node (by simp) ?_ ?_ ?_
      · rw [hold]
        simp only [Says, true_and]
        rw [get_append hnone']; simp [Tree.id, Tree.val, Tree.dflt]
      · refine ih.congr (fun q _ => by simp [hold]) (fun q hq => ?_)
        simp only
        rw [get_append hnone']
        simp [Tree.id, Tree.kids, hq]
      · intro j q hj
        rw [get_append hnone']
        simp [hj, Tree.id]
    | del op t hop hm' hf hact r' hk =>
      obtain ⟨tmem, tid⟩ := find_mem hf
      have wt := ws.mem tmem
      have hg : ∀ j q, get (sibs.filter fun x => x.id ≠ i) (j :: q) = if j = i then none else get sibs (j :: q) := by
        intro j q
        have := get_filter ws (fun c => decide (c ≠ i)) (j :: q)
        rw [this]
        by_cases hj : j = i <;> simp [hj]
      have wb : WFs K (t.kids.filter fun c => (kids.map Edit.id).contains c.id) := wt.kids.filter _
      have ih := exact_kids_all K kids (some op) ⟨fl.repl, true⟩ false _ r' wks hd wb (fun h => by simp at h) hk
      have di := diff_kids K kids (some op) ⟨fl.repl, true⟩ false _ r' wks hd wb (fun h => by simp at h) hk
      have hk' := exact_kids (rest := t.kids.filter fun c => !(kids.map Edit.id).contains c.id) (repl := true) wt.kids (by simp) (by simp)
        ih di.known
      have hempty : r'.data = [] := by
        cases hr : r'.data with
        | nil => rfl
        | cons x xs =>
          have := kids_gone kids hk x.id (by simp [hr, ids])
          obtain ⟨h1, h2⟩ := this
          obtain ⟨y, hy, hyx⟩ := List.mem_map.mp h1
          have := (List.mem_filter.mp hy).2
          rw [hyx] at this
          exact absurd (by simpa using this) h2
      have hold : ∀ q, get sibs (i :: q) = if q = [] then some (t.val, t.dflt) else get t.kids q := fun q => get_head hf q
      refine Exact.node (by simp) ?_ ?_ ?_
      · rw [hold, hg]; simp [Says]
      · refine hk'.congr (fun q hq => ?_) (fun q hq => ?_)
        · rw [hold]; simp [hq]
        · rw [hg, hempty]; simp
      · intro j q hj
        rw [hg]; simp [hj]
    | stay op t a repl base rest nv nd diff ch hop hm' hf hact hr hrest hbase r' hk hres =>
      obtain ⟨tmem, tid⟩ := find_mem hf
      have wt := ws.mem tmem
      have wtk : (K i.1 = .leaf ∨ K i.1 = .leaflist) → t.kids = [] := by
        cases t; simp only [Tree.id] at tid; subst tid; exact wt.2.1
      have wb : WFs K base := by rw [hbase]; split <;> first | exact wt.kids.filter _ | exact wt.kids
      have ih := exact_kids_all K kids (some op) ⟨repl, fl.del⟩ false base r' wks hd wb (fun h => by simp at h) hk
      have di := diff_kids K kids (some op) ⟨repl, fl.del⟩ false base r' wks hd wb (fun h => by simp at h) hk
      have st := exact_kids wt.kids hrest hbase ih di.known
      obtain ⟨dk, hdk⟩ : ∃ dk, dk = rest.map delDiff ++ r'.diff := ⟨_, rfl⟩
      rw [← hdk] at hres st
      have hput : sibs.find? (fun x => x.id = (Tree.mk i nv nd r'.data).id) = some t := hf
      have hg : ∀ j q, get (put (.mk i nv nd r'.data) sibs) (j :: q) =
          if j = i then (if q = [] then some (nv, nd) else get r'.data q) else get sibs (j :: q) := fun j q => get_put hput (j :: q)
      have hold : ∀ q, get sibs (i :: q) = if q = [] then some (t.val, t.dflt) else get t.kids q := fun q => get_head hf q
      have hdflt : a = .dflt → dk = [] := by
        intro h; subst h
        have hl : K i.1 = .leaf ∨ K i.1 = .leaflist := by
          revert hact
          cases op <;> simp only [actMatched, mergeMatched, createMatched, replaceMatched, deleteMatched] <;>
            (repeat' split) <;> simp_all
        have hkn := wk hl; subst hkn
        rw [applyKids_nil hk] at hdk
        rw [hdk, hrest, wtk hl]; simp
      have hlf : a = .set → t.val ≠ v := fun h => (actMatched_set (h ▸ hact)).2.1
      have hkids : Exact (fun q => get sibs (i :: q)) (fun q => get (put (.mk i nv nd r'.data) sibs) (i :: q)) dk := by
        refine st.congr (fun q hq => ?_) (fun q hq => ?_)
        · rw [hold]; simp [hq]
        · rw [hg]; simp [hq]
      have hoth : ∀ j q, j ≠ i → get (put (.mk i nv nd r'.data) sibs) (j :: q) = get sibs (j :: q) := by
        intro j q hj; rw [hg]; simp [hj]
      have hnew : get (put (.mk i nv nd r'.data) sibs) [i] = some (nv, nd) := by rw [hg]; simp
      have hold1 : get sibs [i] = some (t.val, t.dflt) := by rw [hold]; simp
      have hnil : dk = [] → nv = t.val → nd = t.dflt →
          Exact (get sibs) (get (put (.mk i nv nd r'.data) sibs)) [] := by
        intro h1 h2 h3
        refine ⟨fun q hq => ?_, trivial⟩
        cases q with
        | nil => simp at hq
        | cons j q =>
          have : opAt [] (j :: q) = none := by simp [opAt]
          rw [this]
          simp only [Says]
          by_cases hj : j = i
          · subst hj
            by_cases hq' : q = []
            · subst hq'; rw [hnew, hold1, h2, h3]
            · have := hkids.says q hq'
              rw [h1] at this
              have h4 : opAt [] q = none := by cases q <;> simp [opAt]
              rw [h4] at this
              exact this
          · exact hoth j q hj
      rcases hres with ⟨_, h1, h2, h3, _⟩ | ⟨h0, h1, h2, h3, _⟩ | ⟨h0, h1, h2, _, h3⟩
      · by_cases he : dk = []
        · have : diff = [] := by simp [h3, he]
          rw [this]; exact hnil he h1 h2
        · have : diff = [.mk i .none dk] := by simp [h3, he]
          rw [this]
          refine Exact.node (fun _ => he) ?_ hkids hoth
          rw [hnew, hold1, h1, h2]; simp [Says]
      · rw [h3]
        refine Exact.node (by simp) ?_ hkids hoth
        rw [hnew, hold1, h1, h2]; simp only [Says, and_true]; exact fun h => hlf h0 h.symm
      · by_cases he : t.dflt = d
        · have : diff = [] := by simp [h3, he, hdflt h0]
          rw [this]; exact hnil (hdflt h0) h1 (by rw [h2, he])
        · have : diff = [.mk i (.dflt d t.dflt) dk] := by simp [h3, he]
          rw [this]
          refine Exact.node (by simp) ?_ hkids hoth
          rw [hnew, hold1, h1, h2]
          exact ⟨Ne.symm he, t.val, rfl, rfl⟩
theorem exact_kids_all (K : Nat → Kind) : ∀ (es : List Edit) (inh : Option Op) (fl : Flags) (miss : Bool) (sibs : List Tree) (r : Res),
    WFEs K es → Distincts K inh es → WFs K sibs → (miss = true → sibs = []) →
    applyKids K inh fl miss sibs es = some r → Exact (get sibs) (get r.data) r.diff
  | [], inh, fl, miss, sibs, r, we, hd, ws, hm, ha => by
    rw [applyKids_nil ha]; exact Exact.same _
  | e :: es, inh, fl, miss, sibs, r, we, hd, ws, hm, ha => by
    simp only [applyKids] at ha
    cases h1 : applyNode K inh fl miss sibs e with
    | none => simp [h1] at ha
    | some r1 =>
      cases h2 : applyKids K inh fl miss r1.data es with
      | none => simp [h1, h2] at ha
      | some r2 =>
        simp only [h1, h2, Option.some.injEq] at ha; subst ha
        have i1 := diff_node K e inh fl miss sibs r1 we.1 hd.1 ws hm h1
        have m1 := meant_node K e inh fl miss sibs r1 we.1 ws hm h1
        have i2 := diff_kids K es inh fl miss r1.data r2 we.2 hd.2.2 m1.1 m1.2.1 h2
        have x1 := exact_node K e inh fl miss sibs r1 we.1 hd.1 ws hm h1
        have x2 := exact_kids_all K es inh fl miss r1.data r2 we.2 hd.2.2 m1.1 m1.2.1 h2
        refine x1.trans x2 ?_
        intro a ha b hb hab
        obtain ⟨e', he', h⟩ := i1.touched a ha
        simp only [List.mem_singleton] at he'; subst he'
        obtain ⟨x, hx, hxb⟩ := i2.touched b hb
        obtain ⟨hne, hp⟩ := hd.2.1 x hx
        rw [← hab] at hxb
        rcases h with h | ⟨hpe, h⟩ <;> rcases hxb with hx' | ⟨hpx, hx'⟩
        · exact hne (hx'.symm.trans h)
        · exact hp (.inr hpx) (by rw [← hx', h])
        · exact hp (.inl hpe) (by rw [← h, hx'])
        · exact hp (.inl hpe) (by rw [← h, hx'])
end

end Verif.Edit
