import Verif.Edit
/-!
The diff that applying an edit reports: lemmas about `Verif.Edit.after`. The model is in `Verif.Edit`.
-/
namespace Verif.Edit

/-- The node removes all the instances of a list. -/
def PurgesList (K : Nat → Kind) (inh : Option Op) (e : Edit) : Prop :=
  e.op.or inh = some .purge ∧ (K e.id.1 = .list ∨ K e.id.1 = .leaflist)

mutual
/-- No node of the edit is there twice and nothing else is said about a list whose instances are all removed. -/
def Distinct (K : Nat → Kind) (inh : Option Op) : Edit → Prop
  | .mk _ o _ _ kids => Distincts K (o.or inh) kids
/-- The same for siblings. -/
def Distincts (K : Nat → Kind) (inh : Option Op) : List Edit → Prop
  | [] => True
  | e :: es => Distinct K inh e ∧
    (∀ x ∈ es, x.id ≠ e.id ∧ (PurgesList K inh e ∨ PurgesList K inh x → x.id.1 ≠ e.id.1)) ∧ Distincts K inh es
end

mutual
/-- No node created explicitly is marked as a default value. -/
def Explicit (inh : Option Op) : Edit → Prop
  | .mk _ o _ d kids => (o.or inh = some .create → d = false) ∧ Explicits (o.or inh) kids
/-- The same for siblings. -/
def Explicits (inh : Option Op) : List Edit → Prop
  | [] => True
  | e :: es => Explicit inh e ∧ Explicits inh es
end

theorem after_none_of {f : Path → Option (Nat × Bool)} {ds : List Diff} {i : Id} (h : ∀ d ∈ ds, d.id ≠ i) (q : Path) :
    after f ds (i :: q) = f (i :: q) := by
  have : ds.find? (fun d => d.id = i) = none := by
    rw [List.find?_eq_none]; intro d hd; simp [h d hd]
  simp [after, this]

/-- The effect depends only on what is below the top. -/
theorem after_congr (q : Path) : ∀ (f g : Path → Option (Nat × Bool)) (ds : List Diff),
    (∀ q, q ≠ [] → f q = g q) → q ≠ [] → after f ds q = after g ds q := by
  induction q with
  | nil => intro f g ds _ h; simp at h
  | cons i q ih =>
    intro f g ds h _
    simp only [after]
    split
    · exact h _ (by simp)
    · have h1 : f [i] = g [i] := h _ (by simp)
      have h2 : ∀ ds, q ≠ [] → after (fun p => f (i :: p)) ds q = after (fun p => g (i :: p)) ds q := fun ds hq =>
        ih _ _ ds (fun p _ => h _ (by simp)) hq
      split
      · rfl
      · rfl
      all_goals
        by_cases hq : q = []
        · simp [hq, h1]
        · simp [hq, h2]

theorem after_append {f : Path → Option (Nat × Bool)} {d1 d2 : List Diff} (h : ∀ a ∈ d1, ∀ b ∈ d2, a.id ≠ b.id) {q : Path}
    (hq : q ≠ []) : after f (d1 ++ d2) q = after (after f d1) d2 q := by
  cases q with
  | nil => simp at hq
  | cons i q =>
    by_cases h1 : ∃ a ∈ d1, a.id = i
    · obtain ⟨a, ha, hai⟩ := h1
      rw [after_none_of (ds := d2) (fun b hb => by rw [← hai]; exact (h a ha b hb).symm)]
      have hfs : (d1.find? fun d => d.id = i).isSome := by
        rw [List.find?_isSome]; exact ⟨a, ha, by simp [hai]⟩
      obtain ⟨x, hx⟩ := Option.isSome_iff_exists.mp hfs
      simp only [after, List.find?_append, hx, Option.some_or]
    · have h1' : ∀ a ∈ d1, a.id ≠ i := fun a ha hai => h1 ⟨a, ha, hai⟩
      have hn : d1.find? (fun d => d.id = i) = none := by
        rw [List.find?_eq_none]; intro d hd; simp [h1' d hd]
      have hf : ∀ p, after f d1 (i :: p) = f (i :: p) := fun p => after_none_of h1' p
      simp only [after, List.find?_append, hn, Option.none_or, hf]

@[simp] theorem delDiff_id (t : Tree) : (delDiff t).id = t.id := by cases t; rfl
@[simp] theorem delDiff_op (t : Tree) : (delDiff t).op = .delete t.val t.dflt := by cases t; rfl

theorem after_del {f : Path → Option (Nat × Bool)} {ts : List Tree} (i : Id) (q : Path) :
    after f (ts.map delDiff) (i :: q) = if (ts.map Tree.id).contains i then none else f (i :: q) := by
  by_cases h : (ts.map Tree.id).contains i = true
  · rw [if_pos h]
    have h' : ∃ t ∈ ts, t.id = i := by simpa using h
    obtain ⟨t, ht, hti⟩ := h'
    have hfs : ((ts.map delDiff).find? fun d => d.id = i).isSome := by
      rw [List.find?_isSome]; exact ⟨delDiff t, List.mem_map_of_mem ht, by simp [hti]⟩
    obtain ⟨x, hx⟩ := Option.isSome_iff_exists.mp hfs
    have hxm := List.mem_of_find?_eq_some hx
    obtain ⟨y, _, rfl⟩ := List.mem_map.mp hxm
    simp only [after, hx, delDiff_op]
  · rw [if_neg h]
    refine after_none_of ?_ q
    intro d hd hdi
    obtain ⟨y, hy, rfl⟩ := List.mem_map.mp hd
    exact h (by simpa using ⟨y, hy, by simpa using hdi⟩)

theorem find_of_mem {K : Nat → Kind} {ts : List Tree} (h : WFs K ts) {t : Tree} (ht : t ∈ ts) :
    ts.find? (fun x => x.id = t.id) = some t := by
  induction ts with
  | nil => simp at ht
  | cons x xs ih =>
    simp only [WFs] at h
    rcases List.mem_cons.mp ht with rfl | hm
    · simp
    · have : x.id ≠ t.id := (h.2.1 t hm).symm
      simp only [List.find?_cons, this, decide_false]
      exact ih h.2.2 hm

/-- Identities among siblings. -/
def ids (ts : List Tree) : List Id := ts.map Tree.id

theorem get_none_of {ts : List Tree} {i : Id} (h : i ∉ ids ts) (q : Path) : get ts (i :: q) = none := by
  have : ts.find? (fun t => t.id = i) = none := by
    rw [List.find?_eq_none]; intro t ht; simp only [decide_eq_true_eq]; intro hti
    exact h (by simpa [ids] using ⟨t, ht, hti⟩)
  simp [get, this]

theorem ids_put (t : Tree) (ts : List Tree) : ids (put t ts) = ids ts := by
  simp only [ids, Edit.put, List.map_map]
  apply List.map_congr_left
  intro x _
  simp only [Function.comp]
  split <;> simp_all

/-- What is claimed about the diff of one step. -/
structure Told (sibs : List Tree) (r : Res) : Prop where
  after : ∀ q, q ≠ [] → Edit.after (get sibs) r.diff q = get r.data q
  changed : ∀ d ∈ r.diff, ∃ q, get r.data (d.id :: q) ≠ get sibs (d.id :: q)

/-- The children of a node that stays: what was removed first and the diff of the edit. -/
theorem stay_told {K : Nat → Kind} {kids : List Edit} {ts rest base : List Tree} {repl : Bool} {r : Res}
    (w : WFs K ts)
    (hrest : rest = if repl then ts.filter fun c => !(kids.map Edit.id).contains c.id else [])
    (hbase : base = if repl then ts.filter fun c => (kids.map Edit.id).contains c.id else ts)
    (ht : Told base r) (hid : ∀ d ∈ r.diff, d.id ∈ kids.map Edit.id ∨ d.id ∈ ids base) :
    Told ts ⟨r.data, rest.map delDiff ++ r.diff, true⟩ := by
  cases repl with
  | false =>
    simp only [Bool.false_eq_true, if_false] at hrest hbase
    subst hrest hbase
    exact ⟨by simpa using ht.after, by simpa using ht.changed⟩
  | true =>
    simp only [if_true] at hrest hbase
    have hin : ∀ d ∈ r.diff, d.id ∈ kids.map Edit.id := by
      intro d hd
      rcases hid d hd with h | h
      · exact h
      · rw [hbase] at h
        simp only [ids, List.mem_map, List.mem_filter] at h
        obtain ⟨t, ⟨_, ht2⟩, hti⟩ := h
        rw [← hti]; simpa using ht2
    have hout : ∀ t ∈ rest, t.id ∉ kids.map Edit.id := by
      intro t ht
      rw [hrest] at ht
      simpa using (List.mem_filter.mp ht).2
    have hdisj : ∀ a ∈ rest.map delDiff, ∀ b ∈ r.diff, a.id ≠ b.id := by
      intro a ha b hb hab
      obtain ⟨t, ht, rfl⟩ := List.mem_map.mp ha
      rw [delDiff_id] at hab
      exact hout t ht (hab ▸ hin b hb)
    have hgb : ∀ q, get base q = if q.head?.any (fun c => (kids.map Edit.id).contains c) then get ts q else none := by
      intro q; rw [hbase]; exact get_filter w (fun c => (kids.map Edit.id).contains c) q
    have hdel : ∀ q, q ≠ [] → after (get ts) (rest.map delDiff) q = get base q := by
      intro q hq
      cases q with
      | nil => simp at hq
      | cons i q =>
        have hg : get base (i :: q) = if (kids.map Edit.id).contains i = true then get ts (i :: q) else none := hgb (i :: q)
        rw [after_del, hg]
        by_cases hc : (kids.map Edit.id).contains i = true
        · have : ¬ (rest.map Tree.id).contains i = true := by
            intro h
            obtain ⟨t, ht, hti⟩ : ∃ t ∈ rest, t.id = i := by simpa using h
            exact hout t ht (by rw [hti]; simpa using hc)
          rw [if_neg this, if_pos hc]
        · rw [if_neg hc]
          by_cases hm : i ∈ ids ts
          · obtain ⟨t, ht, hti⟩ := List.mem_map.mp hm
            have : (rest.map Tree.id).contains i = true := by
              rw [List.contains_iff_mem, List.mem_map]
              refine ⟨t, ?_, hti⟩
              rw [hrest, List.mem_filter]
              refine ⟨ht, ?_⟩
              rw [hti]; simpa using hc
            rw [if_pos this]
          · split
            · rfl
            · exact get_none_of hm q
    have haf : ∀ q, q ≠ [] → after (get ts) (rest.map delDiff ++ r.diff) q = get r.data q := by
      intro q hq
      rw [after_append hdisj hq, after_congr q _ _ _ hdel hq, ht.after q hq]
    refine ⟨haf, ?_⟩
    intro d hd
    rcases List.mem_append.mp hd with hd | hd
    · obtain ⟨t, htr, rfl⟩ := List.mem_map.mp hd
      refine ⟨[], ?_⟩
      have htm : t ∈ ts := by rw [hrest] at htr; exact (List.mem_filter.mp htr).1
      rw [delDiff_id, get_head (find_of_mem w htm)]
      have h1 := haf [t.id] (by simp)
      rw [after_append hdisj (by simp), after_none_of (i := t.id) (fun b hb hbt => hout t htr (hbt ▸ hin b hb)), after_del] at h1
      have h2 : (rest.map Tree.id).contains t.id = true := by
        rw [List.contains_iff_mem, List.mem_map]; exact ⟨t, htr, rfl⟩
      rw [if_pos h2] at h1
      simp [← h1]
    · obtain ⟨q, hq⟩ := ht.changed d hd
      refine ⟨q, ?_⟩
      rw [hgb] at hq
      have : (kids.map Edit.id).contains d.id = true := by rw [List.contains_iff_mem]; exact hin d hd
      simp only [List.head?_cons, Option.any_some, this, if_true] at hq
      exact hq

/-- Nodes whose diff may come from one node of the edit. -/
def Touches (K : Nat → Kind) (inh : Option Op) (e : Edit) (c : Id) : Prop :=
  c = e.id ∨ PurgesList K inh e ∧ c.1 = e.id.1

/-- All what is claimed about the diff of an edit. -/
structure DiffOk (K : Nat → Kind) (inh : Option Op) (es : List Edit) (sibs : List Tree) (r : Res) : Prop where
  told : Told sibs r
  touched : ∀ d ∈ r.diff, ∃ e ∈ es, Touches K inh e d.id
  known : ∀ d ∈ r.diff, d.id ∈ es.map Edit.id ∨ d.id ∈ ids sibs
  now : ∀ c ∈ ids r.data, c ∈ es.map Edit.id ∨ c ∈ ids sibs

theorem purge_get {K : Nat → Kind} {sibs : List Tree} {i : Id} (ws : WFs K sibs) (j : Id) (q : Path) :
    get (sibs.filter fun t => !purged (K i.1) i t) (j :: q) =
      if ((sibs.filter (purged (K i.1) i)).map Tree.id).contains j then none else get sibs (j :: q) := by
  have hfilt := get_filter ws
    (fun c : Id => !(if K i.1 = .list ∨ K i.1 = .leaflist then decide (c.1 = i.1) else decide (c = i))) (j :: q)
  have he : (sibs.filter fun t => !purged (K i.1) i t) = sibs.filter fun t =>
      !(if K i.1 = .list ∨ K i.1 = .leaflist then decide (t.id.1 = i.1) else decide (t.id = i)) := rfl
  rw [he, hfilt]
  by_cases hm : j ∈ ids sibs
  · obtain ⟨t, ht, rfl⟩ := List.mem_map.mp hm
    by_cases hp : purged (K i.1) i t = true
    · have hc : ((sibs.filter (purged (K i.1) i)).map Tree.id).contains t.id = true := by
        rw [List.contains_iff_mem, List.mem_map]
        exact ⟨t, List.mem_filter.mpr ⟨ht, hp⟩, rfl⟩
      rw [if_pos hc, if_neg]
      simp only [List.head?_cons, Option.any_some]
      simp only [purged] at hp
      rw [hp]; simp
    · have hc : ¬ ((sibs.filter (purged (K i.1) i)).map Tree.id).contains t.id = true := by
        rw [List.contains_iff_mem, List.mem_map]
        rintro ⟨x, hx, hxt⟩
        have := (List.mem_filter.mp hx).2
        simp only [purged, hxt] at this hp
        exact hp this
      rw [if_neg hc, if_pos]
      simp only [List.head?_cons, Option.any_some]
      simp only [purged, Bool.not_eq_true] at hp
      rw [hp]; simp
  · rw [get_none_of hm]; simp

mutual
theorem diff_node (K : Nat → Kind) : ∀ (e : Edit) (inh : Option Op) (fl : Flags) (miss : Bool) (sibs : List Tree) (r : Res),
    WFE K e → Distinct K inh e → WFs K sibs → (miss = true → sibs = []) →
    applyNode K inh fl miss sibs e = some r → DiffOk K inh [e] sibs r
  | .mk i o v d kids, inh, fl, miss, sibs, r, we, hd, ws, hm, ha => by
    obtain ⟨wv, wk, wks⟩ := we
    obtain ⟨op, ho, hnb, hap⟩ := applyNode_inv ha
    simp only [Distinct, ho] at hd
    cases hap with
    | purge r' hk =>
      have hinst : ∀ t ∈ sibs.filter (purged (K i.1) i), t ∈ sibs ∧
          (t.id = i ∨ (K i.1 = .list ∨ K i.1 = .leaflist) ∧ t.id.1 = i.1) := by
        intro t ht
        obtain ⟨h1, h2⟩ := List.mem_filter.mp ht
        refine ⟨h1, ?_⟩
        simp only [purged] at h2
        split at h2
        · rename_i hk; right; exact ⟨hk, by simpa using h2⟩
        · left; simpa using h2
      have hsep := purge_get (i := i) ws
      refine ⟨⟨?_, ?_⟩, ?_, ?_, ?_⟩
      · intro q hq
        cases q with
        | nil => simp at hq
        | cons j q => simp only; rw [after_del, hsep]
      · intro x hx
        obtain ⟨t, ht, rfl⟩ := List.mem_map.mp hx
        refine ⟨[], ?_⟩
        simp only [delDiff_id]
        rw [hsep, get_head (find_of_mem ws (hinst t ht).1)]
        have : ((sibs.filter (purged (K i.1) i)).map Tree.id).contains t.id = true := by
          rw [List.contains_iff_mem, List.mem_map]; exact ⟨t, ht, rfl⟩
        rw [if_pos this]; simp
      · intro x hx
        obtain ⟨t, ht, rfl⟩ := List.mem_map.mp hx
        refine ⟨_, List.mem_singleton.mpr rfl, ?_⟩
        rw [delDiff_id]
        rcases (hinst t ht).2 with h | h
        · exact .inl h
        · exact .inr ⟨⟨ho, h.1⟩, h.2⟩
      · intro x hx
        obtain ⟨t, ht, rfl⟩ := List.mem_map.mp hx
        right
        rw [delDiff_id]; exact List.mem_map_of_mem (hinst t ht).1
      · intro c hc
        right
        obtain ⟨t, ht, rfl⟩ := List.mem_map.mp hc
        exact List.mem_map_of_mem (List.mem_filter.mp ht).1
    | skip op hop hf r' hk =>
      exact ⟨⟨fun q hq => by cases q <;> simp [after], by simp⟩, by simp, by simp, fun c hc => .inr hc⟩
    | new op hop hm' hf r' hk =>
      have ih := diff_kids K kids (some op) fl false [] r' wks hd trivial (fun h => by simp at h) hk
      have hnone' : sibs.find? (fun t => t.id = (Tree.mk i v d r'.data).id) = none := hf
      refine ⟨⟨?_, ?_⟩, ?_, ?_, ?_⟩
      · intro q hq
        cases q with
        | nil => simp at hq
        | cons j q =>
          simp only
          rw [get_append hnone']
          by_cases hj : j = i
          · subst hj
            simp only [after, List.find?_cons, Diff.id, decide_true, Diff.op, Diff.kids, Tree.id, if_true, Tree.val, Tree.dflt, Tree.kids]
            by_cases hq' : q = []
            · simp [hq']
            · simp only [hq', if_false]
              rw [← ih.told.after q hq']
              exact after_congr q _ _ _ (fun p _ => by cases p <;> simp [get]) hq'
          · rw [after_none_of (by simpa [Diff.id] using Ne.symm hj)]
            simp [hj, Tree.id]
      · intro x hx
        simp only [List.mem_singleton] at hx; subst hx
        refine ⟨[], ?_⟩
        simp only [Diff.id]
        rw [get_append hnone']
        have : get sibs [i] = none := by simp [get, hf]
        simp [Tree.id, this]
      · intro x hx
        simp only [List.mem_singleton] at hx; subst hx
        exact ⟨_, List.mem_singleton.mpr rfl, .inl rfl⟩
      · intro x hx
        simp only [List.mem_singleton] at hx; subst hx
        left; simp [Diff.id, Edit.id]
      · intro c hc
        simp only [ids, List.map_append, List.mem_append, List.map_cons, List.map_nil, List.mem_singleton, Tree.id, Edit.id] at hc ⊢
        exact hc.symm
    | del op t hop hm' hf hact r' hk =>
      obtain ⟨tmem, tid⟩ := find_mem hf
      have hg : ∀ j q, get (sibs.filter fun x => x.id ≠ i) (j :: q) = if j = i then none else get sibs (j :: q) := by
        intro j q
        have := get_filter ws (fun c => decide (c ≠ i)) (j :: q)
        rw [this]
        by_cases hj : j = i <;> simp [hj]
      refine ⟨⟨?_, ?_⟩, ?_, ?_, ?_⟩
      · intro q hq
        cases q with
        | nil => simp at hq
        | cons j q =>
          simp only
          rw [hg]
          by_cases hj : j = i
          · subst hj
            simp [after, Diff.id, Diff.op]
          · rw [after_none_of (by simpa [Diff.id] using Ne.symm hj)]
            simp [hj]
      · intro x hx
        simp only [List.mem_singleton] at hx; subst hx
        refine ⟨[], ?_⟩
        simp only [Diff.id]
        rw [hg, get_head hf]; simp
      · intro x hx
        simp only [List.mem_singleton] at hx; subst hx
        exact ⟨_, List.mem_singleton.mpr rfl, .inl rfl⟩
      · intro x hx
        simp only [List.mem_singleton] at hx; subst hx
        left; simp [Diff.id, Edit.id]
      · intro c hc
        obtain ⟨t, ht, rfl⟩ := List.mem_map.mp hc
        exact .inr (List.mem_map_of_mem (List.mem_filter.mp ht).1)
    | stay op t a repl base rest nv nd diff ch hop hm' hf hact hr hrest hbase r' hk hres =>
      obtain ⟨tmem, tid⟩ := find_mem hf
      have wt := ws.mem tmem
      have wtk : (K i.1 = .leaf ∨ K i.1 = .leaflist) → t.kids = [] := by
        cases t; simp only [Tree.id] at tid; subst tid; exact wt.2.1
      have wb : WFs K base := by rw [hbase]; split <;> first | exact wt.kids.filter _ | exact wt.kids
      have ih := diff_kids K kids (some op) ⟨repl, fl.del⟩ false base r' wks hd wb (fun h => by simp at h) hk
      have st := stay_told wt.kids hrest hbase ih.told ih.known
      obtain ⟨dk, hdk⟩ : ∃ dk, dk = rest.map delDiff ++ r'.diff := ⟨_, rfl⟩
      rw [← hdk] at hres st
      have hput : sibs.find? (fun x => x.id = (Tree.mk i nv nd r'.data).id) = some t := hf
      have hg : ∀ j q, get (put (.mk i nv nd r'.data) sibs) (j :: q) =
          if j = i then (if q = [] then some (nv, nd) else get r'.data q) else get sibs (j :: q) := fun j q => get_put hput (j :: q)
      have hkids : ∀ q, q ≠ [] → after (fun p => get sibs (i :: p)) dk q = get r'.data q := by
        intro q hq
        rw [← st.after q hq]
        refine after_congr q _ _ _ (fun p hp => ?_) hq
        rw [get_head hf]; simp [hp]
      have hold : get sibs [i] = some (t.val, t.dflt) := by rw [get_head hf]; simp
      have hdflt : a = .dflt → dk = [] := by
        intro h; subst h
        have hl : K i.1 = .leaf ∨ K i.1 = .leaflist := by
          revert hact
          cases op <;> simp only [actMatched, mergeMatched, createMatched, replaceMatched, deleteMatched] <;>
            (repeat' split) <;> simp_all
        have hkn := wk hl; subst hkn
        rw [applyKids_nil hk] at hdk
        rw [hdk, hrest, wtk hl]; simp
      have hlf : a = .set → t.val ≠ v := fun h => (actMatched_set (h ▸ hact)).2.1
      have hone : diff = [] ∧ dk = [] ∧ nv = t.val ∧ nd = t.dflt ∨ ∃ p, diff = [.mk i p dk] ∧
          (∀ f : Path → Option (Nat × Bool), f [i] = get sibs [i] → after f [.mk i p dk] [i] = some (nv, nd)) ∧
          (∀ (f : Path → Option (Nat × Bool)) q, q ≠ [] → after f [.mk i p dk] (i :: q) = after (fun p => f (i :: p)) dk q) ∧
          ((nv, nd) ≠ (t.val, t.dflt) ∨ dk ≠ []) := by
        rcases hres with ⟨_, h1, h2, h3, _⟩ | ⟨h0, h1, h2, h3, _⟩ | ⟨h0, h1, h2, _, h3⟩
        · by_cases he : dk = []
          · left; simp [h3, he, h1, h2]
          · right
            refine ⟨.none, by simp [h3, he], ?_, ?_, .inr he⟩
            · intro f hf; simp [after, Diff.id, Diff.op, hf, hold, h1, h2]
            · intro f q hq; simp [after, Diff.id, Diff.op, Diff.kids, hq]
        · right
          refine ⟨.replace v false t.val t.dflt, h3, ?_, ?_, ?_⟩
          · intro f hf; simp [after, Diff.id, Diff.op, h1, h2]
          · intro f q hq; simp [after, Diff.id, Diff.op, Diff.kids, hq]
          · left; intro h; simp only [Prod.mk.injEq] at h; exact hlf h0 (by rw [← h.1, h1])
        · by_cases he : t.dflt = d
          · left; simp [h3, he, h1, h2, hdflt h0]
          · right
            refine ⟨.dflt d t.dflt, by simp [h3, he], ?_, ?_, ?_⟩
            · intro f hf; simp [after, Diff.id, Diff.op, hf, hold, h1, h2]
            · intro f q hq; simp [after, Diff.id, Diff.op, Diff.kids, hq]
            · left; intro h; simp only [Prod.mk.injEq] at h; exact he (by rw [← h.2, h2])
      refine ⟨⟨?_, ?_⟩, ?_, ?_, ?_⟩
      · intro q hq
        cases q with
        | nil => simp at hq
        | cons j q =>
          simp only
          rw [hg]
          rcases hone with ⟨h1, h2, h3, h4⟩ | ⟨p, h1, h2, h3, h4⟩
          · rw [h1]
            simp only [after, List.find?_nil]
            by_cases hj : j = i
            · subst hj
              by_cases hq' : q = []
              · simp [hq', hold, h3, h4]
              · have := hkids q hq'
                rw [h2] at this
                cases q with
                | nil => simp at hq'
                | cons c q => simp only [after, List.find?_nil] at this; simp [this]
            · simp [hj]
          · rw [h1]
            by_cases hj : j = i
            · subst hj
              by_cases hq' : q = []
              · subst hq'; rw [h2 _ rfl]; simp
              · rw [h3 _ q hq', hkids q hq']; simp [hq']
            · rw [after_none_of (by simpa [Diff.id] using Ne.symm hj)]
              simp [hj]
      · intro x hx
        simp only at hx
        rcases hone with ⟨h1, _⟩ | ⟨p, h1, h2, h3, h4⟩
        · simp [h1] at hx
        · rw [h1] at hx
          simp only [List.mem_singleton] at hx; subst hx
          simp only [Diff.id]
          rcases h4 with h4 | h4
          · refine ⟨[], ?_⟩
            rw [hg, hold]; simpa using h4
          · obtain ⟨y, ys, hy⟩ := List.exists_cons_of_ne_nil h4
            obtain ⟨q, hq⟩ := st.changed y (by simp [hy])
            refine ⟨y.id :: q, ?_⟩
            rw [hg, get_head hf]; simpa using hq
      · intro x hx
        simp only at hx
        rcases hone with ⟨h1, _⟩ | ⟨p, h1, _⟩
        · simp [h1] at hx
        · rw [h1] at hx
          simp only [List.mem_singleton] at hx; subst hx
          exact ⟨_, List.mem_singleton.mpr rfl, .inl rfl⟩
      · intro x hx
        simp only at hx
        rcases hone with ⟨h1, _⟩ | ⟨p, h1, _⟩
        · simp [h1] at hx
        · rw [h1] at hx
          simp only [List.mem_singleton] at hx; subst hx
          left; simp [Diff.id, Edit.id]
      · intro c hc
        right; simpa [ids_put] using hc
theorem diff_kids (K : Nat → Kind) : ∀ (es : List Edit) (inh : Option Op) (fl : Flags) (miss : Bool) (sibs : List Tree) (r : Res),
    WFEs K es → Distincts K inh es → WFs K sibs → (miss = true → sibs = []) →
    applyKids K inh fl miss sibs es = some r → DiffOk K inh es sibs r
  | [], inh, fl, miss, sibs, r, we, hd, ws, hm, ha => by
    rw [applyKids_nil ha]
    exact ⟨⟨fun q hq => by cases q <;> simp [after], by simp⟩, by simp, by simp, fun c hc => .inr hc⟩
  | e :: es, inh, fl, miss, sibs, r, we, hd, ws, hm, ha => by
    simp only [applyKids] at ha
    cases h1 : applyNode K inh fl miss sibs e with
    | none => simp [h1] at ha
    | some r1 =>
      cases h2 : applyKids K inh fl miss r1.data es with
      | none => simp [h1, h2] at ha
      | some r2 =>
        simp only [h1, h2, Option.some.injEq] at ha; subst ha
        have i1 := diff_node K e inh fl miss sibs r1 we.1 hd.1 ws hm h1
        have m1 := meant_node K e inh fl miss sibs r1 we.1 ws hm h1
        have i2 := diff_kids K es inh fl miss r1.data r2 we.2 hd.2.2 m1.1 m1.2.1 h2
        have hdisj : ∀ a ∈ r1.diff, ∀ b ∈ r2.diff, a.id ≠ b.id := by
          intro a ha b hb hab
          obtain ⟨e', he', h⟩ := i1.touched a ha
          simp only [List.mem_singleton] at he'; subst he'
          obtain ⟨x, hx, hxb⟩ := i2.touched b hb
          obtain ⟨hne, hp⟩ := hd.2.1 x hx
          rw [← hab] at hxb
          rcases h with h | ⟨hpe, h⟩ <;> rcases hxb with hx' | ⟨hpx, hx'⟩
          · exact hne (hx'.symm.trans h)
          · exact hp (.inr hpx) (by rw [← hx', h])
          · exact hp (.inl hpe) (by rw [← h, hx'])
          · exact hp (.inl hpe) (by rw [← h, hx'])
        refine ⟨⟨?_, ?_⟩, ?_, ?_, ?_⟩
        · intro q hq
          simp only
          rw [after_append hdisj hq, after_congr q _ _ _ i1.told.after hq, i2.told.after q hq]
        · intro d hd
          simp only [List.mem_append] at hd
          rcases hd with hd | hd
          · obtain ⟨q, hq⟩ := i1.told.changed d hd
            refine ⟨q, ?_⟩
            simp only
            rw [← i2.told.after _ (by simp), after_none_of (fun b hb => (hdisj d hd b hb).symm)]
            exact hq
          · obtain ⟨q, hq⟩ := i2.told.changed d hd
            refine ⟨q, ?_⟩
            simp only
            rw [← i1.told.after _ (by simp), after_none_of (fun b hb => hdisj b hb d hd)] at hq
            exact hq
        · intro d hd
          simp only [List.mem_append] at hd
          rcases hd with hd | hd
          · obtain ⟨x, hx, h⟩ := i1.touched d hd
            simp only [List.mem_singleton] at hx; subst hx
            exact ⟨x, by simp, h⟩
          · obtain ⟨x, hx, h⟩ := i2.touched d hd
            exact ⟨x, by simp [hx], h⟩
        · intro d hd
          simp only [List.mem_append] at hd
          simp only [List.map_cons, List.mem_cons]
          rcases hd with hd | hd
          · rcases i1.known d hd with h | h
            · left; left; simpa using h
            · exact .inr h
          · rcases i2.known d hd with h | h
            · exact .inl (.inr h)
            · rcases i1.now _ h with h | h
              · left; left; simpa using h
              · exact .inr h
        · intro c hc
          simp only [List.map_cons, List.mem_cons]
          rcases i2.now c hc with h | h
          · exact .inl (.inr h)
          · rcases i1.now _ h with h | h
            · left; left; simpa using h
            · exact .inr h
end

end Verif.Edit
