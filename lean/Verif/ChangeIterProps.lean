import Verif.ChangeIter
import Verif.EditProps
/-!
# Reading the changes in a callback (C64) and outside of it (C65)

Specification: `see` (what is at a node or key), `IsChange`, `opOf`, `placeOf`, `Before` in `Verif.ChangeIter`, on `Verif.Edit.get`.
-/
namespace Verif.ChangeIter
open Verif.Edit (Id Path Kind Tree DOp Diff get WFs WFEs Distincts Exact Says opAt)

theorem rowReport_target {S : Schema} {x : Target × DOp} {c : Change} (h : rowReport S x = some c) : c.target = x.1 := by
  simp only [rowReport] at h
  split at h
  · cases h; rfl
  · cases h; rfl
  · split at h
    · cases h; rfl
    · simp at h
  · simp at h

/-- Values differ only in leaves. -/
def LeafOnly (S : Schema) (f g : Path → Option (Nat × Bool)) : Prop :=
  ∀ q v d v' d', f q = some (v, d) → g q = some (v', d') → v' ≠ v → ∃ i, q.getLast? = some i ∧ S.kind i.1 = .leaf

/-- The report about a row is the change there, and exactly changes are reported. -/
theorem row_report {S : Schema} {f g : Path → Option (Nat × Bool)} (hl : LeafOnly S f g) {t : Target} {op : DOp}
    (ok : OkKey S t) (hs : Says (f t.path) (g t.path) (some op)) :
    (rowVerdict S (t, op) = .skip ∧ opOf (see S f t) (see S g t) = none) ∨
    ∃ o c, rowVerdict S (t, op) = .rep o ∧ rowReport S (t, op) = some c ∧ c.target = t ∧ IsChange S f g c ∧
      opOf (see S f t) (see S g t) = some o := by
  cases t with
  | node p =>
    simp only [Target.path] at hs
    have hpl : rowPlace S (.node p) = placeOf S .created (.node p) := by
      simp only [rowPlace, placeOf]; cases p.getLast? <;> simp
    cases op with
    | none =>
      left
      obtain ⟨h1, h2⟩ := hs
      refine ⟨rfl, ?_⟩
      simp only [see, h1]
      cases h : f p with
      | none => simp [opOf]
      | some x => simp [opOf]
    | dflt d od =>
      left
      obtain ⟨_, v, h1, h2⟩ := hs
      exact ⟨rfl, by simp [see, h1, h2, opOf]⟩
    | create v d =>
      right
      obtain ⟨h1, h2⟩ := hs
      refine ⟨.created, ⟨.created, .node p, none, some (v, d), rowPlace S (.node p)⟩, rfl, rfl, rfl, ?_, ?_⟩
      · exact ⟨by simp [see, h1], by simp [see, h2], rfl, hpl⟩
      · simp [see, h1, h2, opOf]
    | replace v d ov od =>
      right
      obtain ⟨hne, h1, h2⟩ := hs
      obtain ⟨i, hi, hk⟩ := hl p _ _ _ _ h1 h2 hne
      have hv : rowVerdict S (.node p, .replace v d ov od) = .rep .modified := by simp [rowVerdict, hi, hk]
      refine ⟨.modified, ⟨.modified, .node p, some (ov, od), some (v, d), none⟩, hv, ?_, rfl, ?_, ?_⟩
      · simp [rowReport, hv]
      · exact ⟨by simp [see, h1], by simp [see, h2], by simp [opOf, Ne.symm hne], rfl⟩
      · simp [see, h1, h2, opOf, Ne.symm hne]
    | delete v d =>
      right
      obtain ⟨h1, h2⟩ := hs
      refine ⟨.deleted, ⟨.deleted, .node p, some (v, d), none, none⟩, rfl, rfl, rfl, ?_, ?_⟩
      · exact ⟨by simp [see, h1], by simp [see, h2], rfl, rfl⟩
      · simp [see, h1, h2, opOf]
  | key p k =>
    obtain ⟨i, hi, hlk, hkk⟩ := ok
    simp only [Target.path] at hs
    have hsee : ∀ f : Path → Option (Nat × Bool), see S f (.key p k) = if f p ≠ none then some (i.2, false) else none := by
      intro f; simp [see, hi, hlk, hkk]
    cases op with
    | none =>
      left
      obtain ⟨h1, h2⟩ := hs
      exact ⟨rfl, by simp [hsee, h1, h2, opOf]⟩
    | dflt d od =>
      left
      obtain ⟨_, v, h1, h2⟩ := hs
      exact ⟨rfl, by simp [hsee, h1, h2, opOf]⟩
    | create v d =>
      right
      obtain ⟨h1, h2⟩ := hs
      refine ⟨.created, ⟨.created, .key p k, none, some (i.2, false), none⟩, rfl, ?_, rfl, ?_, ?_⟩
      · simp [rowReport, rowVerdict, rowVal, hi, rowPlace]
      · exact ⟨by simp [hsee, h1], by simp [hsee, h2], rfl, rfl⟩
      · simp [hsee, h1, h2, opOf]
    | replace v d ov od =>
      obtain ⟨hne, h1, h2⟩ := hs
      obtain ⟨i', hi', hk'⟩ := hl p _ _ _ _ h1 h2 hne
      rw [hi] at hi'; cases hi'
      rw [hlk] at hk'; cases hk'
    | delete v d =>
      right
      obtain ⟨h1, h2⟩ := hs
      refine ⟨.deleted, ⟨.deleted, .key p k, some (i.2, false), none, none⟩, rfl, ?_, rfl, ?_, ?_⟩
      · simp [rowReport, rowVerdict, rowVal, hi]
      · exact ⟨by simp [hsee, h1], by simp [hsee, h2], rfl, rfl⟩
      · simp [hsee, h1, h2, opOf]

theorem info_mem {S : Schema} {ds : List Diff} {s : Spot} (h : s ∈ spotsL [] (toNodes S [] ds)) :
    ∃ x ∈ rowsL S [] ds, info s = rowInfo S x := by
  have h1 : info s ∈ (spotsL [] (toNodes S [] ds)).map info := List.mem_map_of_mem h
  rw [spotsL_info S ds [] [] rfl] at h1
  obtain ⟨x, hx, he⟩ := List.mem_map.mp h1
  exact ⟨x, hx, he.symm⟩

theorem row_mem {S : Schema} {ds : List Diff} {x : Target × DOp} (h : x ∈ rowsL S [] ds) :
    ∃ s ∈ spotsL [] (toNodes S [] ds), info s = rowInfo S x := by
  have h1 : rowInfo S x ∈ (rowsL S [] ds).map (rowInfo S) := List.mem_map_of_mem h
  rw [← spotsL_info S ds [] [] rfl] at h1
  obtain ⟨s, hs, he⟩ := List.mem_map.mp h1
  exact ⟨s, hs, he⟩

/-- Reading a diff that describes the step from `f` to `g`. -/
theorem read_exact (S : Schema) (f g : Path → Option (Nat × Bool)) (ds : List Diff) (sel : Target → Bool)
    (hk : ∀ n, (S.keys n).Nodup) (he : Exact f g ds) (hl : LeafOnly S f g) (hf : f [] = none) (hg : g [] = none) :
    ∃ cs, readChanges (toNodes S [] ds) sel = some cs ∧ (∀ c, c ∈ cs ↔ IsChange S f g c ∧ sel c.target = true) ∧
      cs.Pairwise fun a b => Before a.target b.target := by
  have hrow : ∀ x ∈ rowsL S [] ds, OkKey S x.1 ∧ x.1.path ≠ [] ∧ opAt ds x.1.path = some x.2 := by
    rintro ⟨t, op⟩ hx
    rw [mem_rowsL S ds [] t op he.tidy] at hx
    obtain ⟨h1, q, h2, h3, h4⟩ := hx
    simp only [List.nil_append] at h3
    exact ⟨h1, by rw [h3]; exact h2, by rw [h3]; exact h4⟩
  have hrep : ∀ x ∈ rowsL S [] ds, (rowVerdict S x = .skip ∧ opOf (see S f x.1) (see S g x.1) = none) ∨
      ∃ o c, rowVerdict S x = .rep o ∧ rowReport S x = some c ∧ c.target = x.1 ∧ IsChange S f g c ∧
        opOf (see S f x.1) (see S g x.1) = some o := by
    rintro ⟨t, op⟩ hx
    obtain ⟨h1, h2, h3⟩ := hrow _ hx
    have := he.says _ h2
    rw [h3] at this
    exact row_report hl h1 this
  have hmem : ∀ s, s ∈ (spotsL [] (toNodes S [] ds)).filter (fun s => sel s.target) → s ∈ spotsL [] (toNodes S [] ds) :=
    fun s hs => (List.mem_filter.mp hs).1
  refine ⟨((spotsL [] (toNodes S [] ds)).filter fun s => sel s.target).filterMap report, ?_, ?_, ?_⟩
  · refine iter_spec _ ?_ ?_ _ _ (fun s hs => hs) (Nat.lt_succ_self _)
    · intro s hs
      obtain ⟨x, hx, hi⟩ := info_mem (hmem s hs)
      simp only [info, rowInfo, Prod.mk.injEq] at hi
      refine ⟨?_, ?_⟩
      · rw [hi.2.1]
        rcases hrep x hx with ⟨h, _⟩ | ⟨o, c, h, _⟩ <;> rw [h] <;> simp
      · intro op hv
        have h3 := hi.2.2.1
        simp only [report, hv] at h3
        rw [h3]
        rcases hrep x hx with ⟨h, _⟩ | ⟨o, c, h, h', _⟩
        · rw [hi.2.1, h] at hv; cases hv
        · rw [h']; simp
    · intro a ha b hb hak hbl hp hbv
      obtain ⟨x, hx, hi⟩ := info_mem (hmem a ha)
      obtain ⟨y, hy, hj⟩ := info_mem (hmem b hb)
      simp only [info, rowInfo, Prod.mk.injEq] at hi hj
      have hta : x.1 = .key a.parentPath a.node.id.1 := by rw [← hi.1]; simp [Spot.target, hak]
      have hyl : rowList S y = true := by rw [← hj.2.2.2]; simp [hbl]
      have hnk : b.node.key = false := by
        cases hbk : b.node.key with
        | false => rfl
        | true =>
          have : y.1 = .key b.parentPath b.node.id.1 := by rw [← hj.1]; simp [Spot.target, hbk]
          obtain ⟨t, op⟩ := y
          simp only at this; subst this
          simp [rowList] at hyl
      have htb : y.1 = .node b.path := by rw [← hj.1]; simp [Spot.target, hnk]
      obtain ⟨_, _, o1⟩ := hrow x hx
      obtain ⟨_, _, o2⟩ := hrow y hy
      rw [hta] at o1; rw [htb] at o2
      simp only [Target.path] at o1 o2
      rw [hp, o2, Option.some.injEq] at o1
      rw [hi.2.1]
      rw [hj.2.1] at hbv
      obtain ⟨tx, ox⟩ := x
      obtain ⟨ty, oy⟩ := y
      simp only at hta htb o1
      subst hta htb o1
      cases oy with
      | none => rfl
      | dflt d od => rfl
      | create v d => simp [rowVerdict] at hbv
      | delete v d => simp [rowVerdict] at hbv
      | replace v d ov od =>
        rcases hrep _ hx with ⟨h, _⟩ | ⟨o, c, _, h, hc, hch, _⟩
        · exact h
        · exfalso
          simp only [rowVerdict] at hbv
          split at hbv
          · cases hbv
          · split at hbv <;> cases hbv
  · intro c
    simp only [List.mem_filterMap, List.mem_filter]
    constructor
    · rintro ⟨s, ⟨hs, hsel⟩, hr⟩
      obtain ⟨x, hx, hi⟩ := info_mem hs
      simp only [info, rowInfo, Prod.mk.injEq] at hi
      rw [hi.2.2.1] at hr
      rw [hi.1, ← rowReport_target hr] at hsel
      rcases hrep x hx with ⟨h, _⟩ | ⟨o, c', _, h', _, h'', _⟩
      · simp [rowReport, h] at hr
      · rw [h'] at hr; cases hr; exact ⟨h'', hsel⟩
    · rintro ⟨hc, hsel⟩
      obtain ⟨h1, h2, h3, h4⟩ := hc
      have hne : opOf (see S f c.target) (see S g c.target) ≠ none := by rw [← h1, ← h2, h3]; simp
      have hpath : c.target.path ≠ [] := by
        intro hp
        cases ht : c.target with
        | node p =>
          rw [ht] at hp hne; simp only [Target.path] at hp; subst hp
          simp [see, hf, hg, opOf] at hne
        | key p k =>
          rw [ht] at hp hne; simp only [Target.path] at hp; subst hp
          simp [see, opOf] at hne
      have hok : OkKey S c.target := by
        cases ht : c.target with
        | node p => trivial
        | key p k =>
          rw [ht] at hne
          simp only [see] at hne
          simp only [OkKey]
          cases hi : p.getLast? with
          | none => simp [hi, opOf] at hne
          | some i =>
            simp only [hi] at hne
            by_cases hq : S.kind i.1 = .list ∧ k ∈ S.keys i.1
            · exact ⟨i, rfl, hq⟩
            · exfalso; apply hne
              rw [if_neg (fun h => hq ⟨h.1, h.2.1⟩), if_neg (fun h => hq ⟨h.1, h.2.1⟩)]; rfl
      have hsays := he.says _ hpath
      cases hop : opAt ds c.target.path with
      | none =>
        exfalso
        rw [hop] at hsays
        have hsays' : g c.target.path = f c.target.path := hsays
        have hsame : see S g c.target = see S f c.target := by
          cases ht : c.target with
          | node p => rw [ht] at hsays'; exact hsays'
          | key p k => rw [ht] at hsays'; simp only [Target.path] at hsays'; simp only [see, hsays']
        rw [hsame] at hne
        cases hx : see S f c.target with
        | none => rw [hx] at hne; simp [opOf] at hne
        | some x => rw [hx] at hne; simp [opOf] at hne
      | some op =>
        have hx : (c.target, op) ∈ rowsL S [] ds := by
          rw [mem_rowsL S ds [] _ op he.tidy]
          exact ⟨hok, c.target.path, hpath, by simp, hop⟩
        obtain ⟨s, hs, hi⟩ := row_mem hx
        simp only [info, rowInfo, Prod.mk.injEq] at hi
        refine ⟨s, ⟨hs, by rw [hi.1]; exact hsel⟩, ?_⟩
        rw [hi.2.2.1]
        rcases hrep _ hx with ⟨_, h⟩ | ⟨o, c', _, h', ht, ⟨h1', h2', h3', h4'⟩, ho⟩
        · exact absurd h hne
        · rw [h']
          simp only at ht
          have hop' : c'.op = c.op := by
            have a := h3'; rw [h1', h2', ht] at a
            have b := h3; rw [h1, h2] at b
            rw [a] at b; simpa using b
          obtain ⟨a1, a2, a3, a4, a5⟩ := c
          obtain ⟨b1, b2, b3, b4, b5⟩ := c'
          simp only at ht hop' h1 h2 h4 h1' h2' h4'
          subst ht hop' h1 h2 h4 h1' h2' h4'
          rfl
  · have hb := rowsL_before S hk ds [] he.tidy
    have hb' : ((rowsL S [] ds).map (rowInfo S)).Pairwise fun a b => Before a.1 b.1 := by
      rw [List.pairwise_map]; exact hb
    rw [← spotsL_info S ds [] [] rfl, List.pairwise_map] at hb'
    rw [List.pairwise_filterMap]
    refine List.Pairwise.imp_of_mem ?_ (hb'.filter _)
    intro a b ha hb hab c hc c' hc'
    obtain ⟨x, _, hi⟩ := info_mem (hmem a ha)
    obtain ⟨y, _, hj⟩ := info_mem (hmem b hb)
    simp only [info, rowInfo, Prod.mk.injEq] at hi hj
    rw [hi.2.2.1] at hc
    rw [hj.2.2.1] at hc'
    rw [rowReport_target hc, rowReport_target hc', ← hi.1, ← hj.1]
    exact hab

theorem wf_leaf {K : Nat → Kind} (q : Path) : ∀ {ts : List Tree} {v : Nat} {d : Bool}, WFs K ts → get ts q = some (v, d) →
    ∃ i, q.getLast? = some i ∧ (K i.1 ≠ .leaf → v = 0) := by
  induction q with
  | nil => intro ts v d _ h; simp at h
  | cons i q ih =>
    intro ts v d w h
    cases hf : ts.find? (fun t => t.id = i) with
    | none => rw [Verif.Edit.get_head_none hf] at h; simp at h
    | some t =>
      obtain ⟨tm, ti⟩ := Verif.Edit.find_mem hf
      rw [Verif.Edit.get_head hf] at h
      by_cases hq : q = []
      · subst hq
        simp only [if_true, Option.some.injEq, Prod.mk.injEq] at h
        have := w.mem tm
        obtain ⟨j, v', d', kids⟩ := t
        simp only [Tree.id] at ti; subst ti
        exact ⟨j, rfl, fun hn => by rw [← h.1]; exact this.1 hn⟩
      · simp only [hq, if_false] at h
        obtain ⟨j, hj, hv⟩ := ih (w.mem tm).kids h
        obtain ⟨a, q, rfl⟩ := List.exists_cons_of_ne_nil hq
        exact ⟨j, by simpa [List.getLast?_cons_cons] using hj, hv⟩

/-! ### C64 -/

/-- C64. For an edit applied to any data, a callback that reads the changes of any set of nodes `sel` gets, without an error, exactly the
nodes that were created, deleted or got another value, and the keys of created and deleted instances; each with its operation, the value
and default flag before and after, and the place of a created user-ordered instance. Every change comes once, and no node after
something in it. -/
theorem changes_are_the_difference (S : Schema) (data : List Tree) (edit : List Verif.Edit.Edit) (r : Verif.Edit.Res)
    (sel : Target → Bool) (hd : WFs S.K data) (hed : WFEs S.K edit) (hx : Distincts S.K none edit)
    (hk : ∀ n, (S.keys n).Nodup) (h : Verif.Edit.apply S.K data edit = some r) :
    ∃ cs, readChanges (toNodes S [] r.diff) sel = some cs ∧
      (∀ c, c ∈ cs ↔ IsChange S (get data) (get r.data) c ∧ sel c.target = true) ∧
      cs.Pairwise fun a b => Before a.target b.target := by
  have he := Verif.Edit.exact_kids_all S.K edit none ⟨false, false⟩ false data r hed hx hd (fun h => by simp at h) h
  have hw := Verif.Edit.edit_keeps_shape S.K data edit r hd hed h
  refine read_exact S (get data) (get r.data) r.diff sel hk he ?_ (by simp) (by simp)
  intro q v d v' d' h1 h2 hne
  obtain ⟨i, hi, hv⟩ := wf_leaf q hd h1
  obtain ⟨j, hj, hv'⟩ := wf_leaf q hw h2
  rw [hi] at hj; cases hj
  refine ⟨i, hi, ?_⟩
  by_cases hl : S.K i.1 = .leaf
  · simp [Schema.kind, hl]
  · exact absurd (by rw [hv hl, hv' hl]) hne

/-- C64. No change is reported twice. -/
theorem no_change_twice (S : Schema) (data : List Tree) (edit : List Verif.Edit.Edit) (r : Verif.Edit.Res)
    (sel : Target → Bool) (hd : WFs S.K data) (hed : WFEs S.K edit) (hx : Distincts S.K none edit)
    (hk : ∀ n, (S.keys n).Nodup) (h : Verif.Edit.apply S.K data edit = some r) (cs : List Change)
    (hc : readChanges (toNodes S [] r.diff) sel = some cs) : (cs.map Change.target).Nodup := by
  obtain ⟨cs', h1, _, h3⟩ := changes_are_the_difference S data edit r sel hd hed hx hk h
  rw [h1] at hc; cases hc
  rw [List.nodup_iff_pairwise_ne, List.pairwise_map]
  exact h3.imp fun hb => hb.1

/-- C64, in plain words: a callback that reads all the changes and gets none knows that nothing was created, deleted or given another
value. -/
theorem nothing_read_nothing_changed (S : Schema) (data : List Tree) (edit : List Verif.Edit.Edit) (r : Verif.Edit.Res)
    (hd : WFs S.K data) (hed : WFEs S.K edit) (hx : Distincts S.K none edit)
    (hk : ∀ n, (S.keys n).Nodup) (h : Verif.Edit.apply S.K data edit = some r)
    (hc : readChanges (toNodes S [] r.diff) (fun _ => true) = some []) (q : Path) :
    (get r.data q).map (·.1) = (get data q).map (·.1) := by
  obtain ⟨cs', h1, h2, _⟩ := changes_are_the_difference S data edit r (fun _ => true) hd hed hx hk h
  rw [h1] at hc; cases hc
  cases ho : opOf (get data q) (get r.data q) with
  | some o =>
    have := (h2 ⟨o, .node q, get data q, get r.data q, placeOf S o (.node q)⟩).mpr ⟨⟨rfl, rfl, ho, rfl⟩, rfl⟩
    simp at this
  | none =>
    cases h3 : get data q with
    | none => cases h4 : get r.data q with
      | none => rfl
      | some y => simp [h3, h4, opOf] at ho
    | some x => cases h4 : get r.data q with
      | none => simp [h3, h4, opOf] at ho
      | some y =>
        simp only [h3, h4, opOf] at ho
        split at ho
        · rename_i hv; simp [hv]
        · simp at ho

/-- C64. The diff node of a changed default flag is not reported: such a change cannot be seen with the iterator. -/
theorem default_change_unseen (S : Schema) (data : List Tree) (edit : List Verif.Edit.Edit) (r : Verif.Edit.Res)
    (sel : Target → Bool) (hd : WFs S.K data) (hed : WFEs S.K edit) (hx : Distincts S.K none edit)
    (hk : ∀ n, (S.keys n).Nodup) (h : Verif.Edit.apply S.K data edit = some r) (cs : List Change)
    (hc : readChanges (toNodes S [] r.diff) sel = some cs) (p : Path) (v : Nat) (b b' : Bool)
    (h1 : get data p = some (v, b)) (h2 : get r.data p = some (v, b')) : ∀ c ∈ cs, c.target ≠ .node p := by
  obtain ⟨cs', e1, e2, _⟩ := changes_are_the_difference S data edit r sel hd hed hx hk h
  rw [e1] at hc; cases hc
  intro c hcm ht
  obtain ⟨⟨o1, o2, o3, _⟩, _⟩ := (e2 c).mp hcm
  rw [o1, o2, ht] at o3
  simp [see, h1, h2, opOf] at o3

/-- The schema of the example of `Verif.EditProps` with one key in its list, which is user-ordered. -/
def exS : Schema := ⟨Verif.Edit.exK, fun n => if n = 1 then [9] else [], fun n => n = 1, fun _ => some 2⟩

/-- The example satisfies the conditions, and its changes are: leaf 2 of instance 1 deleted, a leaf-list value created in it, instance 3
created behind 2 with its key and leaf; the leaf that only became explicit is not among them. -/
example : (∀ n, (exS.keys n).Nodup) ∧ (Verif.Edit.apply exS.K Verif.Edit.exData Verif.Edit.exEdit).bind (fun r =>
    readChanges (toNodes exS [] r.diff) (fun _ => true)) = some [
      ⟨.deleted, .node [(0, 0), (1, 1), (2, 0)], some (5, false), none, none⟩,
      ⟨.created, .node [(0, 0), (1, 1), (3, 9)], none, some (0, false), none⟩,
      ⟨.created, .node [(0, 0), (1, 3)], none, some (0, false), some (some 2)⟩,
      ⟨.created, .key [(0, 0), (1, 3)] 9, none, some (3, false), none⟩,
      ⟨.created, .node [(0, 0), (1, 3), (2, 0)], none, some (8, false), none⟩] := by
  refine ⟨fun n => ?_, by decide +kernel⟩
  simp only [exS]; split <;> simp

/-- The data and the edit of the example are well formed. -/
example : WFs exS.K Verif.Edit.exData ∧ WFEs exS.K Verif.Edit.exEdit ∧ Distincts exS.K none Verif.Edit.exEdit :=
  ⟨Verif.Edit.exData_wf, Verif.Edit.exEdit_wf, Verif.Edit.exEdit_distinct⟩

/-! ### C65 -/

/-- C65. As long as the callback runs, a copied iterator returns the same as an ordinary one. Missing from the full property: it can be
used after the callback, which is false. -/
theorem dup_iter_same_partial (diff : List Node) (sel : Target → Bool) :
    (match next false (getIter true diff sel), next false (getIter false diff sel) with
      | .ok c it, .ok c' it' => c = c' ∧ it.set = it'.set
      | .notFound, .notFound => True
      | .err, .err => True
      | _, _ => False) := by
  simp only [next, getIter, Bool.false_and, Bool.false_eq_true, if_false]
  by_cases h : List.filter (fun s => sel s.target) (spotsL [] diff) = []
  · simp [h]
  · simp only [h, if_false]
    cases getNext none (List.filter (fun s => sel s.target) (spotsL [] diff)) with
    | err => simp
    | done => simp
    | change s op rest => cases hv : values s op <;> simp [hv]

/-- C65 is false: whenever a copied iterator has selected anything, using it after the callback reads freed memory. -/
theorem dup_iter_dangling (diff : List Node) (sel : Target → Bool) (s : Spot) (hs : s ∈ spotsL [] diff) (h : sel s.target = true) :
    next true (getIter true diff sel) = .ub := by
  have : List.filter (fun s => sel s.target) (spotsL [] diff) ≠ [] := List.ne_nil_of_mem (List.mem_filter.mpr ⟨hs, h⟩)
  simp [next, getIter, this]

/-- The example has nodes to select. -/
example : (Verif.Edit.apply exS.K Verif.Edit.exData Verif.Edit.exEdit).map (fun r =>
    (spotsL [] (toNodes exS [] r.diff)).length) = some 9 := by decide +kernel

end Verif.ChangeIter
