import Verif.SubFilterLemmas2

/-! Properties of `Verif.SubFilter`. -/
namespace Verif.SubFilter

theorem Fits.sane {tops : List (Text × Text)} {data : List D} {fs : List F} (h : Fits tops data fs) {f : F} (hf : f ∈ fs) :
    Sane data f :=
  ⟨h.known f hf, fun g hg hc => (h.leaves f hf g hg hc).1, h.inherit f hf, h.leaf f hf⟩

theorem Fits.printable {tops : List (Text × Text)} {data : List D} {fs : List F} (h : Fits tops data fs) {f : F} (hf : f ∈ fs) :
    Printable f := fun g hg => ⟨h.names f hf g hg, fun hc => (h.leaves f hf g hg hc).2⟩

theorem topPaths_ok {tops : List (Text × Text)} {data : List D} {fs : List F} (h : Fits tops data fs) {f : F} (hf : f ∈ fs) :
    ∀ x ∈ topPaths tops f, x.1 ≠ [] ∧ ∀ s ∈ x.1, StepOk s := by
  intro x hx
  unfold topPaths at hx
  split at hx
  · obtain ⟨t, ht, hx⟩ := List.mem_flatMap.1 hx
    exact pathsOf_ok none (some t.1) (fun y hy => Option.some.inj hy ▸ h.topNames t (List.mem_filter.1 ht).1) f (h.printable hf) x hx
  · exact pathsOf_ok none none (by intro t ht; cases ht) f (h.printable hf) x hx

theorem pathsOf_nonempty (parent : Option Ns) (topMod : Option Text) : ∀ (k : Nat) (f : F), sizeOf f ≤ k →
    pathsOf parent topMod f ≠ [] := by
  intro k
  induction k generalizing parent topMod with
  | zero => intro f hk; cases f; simp at hk
  | succ k ih =>
    intro f hk
    cases f with
    | node o p ns name v cs =>
      unfold pathsOf
      simp only
      split
      · simp
      split
      · simp
      · rename_i h1 _
        cases cs with
        | nil => simp at h1
        | cons c cs =>
          intro h
          have h := List.map_eq_nil_iff.1 h
          unfold pathsOfs at h
          have h := (List.append_eq_nil_iff.1 h).1
          split at h
          · cases h
          · exact ih _ _ c (by simp at hk; omega) h

theorem topPaths_nonempty {tops : List (Text × Text)} {data : List D} {fs : List F} (h : Fits tops data fs) {f : F} (hf : f ∈ fs) :
    topPaths tops f ≠ [] := by
  unfold topPaths
  split
  · rename_i ho
    simp only [Bool.and_eq_true, Bool.not_eq_true'] at ho
    obtain ⟨t, ht, hn⟩ := (h.bare f hf ho.1 ho.2).1
    intro he
    have := List.flatMap_eq_nil_iff.1 he t (List.mem_filter.2 ⟨ht, by simpa using hn⟩)
    exact pathsOf_nonempty _ _ _ f (Nat.le_refl _) this
  · exact pathsOf_nonempty _ _ _ f (Nat.le_refl _)

/-- What one element of the filter lets through. -/
theorem top_iff {tops : List (Text × Text)} {data : List D} {fs : List F} (h : Fits tops data fs) {f : F} (hf : f ∈ fs) {n : D}
    {r : List D} (hn : n ∈ data) (hr : Spine n.children r) :
    Rel (topPaths tops f) none n r ↔ Matches f n ∧ Out f n r := by
  have hs := h.sane hf
  unfold topPaths
  split
  · rename_i ho
    simp only [Bool.and_eq_true, Bool.not_eq_true'] at ho
    obtain ⟨_, hb⟩ := h.bare f hf ho.1 ho.2
    have hname : ∀ m, NameTest none (printModule none (some m) f) f.name n ↔ n.name = f.name ∧ n.mod = m := by
      intro m; simp [NameTest, printModule]
    have hmat : ∀ t ∈ tops, t.2 = f.name → n.name = f.name ∧ n.mod = t.1 → Matches f n := by
      intro t ht htn hh
      refine ⟨hh.1, ?_⟩
      cases hns : f.ns with
      | none => trivial
      | unknown u => exact absurd hns (hs.known f .self u)
      | mod m => simp only []; rw [hh.2]; exact hb m hns t ht htn
    constructor
    · rintro ⟨p, ⟨b, hp⟩, q, h1, h2, h3⟩
      obtain ⟨t, ht, hp⟩ := List.mem_flatMap.1 hp
      obtain ⟨ht1, ht2⟩ := List.mem_filter.1 ht
      have ht2 : t.2 = f.name := by simpa using ht2
      have := (rel_iff _ f (Nat.le_refl _) hs none (some t.1) none n r (.top hn)
        (fun x => hmat t ht1 ht2 ((hname _).1 x)) hr).1 ⟨p, ⟨b, hp⟩, q, h1, h2, h3⟩
      exact ⟨hmat t ht1 ht2 ((hname _).1 this.1), this.2⟩
    · rintro ⟨h1, h2⟩
      have ht1 := h.schema n hn
      have ht2 : (n.mod, n.name).2 = f.name := h1.1
      obtain ⟨p, ⟨b, hp⟩, q, h3⟩ := (rel_iff _ f (Nat.le_refl _) hs none (some n.mod) none n r (.top hn)
        (fun _ => h1) hr).2 ⟨(hname _).2 ⟨h1.1, rfl⟩, h2⟩
      exact ⟨p, ⟨b, List.mem_flatMap.2 ⟨(n.mod, n.name), List.mem_filter.2 ⟨ht1, by simpa using ht2⟩, hp⟩⟩, q, h3⟩
  · rename_i ho
    obtain ⟨m, hm⟩ := h.prefixed f hf (by
      cases ho1 : f.opaq <;> cases ho2 : f.pfx <;> simp_all)
    have hname : NameTest none (printModule none none f) f.name n ↔ Matches f n := by
      simp [NameTest, printModule, Matches, hm]
    rw [rel_iff _ f (Nat.le_refl _) hs none none none n r (.top hn) hname.1 hr, hname]

/-- **C95, partial.** For every filter and all data without the cases below: the conversion succeeds, the text is an XPath, and it
lets exactly those nodes through that are in the output of the subtree filter by RFC 6241. Excluded by `Fits`: values with both
kinds of quotes, content match nodes at the top, content match nodes of leaf-lists next to other nodes, unknown namespaces, nodes
without a namespace that mean nodes of other modules, and top-level nodes in a default namespace whose name other modules have. -/
theorem filter_exact_partial {tops : List (Text × Text)} {data : List D} {fs : List F} (h : Fits tops data fs) :
    ∃ x paths, subtree2xpath tops fs = .ok (some x) ∧ parse x = some paths ∧
      ∀ s, s ≠ [] → Spine data s → (Passed paths data s ↔ Filtered fs data s) := by
  have h1 := createSubtree_ok tops fs h.top (fun f hf h1 h2 => (h.bare f hf h1 h2).1)
  have hall : ∀ q ∈ (fs.flatMap (topPaths tops)).map (·.1), q ≠ [] ∧ ∀ s ∈ q, StepOk s := by
    intro q hq
    obtain ⟨y, hy, rfl⟩ := List.mem_map.1 hq
    obtain ⟨f, hf, hy⟩ := List.mem_flatMap.1 hy
    exact topPaths_ok h hf y hy
  have hne : (fs.flatMap (topPaths tops)).map (·.1) ≠ [] := by
    intro he
    have he := List.flatMap_eq_nil_iff.1 (List.map_eq_nil_iff.1 he)
    cases hfs : fs with
    | nil => exact h.some hfs
    | cons f l =>
      have hf : f ∈ fs := by rw [hfs]; simp
      exact topPaths_nonempty h hf (he f hf)
  obtain ⟨p, ps, hps⟩ := List.exists_cons_of_ne_nil hne
  rw [hps] at hall
  obtain ⟨x, hx1, hx2⟩ := parse_ok p ps hall
  refine ⟨x, p :: ps, ?_, hx2, ?_⟩
  · unfold subtree2xpath
    rw [h1]
    simp only [R.bind, List.map_map]
    have : (fs.flatMap (topPaths tops)).map ((fun x => x.1) ∘ fun x => (printPath x.1, x.2)) =
        ((fs.flatMap (topPaths tops)).map (·.1)).map printPath := by simp [Function.comp_def]
    rw [this, hps, hx1]
  · intro s hs hsp
    cases s with
    | nil => exact absurd rfl hs
    | cons n r =>
      obtain ⟨hn, hr⟩ := hsp
      have key : Passed (p :: ps) data (n :: r) ↔ ∃ f ∈ fs, Rel (topPaths tops f) none n r := by
        rw [← hps]
        constructor
        · rintro ⟨p, hp, q, hq, ht, hpre⟩
          obtain ⟨y, hy, rfl⟩ := List.mem_map.1 hp
          obtain ⟨f, hf, hy⟩ := List.mem_flatMap.1 hy
          have hyne := (topPaths_ok h hf y hy).1
          cases q with
          | nil =>
            cases hy1 : y.1 with
            | nil => exact absurd hy1 hyne
            | cons _ _ => rw [hy1] at ht; exact absurd ht (by simp [Takes])
          | cons n' q =>
            have : n' = n ∧ (r <+: q ∨ q <+: r) := by
              rcases hpre with h | h
              · obtain ⟨h1, h2⟩ := List.cons_prefix_cons.1 h; exact ⟨h1.symm, Or.inl h2⟩
              · obtain ⟨h1, h2⟩ := List.cons_prefix_cons.1 h; exact ⟨h1, Or.inr h2⟩
            obtain ⟨rfl, h2⟩ := this
            exact ⟨f, hf, y.1, ⟨y.2, hy⟩, q, hq.2, ht, h2⟩
        · rintro ⟨f, hf, p, ⟨b, hp⟩, q, hq, ht, hpre⟩
          refine ⟨p, List.mem_map.2 ⟨(p, b), List.mem_flatMap.2 ⟨f, hf, hp⟩, rfl⟩, n :: q, ⟨hn, hq⟩, ht, ?_⟩
          rcases hpre with h | h
          · exact Or.inl (List.cons_prefix_cons.2 ⟨rfl, h⟩)
          · exact Or.inr (List.cons_prefix_cons.2 ⟨rfl, h⟩)
      have hnc : ∀ f ∈ fs, ∀ v, ¬ Content f v := by
        intro f hf v hv
        have := ((content_iff (fun hc => (h.leaves f hf f .self hc).1) v).1 hv).1
        rw [h.top f hf] at this
        cases this
      rw [key]
      constructor
      · rintro ⟨f, hf, hrel⟩
        obtain ⟨h1, h2⟩ := (top_iff h hf hn hr).1 hrel
        exact ⟨f, hf, fun g hg _ v hv => absurd hv (hnc g hg v), n, r, rfl, Or.inr (Or.inl ⟨hnc f hf, h1, h2⟩)⟩
      · rintro ⟨f, hf, _, n', r', hnr, hor⟩
        obtain ⟨rfl, rfl⟩ := List.cons.inj hnr
        rcases hor with ⟨v, hv, _⟩ | ⟨_, h1, h2⟩ | ⟨h1, _⟩
        · exact absurd hv (hnc f hf v)
        · exact ⟨f, hf, (top_iff h hf hn hr).2 ⟨h1, h2⟩⟩
        · obtain ⟨v, hv⟩ := h1 f hf rfl
          exact absurd hv (hnc f hf v)

/-! ## A case that fits -/

mutual

/-- The nodes of a filter. -/
def nodes : F → List F
  | .node o p ns name v cs => .node o p ns name v cs :: nodesL cs

/-- The nodes of filters. -/
def nodesL : List F → List F
  | [] => []
  | c :: cs => nodes c ++ nodesL cs

end

mutual

/-- The nodes of a data tree. -/
def dnodes : D → List D
  | .node m n v cs => .node m n v cs :: dnodesL cs

/-- The nodes of data. -/
def dnodesL : List D → List D
  | [] => []
  | c :: cs => dnodes c ++ dnodesL cs

end

theorem mem_nodes (f : F) : f ∈ nodes f := by cases f; simp [nodes]

theorem nodes_sub {f c : F} (hc : c ∈ f.children) : ∀ g ∈ nodes c, g ∈ nodes f := by
  have h : ∀ (cs : List F), c ∈ cs → ∀ g ∈ nodes c, g ∈ nodesL cs := by
    intro cs
    induction cs with
    | nil => intro h; cases h
    | cons d cs ih =>
      intro h g hg
      unfold nodesL
      rcases List.mem_cons.1 h with rfl | h
      · exact List.mem_append_left _ hg
      · exact List.mem_append_right _ (ih h g hg)
  intro g hg
  cases f with
  | node o p ns name v cs => exact List.mem_cons_of_mem _ (h cs hc g hg)

theorem nodes_trans : ∀ (k : Nat) (f : F), sizeOf f ≤ k → ∀ g ∈ nodes f, ∀ c ∈ g.children, c ∈ nodes f := by
  intro k
  induction k with
  | zero => intro f hk; cases f; simp at hk
  | succ k ih =>
    intro f hk g hg c hc
    have hmem : ∀ (cs : List F), g ∈ nodesL cs → ∃ d ∈ cs, g ∈ nodes d := by
      intro cs
      induction cs with
      | nil => intro h; simp [nodesL] at h
      | cons d cs ih =>
        intro h
        unfold nodesL at h
        rcases List.mem_append.1 h with h | h
        · exact ⟨d, by simp, h⟩
        · obtain ⟨e, he, h⟩ := ih h; exact ⟨e, by simp [he], h⟩
    cases f with
    | node o p ns name v cs =>
      rcases List.mem_cons.1 (show g ∈ .node o p ns name v cs :: nodesL cs from hg) with rfl | hg
      · exact nodes_sub hc c (mem_nodes c)
      · obtain ⟨d, hd, hgd⟩ := hmem cs hg
        have hlt := List.sizeOf_lt_of_mem hd
        have := ih d (by simp at hk; omega) g hgd c hc
        exact nodes_sub (f := .node o p ns name v cs) hd c this

theorem sub_nodes {f g : F} (h : Sub f g) : g ∈ nodes f := by
  induction h with
  | self => exact mem_nodes _
  | child _ hc ih => exact nodes_trans _ _ (Nat.le_refl _) _ ih _ hc

theorem mem_dnodes (n : D) : n ∈ dnodes n := by cases n; simp [dnodes]

theorem dnodesL_mem {l : List D} {n : D} : n ∈ dnodesL l ↔ ∃ d ∈ l, n ∈ dnodes d := by
  induction l with
  | nil => simp [dnodesL]
  | cons d l ih =>
    unfold dnodesL
    rw [List.mem_append, ih]
    simp

theorem dnodes_trans : ∀ (k : Nat) (d : D), sizeOf d ≤ k → ∀ n ∈ dnodes d, ∀ c ∈ n.children, c ∈ dnodes d := by
  intro k
  induction k with
  | zero => intro f hk; cases f; simp at hk
  | succ k ih =>
    intro f hk g hg c hc
    cases f with
    | node m n v cs =>
      rcases List.mem_cons.1 (show g ∈ .node m n v cs :: dnodesL cs from hg) with rfl | hg
      · exact List.mem_cons_of_mem _ (dnodesL_mem.2 ⟨c, hc, mem_dnodes c⟩)
      · obtain ⟨d, hd, hgd⟩ := dnodesL_mem.1 hg
        have hlt := List.sizeOf_lt_of_mem hd
        exact List.mem_cons_of_mem _ (dnodesL_mem.2 ⟨d, hd, ih d (by simp at hk; omega) g hgd c hc⟩)

theorem in_dnodes {l : List D} {n : D} (h : In l n) : n ∈ dnodesL l := by
  induction h with
  | top h => exact dnodesL_mem.2 ⟨_, h, mem_dnodes _⟩
  | child _ hc ih =>
    obtain ⟨d, hd, h⟩ := dnodesL_mem.1 ih
    exact dnodesL_mem.2 ⟨d, hd, dnodes_trans _ _ (Nat.le_refl _) _ h _ hc⟩

/-- `NameOk`, decided. -/
def nameOkB (s : Text) : Bool := !s.isEmpty && s.all isNameChar

theorem nameOkB_iff {s : Text} : nameOkB s = true ↔ NameOk s := by
  simp [nameOkB, NameOk]

/-- `Matches`, decided. -/
def matchesB (f : F) (n : D) : Bool :=
  decide (n.name = f.name) && (match f.ns with | .mod m => decide (n.mod = m) | .unknown _ => false | .none => true)

theorem matchesB_iff {f : F} {n : D} : matchesB f n = true ↔ Matches f n := by
  unfold matchesB Matches
  cases f.ns <;> simp

/-- `Fits`, decided. -/
def fitsB (tops : List (Text × Text)) (data : List D) (fs : List F) : Bool :=
  !fs.isEmpty && tops.all (fun t => nameOkB t.1) && data.all (fun n => tops.contains (n.mod, n.name)) &&
  fs.all fun f =>
    !isContent f &&
    (if f.opaq && !f.pfx then tops.any (fun t => decide (t.2 = f.name)) &&
        (match f.ns with | .mod m => tops.all (fun t => t.2 != f.name || t.1 == m) | _ => true)
      else (match f.ns with | .mod _ => true | _ => false)) &&
    (nodes f).all fun g =>
      nameOkB g.name && (match g.ns with | .mod m => nameOkB m | .unknown _ => false | .none => true) &&
      (!isContent g || (g.children.isEmpty && !((valueOf g).contains '\'' && (valueOf g).contains '"'))) &&
      g.children.all fun c =>
        (c.ns != .none || (dnodesL data).all fun n => n.children.all fun k => k.name != c.name || k.mod == n.mod) &&
        (!isContent c || g.children.all isContent || (dnodesL data).all fun n => n.children.all fun k => n.children.all fun k' =>
          !matchesB c k || !matchesB c k' || k.value == k'.value)

theorem fits_of_fitsB {tops : List (Text × Text)} {data : List D} {fs : List F} (h : fitsB tops data fs = true) :
    Fits tops data fs := by
  unfold fitsB at h
  rw [Bool.and_eq_true, Bool.and_eq_true, Bool.and_eq_true] at h
  obtain ⟨⟨⟨h1, h2⟩, h3⟩, h4⟩ := h
  have hf : ∀ f ∈ fs, _ := List.all_eq_true.1 h4
  have hg : ∀ f ∈ fs, ∀ g, Sub f g → _ := fun f hm g hs =>
    List.all_eq_true.1 ((Bool.and_eq_true _ _).mp (hf f hm)).2 g (sub_nodes hs)
  simp only [Bool.and_eq_true] at hg
  refine ⟨?_, ?_, ?_, ?_, ?_, ?_, ?_, ?_, ?_, ?_, ?_⟩
  · intro he; rw [he] at h1; simp at h1
  · intro f hm g hs
    obtain ⟨⟨⟨a, b⟩, _⟩, _⟩ := hg f hm g hs
    refine ⟨nameOkB_iff.1 a, ?_⟩
    intro m hns
    rw [hns] at b
    exact nameOkB_iff.1 b
  · intro t ht; exact nameOkB_iff.1 (List.all_eq_true.1 h2 t ht)
  · intro f hm g hs u hns
    obtain ⟨⟨⟨_, b⟩, _⟩, _⟩ := hg f hm g hs
    rw [hns] at b
    cases b
  · intro f hm g hs hc
    obtain ⟨⟨_, b⟩, _⟩ := hg f hm g hs
    rw [hc] at b
    simp at b
    exact ⟨b.1, fun ⟨x, y⟩ => b.2.elim (fun h => h x) (fun h => h y)⟩
  · intro f hm
    have := hf f hm
    simp only [Bool.and_eq_true] at this
    simpa using this.1.1
  · intro f hm hor
    have := hf f hm
    simp only [Bool.and_eq_true] at this
    have h5 := this.1.2
    have : ¬ ((f.opaq = true) ∧ (!f.pfx) = true) := by
      rcases hor with h | h <;> simp [h]
    rw [if_neg this] at h5
    cases hns : f.ns with
    | mod m => exact ⟨m, rfl⟩
    | unknown u => rw [hns] at h5; cases h5
    | none => rw [hns] at h5; cases h5
  · intro f hm ho hp
    have := hf f hm
    simp only [Bool.and_eq_true] at this
    have h5 := this.1.2
    rw [if_pos ⟨ho, by rw [hp]; rfl⟩] at h5
    rw [Bool.and_eq_true] at h5
    refine ⟨?_, ?_⟩
    · obtain ⟨t, ht, hn⟩ := List.any_eq_true.1 h5.1
      exact ⟨t, ht, by simpa using hn⟩
    · intro m hns t ht hn
      have h6 := h5.2
      rw [hns] at h6
      have := List.all_eq_true.1 h6 t ht
      simpa [hn] using this
  · intro n hn
    exact List.contains_iff_mem.1 (List.all_eq_true.1 h3 n hn)
  · intro f hm g hs c hc hns n hn k hk hkn
    obtain ⟨_, b⟩ := hg f hm g hs
    have b := List.all_eq_true.1 b c hc
    rw [Bool.and_eq_true] at b
    have b := b.1
    simp only [hns, bne_self_eq_false, Bool.false_or] at b
    have := List.all_eq_true.1 (List.all_eq_true.1 b n (in_dnodes hn)) k hk
    simpa [hkn] using this
  · intro f hm g hs c hc hcont hall n hn k hk k' hk' hmk hmk'
    obtain ⟨_, b⟩ := hg f hm g hs
    have b := List.all_eq_true.1 b c hc
    rw [Bool.and_eq_true] at b
    have b := b.2
    simp only [hcont, hall, Bool.not_true, Bool.false_or] at b
    have := List.all_eq_true.1 (List.all_eq_true.1 (List.all_eq_true.1 b n (in_dnodes hn)) k hk) k' hk'
    rw [matchesB_iff.2 hmk, matchesB_iff.2 hmk'] at this
    simpa using this

/-- Modules and names used below. -/
def mM : Text := ['m']
def mN : Text := ['n']
def nC : Text := ['c']
def nL : Text := ['l']
def nK : Text := ['k']
def nX : Text := ['x']
def nB : Text := ['b']

/-- A filter node with an existing namespace. -/
def fn (name : Text) (v : Option Text) (cs : List F) : F := .node false false (.mod mM) name v cs

/-- Data: `m:c` with two instances of the list `l` (keys 1 and 2, leaf `x`), a node `b` of another module in one of them. -/
def dat : List D :=
  [.node mM nC none
    [.node mM nL none [.node mM nK (some ['1']) [], .node mM nX (some ['u']) [], .node mN nB (some ['v']) []],
     .node mM nL none [.node mM nK (some ['2']) [], .node mM nX (some ['w']) []]]]

/-- Filter: of `c` the instance `l` with key 1, of that the key, `x` and `b` of the other module. -/
def flt : List F :=
  [fn nC none [fn nL none [fn nK (some ['1']) [], fn nX (some []) [], .node true true (.mod mN) nB (some [' ']) []]]]

/-- The hypotheses are met; the XPath of the example, and what it lets through. -/
example : Fits [(mM, nC)] dat flt := fits_of_fitsB (by decide +kernel)

example : subtree2xpath [(mM, nC)] flt =
    .ok (some "(/m:c/l[k='1']/k | /m:c/l[k='1']/x | /m:c/l[k='1']/n:b)".toList) := by decide +kernel

/-- All nodes without a namespace: every module with this node at the top. -/
example : Fits [(mM, nC), (mN, nL), (mN, nC)] dat [.node true false .none nC (some []) [.node true false .none nL (some ['\n']) []]] ∧
    subtree2xpath [(mM, nC), (mN, nL), (mN, nC)] [.node true false .none nC (some []) [.node true false .none nL (some ['\n']) []]] =
      .ok (some "(/m:c/l | /n:c/l)".toList) := by
  exact ⟨fits_of_fitsB (by decide +kernel), by decide +kernel⟩

/-! ## The cases that go wrong -/

/-- The filter lets a node through that is not in the output. -/
def TooMuch (tops : List (Text × Text)) (data : List D) (fs : List F) : Prop :=
  ∃ x paths s, subtree2xpath tops fs = .ok (some x) ∧ parse x = some paths ∧ Spine data s ∧ Passed paths data s ∧
    ¬ Filtered fs data s

/-- The filter does not let a node through that is in the output. -/
def TooLittle (tops : List (Text × Text)) (data : List D) (fs : List F) : Prop :=
  ∃ x paths s, subtree2xpath tops fs = .ok (some x) ∧ parse x = some paths ∧ Spine data s ∧ Filtered fs data s ∧
    ¬ Passed paths data s

/-- One instance of a list. -/
def dOne : List D := [.node mM nL none [.node mM nK (some ['1']) []]]

/-- **Violation.** A value with both kinds of quotes is not taken as a value: with the key `a'" or "1"="1` the filter is
`/m:l[k="a'" or "1"="1"]` and lets all instances through. -/
theorem value_injected : TooMuch [(mM, nL)] dOne [fn nL none [fn nK (some "a'\" or \"1\"=\"1".toList) []]] := by
  refine ⟨"(/m:l[k=\"a'\" or \"1\"=\"1\"])".toList,
    [[⟨some mM, nL, [[.field none nK "a'".toList, .const ['1'] ['1']]]⟩]], dOne, by decide +kernel, by decide +kernel, ?_, ?_, ?_⟩
  · exact ⟨List.mem_cons_self, trivial⟩
  · refine ⟨_, List.mem_cons_self, dOne, ⟨List.mem_cons_self, trivial⟩, ⟨⟨⟨rfl, rfl⟩, ?_⟩, trivial⟩, Or.inl (List.prefix_refl _)⟩
    intro p hp
    rw [List.mem_singleton.1 hp]
    exact ⟨.const ['1'] ['1'], by simp, rfl⟩
  · rintro ⟨f, hf, _, n, r, hs, hor⟩
    rw [List.mem_singleton.1 hf] at hor
    obtain ⟨rfl, rfl⟩ := List.cons.inj hs
    rcases hor with ⟨v, hv, _⟩ | ⟨_, _, ho⟩ | ⟨h, _⟩
    · exact absurd hv.1 (by simp [fn, F.children])
    · obtain ⟨k, hk, _, hv⟩ := ho.tests (by simp [fn, F.children]) _ (List.mem_singleton.2 rfl) _
        ⟨rfl, rfl, 'a', by decide, by decide⟩
      rw [List.mem_singleton.1 hk] at hv
      exact absurd hv (by decide)
    · obtain ⟨v, hv⟩ := h _ (List.mem_singleton.2 rfl) rfl
      exact absurd hv.1 (by simp [fn, F.children])

/-- **Violation.** Other values with both kinds of quotes make a text that is no XPath. -/
theorem value_malformed : ∃ x, subtree2xpath [(mM, nL)] [fn nL none [fn nK (some "a'\"b".toList) []]] = .ok (some x) ∧
    parse x = none := ⟨"(/m:l[k=\"a'\"b\"])".toList, by decide +kernel, by decide +kernel⟩

/-- A container with two instances of a leaf-list and a leaf. -/
def dList1 : D := .node mM nC none [.node mM nL (some ['1']) [], .node mM nL (some ['2']) [], .node mM nX (some ['3']) []]
def dList : List D := [dList1]

/-- **Violation.** A content match of a leaf-list next to a selection lets all instances of the leaf-list through. -/
theorem leaf_list_all : TooMuch [(mM, nC)] dList [fn nC none [fn nL (some ['1']) [], fn nX (some []) []]] := by
  refine ⟨"(/m:c[l='1']/l | /m:c[l='1']/x)".toList,
    [[⟨some mM, nC, [[.field none nL ['1']]]⟩, ⟨none, nL, []⟩], [⟨some mM, nC, [[.field none nL ['1']]]⟩, ⟨none, nX, []⟩]],
    [dList1, .node mM nL (some ['2']) []], by decide +kernel, by decide +kernel, ?_, ?_, ?_⟩
  · exact ⟨List.mem_cons_self, List.mem_cons_of_mem _ List.mem_cons_self, trivial⟩
  · refine ⟨_, List.mem_cons_self, [dList1, .node mM nL (some ['2']) []],
      ⟨List.mem_cons_self, List.mem_cons_of_mem _ List.mem_cons_self, trivial⟩,
      ⟨⟨⟨rfl, rfl⟩, ?_⟩, ⟨⟨rfl, rfl⟩, by simp⟩, trivial⟩, Or.inl (List.prefix_refl _)⟩
    intro p hp
    rw [List.mem_singleton.1 hp]
    exact ⟨_, List.mem_singleton.2 rfl, .node mM nL (some ['1']) [], List.mem_cons_self, ⟨rfl, rfl⟩, rfl⟩
  · rintro ⟨f, hf, _, n, r, hs, hor⟩
    rw [List.mem_singleton.1 hf] at hor
    obtain ⟨rfl, rfl⟩ := List.cons.inj hs
    rcases hor with ⟨v, hv, _⟩ | ⟨_, _, ho⟩ | ⟨h, _⟩
    · exact absurd hv.1 (by simp [fn, F.children])
    · cases ho with
      | selection h => exact absurd h (by simp [fn, F.children])
      | only_content _ h _ =>
        obtain ⟨v, _, hv, c, hc, _⟩ := h (fn nX (some []) []) (by simp [fn, F.children])
        cases hv
        cases hc
      | content c v k r hc hcv _ _ hb hm hv =>
        rcases hb with hb | ⟨hb, _⟩
        · obtain ⟨rfl, rfl⟩ := List.cons.inj hb
          rcases List.mem_cons.1 hc with rfl | hc
          · rw [← (show some ['1'] = some v from hcv.2.1)] at hv
            exact absurd hv (by decide)
          · rw [List.mem_singleton.1 hc] at hm
            exact absurd hm.1 (by decide)
        · cases hb
      | other c k r hc hnc _ hb hm _ =>
        rcases hb with hb | ⟨hb, _⟩
        · obtain ⟨rfl, rfl⟩ := List.cons.inj hb
          rcases List.mem_cons.1 hc with rfl | hc
          · exact hnc ['1'] ⟨rfl, rfl, '1', by decide, by decide⟩
          · rw [List.mem_singleton.1 hc] at hm
            exact absurd hm.1 (by decide)
        · cases hb
    · obtain ⟨v, hv⟩ := h _ (List.mem_singleton.2 rfl) rfl
      exact absurd hv.1 (by simp [fn, F.children])

/-- Two leaves at the top. -/
def dTop : List D := [.node mM nK (some ['2']) [], .node mM nX (some ['3']) []]

/-- **Violation.** A content match at the top that is not met does not keep its siblings out. -/
theorem top_content_ignored : TooMuch [(mM, nK), (mM, nX)] dTop [fn nK (some ['1']) [], fn nX (some []) []] := by
  refine ⟨"(/m:k[text()='1'] | /m:x)".toList, [[⟨some mM, nK, [[.text ['1']]]⟩], [⟨some mM, nX, []⟩]],
    [.node mM nX (some ['3']) []], by decide +kernel, by decide +kernel, ?_, ?_, ?_⟩
  · exact ⟨List.mem_cons_of_mem _ List.mem_cons_self, trivial⟩
  · exact ⟨_, List.mem_cons_of_mem _ List.mem_cons_self, [.node mM nX (some ['3']) []],
      ⟨List.mem_cons_of_mem _ List.mem_cons_self, trivial⟩, ⟨⟨⟨rfl, rfl⟩, by simp⟩, trivial⟩, Or.inl (List.prefix_refl _)⟩
  · rintro ⟨f, hf, ht, n, r, hs, _⟩
    have hns : f.ns = .mod mM := by
      rcases List.mem_cons.1 hf with rfl | hf
      · rfl
      · rw [List.mem_singleton.1 hf]; rfl
    obtain ⟨n, hn, hm, hv⟩ := ht (fn nK (some ['1']) []) List.mem_cons_self (by rw [hns]; rfl) ['1']
      ⟨rfl, rfl, '1', by decide, by decide⟩
    rcases List.mem_cons.1 hn with rfl | hn
    · exact absurd hv (by decide)
    · rw [List.mem_singleton.1 hn] at hv
      exact absurd hv (by decide)

/-- A container with a leaf. -/
def dFor1 : D := .node mM nC none [.node mM nX (some ['3']) []]
def dFor : List D := [dFor1]

/-- **Violation.** A filter node in a namespace of no module selects the node of this name in the module of the parent. -/
theorem foreign_namespace : TooMuch [(mM, nC)] dFor [fn nC none [.node true true (.unknown ['u']) nX (some []) []]] := by
  refine ⟨"(/m:c/x)".toList, [[⟨some mM, nC, []⟩, ⟨none, nX, []⟩]], [dFor1, .node mM nX (some ['3']) []],
    by decide +kernel, by decide +kernel, ?_, ?_, ?_⟩
  · exact ⟨List.mem_cons_self, List.mem_cons_self, trivial⟩
  · exact ⟨_, List.mem_cons_self, [dFor1, .node mM nX (some ['3']) []], ⟨List.mem_cons_self, List.mem_cons_self, trivial⟩,
      ⟨⟨⟨rfl, rfl⟩, by simp⟩, ⟨⟨rfl, rfl⟩, by simp⟩, trivial⟩, Or.inl (List.prefix_refl _)⟩
  · rintro ⟨f, hf, _, n, r, hs, hor⟩
    rw [List.mem_singleton.1 hf] at hor
    obtain ⟨rfl, rfl⟩ := List.cons.inj hs
    rcases hor with ⟨v, hv, _⟩ | ⟨_, _, ho⟩ | ⟨h, _⟩
    · exact absurd hv.1 (by simp [fn, F.children])
    · cases ho with
      | selection h => exact absurd h (by simp [fn, F.children])
      | only_content _ h _ =>
        obtain ⟨v, _, hv, c, hc, _⟩ := h _ List.mem_cons_self
        cases hv
        cases hc
      | content c v k r hc hcv _ _ hb hm hv => rw [List.mem_singleton.1 hc] at hm; exact hm.2
      | other c k r hc hnc _ hb hm _ => rw [List.mem_singleton.1 hc] at hm; exact hm.2
    · obtain ⟨v, hv⟩ := h _ (List.mem_singleton.2 rfl) rfl
      exact absurd hv.1 (by simp [fn, F.children])

/-- A container with a leaf another module added. -/
def dAug1 : D := .node mM nC none [.node mN nX (some ['3']) []]
def dAug : List D := [dAug1]

/-- **Violation.** A filter node without a namespace below the top does not select nodes of other modules. -/
theorem augment_missed : TooLittle [(mM, nC)] dAug
    [.node true false .none nC (some []) [.node true false .none nX (some []) []]] := by
  refine ⟨"(/m:c/x)".toList, [[⟨some mM, nC, []⟩, ⟨none, nX, []⟩]], [dAug1, .node mN nX (some ['3']) []],
    by decide +kernel, by decide +kernel, ⟨List.mem_cons_self, List.mem_cons_self, trivial⟩, ?_, ?_⟩
  · have hnc : ∀ v, ¬ Content (.node true false .none nX (some []) []) v := by
      rintro v ⟨_, hv, c, hc, _⟩
      cases hv
      cases hc
    refine ⟨_, List.mem_cons_self, ?_, _, _, rfl, Or.inr (Or.inl ⟨?_, ⟨rfl, trivial⟩, ?_⟩)⟩
    · intro g hg _ v hv
      rw [List.mem_singleton.1 hg] at hv
      exact absurd hv.1 (by simp [F.children])
    · intro v hv
      exact absurd hv.1 (by simp [F.children])
    · refine .other _ _ _ List.mem_cons_self hnc ?_ (Or.inl rfl) ⟨rfl, trivial⟩ (.selection rfl)
      intro c hc v hv
      rw [List.mem_singleton.1 hc] at hv
      exact absurd hv (hnc v)
  · rintro ⟨p, hp, q, hq, ht, _⟩
    rw [List.mem_singleton.1 hp] at ht
    match q, hq, ht with
    | n :: k :: q, hq, ht =>
      obtain ⟨h1, h2, _⟩ := hq
      obtain ⟨_, ⟨⟨_, h3⟩, _⟩, _⟩ := ht
      rw [List.mem_singleton.1 h1] at h2 h3
      rw [List.mem_singleton.1 h2] at h3
      exact absurd h3 (by decide)

/-- A list at the top of two modules. -/
def dTwo : List D := [.node mM nL none [], .node mN nL none []]

/-- **Violation.** For an opaque node at the top in a default namespace (without a prefix; a list instance without its keys is
opaque) the namespace is ignored: nodes of this name in other modules are let through. -/
theorem default_namespace_ignored : TooMuch [(mM, nL), (mN, nL)] dTwo [.node true false (.mod mM) nL (some []) []] := by
  refine ⟨"(/m:l | /n:l)".toList, [[⟨some mM, nL, []⟩], [⟨some mN, nL, []⟩]], [.node mN nL none []], by decide +kernel,
    by decide +kernel, ⟨List.mem_cons_of_mem _ List.mem_cons_self, trivial⟩, ?_, ?_⟩
  · exact ⟨_, List.mem_cons_of_mem _ List.mem_cons_self, [.node mN nL none []],
      ⟨List.mem_cons_of_mem _ List.mem_cons_self, trivial⟩, ⟨⟨⟨rfl, rfl⟩, by simp⟩, trivial⟩, Or.inl (List.prefix_refl _)⟩
  · rintro ⟨f, hf, _, n, r, hs, hor⟩
    rw [List.mem_singleton.1 hf] at hor
    obtain ⟨rfl, rfl⟩ := List.cons.inj hs
    rcases hor with ⟨v, ⟨_, hv, c, hc, _⟩, _⟩ | ⟨_, hm, _⟩ | ⟨_, hm⟩
    · cases hv; cases hc
    · exact absurd (show mN = mM from hm.2) (by decide)
    · exact absurd (show mN = mM from hm mM rfl) (by decide)

/-! ## C96: the conversion is safe -/

theorem R.bind_ub {α β : Type} {r : R α} {f : α → R β} (h : r.bind f = .ub) : r = .ub ∨ ∃ a, r = .ok a ∧ f a = .ub := by
  cases r with
  | ok a => exact Or.inr ⟨a, rfl, h⟩
  | err => cases h
  | ub => exact Or.inl rfl

/-- **Violation.** A content match at the top with a value that is not allowed for the leaf (an opaque node) and a prefix: NULL is
dereferenced. -/
theorem top_value_crash (m name : Text) (v : Text) (fs : List F) (tops : List (Text × Text)) (hv : isWs v = false) :
    subtree2xpath tops (.node true true (.mod m) name (some v) [] :: fs) = .ub := by
  simp [subtree2xpath, createSubtree, createTop, isContent, F.opaq, F.pfx, F.value, hv, addTopContent, R.bind]

example : isWs ['1'] = false := by decide

theorem createTop_safe (topMod : Option Text) (f : F) (h : isContent f = true → topMod.isSome ∨ (f.opaq = false ∧ ∃ m, f.ns = .mod m)) :
    ∃ l, createTop topMod f = .ok l := by
  cases hc : isContent f with
  | false => exact ⟨_, createTop_ok topMod f hc⟩
  | true =>
    have key : ∀ m, ∃ l, topContent m f = .ok l := by
      intro m
      unfold topContent
      simp only
      split
      · exact ⟨_, rfl⟩
      · rename_i hl
        exact absurd (by simp only [List.length_cons, List.length_append, List.length_nil]; omega) hl
    unfold createTop
    simp only [hc, if_true]
    rcases h hc with h | ⟨ho, m, hm⟩
    · obtain ⟨t, rfl⟩ := Option.isSome_iff_exists.1 h
      exact key t
    · cases topMod with
      | some t => exact key t
      | none =>
        obtain ⟨l, hl⟩ := key m
        refine ⟨l, ?_⟩
        rw [← hl]
        simp only [addTopContent, ho, hm, Bool.false_eq_true, if_false]

/-- **C96, partial.** For every filter whatsoever, with any names, values, nesting and namespaces, without an opaque content match
node with a prefix at the top: no write is behind the end of a buffer, NULL is not dereferenced; the only error is a node without a
prefix that no module has at the top. -/
theorem conversion_safe_partial (tops : List (Text × Text)) (fs : List F)
    (h : ∀ f ∈ fs, f.opaq = false → ∃ m, f.ns = .mod m)
    (hc : ∀ f ∈ fs, f.opaq = true → f.pfx = true → isContent f = false) :
    (∃ x, subtree2xpath tops fs = .ok x) ∨
    (subtree2xpath tops fs = .err ∧ ∃ f ∈ fs, f.opaq = true ∧ f.pfx = false ∧ ∀ t ∈ tops, t.2 ≠ f.name) := by
  have key : (∃ l, createSubtree tops fs = .ok l) ∨
      (createSubtree tops fs = .err ∧ ∃ f ∈ fs, f.opaq = true ∧ f.pfx = false ∧ ∀ t ∈ tops, t.2 ≠ f.name) := by
    induction fs with
    | nil => exact Or.inl ⟨_, rfl⟩
    | cons f fs ih =>
      have ih := ih (fun g hg => h g (by simp [hg])) (fun g hg => hc g (by simp [hg]))
      have hf : (∃ l, (if f.opaq && !f.pfx then (if tops.any (fun x => x.2 = f.name) then createEach f tops else .err)
          else createTop none f) = .ok l) ∨
          ((if f.opaq && !f.pfx then (if tops.any (fun x => x.2 = f.name) then createEach f tops else .err)
          else createTop none f) = .err ∧ f.opaq = true ∧ f.pfx = false ∧ ∀ t ∈ tops, t.2 ≠ f.name) := by
        by_cases ho : (f.opaq && !f.pfx) = true
        · simp only [ho, if_true]
          by_cases ha : tops.any (fun x => x.2 = f.name) = true
          · simp only [ha, if_true]
            left
            have : ∀ (l : List (Text × Text)), ∃ r, createEach f l = .ok r := by
              intro l
              induction l with
              | nil => exact ⟨_, rfl⟩
              | cons t l ih =>
                obtain ⟨m, n⟩ := t
                obtain ⟨r, hr⟩ := ih
                obtain ⟨r', hr'⟩ := createTop_safe (some m) f (fun _ => Or.inl rfl)
                unfold createEach
                split
                · exact ⟨r' ++ r, by rw [hr', hr]; rfl⟩
                · exact ⟨r, hr⟩
            exact this tops
          · right
            simp only [Bool.and_eq_true, Bool.not_eq_true'] at ho
            refine ⟨by simp [ha], ho.1, ho.2, ?_⟩
            intro t ht hn
            exact ha (List.any_eq_true.2 ⟨t, ht, by simpa using hn⟩)
        · simp only [ho, Bool.false_eq_true, if_false]
          left
          apply createTop_safe
          intro hcont
          right
          cases ho1 : f.opaq with
          | false => exact ⟨rfl, h f (by simp) ho1⟩
          | true =>
            have hp : f.pfx = true := by
              cases hp : f.pfx with
              | true => rfl
              | false => simp [ho1, hp] at ho
            rw [hc f (by simp) ho1 hp] at hcont
            cases hcont
      unfold createSubtree
      rcases hf with ⟨l, hl⟩ | ⟨he, h1⟩
      · rw [hl]
        rcases ih with ⟨l', hl'⟩ | ⟨he, g, hg, h1⟩
        · exact Or.inl ⟨l ++ l', by rw [hl']; rfl⟩
        · exact Or.inr ⟨by rw [he]; rfl, g, by simp [hg], h1⟩
      · exact Or.inr ⟨by rw [he]; rfl, f, by simp, h1⟩
  rcases key with ⟨l, hl⟩ | ⟨he, h1⟩
  · exact Or.inl ⟨_, by rw [subtree2xpath, hl]; rfl⟩
  · exact Or.inr ⟨by rw [subtree2xpath, he]; rfl, h1⟩

example : (∀ f ∈ flt, f.opaq = false → ∃ m, f.ns = .mod m) ∧ ∀ f ∈ flt, f.opaq = true → f.pfx = true → isContent f = false := by
  refine ⟨fun f hf _ => ?_, fun f hf _ _ => ?_⟩
  · rw [List.mem_singleton.1 hf]; exact ⟨_, rfl⟩
  · rw [List.mem_singleton.1 hf]; rfl

end Verif.SubFilter
