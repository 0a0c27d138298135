import Verif.SubFilterLemmas

/-! Lemmas of `Verif.SubFilter`: what the paths select. -/
namespace Verif.SubFilter

theorem usize_le (ps : List (List Step)) (h : ∀ p ∈ ps, p ≠ [] ∧ ∀ s ∈ p, StepOk s) : usize ps ≤ 3 * (toksUnion ps).length := by
  induction ps with
  | nil => simp [usize]
  | cons p ps ih =>
    have ih := ih (fun q hq => h q (by simp [hq]))
    have h1 := psize_le p (h p (by simp)).2
    cases ps with
    | nil =>
      simp only [usize, toksUnion, List.map_cons, List.map_nil, List.sum_cons, List.sum_nil, List.length_append, List.length_cons,
        List.length_nil]
      omega
    | cons p2 ps =>
      simp only [usize, toksUnion, List.map_cons, List.sum_cons, List.length_append, List.length_cons] at ih ⊢
      omega

theorem lex_union (ps : List (List Step)) (p : List Step) (hp : ∀ s ∈ p, StepOk s)
    (h : ∀ p ∈ ps, p ≠ [] ∧ ∀ s ∈ p, StepOk s) :
    lex .plain (printPath p ++ ((ps.map printPath).flatMap (fun y => " | ".toList ++ y) ++ [')'])) =
      some (toksUnion (p :: ps)) := by
  induction ps generalizing p with
  | nil =>
    rw [lex_printPath _ _ hp (by exact ends_cons (by decide))]
    simp only [List.map_nil, List.flatMap_nil, List.nil_append]
    rw [lex_tok ')' .rpar _ (by decide) (by decide) (by decide) (by decide) (by decide)]
    simp [lex, Mode.flush, toksUnion]
  | cons q ps ih =>
    rw [lex_printPath _ _ hp (by exact ends_cons (by decide))]
    simp only [List.map_cons, List.flatMap_cons, List.append_assoc]
    rw [show " | ".toList ++ (printPath q ++ ((ps.map printPath).flatMap (fun y => " | ".toList ++ y) ++ [')'])) =
      ' ' :: '|' :: ' ' :: (printPath q ++ ((ps.map printPath).flatMap (fun y => " | ".toList ++ y) ++ [')'])) from rfl]
    rw [lex_space, lex_tok '|' .bar _ (by decide) (by decide) (by decide) (by decide) (by decide), lex_space,
      ih q (h q (by simp)).2 (fun r hr => h r (by simp [hr]))]
    simp [toksUnion]

/-- The XPath put together from paths means these paths. -/
theorem parse_ok (p : List Step) (ps : List (List Step)) (h : ∀ q ∈ p :: ps, q ≠ [] ∧ ∀ s ∈ q, StepOk s) :
    ∃ x, filter2xpath ((p :: ps).map printPath) = some x ∧ parse x = some (p :: ps) := by
  refine ⟨_, rfl, ?_⟩
  have h1 := lex_union ps p (h p (by simp)).2 (fun q hq => h q (by simp [hq]))
  have h2 : lex .plain ('(' :: printPath p ++ (ps.map printPath).flatMap (fun y => " | ".toList ++ y) ++ [')']) =
      some (.lpar :: toksUnion (p :: ps)) := by
    rw [List.cons_append, List.cons_append, lex_tok '(' .lpar _ (by decide) (by decide) (by decide) (by decide) (by decide),
      List.append_assoc, h1]
    rfl
  unfold parse
  rw [h2]
  simp only []
  exact union_ok _ _ (by simp) h (by have := usize_le (p :: ps) h; omega)

/-! ## The steps can be printed -/

theorem printModule_ok {parent : Option Ns} {topMod : Option Text} {f : F} (ht : ∀ t, topMod = some t → NameOk t)
    (h : NameOk f.name ∧ ∀ m, f.ns = .mod m → NameOk m) : NamesOk (printModule parent topMod f) f.name := by
  refine ⟨h.1, ?_⟩
  intro x hx
  have hm : ∀ y, (match f.ns with | .mod m => some m | _ => none) = some y → NameOk y := by
    intro y hy
    split at hy
    · rename_i m hm
      exact h.2 y (by rw [hm, Option.some.inj hy])
    · cases hy
  unfold printModule at hx
  cases parent with
  | none =>
    cases topMod with
    | some t => exact ht x hx
    | none => exact hm x hx
  | some p =>
    simp only at hx
    split at hx
    · cases hx
    · exact hm x hx

/-- All nodes below can be printed. -/
def Printable (f : F) : Prop := ∀ g, Sub f g → (NameOk g.name ∧ ∀ m, g.ns = .mod m → NameOk m) ∧
  (isContent g = true → ¬ ('\'' ∈ valueOf g ∧ '"' ∈ valueOf g))

theorem Sub.of_child {f c g : F} (hc : c ∈ f.children) (h : Sub c g) : Sub f g := by
  induction h with
  | self => exact .child .self hc
  | child _ h2 ih => exact .child ih h2

theorem Printable.child {f c : F} (h : Printable f) (hc : c ∈ f.children) : Printable c := fun g hg => h g (hg.of_child hc)

theorem contentPreds_ok {f : F} (h : Printable f) : ∀ p ∈ contentPreds f.ns f.children, PredOk p := by
  intro p hp
  obtain ⟨c, hc, rfl⟩ := List.mem_map.1 hp
  obtain ⟨hc1, hc2⟩ := List.mem_filter.1 hc
  have h1 := h c (.child .self hc1)
  exact ⟨_, _, _, rfl, printModule_ok (topMod := none) (by intro t ht; cases ht) h1.1, h1.2 hc2⟩

mutual

theorem pathsOf_ok (parent : Option Ns) (topMod : Option Text) (ht : ∀ t, topMod = some t → NameOk t) : ∀ (f : F), Printable f →
    ∀ x ∈ pathsOf parent topMod f, x.1 ≠ [] ∧ ∀ s ∈ x.1, StepOk s
  | .node o p ns name v cs, h => by
    have h0 : NamesOk (printModule parent topMod (.node o p ns name v cs)) name :=
      printModule_ok (f := .node o p ns name v cs) ht (h _ .self).1
    have hp : ∀ p ∈ contentPreds ns cs, PredOk p := contentPreds_ok h
    intro x hx
    unfold pathsOf at hx
    simp only at hx
    split at hx
    · rw [List.mem_singleton.1 hx]
      refine ⟨by simp, ?_⟩
      intro s hs
      rw [List.mem_singleton.1 hs]
      exact ⟨h0, by simp⟩
    split at hx
    · rw [List.mem_singleton.1 hx]
      refine ⟨by simp, ?_⟩
      intro s hs
      rw [List.mem_singleton.1 hs]
      exact ⟨h0, hp⟩
    · obtain ⟨y, hy, rfl⟩ := List.mem_map.1 hx
      refine ⟨by simp, ?_⟩
      intro s hs
      rcases List.mem_cons.1 hs with rfl | hs
      · exact ⟨h0, hp⟩
      · exact (pathsOfs_ok ns cs (fun c hc => h.child hc) y hy).2 s hs

theorem pathsOfs_ok (parent : Ns) : ∀ (cs : List F), (∀ c ∈ cs, Printable c) →
    ∀ x ∈ pathsOfs parent cs, x.1 ≠ [] ∧ ∀ s ∈ x.1, StepOk s
  | [], _ => by intro x hx; simp [pathsOfs] at hx
  | c :: cs, h => by
    intro x hx
    unfold pathsOfs at hx
    rcases List.mem_append.1 hx with hx | hx
    · split at hx
      · rw [List.mem_singleton.1 hx]
        refine ⟨by simp, ?_⟩
        intro s hs
        rw [List.mem_singleton.1 hs]
        have h0 : NamesOk (printModule (some parent) none c) c.name :=
          printModule_ok (topMod := none) (by intro t ht; cases ht) (h c (by simp) c .self).1
        exact ⟨h0, by simp⟩
      · exact pathsOf_ok (some parent) none (by intro t ht; cases ht) c (h c (by simp)) x hx
    · exact pathsOfs_ok parent cs (fun d hd => h d (by simp [hd])) x hx

end

/-! ## Selection -/

/-- The paths of a node, the same for all children. -/
theorem mem_pathsOfs (parent : Ns) (cs : List F) (p : List Step) :
    (∃ b, (p, b) ∈ pathsOfs parent cs) ↔ ∃ c ∈ cs, ∃ b, (p, b) ∈ pathsOf (some parent) none c := by
  induction cs with
  | nil => simp [pathsOfs]
  | cons c cs ih =>
    have hc : (∃ b, (p, b) ∈ (if c.children.isEmpty then
        [(([⟨printModule (some parent) none c, c.name, []⟩] : List Step), !isContent c)]
        else pathsOf (some parent) none c)) ↔ ∃ b, (p, b) ∈ pathsOf (some parent) none c := by
      split
      · rename_i h
        cases c with
        | node o q ns name v cs' =>
          have h : cs'.isEmpty = true := h
          simp [pathsOf, h, F.name]
      · rfl
    unfold pathsOfs
    constructor
    · rintro ⟨b, hb⟩
      rcases List.mem_append.1 hb with hb | hb
      · exact ⟨c, by simp, hc.1 ⟨b, hb⟩⟩
      · obtain ⟨d, hd, hb⟩ := ih.1 ⟨b, hb⟩
        exact ⟨d, by simp [hd], hb⟩
    · rintro ⟨d, hd, b, hb⟩
      rcases List.mem_cons.1 hd with rfl | hd
      · obtain ⟨b', hb'⟩ := hc.2 ⟨b, hb⟩
        exact ⟨b', List.mem_append_left _ hb'⟩
      · obtain ⟨b', hb'⟩ := ih.2 ⟨d, hd, b, hb⟩
        exact ⟨b', List.mem_append_right _ hb'⟩

/-- What the paths of a filter node let through at and below the node `n`. -/
def Rel (P : List (List Step × Bool)) (ctx : Option Text) (n : D) (rest : List D) : Prop :=
  ∃ p, (∃ b, (p, b) ∈ P) ∧ ∃ q, Spine n.children q ∧ Takes ctx p (n :: q) ∧ (rest <+: q ∨ q <+: rest)

theorem isWs_iff (v : Text) : isWs v = false ↔ ∃ c ∈ v, isSpace c = false := by
  unfold isWs
  rw [List.all_eq_false]
  constructor
  · rintro ⟨c, h1, h2⟩; exact ⟨c, h1, by simpa using h2⟩
  · rintro ⟨c, h1, h2⟩; exact ⟨c, h1, by simpa using h2⟩

theorem content_iff {f : F} (hl : isContent f = true → f.children = []) (v : Text) :
    Content f v ↔ isContent f = true ∧ v = valueOf f := by
  unfold Content
  constructor
  · rintro ⟨h1, h2, h3⟩
    refine ⟨?_, by simp [valueOf, h2]⟩
    simp only [isContent, h2, Bool.not_eq_true']
    exact (isWs_iff v).2 h3
  · rintro ⟨h1, h2⟩
    refine ⟨hl h1, ?_, ?_⟩
    · unfold isContent at h1
      split at h1
      · rename_i w hw; rw [h2]; simp [valueOf, hw]
      · cases h1
    · unfold isContent at h1
      split at h1
      · rename_i w hw
        rw [h2, show valueOf f = w by simp [valueOf, hw]]
        exact (isWs_iff w).1 (by simpa using h1)
      · cases h1

/-- What is assumed of the nodes below a filter node. -/
structure Sane (data : List D) (f : F) : Prop where
  known : ∀ g, Sub f g → ∀ u, g.ns ≠ .unknown u
  leaves : ∀ g, Sub f g → isContent g = true → g.children = []
  inherit : ∀ g, Sub f g → ∀ c ∈ g.children, c.ns = .none →
    ∀ n, In data n → ∀ k ∈ n.children, k.name = c.name → k.mod = n.mod
  leaf : ∀ g, Sub f g → ∀ c ∈ g.children, isContent c = true → g.children.all isContent = false →
    ∀ n, In data n → ∀ k ∈ n.children, ∀ k' ∈ n.children, Matches c k → Matches c k' → k.value = k'.value

theorem Sane.child {data : List D} {f c : F} (h : Sane data f) (hc : c ∈ f.children) : Sane data c :=
  ⟨fun g hg => h.known g (hg.of_child hc), fun g hg => h.leaves g (hg.of_child hc), fun g hg => h.inherit g (hg.of_child hc),
    fun g hg => h.leaf g (hg.of_child hc)⟩

/-- The name test of a child is the namespace and the name of the filter node. -/
theorem nameTest_child {data : List D} {f c : F} (hs : Sane data f) (hc : c ∈ f.children) {n k : D} (hn : In data n)
    (hm : Matches f n) (hk : k ∈ n.children) :
    NameTest (some n.mod) (printModule (some f.ns) none c) c.name k ↔ Matches c k := by
  have hun := hs.known c (.child .self hc)
  have hin := hs.inherit f .self c hc
  unfold NameTest Matches printModule
  cases hcn : c.ns with
  | unknown u => exact absurd hcn (hun u)
  | none =>
    simp only [ite_self]
    constructor
    · rintro ⟨h1, _⟩; exact ⟨h1, trivial⟩
    · rintro ⟨h1, _⟩; exact ⟨h1, by rw [hin hcn n hn k hk h1]⟩
  | mod m =>
    simp only []
    by_cases hp : f.ns = .mod m
    · have hnm : n.mod = m := by
        have := hm.2
        rw [hp] at this
        exact this
      simp only [hp, if_true, Option.some.injEq, hnm]
    · simp only [hp, if_false, Option.some.injEq]

theorem preds_iff {data : List D} {f : F} (hs : Sane data f) {n : D} (hn : In data n) (hm : Matches f n) :
    (∀ p ∈ contentPreds f.ns f.children, ∃ c ∈ p, Cmp.Holds n c) ↔ Tests f n := by
  unfold contentPreds Tests
  constructor
  · intro h c hc v hv
    obtain ⟨h1, rfl⟩ := (content_iff (hs.leaves c (.child .self hc)) v).1 hv
    obtain ⟨x, hx, hh⟩ := h _ (List.mem_map.2 ⟨c, List.mem_filter.2 ⟨hc, h1⟩, rfl⟩)
    rw [List.mem_singleton.1 hx] at hh
    obtain ⟨k, hk, h2, h3⟩ := hh
    exact ⟨k, hk, (nameTest_child hs hc hn hm hk).1 h2, h3⟩
  · intro h p hp
    obtain ⟨c, hc, rfl⟩ := List.mem_map.1 hp
    obtain ⟨hc1, hc2⟩ := List.mem_filter.1 hc
    obtain ⟨k, hk, h2, h3⟩ := h c hc1 (valueOf c) ((content_iff (hs.leaves c (.child .self hc1)) _).2 ⟨hc2, rfl⟩)
    exact ⟨_, List.mem_singleton.2 rfl, k, hk, (nameTest_child hs hc1 hn hm hk).2 h2, h3⟩

theorem Out.tests {f : F} {n : D} {s : List D} (h : Out f n s) (hc : f.children ≠ []) : Tests f n := by
  cases h with
  | selection h => exact absurd h hc
  | only_content _ _ h => exact h
  | content _ _ _ _ _ _ h => exact h
  | other _ _ _ _ _ h => exact h

theorem takes_single {ctx : Option Text} {s : Step} {n : D} {q : List D} :
    Takes ctx [s] (n :: q) ↔ s.Takes ctx n ∧ q = [] := by
  cases q <;> simp [Takes]

theorem takes_nil {ctx : Option Text} {q : List D} : Takes ctx [] q ↔ q = [] := by
  cases q <;> simp [Takes]

theorem pathsOf_ne (parent : Option Ns) (topMod : Option Text) (f : F) {p : List Step} {b : Bool}
    (h : (p, b) ∈ pathsOf parent topMod f) : p ≠ [] := by
  cases f with
  | node o q ns name v cs =>
    unfold pathsOf at h
    simp only at h
    split at h
    · rw [(Prod.mk.inj (List.mem_singleton.1 h)).1]; simp
    split at h
    · rw [(Prod.mk.inj (List.mem_singleton.1 h)).1]; simp
    · obtain ⟨y, _, hy⟩ := List.mem_map.1 h
      rw [← (Prod.mk.inj hy).1]; simp

/-- The paths of a filter node let through what is in the output of the filter node. -/
theorem rel_iff {data : List D} : ∀ (k : Nat) (f : F), sizeOf f ≤ k → Sane data f → ∀ (parent : Option Ns) (topMod ctx : Option Text)
    (n : D) (rest : List D), In data n → (NameTest ctx (printModule parent topMod f) f.name n → Matches f n) →
    Spine n.children rest →
    (Rel (pathsOf parent topMod f) ctx n rest ↔ NameTest ctx (printModule parent topMod f) f.name n ∧ Out f n rest) := by
  intro k
  induction k with
  | zero => intro f hk; cases f; simp at hk
  | succ k ih =>
    intro f hk hs parent topMod ctx n rest hn hm hsp
    have hcs : ∀ c ∈ f.children, sizeOf c ≤ k := by
      intro c hc
      cases f with
      | node o p ns name v cs =>
        have := List.sizeOf_lt_of_mem (show c ∈ cs from hc)
        simp at hk
        omega
    by_cases hempty : f.children.isEmpty = true
    · have hc : f.children = [] := by simpa using hempty
      have hP : ∀ p, (∃ b, (p, b) ∈ pathsOf parent topMod f) ↔ p = [⟨printModule parent topMod f, f.name, []⟩] := by
        intro p
        cases f with
        | node o q ns name v cs =>
          have h : cs.isEmpty = true := hempty
          simp [pathsOf, h, F.name]
      constructor
      · rintro ⟨p, hp, q, hq, ht, _⟩
        rw [(hP p).1 hp, takes_single] at ht
        exact ⟨ht.1.1, .selection hc⟩
      · rintro ⟨h1, _⟩
        refine ⟨_, (hP _).2 rfl, [], trivial, ?_, Or.inr List.nil_prefix⟩
        rw [takes_single]
        exact ⟨⟨h1, by simp⟩, rfl⟩
    · have hne : f.children ≠ [] := by simpa using hempty
      by_cases hall : f.children.all isContent = true
      · have hP : ∀ p, (∃ b, (p, b) ∈ pathsOf parent topMod f) ↔
            p = [⟨printModule parent topMod f, f.name, contentPreds f.ns f.children⟩] := by
          intro p
          cases f with
          | node o q ns name v cs =>
            have h : ¬ cs.isEmpty = true := hempty
            have h' : cs.all isContent = true := hall
            simp only [pathsOf, h, h', F.name, F.ns, F.children]
            simp
        have hall' : ∀ c ∈ f.children, ∃ v, Content c v := fun c hc =>
          ⟨_, (content_iff (hs.leaves c (.child .self hc)) _).2 ⟨List.all_eq_true.1 hall c hc, rfl⟩⟩
        constructor
        · rintro ⟨p, hp, q, hq, ht, _⟩
          rw [(hP p).1 hp, takes_single] at ht
          exact ⟨ht.1.1, .only_content hne hall' ((preds_iff hs hn (hm ht.1.1)).1 ht.1.2)⟩
        · rintro ⟨h1, h2⟩
          refine ⟨_, (hP _).2 rfl, [], trivial, ?_, Or.inr List.nil_prefix⟩
          rw [takes_single]
          exact ⟨⟨h1, (preds_iff hs hn (hm h1)).2 (h2.tests hne)⟩, rfl⟩
      · have hall : f.children.all isContent = false := by simpa using hall
        have hP : ∀ p, (∃ b, (p, b) ∈ pathsOf parent topMod f) ↔ ∃ p', p = ⟨printModule parent topMod f, f.name,
            contentPreds f.ns f.children⟩ :: p' ∧ ∃ c ∈ f.children, ∃ b, (p', b) ∈ pathsOf (some f.ns) none c := by
          intro p
          have key : (∃ b, (p, b) ∈ pathsOf parent topMod f) ↔ ∃ p', p = ⟨printModule parent topMod f, f.name,
            contentPreds f.ns f.children⟩ :: p' ∧ ∃ b, (p', b) ∈ pathsOfs f.ns f.children := by
            cases f with
            | node o q ns name v cs =>
              have h : ¬ cs.isEmpty = true := hempty
              have h' : cs.all isContent = false := hall
              simp only [pathsOf, h, h', F.name, F.ns, F.children, Bool.false_eq_true, if_false, List.mem_map, Prod.mk.injEq]
              constructor
              · rintro ⟨b, y, hy, h1, h2⟩
                exact ⟨y.1, h1.symm, y.2, hy⟩
              · rintro ⟨p', h1, b, hb⟩
                exact ⟨b, (p', b), hb, h1.symm, rfl⟩
          rw [key]
          constructor
          · rintro ⟨p', h1, h2⟩; exact ⟨p', h1, (mem_pathsOfs _ _ _).1 h2⟩
          · rintro ⟨p', h1, h2⟩; exact ⟨p', h1, (mem_pathsOfs _ _ _).2 h2⟩
        have hsome : ∃ c ∈ f.children, ∀ v, ¬ Content c v := by
          obtain ⟨c, hc, h⟩ := List.all_eq_false.1 hall
          refine ⟨c, hc, fun v hv => h ?_⟩
          exact ((content_iff (hs.leaves c (.child .self hc)) v).1 hv).1
        constructor
        · rintro ⟨p, hp, q, hq, ht, hpre⟩
          obtain ⟨p', rfl, c, hc, b, hb⟩ := (hP p).1 hp
          obtain ⟨ht1, ht2⟩ : Step.Takes ctx _ n ∧ Takes (some n.mod) p' q := ht
          have hmn := hm ht1.1
          have htests := (preds_iff hs hn hmn).1 ht1.2
          cases q with
          | nil =>
            cases p' with
            | nil => exact absurd rfl (pathsOf_ne _ _ c hb)
            | cons _ _ => exact absurd ht2 (by simp [Takes])
          | cons k1 q =>
            have hkin : In data k1 := .child hn hq.1
            -- where the spine goes
            obtain ⟨r, hbel, hspr, hpre'⟩ : ∃ r, Below n rest k1 r ∧ Spine k1.children r ∧ (r <+: q ∨ q <+: r) := by
              cases rest with
              | nil => exact ⟨[], Or.inr ⟨rfl, rfl, hq.1⟩, trivial, Or.inl List.nil_prefix⟩
              | cons k2 r =>
                rcases hpre with hpre | hpre
                · obtain ⟨h1, h2⟩ := List.cons_prefix_cons.1 hpre
                  subst h1
                  exact ⟨r, Or.inl rfl, hsp.2, Or.inl h2⟩
                · obtain ⟨h1, h2⟩ := List.cons_prefix_cons.1 hpre
                  subst h1
                  exact ⟨r, Or.inl rfl, hsp.2, Or.inr h2⟩
            have hrel := (ih c (hcs c hc) (hs.child hc) (some f.ns) none (some n.mod) k1 r hkin
              (nameTest_child hs hc hn hmn hq.1).1 hspr).1 ⟨p', ⟨b, hb⟩, q, hq.2, ht2, hpre'⟩
            have hmk := (nameTest_child hs hc hn hmn hq.1).1 hrel.1
            refine ⟨ht1.1, ?_⟩
            by_cases hcont : isContent c = true
            · have hcv := (content_iff (hs.leaves c (.child .self hc)) (valueOf c)).2 ⟨hcont, rfl⟩
              obtain ⟨k0, hk0, h1, h2⟩ := htests c hc _ hcv
              refine .content c (valueOf c) k1 r hc hcv htests hsome hbel hmk ?_
              rw [hs.leaf f .self c hc hcont hall n hn k1 hq.1 k0 hk0 hmk h1]
              exact h2
            · refine .other c k1 r hc (fun v hv => hcont ?_) htests hbel hmk hrel.2
              exact ((content_iff (hs.leaves c (.child .self hc)) v).1 hv).1
        · rintro ⟨h1, h2⟩
          have hmn := hm h1
          have htests := h2.tests hne
          -- a child in the output
          obtain ⟨c, k1, r, hc, hbel, hmk, hout⟩ : ∃ c k1 r, c ∈ f.children ∧ Below n rest k1 r ∧ Matches c k1 ∧ Out c k1 r := by
            cases h2 with
            | selection h => exact absurd h hne
            | only_content _ h _ => obtain ⟨c, hc, h'⟩ := hsome; obtain ⟨v, hv⟩ := h c hc; exact absurd hv (h' v)
            | content c v k1 r hc hcv _ _ hb hmk _ => exact ⟨c, k1, r, hc, hb, hmk, .selection hcv.1⟩
            | other c k1 r hc _ _ hb hmk ho => exact ⟨c, k1, r, hc, hb, hmk, ho⟩
          have hk1 : k1 ∈ n.children ∧ Spine k1.children r := by
            rcases hbel with rfl | ⟨_, rfl, h⟩
            · exact hsp
            · exact ⟨h, trivial⟩
          obtain ⟨p', hp', q, hq, ht, hpre⟩ := (ih c (hcs c hc) (hs.child hc) (some f.ns) none (some n.mod) k1 r (.child hn hk1.1)
            (nameTest_child hs hc hn hmn hk1.1).1 hk1.2).2 ⟨(nameTest_child hs hc hn hmn hk1.1).2 hmk, hout⟩
          refine ⟨_, (hP _).2 ⟨p', rfl, c, hc, hp'⟩, k1 :: q, ⟨hk1.1, hq⟩, ⟨⟨h1, (preds_iff hs hn hmn).2 htests⟩, ht⟩, ?_⟩
          rcases hbel with rfl | ⟨rfl, _, _⟩
          · rcases hpre with h | h
            · exact Or.inl (List.cons_prefix_cons.2 ⟨rfl, h⟩)
            · exact Or.inr (List.cons_prefix_cons.2 ⟨rfl, h⟩)
          · exact Or.inl List.nil_prefix

end Verif.SubFilter
