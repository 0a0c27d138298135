import Verif.SubFilter

/-! Lemmas of `Verif.SubFilter`: the text of the generated XPath and its meaning. -/
namespace Verif.SubFilter

/-! ## The paths as structures -/

/-- Predicates of the content match children. -/
def contentPreds (parent : Ns) (cs : List F) : List (List Cmp) :=
  (cs.filter isContent).map (fun c => [Cmp.field (printModule (some parent) none c) c.name (valueOf c)])

mutual

/-- The paths `addR` prints. -/
def pathsOf (parent : Option Ns) (topMod : Option Text) : F → List (List Step × Bool)
  | .node o p ns name v cs =>
    let m := printModule parent topMod (.node o p ns name v cs)
    if cs.isEmpty then [([⟨m, name, []⟩], true)]
    else if cs.all isContent then [([⟨m, name, contentPreds ns cs⟩], false)]
    else (pathsOfs ns cs).map (fun x => (⟨m, name, contentPreds ns cs⟩ :: x.1, x.2))

/-- The paths `addRs` prints. -/
def pathsOfs (parent : Ns) : List F → List (List Step × Bool)
  | [] => []
  | c :: cs =>
    (if c.children.isEmpty then [([⟨printModule (some parent) none c, c.name, []⟩], !isContent c)]
     else pathsOf (some parent) none c) ++ pathsOfs parent cs

end

/-- Text of a comparison. -/
def printCmp : Cmp → Text
  | .field m n v => printName m n ++ '=' :: quot v :: (v ++ [quot v])
  | .text v => 't' :: 'e' :: 'x' :: 't' :: '(' :: ')' :: '=' :: quot v :: (v ++ [quot v])
  | .const a b => quot a :: (a ++ quot a :: '=' :: quot b :: (b ++ [quot b]))

/-- Text of a predicate of one comparison. -/
def printPred : List Cmp → Text
  | [c] => '[' :: (printCmp c ++ [']'])
  | _ => []

theorem printPred_field (m : Option Text) (n v : Text) :
    printPred [.field m n v] = '[' :: (printName m n ++ '=' :: quot v :: (v ++ [quot v, ']'])) := by
  show '[' :: ((printName m n ++ '=' :: quot v :: (v ++ [quot v])) ++ [']']) = _
  rw [List.append_assoc, List.cons_append, List.cons_append, List.append_assoc]
  rfl

/-- Text of a step. -/
def printStep (s : Step) : Text := '/' :: (printName s.mod s.name ++ s.preds.flatMap printPred)

/-- Text of a path. -/
def printPath (p : List Step) : Text := p.flatMap printStep

theorem modLen_eq (m : Option Text) (n : Text) : (printName m n).length = modLen m + n.length := by
  cases m <;> simp [printName, modLen]; omega

theorem put_ok (t s : Text) (k : Nat) (h : k = t.length + 1 + s.length) :
    (Buf.mk t (t.length + 1)).put s k = .ok ⟨t ++ s, (t ++ s).length + 1⟩ := by
  subst h
  simp only [Buf.put, Nat.add_sub_cancel, List.length_append, List.take_length]
  rw [if_pos (by omega)]
  congr 2
  omega

theorem appendNode_ok (parent : Option Ns) (topMod : Option Text) (f : F) (t : Text) :
    appendNode parent topMod f ⟨t, t.length + 1⟩ =
      .ok ⟨t ++ ('/' :: printName (printModule parent topMod f) f.name),
        (t ++ ('/' :: printName (printModule parent topMod f) f.name)).length + 1⟩ := by
  unfold appendNode
  rw [put_ok]
  simp only [List.length_cons, modLen_eq]
  omega

theorem appendContent_ok (parent : Ns) (f : F) (t : Text) :
    appendContent parent f ⟨t, t.length + 1⟩ =
      .ok ⟨t ++ printPred [Cmp.field (printModule (some parent) none f) f.name (valueOf f)],
        (t ++ printPred [Cmp.field (printModule (some parent) none f) f.name (valueOf f)]).length + 1⟩ := by
  unfold appendContent
  dsimp only
  rw [put_ok _ _ _ (by simp only [List.length_cons, modLen_eq]; omega)]
  simp only [R.bind]
  rw [put_ok _ _ _ (by simp only [List.length_cons, List.length_append, List.length_nil]; omega)]
  rw [printPred_field]
  simp only [List.append_assoc, List.cons_append]

theorem contents_ok (parent : Ns) (cs : List F) : ∀ (t : Text),
    contents parent cs ⟨t, t.length + 1⟩ =
      .ok ⟨t ++ (contentPreds parent cs).flatMap printPred, (t ++ (contentPreds parent cs).flatMap printPred).length + 1⟩ := by
  induction cs with
  | nil => intro t; simp [contents, contentPreds]
  | cons c cs ih =>
    intro t
    unfold contents
    split
    · rename_i h
      rw [appendContent_ok]
      simp only [R.bind]
      rw [ih]
      simp [contentPreds, h]
    · rename_i h
      rw [ih]
      simp [contentPreds, h]

mutual

theorem addR_ok (parent : Option Ns) (topMod : Option Text) (t : Text) : ∀ (f : F),
    addR parent topMod ⟨t, t.length + 1⟩ f =
      .ok ((pathsOf parent topMod f).map (fun x => (t ++ printPath x.1, x.2)))
  | .node o p ns name v cs => by
    unfold addR pathsOf
    rw [appendNode_ok]
    simp only [R.bind]
    split
    · simp [printPath, printStep, F.name]
    · rw [contents_ok]
      simp only []
      split
      · simp [printPath, printStep, F.name]
      · rw [addRs_ok]
        simp [printPath, printStep, F.name]

theorem addRs_ok (parent : Ns) (t : Text) : ∀ (cs : List F),
    addRs parent ⟨t, t.length + 1⟩ cs = .ok ((pathsOfs parent cs).map (fun x => (t ++ printPath x.1, x.2)))
  | [] => by simp [addRs, pathsOfs]
  | c :: cs => by
    unfold addRs pathsOfs
    rw [addRs_ok parent t cs]
    by_cases h : c.children.isEmpty = true
    · simp only [h, if_true]
      rw [appendNode_ok]
      simp [R.bind, printPath, printStep]
    · simp only [h, if_false, Bool.false_eq_true]
      rw [addR_ok (some parent) none t c]
      simp [R.bind]

end

/-- The paths of a filter without content match nodes at the top. -/
def topPaths (tops : List (Text × Text)) (f : F) : List (List Step × Bool) :=
  if f.opaq && !f.pfx then (tops.filter (fun x => x.2 = f.name)).flatMap (fun x => pathsOf none (some x.1) f)
  else pathsOf none none f

theorem createTop_ok (topMod : Option Text) (f : F) (h : isContent f = false) :
    createTop topMod f = .ok ((pathsOf none topMod f).map (fun x => (printPath x.1, x.2))) := by
  unfold createTop
  simp only [h, Bool.false_eq_true, if_false]
  rw [show (Buf.mk [] 1) = Buf.mk [] (([] : Text).length + 1) from rfl, addR_ok]
  simp

theorem createEach_ok (f : F) (h : isContent f = false) (tops : List (Text × Text)) :
    createEach f tops = .ok (((tops.filter (fun x => x.2 = f.name)).flatMap (fun x => pathsOf none (some x.1) f)).map
      (fun x => (printPath x.1, x.2))) := by
  induction tops with
  | nil => rfl
  | cons t tops ih =>
    obtain ⟨m, n⟩ := t
    unfold createEach
    by_cases hn : n = f.name
    · simp only [hn, if_true]
      rw [createTop_ok _ f h, ih]
      simp [R.bind]
    · simp only [hn, if_false]
      rw [ih]
      simp [hn]

theorem createSubtree_ok (tops : List (Text × Text)) (fs : List F) (h : ∀ f ∈ fs, isContent f = false)
    (hb : ∀ f ∈ fs, f.opaq = true → f.pfx = false → ∃ t ∈ tops, t.2 = f.name) :
    createSubtree tops fs = .ok ((fs.flatMap (topPaths tops)).map (fun x => (printPath x.1, x.2))) := by
  induction fs with
  | nil => rfl
  | cons f fs ih =>
    have ih := ih (fun g hg => h g (by simp [hg])) (fun g hg => hb g (by simp [hg]))
    have hf := h f (by simp)
    unfold createSubtree
    rw [ih]
    by_cases ho : (f.opaq && !f.pfx) = true
    · simp only [ho, if_true, List.flatMap_cons, topPaths]
      have : tops.any (fun x => x.2 = f.name) = true := by
        simp only [Bool.and_eq_true, Bool.not_eq_true'] at ho
        obtain ⟨t, ht, he⟩ := hb f (by simp) ho.1 ho.2
        exact List.any_eq_true.2 ⟨t, ht, by simpa using he⟩
      simp only [this, if_true]
      rw [createEach_ok f hf]
      simp [R.bind]
    · simp only [ho, Bool.false_eq_true, if_false, List.flatMap_cons, topPaths]
      rw [createTop_ok _ f hf]
      simp [R.bind]

/-! ## Tokens -/

/-- After a name. -/
def Ends (r : Text) : Prop := r = [] ∨ ∃ c s, r = c :: s ∧ isNameChar c = false

theorem lex_flush (a : Text) (r : Text) (h : Ends r) : lex (.name a) r = (lex .plain r).map (.name a.reverse :: ·) := by
  rcases h with rfl | ⟨c, s, rfl, hc⟩
  · simp [lex, Mode.flush]
  · simp only [lex, hc, Bool.false_eq_true, if_false, Mode.flush]
    split
    · cases lex .plain s <;> simp [Mode.flush]
    split
    · cases lex (.lit c []) s <;> simp [Mode.flush]
    split
    · simp [Function.comp_def]
    · rfl

theorem lex_nameAcc (s : Text) : ∀ (a r : Text), (∀ c ∈ s, isNameChar c = true) → Ends r →
    lex (.name a) (s ++ r) = (lex .plain r).map (.name (a.reverse ++ s) :: ·) := by
  induction s with
  | nil => intro a r _ h; simpa using lex_flush a r h
  | cons c s ih =>
    intro a r hs h
    have hc := hs c (by simp)
    simp only [List.cons_append, lex, hc, if_true]
    rw [ih _ _ (fun d hd => hs d (by simp [hd])) h]
    simp

theorem lex_name (s r : Text) (hs : NameOk s) (h : Ends r) : lex .plain (s ++ r) = (lex .plain r).map (.name s :: ·) := by
  obtain ⟨hne, hs⟩ := hs
  cases s with
  | nil => exact absurd rfl hne
  | cons c s =>
    have hc := hs c (by simp)
    simp only [List.cons_append, lex, hc, if_true]
    rw [lex_nameAcc _ _ _ (fun d hd => hs d (by simp [hd])) h]
    simp

theorem lex_litAcc (q : Char) (v : Text) : ∀ (a r : Text), q ∉ v →
    lex (.lit q a) (v ++ q :: r) = (lex .plain r).map (.lit (a.reverse ++ v) :: ·) := by
  induction v with
  | nil => intro a r _; simp [lex]
  | cons c v ih =>
    intro a r h
    have hc : c ≠ q := fun e => h (by simp [e])
    simp only [List.cons_append, lex, hc, if_false]
    rw [ih _ _ (fun e => h (by simp [e]))]
    simp

theorem quot_cases (v : Text) : quot v = '\'' ∨ quot v = '"' := by
  unfold quot
  split <;> simp

theorem quot_not_in (v : Text) (h : ¬ ('\'' ∈ v ∧ '"' ∈ v)) : quot v ∉ v := by
  unfold quot
  split
  · rename_i hc
    intro h2
    exact h ⟨List.contains_iff_mem.1 hc, h2⟩
  · rename_i hc
    intro h2
    exact hc (List.contains_iff_mem.2 h2)

theorem lex_lit (v r : Text) (h : ¬ ('\'' ∈ v ∧ '"' ∈ v)) :
    lex .plain (quot v :: (v ++ quot v :: r)) = (lex .plain r).map (.lit v :: ·) := by
  have h1 : lex .plain (quot v :: (v ++ quot v :: r)) = (lex (.lit (quot v) []) (v ++ quot v :: r)).map (Mode.flush .plain) := by
    rcases quot_cases v with hq | hq
    · rw [hq]; simp [lex, isNameChar, Char.isAlphanum, Char.isAlpha, Char.isUpper, Char.isLower, Char.isDigit]
    · rw [hq]; simp [lex, isNameChar, Char.isAlphanum, Char.isAlpha, Char.isUpper, Char.isLower, Char.isDigit]
  rw [h1, lex_litAcc _ _ _ _ (quot_not_in v h)]
  simp [Mode.flush, Function.comp_def]

theorem lex_tok (c : Char) (t : Tok) (r : Text) (h : isNameChar c = false) (h1 : c ≠ ' ') (h2 : c ≠ '\'') (h3 : c ≠ '"')
    (ht : tokOf c = some t) : lex .plain (c :: r) = (lex .plain r).map (t :: ·) := by
  simp [lex, h, h1, h2, h3, ht, Mode.flush]

theorem lex_space (r : Text) : lex .plain (' ' :: r) = lex .plain r := by
  have : isNameChar ' ' = false := by decide
  simp only [lex, this, Bool.false_eq_true, if_false, if_true]
  cases lex .plain r <;> simp [Mode.flush]

/-- Tokens of a name. -/
def toksName : Option Text → Text → List Tok
  | some m, n => [.name m, .colon, .name n]
  | none, n => [.name n]

/-- Tokens of a comparison of a child. -/
def toksCmp : Cmp → List Tok
  | .field m n v => toksName m n ++ [.eq, .lit v]
  | .text v => [.name "text".toList, .lpar, .rpar, .eq, .lit v]
  | .const a b => [.lit a, .eq, .lit b]

/-- Tokens of a predicate. -/
def toksPred : List Cmp → List Tok
  | [c] => .lbr :: (toksCmp c ++ [.rbr])
  | _ => []

/-- Tokens of a step. -/
def toksStep (s : Step) : List Tok := .slash :: (toksName s.mod s.name ++ s.preds.flatMap toksPred)

/-- Tokens of a path. -/
def toksPath (p : List Step) : List Tok := p.flatMap toksStep

/-- A name that can be printed. -/
def NamesOk (m : Option Text) (n : Text) : Prop := NameOk n ∧ ∀ x, m = some x → NameOk x

/-- A predicate that can be printed. -/
def PredOk (p : List Cmp) : Prop :=
  ∃ m n v, p = [Cmp.field m n v] ∧ NamesOk m n ∧ ¬ ('\'' ∈ v ∧ '"' ∈ v)

/-- A step that can be printed. -/
def StepOk (s : Step) : Prop := NamesOk s.mod s.name ∧ ∀ p ∈ s.preds, PredOk p

theorem ends_cons {c : Char} {s : Text} (h : isNameChar c = false) : Ends (c :: s) := Or.inr ⟨c, s, rfl, h⟩

theorem lex_printName (m : Option Text) (n r : Text) (h : NamesOk m n) (he : Ends r) :
    lex .plain (printName m n ++ r) = (lex .plain r).map (toksName m n ++ ·) := by
  cases m with
  | none => simp only [printName, toksName]; rw [lex_name _ _ h.1 he]; rfl
  | some x =>
    simp only [printName, toksName, List.append_assoc, List.cons_append]
    rw [lex_name _ _ (h.2 x rfl) (ends_cons (by decide))]
    rw [lex_tok ':' .colon _ (by decide) (by decide) (by decide) (by decide) (by decide)]
    rw [lex_name _ _ h.1 he]
    simp [Function.comp_def]

theorem lex_printPred (p : List Cmp) (r : Text) (h : PredOk p) :
    lex .plain (printPred p ++ r) = (lex .plain r).map (toksPred p ++ ·) := by
  obtain ⟨m, n, v, rfl, hn, hv⟩ := h
  rw [printPred_field]
  simp only [toksPred, toksCmp, List.cons_append, List.append_assoc, List.nil_append]
  rw [lex_tok '[' .lbr _ (by decide) (by decide) (by decide) (by decide) (by decide)]
  rw [lex_printName _ _ _ hn (ends_cons (by decide))]
  rw [lex_tok '=' .eq _ (by decide) (by decide) (by decide) (by decide) (by decide)]
  rw [lex_lit _ _ hv]
  rw [lex_tok ']' .rbr _ (by decide) (by decide) (by decide) (by decide) (by decide)]
  simp [Function.comp_def]

theorem lex_printPreds (ps : List (List Cmp)) (r : Text) (h : ∀ p ∈ ps, PredOk p) :
    lex .plain (ps.flatMap printPred ++ r) = (lex .plain r).map (ps.flatMap toksPred ++ ·) := by
  induction ps with
  | nil => simp
  | cons p ps ih =>
    simp only [List.flatMap_cons, List.append_assoc]
    rw [lex_printPred _ _ (h p (by simp)), ih (fun q hq => h q (by simp [hq]))]
    simp [Function.comp_def]

theorem ends_preds (ps : List (List Cmp)) (r : Text) (h : ∀ p ∈ ps, PredOk p) (he : Ends r) :
    Ends (ps.flatMap printPred ++ r) := by
  cases ps with
  | nil => simpa using he
  | cons p ps =>
    obtain ⟨m, n, v, rfl, _⟩ := h p (by simp)
    rw [List.flatMap_cons, printPred_field]
    simp only [List.cons_append]
    exact ends_cons (by decide)

theorem lex_printStep (s : Step) (r : Text) (h : StepOk s) (he : Ends r) :
    lex .plain (printStep s ++ r) = (lex .plain r).map (toksStep s ++ ·) := by
  simp only [printStep, toksStep, List.cons_append, List.append_assoc]
  rw [lex_tok '/' .slash _ (by decide) (by decide) (by decide) (by decide) (by decide)]
  rw [lex_printName _ _ _ h.1 (ends_preds _ _ h.2 he), lex_printPreds _ _ h.2]
  simp [Function.comp_def]

theorem ends_path (p : List Step) (r : Text) (he : Ends r) : Ends (printPath p ++ r) := by
  cases p with
  | nil => simpa [printPath] using he
  | cons s p =>
    simp only [printPath, List.flatMap_cons, printStep, List.cons_append]
    exact ends_cons (by decide)

theorem lex_printPath (p : List Step) (r : Text) (h : ∀ s ∈ p, StepOk s) (he : Ends r) :
    lex .plain (printPath p ++ r) = (lex .plain r).map (toksPath p ++ ·) := by
  induction p with
  | nil => simp [printPath, toksPath]
  | cons s p ih =>
    have h1 := ends_path p r he
    simp only [printPath, toksPath, List.flatMap_cons, List.append_assoc] at *
    rw [lex_printStep _ _ (h s (by simp)) h1, ih (fun q hq => h q (by simp [hq]))]
    simp [Function.comp_def]

/-! ## Parsing -/

theorem cmp_field (m : Option Text) (n v : Text) (r : List Tok) :
    cmp (toksName m n ++ (.eq :: .lit v :: r)) = some (.field m n v, r) := by
  cases m <;> simp [toksName, cmp]

theorem preds_ok (ps : List (List Cmp)) : ∀ (fuel : Nat) (r : List Tok), (∀ p ∈ ps, PredOk p) → ps.length + 1 < fuel →
    (∀ x, r ≠ .lbr :: x) → preds fuel (ps.flatMap toksPred ++ r) = some (ps, r) := by
  induction ps with
  | nil =>
    intro fuel r _ hf hr
    cases fuel with
    | zero => omega
    | succ fuel =>
      simp only [List.flatMap_nil, List.nil_append]
      cases r with
      | nil => rfl
      | cons t r => cases t <;> first | rfl | exact absurd rfl (hr r)
  | cons p ps ih =>
    intro fuel r h hf hr
    cases fuel with
    | zero => omega
    | succ fuel =>
      obtain ⟨m, n, v, rfl, _⟩ := h p (by simp)
      have hfu : ∃ k, fuel = k + 1 := ⟨fuel - 1, by simp at hf; omega⟩
      have ih := ih fuel r (fun q hq => h q (by simp [hq])) (by simp at hf; omega) hr
      have hp : pred fuel (toksName m n ++ (.eq :: .lit v :: .rbr :: (ps.flatMap toksPred ++ r))) =
          some ([Cmp.field m n v], ps.flatMap toksPred ++ r) := by
        obtain ⟨k, rfl⟩ := hfu
        simp only [pred, cmp_field]
      simp only [List.flatMap_cons, toksPred, toksCmp, List.cons_append, List.append_assoc, List.nil_append, preds, hp, ih,
        Option.map_some]

theorem stepName_ok (m : Option Text) (n : Text) (r : List Tok) (hr : ∀ x, r ≠ .colon :: x) :
    stepName (toksName m n ++ r) = some ((m, n), r) := by
  cases m with
  | some m => simp [toksName, stepName]
  | none =>
    simp only [toksName, List.cons_append, List.nil_append]
    unfold stepName
    split
    · rename_i heq
      simp only [List.cons.injEq] at heq
      exact absurd heq.2 (hr _)
    · rename_i heq
      simp only [List.cons.injEq, Tok.name.injEq] at heq
      rw [heq.1, heq.2]
    · rename_i h1 h2
      exact absurd rfl (h2 n r)

/-- The size of a path. -/
def psize (p : List Step) : Nat := (p.map (fun s => s.preds.length + 3)).sum

theorem preds_head (ps : List (List Cmp)) (r : List Tok) (h : ∀ p ∈ ps, PredOk p) (hr : ∀ x, r ≠ .colon :: x) :
    ∀ x, ps.flatMap toksPred ++ r ≠ .colon :: x := by
  cases ps with
  | nil => simpa using hr
  | cons p ps =>
    obtain ⟨m, n, v, rfl, _⟩ := h p (by simp)
    intro x hx
    simp [toksPred] at hx

theorem path_ok (p : List Step) : ∀ (fuel : Nat) (r : List Tok), p ≠ [] → (∀ s ∈ p, StepOk s) → psize p < fuel →
    (∀ x, r ≠ .lbr :: x) → (∀ x, r ≠ .colon :: x) → (∀ x, r ≠ .slash :: x) →
    path fuel (toksPath p ++ r) = some (p, r) := by
  induction p with
  | nil => intro _ _ h; exact absurd rfl h
  | cons s p ih =>
    intro fuel r _ h hf h1 h2 h3
    cases fuel with
    | zero => omega
    | succ fuel =>
      have hs := h s (by simp)
      have hfu : s.preds.length + 1 < fuel := by simp [psize] at hf; omega
      cases p with
      | nil =>
        simp only [toksPath, List.flatMap_cons, List.flatMap_nil, List.append_nil, toksStep, List.cons_append,
          List.append_assoc, path]
        rw [stepName_ok _ _ _ (preds_head _ _ hs.2 h2)]
        simp only []
        rw [preds_ok _ _ _ hs.2 hfu h1]
        cases r with
        | nil => rfl
        | cons t r => cases t <;> first | rfl | exact absurd rfl (h3 r)
      | cons s2 p =>
        have ih := ih fuel r (by simp) (fun q hq => h q (by simp [hq])) (by simp [psize] at hf ⊢; omega) h1 h2 h3
        simp only [toksPath, List.flatMap_cons, toksStep, List.cons_append, List.append_assoc, path] at ih ⊢
        rw [stepName_ok _ _ _ (preds_head _ _ hs.2 (by intro x hx; simp at hx))]
        simp only []
        rw [preds_ok _ _ _ hs.2 hfu (by intro x hx; simp at hx)]
        simp only [ih, Option.map_some]

/-- Tokens after the parenthesis. -/
def toksUnion : List (List Step) → List Tok
  | [] => []
  | [p] => toksPath p ++ [.rpar]
  | p :: ps => toksPath p ++ .bar :: toksUnion ps

/-- The size of a union. -/
def usize (ps : List (List Step)) : Nat := (ps.map (fun p => psize p + 2)).sum

theorem union_ok (ps : List (List Step)) : ∀ (fuel : Nat), ps ≠ [] → (∀ p ∈ ps, p ≠ [] ∧ ∀ s ∈ p, StepOk s) →
    usize ps < fuel → union fuel (toksUnion ps) = some ps := by
  induction ps with
  | nil => intro _ h; exact absurd rfl h
  | cons p ps ih =>
    intro fuel _ h hf
    cases fuel with
    | zero => omega
    | succ fuel =>
      obtain ⟨h1, h2⟩ := h p (by simp)
      have hfu : psize p < fuel := by simp [usize] at hf; omega
      cases ps with
      | nil =>
        simp only [toksUnion, union]
        rw [path_ok p fuel _ h1 h2 hfu (by intro x hx; cases hx) (by intro x hx; cases hx) (by intro x hx; cases hx)]
      | cons p2 ps =>
        simp only [toksUnion, union]
        rw [path_ok p fuel _ h1 h2 hfu (by intro x hx; cases hx) (by intro x hx; cases hx) (by intro x hx; cases hx)]
        simp only []
        rw [ih fuel (by simp) (fun q hq => h q (by simp [hq])) (by simp [usize] at hf ⊢; omega)]
        rfl

theorem toksName_length (m : Option Text) (n : Text) : 1 ≤ (toksName m n).length := by
  cases m <;> simp [toksName]

theorem psize_le (p : List Step) (h : ∀ s ∈ p, StepOk s) : psize p ≤ 3 * (toksPath p).length := by
  induction p with
  | nil => simp [psize]
  | cons s p ih =>
    have ih := ih (fun q hq => h q (by simp [hq]))
    have hs := (h s (by simp)).2
    have h1 : s.preds.length ≤ (s.preds.flatMap toksPred).length := by
      revert hs
      generalize s.preds = l
      intro hs
      induction l with
      | nil => simp
      | cons a l ihl =>
        obtain ⟨m, n, v, rfl, _⟩ := hs a (by simp)
        have := ihl (fun q hq => hs q (by simp [hq]))
        simp [toksPred] at this ⊢
        omega
    have h2 := toksName_length s.mod s.name
    simp only [psize, toksPath, List.map_cons, List.sum_cons, List.flatMap_cons, List.length_append, toksStep,
      List.length_cons] at ih ⊢
    omega

end Verif.SubFilter
