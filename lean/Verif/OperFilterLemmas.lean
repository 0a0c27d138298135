import Verif.OperFilter
/-!
Parsing and comparing the text of paths.
-/
namespace Verif.OperFilter

theorem upTo_append (a b : Str) : upTo (a ++ b) b = a := by simp [upTo]

theorem hd_cons (c : Char) (s : Str) : hd (c :: s) = c := rfl

theorem dropWhile_all {p : Char → Bool} : ∀ {a : Str} (_ : ∀ c ∈ a, p c = true) {b : Str} (_ : p (hd b) = false ∨ b = []), (a ++ b).dropWhile p = b
  | [], _, b, h => by
    cases b with
    | nil => rfl
    | cons c b => rcases h with h | h <;> simp_all [hd]
  | c :: a, ha, b, h => by
    rw [List.cons_append, List.dropWhile_cons_of_pos (ha c (by simp))]
    exact dropWhile_all (fun d hd => ha d (by simp [hd])) h

/-- A character that ends a name. -/
def Stop (s : Str) : Prop := s = [] ∨ (idChar (hd s) = false ∧ hd s ≠ ':')

theorem letter_facts {c : Char} (h : isAlpha c = true ∨ c = '_') :
    c ≠ '.' ∧ c ≠ '/' ∧ c ≠ '*' ∧ c ≠ '[' ∧ c ≠ '=' ∧ c ≠ '\'' ∧ c ≠ '"' ∧ c ≠ ']' ∧ c ≠ ':' ∧ isSpace c = false ∧ isDigit c = false ∧ c ≠ '\x00' := by
  rcases h with h | rfl
  · simp only [isAlpha, Bool.or_eq_true, Bool.and_eq_true, decide_eq_true_eq, Char.le_def, UInt32.le_iff_toNat_le] at h
    have key : ∀ d : Char, c = d → c.val.toNat = d.val.toNat := fun d hd => by rw [hd]
    refine ⟨?_, ?_, ?_, ?_, ?_, ?_, ?_, ?_, ?_, ?_, ?_, ?_⟩
    iterate 9 (intro e; subst e; revert h; decide)
    · simp only [isSpace, Bool.or_eq_false_iff, Bool.and_eq_false_iff, decide_eq_false_iff_not, Char.le_def, UInt32.le_iff_toNat_le]
      refine ⟨?_, ?_⟩
      · intro e; subst e; revert h; decide
      · right
        have e1 : ('a' : Char).val.toNat = 97 := rfl
        have e2 : ('A' : Char).val.toNat = 65 := rfl
        have e3 : ('\r' : Char).val.toNat = 13 := rfl
        omega
    · simp only [isDigit, Bool.and_eq_false_iff, decide_eq_false_iff_not, Char.le_def, UInt32.le_iff_toNat_le]
      right
      have e1 : ('a' : Char).val.toNat = 97 := rfl
      have e2 : ('A' : Char).val.toNat = 65 := rfl
      have e3 : ('9' : Char).val.toNat = 57 := rfl
      omega
    · intro e; subst e; revert h; decide
  · decide

theorem nextIdent_name {a b : Str} (ha : Ident a) (hb : idChar (hd b) = false ∨ b = []) : nextIdent (a ++ b) = b := by
  obtain ⟨c, cs, rfl, hc, hcs⟩ := ha
  obtain ⟨h1, h2, h3, _⟩ := letter_facts hc
  simp only [nextIdent, List.cons_append, hd_cons, List.isPrefixOf, List.drop_one, List.tail_cons]
  have e1 : ('.' == c) = false := by simpa using fun e => h1 e.symm
  have e2 : ('/' == c) = false := by simpa using fun e => h2 e.symm
  simp only [e1, e2, Bool.false_and, Bool.or_self, Bool.false_eq_true, if_false, h3, h1, decide_false]
  exact (if_neg (by rcases hc with h | h <;> simp [h])).trans (dropWhile_all hcs hb)

theorem nextIdent_star (b : Str) : nextIdent ('*' :: b) = b := by
  simp [nextIdent, hd, List.isPrefixOf]

theorem nextQname_bare {a b : Str} (ha : Ident a ∨ a = ['*']) (hb : Stop b) : nextQname (a ++ b) = ([], a, b) := by
  have hn : nextIdent (a ++ b) = b := by
    rcases ha with ha | rfl
    · exact nextIdent_name ha (by rcases hb with h | h; exact .inr h; exact .inl h.1)
    · exact nextIdent_star b
  have hc : hd b ≠ ':' := by
    rcases hb with rfl | h
    · decide
    · exact h.2
  simp only [nextQname, hn, hc, if_false, upTo_append]

theorem nextQname_step {s : Step} {b : Str} (hm : ∀ m, s.mod = some m → Ident m) (ha : Ident s.name ∨ s.name = ['*']) (hb : Stop b) :
    nextQname (s.qname ++ b) = (s.mod.getD [], s.name, b) := by
  cases h : s.mod with
  | none => simp only [Step.qname, h]; exact nextQname_bare ha hb
  | some m =>
    have hn : nextIdent (m ++ ':' :: (s.name ++ b)) = ':' :: (s.name ++ b) := nextIdent_name (hm m h) (.inl (by rw [hd_cons]; decide))
    have hn2 : nextIdent (s.name ++ b) = b := by
      rcases ha with ha | ha
      · exact nextIdent_name ha (by rcases hb with h | h; exact .inr h; exact .inl h.1)
      · rw [ha]; exact nextIdent_star b
    simp only [Step.qname, h, List.append_assoc, List.cons_append, nextQname, hn, hd_cons, if_true, List.drop_one, List.tail_cons, hn2, upTo_append,
      Option.getD_some]

theorem qname_ne (s : Step) (ha : Ident s.name ∨ s.name = ['*']) : s.qname ≠ [] := by
  have : s.name ≠ [] := by
    rcases ha with ⟨c, cs, h, _⟩ | h <;> simp [h]
  cases h : s.mod <;> simp [Step.qname, h, this]

theorem afterLiteral_quote {q : Char} {v b : Str} (h : q ∉ v) : afterLiteral (q :: v ++ q :: b) = some b := by
  have : ((q :: v ++ q :: b).drop 1).dropWhile (· ≠ hd (q :: v ++ q :: b)) = q :: b := by
    simp only [List.cons_append, List.drop_one, List.tail_cons, hd_cons]
    exact dropWhile_all (fun c hc => by apply decide_eq_true; rintro rfl; exact h hc) (.inl (by simp [hd]))
  simp only [afterLiteral, this]

/-! ### The atoms of a path -/

/-- Text of an atom: names from the top, perhaps a predicate of the last. -/
inductive Atoms : XPath → Str → Prop where
  | here {s x} : Atoms (s :: x) ('/' :: s.qname)
  | pred {s x p} : p ∈ s.preds → Atoms (s :: x) ('/' :: s.qname ++ p.print)
  | there {s x t} : Atoms x t → Atoms (s :: x) ('/' :: s.qname ++ t)

def PredOk (p : Pred) : Prop := Ident p.key ∧ (p.quote = '\'' ∨ p.quote = '"') ∧ p.quote ∉ p.val
def StepOk (s : Step) : Prop := (∀ m, s.mod = some m → Ident m) ∧ (Ident s.name ∨ s.name = ['*']) ∧ ∀ p ∈ s.preds, PredOk p

theorem ident_head {k : Str} (h : Ident k) (b : Str) : ∃ c r, k ++ b = c :: r ∧ (isAlpha c = true ∨ c = '_') := by
  obtain ⟨c, cs, rfl, hc, _⟩ := h
  exact ⟨c, _, rfl, hc⟩

theorem expr_pred {p : Pred} (hp : PredOk p) (cur : Str) (rest : Str) (as : List Atom) (n : Nat) :
    expr (n + 5) (p.key ++ '=' :: p.quote :: p.val ++ [p.quote, ']'] ++ rest) cur (some [']']) as =
      some (addAtom (cur ++ p.print) false as, ']' :: rest) := by
  obtain ⟨hk, hq, hv⟩ := hp
  have hs : p.key ++ '=' :: p.quote :: p.val ++ [p.quote, ']'] ++ rest = p.key ++ '=' :: (p.quote :: p.val ++ p.quote :: ']' :: rest) := by simp
  rw [hs]
  generalize hr : '=' :: (p.quote :: p.val ++ p.quote :: ']' :: rest) = r
  have hqn : nextQname (p.key ++ r) = ([], p.key, r) := nextQname_bare (.inl hk) (.inr (by rw [← hr, hd_cons]; decide))
  have hlen : r.length ≠ (p.key ++ r).length := by
    obtain ⟨c, cs, h, _⟩ := hk
    simp [h]; omega
  have hr0 : hd r = '=' := by rw [← hr]; rfl
  obtain ⟨c, t, ht, hc⟩ := ident_head hk r
  obtain ⟨h1, h2, h3, h4, h5, h6, h7, h8, h9, h10, h11, h12⟩ := letter_facts hc
  have hdw : (p.key ++ r).dropWhile isSpace = p.key ++ r := by rw [ht, List.dropWhile_cons_of_neg (by simp [h10])]
  have hh : hd (p.key ++ r) = c := by rw [ht]; rfl
  rw [expr]
  simp only [hdw, hh]
  have e1 : ends (some [']']) c = false := by simp [ends, h8]
  have e2 : isQuote c = false := by simp [isQuote, h6, h7]
  simp only [e1, e2, h11, h2, Option.isSome_some, Bool.true_and, Bool.false_eq_true, if_false]
  rw [names]
  simp only [hqn, hlen, if_false, hr0]
  simp only [show ('=' : Char) ≠ '(' by decide, show ('=' : Char) ≠ '/' by decide, show ('=' : Char) ≠ '[' by decide, if_false]
  rw [after]
  have hdr : r.dropWhile isSpace = r := by rw [← hr, List.dropWhile_cons_of_neg (by decide)]
  have e3 : ends (some [']']) '=' = false := by decide
  have hop : findOp r = some ['='] := by rw [← hr]; rfl
  simp only [hdr, hr0, e3, Bool.false_eq_true, if_false, hop]
  simp only [decide_true, Bool.and_true, if_true, List.length_singleton]
  have hs2 : r.drop 1 = p.quote :: p.val ++ p.quote :: ']' :: rest := by rw [← hr]; rfl
  have hsp : isSpace p.quote = false := by rcases hq with h | h <;> rw [h] <;> decide
  have hds : (r.drop 1).dropWhile isSpace = p.quote :: p.val ++ p.quote :: ']' :: rest := by
    rw [hs2, List.cons_append, List.dropWhile_cons_of_neg (by simp [hsp])]
  have hiq : isQuote p.quote = true := by rcases hq with h | h <;> rw [h] <;> decide
  have hh3 : hd (p.quote :: p.val ++ p.quote :: ']' :: rest) = p.quote := rfl
  rw [hds]
  simp only [hh3, hiq, if_true, afterLiteral_quote hv]
  have hd5 : (']' :: rest).dropWhile isSpace = ']' :: rest := List.dropWhile_cons_of_neg (by decide)
  have hop2 : findOp (']' :: rest) = none := rfl
  simp only [hd5, hop2, Option.map_none, Option.getD_none, List.drop_zero]
  rw [expr]
  have hd6 : (']' :: rest).dropWhile isSpace = ']' :: rest := List.dropWhile_cons_of_neg (by decide)
  simp only [hd6, hd_cons, Option.isSome_some, Bool.true_and, show ends (some [']']) ']' = true from rfl, if_true]
  have hu : upTo (p.quote :: p.val ++ p.quote :: ']' :: rest) (']' :: rest) = p.quote :: p.val ++ [p.quote] := by
    have := upTo_append (p.quote :: p.val ++ [p.quote]) (']' :: rest)
    simpa using this
  have hu2 : upTo (p.key ++ r) r = p.key := upTo_append _ _
  rw [hu, hu2]
  congr 3
  simp [Pred.print, List.drop_append]

theorem preds_ok (cur : Str) (rest : Str) (hrest : hd rest ≠ '[') : ∀ (ps : List Pred) (as : List Atom) (n : Nat), ps ≠ [] → (∀ p ∈ ps, PredOk p) →
    ps.length + 5 ≤ n →
    ∃ as', preds n cur ((ps.map Pred.print).flatten ++ rest) as = some (as', some rest) ∧
      as' = ps.foldl (fun as p => addAtom (cur ++ p.print) false as) as
  | [], _, _, h, _, _ => absurd rfl h
  | p :: ps, as, n, _, hok, hn => by
    obtain ⟨n, rfl⟩ : ∃ k, n = k + 6 := ⟨n - 6, by simp at hn; omega⟩
    simp only [List.map_cons, List.flatten_cons, List.append_assoc, List.foldl_cons]
    generalize hr : (ps.map Pred.print).flatten ++ rest = r
    have hs : (p.print ++ r).drop 1 = p.key ++ '=' :: p.quote :: p.val ++ [p.quote, ']'] ++ r := by simp [Pred.print]
    rw [preds, hs, expr_pred (hok p (by simp)) cur r as n]
    have hl : (']' :: r).length ≠ (p.key ++ '=' :: p.quote :: p.val ++ [p.quote, ']'] ++ r).length := by simp; omega
    simp only [hd_cons, ne_eq, not_true_eq_false, decide_false, Bool.and_false, Bool.false_eq_true, if_false, List.drop_one, List.tail_cons, reduceCtorEq]
    cases ps with
    | nil =>
      simp only [List.map_nil, List.flatten_nil, List.nil_append] at hr
      subst hr
      simp only [hrest, if_false, List.foldl_nil]
      exact ⟨_, rfl, rfl⟩
    | cons p' ps' =>
      have : hd r = '[' := by rw [← hr]; simp [Pred.print, hd]
      simp only [this, if_true]
      rw [← hr]
      exact preds_ok cur rest hrest (p' :: ps') _ _ (by simp) (fun q hq => hok q (by simp [hq])) (by simp at hn ⊢; omega)

theorem addAtom_ne (t : Str) (b : Bool) (as : List Atom) : addAtom t b as ≠ [] := by
  unfold addAtom
  split
  · rename_i h; intro e; rw [e] at h; simp at h
  · simp

theorem mem_addAtom {t : Str} {b : Bool} {as : List Atom} {a : Atom} (h : a ∈ addAtom t b as) : a ∈ as ∨ a.text = t := by
  unfold addAtom at h
  split at h
  · exact .inl h
  · rcases List.mem_append.mp h with h | h
    · exact .inl h
    · simp at h; subst h; exact .inr rfl

theorem foldl_addAtom (cur : Str) : ∀ (ps : List Pred) (as : List Atom),
    (ps ≠ [] → ps.foldl (fun as p => addAtom (cur ++ p.print) false as) as ≠ []) ∧
    ∀ a ∈ ps.foldl (fun as p => addAtom (cur ++ p.print) false as) as, a ∈ as ∨ ∃ p ∈ ps, a.text = cur ++ p.print
  | [], as => ⟨fun h => absurd rfl h, fun a h => .inl h⟩
  | p :: ps, as => by
    simp only [List.foldl_cons]
    obtain ⟨h1, h2⟩ := foldl_addAtom cur ps (addAtom (cur ++ p.print) false as)
    refine ⟨fun _ => ?_, fun a ha => ?_⟩
    · cases ps with
      | nil => exact addAtom_ne _ _ _
      | cons q ps => exact h1 (by simp)
    · rcases h2 a ha with h | ⟨q, hq, h⟩
      · rcases mem_addAtom h with h | h
        · exact .inl h
        · exact .inr ⟨p, by simp, h⟩
      · exact .inr ⟨q, by simp [hq], h⟩

theorem after_end (n : Nat) (xp prev cur : Str) (node stored : Bool) (as : List Atom) :
    after (n + 1) xp prev none cur node stored [] as = some (if !stored && prev.length < cur.length then addAtom cur true as else as, []) := by
  rw [after]
  rfl

/-- The atoms of a path. -/
theorem names_ok (xp : Str) : ∀ (x : XPath) (cur : Str) (node : Bool) (as : List Atom) (n : Nat), x ≠ [] → (∀ s ∈ x, StepOk s) →
    (XPath.print x).length + 8 ≤ n →
    ∃ as', names n xp ['/'] none cur node ((XPath.print x).drop 1) as = some (as', []) ∧ as' ≠ [] ∧
      ∀ a ∈ as', a ∈ as ∨ ∃ t, a.text = cur ++ t ∧ Atoms x t
  | [], _, _, _, _, h, _, _ => absurd rfl h
  | s :: x, cur, node, as, n, _, hok, hn => by
    obtain ⟨n, rfl⟩ : ∃ k, n = k + 1 := ⟨n - 1, by omega⟩
    obtain ⟨hm, hname, hps⟩ := hok s (by simp)
    have hpr : (XPath.print (s :: x)).drop 1 = s.qname ++ ((s.preds.map Pred.print).flatten ++ XPath.print x) := by
      simp [XPath.print, Step.print]
    have hlen : (XPath.print (s :: x)).length = 1 + s.qname.length + (s.preds.map Pred.print).flatten.length + (XPath.print x).length := by
      simp only [XPath.print, Step.print, List.map_cons, List.flatten_cons, List.length_append, List.length_cons]; omega
    have hplen : s.preds.length ≤ (s.preds.map Pred.print).flatten.length := by
      clear hn hok hps hpr hlen hm
      induction s.preds with
      | nil => simp
      | cons p ps ih =>
        simp only [List.map_cons, List.flatten_cons, List.length_append, List.length_cons, Pred.print] at ih ⊢; omega
    have hqlen : s.qname.length ≠ 0 := by simpa using qname_ne s hname
    rw [hpr]
    generalize hr : (s.preds.map Pred.print).flatten ++ XPath.print x = r
    have hxhead : XPath.print x = [] ∨ hd (XPath.print x) = '/' := by
      cases x with
      | nil => exact .inl rfl
      | cons s' x' => exact .inr (by simp [XPath.print, Step.print, hd])
    have hstop : Stop r := by
      rw [← hr]
      cases hps' : s.preds with
      | cons p ps => exact .inr (by simp only [Pred.print, List.map_cons, List.flatten_cons, List.cons_append, hd_cons]; decide)
      | nil =>
        simp only [List.map_nil, List.flatten_nil, List.nil_append]
        rcases hxhead with h | h
        · exact .inl h
        · exact .inr (by rw [h]; decide)
    have hrl : r.length ≠ (s.qname ++ r).length := by simp only [List.length_append]; omega
    rw [names]
    simp only [nextQname_step hm hname hstop, hrl, if_false, upTo_append]
    have hx0 : hd (XPath.print x) ≠ '[' := by
      rcases hxhead with h | h <;> rw [h] <;> decide
    have hend : ∀ k stored node' as0, as0 ≠ [] ∨ stored = false → ∃ as', after (k + 1) xp ['/'] none (cur ++ '/' :: s.qname) node' stored [] as0 = some (as', []) ∧ as' ≠ [] ∧
        ∀ a ∈ as', a ∈ as0 ∨ a.text = cur ++ '/' :: s.qname := by
      intro k stored node' as0 h0
      refine ⟨_, after_end _ _ _ _ _ _ _, ?_, ?_⟩
      · split
        · exact addAtom_ne _ _ _
        · rename_i hnot
          rcases h0 with h0 | rfl
          · exact h0
          · exact absurd (by simp; omega) hnot
      · intro a ha
        split at ha
        · exact mem_addAtom ha
        · exact .inl ha
    cases hps' : s.preds with
    | nil =>
      simp only [hps', List.map_nil, List.flatten_nil, List.nil_append] at hr
      subst hr
      cases x with
      | nil =>
        have e : hd (XPath.print []) = '\x00' := rfl
        simp only [e, show ('\x00' : Char) ≠ '(' by decide, show ('\x00' : Char) ≠ '/' by decide, show ('\x00' : Char) ≠ '[' by decide, if_false]
        obtain ⟨n, rfl⟩ : ∃ k, n = k + 1 := ⟨n - 1, by omega⟩
        obtain ⟨as', h1, h2, h3⟩ := hend n false true as (.inr rfl)
        refine ⟨as', h1, h2, fun a ha => ?_⟩
        rcases h3 a ha with h | h
        · exact .inl h
        · exact .inr ⟨_, h, Atoms.here⟩
      | cons s' x' =>
        have e : hd (XPath.print (s' :: x')) = '/' := by simp [XPath.print, Step.print, hd]
        simp only [e, show ('/' : Char) ≠ '(' by decide, if_false, if_true]
        obtain ⟨as', h1, h2, h3⟩ := names_ok xp (s' :: x') (cur ++ '/' :: s.qname) true as n (by simp) (fun q hq => hok q (List.mem_cons_of_mem _ hq)) (by omega)
        refine ⟨as', h1, h2, fun a ha => ?_⟩
        rcases h3 a ha with h | ⟨t, h, ht⟩
        · exact .inl h
        · exact .inr ⟨_, by rw [h]; simp, Atoms.there ht⟩
    | cons p ps =>
      have e : hd r = '[' := by rw [← hr, hps']; simp [Pred.print, hd]
      simp only [e, show ('[' : Char) ≠ '(' by decide, show ('[' : Char) ≠ '/' by decide, if_false, if_true]
      obtain ⟨as1, h1, h2⟩ := preds_ok (cur ++ '/' :: s.qname) (XPath.print x) hx0 s.preds as n (by simp [hps']) hps (by omega)
      obtain ⟨f1, f2⟩ := foldl_addAtom (cur ++ '/' :: s.qname) s.preds as
      rw [← h2] at f1 f2
      replace f1 := f1 (by simp [hps'])
      rw [hr] at h1
      simp only [h1]
      have hmem : ∀ a ∈ as1, a ∈ as ∨ ∃ t, a.text = cur ++ t ∧ Atoms (s :: x) t := by
        intro a ha
        rcases f2 a ha with h | ⟨q, hq, h⟩
        · exact .inl h
        · exact .inr ⟨_, by rw [h]; simp, Atoms.pred hq⟩
      cases x with
      | nil =>
        have e : hd (XPath.print []) = '\x00' := rfl
        simp only [e, show ('\x00' : Char) ≠ '/' by decide, if_false]
        obtain ⟨n, rfl⟩ : ∃ k, n = k + 1 := ⟨n - 1, by omega⟩
        obtain ⟨as', g1, g2, g3⟩ := hend n (as.length < as1.length) false as1 (.inl f1)
        refine ⟨as', g1, g2, fun a ha => ?_⟩
        rcases g3 a ha with h | h
        · exact hmem a h
        · exact .inr ⟨_, h, Atoms.here⟩
      | cons s' x' =>
        have e : hd (XPath.print (s' :: x')) = '/' := by simp [XPath.print, Step.print, hd]
        simp only [e, if_true]
        obtain ⟨as', g1, g2, g3⟩ := names_ok xp (s' :: x') (cur ++ '/' :: s.qname) true as1 n (by simp) (fun q hq => hok q (List.mem_cons_of_mem _ hq)) (by omega)
        refine ⟨as', g1, g2, fun a ha => ?_⟩
        rcases g3 a ha with h | ⟨t, h, ht⟩
        · exact hmem a h
        · exact .inr ⟨_, by rw [h]; simp, Atoms.there ht⟩

theorem print_head {x : XPath} (h : x ≠ []) : ∃ r, XPath.print x = '/' :: r := by
  obtain ⟨s, x, rfl⟩ := List.exists_cons_of_ne_nil h
  exact ⟨_, by simp only [XPath.print, List.map_cons, List.flatten_cons, Step.print, List.cons_append]; rfl⟩

theorem textAtoms_ok {x : XPath} (hx : x ≠ []) (hok : ∀ s ∈ x, StepOk s) :
    ∃ as, textAtoms (XPath.print x) = some [as] ∧ as ≠ [] ∧ ∀ a ∈ as, Atoms x a.text := by
  obtain ⟨r, hr⟩ := print_head hx
  have hlen : 2 ≤ (XPath.print x).length := by
    obtain ⟨s, x, rfl⟩ := List.exists_cons_of_ne_nil hx
    have := qname_ne s (hok s (by simp)).2.1
    have : s.qname.length ≠ 0 := by simpa using this
    simp only [XPath.print, Step.print, List.map_cons, List.flatten_cons, List.length_append, List.length_cons]; omega
  obtain ⟨as', h1, h2, h3⟩ := names_ok (XPath.print x) x [] false [] (4 * (XPath.print x).length + 3) hx hok (by omega)
  refine ⟨as', ?_, h2, fun a ha => ?_⟩
  · rw [textAtoms, unions, fuel, expr]
    have hdw : (XPath.print x).dropWhile isSpace = XPath.print x := by rw [hr, List.dropWhile_cons_of_neg (by decide)]
    have hh : hd (XPath.print x) = '/' := by rw [hr]; rfl
    simp only [hdw, hh, Option.isSome_none, Bool.false_and, Bool.false_eq_true, if_false, show isQuote '/' = false by decide,
      show isDigit '/' = false by decide, if_true, h1, show hd ([] : Str) ≠ '|' by decide]
    rw [if_neg (by simp; omega)]
  · rcases h3 a ha with h | ⟨t, h, ht⟩
    · simp at h
    · rw [h]; exact ht

/-! ### Comparing atoms -/

theorem predMatch_ok {p q : Pred} (hp : PredOk p) (hq : PredOk q) (hk : Ident (p.key.drop 1)) (hk' : Ident (q.key.drop 1))
    (hinj : p.key.drop 1 = q.key.drop 1 → p.val = q.val) (n : Nat) :
    ∃ r, predMatch (n + 1) (p.print.drop 1) (q.print.drop 1) = some r ∧ r ≠ 2 := by
  have split1 : ∀ {p : Pred}, PredOk p → (p.print.drop 1).drop 1 = p.key.drop 1 ++ '=' :: (p.quote :: p.val ++ p.quote :: [']']) := by
    intro p hp
    obtain ⟨c, cs, h, _⟩ := hp.1
    simp [Pred.print, h]
  rw [predMatch, split1 hp, split1 hq, nextQname_bare (.inl hk) (.inr (by rw [hd_cons]; decide)),
    nextQname_bare (.inl hk') (.inr (by rw [hd_cons]; decide))]
  simp only [ne_eq, not_true_eq_false, false_and, if_false, hd_cons, or_self, List.drop_one, List.tail_cons]
  by_cases hne : p.key.drop 1 = q.key.drop 1
  · simp only [List.drop_one] at hne
    simp only [hne, not_true_eq_false, if_false]
    rw [afterLiteral_quote hp.2.2, afterLiteral_quote hq.2.2]
    have hu : ∀ p : Pred, (upTo (p.val ++ p.quote :: [']']) [']']).dropLast = p.val := by
      intro p
      have := upTo_append (p.val ++ [p.quote]) [']']
      rw [List.append_assoc] at this
      simp only [List.cons_append, List.nil_append] at this
      rw [this]; simp
    have hval := hinj (by simpa using hne)
    simp only [List.cons_append, List.drop_succ_cons, List.drop_zero]
    rw [hu p, hu q, if_pos hval]
    exact ⟨1, rfl, by decide⟩
  · simp only [List.drop_one] at hne
    simp only [hne, not_false_eq_true, if_true]
    exact ⟨0, rfl, by decide⟩

theorem atoms_head {x : XPath} {t : Str} (h : Atoms x t) : ∃ r, t = '/' :: r := by
  cases h <;> exact ⟨_, rfl⟩

/-- Comparing one step that selects the same node. -/
theorem atomsMatch_step {s s' : Step} (hs : StepOk s) (hs' : StepOk s') {i : Inst} (h : s.Selects i) (h' : s'.Selects i) {A B : Str}
    (hA : Stop A) (hB : Stop B) (n : Nat) :
    atomsMatch (n + 1) ('/' :: s.qname ++ A) ('/' :: s'.qname ++ B) =
      if hd A = '[' ∧ hd B = '[' then
        (predMatch ('/' :: s.qname ++ A).length (A.drop 1) (B.drop 1)).map fun r => if r = 2 then 2 else 1
      else if hd A = '[' ∨ hd B = '[' then some 1
      else if A ≠ [] ∧ B ≠ [] then atomsMatch n A B else some 1 := by
  rw [atomsMatch]
  simp only [List.cons_append, List.drop_one, List.tail_cons, nextQname_step hs.1 hs.2.1 hA, nextQname_step hs'.1 hs'.2.1 hB]
  rw [if_neg, if_neg]
  · intro hw
    simp only [Bool.and_eq_true, Bool.not_eq_true', decide_eq_true_eq] at hw
    obtain ⟨⟨w1, w2⟩, w3⟩ := hw
    simp only [wild, Bool.or_eq_false_iff, decide_eq_false_iff_not] at w1 w2
    rcases h.2.1 with e | e
    · exact w1.1 e
    · rcases h'.2.1 with e' | e'
      · exact w2.1 e'
      · exact w3 (e.symm.trans e')
  · rintro ⟨m1, m2, m3⟩
    cases hm : s.mod with
    | none => rw [hm] at m1; exact m1 rfl
    | some a =>
      cases hm' : s'.mod with
      | none => rw [hm'] at m2; exact m2 rfl
      | some b =>
        rw [hm, hm'] at m3
        exact m3 (by rw [Option.getD_some, Option.getD_some, ← h.1 a hm, ← h'.1 b hm'])

theorem stop_nil : Stop [] := .inl rfl
theorem stop_pred (p : Pred) : Stop p.print := .inr (by simp only [Pred.print, List.cons_append, hd_cons]; decide)
theorem stop_atoms {x : XPath} {t : Str} (h : Atoms x t) : Stop t := by
  obtain ⟨r, rfl⟩ := atoms_head h
  exact .inr (by rw [hd_cons]; decide)
theorem hd_pred (p : Pred) : hd p.print = '[' := rfl
theorem hd_atoms {x : XPath} {t : Str} (h : Atoms x t) : hd t = '/' := by
  obtain ⟨r, rfl⟩ := atoms_head h
  rfl

/-- The three forms of an atom in one. -/
theorem atoms_cases {s : Step} {x : XPath} {t : Str} (h : Atoms (s :: x) t) :
    ∃ A, t = '/' :: s.qname ++ A ∧ Stop A ∧ (A = [] ∨ (∃ p ∈ s.preds, A = p.print) ∨ Atoms x A) := by
  cases h with
  | here => exact ⟨[], by simp, stop_nil, .inl rfl⟩
  | pred hp => exact ⟨_, rfl, stop_pred _, .inr (.inl ⟨_, hp, rfl⟩)⟩
  | there ht => exact ⟨_, rfl, stop_atoms ht, .inr (.inr ht)⟩

theorem atomsMatch_ok : ∀ (x : XPath) {a : Str}, Atoms x a → ∀ {y : XPath} {b : Str}, Atoms y b → ∀ {m m' : List Inst} {n : Nat},
    (∀ s ∈ x, StepOk s) → (∀ s ∈ y, StepOk s) → KeyNames (x.keys ++ y.keys) → XPath.Selects x m → XPath.Selects y m' →
    (m <+: m' ∨ m' <+: m) → a.length ≤ n → atomsMatch n a b = some 1
  | [], _, ha, _, _, _, _, _, _, _, _, _, _, _, _, _ => by cases ha
  | s :: x, a, ha, [], b, hb, _, _, _, _, _, _, _, _, _, _ => by cases hb
  | s :: x, a, ha, s' :: y, b, hb, m, m', n, hx, hy, hk, hm, hm', hc, hn => by
    cases m with
    | nil => exact hm.elim
    | cons i m =>
    cases m' with
    | nil => exact hm'.elim
    | cons i' m' =>
    have hii : i' = i ∧ (m <+: m' ∨ m' <+: m) := by
      rcases hc with h | h
      · have := List.cons_prefix_cons.mp h; exact ⟨this.1.symm, .inl this.2⟩
      · have := List.cons_prefix_cons.mp h; exact ⟨this.1, .inr this.2⟩
    obtain ⟨rfl, hc'⟩ := hii
    obtain ⟨A, rfl, sA, hA⟩ := atoms_cases ha
    obtain ⟨B, rfl, sB, hB⟩ := atoms_cases hb
    obtain ⟨n, rfl⟩ : ∃ k, n = k + 1 := ⟨n - 1, by simp at hn; omega⟩
    have okx := hx s (by simp)
    have oky := hy s' (by simp)
    rw [atomsMatch_step okx oky hm.1 hm'.1 sA sB]
    rcases hA with rfl | ⟨p, hp, rfl⟩ | hA
    · rw [if_neg (by simp [hd])]
      split
      · rfl
      · simp
    · rcases hB with rfl | ⟨q, hq, rfl⟩ | hB
      · rw [if_neg (by simp [hd]), if_pos (.inl (hd_pred p))]
      · rw [if_pos ⟨hd_pred p, hd_pred q⟩]
        have kp : p.key ∈ XPath.keys (s :: x) ++ XPath.keys (s' :: y) := by
          simp only [XPath.keys, List.flatMap_cons, List.mem_append, List.mem_map]
          exact .inl (.inl ⟨p, hp, rfl⟩)
        have kq : q.key ∈ XPath.keys (s :: x) ++ XPath.keys (s' :: y) := by
          simp only [XPath.keys, List.flatMap_cons, List.mem_append, List.mem_map]
          exact .inr (.inl ⟨q, hq, rfl⟩)
        obtain ⟨r, hr, hr2⟩ := predMatch_ok (okx.2.2 p hp) (oky.2.2 q hq) (hk.1 _ kp) (hk.1 _ kq) (fun e => by
          have e2 := hk.2 _ kp _ kq e
          have e3 := hm.1.2.2 p hp
          have e4 := hm'.1.2.2 q hq
          rw [e2, e4] at e3
          simpa using e3.symm) (s.qname ++ p.print).length
        rw [show ('/' :: s.qname ++ p.print).length = (s.qname ++ p.print).length + 1 from rfl, hr]
        simp [hr2]
      · rw [if_neg (by rw [hd_atoms hB]; simp), if_pos (.inl (hd_pred p))]
    · rcases hB with rfl | ⟨q, hq, rfl⟩ | hB
      · rw [if_neg (by simp [hd])]
        split
        · rfl
        · simp
      · rw [if_neg (by rw [hd_atoms hA]; simp), if_pos (.inr (hd_pred q))]
      · rw [if_neg (by rw [hd_atoms hA]; simp), if_neg (by rw [hd_atoms hA, hd_atoms hB]; simp)]
        obtain ⟨ra, hra⟩ := atoms_head hA
        obtain ⟨rb, hrb⟩ := atoms_head hB
        rw [if_pos ⟨by simp [hra], by simp [hrb]⟩]
        refine atomsMatch_ok x hA hB (fun q hq => hx q (by simp [hq])) (fun q hq => hy q (by simp [hq])) ?_ hm.2 hm'.2 hc' ?_
        · have sub : ∀ k, k ∈ XPath.keys x ++ XPath.keys y → k ∈ XPath.keys (s :: x) ++ XPath.keys (s' :: y) := by
            intro k h
            simp only [XPath.keys, List.flatMap_cons, List.mem_append] at h ⊢
            exact h.imp .inr .inr
          exact ⟨fun k h => hk.1 k (sub k h), fun k h l h' => hk.2 k (sub k h) l (sub l h')⟩
        · simp only [List.length_append, List.length_cons] at hn; omega

theorem subLoop_ok {a : Atom} : ∀ {bs : List Atom} {req : Bool}, (∀ b ∈ bs, atomsMatch a.text.length a.text b.text = some 1) →
    subLoop a bs req = some (req || !bs.isEmpty, false)
  | [], req, _ => by simp [subLoop]
  | b :: bs, req, h => by
    rw [subLoop, h b (by simp)]
    simp only [show ¬ (1 = 0 ∧ a.selected = true ∧ b.selected = true) by simp, if_false, if_true]
    rw [subLoop_ok (fun b hb => h b (by simp [hb]))]
    simp

theorem reqLoop_ok {bs : List Atom} (hb : bs ≠ []) : ∀ {as : List Atom} {req : Bool},
    (∀ a ∈ as, ∀ b ∈ bs, atomsMatch a.text.length a.text b.text = some 1) → reqLoop bs as req = some (req || !as.isEmpty)
  | [], req, _ => by simp [reqLoop]
  | a :: as, req, h => by
    rw [reqLoop, subLoop_ok (h a (by simp))]
    simp only
    rw [reqLoop_ok hb (fun a ha => h a (by simp [ha]))]
    cases bs <;> simp_all

theorem required_of_common {x y : XPath} (hx : XPath.Valid x) (hy : XPath.Valid y) (hk : KeyNames (x.keys ++ y.keys)) {m m' : List Inst}
    (hm : XPath.Selects x m) (hm' : XPath.Selects y m') (hc : m <+: m' ∨ m' <+: m) :
    required (XPath.print x) (XPath.print y) = some true := by
  obtain ⟨as, h1, h2, h3⟩ := textAtoms_ok hx.1 hx.2
  obtain ⟨bs, g1, g2, g3⟩ := textAtoms_ok hy.1 hy.2
  simp only [required, h1, g1, List.flatMap_cons, List.flatMap_nil, List.map_cons, List.map_nil, List.append_nil, anyPart]
  rw [reqLoop_ok g2 (fun a ha b hb => atomsMatch_ok x (h3 a ha) (g3 b hb) hx.2 hy.2 hk hm hm' hc (Nat.le_refl _))]
  cases as with
  | nil => exact absurd rfl h2
  | cons a as => simp

end Verif.OperFilter
