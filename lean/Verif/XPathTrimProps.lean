import Verif.XPathTrim
/-! C50: cutting XPaths. The specification is the syntax in `Verif.XPathTrim` (`Item`, `itemsText`, `withoutPreds`). -/
namespace Verif.XPathTrim

theorem quote_cases (d : Bool) : quote d = '\'' ∨ quote d = '"' := by cases d <;> simp [quote]

/-- A literal is copied whole. -/
theorem loop_lit (q : Char) (t : List Char) : ∀ (k : Nat) (str chunk rest : List Char), q ∉ t →
    trimLoop (some q) k str chunk (t ++ q :: rest) = trimLoop none k str (chunk ++ t ++ [q]) rest := by
  induction t with
  | nil => intro k str chunk rest _; simp [trimLoop]
  | cons c t ih =>
    intro k str chunk rest h
    simp only [List.mem_cons, not_or] at h
    simp only [List.cons_append, trimLoop]
    rw [if_neg (fun e => h.1 e.symm), ih _ _ _ _ h.2]
    simp

mutual
/-- Inside of a predicate: nothing goes to the output. -/
theorem item_inside (i : Item) (h : i.Valid) (k : Nat) (str chunk rest : List Char) :
    ∃ chunk', trimLoop none (k + 1) str chunk (i.text ++ rest) = trimLoop none (k + 1) str chunk' rest := by
  cases i with
  | ch c =>
    simp only [Item.Valid] at h
    refine ⟨chunk ++ [c], ?_⟩
    simp [Item.text, trimLoop, h]
  | lit d t =>
    simp only [Item.Valid] at h
    refine ⟨chunk ++ [quote d] ++ t ++ [quote d], ?_⟩
    simp only [Item.text, List.cons_append, List.append_assoc, List.nil_append]
    rw [trimLoop]
    simp only [quote_cases d, if_true]
    rw [loop_lit _ _ _ _ _ _ h]
    simp
  | pred is =>
    simp only [Item.Valid] at h
    obtain ⟨c', hc⟩ := items_inside is h (k + 1) str (chunk ++ ['[']) (']' :: rest)
    refine ⟨c' ++ [']'], ?_⟩
    simp only [Item.text, List.cons_append, List.append_assoc, List.nil_append]
    rw [trimLoop]
    simp only [show ¬ ('[' = '\'' ∨ '[' = '"') by decide, if_false, if_true, show ¬ (k + 1 + 1 = 1) by omega]
    rw [hc, trimLoop]
    simp [show ¬ (']' = '\'' ∨ ']' = '"') by decide]
theorem items_inside (is : List Item) (h : itemsValid is) (k : Nat) (str chunk rest : List Char) :
    ∃ chunk', trimLoop none (k + 1) str chunk (itemsText is ++ rest) = trimLoop none (k + 1) str chunk' rest := by
  cases is with
  | nil => exact ⟨chunk, by simp [itemsText]⟩
  | cons i is =>
    simp only [itemsValid] at h
    obtain ⟨c1, h1⟩ := item_inside i h.1 k str chunk (itemsText is ++ rest)
    obtain ⟨c2, h2⟩ := items_inside is h.2 k str c1 rest
    refine ⟨c2, ?_⟩
    rw [itemsText, List.append_assoc, h1, h2]
end

/-- Outside of predicates. -/
theorem items_outside (is : List Item) : ∀ (str chunk : List Char), itemsValid is →
    trimLoop none 0 str chunk (itemsText is) = some (str ++ chunk ++ itemsText (withoutPreds is)) := by
  induction is with
  | nil => intro str chunk _; simp [itemsText, withoutPreds, trimLoop]
  | cons i is ih =>
    intro str chunk h
    simp only [itemsValid] at h
    cases i with
    | ch c =>
      have hv := h.1
      simp only [Item.Valid] at hv
      have e : withoutPreds (.ch c :: is) = .ch c :: withoutPreds is := by simp [withoutPreds]
      rw [e]
      simp [itemsText, Item.text, trimLoop, hv, ih _ _ h.2]
    | lit d t =>
      have hv := h.1
      simp only [Item.Valid] at hv
      have e : withoutPreds (.lit d t :: is) = .lit d t :: withoutPreds is := by simp [withoutPreds]
      rw [e]
      simp only [itemsText, Item.text, List.cons_append, List.append_assoc, List.nil_append]
      rw [trimLoop]
      simp only [quote_cases d, if_true]
      rw [loop_lit _ _ _ _ _ _ hv, ih _ _ h.2]
      simp
    | pred p =>
      have hv := h.1
      simp only [Item.Valid] at hv
      have e : withoutPreds (.pred p :: is) = withoutPreds is := by simp [withoutPreds]
      rw [e]
      simp only [itemsText, Item.text, List.cons_append, List.append_assoc, List.nil_append]
      rw [trimLoop]
      simp only [show ¬ ('[' = '\'' ∨ '[' = '"') by decide, if_false, if_true, Nat.zero_add]
      obtain ⟨c', hc⟩ := items_inside p hv 0 (str ++ chunk) (chunk ++ ['[']) (']' :: itemsText is)
      rw [hc, trimLoop]
      simp only [show ¬ (']' = '\'' ∨ ']' = '"') by decide, show ¬ (']' = '[') by decide, if_false, if_true,
        show ¬ (0 + 1 = 0) by omega, Nat.add_sub_cancel]
      rw [ih _ _ h.2]
      simp

/-- An unfinished literal is an error. -/
theorem loop_quot (q : Char) (cs : List Char) : ∀ (k : Nat) (str chunk r : List Char),
    trimLoop (some q) k str chunk cs = some r → ∃ t rest, cs = t ++ q :: rest ∧ q ∉ t := by
  induction cs with
  | nil => intro k str chunk r h; simp [trimLoop] at h
  | cons c cs ih =>
    intro k str chunk r h
    simp only [trimLoop] at h
    by_cases hc : c = q
    · subst hc; exact ⟨[], cs, by simp, by simp⟩
    · rw [if_neg hc] at h
      obtain ⟨t, rest, rfl, ht⟩ := ih _ _ _ _ h
      exact ⟨c :: t, rest, by simp, by simp [ht]; exact fun e => hc e.symm⟩

/-- Accepted strings are expressions; a string accepted in a predicate has the end of the predicate. -/
theorem accepted (n : Nat) : ∀ cs : List Char, cs.length ≤ n →
    (∀ str chunk r, trimLoop none 0 str chunk cs = some r → ∃ is, itemsValid is ∧ itemsText is = cs) ∧
    (∀ k str chunk r, trimLoop none (k + 1) str chunk cs = some r →
      ∃ is rest, itemsValid is ∧ cs = itemsText is ++ ']' :: rest ∧
        ∃ str' chunk', trimLoop none k str' chunk' rest = some r) := by
  induction n with
  | zero =>
    intro cs hlen
    have : cs = [] := List.length_eq_zero_iff.mp (by omega)
    subst this
    exact ⟨fun _ _ _ _ => ⟨[], by simp [itemsValid], by simp [itemsText]⟩, fun k str chunk r h => by simp [trimLoop] at h⟩
  | succ n ih =>
    intro cs hlen
    cases cs with
    | nil => exact ⟨fun _ _ _ _ => ⟨[], by simp [itemsValid], by simp [itemsText]⟩, fun k str chunk r h => by simp [trimLoop] at h⟩
    | cons c cs =>
      simp only [List.length_cons] at hlen
      -- a literal at the beginning
      have lit : ∀ d, c = quote d → ∀ (k : Nat) (str chunk r : List Char), trimLoop none k str chunk (c :: cs) = some r →
          ∃ t rest, cs = t ++ quote d :: rest ∧ quote d ∉ t ∧ ∃ chunk', trimLoop none k str chunk' rest = some r := by
        intro d hd k str chunk r h
        rw [trimLoop] at h
        have : c = '\'' ∨ c = '"' := hd ▸ quote_cases d
        simp only [this, if_true] at h
        obtain ⟨t, rest, e, ht⟩ := loop_quot _ _ _ _ _ _ h
        rw [e, loop_lit _ _ _ _ _ _ ht] at h
        exact ⟨t, rest, hd ▸ e, hd ▸ ht, _, h⟩
      constructor
      · intro str chunk r h
        by_cases hq : c = '\'' ∨ c = '"'
        · have : ∃ d, c = quote d := by
            rcases hq with rfl | rfl
            · exact ⟨false, by simp [quote]⟩
            · exact ⟨true, by simp [quote]⟩
          obtain ⟨d, hd⟩ := this
          obtain ⟨t, rest, e, ht, chunk', h'⟩ := lit d hd _ _ _ _ h
          obtain ⟨is, h1, h2⟩ := (ih rest (by rw [e] at hlen; simp at hlen; omega)).1 _ _ _ h'
          exact ⟨.lit d t :: is, by simp [itemsValid, Item.Valid, ht, h1], by simp [itemsText, Item.text, e, hd, h2]⟩
        · rw [trimLoop] at h
          simp only [hq, if_false] at h
          by_cases hb : c = '['
          · subst hb
            simp only [if_true, Nat.zero_add] at h
            obtain ⟨is, rest, h1, e, s', c', h'⟩ := (ih cs (by omega)).2 0 _ _ _ h
            obtain ⟨is', h1', h2'⟩ := (ih rest (by rw [e] at hlen; simp at hlen; omega)).1 _ _ _ h'
            exact ⟨.pred is :: is', by simp [itemsValid, Item.Valid, h1, h1'], by simp [itemsText, Item.text, e, h2']⟩
          · simp only [hb, if_false] at h
            by_cases hbe : c = ']'
            · simp [hbe] at h
            · simp only [hbe, if_false] at h
              obtain ⟨is, h1, h2⟩ := (ih cs (by omega)).1 _ _ _ h
              refine ⟨.ch c :: is, ?_, by simp [itemsText, Item.text, h2]⟩
              simp only [not_or] at hq
              simp [itemsValid, Item.Valid, h1, hq, hb, hbe]
      · intro k str chunk r h
        by_cases hq : c = '\'' ∨ c = '"'
        · have : ∃ d, c = quote d := by
            rcases hq with rfl | rfl
            · exact ⟨false, by simp [quote]⟩
            · exact ⟨true, by simp [quote]⟩
          obtain ⟨d, hd⟩ := this
          obtain ⟨t, rest, e, ht, chunk', h'⟩ := lit d hd _ _ _ _ h
          obtain ⟨is, rest', h1, h2, h3⟩ := (ih rest (by rw [e] at hlen; simp at hlen; omega)).2 _ _ _ _ h'
          exact ⟨.lit d t :: is, rest', by simp [itemsValid, Item.Valid, ht, h1], by simp [itemsText, Item.text, e, hd, h2], h3⟩
        · rw [trimLoop] at h
          simp only [hq, if_false] at h
          by_cases hb : c = '['
          · subst hb
            simp only [if_true] at h
            obtain ⟨is, rest, h1, e, s', c', h'⟩ := (ih cs (by omega)).2 (k + 1) _ _ _ h
            obtain ⟨is', rest', h1', h2', h3'⟩ := (ih rest (by rw [e] at hlen; simp at hlen; omega)).2 _ _ _ _ h'
            exact ⟨.pred is :: is', rest', by simp [itemsValid, Item.Valid, h1, h1'], by simp [itemsText, Item.text, e, h2'], h3'⟩
          · simp only [hb, if_false] at h
            by_cases hbe : c = ']'
            · subst hbe
              simp only [if_true, Nat.add_sub_cancel, show ¬ (k + 1 = 0) by omega, if_false] at h
              exact ⟨[], cs, by simp [itemsValid], by simp [itemsText], _, _, h⟩
            · simp only [hbe, if_false] at h
              obtain ⟨is, rest, h1, h2, h3⟩ := (ih cs (by omega)).2 _ _ _ _ h
              refine ⟨.ch c :: is, rest, ?_, by simp [itemsText, Item.text, h2], h3⟩
              simp only [not_or] at hq
              simp [itemsValid, Item.Valid, h1, hq, hb, hbe]

/-- C50, `sr_get_trim_predicates`: the result is the expression without its predicates, whatever the literals and predicates contain, and
exactly the strings that are no expressions are refused. -/
theorem trim_predicates_exact (s r : List Char) :
    trimPredicates s = some r ↔ ∃ is, itemsValid is ∧ itemsText is = s ∧ itemsText (withoutPreds is) = r := by
  constructor
  · intro h
    obtain ⟨is, h1, h2⟩ := (accepted s.length s (Nat.le_refl _)).1 _ _ _ h
    refine ⟨is, h1, h2, ?_⟩
    have := items_outside is [] [] h1
    rw [h2] at this
    rw [trimPredicates, this] at h
    simpa using h
  · rintro ⟨is, h1, rfl, rfl⟩
    simpa [trimPredicates] using items_outside is [] [] h1

/-! ### The last node -/

theorem lastSlash_plain (a : List Char) : ∀ rest : List Char, '/' ∉ a → ']' ∉ a →
    lastSlash false (a ++ rest) = lastSlash false rest := by
  induction a with
  | nil => simp
  | cons c a ih =>
    intro rest h1 h2
    simp only [List.mem_cons, not_or] at h1 h2
    simp only [List.cons_append, lastSlash]
    rw [if_neg (by simp; exact fun e => h1.1 e.symm), if_neg (by simp), if_neg (fun e => h2.1 e.symm)]
    exact ih rest h1.2 h2.2

theorem lastSlash_skip (a : List Char) : ∀ rest : List Char, '[' ∉ a →
    lastSlash true (a ++ '[' :: rest) = lastSlash false rest := by
  induction a with
  | nil => simp [lastSlash]
  | cons c a ih =>
    intro rest h1
    simp only [List.mem_cons, not_or] at h1
    simp only [List.cons_append, lastSlash]
    rw [if_neg (by simp), if_neg (by simp; exact fun e => h1.1 e.symm)]
    rw [ih rest h1.2]
    simp

theorem lastSlash_pred {p : List Char} (h : IsSimplePred p) (rest : List Char) :
    lastSlash false (p.reverse ++ rest) = lastSlash false rest := by
  obtain ⟨x, rfl, h1, h2⟩ := h
  simp only [List.reverse_cons, List.reverse_append, List.reverse_nil, List.nil_append, List.cons_append, List.append_assoc]
  rw [lastSlash, if_neg (by simp), if_neg (by simp), if_pos rfl]
  exact lastSlash_skip _ _ (by simpa using h1)

theorem lastSlash_preds (ps : List (List Char)) : (∀ p ∈ ps, IsSimplePred p) → ∀ rest,
    lastSlash false (ps.flatten.reverse ++ rest) = lastSlash false rest := by
  induction ps with
  | nil => simp
  | cons p ps ih =>
    intro h rest
    simp only [List.flatten_cons, List.reverse_append, List.append_assoc]
    rw [ih (fun q hq => h q (by simp [hq])), lastSlash_pred (h p (by simp))]

/-- C50, `sr_xpath_trim_last_node`: the last node with its predicates is cut off; `pre` is what is in front of it. Missing: predicates with
brackets inside (`bracket_in_value`, `nested_predicate`). -/
theorem trim_last_partial (pre name : List Char) (preds : List (List Char)) (double : Bool)
    (hname : '/' ∉ name ∧ '[' ∉ name ∧ ']' ∉ name) (hpreds : ∀ p ∈ preds, IsSimplePred p) (hpre : pre.getLast? ≠ some '/') :
    trimLast (pre ++ (if double then ['/', '/'] else ['/']) ++ name ++ preds.flatten) =
      if pre = [] ∧ double = false then .whole else .parent pre := by
  have e : lastSlash false (pre ++ (if double then ['/', '/'] else ['/']) ++ name ++ preds.flatten).reverse =
      some ('/' :: ((if double then ['/'] else []) ++ pre.reverse)) := by
    simp only [List.reverse_append, List.append_assoc]
    rw [lastSlash_preds preds hpreds, lastSlash_plain _ _ (by simpa using hname.1) (by simpa using hname.2.2)]
    cases double <;> simp [lastSlash]
  unfold trimLast
  rw [e]
  cases double
  · by_cases hp : pre = []
    · subst hp; simp
    · have h' : pre.reverse.head? ≠ some '/' := by rw [List.head?_reverse]; exact hpre
      simp [hp, h']
      exact fun h => absurd h hpre
  · simp

example : trimLast "/m:a/b[k='/x/'][l='']".toList = .parent "/m:a".toList ∧
    IsSimplePred "[k='/x/']".toList ∧ trimLast "/m:a[k='1']".toList = .whole ∧ trimLast "/m:a//b".toList = .parent "/m:a".toList := by
  refine ⟨by decide, ⟨"k='/x/'".toList, by decide, by decide, by decide⟩, by decide, by decide⟩

/-- Finding: a bracket in a value. -/
theorem bracket_in_value : trimLast "/m:a/b[k='/[']".toList = .parent "/m:a/b[k='".toList := by decide

/-- Finding: a predicate in a predicate. -/
theorem nested_predicate : trimLast "/m:a/b[x/c[1]]".toList = .parent "/m:a/b[x".toList := by decide

/-! ### The length -/

theorem len_lit (q : Char) (t : List Char) : ∀ (k : Int) (n : Nat) (rest : List Char), q ∉ t →
    lenLoop (some q) k n (t ++ q :: rest) = lenLoop none k n rest := by
  induction t with
  | nil => intro k n rest _; simp [lenLoop]
  | cons c t ih =>
    intro k n rest h
    simp only [List.mem_cons, not_or] at h
    simp only [List.cons_append, lenLoop]
    rw [if_neg (fun e => h.1 e.symm), ih _ _ _ h.2]

mutual
/-- The characters outside of literals and brackets. -/
def Item.plain : Item → Nat
  | .ch _ => 1
  | .lit _ _ => 0
  | .pred is => itemsPlain is
def itemsPlain : List Item → Nat
  | [] => 0
  | i :: is => i.plain + itemsPlain is
end

mutual
theorem len_item (i : Item) (h : i.Valid) (k : Int) (n : Nat) (rest : List Char) :
    lenLoop none k n (i.text ++ rest) = lenLoop none k (n + i.plain) rest := by
  cases i with
  | ch c =>
    simp only [Item.Valid] at h
    simp [Item.text, lenLoop, h, Item.plain]
  | lit d t =>
    simp only [Item.Valid] at h
    simp only [Item.text, List.cons_append, List.append_assoc, List.nil_append, Item.plain, Nat.add_zero]
    rw [lenLoop]
    have h1 : quote d ≠ '[' := by cases d <;> decide
    have h2 : quote d ≠ ']' := by cases d <;> decide
    simp only [h1, h2, quote_cases d, if_true, if_false]
    exact len_lit _ _ _ _ _ h
  | pred is =>
    simp only [Item.Valid] at h
    simp only [Item.text, List.cons_append, List.append_assoc, List.nil_append, Item.plain]
    rw [lenLoop]
    simp only [if_true]
    rw [len_items is h, lenLoop]
    simp only [show ¬ (']' = '[') by decide, if_true, if_false]
    have : k + 1 - 1 = k := by omega
    rw [this]
theorem len_items (is : List Item) (h : itemsValid is) (k : Int) (n : Nat) (rest : List Char) :
    lenLoop none k n (itemsText is ++ rest) = lenLoop none k (n + itemsPlain is) rest := by
  cases is with
  | nil => simp [itemsText, itemsPlain]
  | cons i is =>
    simp only [itemsValid] at h
    rw [itemsText, List.append_assoc, len_item i h.1, len_items is h.2, itemsPlain, Nat.add_assoc]
end

/-- C50, `sr_xpath_len_no_predicates`: the number of characters outside of literals and brackets, predicates included. -/
theorem len_counts (is : List Item) (h : itemsValid is) : lenNoPredicates (itemsText is) = itemsPlain is := by
  have := len_items is h 0 0 []
  simpa [lenNoPredicates, lenLoop] using this

theorem plain_chars (is : List Item) (h : ∀ i ∈ is, ∃ c, i = .ch c) : itemsPlain is = (itemsText is).length := by
  induction is with
  | nil => simp [itemsPlain, itemsText]
  | cons i is ih =>
    obtain ⟨c, rfl⟩ := h i (by simp)
    simp [itemsPlain, itemsText, Item.plain, Item.text, ih (fun j hj => h j (by simp [hj]))]
    omega

/-- C50: for a path without predicates it is its length. -/
theorem len_plain_path_partial (s : List Char) (h : ∀ c ∈ s, c ≠ '\'' ∧ c ≠ '"' ∧ c ≠ '[' ∧ c ≠ ']') :
    lenNoPredicates s = s.length := by
  have key : ∀ s : List Char, (∀ c ∈ s, c ≠ '\'' ∧ c ≠ '"' ∧ c ≠ '[' ∧ c ≠ ']') →
      itemsValid (s.map .ch) ∧ itemsText (s.map .ch) = s := by
    intro s
    induction s with
    | nil => intro _; simp [itemsValid, itemsText]
    | cons c s ih =>
      intro h
      obtain ⟨h1, h2⟩ := ih (fun d hd => h d (by simp [hd]))
      simp [itemsValid, itemsText, Item.Valid, Item.text, h1, h2, h c (by simp)]
  obtain ⟨h1, h2⟩ := key s h
  have := len_counts _ h1
  rw [h2] at this
  rw [this, plain_chars _ (by simp), h2]

/-- Finding: the names and operators in predicates are counted, so the length of a parent may be greater than of its child. -/
theorem predicate_counted : lenNoPredicates "/m:list[name='x']".toList = 12 ∧ lenNoPredicates "/m:list/a".toList = 9 ∧
    trimPredicates "/m:list[name='x']".toList = some "/m:list".toList := by decide

example : itemsValid [.ch '/', .ch 'a', .pred [.ch 'k', .ch '=', .lit false [']', '"', '/']], .ch '/', .ch 'b'] ∧
    itemsText [.ch '/', .ch 'a', .pred [.ch 'k', .ch '=', .lit false [']', '"', '/']], .ch '/', .ch 'b'] = "/a[k=']\"/']/b".toList ∧
    trimPredicates "/a[k=']\"/']/b".toList = some "/a/b".toList ∧ trimPredicates "/a[k='x]".toList = none := by
  refine ⟨by simp [itemsValid, Item.Valid, quote], by simp [itemsText, Item.text, quote], by decide, by decide⟩

end Verif.XPathTrim
