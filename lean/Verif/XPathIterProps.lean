import Verif.XPathUtilProps
/-!
C49: the XPath iterator returns the nodes and keys of a path. Specification: the syntax of the paths (`Node`, `pathText`) and the
iteration over the nodes and keys themselves (`At`, `At.step`).
-/
namespace Verif.XPathUtil

/-! ## Specification -/

/-- A key predicate. -/
structure KeyPred where
  key : List Char
  double : Bool
  value : List Char

/-- A node of a path. -/
structure Node where
  pfx : Option (List Char)
  name : List Char
  preds : List KeyPred

def quoteOf (double : Bool) : Char := if double then '"' else '\''

def KeyPred.text (p : KeyPred) : List Char := ['['] ++ p.key ++ ['='] ++ [quoteOf p.double] ++ p.value ++ [quoteOf p.double] ++ [']']
def Node.full (n : Node) : List Char := match n.pfx with | none => n.name | some m => m ++ [':'] ++ n.name
def predsText (ps : List KeyPred) : List Char := (ps.map KeyPred.text).flatten
def Node.text (n : Node) : List Char := ['/'] ++ n.full ++ predsText n.preds
/-- The path, for example `/m:list[key='value']/leaf`. -/
def pathText (ns : List Node) : List Char := (ns.map Node.text).flatten

/-- A name has no special characters. -/
def IsName (t : List Char) : Prop := ∀ c ∈ t, c ≠ '\x00' ∧ c ≠ '/' ∧ c ≠ ':' ∧ c ≠ '[' ∧ c ≠ ']' ∧ c ≠ '=' ∧ c ≠ '\'' ∧ c ≠ '"'

def KeyPred.Valid (p : KeyPred) : Prop := IsName p.key ∧ '\x00' ∉ p.value ∧ quoteOf p.double ∉ p.value
def Node.Valid (n : Node) : Prop := IsName n.name ∧ (∀ m, n.pfx = some m → IsName m) ∧ ∀ p ∈ n.preds, p.Valid

/-- Where the iteration is: after a node, a key name or a key value. The lists are what follows. -/
inductive At where
  | node (preds : List KeyPred) (nodes : List Node)
  | name (p : KeyPred) (preds : List KeyPred) (nodes : List Node)
  | value (p : KeyPred) (preds : List KeyPred) (nodes : List Node)

def At.preds : At → List KeyPred | .node ps _ => ps | .name _ ps _ => ps | .value _ ps _ => ps
def At.nodes : At → List Node | .node _ ns => ns | .name _ _ ns => ns | .value _ _ ns => ns

/-- The next node, next key name and next key value. -/
inductive Step where
  | node | nodeNs | keyName | keyValue

def Step.op : Step → Op
  | .node => .nextNode
  | .nodeNs => .nextNodeWithNs
  | .keyName => .nextKeyName
  | .keyValue => .nextKeyValue

/-- What the iteration returns and where it gets. -/
def At.step (a : At) : Step → Option (List Char) × At
  | .node => match a.nodes with | [] => (none, a) | n :: ns => (some n.name, .node n.preds ns)
  | .nodeNs => match a.nodes with | [] => (none, a) | n :: ns => (some n.full, .node n.preds ns)
  | .keyName => match a.preds with | [] => (none, a) | p :: ps => (some p.key, .name p ps a.nodes)
  | .keyValue =>
    match a with
    | .name p ps ns => (some p.value, .value p ps ns)
    | _ => match a.preds with | [] => (none, a) | p :: ps => (some p.value, .value p ps a.nodes)

/-- The results of a sequence. -/
def At.run (a : At) : List Step → List (Option (List Char))
  | [] => []
  | s :: ss => (a.step s).1 :: (a.step s).2.run ss

/-- The strings that the calls return; the path is passed in the first one only. -/
def results (fuel : Nat) (xp : Bool) (st : St) : List Op → Option (List (Option (List Char)))
  | [] => some []
  | op :: ops =>
    match op.exec fuel xp st with
    | .ok none st' => (results fuel false st' ops).map (none :: ·)
    | .ok (some i) st' =>
      match cstr (st'.buf.drop i) with
      | none => none
      | some t => (results fuel false st' ops).map (some t :: ·)
    | _ => none

/-! ## Scanning -/

/-- The text is passed by the search. -/
def Passes (stop : Char → Bool) (A : List Char) : Prop :=
  ∀ rest i, scanQ stop none (A ++ rest) i = scanQ stop none rest (i + A.length)

theorem passes_append {stop : Char → Bool} {A B : List Char} (h : Passes stop A) (h2 : Passes stop B) : Passes stop (A ++ B) := by
  intro rest i
  rw [List.append_assoc, h, h2, List.length_append, Nat.add_assoc]

theorem passes_plain {stop : Char → Bool} {A : List Char} (h : ∀ c ∈ A, c ≠ nul ∧ stop c = false ∧ isQuote c = false) : Passes stop A := by
  intro rest
  induction A with
  | nil => intro i; simp
  | cons a A ih =>
    intro i
    obtain ⟨h1, h2, h3⟩ := h a (by simp)
    simp only [List.cons_append, scanQ]
    rw [if_neg (by simp [h1, h2]), if_neg (by simp), if_neg (by simp [h3]), ih (fun c hc => h c (by simp [hc]))]
    simp; congr 1; omega

theorem scanQ_in (stop : Char → Bool) (q : Char) (v : List Char) (h : nul ∉ v) (h2 : q ∉ v) (hq : q ≠ nul) : ∀ rest i,
    scanQ stop (some q) (v ++ q :: rest) i = scanQ stop none rest (i + v.length + 1) := by
  induction v with
  | nil => intro rest i; simp [scanQ, hq]
  | cons a v ih =>
    intro rest i
    simp only [List.mem_cons, not_or] at h h2
    simp only [List.cons_append, scanQ]
    rw [if_neg (by simp; exact fun e => h.1 e.symm), if_neg (by simp; exact h2.1), if_neg (by simp), ih h.2 h2.2]
    simp; congr 1; omega

theorem quoteOf_facts (d : Bool) : quoteOf d ≠ nul ∧ isQuote (quoteOf d) = true ∧ quoteOf d ≠ '/' ∧ quoteOf d ≠ '[' := by
  cases d <;> decide

theorem passes_quoted {stop : Char → Bool} {d : Bool} {v : List Char} (h : nul ∉ v) (h2 : quoteOf d ∉ v) (hs : stop (quoteOf d) = false) :
    Passes stop (quoteOf d :: (v ++ [quoteOf d])) := by
  intro rest i
  obtain ⟨q1, q2, _⟩ := quoteOf_facts d
  simp only [List.cons_append, List.append_assoc, List.nil_append, scanQ]
  rw [if_neg (by simp [q1, hs]), if_neg (by simp), if_pos (by simp [q2]), scanQ_in _ _ _ h h2 q1]
  simp; congr 1; omega

theorem scanQ_stop {stop : Char → Bool} {c : Char} (h : c = nul ∨ stop c = true) (rest : List Char) (i : Nat) :
    scanQ stop none (c :: rest) i = some i := by
  simp only [scanQ]
  rw [if_pos (by rcases h with h | h <;> simp [h])]

theorem scan_to {stop : Char → Bool} {A : List Char} (h : ∀ c ∈ A, c ≠ nul ∧ stop c = false) {c : Char} (hc : c = nul ∨ stop c = true)
    (rest : List Char) : ∀ i, scan stop (A ++ c :: rest) i = some (i + A.length) := by
  induction A with
  | nil => intro i; simp [scan, hc]
  | cons a A ih =>
    intro i
    obtain ⟨h1, h2⟩ := h a (by simp)
    simp only [List.cons_append, scan]
    rw [if_neg (by simp [h1, h2]), ih (fun c hc => h c (by simp [hc]))]
    simp; omega

/-! ## The text that follows -/

/-- What is in the string from the remembered position on. After a node there may be a part of its name. -/
def Follows (a : At) (L : List Char) : Prop :=
  match a with
  | .node ps ns => ∃ pre, IsName pre ∧ L = pre ++ predsText ps ++ pathText ns ++ [nul]
  | .name p ps ns => L = ['=', quoteOf p.double] ++ p.value ++ [quoteOf p.double, ']'] ++ predsText ps ++ pathText ns ++ [nul]
  | .value p ps ns => L = [quoteOf p.double, ']'] ++ predsText ps ++ pathText ns ++ [nul]

def At.Valid (a : At) : Prop :=
  (∀ p ∈ a.preds, p.Valid) ∧ (∀ n ∈ a.nodes, n.Valid) ∧ match a with | .name p _ _ => p.Valid | _ => True

structure Sim (s : List Char) (a : At) (st : St) : Prop where
  inv : Inv s st
  valid : a.Valid
  follows : ∃ p, st.pos = some p ∧ Follows a ((orig s).drop p)

theorem name_passes {stop : Char → Bool} {t : List Char} (h : IsName t) (hs : ∀ c, stop c = true → c = '/' ∨ c = '[') : Passes stop t := by
  apply passes_plain
  intro c hc
  obtain ⟨h1, h2, h3, h4, h5, h6, h7, h8⟩ := h c hc
  refine ⟨h1, ?_, by simp [isQuote, h7, h8]⟩
  cases hst : stop c
  · rfl
  · rcases hs c hst with h | h
    · exact absurd h h2
    · exact absurd h h4

theorem pred_passes {p : KeyPred} (h : p.Valid) : Passes (fun c => decide (c = '/')) p.text := by
  unfold KeyPred.text
  have hs : ∀ c, decide (c = '/') = true → c = '/' ∨ c = '[' := by intro c h; simp at h; exact .inl h
  have q := passes_quoted (stop := fun c => decide (c = '/')) h.2.1 h.2.2 (by simp [(quoteOf_facts p.double).2.2.1])
  have e : ['['] ++ p.key ++ ['='] ++ [quoteOf p.double] ++ p.value ++ [quoteOf p.double] ++ [']'] =
      ['['] ++ p.key ++ ['='] ++ (quoteOf p.double :: (p.value ++ [quoteOf p.double])) ++ [']'] := by simp
  rw [e]
  refine passes_append (passes_append (passes_append (passes_append ?_ (name_passes h.1 hs)) ?_) q) ?_
  all_goals (apply passes_plain; intro c hc; simp only [List.mem_singleton] at hc; subst hc; decide)

theorem preds_passes {ps : List KeyPred} (h : ∀ p ∈ ps, p.Valid) : Passes (fun c => decide (c = '/')) (predsText ps) := by
  induction ps with
  | nil => intro rest i; simp [predsText]
  | cons p ps ih =>
    have e : predsText (p :: ps) = p.text ++ predsText ps := by simp [predsText]
    rw [e]
    exact passes_append (pred_passes (h p (by simp))) (ih (fun q hq => h q (by simp [hq])))

/-- The text from the search position to the predicates that follow. -/
theorem follows_split {a : At} {L : List Char} (hv : a.Valid) (h : Follows a L) :
    ∃ c L', L = c :: L' ∧ ∃ lead, (if isQuote c then L' else L) = lead ++ predsText a.preds ++ pathText a.nodes ++ [nul] ∧
      (∀ stop : Char → Bool, (∀ c, stop c = true → c = '/' ∨ c = '[') → Passes stop lead) ∧
      ((∀ p ps ns, a ≠ .name p ps ns) → ∀ c ∈ lead, c ≠ nul ∧ c ≠ '/' ∧ isQuote c = false) := by
  have rb : ∀ (stop : Char → Bool), (∀ c, stop c = true → c = '/' ∨ c = '[') → ∀ d, (d = ']' ∨ d = '=') → Passes stop [d] := by
    intro stop hs d hd
    apply passes_plain
    intro c hc
    simp only [List.mem_singleton] at hc
    subst hc
    refine ⟨by rcases hd with rfl | rfl <;> decide, ?_, by rcases hd with rfl | rfl <;> decide⟩
    cases hst : stop c
    · rfl
    · rcases hs c hst with h | h <;> rcases hd with h' | h' <;> rw [h'] at h <;> exact absurd h (by decide)
  cases a with
  | node ps ns =>
    obtain ⟨pre, hp, e⟩ := h
    have hpass := fun stop hs => name_passes (stop := stop) hp hs
    have hL : L ≠ [] := by rw [e]; simp
    obtain ⟨c, L', e'⟩ := List.exists_cons_of_ne_nil hL
    refine ⟨c, L', e', pre, ?_, hpass, fun _ c hc => ?_⟩
    rotate_left
    · obtain ⟨h1, h2, _, _, _, _, h7, h8⟩ := hp c hc
      exact ⟨h1, h2, by simp [isQuote, h7, h8]⟩
    have hq : isQuote c = false := by
      rw [e'] at e
      cases pre with
      | cons d pre =>
        simp only [List.cons_append, List.cons.injEq] at e
        obtain ⟨_, _, _, _, _, _, h7, h8⟩ := hp d (by simp)
        rw [e.1]
        simp [isQuote, h7, h8]
      | nil =>
        cases ps with
        | cons p ps =>
          simp only [predsText, KeyPred.text, List.map_cons, List.flatten_cons, List.cons_append, List.nil_append, List.cons.injEq] at e
          rw [e.1]; decide
        | nil =>
          cases ns with
          | cons n ns =>
            simp only [predsText, pathText, Node.text, List.map_nil, List.flatten_nil, List.map_cons, List.flatten_cons, List.cons_append, List.nil_append, List.cons.injEq] at e
            rw [e.1]; decide
          | nil =>
            simp [predsText, pathText] at e
            rw [e.1]; decide
    simp only [hq]
    rw [e]
    rfl
  | name p ps ns =>
    have hpv : p.Valid := hv.2.2
    refine ⟨'=', _, h, ['='] ++ (quoteOf p.double :: (p.value ++ [quoteOf p.double])) ++ [']'], ?_, ?_, fun h => absurd rfl (h p ps ns)⟩
    · rw [if_neg (by decide)]
      rw [h]
      simp [At.preds, At.nodes]
    · intro stop hs
      refine passes_append (passes_append (rb stop hs '=' (.inr rfl)) (passes_quoted hpv.2.1 hpv.2.2 ?_)) (rb stop hs ']' (.inl rfl))
      cases hst : stop (quoteOf p.double)
      · rfl
      · rcases hs _ hst with h | h
        · exact absurd h (quoteOf_facts _).2.2.1
        · exact absurd h (quoteOf_facts _).2.2.2
  | value p ps ns =>
    refine ⟨quoteOf p.double, _, h, [']'], ?_, fun stop hs => rb stop hs ']' (.inl rfl), fun _ c hc => by simp only [List.mem_singleton] at hc; subst hc; decide⟩
    rw [if_pos (quoteOf_facts _).2.1]
    simp [At.preds, At.nodes]

/-! ## The steps -/

theorem drop_at {L X Y : List Char} {f : Nat} (h : L.drop f = X ++ Y) : L.drop (f + X.length) = Y := by
  rw [← List.drop_drop, h, List.drop_left]

theorem get_at {L Y : List Char} {c : Char} {i : Nat} (h : L.drop i = c :: Y) : L[i]? = some c := by
  have : (L.drop i)[0]? = some c := by rw [h]; rfl
  simpa using this

theorem cstr_nul (t Y : List Char) (h : nul ∉ t) : cstr (t ++ nul :: Y) = some t := by
  induction t with
  | nil => simp [cstr]
  | cons a t ih =>
    simp only [List.mem_cons, not_or] at h
    simp only [List.cons_append, cstr]
    rw [if_neg (fun e => h.1 e.symm), ih h.2]
    rfl

theorem cstr_cut {L t Y : List Char} {c : Char} {i : Nat} (h : L.drop i = t ++ c :: Y) (hn : nul ∉ t) :
    cstr ((L.set (i + t.length) nul).drop i) = some t := by
  rw [List.drop_set, if_neg (by omega), h, Nat.add_sub_cancel_left]
  have : (t ++ c :: Y).set t.length nul = t ++ nul :: Y := by simp
  rw [this]
  exact cstr_nul t Y hn

theorem name_no_nul {t : List Char} (h : IsName t) : nul ∉ t := fun hm => (h nul hm).1 rfl

/-- The beginning of a step. -/
theorem entry {s : List Char} {a : At} {st : St} (h : Sim s a st) : ∃ st1 p lead, start false st = some st1 ∧ st1.pos = some p ∧
    st1.buf = orig s ∧ Sim s a st1 ∧
    (orig s).drop (from_ st1 p) = lead ++ (predsText a.preds ++ (pathText a.nodes ++ [nul])) ∧
    (∀ stop : Char → Bool, (∀ c, stop c = true → c = '/' ∨ c = '[') → Passes stop lead) ∧
    ((∀ p ps ns, a ≠ .name p ps ns) → ∀ c ∈ lead, c ≠ nul ∧ c ≠ '/' ∧ isQuote c = false) := by
  obtain ⟨st1, e1, i1, b1, k1⟩ := start_ok (xp := false) (by simpa [Pre] using h.inv : Pre s false st)
  obtain ⟨k2, k3, k4⟩ := k1 rfl
  obtain ⟨p, hp, hf⟩ := h.follows
  obtain ⟨p', hp', _, hc', _⟩ := i1.pos
  have : p' = p := by rw [k3, hp] at hp'; cases hp'; rfl
  subst this
  obtain ⟨c, L', e, lead, h1, h2, h3⟩ := follows_split h.valid hf
  have hch : st1.ch = c := by
    have := get_at e
    rw [this] at hc'
    cases hc'; rfl
  refine ⟨st1, p', lead, e1, hp', b1, ⟨i1, h.valid, p', hp', hf⟩, ?_, h2, h3⟩
  unfold from_
  rw [hch]
  simp only [List.append_assoc] at h1
  split
  · rename_i hq
    rw [if_pos hq] at h1
    rw [← h1, ← List.drop_drop, e]
    rfl
  · rename_i hq
    rw [if_neg hq] at h1
    exact h1

/-- After the name of a node there is the end, a slash or a bracket. -/
theorem after_name (ps : List KeyPred) (ns : List Node) : ∃ c Y, predsText ps ++ (pathText ns ++ [nul]) = c :: Y ∧
    (c = nul ∨ c = '/' ∨ c = '[') ∧ (ps = [] → c = nul ∨ c = '/') := by
  cases ps with
  | cons p ps => exact ⟨'[', _, by simp [predsText, KeyPred.text]; rfl, .inr (.inr rfl), by simp⟩
  | nil =>
    cases ns with
    | cons n ns => exact ⟨'/', _, by simp [predsText, pathText, Node.text]; rfl, .inr (.inl rfl), by simp⟩
    | nil => exact ⟨nul, [], by simp [predsText, pathText], .inl rfl, by simp⟩

theorem sim_node {s : List Char} {st : St} {ps : List KeyPred} {ns : List Node} {j : Nat} (h : Inv s st) (hp : st.pos = some j)
    (hps : ∀ p ∈ ps, p.Valid) (hns : ∀ n ∈ ns, n.Valid) (hd : (orig s).drop j = predsText ps ++ (pathText ns ++ [nul])) :
    Sim s (.node ps ns) st :=
  ⟨h, ⟨hps, hns, trivial⟩, j, hp, [], by intro c hc; simp at hc, by simp [hd]⟩

/-- The next node. -/
theorem step_node {s : List Char} {a : At} {st : St} (h : Sim s a st) (ns : Bool) :
    match a.nodes with
    | [] => ∃ st', nextNode ns false st = .ok none st' ∧ Sim s a st'
    | n :: rest => ∃ i st', nextNode ns false st = .ok (some i) st' ∧ Sim s (.node n.preds rest) st' ∧ st'.cur = some i ∧
        cstr (st'.buf.drop i) = some (if ns then n.name else n.full) ∧
        (ns = true → (orig s).drop i = n.name ++ (predsText n.preds ++ (pathText rest ++ [nul]))) := by
  obtain ⟨st1, p, lead, e1, hp, b1, hs1, hd, hpass, _⟩ := entry h
  have ps1 := hpass (fun c => decide (c = '/')) (by intro c h; simp at h; exact .inl h)
  have ps2 := preds_passes h.valid.1
  have esc : scanQ (fun c => decide (c = '/')) none ((orig s).drop (from_ st1 p)) (from_ st1 p) =
      scanQ (fun c => decide (c = '/')) none (pathText a.nodes ++ [nul]) (from_ st1 p + lead.length + (predsText a.preds).length) := by
    rw [hd, ps1, ps2]
  have hd2 : (orig s).drop (from_ st1 p + lead.length + (predsText a.preds).length) = pathText a.nodes ++ [nul] := drop_at (drop_at hd)
  generalize from_ st1 p + lead.length + (predsText a.preds).length = i at esc hd2
  have hv := h.valid
  cases hn : a.nodes with
  | nil =>
    rw [hn] at esc hd2
    simp only [pathText, List.map_nil, List.flatten_nil, List.nil_append] at esc hd2
    rw [scanQ_stop (.inl rfl)] at esc
    refine ⟨st1, ?_, hs1⟩
    unfold nextNode
    simp only [e1, hp]
    simp only [b1, esc, get_at hd2, if_true]
  | cons n rest =>
    rw [hn] at esc hd2
    have et : pathText (n :: rest) ++ [nul] = '/' :: (n.full ++ (predsText n.preds ++ (pathText rest ++ [nul]))) := by
      simp [pathText, Node.text]
    rw [et] at esc hd2
    rw [scanQ_stop (.inr (by simp))] at esc
    have hnv : n.Valid := hv.2.1 n (by rw [hn]; simp)
    have hrv : ∀ m ∈ rest, m.Valid := fun m hm => hv.2.1 m (by rw [hn]; simp [hm])
    obtain ⟨c, Y, hcY, hc, _⟩ := after_name n.preds rest
    have hd3 : (orig s).drop (i + 1) = n.full ++ (predsText n.preds ++ (pathText rest ++ [nul])) := drop_at (X := ['/']) (by simpa using hd2)
    have hlen : i < s.length := orig_lt (get_at hd2) (by decide)
    have hinv : ∀ (x j : Nat) (d : Char), x ≤ s.length → j ≤ s.length → (orig s)[j]? = some d →
        Inv s (cut ⟨orig s, st1.begining, some x, some p, st1.ch⟩ j d) := by
      intro x j d hx hj hd
      refine cut_inv rfl hs1.inv.beg ?_ hj hd
      intro c hc; simp only [Option.some.injEq] at hc; omega
    have hle : ∀ {j : Nat} {d : Char}, (orig s)[j]? = some d → j ≤ s.length := by
      intro j d hj
      have := (List.getElem?_eq_some_iff.mp hj).1
      rw [orig_length] at this
      omega
    have nameStop : ∀ stop : Char → Bool, (∀ c, stop c = true → c = '/' ∨ c = '[' ∨ c = ':') → ∀ t, IsName t → ∀ c ∈ t, c ≠ nul ∧ stop c = false := by
      intro stop hst t ht c hc
      obtain ⟨h1, h2, h3, h4, _⟩ := ht c hc
      refine ⟨h1, ?_⟩
      cases hh : stop c
      · rfl
      · rcases hst c hh with h | h | h
        · exact absurd h h2
        · exact absurd h h4
        · exact absurd h h3
    cases hpf : n.pfx with
    | none =>
      have hfull : n.full = n.name := by simp [Node.full, hpf]
      rw [hfull] at hd3
      rw [hcY] at hd3
      have e2 : scan (fun c => decide (c = '/') || decide (c = ':') || decide (c = '[')) ((orig s).drop (i + 1)) (i + 1) = some (i + 1 + n.name.length) := by
        rw [hd3]
        apply scan_to
        · exact nameStop _ (by intro c h; simp at h; rcases h with (h | h) | h <;> simp [h]) _ hnv.1
        · rcases hc with h | h | h <;> simp [h]
      have hd4 := drop_at hd3
      have hg := get_at hd4
      have hcc : c ≠ ':' := by rcases hc with h | h | h <;> rw [h] <;> decide
      refine ⟨i + 1, cut ⟨orig s, st1.begining, some (i + 1), some p, st1.ch⟩ (i + 1 + n.name.length) c, ?_, ?_, rfl, ?_, ?_⟩
      · unfold nextNode
        simp only [e1, hp]
        simp only [b1, esc, get_at hd2, show ('/' = nul) = False by simp [nul], if_false, e2, hg, hcc]
      · exact sim_node (hinv _ _ _ (by omega) (hle hg) hg) rfl hnv.2.2 hrv (by rw [hd4, hcY])
      · have : (if ns = true then n.name else n.full) = n.name := by rw [hfull]; simp
        rw [this]
        exact cstr_cut hd3 (name_no_nul hnv.1)
      · intro _; rw [hd3, hcY]
    | some m =>
      have hm := hnv.2.1 m hpf
      have hfull : n.full = m ++ ':' :: n.name := by simp [Node.full, hpf]
      have hd3' : (orig s).drop (i + 1) = m ++ ':' :: (n.name ++ c :: Y) := by rw [hd3, hfull, hcY]; simp
      have e2 : scan (fun c => decide (c = '/') || decide (c = ':') || decide (c = '[')) ((orig s).drop (i + 1)) (i + 1) = some (i + 1 + m.length) := by
        rw [hd3']
        apply scan_to
        · exact nameStop _ (by intro c h; simp at h; rcases h with (h | h) | h <;> simp [h]) _ hm
        · simp
      have hd4 := drop_at hd3'
      have hg := get_at hd4
      have hd5 : (orig s).drop (i + 1 + m.length + 1) = n.name ++ c :: Y := drop_at (X := [':']) (by simpa using hd4)
      have hd6 := drop_at hd5
      have hg6 := get_at hd6
      have st2 : ∀ c, (decide (c = '/') || decide (c = '[')) = true → c = '/' ∨ c = '[' ∨ c = ':' := by
        intro c h; simp at h; rcases h with h | h <;> simp [h]
      have hcs : c = nul ∨ (decide (c = '/') || decide (c = '[')) = true := by rcases hc with h | h | h <;> simp [h]
      have hl6 := hle hg6
      cases ns with
      | true =>
        have e3 : scan (fun c => decide (c = '/') || decide (c = '[')) ((orig s).drop (i + 1 + m.length + 1)) (i + 1 + m.length + 1) = some (i + 1 + m.length + 1 + n.name.length) := by
          rw [hd5]
          exact scan_to (nameStop _ st2 _ hnv.1) hcs _ _
        refine ⟨i + 1 + m.length + 1, cut ⟨orig s, st1.begining, some (i + 1 + m.length + 1), some p, st1.ch⟩ (i + 1 + m.length + 1 + n.name.length) c, ?_, ?_, rfl, ?_, ?_⟩
        · unfold nextNode
          simp only [e1, hp]
          simp only [b1, esc, get_at hd2, show ('/' = nul) = False by simp [nul], if_false, e2, hg, if_true, e3, hg6]
        · exact sim_node (hinv _ _ _ (by omega) hl6 hg6) rfl hnv.2.2 hrv (by rw [hd6, hcY])
        · exact cstr_cut hd5 (name_no_nul hnv.1)
        · intro _; rw [hd5, hcY]
      | false =>
        have e3 : scan (fun c => decide (c = '/') || decide (c = '[')) ((orig s).drop (i + 1 + m.length)) (i + 1 + m.length) = some (i + 1 + m.length + 1 + n.name.length) := by
          rw [hd4]
          have := scan_to (stop := fun c => decide (c = '/') || decide (c = '[')) (A := ':' :: n.name) (c := c) (by
            intro d hd
            rcases List.mem_cons.mp hd with rfl | hd
            · decide
            · exact nameStop _ st2 _ hnv.1 d hd) hcs Y (i + 1 + m.length)
          simp only [List.cons_append, List.length_cons] at this
          rw [this]
          congr 1
          omega
        have hd3'' : (orig s).drop (i + 1) = n.full ++ c :: Y := by rw [hd3', hfull]; simp
        have hidx : i + 1 + n.full.length = i + 1 + m.length + 1 + n.name.length := by rw [hfull]; simp; omega
        refine ⟨i + 1, cut ⟨orig s, st1.begining, some (i + 1), some p, st1.ch⟩ (i + 1 + m.length + 1 + n.name.length) c, ?_, ?_, rfl, ?_, by simp⟩
        · unfold nextNode
          simp only [e1, hp]
          simp only [b1, esc, get_at hd2, show ('/' = nul) = False by simp [nul], if_false, e2, hg, if_true, e3, hg6, Bool.false_eq_true]
        · exact sim_node (hinv _ _ _ (by omega) hl6 hg6) rfl hnv.2.2 hrv (by rw [hd6, hcY])
        · have := cstr_cut hd3'' (by
            rw [hfull]
            simp only [List.mem_append, List.mem_cons, not_or]
            exact ⟨name_no_nul hm, by decide, name_no_nul hnv.1⟩)
          rw [hidx] at this
          exact this

theorem orig_le {s : List Char} {j : Nat} {d : Char} (hj : (orig s)[j]? = some d) : j ≤ s.length := by
  have := (List.getElem?_eq_some_iff.mp hj).1
  rw [orig_length] at this
  omega

/-- The next key name. -/
theorem step_keyName {s : List Char} {a : At} {st : St} (h : Sim s a st) :
    match a.preds with
    | [] => ∃ st', nextKeyName false st = .ok none st' ∧ Sim s a st'
    | p :: ps => ∃ i st', nextKeyName false st = .ok (some i) st' ∧ Sim s (.name p ps a.nodes) st' ∧ cstr (st'.buf.drop i) = some p.key := by
  obtain ⟨st1, o, lead, e1, hp, b1, hs1, hd, hpass, _⟩ := entry h
  have ps1 := hpass (fun c => decide (c = '[') || decide (c = '/')) (by intro c h; simp at h; rcases h with h | h <;> simp [h])
  have esc : scanQ (fun c => decide (c = '[') || decide (c = '/')) none ((orig s).drop (from_ st1 o)) (from_ st1 o) =
      scanQ (fun c => decide (c = '[') || decide (c = '/')) none (predsText a.preds ++ (pathText a.nodes ++ [nul])) (from_ st1 o + lead.length) := by
    rw [hd, ps1]
  have hd2 := drop_at hd
  generalize from_ st1 o + lead.length = i at esc hd2
  have hv := h.valid
  cases hpr : a.preds with
  | nil =>
    obtain ⟨c, Y, hcY, _, hc⟩ := after_name a.preds a.nodes
    have hc := hc hpr
    rw [hcY] at esc hd2
    rw [scanQ_stop (by rcases hc with h | h <;> simp [h])] at esc
    refine ⟨st1, ?_, hs1⟩
    unfold nextKeyName
    simp only [e1, hp]
    simp only [b1, esc, get_at hd2, hc, if_true]
  | cons p ps =>
    have hpv : p.Valid := hv.1 p (by rw [hpr]; simp)
    have hps : ∀ q ∈ ps, q.Valid := fun q hq => hv.1 q (by rw [hpr]; simp [hq])
    rw [hpr] at esc hd2
    have et : predsText (p :: ps) ++ (pathText a.nodes ++ [nul]) = '[' :: (p.key ++ '=' :: ([quoteOf p.double] ++ p.value ++ [quoteOf p.double, ']'] ++ predsText ps ++ pathText a.nodes ++ [nul])) := by
      simp [predsText, KeyPred.text]
    rw [et] at esc hd2
    rw [scanQ_stop (.inr (by simp))] at esc
    have hd3 : (orig s).drop (i + 1) = p.key ++ '=' :: ([quoteOf p.double] ++ p.value ++ [quoteOf p.double, ']'] ++ predsText ps ++ pathText a.nodes ++ [nul]) :=
      drop_at (X := ['[']) (by simpa using hd2)
    have e2 : scan (fun c => decide (c = '=')) ((orig s).drop (i + 1)) (i + 1) = some (i + 1 + p.key.length) := by
      rw [hd3]
      apply scan_to
      · intro c hc
        obtain ⟨h1, _, _, _, _, h6, _⟩ := hpv.1 c hc
        exact ⟨h1, by simp [h6]⟩
      · simp
    have hd4 := drop_at hd3
    have hg := get_at hd4
    refine ⟨i + 1, cut st1 (i + 1 + p.key.length) '=', ?_, ⟨cut_inv b1 hs1.inv.beg hs1.inv.cur (orig_le hg) hg, ⟨hps, hv.2.1, hpv⟩, _, rfl, ?_⟩, ?_⟩
    · unfold nextKeyName
      simp only [e1, hp]
      simp only [b1, esc, get_at hd2, show ('[' = nul ∨ '[' = '/') = False by simp [nul], if_false, e2, hg, if_true]
    · simp only [Follows]
      rw [hd4]
      simp
    · simp only [cut, b1]
      exact cstr_cut hd3 (name_no_nul hpv.1)

/-- The value of a key that follows some text. -/
theorem value_at {s : List Char} {a : At} {st st1 : St} {o : Nat} {lead : List Char} {p : KeyPred} {ps : List KeyPred} {ns : List Node}
    (e1 : start false st = some st1) (hp : st1.pos = some o) (b1 : st1.buf = orig s) (hs1 : Sim s a st1)
    (hl : ∀ c ∈ lead, c ≠ nul ∧ c ≠ '/' ∧ isQuote c = false) (hpv : p.Valid) (hps : ∀ q ∈ ps, q.Valid) (hns : ∀ n ∈ ns, n.Valid)
    (hd : (orig s).drop (from_ st1 o) = lead ++ quoteOf p.double :: (p.value ++ quoteOf p.double :: ([']'] ++ predsText ps ++ pathText ns ++ [nul]))) :
    ∃ i st', nextKeyValue false st = .ok (some i) st' ∧ Sim s (.value p ps ns) st' ∧ cstr (st'.buf.drop i) = some p.value := by
  obtain ⟨q1, q2, q3, _⟩ := quoteOf_facts p.double
  have e2 : scan (fun c => isQuote c || decide (c = '/')) ((orig s).drop (from_ st1 o)) (from_ st1 o) = some (from_ st1 o + lead.length) := by
    rw [hd]
    apply scan_to
    · intro c hc
      obtain ⟨h1, h2, h3⟩ := hl c hc
      exact ⟨h1, by simp [h2, h3]⟩
    · simp [q2]
  have hd2 := drop_at hd
  generalize from_ st1 o + lead.length = i at e2 hd2
  have hd3 : (orig s).drop (i + 1) = p.value ++ quoteOf p.double :: ([']'] ++ predsText ps ++ pathText ns ++ [nul]) :=
    drop_at (X := [quoteOf p.double]) (by simpa using hd2)
  have e3 : scan (fun d => decide (d = quoteOf p.double)) ((orig s).drop (i + 1)) (i + 1) = some (i + 1 + p.value.length) := by
    rw [hd3]
    apply scan_to
    · intro c hc
      refine ⟨fun e => hpv.2.1 (by rw [e] at hc; exact hc), ?_⟩
      simp only [decide_eq_false_iff_not]
      intro e
      rw [e] at hc
      exact hpv.2.2 hc
    · simp
  have hd4 := drop_at hd3
  have hg := get_at hd4
  refine ⟨i + 1, cut st1 (i + 1 + p.value.length) (quoteOf p.double), ?_, ⟨cut_inv b1 hs1.inv.beg hs1.inv.cur (orig_le hg) hg, ⟨hps, hns, trivial⟩, _, rfl, ?_⟩, ?_⟩
  · unfold nextKeyValue
    simp only [e1, hp]
    simp only [b1, e2, get_at hd2, q1, q3, or_self, if_false, e3, hg, if_true]
  · simp only [Follows]
    rw [hd4]
    simp
  · simp only [cut, b1]
    exact cstr_cut hd3 hpv.2.1

/-- The next key value. -/
theorem step_keyValue {s : List Char} {a : At} {st : St} (h : Sim s a st) :
    match a.step .keyValue with
    | (none, a') => a' = a ∧ ∃ st', nextKeyValue false st = .ok none st' ∧ Sim s a st'
    | (some t, a') => ∃ i st', nextKeyValue false st = .ok (some i) st' ∧ Sim s a' st' ∧ cstr (st'.buf.drop i) = some t := by
  have other : (∀ p ps ns, a ≠ .name p ps ns) → match a.preds with
      | [] => ∃ st', nextKeyValue false st = .ok none st' ∧ Sim s a st'
      | p :: ps => ∃ i st', nextKeyValue false st = .ok (some i) st' ∧ Sim s (.value p ps a.nodes) st' ∧ cstr (st'.buf.drop i) = some p.value := by
    intro hno
    obtain ⟨st1, o, lead, e1, hp, b1, hs1, hd, _, hlead⟩ := entry h
    have hlead := hlead hno
    have hv := h.valid
    cases hpr : a.preds with
    | nil =>
      obtain ⟨c, Y, hcY, _, hc⟩ := after_name a.preds a.nodes
      have hc := hc hpr
      rw [hcY] at hd
      have e2 : scan (fun c => isQuote c || decide (c = '/')) ((orig s).drop (from_ st1 o)) (from_ st1 o) = some (from_ st1 o + lead.length) := by
        rw [hd]
        apply scan_to
        · intro c hc
          obtain ⟨h1, h2, h3⟩ := hlead c hc
          exact ⟨h1, by simp [h2, h3]⟩
        · rcases hc with h | h <;> simp [h]
      refine ⟨st1, ?_, hs1⟩
      unfold nextKeyValue
      simp only [e1, hp]
      simp only [b1, e2, get_at (drop_at hd), hc, if_true]
    | cons p ps =>
      have hpv : p.Valid := hv.1 p (by rw [hpr]; simp)
      have hps : ∀ q ∈ ps, q.Valid := fun q hq => hv.1 q (by rw [hpr]; simp [hq])
      refine value_at (lead := lead ++ ['['] ++ p.key ++ ['=']) e1 hp b1 hs1 ?_ hpv hps hv.2.1 ?_
      · intro c hc
        simp only [List.mem_append, List.mem_singleton] at hc
        rcases hc with ((hc | rfl) | hc) | rfl
        · exact hlead c hc
        · decide
        · obtain ⟨h1, h2, _, _, _, _, h7, h8⟩ := hpv.1 c hc
          exact ⟨h1, h2, by simp [isQuote, h7, h8]⟩
        · decide
      · rw [hd, hpr]
        simp [predsText, KeyPred.text]
  cases a with
  | node ps ns =>
    have o := other (by intro _ _ _ h; cases h)
    cases ps with
    | nil => exact ⟨rfl, o⟩
    | cons p ps => exact o
  | value q ps ns =>
    have o := other (by intro _ _ _ h; cases h)
    cases ps with
    | nil => exact ⟨rfl, o⟩
    | cons p ps => exact o
  | name p ps ns =>
    have hv := h.valid
    obtain ⟨st1, e1, i1, b1, k1⟩ := start_ok (xp := false) (by simpa [Pre] using h.inv : Pre s false st)
    obtain ⟨k2, k3, k4⟩ := k1 rfl
    obtain ⟨o, hp, hf⟩ := h.follows
    have hp1 : st1.pos = some o := k3.trans hp
    have hs1 : Sim s (.name p ps ns) st1 := ⟨i1, hv, o, hp1, hf⟩
    simp only [Follows] at hf
    obtain ⟨o', ho', _, hc', _⟩ := i1.pos
    have : o' = o := by rw [hp1] at ho'; cases ho'; rfl
    subst this
    have hch : st1.ch = '=' := by
      have := get_at (c := '=') hf
      rw [this] at hc'
      exact (Option.some.inj hc').symm
    refine value_at (lead := ['=']) e1 hp1 b1 hs1 ?_ hv.2.2 hv.1 hv.2.1 ?_
    · intro c hc
      simp only [List.mem_singleton] at hc
      subst hc
      decide
    · have : from_ st1 o' = o' := by simp [from_, hch, isQuote]
      rw [this, hf]
      simp

/-- Every step of the iteration returns what the specification says. -/
theorem step_exact {s : List Char} {a : At} {st : St} (h : Sim s a st) (fuel : Nat) (k : Step) :
    match a.step k with
    | (none, a') => ∃ st', k.op.exec fuel false st = .ok none st' ∧ Sim s a' st'
    | (some t, a') => ∃ i st', k.op.exec fuel false st = .ok (some i) st' ∧ Sim s a' st' ∧ cstr (st'.buf.drop i) = some t := by
  cases k with
  | node =>
    have := step_node h true
    simp only [At.step, Step.op, Op.exec]
    cases hn : a.nodes with
    | nil => rw [hn] at this; exact this
    | cons n ns =>
      rw [hn] at this
      obtain ⟨i, st', e, h1, _, h2, _⟩ := this
      exact ⟨i, st', e, h1, by simpa using h2⟩
  | nodeNs =>
    have := step_node h false
    simp only [At.step, Step.op, Op.exec]
    cases hn : a.nodes with
    | nil => rw [hn] at this; exact this
    | cons n ns =>
      rw [hn] at this
      obtain ⟨i, st', e, h1, _, h2, _⟩ := this
      exact ⟨i, st', e, h1, by simpa using h2⟩
  | keyName =>
    have := step_keyName h
    simp only [At.step, Step.op, Op.exec]
    cases hn : a.preds with
    | nil => rw [hn] at this; exact this
    | cons n ns => rw [hn] at this; exact this
  | keyValue =>
    have := step_keyValue h
    simp only [Step.op, Op.exec]
    cases hs : a.step .keyValue with
    | mk r a' =>
      rw [hs] at this
      cases r with
      | none => obtain ⟨rfl, st', h1, h2⟩ := this; exact ⟨st', h1, h2⟩
      | some t => exact this

theorem run_exact {s : List Char} (fuel : Nat) (ks : List Step) : ∀ {a : At} {st : St}, Sim s a st →
    results fuel false st (ks.map Step.op) = some (a.run ks) := by
  induction ks with
  | nil => intro a st _; rfl
  | cons k ks ih =>
    intro a st h
    have := step_exact h fuel k
    simp only [List.map_cons, results, At.run]
    cases hs : a.step k with
    | mk r a' =>
      rw [hs] at this
      cases r with
      | none =>
        obtain ⟨st', h1, h2⟩ := this
        simp only [h1, ih h2, Option.map_some]
      | some t =>
        obtain ⟨i, st', h1, h2, h3⟩ := this
        simp only [h1, h3, ih h2, Option.map_some]

/-- The first call. -/
theorem first_sim (ns : List Node) (hv : ∀ n ∈ ns, n.Valid) (st : St) (hb : st.buf = pathText ns ++ ['\x00']) :
    ∃ st1, start true st = some st1 ∧ start false st1 = some st1 ∧ Sim (pathText ns) (.node [] ns) st1 ∧ st1.begining = some 0 ∧ st1.cur = none := by
  have hb' : st.buf = orig (pathText ns) := hb
  obtain ⟨c, hc⟩ := orig_get (s := pathText ns) (Nat.zero_le _)
  have hi : Inv (pathText ns) { st with begining := some 0, cur := none, pos := some 0, ch := c } :=
    ⟨⟨0, rfl, by omega, hc, .inl hb'⟩, (by intro a ha; cases ha), rfl⟩
  refine ⟨{ st with begining := some 0, cur := none, pos := some 0, ch := c }, by simp [start, hb', hc], ?_,
    ⟨hi, ⟨by simp [At.preds], hv, trivial⟩, 0, rfl, [], by intro c hc; simp at hc, by simp [orig, predsText, nul]⟩, rfl, rfl⟩
  have hl : 0 < st.buf.length := by rw [hb']; simp [orig]
  have hs : st.buf.set 0 c = st.buf := by
    rw [hb']
    have := set_set (orig (pathText ns)) 0 c c hc
    rwa [List.set_set] at this
  simp only [start, recover, Bool.false_eq_true, if_false]
  rw [if_pos hl, hs]

theorem exec_first {st st1 : St} (h1 : start true st = some st1) (h2 : start false st1 = some st1) (fuel : Nat) (k : Step) :
    k.op.exec fuel true st = k.op.exec fuel false st1 := by
  cases k
  · simp only [Step.op, Op.exec, nextNode, h1, h2]
  · simp only [Step.op, Op.exec, nextNode, h1, h2]
  · simp only [Step.op, Op.exec, nextKeyName, h1, h2]
  · simp only [Step.op, Op.exec, nextKeyValue, h1, h2]

/-- C49. Every sequence of iteration calls on a path returns exactly its nodes, keys and values. -/
theorem iteration_exact (ns : List Node) (hv : ∀ n ∈ ns, n.Valid) (st : St) (hb : st.buf = pathText ns ++ ['\x00'])
    (fuel : Nat) (ks : List Step) : results fuel true st (ks.map Step.op) = some ((At.node [] ns).run ks) := by
  cases ks with
  | nil => rfl
  | cons k ks =>
    obtain ⟨st1, h1, h2, h3, _⟩ := first_sim ns hv st hb
    have := run_exact fuel (k :: ks) h3
    rw [← this]
    simp only [List.map_cons, results]
    rw [exec_first h1 h2 fuel k]

/-- C49. Repeated `sr_xpath_next_node` returns the names of the nodes from left to right and then nothing. -/
theorem nodes_in_order (ns : List Node) (hv : ∀ n ∈ ns, n.Valid) (st : St) (hb : st.buf = pathText ns ++ ['\x00']) (fuel : Nat) :
    results fuel true st (List.replicate (ns.length + 1) .nextNode) = some (ns.map (fun n => some n.name) ++ [none]) := by
  have h := iteration_exact ns hv st hb fuel (List.replicate (ns.length + 1) .node)
  rw [List.map_replicate] at h
  rw [show Op.nextNode = Step.op .node from rfl, h]
  congr 1
  have key : ∀ (ns : List Node) (ps : List KeyPred), (At.node ps ns).run (List.replicate (ns.length + 1) .node) = ns.map (fun n => some n.name) ++ [none] := by
    intro ns
    induction ns with
    | nil => intro ps; rfl
    | cons n ns ih =>
      intro ps
      rw [List.length_cons, List.replicate_succ, At.run]
      simp only [At.step, At.nodes, List.map_cons, List.cons_append]
      rw [ih]
  exact key ns []

/-! ## Search by name -/

theorem search_node {s : List Char} (name : List Char) (f : Nat) : ∀ {a : At} {st : St}, Sim s a st → a.nodes.length < f →
    match a.nodes.find? (fun n => n.name = name) with
    | none => ∃ st' a', search (nextNode true false) name f st = .ok none st' ∧ Sim s a' st'
    | some n => ∃ i st' rest, search (nextNode true false) name f st = .ok (some i) st' ∧ Sim s (.node n.preds rest) st' ∧ st'.cur = some i ∧
        n.Valid ∧ (∀ m ∈ rest, m.Valid) ∧ (orig s).drop i = n.name ++ (predsText n.preds ++ (pathText rest ++ [nul])) := by
  induction f with
  | zero => intro a st h hl; omega
  | succ f ih =>
    intro a st h hl
    have hst := step_node h true
    cases hn : a.nodes with
    | nil =>
      rw [hn] at hst
      obtain ⟨st', e, h'⟩ := hst
      simp only [List.find?_nil]
      exact ⟨st', a, by simp [search, e, Res.bind], h'⟩
    | cons n ns =>
      rw [hn] at hst
      obtain ⟨i, st', e, h', hc, hcs, hd⟩ := hst
      simp only [if_true] at hcs
      have hv := h.valid.2.1
      rw [hn] at hv
      rw [List.find?_cons]
      by_cases hname : n.name = name
      · simp only [hname, decide_true]
        refine ⟨i, st', ns, by simp [search, e, Res.bind, hcs, hname], h', hc, hv n (by simp), fun m hm => hv m (by simp [hm]), ?_⟩
        rw [← hname]
        exact hd rfl
      · simp only [hname, decide_false]
        have := ih h' (by simp only [At.nodes]; rw [hn] at hl; simp at hl; omega)
        simp only [At.nodes] at this
        have es : search (nextNode true false) name (f + 1) st = search (nextNode true false) name f st' := by
          simp [search, e, Res.bind, hcs, hname]
        rw [es]
        exact this

theorem search_key {s : List Char} (key : List Char) (f : Nat) : ∀ {a : At} {st : St}, Sim s a st → a.preds.length < f →
    match a.preds.find? (fun p => p.key = key) with
    | none => ∃ st', search (nextKeyName false) key f st = .ok none st'
    | some p => ∃ i st' ps, search (nextKeyName false) key f st = .ok (some i) st' ∧ Sim s (.name p ps a.nodes) st' := by
  induction f with
  | zero => intro a st h hl; omega
  | succ f ih =>
    intro a st h hl
    have hst := step_keyName h
    cases hn : a.preds with
    | nil =>
      rw [hn] at hst
      obtain ⟨st', e, h'⟩ := hst
      simp only [List.find?_nil]
      exact ⟨st', by simp [search, e, Res.bind]⟩
    | cons p ps =>
      rw [hn] at hst
      obtain ⟨i, st', e, h', hcs⟩ := hst
      rw [List.find?_cons]
      by_cases hname : p.key = key
      · simp only [hname, decide_true]
        exact ⟨i, st', ps, by simp [search, e, Res.bind, hcs, hname], h'⟩
      · simp only [hname, decide_false]
        have := ih h' (by simp only [At.preds]; rw [hn] at hl; simp at hl; omega)
        simp only [At.preds, At.nodes] at this
        have es : search (nextKeyName false) key (f + 1) st = search (nextKeyName false) key f st' := by
          simp [search, e, Res.bind, hcs, hname]
        rw [es]
        exact this

/-- The specification of `sr_xpath_key_value`: the value of the key in the first node of the name. -/
def valueOf (ns : List Node) (name key : List Char) : Option (List Char) :=
  match ns.find? (fun n => n.name = name) with
  | none => none
  | some n => (n.preds.find? (fun p => p.key = key)).map (·.value)

/-- The string a call returns: `none` if it fails, `some none` is `NULL`. -/
def Res.text : Res → Option (Option (List Char))
  | .ok none _ => some none
  | .ok (some i) st => (cstr (st.buf.drop i)).map some
  | _ => none

/-- C49. `sr_xpath_key_value` returns the value of the key in the first node of the name, `NULL` if there is no such node or key. -/
theorem key_value_exact (ns : List Node) (hv : ∀ n ∈ ns, n.Valid) (st : St) (hb : st.buf = pathText ns ++ ['\x00'])
    (name key : List Char) (fuel : Nat) (hf1 : ns.length < fuel) (hf2 : ∀ n ∈ ns, n.preds.length < fuel) :
    (keyValue fuel true name key st).text = some (valueOf ns name key) := by
  obtain ⟨st1, h1, h2, h3, hbeg, hcur⟩ := first_sim ns hv st hb
  have hb1 : st1.buf = orig (pathText ns) := by
    obtain ⟨st1', e, _, b, _⟩ := start_ok (xp := false) (by simpa [Pre] using h3.inv : Pre (pathText ns) false st1)
    rw [h2] at e
    cases e
    exact b
  obtain ⟨p, hp, hpl, hpc, _⟩ := h3.inv.pos
  have hp0 : ∃ st2, toBegin st1 = some st2 ∧ Sim (pathText ns) (.node [] ns) st2 := by
    obtain ⟨c, hc⟩ := orig_get (s := pathText ns) (Nat.zero_le _)
    refine ⟨{ st1 with cur := none, pos := some 0, ch := c }, by simp [toBegin, hbeg, hb1, hc],
      ⟨⟨⟨0, rfl, by omega, hc, .inl hb1⟩, (by intro a ha; cases ha), hbeg⟩, ⟨by simp [At.preds], hv, trivial⟩, 0, rfl, [], by intro c hc; simp at hc, by simp [orig, predsText, nul]⟩⟩
  obtain ⟨st2, e2, s2⟩ := hp0
  have hsn := search_node name fuel s2 (by simpa [At.nodes] using hf1)
  simp only [At.nodes] at hsn
  have enode : node fuel false name st1 = (search (nextNode true false) name fuel st2).bind (orPutBack st1) := by
    unfold node
    rw [if_neg (by simp [hbeg])]
    simp only [h2, e2]
  unfold keyValue
  simp only [h1]
  rw [enode]
  unfold valueOf
  cases hfn : ns.find? (fun n => n.name = name) with
  | none =>
    rw [hfn] at hsn
    obtain ⟨st', a', e, _⟩ := hsn
    simp [e, Res.bind, Res.text, orPutBack]
  | some n =>
    rw [hfn] at hsn
    obtain ⟨i, st3, rest, e, s3, hc3, hnv, hrv, hdi⟩ := hsn
    have hmem : n ∈ ns := List.mem_of_find?_eq_some hfn
    simp only [e, Res.bind, orPutBack]
    -- the keys of the node
    obtain ⟨st4, e4, i4, b4, k4⟩ := start_ok (xp := false) (by simpa [Pre] using s3.inv : Pre (pathText ns) false st3)
    obtain ⟨k41, k42, k43⟩ := k4 rfl
    have hcur4 : st4.cur = some i := k41.trans hc3
    have hil := i4.cur i hcur4
    obtain ⟨d, hd⟩ := orig_get hil
    have s5 : Sim (pathText ns) (.node n.preds rest) { st4 with pos := some i, ch := d } := by
      refine ⟨⟨⟨i, rfl, hil, hd, .inl b4⟩, i4.cur, i4.beg⟩, ⟨hnv.2.2, hrv, trivial⟩, i, rfl, n.name, hnv.1, ?_⟩
      rw [hdi]; simp
    have hsk := search_key key fuel s5 (by simpa [At.preds] using hf2 n hmem)
    simp only [At.preds, At.nodes] at hsk
    have enk : nodeKeyValue fuel false key st3 = (search (nextKeyName false) key fuel { st4 with pos := some i, ch := d }).bind (thenValue st4) := by
      unfold nodeKeyValue
      simp only [e4]
      unfold toCurrent atCurrent
      simp only [hcur4, b4, hd]
    rw [enk]
    cases hfp : n.preds.find? (fun p => p.key = key) with
    | none =>
      rw [hfp] at hsk
      obtain ⟨st', e'⟩ := hsk
      simp [e', Res.bind, Res.text, orPutBack, thenValue]
    | some p =>
      rw [hfp] at hsk
      obtain ⟨j, st', ps, e', s6⟩ := hsk
      have hk := step_keyValue s6
      simp only [At.step] at hk
      obtain ⟨l, st7, e7, _, hcs⟩ := hk
      simp [e', Res.bind, e7, Res.text, hcs, orPutBack, thenValue]

/-! ## Example -/

def exPath : List Node := [⟨some "m".toList, "list".toList, [⟨"k1".toList, false, "/a[\"]".toList⟩, ⟨"k2".toList, true, "it's".toList⟩]⟩, ⟨none, "leaf".toList, []⟩]

example : pathText exPath = "/m:list[k1='/a[\"]'][k2=\"it's\"]/leaf".toList ∧ (∀ n ∈ exPath, n.Valid) ∧
    results 50 true (fresh (pathText exPath)) [.nextNodeWithNs, .nextKeyName, .nextKeyValue, .nextKeyValue, .nextKeyName, .nextNode] =
      some [some "m:list".toList, some "k1".toList, some "/a[\"]".toList, some "it's".toList, none, some "leaf".toList] ∧
    valueOf exPath "list".toList "k2".toList = some "it's".toList := by
  refine ⟨by decide, ?_, by decide, by decide⟩
  intro n hn
  simp only [exPath, List.mem_cons, List.not_mem_nil, or_false] at hn
  rcases hn with rfl | rfl
  · refine ⟨by simp [IsName], by intro m hm; cases hm; simp [IsName], ?_⟩
    intro p hp
    simp only [List.mem_cons, List.not_mem_nil, or_false] at hp
    rcases hp with rfl | rfl <;> exact ⟨by simp [IsName], by decide, by decide⟩
  · exact ⟨by simp [IsName], by simp, by simp⟩

end Verif.XPathUtil
