import Verif.OperFilterLemmas
/-!
Property C66: a filtered read of operational data.
-/
namespace Verif.OperFilter

/-- C66: if a provider (or one instance of its parent) is not asked because of a request, then none of its nodes is selected by the
request or inside of or above a selected node. -/
theorem not_asked_irrelevant (x y : XPath) (hx : XPath.Valid x) (hy : XPath.Valid y) (hk : KeyNames (x.keys ++ y.keys))
    (h : required (XPath.print x) (XPath.print y) ≠ some true) (n : Node) (hn : XPath.Covers y n) : ¬ Relevant x n := by
  rintro ⟨m, hnm, k, hm⟩
  obtain ⟨l, hl⟩ := hn
  apply h
  have h1 : n.take l <+: m := (List.take_prefix l n).trans hnm
  have h2 : m.take k <+: m := List.take_prefix k m
  refine required_of_common hx hy hk hm hl ?_
  rcases Nat.le_total (m.take k).length (n.take l).length with e | e
  · exact .inl (List.prefix_of_prefix_length_le h2 h1 e)
  · exact .inr (List.prefix_of_prefix_length_le h1 h2 e)

theorem lookup_mem : ∀ {l : List (Str × Str)} {k v : Str}, (l.map (·.1)).Nodup → (k, v) ∈ l → l.lookup k = some v
  | [], _, _, _, h => by simp at h
  | (a, b) :: l, k, v, hn, h => by
    simp only [List.map_cons, List.nodup_cons] at hn
    rcases List.mem_cons.mp h with h' | h'
    · cases h'; simp
    · have : k ≠ a := by
        rintro rfl
        exact hn.1 (List.mem_map.mpr ⟨(k, v), h', rfl⟩)
      have e : (k == a) = false := by simpa using this
      simp only [List.lookup, e]
      exact lookup_mem hn.2 h'

theorem stdPath_selects {ks : List Str} : ∀ (n : Node) (pm : Option Str), NodeOk ks n → XPath.Selects (stdPath pm n) n
  | [], _, _ => trivial
  | i :: n, pm, h => by
    refine ⟨⟨fun m hm => ?_, .inr rfl, fun p hp => ?_⟩, stdPath_selects n _ fun j hj => h j (by simp [hj])⟩
    · simp only at hm
      split at hm
      · cases hm
      · simpa using hm
    · simp only [List.mem_map] at hp
      obtain ⟨kv, hkv, rfl⟩ := hp
      exact lookup_mem (h i (by simp)).2.2.1 hkv

theorem stdPath_ok {ks : List Str} : ∀ (n : Node) (pm : Option Str), NodeOk ks n → ∀ s ∈ stdPath pm n, StepOk s
  | [], _, _, s, hs => by simp [stdPath] at hs
  | i :: n, pm, h, s, hs => by
    rcases List.mem_cons.mp hs with rfl | hs
    · obtain ⟨h1, h2, _, h4⟩ := h i (by simp)
      refine ⟨fun m hm => ?_, .inl h2, fun p hp => ?_⟩
      · simp only at hm
        split at hm
        · cases hm
        · obtain rfl : i.mod = m := by simpa using hm
          exact h1
      · simp only [List.mem_map] at hp
        obtain ⟨kv, hkv, rfl⟩ := hp
        obtain ⟨_, h5, h6⟩ := h4 kv hkv
        refine ⟨h5, ?_, ?_⟩
        · dsimp only; split <;> simp
        · dsimp only
          split
          · rename_i hq; exact h6 hq
          · rename_i hq; exact hq
    · exact stdPath_ok n _ (fun j hj => h j (by simp [hj])) s hs

theorem stdPath_keys {ks : List Str} : ∀ (n : Node) (pm : Option Str), NodeOk ks n → ∀ k ∈ (stdPath pm n).keys, k ∈ ks
  | [], _, _, k, hk => by simp [stdPath, XPath.keys] at hk
  | i :: n, pm, h, k, hk => by
    simp only [stdPath, XPath.keys, List.flatMap_cons, List.mem_append, List.mem_map, List.map_map] at hk
    rcases hk with ⟨kv, hkv, rfl⟩ | hk
    · exact ((h i (by simp)).2.2.2 kv hkv).1
    · exact stdPath_keys n (some i.mod) (fun j hj => h j (by simp [hj])) k (by simpa [XPath.keys] using hk)

theorem mem_causes {reqs : List XPath} {sub : Str} {r : XPath} : r ∈ causes reqs sub ↔ r ∈ reqs ∧ required (XPath.print r) sub ≠ some false := by
  simp [causes, List.mem_filter]

theorem relevant_prefix {r : XPath} {q n : Node} (h : Relevant r n) (hq : q <+: n) : Relevant r q := by
  obtain ⟨m, hm, hc⟩ := h
  exact ⟨m, hq.trans hm, hc⟩

/-- One provider changes the relevant nodes in the same way. -/
theorem update_same {ks : List Str} (hks : KeyNames ks) {reqs : List XPath} (hne : reqs ≠ []) (hv : ∀ r ∈ reqs, XPath.Valid r ∧ ∀ k ∈ r.keys, k ∈ ks)
    {p : Provider} (hp : XPath.Valid p.path ∧ ∀ k ∈ p.path.keys, k ∈ ks) (hf : p.Fair ks) {d d' : Data}
    (hd : ∀ n, d n → NodeOk ks n) (h : ∀ r ∈ reqs, ∀ n, Relevant r n → (d n ↔ d' n)) :
    (∀ n, update reqs d p n → NodeOk ks n) ∧ ∀ r ∈ reqs, ∀ n, Relevant r n → (update reqs d p n ↔ update [] d' p n) := by
  have keysOk : ∀ {x y : XPath}, (∀ k ∈ x.keys, k ∈ ks) → (∀ k ∈ y.keys, k ∈ ks) → KeyNames (x.keys ++ y.keys) := by
    intro x y h1 h2
    have : ∀ k ∈ x.keys ++ y.keys, k ∈ ks := fun k hk => (List.mem_append.mp hk).elim (h1 k) (h2 k)
    exact ⟨fun k hk => hks.1 k (this k hk), fun k hk l hl => hks.2 k (this k hk) l (this l hl)⟩
  have asked : ∀ r ∈ reqs, ∀ n, Relevant r n → XPath.Covers p.path n → r ∈ causes reqs (XPath.print p.path) := by
    intro r hr n hn hc
    refine mem_causes.mpr ⟨hr, fun e => ?_⟩
    exact not_asked_irrelevant r p.path (hv r hr).1 hp.1 (keysOk (hv r hr).2 hp.2) (by rw [e]; simp) n hc hn
  have hne' : reqs.isEmpty = false := by cases reqs with | nil => exact absurd rfl hne | cons _ _ => rfl
  have hfull : causes [] (XPath.print p.path) = [] := rfl
  constructor
  · intro n hn
    simp only [update] at hn
    split at hn
    · exact hd n hn
    · rcases hn with hn | hn
      · exact hd n hn.1
      · split at hn
        · exact (hf.1 _ _ _ hn).2.2
        · obtain ⟨q, _, _, _, ha⟩ := hn
          exact (hf.1 _ _ _ ha).2.2
  · intro r hr n hn
    by_cases hrs : (causes reqs (XPath.print p.path)).isEmpty = true
    · have hnc : ¬ XPath.Covers p.path n := by
        intro hc
        have := asked r hr n hn hc
        rw [List.isEmpty_iff.mp hrs] at this
        simp at this
      have e1 : update reqs d p n ↔ d n := by simp [update, hrs, hne']
      have e2 : update [] d' p n ↔ d' n := by
        simp only [update, hfull, List.isEmpty_nil, Bool.not_true, Bool.false_and, Bool.false_eq_true, if_false, hnc, not_false_eq_true, or_true, and_true]
        constructor
        · rintro (h | h)
          · exact h
          · split at h
            · exact absurd (hf.1 _ _ _ h).1 hnc
            · obtain ⟨q, _, _, _, ha⟩ := h
              exact absurd (hf.1 _ _ _ ha).1 hnc
        · exact .inl
      rw [e1, e2]
      exact h r hr n hn
    · have hans : ∀ q, p.answer (single (causes reqs (XPath.print p.path))) q n ↔ p.answer none q n := by
        intro q
        cases hs : single (causes reqs (XPath.print p.path)) with
        | none => rfl
        | some r0 =>
          have hone : causes reqs (XPath.print p.path) = [r0] := by
            revert hs
            rcases causes reqs (XPath.print p.path) with _ | ⟨a, _ | ⟨b, l⟩⟩ <;> simp [single]
          have hc0 : XPath.Covers p.path n → r = r0 := fun hc => by
            have := asked r hr n hn hc
            rw [hone] at this
            simpa using this
          constructor
          · intro ha
            have := hc0 (hf.1 _ _ _ ha).1
            subst this
            exact (hf.2 r q n hn).mp ha
          · intro ha
            have := hc0 (hf.1 _ _ _ ha).1
            subst this
            exact (hf.2 r q n hn).mpr ha
      have hd1 : ∀ q, Relevant r q → ((d q ∧ (p.merge = true ∨ ¬ XPath.Covers p.path q)) ↔ (d' q ∧ (p.merge = true ∨ ¬ XPath.Covers p.path q))) :=
        fun q hq => by rw [h r hr q hq]
      simp only [update, hfull, hne', hrs, List.isEmpty_nil, Bool.not_true, Bool.not_false, Bool.true_and, Bool.false_and, Bool.false_eq_true, if_false,
        true_or, true_and]
      rw [hd1 n hn]
      refine or_congr Iff.rfl ?_
      have hnone : single [] = none := rfl
      rw [hnone]
      split
      · exact hans []
      · constructor
        · rintro ⟨q, hq, hsel, _, ha⟩
          have hqn := (hf.1 _ _ _ ha).2.1
          exact ⟨q, (hd1 q (relevant_prefix hn hqn)).mp hq, hsel, (hans q).mp ha⟩
        · rintro ⟨q, hq, hsel, ha⟩
          have hqn := (hf.1 _ _ _ ha).2.1
          have hq' := (hd1 q (relevant_prefix hn hqn)).mpr hq
          refine ⟨q, hq', hsel, .inr ?_, (hans q).mpr ha⟩
          have hqok := hd q hq'.1
          cases q with
          | nil =>
            -- the path would have one step
            rename_i hlen
            exfalso
            have hpne := hp.1.1
            obtain ⟨s, y, hy⟩ := List.exists_cons_of_ne_nil hpne
            rw [hy] at hsel hlen
            cases y with
            | nil => exact hlen rfl
            | cons s' y => exact hsel
          | cons i q =>
            have hsq := stdPath_selects (i :: q) none hqok
            have hvq : XPath.Valid (stdPath none (i :: q)) := ⟨by simp [stdPath], stdPath_ok (i :: q) none hqok⟩
            have hmem : r ∈ causes (causes reqs (XPath.print p.path)) (XPath.print (stdPath none (i :: q))) := by
              refine mem_causes.mpr ⟨asked r hr n hn (hf.1 _ _ _ ha).1, fun e => ?_⟩
              refine not_asked_irrelevant r _ (hv r hr).1 hvq (keysOk (hv r hr).2 (stdPath_keys _ _ hqok)) (by rw [e]; simp) n ?_ hn
              refine ⟨(i :: q).length, ?_⟩
              rw [← List.prefix_iff_eq_take.mp hqn]
              exact hsq
            cases hl : causes (causes reqs (XPath.print p.path)) (XPath.print (stdPath none (i :: q))) with
            | nil => rw [hl] at hmem; simp at hmem
            | cons _ _ => rfl

/-- C66: a read with paths returns, of the nodes that the paths select (and of those inside and above), exactly those that reading
everything returns. -/
theorem filtered_read_partial (ks : List Str) (hks : KeyNames ks) (reqs : List XPath) (hne : reqs ≠ [])
    (hv : ∀ r ∈ reqs, XPath.Valid r ∧ ∀ k ∈ r.keys, k ∈ ks) (ps : List Provider)
    (hps : ∀ p ∈ ps, XPath.Valid p.path ∧ (∀ k ∈ p.path.keys, k ∈ ks) ∧ p.Fair ks) (d : Data) (hd : ∀ n, d n → NodeOk ks n) :
    ∀ r ∈ reqs, ∀ n, Relevant r n → (readAll reqs d ps n ↔ readAll [] d ps n) := by
  suffices h : ∀ (ps : List Provider) (d d' : Data), (∀ p ∈ ps, XPath.Valid p.path ∧ (∀ k ∈ p.path.keys, k ∈ ks) ∧ p.Fair ks) → (∀ n, d n → NodeOk ks n) →
      (∀ r ∈ reqs, ∀ n, Relevant r n → (d n ↔ d' n)) →
      ∀ r ∈ reqs, ∀ n, Relevant r n → (readAll reqs d ps n ↔ readAll [] d' ps n) from
    h ps d d hps hd (fun _ _ _ _ => Iff.rfl)
  intro ps
  induction ps with
  | nil => intro d d' _ _ h; exact h
  | cons p ps ih =>
    intro d d' hps hd h
    obtain ⟨h1, h2, h3⟩ := hps p (by simp)
    obtain ⟨g1, g2⟩ := update_same hks hne hv ⟨h1, h2⟩ h3 hd h
    exact ih _ _ (fun q hq => hps q (by simp [hq])) g1 g2

/-! ## Findings -/

/-- Finding: the provider of a leaf is not asked if the leaf is only used in a predicate. A read of `/m:a/b[c='x']/d` then finds no
instance with `c='x'`. -/
theorem predicate_provider_skipped : required "/m:a/b[c='x']/d".toList "/m:a/b/c".toList = some false ∧
    required "/m:a/b[c!='x']/d".toList "/m:a/b/c".toList = some false ∧ required "/m:a/b[c]/d".toList "/m:a/b/c".toList = some false := by
  decide +kernel

/-- Finding: with alternatives in a predicate no instance is asked for, neither that with the first value nor that with the second. -/
theorem alternatives_skipped : required "/m:a/b[id='x' or id='y']/d".toList "/m:a/b[id='x']".toList = some false ∧
    required "/m:a/b[id='x' or id='y']/d".toList "/m:a/b[id='y']".toList = some false := by
  decide +kernel

/-- Finding: a path that ends with a predicate other than `name='value'` selects whole nodes, but the providers of nodes inside of them
are not asked. -/
theorem restricted_node_skipped : required "/m:a/b[c]".toList "/m:a/b/e".toList = some false ∧
    required "/m:a/b[c!='x']".toList "/m:a/b/e".toList = some false ∧ required "/m:a/b[contains(c,'x')]".toList "/m:a/b/e".toList = some false := by
  decide +kernel

/-- Finding: if a part of a union other than the first cannot be parsed, only the parts before it count. `/m:a|//b` selects every `b`, but
the provider of `/m:c/b` is not asked; for `//b|/m:a` it is. -/
theorem union_part_skipped : required "/m:a|//b".toList "/m:c/b".toList = some false ∧ required "//b|/m:a".toList "/m:c/b".toList = some true := by
  decide +kernel

def stepA : Step := ⟨some ['m'], ['l'], [⟨['a'], ['1'], '\''⟩, ⟨['b'], ['2'], '\''⟩]⟩
def stepX : Step := ⟨none, ['x'], []⟩
def instA : Inst := ⟨['m'], ['l'], [(['a'], ['1']), (['b'], ['2'])]⟩
def instX : Inst := ⟨['m'], ['x'], []⟩

theorem ident_one {c : Char} (h : isAlpha c = true) : Ident [c] := ⟨c, [], rfl, .inl h, by simp⟩

theorem valid_AX : XPath.Valid [stepA, stepX] := by
  refine ⟨by simp, fun s hs => ?_⟩
  simp only [List.mem_cons, List.not_mem_nil, or_false] at hs
  rcases hs with rfl | rfl
  · refine ⟨fun m hm => ?_, .inl (ident_one rfl), fun p hp => ?_⟩
    · obtain rfl : ['m'] = m := by simpa [stepA] using hm
      exact ident_one rfl
    · simp only [stepA, List.mem_cons, List.not_mem_nil, or_false] at hp
      rcases hp with rfl | rfl <;> exact ⟨ident_one rfl, .inl rfl, by decide⟩
  · exact ⟨fun m hm => by simp [stepX] at hm, .inl (ident_one rfl), fun p hp => by simp [stepX] at hp⟩

/-- Finding: the first letter of the names of keys is not compared. An instance of a list with keys `a` and `b` that is requested by
both, or that has to be asked for, is taken for another one: `/m:l[a='1'][b='2']/x` does not ask for `x` in `/m:l[a='1'][b='2']`. -/
theorem key_letter_skipped : XPath.print [stepA, stepX] = "/m:l[a='1'][b='2']/x".toList ∧ XPath.Valid [stepA, stepX] ∧
    XPath.print (stdPath none [instA]) = "/m:l[a='1'][b='2']".toList ∧
    required (XPath.print [stepA, stepX]) (XPath.print (stdPath none [instA])) = some false ∧ XPath.Selects [stepA, stepX] [instA, instX] := by
  refine ⟨by decide +kernel, valid_AX, by decide +kernel, by decide +kernel, ⟨?_, .inr rfl, ?_⟩, ⟨?_, .inr rfl, ?_⟩, trivial⟩
  · intro m hm; simpa [stepA, instA] using hm
  · intro p hp
    simp only [stepA, List.mem_cons, List.not_mem_nil, or_false] at hp
    rcases hp with rfl | rfl <;> decide
  · intro m hm; simp [stepX] at hm
  · intro p hp; simp [stepX] at hp

/-! ## Examples -/

/-- The same list with keys `name` and `type`: the keys differ without their first letters, and the provider of `x` is asked. -/
def stepN : Step := ⟨some ['m'], ['l'], [⟨"name".toList, ['1'], '\''⟩, ⟨"type".toList, ['2'], '"'⟩]⟩
def instN : Inst := ⟨['m'], ['l'], [("name".toList, ['1']), ("type".toList, ['2'])]⟩

example : KeyNames ["name".toList, "type".toList] := by
  have hid : ∀ k ∈ ["name".toList, "type".toList], Ident (k.drop 1) := by
    intro k hk
    simp only [List.mem_cons, List.not_mem_nil, or_false] at hk
    rcases hk with rfl | rfl
    · exact ⟨'a', ['m', 'e'], rfl, .inl rfl, by decide⟩
    · exact ⟨'y', ['p', 'e'], rfl, .inl rfl, by decide⟩
  refine ⟨hid, by decide⟩

example : required (XPath.print [stepN, stepX]) (XPath.print (stdPath none [instN])) = some true ∧
    required (XPath.print [stepN, stepX]) "/m:l/y".toList = some false ∧
    required (XPath.print [stepN, stepX]) "/m:l[name='1'][type='3']".toList = some false := by decide +kernel

/-- A provider of `/m:l/x` that returns `x` in every instance. -/
def provX : Provider :=
  { path := [⟨some ['m'], ['l'], []⟩, stepX]
    merge := false
    answer := fun _ q n => q = [instN] ∧ n = [instN, instX] }

theorem nodeN : NodeOk ["name".toList, "type".toList] [instN, instX] := by
  intro i hi
  simp only [List.mem_cons, List.not_mem_nil, or_false] at hi
  rcases hi with rfl | rfl
  · refine ⟨ident_one rfl, ident_one rfl, by decide, ?_⟩
    intro kv hkv
    simp only [instN, List.mem_cons, List.not_mem_nil, or_false] at hkv
    rcases hkv with rfl | rfl
    · exact ⟨by decide, ⟨'n', ['a', 'm', 'e'], rfl, .inl rfl, by decide⟩, by decide⟩
    · exact ⟨by decide, ⟨'t', ['y', 'p', 'e'], rfl, .inl rfl, by decide⟩, by decide⟩
  · exact ⟨ident_one rfl, ident_one rfl, by simp [instX], by simp [instX]⟩

example : provX.Fair ["name".toList, "type".toList] := by
  refine ⟨?_, fun _ _ _ _ => Iff.rfl⟩
  rintro o q n ⟨rfl, rfl⟩
  refine ⟨⟨2, ⟨⟨?_, .inr rfl, ?_⟩, ⟨?_, .inr rfl, ?_⟩, trivial⟩⟩, ⟨[instX], rfl⟩, nodeN⟩
  · intro m hm; simpa [instN] using hm
  · intro p hp; simp at hp
  · intro m hm; simp [stepX] at hm
  · intro p hp; simp [stepX] at hp

/-- The node is read with the filter. -/
example : readAll [[stepN, stepX]] (fun n => n = [instN]) [provX] [instN, instX] := by
  have h1 : (causes [[stepN, stepX]] (XPath.print provX.path)).isEmpty = false := by decide +kernel
  have h2 : (causes (causes [[stepN, stepX]] (XPath.print provX.path)) (XPath.print (stdPath none [instN]))).isEmpty = false := by decide +kernel
  simp only [readAll, List.foldl, update, h1]
  refine .inr ⟨[instN], ⟨rfl, .inr ?_⟩, ⟨⟨?_, .inr rfl, ?_⟩, trivial⟩, .inr h2, rfl, rfl⟩
  · rintro ⟨k, hk⟩
    rcases k with _ | k
    · exact hk
    · have := hk.2; simp [XPath.Selects] at this
  · intro m hm; simpa [instN] using hm
  · intro p hp; simp at hp

end Verif.OperFilter
