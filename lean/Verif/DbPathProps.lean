import Verif.DbPathLemmas4

/-! # Properties of paths and keys in the database plugins -/
namespace Verif.DbPath

/-- Text of a literal, for the examples. -/
abbrev str (s : String) : Str := s.toList

/-- A step without predicates, for the examples. -/
def cont (n : String) : Step := { name := str n, preds := [] }

/-- A step of a list with one key, for the examples. -/
def entry (n k v : String) : Step := { name := str n, preds := [{ key := str k, value := str v }] }

/-! ## List keys -/

/-- C86.  The keys of a list instance packed into one string are read back as they were, whatever
bytes they have and whatever follows in memory, if they were packed at all. -/
theorem keys_round_trip (ks : List (List UInt8)) (buf : List UInt8) (h : concatKeys ks = some buf) (junk : List UInt8) :
    parseKeys (buf ++ junk) = some ks := by
  unfold concatKeys at h
  split at h
  · cases h
  · rename_i hk
    obtain ⟨tail, h1, h2⟩ := addKeys_some _ _ _ h
    rw [h1]
    simp only [List.cons_append, List.nil_append, parseKeys]
    rw [toNat_ofNat (by omega), h2]

/-- C86.  They are refused only if there are more than 127 or one has more than 16383 bytes. -/
theorem keys_refused (ks : List (List UInt8)) :
    concatKeys ks = none ↔ 127 < ks.length ∨ ∃ k ∈ ks, 16383 < k.length := by
  unfold concatKeys
  split
  · rename_i h; simp [h]
  · rename_i h
    rw [addKeys_none]
    constructor
    · exact .inr
    · rintro (h' | h')
      · exact absurd h' h
      · exact h'

/-- Two keys, one of them with 200 bytes (so that both bytes of the length are used). -/
example : (concatKeys [List.replicate 200 7, [1, 2]]).map (·.take 3) = some [2, 1, 72] := by decide +kernel

/-! ## Places of nodes -/

/-- C87.  Whatever the data, as long as no value has quotes of both kinds: the records come from the
database in an order in which every node is put below the node of its parent, and nothing outside
of the array of parents is accessed.  Missing for the full property: values with both kinds of
quotes (`both_quotes_misplaced`, `both_quotes_crash`). -/
theorem loaded_in_place_partial (d ps : List Path) (hd : Data d) (hs : Sorted d ps) :
    load (ps.map pathText) = some (ps.map place) := load_ok d ps hd hs

/-- Data with a container, a list with keys that have slashes, spaces and quotes, and nodes below
them; the list is before the container `m:c` in the data. -/
def sample : List Path :=
  [ [entry "m:l" "k" "a/b 'c"], [entry "m:l" "k" "a/b 'c", cont "x"], [cont "m:c"], [cont "m:c", entry "l" "k" "/"],
    [cont "m:c", entry "l" "k" "/", cont "y"], [cont "m:c-d"], [cont "m:c", cont "b"] ]

/-- The order of its records. -/
def sampleSorted : List Path :=
  [ [cont "m:c"], [cont "m:c", cont "b"], [cont "m:c", entry "l" "k" "/"], [cont "m:c", entry "l" "k" "/", cont "y"],
    [cont "m:c-d"], [entry "m:l" "k" "a/b 'c"], [entry "m:l" "k" "a/b 'c", cont "x"] ]

example : Data sample := ⟨by decide +kernel, by decide +kernel, by decide +kernel⟩

example : Sorted sample sampleSorted := ⟨by decide +kernel, by decide +kernel⟩

/-- C87 fails.  A list key with both kinds of quotes and a slash: the slash counts as one outside of
the strings, and the list instance is put below the container loaded before it. -/
theorem both_quotes_misplaced :
    ([ [cont "m:c"], [entry "m:l" "k" "'\"/"] ].Pairwise
      fun a b => le (modif (pathText a)) (modif (pathText b)) = true) ∧
    ∃ out, load ([ [cont "m:c"], [entry "m:l" "k" "'\"/"] ].map pathText) = some out ∧
      (pathText [entry "m:l" "k" "'\"/"], some (pathText [cont "m:c"])) ∈ out := by
  refine ⟨by decide +kernel, _, rfl, by decide +kernel⟩

/-- C87 fails.  Alone in the data, loading such an instance reads behind the array of parents. -/
theorem both_quotes_crash : load [pathText [entry "m:l" "k" "'\"/"]] = none := by decide +kernel

/-! ## Deleting -/

/-- C88.  With Redis, after any changes that fit the data the records are exactly those of the
nodes in the data. -/
theorem redis_records_exact (cs : List Change) (hf : FitsAll [] cs) :
    applyAll .redis [] cs = (effectAll [] cs).map pathText ∧ Data (effectAll [] cs) :=
  applyAll_ok .redis cs [] ⟨by simp, by simp, by simp⟩ hf (by intro h; cases h)

/-- C88.  With MongoDB the same holds if, whenever a node with something below it is deleted, no
sibling has a name beginning with the whole name of the node.  Missing for the full property: such
siblings (`sibling_deleted`). -/
theorem mongo_records_exact_partial (cs : List Change) (hf : FitsAll [] cs) (ha : AloneAll [] cs) :
    applyAll .mongo [] cs = (effectAll [] cs).map pathText ∧ Data (effectAll [] cs) :=
  applyAll_ok .mongo cs [] ⟨by simp, by simp, by simp⟩ hf (fun _ => ha)

/-- C88.  Instances of a list with keys are always safe from that: the text of another instance of
the list (with as many keys) never begins with the text of the deleted one. -/
theorem list_instance_alone (d : List Path) (hd : Data d) (p : Path) (s : Step) (hp : p ++ [s] ∈ d) (hs : s.preds ≠ [])
    (hk : ∀ r ∈ d, ∀ s', p ++ [s'] <+: r → s'.name = s.name → s'.preds.length = s.preds.length) :
    Alone d (p ++ [s]) := by
  intro r hr a s' ha hpre h
  rw [List.dropLast_concat] at ha hpre
  have hsa : s = a := by simpa using ha
  subst hsa
  refine step_prefix_list ((hd.good _ hp).2 s (by simp)) ((hd.good _ hr).2 s' (hpre.subset (by simp))) hs (hk r hr s' hpre) h

/-- C87 and C88 together: after any changes that fit the data, loading puts every node of the data
in its place (with MongoDB under the condition of `mongo_records_exact_partial`). -/
theorem history_loaded_partial (be : Backend) (cs : List Change) (hf : FitsAll [] cs) (ha : be = .mongo → AloneAll [] cs)
    (ps : List Path) (hs : Sorted (effectAll [] cs) ps) :
    (ps.map pathText).Perm (applyAll be [] cs) ∧ load (ps.map pathText) = some (ps.map place) := by
  obtain ⟨h1, h2⟩ := applyAll_ok be cs [] ⟨by simp, by simp, by simp⟩ hf ha
  refine ⟨?_, load_ok _ _ h2 hs⟩
  have h1' : applyAll be [] cs = (effectAll [] cs).map pathText := h1
  rw [h1']
  exact hs.perm.map _

/-- Two list instances, one with a leaf, which is deleted. -/
def sampleChanges : List Change :=
  [ .create [entry "m:l" "k" "a"], .create [entry "m:l" "k" "a", cont "x"], .create [entry "m:l" "k" "ab"],
    .delete [entry "m:l" "k" "a"] [[entry "m:l" "k" "a", cont "x"]] ]

example : FitsAll [] sampleChanges ∧ AloneAll [] sampleChanges := by
  refine ⟨⟨⟨by decide +kernel, by decide +kernel, by decide⟩, ⟨by decide +kernel, by decide +kernel, by decide +kernel⟩,
    ⟨by decide +kernel, by decide +kernel, by decide +kernel⟩, ⟨by decide +kernel, ?_⟩, trivial⟩,
    trivial, trivial, trivial, ?_, trivial⟩
  · intro r
    simp only [effect, List.nil_append, List.cons_append, List.mem_cons, List.not_mem_nil, or_false]
    constructor
    · rintro rfl
      refine ⟨.inr (.inl rfl), ⟨[cont "x"], rfl⟩, by decide +kernel⟩
    · rintro ⟨rfl | rfl | rfl, h1, h2⟩
      · exact absurd rfl h2
      · rfl
      · exact absurd h1 (by decide +kernel)
  · intro _ r hr a s' ha hpre h
    have hd : Data (effect (effect (effect [] (.create [entry "m:l" "k" "a"])) (.create [entry "m:l" "k" "a", cont "x"]))
        (.create [entry "m:l" "k" "ab"])) := ⟨by decide +kernel, by decide +kernel, by decide +kernel⟩
    have := list_instance_alone _ hd [] (entry "m:l" "k" "a") (by decide +kernel) (by decide +kernel) (by
      intro r hr s' hpre _
      simp only [effect, List.nil_append, List.cons_append, List.mem_cons, List.not_mem_nil, or_false] at hr
      obtain ⟨t, ht⟩ := hpre
      rcases hr with rfl | rfl | rfl <;> (simp only [List.nil_append, List.cons_append, List.cons.injEq] at ht; rw [ht.1]; try decide))
    exact this r hr a s' ha hpre h

/-- C88 fails.  With MongoDB, deleting the container `server` also deletes the records of the
container `server-backup` and everything below it: the query is for paths that begin with the text
of the path. -/
theorem sibling_deleted :
    FitsAll [] [.create [cont "m:server"], .create [cont "m:server", cont "x"], .create [cont "m:server-backup"],
      .create [cont "m:server-backup", cont "x"], .delete [cont "m:server"] [[cont "m:server", cont "x"]]] ∧
    effectAll [] [.create [cont "m:server"], .create [cont "m:server", cont "x"], .create [cont "m:server-backup"],
      .create [cont "m:server-backup", cont "x"], .delete [cont "m:server"] [[cont "m:server", cont "x"]]] =
      [[cont "m:server-backup"], [cont "m:server-backup", cont "x"]] ∧
    applyAll .mongo [] [.create [cont "m:server"], .create [cont "m:server", cont "x"], .create [cont "m:server-backup"],
      .create [cont "m:server-backup", cont "x"], .delete [cont "m:server"] [[cont "m:server", cont "x"]]] = [] := by
  refine ⟨⟨⟨by decide +kernel, by decide +kernel, by decide⟩, ⟨by decide +kernel, by decide +kernel, by decide +kernel⟩,
    ⟨by decide +kernel, by decide +kernel, by decide +kernel⟩, ⟨by decide +kernel, by decide +kernel, by decide +kernel⟩,
    ⟨by decide +kernel, ?_⟩, trivial⟩, by decide +kernel, by decide +kernel⟩
  intro r
  simp only [effect, List.nil_append, List.cons_append, List.mem_cons, List.not_mem_nil, or_false]
  constructor
  · rintro rfl
    refine ⟨.inr (.inl rfl), ⟨[cont "x"], rfl⟩, by decide +kernel⟩
  · rintro ⟨rfl | rfl | rfl | rfl, h1, h2⟩
    · exact absurd rfl h2
    · rfl
    · exact absurd h1 (by decide +kernel)
    · exact absurd h1 (by decide +kernel)

/-! ## Loading a part of the data -/

/-- C89.  If all XPaths asked for are paths written as the database has them (or without the first
slash), the records loaded are those of a part of the data that has for each path the node, its
parents and everything below it, and that can be loaded in place (`loaded_in_place_partial`).
Missing for the full property: other ways of writing a path (`spelling_missed`) and, with Redis, an
XPath that is not a path after one that is (`second_xpath_missed`). -/
theorem part_complete_partial (be : Backend) (L : Lib) (d : List Path) (hd : Data d) (xs : List Str)
    (hx : ∀ x ∈ xs, L.isPath x = true ∧
      ∃ p, Path.Good p ∧ (x = pathText p ∨ '/' :: x = pathText p) ∧ (L.isKey (pathText p) = true → 1 < p.length)) :
    ∃ d', selected be L xs (d.map pathText) = some (d'.map pathText) ∧ d'.Sublist d ∧ Data d' ∧
      ∀ x ∈ xs, ∀ p, Path.Good p → (x = pathText p ∨ '/' :: x = pathText p) →
        (L.isKey (pathText p) = true → 1 < p.length) → ∀ r, Needed d p r → r ∈ d' := by
  cases hxs : xs with
  | nil =>
    refine ⟨d, ?_, List.Sublist.refl _, hd, by simp⟩
    cases be <;> rfl
  | cons x0 xs0 =>
    rw [← hxs]
    have hne : xs ≠ [] := by rw [hxs]; simp
    obtain ⟨fs, h1, h2, h3⟩ := collect_ok L xs fun x hm => by
      obtain ⟨a, p, b, c, e⟩ := hx x hm
      obtain ⟨f, _, hf, _⟩ := about_of b c e
      exact ⟨a, f, hf⟩
    have hab : ∀ f ∈ fs, ∃ q, About f q := by
      intro f hf
      obtain ⟨x, hm, hf'⟩ := (h3 f).1 hf
      obtain ⟨a, p, b, c, e⟩ := hx x hm
      obtain ⟨g, q, hg, hq, _⟩ := about_of b c e
      rw [hf'] at hg
      exact ⟨q, (Option.some.inj hg) ▸ hq⟩
    refine ⟨d.filter fun r => fs.any fun f => f.lets (pathText r), ?_, List.filter_sublist, filter_data hd fs hab, ?_⟩
    · have hfs : fs.isEmpty = false := by
        cases fs with
        | nil => exact absurd (List.length_eq_zero_iff.1 h2.symm) hne
        | cons _ _ => rfl
      have hxe : xs.isEmpty = false := by rw [hxs]; rfl
      have hm : (d.map pathText).filter (fun t => fs.any fun f => f.lets t) =
          (d.filter fun r => fs.any fun f => f.lets (pathText r)).map pathText :=
        filter_map_text d _ _ (fun _ _ => rfl)
      cases be <;> simp only [selected, h1, Option.map_some, hfs, hxe] <;> simp [hm]
    · intro x hm p hg hc hk r hn
      obtain ⟨f, q, hf, hq, hqp⟩ := about_of hg hc hk
      refine List.mem_filter.2 ⟨hn.1, List.any_eq_true.2 ⟨f, (h3 f).2 ⟨x, hm, hf⟩, ?_⟩⟩
      exact needed_lets hq hqp (hd.good r hn.1) hn.2

/-- C89.  If no XPath is given or the first one is not a path, everything is loaded; with MongoDB
also if any other is not a path (the ones before it being paths as in the database). -/
theorem everything_loaded (be : Backend) (L : Lib) (xs : List Str) (db : List Str)
    (h : xs = [] ∨ ∃ x ys, xs = x :: ys ∧ L.isPath x = false) : selected be L xs db = some db := by
  rcases h with rfl | ⟨x, ys, rfl, h⟩
  · cases be <;> rfl
  · cases be <;> simp [selected, collect, h]

theorem mongo_everything_loaded (L : Lib) (xs ys : List Str) (x : Str) (db : List Str)
    (hxs : ∀ x ∈ xs, L.isPath x = true ∧
      ∃ p, Path.Good p ∧ (x = pathText p ∨ '/' :: x = pathText p) ∧ (L.isKey (pathText p) = true → 1 < p.length))
    (h : L.isPath x = false) : selected .mongo L (xs ++ x :: ys) db = some db := by
  have : ∃ fs, collect L (xs ++ x :: ys) = some (fs, false) := by
    induction xs with
    | nil => exact ⟨[], by simp [collect, h]⟩
    | cons a t ih =>
      obtain ⟨fs, hfs⟩ := ih fun y hy => hxs y (by simp [hy])
      obtain ⟨hp, p, b, c, e⟩ := hxs a (by simp)
      obtain ⟨f, _, hf, _⟩ := about_of b c e
      exact ⟨f :: fs, by simp [collect, hp, hf, hfs]⟩
  obtain ⟨fs, hfs⟩ := this
  simp [selected, hfs]

/-- The library of the examples: XPaths without `//` are paths, and `k` is a list key. -/
def lib : Lib where
  isPath x := x.take 2 ≠ str "//"
  isKey x := x.reverse.take 2 = str "k/"

/-- A list key, a path without the first slash and their parents; `m:c-d` is loaded, too. -/
example : (∀ x ∈ [str "/m:l[k=\"a/b 'c\"]/k", str "m:c"], lib.isPath x = true) ∧
    str "/m:l[k=\"a/b 'c\"]/k" = pathText [entry "m:l" "k" "a/b 'c", cont "k"] ∧
    '/' :: str "m:c" = pathText [cont "m:c"] ∧
    selected .redis lib [str "/m:l[k=\"a/b 'c\"]/k", str "m:c"] (sample.map pathText) = some (sample.map pathText) ∧
    selected .mongo lib [str "/m:c/b"] (sample.map pathText) = some [str "/m:c", str "/m:c/b"] := by decide +kernel

/-- C89 fails.  A path may be written with other quotes than the database has; then nothing of the
node is loaded. -/
theorem spelling_missed (be : Backend) :
    Means (str "/m:l[k=\"a\"]") [entry "m:l" "k" "a"] ∧ lib.isPath (str "/m:l[k=\"a\"]") = true ∧
    Data [[entry "m:l" "k" "a"]] ∧
    Needed [[entry "m:l" "k" "a"]] [entry "m:l" "k" "a"] [entry "m:l" "k" "a"] ∧
    selected be lib [str "/m:l[k=\"a\"]"] ([[entry "m:l" "k" "a"]].map pathText) = some [] := by
  refine ⟨⟨fun _ => '"', fun _ => .inr rfl, by decide +kernel, by decide +kernel⟩, by decide +kernel,
    ⟨by decide +kernel, by decide +kernel, by decide +kernel⟩, ⟨by simp, .inl (List.prefix_refl _)⟩, ?_⟩
  cases be <;> decide +kernel

/-- C89 fails.  With Redis, an XPath that is not a path (and so needs all data) is ignored if one
before it is a path. -/
theorem second_xpath_missed :
    lib.isPath (str "//m:b") = false ∧
    selected .redis lib [str "/m:a", str "//m:b"] ([[cont "m:a"], [cont "m:b"]].map pathText) = some [str "/m:a"] ∧
    selected .mongo lib [str "/m:a", str "//m:b"] ([[cont "m:a"], [cont "m:b"]].map pathText) =
      some [str "/m:a", str "/m:b"] := by decide +kernel

end Verif.DbPath
