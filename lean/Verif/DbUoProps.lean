import Verif.DbUoLemmas5

/-! # Properties of the order of user-ordered lists in the database plugins -/
namespace Verif.DbUo

/-! ## The full property and where it fails

`OrderKept be fs` is the full statement for a sequence of diffs: they are stored without an error,
and whatever list is then loaded has the instances and the order the diffs asked for. -/

/-- Storing the diffs one after another succeeds and every list loaded afterwards is as the diffs
say. -/
def OrderKept (be : Backend) (fs : List Forest) : Prop :=
  ∃ db, storeAll be fs DB.empty = .ok db ∧
    ∀ l, (∃ out, Loaded db l out) ∧ ∀ out, Loaded db l out → out = effectAll fs nothing l

/-- C85.  For both plugins and any sequence of fewer than 2^21 changes (nodes of diffs), of
whatever lists, nested in whatever way: if every diff fits the data it is applied to, no value
named as the previous instance of a leaf-list has an apostrophe and no two modules define lists of
the same name as neighbours, then everything is stored without an error and every list is loaded
with exactly the instances and the order asked for.  Missing for the full property: longer
histories (`overflow_order`), apostrophes (`quote_crash`, `quote_order`), lists of the same name
(`same_name_order`). -/
theorem order_kept_partial (be : Backend) (kind : LPath → Kind) (fs : List Forest)
    (hv : ValidAll fs nothing) (hq : ∀ f ∈ fs, PlainRefs f ∧ KindsAs kind [] f ∧ OneModule f)
    (hs : sizeAll fs < 2 ^ 21) : OrderKept be fs := by
  obtain ⟨db, h1, h2⟩ := storeAll_ok be kind fs DB.empty nothing 0 hv hq (fun L => linv_empty (kind L) L)
  have hB : 0 + gap * sizeAll fs < 2 ^ 31 := by
    have hg : gap = 1024 := rfl
    have e1 : (2 : Nat) ^ 31 = 2147483648 := by decide
    have e2 : (2 : Nat) ^ 21 = 2097152 := by decide
    rw [e1]; rw [e2] at hs; rw [hg]; omega
  exact ⟨db, h1, fun l => ⟨⟨_, linv_exists (h2 l) hB⟩, fun out ho => linv_loaded (h2 l) hB ho⟩⟩

/-- C85, any length of the history: the records hold the order asked for, in the sense that the
records sorted by their numbers are exactly the instances asked for.  Only the comparison used
for sorting (`overflow_order`) limits the length. -/
theorem numbers_right (be : Backend) (kind : LPath → Kind) (fs : List Forest)
    (hv : ValidAll fs nothing) (hq : ∀ f ∈ fs, PlainRefs f ∧ KindsAs kind [] f ∧ OneModule f) :
    ∃ db, storeAll be fs DB.empty = .ok db ∧ ∀ l, ∃ s : List Rec, s.Perm (db.recs l) ∧
      s.Pairwise (fun a b => a.order < b.order) ∧ s.map Rec.elem = effectAll fs nothing l := by
  obtain ⟨db, h1, h2⟩ := storeAll_ok be kind fs DB.empty nothing 0 hv hq (fun L => linv_empty (kind L) L)
  refine ⟨db, h1, fun l => ?_⟩
  obtain ⟨c, hc, hi⟩ := h2 l
  refine ⟨chain (kind l) [] c, hi.perm.symm, ?_, ?_⟩
  · rw [← List.pairwise_map (f := Rec.order), chain_order]; exact hi.srt
  · rw [chain_elem, hc]

/-! ## Examples -/

/-- A node of a list. -/
def nd (mod name : Nat) (k : Kind) (op : Op) (x prev orig : Str) : ND :=
  { mod := mod, name := name, uo := some k, op := some op, value := x, prev := prev, origPrev := orig }

/-- A node that is not user-ordered. -/
def plainNode (name : Nat) (op : Option Op) : ND :=
  { mod := 0, name := name, uo := .none, op := op, value := [], prev := [], origPrev := [] }

/-- Siblings without children. -/
def flat : List ND → Forest
  | [] => .nil
  | d :: t => .cons d .nil (flat t)

private abbrev a : Str := ['a']
private abbrev b : Str := ['b']
private abbrev c : Str := ['c']
private abbrev d : Str := ['d']
private abbrev quoted : Str := ['i', 't', '\'', 's']

/-- The list of the examples, at the top. -/
def top : LPath := { par := [], mod := 0, name := 0 }

/-- Diffs that fill a list, insert eleven instances always at the same place (so that the numbers
run out and the records are shifted), move the last one to the front and delete one, with a nested
leaf-list created below the first. -/
def sample : List Forest :=
  [ .cons (nd 0 0 .list .create a [] []) (flat [nd 0 1 .leaflist .create b [] [], nd 0 1 .leaflist .create c b []])
      (flat [nd 0 0 .list .create b a []]),
    flat ((List.range 12).map fun i => nd 0 0 .list .create ['x', Char.ofNat (97 + i)] a []),
    flat [nd 0 0 .list .replace b [] ['x', 'a'], nd 0 0 .list .delete ['x', 'c'] [] ['x', 'd']] ]

/-- The hypotheses of `order_kept_partial` are met by `sample`. -/
example : ValidAll sample nothing ∧ (∀ f ∈ sample, PlainRefs f ∧ OneModule f) ∧ sizeAll sample = 18 ∧
    effectAll sample nothing top = [b, a, ['x', 'l'], ['x', 'k'], ['x', 'j'], ['x', 'i'], ['x', 'h'], ['x', 'g'],
      ['x', 'f'], ['x', 'e'], ['x', 'd'], ['x', 'b'], ['x', 'a']] := by decide +kernel

/-- And the kinds of its lists are fixed. -/
example : ∀ f ∈ sample, KindsAs (fun l => if l.name = 0 then .list else .leaflist) [] f := by
  have h : ∀ (xs : List Str), KindsAs (fun l => if l.name = 0 then .list else .leaflist) []
      (flat (xs.map fun x => nd 0 0 .list .create x a [])) := by
    intro xs
    induction xs with
    | nil => trivial
    | cons x t ih =>
      refine ⟨?_, trivial, ih⟩
      intro k hk
      simp [nd] at hk
      simp [ND.lpath, nd, hk]
  intro f hf
  simp only [sample, List.mem_cons, List.not_mem_nil, or_false] at hf
  rcases hf with rfl | rfl | rfl
  · simp [KindsAs, flat, nd, ND.lpath]
  · have := h ((List.range 12).map fun i => ['x', Char.ofNat (97 + i)])
    rw [List.map_map] at this
    exact this
  · simp [KindsAs, flat, nd, ND.lpath]

/-! ## Too many moves -/

/-- Three instances, then `n` times two moves to the end that together change nothing, then the
last instance is deleted. -/
def manyMoves (n : Nat) : List Forest :=
  flat [nd 0 0 .list .create a [] [], nd 0 0 .list .create b a [], nd 0 0 .list .create c b []] ::
  (List.replicate n (flat [nd 0 0 .list .replace b c a, nd 0 0 .list .replace c b a]) ++
    [flat [nd 0 0 .list .delete c [] b]])

theorem moves_valid (n : Nat) (x : Cont) (hx : x top = [a, b, c]) :
    ValidAll (List.replicate n (flat [nd 0 0 .list .replace b c a, nd 0 0 .list .replace c b a]) ++
      [flat [nd 0 0 .list .delete c [] b]]) x ∧
    effectAll (List.replicate n (flat [nd 0 0 .list .replace b c a, nd 0 0 .list .replace c b a]) ++
      [flat [nd 0 0 .list .delete c [] b]]) x top = [a, b] := by
  have htop : ({ par := [], mod := 0, name := 0 } : LPath) = top := rfl
  induction n generalizing x with
  | zero =>
    refine ⟨⟨?_, trivial⟩, ?_⟩
    · simp [flat, nd, Valid, Fits, ND.lpath, htop, hx, before]
    · simp [flat, nd, effectAll, effect, ND.lpath, htop, hx, change, without, ND.path]
      simp [top]
  | succ n ih =>
    have hst : effect [] .none (flat [nd 0 0 .list .replace b c a, nd 0 0 .list .replace c b a]) x top = [a, b, c] := by
      simp [flat, nd, effect, ND.lpath, htop, hx, change, without, putAfter, Option.or]
    have := ih _ hst
    refine ⟨⟨?_, this.1⟩, this.2⟩
    simp [flat, nd, Valid, Fits, ND.lpath, htop, hx, before, effect, change, without, putAfter, Option.or]

theorem moves_store (be : Backend) (n : Nat) (db : DB) (M : Nat)
    (h1 : db.recs top = [⟨a, a, 1024, []⟩, ⟨b, b, M, a⟩, ⟨c, c, M + 1024, b⟩])
    (h2 : db.maxord top = some (M + 1024)) :
    ∃ db', storeAll be (List.replicate n (flat [nd 0 0 .list .replace b c a, nd 0 0 .list .replace c b a]) ++
      [flat [nd 0 0 .list .delete c [] b]]) db = .ok db' ∧
      db'.recs top = [⟨a, a, 1024, []⟩, ⟨b, b, M + 2048 * n, a⟩] := by
  have htop : ({ par := [], mod := 0, name := 0 } : LPath) = top := rfl
  induction n generalizing db M with
  | zero =>
    cases be <;>
    simp [storeAll, storeDiff, flat, nd, store, storeOne, doOp, deleteUo, changeNext, ND.lpath, htop, h1, ownPred,
      pick, DB.setRecs, R.bind, setMaxord, DB.clear, ND.path, Forest.headName, Option.or] <;>
    simp [top]
  | succ n ih =>
    have hst : ∃ db', storeDiff be (flat [nd 0 0 .list .replace b c a, nd 0 0 .list .replace c b a]) db = .ok db' ∧
        db'.recs top = [⟨a, a, 1024, []⟩, ⟨b, b, M + 2048, a⟩, ⟨c, c, M + 2048 + 1024, b⟩] ∧
        db'.maxord top = some (M + 2048 + 1024) := by
      cases be <;>
      simp [storeDiff, flat, nd, store, storeOne, doOp, replaceUo, createUo, loadPrev, loadNext, getMaxord, insertRec,
        deleteUo, changeNext, ND.lpath, htop, h1, h2, ownPred, refPred, gap,
        pick, DB.setRecs, R.bind, setMaxord, DB.putMax, Forest.headName, Option.or, List.find?]
    obtain ⟨db1, e1, e2, e3⟩ := hst
    obtain ⟨db2, f1, f2⟩ := ih db1 (M + 2048) e2 e3
    refine ⟨db2, ?_, ?_⟩
    · simp only [List.replicate_succ, List.cons_append, storeAll, e1, R.bind, f1]
    · rw [f2]; simp; omega

theorem overflow_aux (be : Backend) (n : Nat) (hn : n = 1048576) :
    ValidAll (manyMoves n) nothing ∧ effectAll (manyMoves n) nothing top = [a, b] ∧
    ∃ db, storeAll be (manyMoves n) DB.empty = .ok db ∧ ∀ out, Loaded db top out → out = [b, a] := by
  have h0 : ∃ db, storeDiff be (flat [nd 0 0 .list .create a [] [], nd 0 0 .list .create b a [],
      nd 0 0 .list .create c b []]) DB.empty = .ok db ∧
      db.recs top = [⟨a, a, 1024, []⟩, ⟨b, b, 2048, a⟩, ⟨c, c, 2048 + 1024, b⟩] ∧
      db.maxord top = some (2048 + 1024) := by
    cases be <;> exact ⟨_, rfl, by decide, by decide⟩
  obtain ⟨db0, e1, e2, e3⟩ := h0
  have hef : effect [] .none (flat [nd 0 0 .list .create a [] [], nd 0 0 .list .create b a [],
      nd 0 0 .list .create c b []]) nothing top = [a, b, c] := by decide +kernel
  obtain ⟨v1, v2⟩ := moves_valid (n) _ hef
  refine ⟨⟨by decide +kernel, v1⟩, v2, ?_⟩
  obtain ⟨db, f1, f2⟩ := moves_store be (n) db0 2048 e2 e3
  refine ⟨db, ?_, ?_⟩
  · simp only [manyMoves, storeAll, e1, R.bind, f1]
  · intro out ho
    have hnd : ((db.recs top).map Rec.elem).Nodup := by rw [f2]; simp
    obtain ⟨s, hs, rfl⟩ := loaded_sorted ho hnd
    have hb : (2048 + 2048 * n : Nat) = 2147485696 := by omega
    rw [f2, hb] at hs
    obtain ⟨hp, hw⟩ := hs
    have hlen := hp.length_eq
    match s, hlen, hp, hw with
    | [r1, r2], _, hp, hw =>
      have hc := (List.pairwise_cons.1 hw).1 r2 (by simp)
      have hr1 := hp.mem_iff.1 (show r1 ∈ [r1, r2] by simp)
      have hr2 := hp.mem_iff.1 (show r2 ∈ [r1, r2] by simp)
      have hne : r1 ≠ r2 := by
        have : [r1, r2].Nodup := hp.nodup_iff.2 (by simp)
        simpa using this
      simp only [List.mem_cons, List.not_mem_nil, or_false] at hr1 hr2
      rcases hr1 with rfl | rfl <;> rcases hr2 with rfl | rfl
      · exact absurd rfl hne
      · exact absurd hc (by decide)
      · rfl
      · exact absurd rfl hne

/-- C85 fails.  The comparison used for sorting cuts the difference of two orders to 32 bits.  Move
instances of a list to its end 2^21 times (each move adds 1024 to the largest order) and the
instance that stayed at the front is loaded last: a list of two instances comes out in the wrong
order.  Every diff fits and nothing else is unusual. -/
theorem overflow_order (be : Backend) :
    ValidAll (manyMoves (1048576)) nothing ∧ effectAll (manyMoves (1048576)) nothing top = [a, b] ∧
    ∃ db, storeAll be (manyMoves (1048576)) DB.empty = .ok db ∧ ∀ out, Loaded db top out → out = [b, a] :=
  overflow_aux be _ rfl

/-! ## Two lists of the same name -/

/-- The second list of the name, of another module, in the same container. -/
def other : LPath := { par := [(0, 9, [])], mod := 1, name := 0 }

/-- In one container two modules have a list of the same name.  The second one has four
instances; one change then creates two instances of the first and appends one to the second. -/
def sameName : List Forest :=
  [ .cons (plainNode 9 (some .create)) (flat [nd 1 0 .list .create a [] [], nd 1 0 .list .create b a [],
      nd 1 0 .list .create c b [], nd 1 0 .list .create d c []]) .nil,
    .cons (plainNode 9 (some .none)) (flat [nd 0 0 .list .create a [] [], nd 0 0 .list .create b a [],
      nd 1 0 .list .create ['e'] d []]) .nil ]

/-- C85 fails.  Whether the next sibling in the diff belongs to the same list is decided by the
name only.  When two modules have lists of the same name next to each other, the largest order of
the first is used for the second: an instance appended to the second list is loaded before its
last instance. -/
theorem same_name_order (be : Backend) :
    ValidAll sameName nothing ∧ effectAll sameName nothing other = [a, b, c, d, ['e']] ∧
    ∃ db, storeAll be sameName DB.empty = .ok db ∧
      ∀ out, Loaded db other out → out ≠ effectAll sameName nothing other := by
  have he : effectAll sameName nothing other = [a, b, c, d, ['e']] := by decide +kernel
  refine ⟨by decide +kernel, he, ?_⟩
  have hr : recsOf other (storeAll be sameName DB.empty) =
      some [⟨a, a, 1024, []⟩, ⟨b, b, 2048, a⟩, ⟨c, c, 3072, b⟩, ⟨d, d, 4096, c⟩, ⟨['e'], ['e'], 3072, d⟩] := by
    cases be <;> decide +kernel
  obtain ⟨db, h1, h2⟩ := recsOf_some hr
  refine ⟨db, h1, ?_⟩
  intro out ho heq
  rw [he] at heq
  subst heq
  have := loaded_pair (pre := [a, b, c]) (post := []) (x := d) (y := ['e']) (ox := 4096) (oy := 3072) ho
    (by rw [h2]; decide) (by rw [h2]; decide) (by rw [h2]; decide)
  exact absurd this (by decide)

/-! ## Apostrophes -/

/-- A leaf-list instance with an apostrophe, and three instances put behind it one after
another. -/
def apostrophe : List Forest :=
  [ flat [nd 0 0 .leaflist .create quoted [] []],
    flat [nd 0 0 .leaflist .create c quoted []],
    flat [nd 0 0 .leaflist .create b quoted []],
    flat [nd 0 0 .leaflist .create a quoted []] ]

/-- C85 fails.  The predicate of the previous instance of a leaf-list is made by putting its value
between apostrophes, but the path of an instance whose value has an apostrophe uses quotation
marks.  With Redis, putting an instance behind such an instance reads the order of a record that
is not there: `strtoull` of a NULL pointer. -/
theorem quote_crash :
    ValidAll (apostrophe.take 2) nothing ∧ (∀ f ∈ apostrophe.take 2, OneModule f) ∧
    (storeAll .redis (apostrophe.take 2) DB.empty matches .ub) = true := by
  refine ⟨by decide +kernel, by decide +kernel, by decide +kernel⟩

/-- C85 fails.  With MongoDB the missing record counts as order 0, and the third instance put
behind the one with the apostrophe is loaded before it. -/
theorem quote_order :
    ValidAll apostrophe nothing ∧ effectAll apostrophe nothing top = [quoted, a, b, c] ∧
    ∃ db, storeAll .mongo apostrophe DB.empty = .ok db ∧
      ∀ out, Loaded db top out → out ≠ effectAll apostrophe nothing top := by
  have he : effectAll apostrophe nothing top = [quoted, a, b, c] := by decide +kernel
  refine ⟨by decide +kernel, he, ?_⟩
  obtain ⟨q, hq⟩ : ∃ q, q = ['[', '.', '=', '\''] ++ quoted ++ ['\'', ']'] := ⟨_, rfl⟩
  have hr : (recsOf top (storeAll .mongo apostrophe DB.empty)).map (fun l => l.map fun r => (r.elem, r.order)) =
      some [(quoted, 1024), (c, 2048), (b, 1024), (a, 512)] := by
    decide +kernel
  cases hs : recsOf top (storeAll .mongo apostrophe DB.empty) with
  | none => rw [hs] at hr; cases hr
  | some x =>
    rw [hs] at hr
    have hx : x.map (fun r => (r.elem, r.order)) = [(quoted, 1024), (c, 2048), (b, 1024), (a, 512)] := Option.some.inj hr
    obtain ⟨db, h1, h2⟩ := recsOf_some hs
    refine ⟨db, h1, ?_⟩
    intro out ho heq
    rw [he] at heq
    subst heq
    have hnd : ((db.recs top).map Rec.elem).Nodup := by
      have : x.map Rec.elem = [quoted, c, b, a] := by
        have := congrArg (List.map Prod.fst) hx
        simpa [List.map_map, Function.comp_def] using this
      rw [h2, this]; decide
    have hor : ∀ (e : Str) (o : Nat), (∀ p ∈ [(quoted, 1024), (c, 2048), (b, 1024), (a, 512)], p.1 = e → p.2 = o) →
        ∀ r ∈ db.recs top, r.elem = e → r.order = o := by
      intro e o h r hr' hre
      rw [h2] at hr'
      have : (r.elem, r.order) ∈ x.map (fun r => (r.elem, r.order)) := List.mem_map.2 ⟨r, hr', rfl⟩
      rw [hx] at this
      exact h _ this hre
    have := loaded_pair (pre := []) (post := [b, c]) (x := quoted) (y := a) (ox := 1024) (oy := 512) ho hnd
      (hor _ _ (by decide)) (hor _ _ (by decide))
    exact absurd this (by decide)

end Verif.DbUo
