import Verif.GetData
namespace Verif.GetData

/-! Lemmas for C52. -/

/-- Every node hangs below the copy of its parent. -/
def ParentsOk (st : List RNode) : Prop :=
  ∀ x ∈ st, match x.parent with
    | none => x.path.length = 1
    | some j => x.path ≠ [] ∧ ∃ y, st[j]? = some y ∧ y.path = x.path.dropLast

theorem take_ne {p : Path} {n : Nat} (h : 0 < n) (hp : 0 < p.length) : p.take n ≠ [] := by
  intro h0
  have := congrArg List.length h0
  simp only [List.length_take, List.length_nil] at this
  omega

theorem ParentsOk.snoc {st : List RNode} {x : RNode} (h : ParentsOk st)
    (hx : match x.parent with | none => x.path.length = 1 | some j => x.path ≠ [] ∧ ∃ y, st[j]? = some y ∧ y.path = x.path.dropLast) :
    ParentsOk (st ++ [x]) := by
  have key : ∀ (j : Nat) (y : RNode), st[j]? = some y → (st ++ [x])[j]? = some y := by
    intro j y hj
    have : j < st.length := by
      rw [List.getElem?_eq_some_iff] at hj; exact hj.1
    rw [List.getElem?_append_left this, hj]
  have lift : ∀ z : RNode, (match z.parent with | none => z.path.length = 1 | some j => z.path ≠ [] ∧ ∃ y, st[j]? = some y ∧ y.path = z.path.dropLast) →
      (match z.parent with | none => z.path.length = 1 | some j => z.path ≠ [] ∧ ∃ y, (st ++ [x])[j]? = some y ∧ y.path = z.path.dropLast) := by
    intro z hz
    cases hp : z.parent with
    | none => rw [hp] at hz; exact hz
    | some j =>
      rw [hp] at hz
      obtain ⟨h1, y, h2, h3⟩ := hz
      exact ⟨h1, y, key j y h2, h3⟩
  intro z hz
  rcases List.mem_append.mp hz with hz | hz
  · exact lift z (h z hz)
  · simp only [List.mem_singleton] at hz
    subst hz
    exact lift z hx

/-! ### The chain of parents -/

theorem chain_spec (p : Path) (n : Nat) : ∀ (k : Nat) (par : Option Nat) (st : List RNode), k + n = p.length → ParentsOk st →
    (match par with | none => k = 0 | some j => ∃ y, st[j]? = some y ∧ y.path = p.take k) →
    ParentsOk (chain p n k par st).1 ∧
    (∃ new, (chain p n k par st).1 = st ++ new ∧ new.map (·.path) = (List.range n).map (fun j => p.take (k + 1 + j))) ∧
    (0 < n → ∃ idx y, (chain p n k par st).2 = some idx ∧ (chain p n k par st).1[idx]? = some y ∧ y.path = p) := by
  induction n with
  | zero => intro k par st _ hst _; exact ⟨hst, ⟨[], by simp [chain], by simp⟩, by simp⟩
  | succ n ih =>
    intro k par st hk hst hpar
    simp only [chain]
    have hst1 : ParentsOk (st ++ [⟨p.take (k + 1), par⟩]) := by
      refine hst.snoc ?_
      cases par with
      | none => simp only at hpar ⊢; subst hpar; simp; omega
      | some j =>
        obtain ⟨y, h1, h2⟩ := hpar
        refine ⟨fun h0 => ?_, y, h1, ?_⟩
        · exact take_ne (by omega) (by omega) h0
        · rw [h2]; simp only [List.dropLast_eq_take, List.length_take, List.take_take]
          congr 1; omega
    obtain ⟨h1, ⟨new, h2, h3⟩, h4⟩ := ih (k + 1) (some st.length) _ (by omega) hst1
      ⟨⟨p.take (k + 1), par⟩, by simp, rfl⟩
    refine ⟨h1, ⟨⟨p.take (k + 1), par⟩ :: new, ?_, ?_⟩, ?_⟩
    · rw [h2]; simp
    · rw [List.map_cons, h3, List.range_succ_eq_map]
      simp only [List.map_cons, List.map_map, Nat.add_zero, List.cons.injEq, true_and]
      apply List.map_congr_left
      intro j _; simp only [Function.comp]; congr 1; omega
    · intro _
      cases n with
      | zero =>
        refine ⟨st.length, ⟨p.take (k + 1), par⟩, rfl, by simp [chain], ?_⟩
        exact List.take_of_length_le (by omega)
      | succ n => exact h4 (by omega)

/-! ### The copied descendants -/

mutual
/-- Paths of the copied descendants. -/
def descs (d : Option Nat) (q : Path) : Tree → List Path
  | .mk _ kids => if d = some 0 then [] else descsK (d.map (· - 1)) q kids
def descsK (d : Option Nat) (q : Path) : List Tree → List Path
  | [] => []
  | t :: ts => (q ++ [t.id]) :: descs d (q ++ [t.id]) t ++ descsK d q ts
end

mutual
theorem dupNode_spec (t : Tree) : ∀ (d : Option Nat) (q : Path) (idx : Nat) (st : List RNode), ParentsOk st →
    (∃ y, st[idx]? = some y ∧ y.path = q) →
    ParentsOk (dupNode d q idx st t) ∧ ∃ new, dupNode d q idx st t = st ++ new ∧ new.map (·.path) = descs d q t := by
  intro d q idx st hst hidx
  cases t with
  | mk i kids =>
    simp only [dupNode, descs]
    split
    · exact ⟨hst, [], by simp, by simp⟩
    · exact dupKids_spec kids _ q idx st hst hidx
theorem dupKids_spec (ts : List Tree) : ∀ (d : Option Nat) (q : Path) (idx : Nat) (st : List RNode), ParentsOk st →
    (∃ y, st[idx]? = some y ∧ y.path = q) →
    ParentsOk (dupKids d q idx st ts) ∧ ∃ new, dupKids d q idx st ts = st ++ new ∧ new.map (·.path) = descsK d q ts := by
  intro d q idx st hst hidx
  cases ts with
  | nil => exact ⟨by simpa [dupKids] using hst, [], by simp [dupKids], by simp [descsK]⟩
  | cons t ts =>
    simp only [dupKids, descsK]
    obtain ⟨y, h1, h2⟩ := hidx
    have hlt : idx < st.length := by rw [List.getElem?_eq_some_iff] at h1; exact h1.1
    have hst1 : ParentsOk (st ++ [⟨q ++ [t.id], some idx⟩]) := hst.snoc ⟨by simp, y, h1, by simp [h2]⟩
    obtain ⟨h3, new, h4, h5⟩ := dupNode_spec t d (q ++ [t.id]) st.length (st ++ [⟨q ++ [t.id], some idx⟩]) hst1
      ⟨⟨q ++ [t.id], some idx⟩, by simp, rfl⟩
    obtain ⟨h6, new2, h7, h8⟩ := dupKids_spec ts d q idx (dupNode d (q ++ [t.id]) st.length (st ++ [⟨q ++ [t.id], some idx⟩]) t) h3
      ⟨y, by rw [h4, List.append_assoc, List.getElem?_append_left hlt, h1], h2⟩
    refine ⟨h6, ⟨q ++ [t.id], some idx⟩ :: new ++ new2, ?_, ?_⟩
    · rw [h7, h4]; simp
    · simp [h5, h8]
end

theorem sub_kids (t : Tree) (ts : List Tree) (h : (Tree.id t) ∉ ts.map Tree.id) (r : Path) :
    (∃ i r', r = i :: r' ∧ i = t.id ∧ sub (t :: ts) r = if r' = [] then some t else sub t.kids r') ∨
    ((r = [] ∨ ∃ i r', r = i :: r' ∧ i ≠ t.id) ∧ sub (t :: ts) r = sub ts r) := by
  cases r with
  | nil => right; simp [sub]
  | cons i r =>
    by_cases hi : i = t.id
    · left; exact ⟨i, r, rfl, hi, by simp [sub, hi]⟩
    · right; refine ⟨.inr ⟨i, r, rfl, hi⟩, ?_⟩
      simp only [sub, List.find?_cons]
      have : decide (t.id = i) = false := by simpa using fun h => hi h.symm
      simp [this]

theorem sub_unknown (ts : List Tree) (i : Nat) (r : Path) (h : i ∉ ts.map Tree.id) : sub ts (i :: r) = none := by
  have : (ts.find? fun t => t.id = i) = none := by
    rw [List.find?_eq_none]; intro t ht; simp; rintro rfl; exact h (List.mem_map_of_mem ht)
  simp [sub, this]

/-- The depth allows `n` levels. -/
def Deep (d : Option Nat) (n : Nat) : Prop := ∀ m, d = some m → n ≤ m

mutual
theorem descs_spec (t : Tree) : ∀ (d : Option Nat) (q : Path), WF t.kids →
    (descs d q t).Nodup ∧ ∀ x, x ∈ descs d q t ↔ ∃ r, r ≠ [] ∧ x = q ++ r ∧ sub t.kids r ≠ none ∧ Deep d r.length := by
  intro d q hw
  cases t with
  | mk i kids =>
    simp only [Tree.kids] at hw ⊢
    simp only [descs]
    split
    · rename_i h0
      subst h0
      refine ⟨List.nodup_nil, fun x => ?_⟩
      simp only [List.not_mem_nil, false_iff, not_exists]
      rintro r ⟨h1, _, _, h2⟩
      have := h2 0 rfl
      exact h1 (List.length_eq_zero_iff.mp (by omega))
    · rename_i h0
      obtain ⟨h1, h2⟩ := descsK_spec kids (d.map (· - 1)) q hw
      refine ⟨h1, fun x => ?_⟩
      rw [h2]
      constructor <;> rintro ⟨r, a, b, c, e⟩ <;> refine ⟨r, a, b, c, ?_⟩
      · intro m hm
        have := e (m - 1) (by simp [hm])
        have hm0 : m ≠ 0 := fun h => h0 (by rw [hm, h])
        omega
      · intro m hm
        cases d with
        | none => simp at hm
        | some m' =>
          simp at hm
          have := e m' rfl
          omega
theorem descsK_spec (ts : List Tree) : ∀ (d : Option Nat) (q : Path), WF ts →
    (descsK d q ts).Nodup ∧ ∀ x, x ∈ descsK d q ts ↔ ∃ r, r ≠ [] ∧ x = q ++ r ∧ sub ts r ≠ none ∧ Deep d (r.length - 1) := by
  intro d q hw
  cases ts with
  | nil => exact ⟨List.nodup_nil, fun x => by simp [descsK, sub]; intro r h; cases r <;> simp [sub]⟩
  | cons t ts =>
    cases hw with
    | mk hn hk =>
      simp only [List.map_cons, List.nodup_cons] at hn
      have hwt : WF t.kids := hk t (by simp)
      have hwts : WF ts := .mk hn.2 (fun t ht => hk t (by simp [ht]))
      obtain ⟨a1, a2⟩ := descs_spec t d (q ++ [t.id]) hwt
      obtain ⟨b1, b2⟩ := descsK_spec ts d q hwts
      have hts : ∀ x r, x = q ++ r → r ≠ [] → sub ts r ≠ none → ∃ i r', r = i :: r' ∧ i ≠ t.id := by
        intro x r _ hr hs
        cases r with
        | nil => exact absurd rfl hr
        | cons i r =>
          refine ⟨i, r, rfl, ?_⟩
          rintro rfl
          exact hs (sub_unknown ts _ r hn.1)
      refine ⟨?_, ?_⟩
      · simp only [descsK]
        rw [List.nodup_append, List.nodup_cons]
        refine ⟨⟨?_, a1⟩, b1, ?_⟩
        · rw [a2]; rintro ⟨r, hr, he, _⟩
          have := congrArg List.length he
          simp at this; exact hr this
        · intro x hx y hy hxy
          subst hxy
          obtain ⟨r, hr, he, hs, _⟩ := (b2 x).mp hy
          obtain ⟨i, r', rfl, hi⟩ := hts x r he hr hs
          rcases List.mem_cons.mp hx with hx | hx
          · rw [he] at hx
            have := List.append_cancel_left hx
            simp at this; exact hi this.1
          · obtain ⟨r2, _, he2, _⟩ := (a2 x).mp hx
            rw [he, List.append_assoc] at he2
            have := List.append_cancel_left he2
            simp at this; exact hi this.1
      · intro x
        simp only [descsK, List.mem_append, List.mem_cons]
        rw [a2, b2]
        constructor
        · rintro ((rfl | ⟨r, hr, rfl, hs, hd⟩) | ⟨r, hr, rfl, hs, hd⟩)
          · refine ⟨[t.id], by simp, rfl, by simp [sub], ?_⟩
            intro m _; simp
          · refine ⟨t.id :: r, by simp, by simp, ?_, by simpa using hd⟩
            simp [sub, hr, hs]
          · obtain ⟨i, r', rfl, hi⟩ := hts _ r rfl hr hs
            refine ⟨i :: r', hr, rfl, ?_, hd⟩
            rcases sub_kids t ts hn.1 (i :: r') with ⟨j, r2, h1, h2, _⟩ | ⟨_, h2⟩
            · simp at h1; exact absurd (h1.1.trans h2) hi
            · rw [h2]; exact hs
        · rintro ⟨r, hr, rfl, hs, hd⟩
          rcases sub_kids t ts hn.1 r with ⟨i, r', rfl, rfl, h3⟩ | ⟨_, h2⟩
          · left
            by_cases hr' : r' = []
            · left; simp [hr']
            · right
              refine ⟨r', hr', by simp, ?_, by simpa using hd⟩
              rw [h3, if_neg hr'] at hs; exact hs
          · right; exact ⟨r, hr, rfl, by rw [← h2]; exact hs, hd⟩
end

theorem sub_append (ts : List Tree) (p : Path) : ∀ (ts : List Tree) (t : Tree) (r : Path), p ≠ [] → sub ts p = some t → r ≠ [] →
    sub ts (p ++ r) = sub t.kids r := by
  induction p with
  | nil => intro _ _ _ h; exact absurd rfl h
  | cons i p ih =>
    intro ts t r _ hs hr
    simp only [sub] at hs
    simp only [List.cons_append, sub]
    cases hf : ts.find? fun t => t.id = i with
    | none => simp [hf] at hs
    | some u =>
      simp only [hf] at hs ⊢
      by_cases hp : p = []
      · subst hp; simp at hs; subst hs; simp [hr]
      · rw [if_neg hp] at hs
        rw [if_neg (by simp [hp])]
        exact ih u.kids t r hp hs hr

theorem sub_prefix (p : Path) : ∀ (ts : List Tree) (r : Path), p ≠ [] → sub ts (p ++ r) ≠ none → sub ts p ≠ none := by
  induction p with
  | nil => intro _ _ h; exact absurd rfl h
  | cons i p ih =>
    intro ts r _ hs
    simp only [List.cons_append, sub] at hs ⊢
    cases hf : ts.find? fun t => t.id = i with
    | none => simp [hf] at hs
    | some u =>
      simp only [hf] at hs ⊢
      by_cases hp : p = []
      · subst hp; simp
      · rw [if_neg (by simp [hp])] at hs
        rw [if_neg hp]
        exact ih u.kids r hp hs

/-! ### The hash table -/

theorem lookup_append (a b : Ht) (q : Path) : lookup (a ++ b) q = (lookup a q).or (lookup b q) := by
  simp only [lookup, List.find?_append]
  cases List.find? (fun r => decide (r.1 = q)) a <;> simp

theorem findParent_none {ht : Ht} {p : Path} {n : Nat} (h : findParent ht p n = none) :
    ∀ m, 0 < m → m ≤ n → lookup ht (p.take m) = none := by
  induction n with
  | zero => intro m _ _; omega
  | succ n ih =>
    simp only [findParent] at h
    split at h
    · simp at h
    · rename_i hl
      intro m h1 h2
      by_cases hm : m = n + 1
      · subst hm; exact hl
      · exact ih h m h1 (by omega)

theorem findParent_some {ht : Ht} {p : Path} {n k i : Nat} (h : findParent ht p n = some (k, i)) :
    0 < k ∧ k ≤ n ∧ lookup ht (p.take k) = some i ∧ ∀ m, k < m → m ≤ n → lookup ht (p.take m) = none := by
  induction n with
  | zero => simp [findParent] at h
  | succ n ih =>
    simp only [findParent] at h
    split at h
    · rename_i j hl
      simp only [Option.some.injEq, Prod.mk.injEq] at h
      obtain ⟨rfl, rfl⟩ := h
      exact ⟨by omega, by omega, hl, by intro m _ _; omega⟩
    · rename_i hl
      obtain ⟨h1, h2, h3, h4⟩ := ih h
      refine ⟨h1, by omega, h3, fun m a b => ?_⟩
      by_cases hm : m = n + 1
      · subst hm; exact hl
      · exact h4 m a (by omega)

theorem lookup_range (p : Path) (a b : Nat) (f : Nat → Nat) (q : Path) (hab : a + b ≤ p.length) :
    (∀ i, lookup ((List.range b).map fun j => (p.take (a + j), f j)) q = some i → ∃ j, j < b ∧ q = p.take (a + j) ∧ i = f j) ∧
    (∀ j, j < b → q = p.take (a + j) → lookup ((List.range b).map fun j => (p.take (a + j), f j)) q ≠ none) := by
  constructor
  · intro i hi
    simp only [lookup, Option.map_eq_some_iff] at hi
    obtain ⟨r, h1, rfl⟩ := hi
    have h2 := List.mem_of_find?_eq_some h1
    have h3 := List.find?_some h1
    simp only [List.mem_map, List.mem_range] at h2
    obtain ⟨j, hj, rfl⟩ := h2
    simp only [decide_eq_true_eq] at h3
    exact ⟨j, hj, h3.symm, rfl⟩
  · intro j hj hq hn
    simp only [lookup, Option.map_eq_none_iff, List.find?_eq_none, List.mem_map, List.mem_range] at hn
    exact hn _ ⟨j, hj, rfl⟩ (by simp [hq])

/-! ### One selected node -/

theorem above_iff {p q : Path} : Above q p ↔ ∃ n, n < p.length ∧ q = p.take n := by
  constructor
  · rintro ⟨r, hr, rfl⟩
    refine ⟨q.length, ?_, by simp⟩
    have : 0 < r.length := List.length_pos_iff.mpr hr
    simp; omega
  · rintro ⟨n, h, rfl⟩
    refine ⟨p.drop n, ?_, by simp⟩
    intro h0
    have := congrArg List.length h0
    simp at this; omega

/-- Two paths with a common continuation. -/
theorem comparable {p p' r r' : Path} (h : p ++ r = p' ++ r') : p = p' ∨ Above p p' ∨ Above p' p := by
  rcases List.append_eq_append_iff.mp h with ⟨a, h1, h2⟩ | ⟨a, h1, h2⟩
  · by_cases ha : a = []
    · left; simp [h1, ha]
    · right; left; exact ⟨a, ha, h1⟩
  · by_cases ha : a = []
    · left; simp [h1, ha]
    · right; right; exact ⟨a, ha, h1⟩

/-- The state after the nodes `done`. -/
structure Good (forest : List Tree) (depth : Nat) (done : List Path) (s : List RNode × Ht) : Prop where
  mem : ∀ q, q ∈ s.1.map (·.path) ↔ ∃ p ∈ done, Brings forest depth p q
  nodup : (s.1.map (·.path)).Nodup
  parents : ParentsOk s.1
  ht1 : ∀ q i, lookup s.2 q = some i → ∃ y, s.1[i]? = some y ∧ y.path = q
  ht2 : ∀ q, lookup s.2 q ≠ none ↔ q ≠ [] ∧ ∃ p ∈ done, Above q p

theorem Good.step {forest : List Tree} {depth : Nat} {done : List Path} {s : List RNode × Ht} (g : Good forest depth done s)
    (hw : WF forest) (p : Path) (hp : p ≠ []) (he : Exists forest p)
    (hd : ∀ p' ∈ done, p' ≠ p ∧ ¬ Above p' p ∧ ¬ Above p p') (denied : Path → Bool) (hden : denied p = false) :
    Good forest depth (done ++ [p]) (addOne forest depth denied s p) := by
  have hpl : 0 < p.length := List.length_pos_iff.mpr hp
  -- the parent found
  have hkp : ∃ k par, nearest s.2 p = (k, par) ∧
      k < p.length ∧ (match par with | none => k = 0 | some j => 0 < k ∧ ∃ y, s.1[j]? = some y ∧ y.path = p.take k) ∧
      (∀ m, k < m → m < p.length → lookup s.2 (p.take m) = none) ∧
      (∀ m, 0 < m → m ≤ k → lookup s.2 (p.take m) ≠ none) := by
    simp only [nearest]
    cases hf : findParent s.2 p (p.length - 1) with
    | none =>
      refine ⟨0, none, rfl, hpl, rfl, fun m h1 h2 => findParent_none hf m h1 (by omega), fun m h1 h2 => by omega⟩
    | some r =>
      obtain ⟨k, i⟩ := r
      obtain ⟨h1, h2, h3, h4⟩ := findParent_some hf
      refine ⟨k, some i, rfl, by omega, ⟨h1, g.ht1 _ _ h3⟩, fun m a b => h4 m a (by omega), fun m a b => ?_⟩
      obtain ⟨_, p', hp', ha⟩ := (g.ht2 _).mp (by rw [h3]; simp : lookup s.2 (p.take k) ≠ none)
      refine (g.ht2 _).mpr ⟨fun h0 => ?_, p', hp', ?_⟩
      · exact take_ne a hpl h0
      · obtain ⟨n, hn, he⟩ := above_iff.mp ha
        refine above_iff.mpr ⟨m, ?_, ?_⟩
        · have := congrArg List.length he; simp at this; omega
        · have : p.take m = (p.take k).take m := by rw [List.take_take]; congr 1; omega
          have hkn : k = n := by have := congrArg List.length he; simp at this; omega
          rw [this, he, List.take_take]; congr 1; omega
  obtain ⟨k, par, hkp, hk, hpar, hlo, hhi⟩ := hkp
  obtain ⟨t, ht⟩ := Option.ne_none_iff_exists'.mp he
  obtain ⟨c1, ⟨new, c2, c3⟩, c4⟩ := chain_spec p (p.length - k) k par s.1 (by omega) g.parents
    (by cases par with
        | none => exact hpar
        | some j => exact hpar.2)
  obtain ⟨idx, y, c5, c6, c7⟩ := c4 (by omega)
  have hwt : WF t.kids := by
    have : ∀ (p : Path) (ts : List Tree), WF ts → sub ts p = some t → WF t.kids := by
      intro p
      induction p with
      | nil => intro ts _ h; simp [sub] at h
      | cons i p ih =>
        intro ts hw h
        simp only [sub] at h
        cases hf : ts.find? fun t => t.id = i with
        | none => simp [hf] at h
        | some u =>
          simp only [hf] at h
          cases hw with
          | mk hn hk =>
            have hu := hk u (List.mem_of_find?_eq_some hf)
            split at h
            · simp at h; subst h; exact hu
            · exact ih u.kids hu h
    exact this p forest hw ht
  generalize hdd : (if depth = 0 then none else some depth : Option Nat) = d
  obtain ⟨e1, new2, e2, e3⟩ := dupNode_spec t d p idx (chain p (p.length - k) k par s.1).1 c1 ⟨y, c6, c7⟩
  have hdeep : ∀ n, Deep d n ↔ (depth = 0 ∨ n ≤ depth) := by
    intro n
    subst hdd
    by_cases h0 : depth = 0
    · simp [Deep, h0]
    · simp [Deep, h0]
  obtain ⟨f1, f2⟩ := descs_spec t d p hwt
  -- the new state
  have hres : addOne forest depth denied s p = (s.1 ++ new ++ new2, s.2 ++ (List.range (p.length - k - 1)).map fun j => (p.take (k + 1 + j), s.1.length + j)) := by
    simp only [addOne, hkp, hden, ht, c5, hdd]
    rw [e2, c2]
    simp
  have hnewp : ∀ q, q ∈ new.map (·.path) ↔ ∃ n, k < n ∧ n ≤ p.length ∧ q = p.take n := by
    intro q
    rw [c3]
    simp only [List.mem_map, List.mem_range]
    constructor
    · rintro ⟨j, hj, rfl⟩; exact ⟨k + 1 + j, by omega, by omega, rfl⟩
    · rintro ⟨n, h1, h2, rfl⟩; exact ⟨n - k - 1, by omega, by congr 1; omega⟩
  have hnew2p : ∀ q, q ∈ new2.map (·.path) ↔ ∃ r, r ≠ [] ∧ q = p ++ r ∧ Exists forest q ∧ (depth = 0 ∨ r.length ≤ depth) := by
    intro q
    rw [e3, f2]
    constructor
    · rintro ⟨r, hr, rfl, hs, hdp⟩
      exact ⟨r, hr, rfl, by rw [Exists, sub_append [] p forest t r hp ht hr]; exact hs, (hdeep _).mp hdp⟩
    · rintro ⟨r, hr, rfl, hs, hdp⟩
      exact ⟨r, hr, rfl, by rw [Exists, sub_append [] p forest t r hp ht hr] at hs; exact hs, (hdeep _).mpr hdp⟩
  -- prefixes of `p` in the old result
  have hold : ∀ n, 0 < n → n ≤ p.length → p.take n ∈ s.1.map (·.path) → n ≤ k := by
    intro n h1 h2 hm
    obtain ⟨p', hp', hb⟩ := (g.mem _).mp hm
    obtain ⟨hne, _, hb⟩ := hb
    have hd' := hd p' hp'
    by_cases hnp : n = p.length
    · subst hnp
      rw [List.take_length] at hb
      rcases hb with hb | hb | ⟨r, hb, _⟩
      · exact absurd hb.symm hd'.1
      · exact absurd hb hd'.2.2
      · by_cases hr : r = []
        · exact absurd (by simpa [hr] using hb.symm) hd'.1
        · exact absurd ⟨r, hr, hb⟩ hd'.2.1
    · have hab : Above (p.take n) p := above_iff.mpr ⟨n, by omega, rfl⟩
      rcases hb with hb | hb | ⟨r, hb, _⟩
      · exact absurd (hb ▸ hab) hd'.2.1
      · by_cases hkn : n ≤ k
        · exact hkn
        · exfalso
          exact (g.ht2 _).mpr ⟨hne, p', hp', hb⟩ (hlo n (by omega) (by omega))
      · exfalso
        obtain ⟨r2, hr2, h2⟩ := hab
        rw [hb, List.append_assoc] at h2
        refine hd'.2.1 ⟨r ++ r2, by simp [hr2], h2⟩
  refine ⟨?_, ?_, ?_, ?_, ?_⟩
  · -- members
    intro q
    rw [hres]
    simp only [List.map_append]
    rw [List.mem_append, List.mem_append, hnewp, hnew2p, g.mem]
    constructor
    · rintro ((⟨p', h1, h2⟩ | ⟨n, h1, h2, rfl⟩) | ⟨r, hr, rfl, hs, hdp⟩)
      · exact ⟨p', by simp [h1], h2⟩
      · refine ⟨p, by simp, take_ne (by omega) hpl, ?_, ?_⟩
        · exact sub_prefix (p.take n) forest (p.drop n) (take_ne (by omega) hpl) (by simpa [Exists] using he)
        · by_cases hn : n = p.length
          · left; simp [hn]
          · right; left; exact above_iff.mpr ⟨n, by omega, rfl⟩
      · exact ⟨p, by simp, by simp [hp], hs, .inr (.inr ⟨r, rfl, hdp⟩)⟩
    · rintro ⟨p', h1, hb⟩
      rcases List.mem_append.mp h1 with h1 | h1
      · left; left; exact ⟨p', h1, hb⟩
      · simp only [List.mem_singleton] at h1
        subst h1
        obtain ⟨hne, hex, hb⟩ := hb
        rcases hb with rfl | hb | ⟨r, rfl, hdp⟩
        · left; right; exact ⟨_, hk, Nat.le_refl _, by simp⟩
        · obtain ⟨n, hn, rfl⟩ := above_iff.mp hb
          have hn0 : 0 < n := by
            rcases Nat.eq_zero_or_pos n with h0 | h0
            · subst h0; simp at hne
            · exact h0
          by_cases hnk : n ≤ k
          · left; left
            obtain ⟨_, p2, hp2, ha2⟩ := (g.ht2 _).mp (hhi n hn0 hnk)
            exact ⟨p2, hp2, hne, hex, .inr (.inl ha2)⟩
          · left; right; exact ⟨n, by omega, by omega, rfl⟩
        · by_cases hr : r = []
          · subst hr; left; right; exact ⟨p'.length, hk, Nat.le_refl _, by simp⟩
          · right; exact ⟨r, hr, rfl, hex, hdp⟩
  · -- no node twice
    rw [hres]
    simp only [List.map_append]
    have hn1 : (new.map (·.path)).Nodup := by
      rw [c3, List.Nodup, List.pairwise_map]
      have hr : (List.range (p.length - k)).Pairwise (fun a b => a < b ∧ b < p.length - k) := by
        rw [List.pairwise_iff_getElem]
        intro i j hi hj hij
        simp only [List.length_range] at hi hj
        simp only [List.getElem_range]
        exact ⟨hij, hj⟩
      refine hr.imp ?_
      rintro a b ⟨h1, h2⟩ he
      have := congrArg List.length he
      simp only [List.length_take] at this
      omega
    rw [List.nodup_append, List.nodup_append]
    refine ⟨⟨g.nodup, hn1, ?_⟩, e3 ▸ f1, ?_⟩
    · rintro a ha b hb rfl
      obtain ⟨n, h1, h2, rfl⟩ := (hnewp a).mp hb
      have := hold n (by omega) h2 ha
      omega
    · rintro a ha b hb rfl
      obtain ⟨r, hr, rfl, _⟩ := (hnew2p a).mp hb
      rcases List.mem_append.mp ha with ha | ha
      · obtain ⟨p', hp', _, _, hb⟩ := (g.mem _).mp ha
        have hd' := hd p' hp'
        rcases hb with hb | hb | ⟨r', hb, _⟩
        · exact hd'.2.2 ⟨r, hr, hb.symm⟩
        · obtain ⟨r2, _, h2⟩ := hb
          exact hd'.2.2 ⟨r ++ r2, by simp [hr], by rw [h2, List.append_assoc]⟩
        · rcases comparable hb with h | h | h
          · exact hd'.1 h.symm
          · exact hd'.2.2 h
          · exact hd'.2.1 h
      · obtain ⟨n, h1, h2, he⟩ := (hnewp _).mp ha
        have := congrArg List.length he
        have h3 : 0 < r.length := List.length_pos_iff.mpr hr
        simp only [List.length_append, List.length_take] at this
        omega
  · rw [hres]; simp only; rw [← c2, ← e2]; exact e1
  · -- table
    intro q i hl
    rw [hres] at hl ⊢
    simp only at hl ⊢
    rw [lookup_append] at hl
    cases hq : lookup s.2 q with
    | some j =>
      rw [hq] at hl
      simp at hl
      subst hl
      obtain ⟨y, h1, h2⟩ := g.ht1 q j hq
      have hlt : j < s.1.length := by rw [List.getElem?_eq_some_iff] at h1; exact h1.1
      exact ⟨y, by rw [List.append_assoc, List.getElem?_append_left hlt, h1], h2⟩
    | none =>
      rw [hq] at hl
      simp only [Option.none_or] at hl
      obtain ⟨j, hj, rfl, rfl⟩ := (lookup_range p (k + 1) (p.length - k - 1) _ q (by omega)).1 i hl
      have hget : (new.map (·.path))[j]? = some (p.take (k + 1 + j)) := by
        rw [c3]; rw [List.getElem?_map, List.getElem?_range (by omega)]; rfl
      rw [List.getElem?_map, Option.map_eq_some_iff] at hget
      obtain ⟨y, h1, h2⟩ := hget
      refine ⟨y, ?_, h2⟩
      have hlt : j < new.length := by rw [List.getElem?_eq_some_iff] at h1; exact h1.1
      rw [List.append_assoc, List.getElem?_append_right (by omega), Nat.add_sub_cancel_left, List.getElem?_append_left hlt, h1]
  · intro q
    rw [hres]
    simp only
    rw [lookup_append]
    constructor
    · intro hl
      cases hq : lookup s.2 q with
      | some j =>
        obtain ⟨h1, p', h2, h3⟩ := (g.ht2 q).mp (by rw [hq]; simp)
        exact ⟨h1, p', by simp [h2], h3⟩
      | none =>
        rw [hq] at hl
        simp only [Option.none_or] at hl
        obtain ⟨i, hi⟩ := Option.ne_none_iff_exists'.mp hl
        obtain ⟨j, hj, rfl, _⟩ := (lookup_range p (k + 1) (p.length - k - 1) _ q (by omega)).1 i hi
        exact ⟨take_ne (by omega) hpl, p, by simp, above_iff.mpr ⟨_, by omega, rfl⟩⟩
    · rintro ⟨h1, p', h2, h3⟩
      rcases List.mem_append.mp h2 with h2 | h2
      · have := (g.ht2 q).mpr ⟨h1, p', h2, h3⟩
        obtain ⟨i, hi⟩ := Option.ne_none_iff_exists'.mp this
        simp [hi]
      · simp only [List.mem_singleton] at h2
        subst h2
        obtain ⟨n, hn, rfl⟩ := above_iff.mp h3
        by_cases hnk : n ≤ k
        · have : 0 < n := by
            rcases Nat.eq_zero_or_pos n with h0 | h0
            · subst h0; simp at h1
            · exact h0
          obtain ⟨i, hi⟩ := Option.ne_none_iff_exists'.mp (hhi n this hnk)
          simp [hi]
        · have := (lookup_range p' (k + 1) (p'.length - k - 1) (fun j => s.1.length + j) (p'.take n) (by omega)).2 (n - k - 1) (by omega) (by congr 1; omega)
          obtain ⟨i, hi⟩ := Option.ne_none_iff_exists'.mp this
          rw [hi]
          cases lookup s.2 (p'.take n) <;> simp

end Verif.GetData
