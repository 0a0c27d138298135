import Verif.XPathUtil
/-! C48: the XPath iterator keeps the string. C49 is in `Verif.XPathIterProps`. -/
namespace Verif.XPathUtil

/-- The string in memory. -/
def orig (s : List Char) : List Char := s ++ ['\x00']

/-- The state between calls: the string has at most the remembered character replaced. -/
structure Inv (s : List Char) (st : St) : Prop where
  pos : ∃ p, st.pos = some p ∧ p ≤ s.length ∧ (orig s)[p]? = some st.ch ∧ (st.buf = orig s ∨ st.buf = (orig s).set p nul)
  cur : ∀ c, st.cur = some c → c ≤ s.length
  beg : st.begining = some 0

theorem orig_length (s : List Char) : (orig s).length = s.length + 1 := by simp [orig]
theorem orig_end (s : List Char) : (orig s)[s.length]? = some nul := by simp [orig, nul]
theorem orig_get {s : List Char} {i : Nat} (h : i ≤ s.length) : ∃ c, (orig s)[i]? = some c := by
  have : i < (orig s).length := by rw [orig_length]; omega
  exact ⟨_, List.getElem?_eq_getElem this⟩
/-- A character that is no NUL is not the last one. -/
theorem orig_lt {s : List Char} {i : Nat} {c : Char} (h : (orig s)[i]? = some c) (hc : c ≠ nul) : i < s.length := by
  have h1 : i < (orig s).length := (List.getElem?_eq_some_iff.mp h).1
  rw [orig_length] at h1
  by_cases hi : i = s.length
  · subst hi
    rw [orig_end] at h
    cases h
    exact absurd rfl hc
  · omega

theorem scanQ_list (stop : Char → Bool) (L : List Char) : ∀ (q : Option Char) (i : Nat), nul ∈ L →
    ∃ j c, scanQ stop q L i = some (i + j) ∧ L[j]? = some c ∧ (c = nul ∨ stop c = true) := by
  induction L with
  | nil => intro q i h; simp at h
  | cons a L ih =>
    intro q i h
    simp only [scanQ]
    by_cases h1 : a = nul ∨ (q = none ∧ stop a = true)
    · rw [if_pos h1]
      exact ⟨0, a, by simp, by simp, h1.imp id (·.2)⟩
    · rw [if_neg h1]
      have hL : nul ∈ L := by
        rcases List.mem_cons.mp h with h | h
        · exact absurd (.inl h.symm) h1
        · exact h
      have step : ∀ q', ∃ j c, scanQ stop q' L (i + 1) = some (i + j) ∧ (a :: L)[j]? = some c ∧ (c = nul ∨ stop c = true) := by
        intro q'
        obtain ⟨j, c, e, h2, h3⟩ := ih q' (i + 1) hL
        exact ⟨j + 1, c, by rw [e]; congr 1; omega, by simpa using h2, h3⟩
      split
      · exact step _
      · split
        · exact step _
        · exact step _

theorem scan_list (stop : Char → Bool) (L : List Char) : ∀ (i : Nat), nul ∈ L →
    ∃ j c, scan stop L i = some (i + j) ∧ L[j]? = some c ∧ (c = nul ∨ stop c = true) := by
  induction L with
  | nil => intro i h; simp at h
  | cons a L ih =>
    intro i h
    simp only [scan]
    by_cases h1 : a = nul ∨ stop a = true
    · rw [if_pos h1]
      exact ⟨0, a, by simp, by simp, h1⟩
    · rw [if_neg h1]
      have hL : nul ∈ L := by
        rcases List.mem_cons.mp h with h | h
        · exact absurd (.inl h.symm) h1
        · exact h
      obtain ⟨j, c, e, h2, h3⟩ := ih (i + 1) hL
      exact ⟨j + 1, c, by rw [e]; congr 1; omega, by simpa using h2, h3⟩

theorem nul_mem_drop {s : List Char} {i : Nat} (h : i ≤ s.length) : nul ∈ (orig s).drop i := by
  refine List.mem_of_getElem? (i := s.length - i) ?_
  rw [List.getElem?_drop]
  have : i + (s.length - i) = s.length := by omega
  rw [this, orig_end]

theorem scanQ_ok {s : List Char} {i : Nat} (stop : Char → Bool) (q : Option Char) (h : i ≤ s.length) :
    ∃ j c, scanQ stop q ((orig s).drop i) i = some j ∧ i ≤ j ∧ j ≤ s.length ∧ (orig s)[j]? = some c ∧ (c = nul ∨ stop c = true) := by
  obtain ⟨j, c, e, h1, h2⟩ := scanQ_list stop _ q i (nul_mem_drop h)
  rw [List.getElem?_drop] at h1
  have := (List.getElem?_eq_some_iff.mp h1).1
  rw [orig_length] at this
  exact ⟨i + j, c, e, by omega, by omega, h1, h2⟩

theorem scan_ok {s : List Char} {i : Nat} (stop : Char → Bool) (h : i ≤ s.length) :
    ∃ j c, scan stop ((orig s).drop i) i = some j ∧ i ≤ j ∧ j ≤ s.length ∧ (orig s)[j]? = some c ∧ (c = nul ∨ stop c = true) := by
  obtain ⟨j, c, e, h1, h2⟩ := scan_list stop _ i (nul_mem_drop h)
  rw [List.getElem?_drop] at h1
  have := (List.getElem?_eq_some_iff.mp h1).1
  rw [orig_length] at this
  exact ⟨i + j, c, e, by omega, by omega, h1, h2⟩

/-- What a call may rely on. -/
def Pre (s : List Char) (xp : Bool) (st : St) : Prop := if xp then st.buf = orig s else Inv s st

theorem set_set (l : List Char) (i : Nat) (a b : Char) (h : l[i]? = some a) : (l.set i b).set i a = l := by
  rw [List.set_set]
  apply List.ext_getElem?
  intro j
  rw [List.getElem?_set]
  split
  · rename_i hj
    subst hj
    split
    · exact h.symm
    · rename_i hl
      rw [List.getElem?_eq_none (by omega)] at h
      cases h
  · rfl

theorem recover_ok {s : List Char} {st : St} (h : Inv s st) :
    ∃ st', recover st = some st' ∧ Inv s st' ∧ st'.buf = orig s ∧ st'.cur = st.cur ∧ st'.pos = st.pos ∧ st'.ch = st.ch := by
  obtain ⟨p, h1, h2, h3, h4⟩ := h.pos
  have hl : p < st.buf.length := by
    rcases h4 with h4 | h4 <;> rw [h4] <;> simp [orig_length] <;> omega
  have hb : st.buf.set p st.ch = orig s := by
    rcases h4 with h4 | h4
    · rw [h4]
      have := set_set (orig s) p st.ch st.ch h3
      rwa [List.set_set] at this
    · rw [h4]; exact set_set _ _ _ _ h3
  refine ⟨{ st with buf := st.buf.set p st.ch }, by simp [recover, h1, hl], ⟨⟨p, h1, h2, h3, .inl hb⟩, h.cur, h.beg⟩, hb, rfl, rfl, rfl⟩

theorem start_ok {s : List Char} {xp : Bool} {st : St} (h : Pre s xp st) :
    ∃ st', start xp st = some st' ∧ Inv s st' ∧ st'.buf = orig s ∧ (xp = false → st'.cur = st.cur ∧ st'.pos = st.pos ∧ st'.ch = st.ch) := by
  cases xp
  · simp only [Pre, Bool.false_eq_true, if_false] at h
    obtain ⟨st', a, b, c, d⟩ := recover_ok h
    exact ⟨st', by simpa [start] using a, b, c, fun _ => d⟩
  · simp only [Pre, if_true] at h
    obtain ⟨c, hc⟩ := orig_get (s := s) (Nat.zero_le _)
    refine ⟨{ st with begining := some 0, cur := none, pos := some 0, ch := c }, by simp [start, h, hc], ⟨⟨0, rfl, by omega, hc, .inl h⟩, ?_, rfl⟩, h, by simp⟩
    intro c hc; cases hc

/-- A good outcome: no access out of bounds, the state and the pointer are right, the string is whole if there is no result. -/
def Good (s : List Char) (r : Res) : Prop :=
  r ≠ .oob ∧ ∀ p st, r = .ok p st → Inv s st ∧ (∀ i, p = some i → i ≤ s.length) ∧ (p = none → st.buf = orig s)

theorem good_hang (s : List Char) : Good s .hang := ⟨by simp, by simp⟩

theorem good_ok {s : List Char} {p : Option Nat} {st : St} (h : Inv s st) (h1 : ∀ i, p = some i → i ≤ s.length)
    (h2 : p = none → st.buf = orig s) : Good s (.ok p st) := ⟨by simp, by rintro _ _ ⟨⟩; exact ⟨h, h1, h2⟩⟩

theorem good_none {s : List Char} {st : St} (h : Inv s st) (hb : st.buf = orig s) : Good s (.ok none st) :=
  good_ok h (by simp) (fun _ => hb)

theorem good_bind {s : List Char} {r : Res} {f : Option Nat → St → Res} (h : Good s r)
    (h1 : ∀ p st, r = .ok p st → Inv s st → (∀ i, p = some i → i ≤ s.length) → (p = none → st.buf = orig s) → Good s (f p st)) :
    Good s (r.bind f) := by
  cases r with
  | ok p st => obtain ⟨a, b, c⟩ := h.2 p st rfl; exact h1 p st rfl a b c
  | oob => exact absurd rfl h.1
  | hang => exact good_hang s

theorem cut_inv {s : List Char} {st : St} {j : Nat} {c : Char} (hb : st.buf = orig s) (hg : st.begining = some 0)
    (hcur : ∀ c, st.cur = some c → c ≤ s.length) (hj : j ≤ s.length) (hc : (orig s)[j]? = some c) : Inv s (cut st j c) := by
  refine ⟨⟨j, rfl, hj, hc, .inr ?_⟩, hcur, hg⟩
  simp [cut, hb]

theorem from_le {s : List Char} {st : St} {p : Nat} (h : p ≤ s.length) (hc : (orig s)[p]? = some st.ch) :
    p ≤ from_ st p ∧ from_ st p ≤ s.length := by
  unfold from_
  split
  · rename_i hq
    have := orig_lt hc (by intro e; rw [e] at hq; exact absurd hq (by decide))
    omega
  · omega

/-- Everything about `sr_get_next_node_internal`. -/
theorem nextNode_spec {s : List Char} {ns xp : Bool} {st : St} (h : Pre s xp st) :
    ∃ p st', nextNode ns xp st = .ok p st' ∧ Inv s st' ∧ (∀ i, p = some i → i ≤ s.length ∧ st'.cur = some i) ∧ (p = none → st'.buf = orig s) ∧
      (xp = false → ∀ o n, st.pos = some o → st'.pos = some n → p ≠ none → o < n) := by
  obtain ⟨st1, e1, i1, b1, k1⟩ := start_ok h
  obtain ⟨p, hp, hpl, hpc, _⟩ := i1.pos
  obtain ⟨hf1, hf⟩ := from_le hpl hpc
  obtain ⟨i, c, e2, hi1, hi2, hi3, hi4⟩ := scanQ_ok (s := s) (fun c => decide (c = '/')) none hf
  unfold nextNode
  simp only [e1, hp]
  simp only [b1, e2, hi3]
  by_cases hc : c = nul
  · simp only [hc, if_true]
    exact ⟨none, st1, rfl, i1, by simp, fun _ => b1, by simp⟩
  · simp only [hc, if_false]
    have hil := orig_lt hi3 hc
    obtain ⟨j, d, e3, hj1, hj2, hj3, _⟩ := scan_ok (s := s) (i := i + 1) (fun c => c = '/' || c = ':' || c = '[') (by omega)
    simp only [e3, hj3]
    have prog : ∀ {m : Nat}, i < m → xp = false → ∀ o n, st.pos = some o → some m = some n → o < n := by
      intro m hm hx o n ho hn
      obtain ⟨_, k3, _⟩ := k1 hx
      rw [hp, ho] at k3
      cases k3
      cases hn
      omega
    by_cases hd : d = ':'
    · simp only [hd, if_true]
      have hjl := orig_lt hj3 (by rw [hd]; decide)
      obtain ⟨l, e, e4, hl1, hl2, hl3, _⟩ := scan_ok (s := s) (i := if ns then j + 1 else j) (fun c => c = '/' || c = '[') (by split <;> omega)
      simp only [e4, hl3]
      have hcu : (if ns = true then j + 1 else i + 1) ≤ s.length := by split <;> omega
      refine ⟨_, _, rfl, cut_inv rfl i1.beg ?_ hl2 hl3, ?_, by simp, ?_⟩
      · intro c hc; simp only [Option.some.injEq] at hc; rw [← hc]; exact hcu
      · intro a ha; simp only [Option.some.injEq] at ha; rw [← ha]; exact ⟨hcu, rfl⟩
      · intro hx o n ho hn _
        exact prog (m := l) (by split at hl1 <;> omega) hx o n ho hn
    · simp only [hd, if_false]
      refine ⟨_, _, rfl, cut_inv rfl i1.beg ?_ hj2 hj3, ?_, by simp, ?_⟩
      · intro c hc; simp only [Option.some.injEq] at hc; omega
      · intro a ha; simp only [Option.some.injEq] at ha; rw [← ha]; exact ⟨by omega, rfl⟩
      · intro hx o n ho hn _
        exact prog (m := j) (by omega) hx o n ho hn

theorem nextNode_good {s : List Char} {ns xp : Bool} {st : St} (h : Pre s xp st) : Good s (nextNode ns xp st) := by
  obtain ⟨p, st', e, h1, h2, h3, _⟩ := nextNode_spec (ns := ns) h
  rw [e]
  exact good_ok h1 (fun i hi => (h2 i hi).1) h3

/-- Everything about `sr_xpath_next_key_name`; it moves if there is an equal sign further on. -/
theorem nextKeyName_spec {s : List Char} {xp : Bool} {st : St} (h : Pre s xp st) :
    ∃ p st', nextKeyName xp st = .ok p st' ∧ Inv s st' ∧ (∀ i, p = some i → i ≤ s.length) ∧ (p = none → st'.buf = orig s) ∧
      (xp = false → nul ∉ s → (∀ i : Nat, s[i]? = some '[' → ∃ j : Nat, i < j ∧ s[j]? = some '=') →
        ∀ o n, st.pos = some o → st'.pos = some n → p ≠ none → o < n) := by
  obtain ⟨st1, e1, i1, b1, k1⟩ := start_ok h
  obtain ⟨p, hp, hpl, hpc, _⟩ := i1.pos
  obtain ⟨hf1, hf⟩ := from_le hpl hpc
  obtain ⟨i, c, e2, hi1, hi2, hi3, hi4⟩ := scanQ_ok (s := s) (fun c => c = '[' || c = '/') none hf
  unfold nextKeyName
  simp only [e1, hp]
  simp only [b1, e2, hi3]
  by_cases hc : c = nul ∨ c = '/'
  · simp only [hc, if_true]
    exact ⟨none, st1, rfl, i1, by simp, fun _ => b1, by simp⟩
  · simp only [hc, if_false]
    simp only [not_or] at hc
    have hil := orig_lt hi3 hc.1
    have hci : c = '[' := by
      rcases hi4 with h | h
      · exact absurd h hc.1
      · simpa [hc.2] using h
    obtain ⟨j, d, e3, hj1, hj2, hj3, hj4⟩ := scan_ok (s := s) (i := i + 1) (fun c => decide (c = '=')) (by omega)
    simp only [e3, hj3]
    by_cases hd : d = '='
    · simp only [hd, if_true]
      refine ⟨_, _, rfl, cut_inv b1 i1.beg i1.cur hj2 (hd ▸ hj3), ?_, by simp, ?_⟩
      · intro a ha; cases ha; omega
      · intro hx _ _ o n ho hn _
        obtain ⟨_, k3, _⟩ := k1 hx
        rw [hp, ho] at k3
        cases k3
        cases hn
        omega
    · simp only [hd, if_false]
      refine ⟨_, _, rfl, i1, ?_, by simp, ?_⟩
      · intro a ha; cases ha; omega
      · intro hx hnn heq o n ho hn _
        exfalso
        -- there is an equal sign, so the search would have found it
        have hs : s[i]? = some '[' := by
          have := hi3
          rw [orig, List.getElem?_append_left hil] at this
          rw [this, hci]
        obtain ⟨k, hk1, hk2⟩ := heq i hs
        have hkl := (List.getElem?_eq_some_iff.mp hk2).1
        have hdn : d = nul := by
          rcases hj4 with h | h
          · exact h
          · exact absurd (by simpa using h) hd
        have key : ∀ (L : List Char) (m j : Nat), scan (fun c => decide (c = '=')) L m = some j →
            ∀ k, L[k]? = some '=' → j ≤ m + k := by
          intro L
          induction L with
          | nil => intro m j _ k hk; simp at hk
          | cons a L ih =>
            intro m j hj k hk
            simp only [scan] at hj
            split at hj
            · cases hj; omega
            · rename_i hna
              cases k with
              | zero => simp at hk; exact absurd (.inr (by simpa using hk)) hna
              | succ k => have := ih (m + 1) j hj k (by simpa using hk); omega
        have hle := key _ _ _ e3 (k - (i + 1)) (by
          rw [List.getElem?_drop, show i + 1 + (k - (i + 1)) = k by omega, orig, List.getElem?_append_left hkl, hk2])
        -- so the NUL would be at or before the equal sign, within the string
        by_cases hjk : j = k
        · subst hjk
          rw [orig, List.getElem?_append_left hkl, hk2] at hj3
          cases hj3
          exact hd rfl
        · have hjs : j < s.length := by omega
          rw [orig, List.getElem?_append_left hjs, hdn] at hj3
          exact hnn (List.mem_of_getElem? hj3)

theorem nextKeyName_good {s : List Char} {xp : Bool} {st : St} (h : Pre s xp st) : Good s (nextKeyName xp st) := by
  obtain ⟨p, st', e, h1, h2, h3, _⟩ := nextKeyName_spec h
  rw [e]
  exact good_ok h1 h2 h3

theorem nextKeyValue_good {s : List Char} {xp : Bool} {st : St} (h : Pre s xp st) : Good s (nextKeyValue xp st) ∧ nextKeyValue xp st ≠ .hang := by
  obtain ⟨st1, e1, i1, b1, k1⟩ := start_ok h
  obtain ⟨p, hp, hpl, hpc, _⟩ := i1.pos
  obtain ⟨hf1, hf⟩ := from_le hpl hpc
  obtain ⟨i, c, e2, hi1, hi2, hi3, hi4⟩ := scan_ok (s := s) (fun c => isQuote c || c = '/') hf
  unfold nextKeyValue
  simp only [e1, hp]
  simp only [b1, e2, hi3]
  by_cases hc : c = nul ∨ c = '/'
  · simp only [hc, if_true]
    exact ⟨good_none i1 b1, by simp⟩
  · simp only [hc, if_false]
    simp only [not_or] at hc
    have hil := orig_lt hi3 hc.1
    obtain ⟨j, d, e3, hj1, hj2, hj3, hj4⟩ := scan_ok (s := s) (i := i + 1) (fun d => decide (d = c)) (by omega)
    simp only [e3, hj3]
    by_cases hd : d = c
    · simp only [hd, if_true]
      refine ⟨good_ok (cut_inv b1 i1.beg i1.cur hj2 (hd ▸ hj3)) ?_ (by simp), by simp⟩
      intro a ha; cases ha; omega
    · simp only [hd, if_false]
      refine ⟨good_ok i1 ?_ (by simp), by simp⟩
      intro a ha; cases ha; omega

theorem cstr_some (L : List Char) (h : nul ∈ L) : ∃ t, cstr L = some t := by
  induction L with
  | nil => simp at h
  | cons a L ih =>
    simp only [cstr]
    split
    · exact ⟨_, rfl⟩
    · rename_i ha
      obtain ⟨t, ht⟩ := ih (by
        rcases List.mem_cons.mp h with h | h
        · exact absurd h.symm ha
        · exact h)
      exact ⟨a :: t, by simp [ht]⟩

theorem cstr_ok {s : List Char} {st : St} {i : Nat} (h : Inv s st) (hi : i ≤ s.length) : ∃ t, cstr (st.buf.drop i) = some t := by
  apply cstr_some
  obtain ⟨p, _, hp, _, h4⟩ := h.pos
  refine List.mem_of_getElem? (i := s.length - i) ?_
  rw [List.getElem?_drop, show i + (s.length - i) = s.length by omega]
  rcases h4 with h4 | h4
  · rw [h4, orig_end]
  · rw [h4, List.getElem?_set]
    split
    · rename_i he
      rw [if_pos (by rw [orig_length]; omega)]
    · exact orig_end s

theorem search_good {s : List Char} {next : St → Res} (hn : ∀ st, Inv s st → Good s (next st)) (name : List Char) (f : Nat) :
    ∀ st, Inv s st → Good s (search next name f st) := by
  induction f with
  | zero => intro st _; exact good_hang s
  | succ f ih =>
    intro st h
    simp only [search]
    apply good_bind (hn st h)
    intro p st2 _ i2 h2 h3
    cases p with
    | none => exact good_none i2 (h3 rfl)
    | some i =>
      obtain ⟨t, ht⟩ := cstr_ok i2 (h2 i rfl)
      simp only [ht]
      split
      · exact good_ok i2 h2 (by simp)
      · exact ih st2 i2

theorem searchIdx_good {s : List Char} {next : St → Res} (hn : ∀ st, Inv s st → Good s (next st)) (n : Nat) :
    ∀ st, Inv s st → Good s (searchIdx next n st) := by
  induction n with
  | zero => intro st h; exact hn st h
  | succ n ih =>
    intro st h
    simp only [searchIdx]
    apply good_bind (hn st h)
    intro p st2 _ i2 h2 h3
    cases p with
    | none => exact good_none i2 (h3 rfl)
    | some i => exact ih st2 i2

theorem nextNode_g {s : List Char} : ∀ st, Inv s st → Good s (nextNode true false st) := fun _ h => nextNode_good (by simpa [Pre] using h)
theorem nextKeyName_g {s : List Char} : ∀ st, Inv s st → Good s (nextKeyName false st) := fun _ h => nextKeyName_good (by simpa [Pre] using h)

theorem putBack_inv {s : List Char} {old st : St} (h : Inv s old) (h2 : Inv s st) (hb : st.buf = orig s) : Inv s (putBack old st) := by
  obtain ⟨p, a, b, c, _⟩ := h.pos
  exact ⟨⟨p, a, b, c, .inl hb⟩, h2.cur, h2.beg⟩

theorem good_putBack {s : List Char} {old st : St} (h : Inv s old) (h2 : Inv s st) (hb : st.buf = orig s) :
    Good s (.ok none (putBack old st)) := good_none (putBack_inv h h2 hb) hb

theorem toBegin_ok {s : List Char} {st : St} (h : Inv s st) (hb : st.buf = orig s) :
    ∃ st1, toBegin st = some st1 ∧ Inv s st1 ∧ st1.pos = some 0 := by
  obtain ⟨c, hc⟩ := orig_get (s := s) (Nat.zero_le _)
  refine ⟨{ st with cur := none, pos := some 0, ch := c }, by simp [toBegin, h.beg, hb, hc], ⟨⟨0, rfl, by omega, hc, .inl hb⟩, ?_, h.beg⟩, rfl⟩
  intro c hc; cases hc

theorem node_good {s : List Char} {xp : Bool} {st : St} (h : Pre s xp st) (f : Nat) (name : List Char) : Good s (node f xp name st) := by
  obtain ⟨st1, e1, i1, b1, _⟩ := start_ok h
  have hb : ¬ (st.begining = none ∧ xp = false) := by
    rintro ⟨h1, h2⟩
    subst h2
    have := Inv.beg (by simpa [Pre] using h : Inv s st)
    rw [h1] at this
    cases this
  unfold node
  rw [if_neg hb]
  obtain ⟨st2, e2, i2, _⟩ := toBegin_ok i1 b1
  simp only [e1, e2]
  apply good_bind (search_good nextNode_g name f st2 i2)
  intro p st3 _ i3 h3 h4
  cases p with
  | none => exact good_putBack i1 i3 (h4 rfl)
  | some i => exact good_ok i3 h3 (by simp)

/-- A search that returns a node leaves it the current one. -/
theorem search_cur {s : List Char} (name : List Char) (f : Nat) : ∀ st, Inv s st → ∀ i st2,
    search (nextNode true false) name f st = .ok (some i) st2 → st2.cur = some i := by
  induction f with
  | zero => intro st _ i st2 h; simp [search] at h
  | succ f ih =>
    intro st h i st2 he
    obtain ⟨p, st1, e, h1, h2, h3, _⟩ := nextNode_spec (ns := true) (xp := false) (by simpa [Pre] using h)
    simp only [search, e, Res.bind] at he
    cases p with
    | none => simp at he
    | some k =>
      obtain ⟨t, ht⟩ := cstr_ok h1 (h2 k rfl).1
      simp only [ht] at he
      split at he
      · cases he; exact (h2 i rfl).2
      · exact ih st1 h1 i st2 he

theorem nodeRel_good {s : List Char} {xp : Bool} {st : St} (h : Pre s xp st) (f : Nat) (name : List Char) : Good s (nodeRel f xp name st) := by
  obtain ⟨st1, e1, i1, b1, _⟩ := start_ok h
  unfold nodeRel
  simp only [e1]
  apply good_bind (search_good nextNode_g name f st1 i1)
  intro p st3 e i3 h3 h4
  cases hc : st3.cur with
  | none =>
    cases p with
    | none => exact good_putBack i1 i3 (h4 rfl)
    | some i => rw [search_cur name f st1 i1 i st3 e] at hc; cases hc
  | some i =>
    refine good_ok i3 ?_ (by simp)
    intro a ha; cases ha; exact i3.cur _ hc

theorem nodeIdx_good {s : List Char} {xp : Bool} {st : St} (h : Pre s xp st) (n : Nat) : Good s (nodeIdx xp n st) := by
  obtain ⟨st1, e1, i1, b1, _⟩ := start_ok h
  have hb : ¬ (st.begining = none ∧ xp = false) := by
    rintro ⟨h1, h2⟩
    subst h2
    have := Inv.beg (by simpa [Pre] using h : Inv s st)
    rw [h1] at this
    cases this
  unfold nodeIdx
  rw [if_neg hb]
  obtain ⟨st2, e2, i2, _⟩ := toBegin_ok i1 b1
  simp only [e1, e2]
  apply good_bind (searchIdx_good nextNode_g n st2 i2)
  intro p st3 _ i3 h3 h4
  cases p with
  | none => exact good_putBack i1 i3 (h4 rfl)
  | some i => exact good_ok i3 h3 (by simp)

theorem nodeIdxRel_good {s : List Char} {xp : Bool} {st : St} (h : Pre s xp st) (n : Nat) : Good s (nodeIdxRel xp n st) := by
  obtain ⟨st1, e1, i1, b1, _⟩ := start_ok h
  unfold nodeIdxRel
  simp only [e1]
  apply good_bind (searchIdx_good nextNode_g n st1 i1)
  intro p st3 _ i3 h3 h4
  cases p with
  | none => exact good_putBack i1 i3 (h4 rfl)
  | some i => exact good_ok i3 h3 (by simp)

theorem toCurrent_good {s : List Char} {st : St} (h : Inv s st) (hb : st.buf = orig s) (f : St → Res)
    (hf : ∀ st, Inv s st → Good s (f st)) : Good s (toCurrent st f) := by
  have go : ∀ st : St, Inv s st → st.buf = orig s → st.cur ≠ none → Good s
      (atCurrent f st) := by
    intro st h hb hc
    unfold atCurrent
    cases hcur : st.cur with
    | none => exact absurd hcur hc
    | some c =>
      have hle := h.cur c hcur
      obtain ⟨d, hd⟩ := orig_get hle
      simp only [hb, hd]
      apply hf
      refine ⟨⟨c, rfl, hle, hd, .inl rfl⟩, ?_, h.beg⟩
      intro a ha
      exact h.cur a (hcur.trans ha)
  unfold toCurrent
  cases hcur : st.cur with
  | some c =>
    exact go st h hb (by rw [hcur]; simp)
  | none =>
    simp only
    obtain ⟨p, st1, e, h1, h2, h3, _⟩ := nextNode_spec (ns := true) (xp := false) (by simpa [Pre] using h)
    simp only [e, Res.bind]
    obtain ⟨st2, e2, i2, b2, c2, _⟩ := recover_ok h1
    simp only [e2]
    cases p with
    | none => exact good_none i2 b2
    | some i => exact go st2 i2 b2 (by rw [c2, (h2 i rfl).2]; simp)

theorem nodeKeyValue_good {s : List Char} {xp : Bool} {st : St} (h : Pre s xp st) (f : Nat) (key : List Char) :
    Good s (nodeKeyValue f xp key st) := by
  obtain ⟨st1, e1, i1, b1, _⟩ := start_ok h
  unfold nodeKeyValue
  simp only [e1]
  apply toCurrent_good i1 b1
  intro st2 i2
  apply good_bind (search_good nextKeyName_g key f st2 i2)
  intro p st3 _ i3 h3 h4
  cases p with
  | none => exact good_putBack i1 i3 (h4 rfl)
  | some i => exact (nextKeyValue_good (by simpa [Pre] using i3)).1

theorem nodeKeyValueIdx_good {s : List Char} {xp : Bool} {st : St} (h : Pre s xp st) (n : Nat) :
    Good s (nodeKeyValueIdx xp n st) := by
  obtain ⟨st1, e1, i1, b1, _⟩ := start_ok h
  unfold nodeKeyValueIdx
  simp only [e1]
  apply toCurrent_good i1 b1
  intro st2 i2
  apply good_bind (searchIdx_good nextKeyName_g n st2 i2)
  intro p st3 _ i3 h3 h4
  cases p with
  | none => exact good_putBack i1 i3 (h4 rfl)
  | some i => exact (nextKeyValue_good (by simpa [Pre] using i3)).1

theorem keyValue_good {s : List Char} {xp : Bool} {st : St} (h : Pre s xp st) (f : Nat) (name key : List Char) :
    Good s (keyValue f xp name key st) := by
  obtain ⟨st1, e1, i1, b1, _⟩ := start_ok h
  unfold keyValue
  simp only [e1]
  apply good_bind (node_good (xp := false) (by simpa [Pre] using i1) f name)
  intro p st2 _ i2 h2 h3
  cases p with
  | none => exact good_none i2 (h3 rfl)
  | some i =>
    apply good_bind (nodeKeyValue_good (xp := false) (by simpa [Pre] using i2) f key)
    intro q st3 _ i3 h4 h5
    cases q with
    | none => exact good_putBack i1 i3 (h5 rfl)
    | some j => exact good_ok i3 h4 (by simp)

theorem keyValueIdx_good {s : List Char} {xp : Bool} {st : St} (h : Pre s xp st) (n k : Nat) :
    Good s (keyValueIdx xp n k st) := by
  obtain ⟨st1, e1, i1, b1, _⟩ := start_ok h
  unfold keyValueIdx
  simp only [e1]
  apply good_bind (nodeIdx_good (xp := false) (by simpa [Pre] using i1) n)
  intro p st2 _ i2 h2 h3
  cases p with
  | none => exact good_none i2 (h3 rfl)
  | some i =>
    apply good_bind (nodeKeyValueIdx_good (xp := false) (by simpa [Pre] using i2) k)
    intro q st3 _ i3 h4 h5
    cases q with
    | none => exact good_putBack i1 i3 (h5 rfl)
    | some j => exact good_ok i3 h4 (by simp)

theorem toLast_good {s : List Char} (f : Nat) : ∀ st, Inv s st → Good s (toLast f st) := by
  induction f with
  | zero => intro st _; exact good_hang s
  | succ f ih =>
    intro st h
    simp only [toLast]
    apply good_bind (nextNode_g st h)
    intro p st2 _ i2 h2 h3
    cases p with
    | none => exact good_ok i2 (fun i hi => i2.cur i hi) (fun _ => h3 rfl)
    | some i => exact ih st2 i2

theorem exec_good {s : List Char} {xp : Bool} {st : St} (f : Nat) (op : Op) (h : Pre s xp st) (hr : op = .recover → xp = false) :
    Good s (op.exec f xp st) := by
  cases op with
  | nextNode => exact nextNode_good h
  | nextNodeWithNs => exact nextNode_good h
  | nextKeyName => exact nextKeyName_good h
  | nextKeyValue => exact (nextKeyValue_good h).1
  | node n => exact node_good h f n
  | nodeRel n => exact nodeRel_good h f n
  | nodeIdx n => exact nodeIdx_good h n
  | nodeIdxRel n => exact nodeIdxRel_good h n
  | nodeKeyValue k => exact nodeKeyValue_good h f k
  | nodeKeyValueIdx n => exact nodeKeyValueIdx_good h n
  | keyValue n k => exact keyValue_good h f n k
  | keyValueIdx n k => exact keyValueIdx_good h n k
  | lastNode =>
    obtain ⟨st1, e1, i1, b1, _⟩ := start_ok h
    simp only [Op.exec, lastNode, e1]
    exact toLast_good f st1 i1
  | recover =>
    have := hr rfl
    subst this
    obtain ⟨st1, e1, i1, b1, _⟩ := recover_ok (by simpa [Pre] using h : Inv s st)
    simp only [Op.exec, e1]
    exact good_none i1 b1

/-! ### C48 -/

/-- A possible next call: the string is passed in the first call and, if again, only after the string was recovered. -/
inductive Calls (fuel : Nat) (s : List Char) : St → Prop
  | first (st : St) (op : Op) (p : Option Nat) (st' : St) : st.buf = orig s → op ≠ .recover → op.exec fuel true st = .ok p st' → Calls fuel s st'
  | next (st : St) (op : Op) (p : Option Nat) (st' : St) : Calls fuel s st → op.exec fuel false st = .ok p st' → Calls fuel s st'
  | again (st st1 : St) (op : Op) (p : Option Nat) (st' : St) : Calls fuel s st → recover st = some st1 → op ≠ .recover →
      op.exec fuel true st1 = .ok p st' → Calls fuel s st'

theorem calls_inv {fuel : Nat} {s : List Char} {st : St} (h : Calls fuel s st) : Inv s st := by
  induction h with
  | first st op p st' hb hr he => exact ((exec_good fuel op (by simpa [Pre] using hb) (fun e => absurd e hr)).2 p st' he).1
  | next st op p st' _ he ih => exact ((exec_good fuel op (by simpa [Pre] using ih) (fun _ => rfl)).2 p st' he).1
  | again st st1 op p st' _ hr hn he ih =>
    obtain ⟨st2, e, _, b, _⟩ := recover_ok ih
    rw [hr] at e
    cases e
    exact ((exec_good fuel op (by simpa [Pre] using b) (fun e => absurd e hn)).2 p st' he).1

/-- C48. After any calls `sr_xpath_recover` makes the string the original one again. Missing: passing the string again without recovering
it first (`passed_again`). -/
theorem recover_restores_partial (fuel : Nat) (s : List Char) (st : St) (h : Calls fuel s st) :
    ∃ st', recover st = some st' ∧ st'.buf = s ++ ['\x00'] := by
  obtain ⟨st', e, _, b, _⟩ := recover_ok (calls_inv h)
  exact ⟨st', e, b⟩

/-- C48. No call accesses memory outside of the string, and the pointers it returns are inside. -/
theorem no_access_outside_partial (fuel : Nat) (s : List Char) (st : St) (h : Calls fuel s st) (op : Op) :
    op.exec fuel false st ≠ .oob ∧ ∀ i st', op.exec fuel false st = .ok (some i) st' → i ≤ s.length := by
  have g := exec_good fuel op (st := st) (xp := false) (s := s) (by simpa [Pre] using calls_inv h) (fun _ => rfl)
  exact ⟨g.1, fun i st' e => (g.2 _ _ e).2.1 i rfl⟩

/-- C48. The same for the first call. -/
theorem first_call_inside (fuel : Nat) (s : List Char) (st : St) (hb : st.buf = s ++ ['\x00']) (op : Op) (hr : op ≠ .recover) :
    op.exec fuel true st ≠ .oob ∧ ∀ i st', op.exec fuel true st = .ok (some i) st' → i ≤ s.length := by
  have g := exec_good fuel op (st := st) (xp := true) (s := s) (by simpa [Pre, orig] using hb) (fun e => absurd e hr)
  exact ⟨g.1, fun i st' e => (g.2 _ _ e).2.1 i rfl⟩

/-- Between the calls at most one character is replaced. -/
theorem one_char_replaced (fuel : Nat) (s : List Char) (st : St) (h : Calls fuel s st) :
    ∃ p, ∀ i : Nat, i ≠ p → st.buf[i]? = (s ++ ['\x00'])[i]? := by
  obtain ⟨p, _, _, _, h4⟩ := (calls_inv h).pos
  refine ⟨p, fun i hi => ?_⟩
  rcases h4 with h4 | h4
  · rw [h4]; rfl
  · rw [h4, List.getElem?_set, if_neg (fun e => hi e.symm)]; rfl

/-! ### Termination -/

theorem search_ends {s : List Char} {next : St → Res}
    (hn : ∀ st, Inv s st → ∃ p st', next st = .ok p st' ∧ Inv s st' ∧ (∀ i, p = some i → i ≤ s.length) ∧
      ∀ o n, st.pos = some o → st'.pos = some n → p ≠ none → o < n) (name : List Char) (f : Nat) :
    ∀ st o, Inv s st → st.pos = some o → s.length + 1 ≤ f + o → search next name f st ≠ .hang := by
  induction f with
  | zero =>
    intro st o h ho hf
    obtain ⟨p, h1, h2, _⟩ := h.pos
    rw [ho] at h1
    cases h1
    omega
  | succ f ih =>
    intro st o h ho hf
    obtain ⟨p, st', e, h1, h2, h3⟩ := hn st h
    simp only [search, e, Res.bind]
    cases p with
    | none => simp
    | some i =>
      obtain ⟨t, ht⟩ := cstr_ok h1 (h2 i rfl)
      simp only [ht]
      split
      · simp
      · obtain ⟨n, hn', _⟩ := h1.pos
        exact ih st' n h1 hn' (by have := h3 o n ho hn' (by simp); omega)

theorem nextNode_n {s : List Char} : ∀ st, Inv s st → ∃ p st', nextNode true false st = .ok p st' ∧ Inv s st' ∧ (∀ i, p = some i → i ≤ s.length) ∧
      ∀ o n, st.pos = some o → st'.pos = some n → p ≠ none → o < n := by
  intro st h
  obtain ⟨p, st', e, h1, h2, _, h4⟩ := nextNode_spec (ns := true) (xp := false) (by simpa [Pre] using h)
  exact ⟨p, st', e, h1, fun i hi => (h2 i hi).1, h4 rfl⟩

theorem toLast_ends {s : List Char} (f : Nat) :
    ∀ st o, Inv s st → st.pos = some o → s.length + 1 ≤ f + o → toLast f st ≠ .hang := by
  induction f with
  | zero =>
    intro st o h ho hf
    obtain ⟨p, h1, h2, _⟩ := h.pos
    rw [ho] at h1
    cases h1
    omega
  | succ f ih =>
    intro st o h ho hf
    obtain ⟨p, st', e, h1, h2, h3⟩ := nextNode_n st h
    simp only [toLast, e, Res.bind]
    cases p with
    | none => simp
    | some i =>
      obtain ⟨n, hn', _⟩ := h1.pos
      exact ih st' n h1 hn' (by have := h3 o n ho hn' (by simp); omega)

theorem bind_ne_hang {r : Res} {f : Option Nat → St → Res} (h : r ≠ .hang) (h1 : ∀ p st, r = .ok p st → f p st ≠ .hang) :
    r.bind f ≠ .hang := by
  cases r with
  | ok p st => exact h1 p st rfl
  | oob => simp [Res.bind]
  | hang => exact absurd rfl h

/-- C48: the search for a node ends. -/
theorem node_ends (s : List Char) (xp : Bool) (st : St) (h : Pre s xp st) (name : List Char) (fuel : Nat) (hf : s.length + 1 ≤ fuel) :
    node fuel xp name st ≠ .hang ∧ nodeRel fuel xp name st ≠ .hang ∧ lastNode fuel xp st ≠ .hang := by
  obtain ⟨st1, e1, i1, b1, _⟩ := start_ok h
  obtain ⟨o, ho, _⟩ := i1.pos
  refine ⟨?_, ?_, ?_⟩
  · unfold node
    split
    · simp
    · obtain ⟨st2, e2, i2, p2⟩ := toBegin_ok i1 b1
      simp only [e1, e2]
      apply bind_ne_hang (search_ends nextNode_n name fuel st2 0 i2 p2 (by omega))
      intro p st3 _
      cases p <;> simp [orPutBack]
  · unfold nodeRel
    simp only [e1]
    apply bind_ne_hang (search_ends nextNode_n name fuel st1 o i1 ho (by omega))
    intro p st3 _
    cases st3.cur <;> simp
  · unfold lastNode
    simp only [e1]
    exact toLast_ends fuel st1 o i1 ho (by omega)

theorem nextNode_ne_hang {s : List Char} {st : St} (h : Inv s st) : nextNode true false st ≠ .hang := by
  obtain ⟨p, st', e, _⟩ := nextNode_n st h
  rw [e]; simp

theorem toCurrent_ends {s : List Char} {st : St} (h : Inv s st) (hb : st.buf = orig s) (f : St → Res)
    (hf : ∀ st, Inv s st → f st ≠ .hang) : toCurrent st f ≠ .hang := by
  have go : ∀ st : St, Inv s st → st.buf = orig s → atCurrent f st ≠ .hang := by
    intro st h hb
    unfold atCurrent
    cases hcur : st.cur with
    | none => simp
    | some c =>
      have hle := h.cur c hcur
      obtain ⟨d, hd⟩ := orig_get hle
      simp only [hb, hd]
      apply hf
      refine ⟨⟨c, rfl, hle, hd, .inl rfl⟩, ?_, h.beg⟩
      intro a ha
      exact h.cur a (hcur.trans ha)
  unfold toCurrent
  cases hcur : st.cur with
  | some c =>
    exact go st h hb
  | none =>
    simp only
    obtain ⟨p, st1, e, h1, h2, h3, _⟩ := nextNode_spec (ns := true) (xp := false) (by simpa [Pre] using h)
    simp only [e, Res.bind]
    obtain ⟨st2, e2, i2, b2, c2, _⟩ := recover_ok h1
    simp only [e2]
    cases p with
    | none => simp
    | some i => exact go st2 i2 b2

/-- C48: the search for a key ends if every opening bracket is followed by an equal sign. Missing: other strings (`key_search_hangs`). -/
theorem key_search_ends_partial (s : List Char) (xp : Bool) (st : St) (h : Pre s xp st) (key : List Char) (fuel : Nat)
    (hf : s.length + 1 ≤ fuel) (hn : '\x00' ∉ s) (heq : ∀ i : Nat, s[i]? = some '[' → ∃ j : Nat, i < j ∧ s[j]? = some '=') :
    nodeKeyValue fuel xp key st ≠ .hang := by
  obtain ⟨st1, e1, i1, b1, _⟩ := start_ok h
  unfold nodeKeyValue
  simp only [e1]
  apply toCurrent_ends i1 b1
  intro st2 i2
  obtain ⟨o, ho, _⟩ := i2.pos
  apply bind_ne_hang
  · refine search_ends (s := s) ?_ key fuel st2 o i2 ho (by omega)
    intro st h
    obtain ⟨p, st', e, a, b, _, d⟩ := nextKeyName_spec (xp := false) (by simpa [Pre] using h)
    exact ⟨p, st', e, a, b, d rfl hn heq⟩
  · intro p st3 e
    have i3 := ((search_good nextKeyName_g key fuel st2 i2).2 p st3 e).1
    cases p with
    | none => simp [thenValue]
    | some i => exact (nextKeyValue_good (s := s) (xp := false) (by simpa [Pre] using i3)).2

/-! ### Examples and findings -/

/-- A state before the first call. -/
def fresh (s : List Char) : St := ⟨s ++ ['\x00'], none, none, none, 'x'⟩

example : ∃ st, Calls 100 "/m:a[k='1']/b".toList st ∧ st.buf ≠ orig "/m:a[k='1']/b".toList :=
  ⟨_, .next _ .nextKeyName _ _ (.first (fresh "/m:a[k='1']/b".toList) .nextNode _ _ rfl (by simp) (rfl : Op.exec 100 .nextNode true _ = .ok (some 3) _))
    (rfl : Op.exec 100 .nextKeyName false _ = .ok (some 5) _), by decide⟩

/-- The state after a call. -/
def Res.st : Res → St → St
  | .ok _ st, _ => st
  | _, d => d

/-- Finding: if the string is passed again without being recovered, a character of it is lost. -/
theorem passed_again :
    let st1 := (nextNode true true (fresh "/m:a/b".toList)).st (fresh [])
    let st2 := (nextNode true true st1).st (fresh [])
    (recover st2).map (·.buf) = some "/m:a\x00b\x00".toList := by decide

/-- Finding: the search for a key in a list instance given by its position never ends. -/
theorem key_search_hangs (fuel : Nat) : nodeKeyValue fuel true ['k'] (fresh "/m:a[1]".toList) = .hang := by
  have step : ∀ f, search (nextKeyName false) ['k'] f ⟨"/m:a[1]\x00".toList, some 0, some 3, some 3, 'a'⟩ = .hang := by
    intro f
    induction f with
    | zero => rfl
    | succ f ih =>
      have e : nextKeyName false ⟨"/m:a[1]\x00".toList, some 0, some 3, some 3, 'a'⟩ =
          .ok (some 5) ⟨"/m:a[1]\x00".toList, some 0, some 3, some 3, 'a'⟩ := by decide
      have c : cstr (List.drop 5 "/m:a[1]\x00".toList) = some ['1', ']'] := by decide
      simp only [search, e, Res.bind, c]
      simpa using ih
  have e : nodeKeyValue fuel true ['k'] (fresh "/m:a[1]".toList) =
      (search (nextKeyName false) ['k'] fuel ⟨"/m:a[1]\x00".toList, some 0, some 3, some 3, 'a'⟩).bind (thenValue ⟨"/m:a[1]\x00".toList, some 0, none, some 0, '/'⟩) := rfl
  rw [e, step]
  rfl

/-- Finding: `sr_xpath_node_rel` returns the last node instead of `NULL` if there is no node of the name. -/
theorem node_rel_wrong_node : ∃ st, nodeRel 10 true ['z'] (fresh "/m:a/b".toList) = .ok (some 5) st := ⟨_, rfl⟩

/-- Finding: `sr_xpath_node_name` reads in front of an empty string, and does not find the name of a top-level node. -/
theorem node_name_top_level : nodeName [] = none ∧ nodeName "/m:a".toList = some none ∧ nodeName "/m:a/b".toList = some (some 5) := by decide

end Verif.XPathUtil
