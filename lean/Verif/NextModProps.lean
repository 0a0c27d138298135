import Verif.NextMod
/-! C53: the modules of an edit are processed each exactly once. -/
namespace Verif.NextMod

theorem findIdx_mod {mods : List Nat} {n i : Nat} (h : mods.findIdx? (fun m => m = n) = some i) : mods[i]? = some n := by
  rw [List.findIdx?_eq_some_iff_getElem] at h
  obtain ⟨h1, h2, _⟩ := h
  simp at h2
  rw [List.getElem?_eq_getElem h1, h2]

/-- What one scan does, `out` are the modules already returned. -/
theorem scan_spec (mods out : List Nat) (aux : Nat → Bool) (haux : ∀ i m, mods[i]? = some m → (aux i = true ↔ m ∈ out))
    (hsub : ∀ m ∈ out, m ∈ mods) (ns : List Nat) : ∀ last : Option Nat, (∀ l, last = some l → l ∈ out) →
    ∃ A B, ns = A ++ B ∧ (∀ x ∈ A, x ∈ out) ∧
      ((B = [] ∧ scan mods aux last ns = .done) ∨
       ∃ n B', B = n :: B' ∧ n ∉ out ∧ ((n ∉ mods ∧ scan mods aux last ns = .done) ∨
         (∃ i, mods[i]? = some n ∧ scan mods aux last ns = .mod n fun j => if j = i then true else aux j))) := by
  induction ns with
  | nil => intro last _; exact ⟨[], [], by simp, by simp, .inl (by simp [scan])⟩
  | cons n ns ih =>
    intro last hl
    simp only [scan]
    by_cases h1 : last = some n
    · rw [if_pos h1]
      obtain ⟨A, B, e, hA, hB⟩ := ih last hl
      exact ⟨n :: A, B, by simp [e], by simpa using ⟨hl n h1, hA⟩, hB⟩
    · rw [if_neg h1]
      cases hf : mods.findIdx? (fun m => m = n) with
      | none =>
        have : n ∉ mods := by
          intro hm
          rw [List.findIdx?_eq_none_iff] at hf
          simpa using hf n hm
        exact ⟨[], n :: ns, by simp, by simp, .inr ⟨n, ns, rfl, fun h => this (hsub n h), .inl ⟨this, rfl⟩⟩⟩
      | some i =>
        have hi := findIdx_mod hf
        by_cases ha : aux i = true
        · simp only [ha, if_true]
          have hn := (haux i n hi).mp ha
          obtain ⟨A, B, e, hA, hB⟩ := ih (some n) (by intro l h; cases h; exact hn)
          exact ⟨n :: A, B, by simp [e], by simpa using ⟨hn, hA⟩, hB⟩
        · simp only [ha, if_false]
          exact ⟨[], n :: ns, by simp, by simp, .inr ⟨n, ns, rfl, fun h => ha ((haux i n hi).mpr h), .inr ⟨i, hi, rfl⟩⟩⟩

/-- The state of the loop after the modules `out`. -/
structure Inv (mods data out : List Nat) (last : Option Nat) (aux : Nat → Bool) : Prop where
  aux : ∀ i m, mods[i]? = some m → (aux i = true ↔ m ∈ out)
  sub : ∀ m ∈ out, m ∈ mods
  nodup : out.Nodup
  /-- `out` are the modules up to the first node of the last one, and that in the order of their first nodes. -/
  pre : ∃ A B, data = A ++ B ∧ (∀ x, x ∈ A ↔ x ∈ out) ∧ out.Pairwise (fun x y => data.idxOf x < data.idxOf y) ∧
    match last with
    | none => A = []
    | some l => l ∈ out ∧ ∃ A', A = A' ++ [l] ∧ l ∉ A'

theorem dropWhile_split (l : Nat) (A B : List Nat) (h : l ∉ A) : (A ++ l :: B).dropWhile (fun n => n ≠ l) = l :: B := by
  induction A with
  | nil => simp [List.dropWhile]
  | cons a A ih =>
    simp only [List.mem_cons, not_or] at h
    have : (a ≠ l) := fun e => h.1 e.symm
    simp only [List.cons_append, List.dropWhile, this, ne_eq, not_false_eq_true, decide_true]
    simpa using ih h.2

theorem inv_first (mods data : List Nat) : Inv mods data [] none (fun _ => false) :=
  ⟨by simp, by simp, by simp, [], data, by simp, by simp, by simp, rfl⟩

theorem next_spec {mods data out : List Nat} {last : Option Nat} {aux : Nat → Bool}
    (hm : mods.Nodup) (h : Inv mods data out last aux) (h0 : last = none → aux = fun _ => false) :
    (nextMod mods data last aux = .done ∧ ∃ C D, data = C ++ D ∧ (∀ x, x ∈ C ↔ x ∈ out) ∧ (D = [] ∨ ∃ n D', D = n :: D' ∧ n ∉ mods)) ∨
    ∃ n aux', nextMod mods data last aux = .mod n aux' ∧ Inv mods data (out ++ [n]) (some n) aux' := by
  obtain ⟨A, B, e, hA, hord, hl⟩ := h.pre
  have key : ∃ A0 ns, data = A0 ++ ns ∧ (∀ x, x ∈ A0 → x ∈ out) ∧ (∀ x ∈ out, x ∈ A0 ∨ ∀ C D, ns = C ++ D → (C ≠ [] → x ∈ C) ∧ (C = [] → (last = some x ∧ ns ≠ [] ∧ ns.head? = some x))) ∧
      nextMod mods data last aux = scan mods aux last ns := by
    cases last with
    | none =>
      simp only at hl
      subst hl
      refine ⟨[], data, by simp, by simp, ?_, ?_⟩
      · intro x hx; exact absurd ((hA x).mpr hx) (by simp)
      · simp [nextMod, h0 rfl]
    | some l =>
      obtain ⟨hlo, A', rfl, hl'⟩ := hl
      refine ⟨A', l :: B, by simp [e], fun x hx => (hA x).mp (by simp [hx]), ?_, ?_⟩
      · intro x hx
        rcases List.mem_append.mp ((hA x).mpr hx) with h | h
        · exact .inl h
        · simp only [List.mem_singleton] at h
          subst h
          right
          intro C D hcd
          refine ⟨fun hc => ?_, fun _ => by simp⟩
          cases C with
          | nil => exact absurd rfl hc
          | cons c C => simp only [List.cons_append, List.cons.injEq] at hcd; simp [hcd.1]
      · have : data.dropWhile (fun n => n ≠ l) = l :: B := by
          rw [e, List.append_assoc]; exact dropWhile_split l A' B hl'
        simp only [nextMod, this]
  obtain ⟨A0, ns, e0, hA0, hout, hnx⟩ := key
  rw [hnx]
  obtain ⟨C, D, ecd, hC, hD⟩ := scan_spec mods out aux h.aux h.sub ns last (by
    intro l hl'; subst hl'; exact hl.1)
  -- all that was returned is in front of `D`
  have hall : (∀ x, x ∈ A0 ++ C ↔ x ∈ out) := by
    intro x
    constructor
    · intro hx
      rcases List.mem_append.mp hx with hx | hx
      · exact hA0 x hx
      · exact hC x hx
    · intro hx
      rcases hout x hx with h1 | h1
      · simp [h1]
      · obtain ⟨h2, h3⟩ := h1 C D ecd
        by_cases hc : C = []
        · exfalso
          obtain ⟨_, h5, h6⟩ := h3 hc
          subst hc
          simp only [List.nil_append] at ecd
          subst ecd
          rcases hD with ⟨hd, _⟩ | ⟨n, B', hd, hn, _⟩
          · exact h5 hd
          · rw [hd] at h6
            simp only [List.head?_cons, Option.some.injEq] at h6
            exact hn (h6 ▸ hx)
        · simp [h2 hc]
  rcases hD with ⟨hd, hs⟩ | ⟨n, B', hd, hn, ⟨hnm, hs⟩ | ⟨i, hi, hs⟩⟩
  · exact .inl ⟨hs, A0 ++ C, D, by simp [e0, ecd], hall, .inl hd⟩
  · exact .inl ⟨hs, A0 ++ C, D, by simp [e0, ecd], hall, .inr ⟨n, B', hd, hnm⟩⟩
  · refine .inr ⟨n, _, hs, ?_, ?_, ?_, ?_⟩
    · intro j m hj
      by_cases hji : j = i
      · subst hji
        rw [hi] at hj
        cases hj
        simp
      · simp only [hji, if_false, List.mem_append, List.mem_singleton]
        rw [h.aux j m hj]
        constructor
        · exact .inl
        · rintro (h | rfl)
          · exact h
          · exact absurd (by
              have h1 := (List.getElem?_eq_some_iff.mp hi)
              have h2 := (List.getElem?_eq_some_iff.mp hj)
              obtain ⟨h1, e1⟩ := h1
              obtain ⟨h2, e2⟩ := h2
              exact (List.getElem_inj hm).mp (e2.trans e1.symm)) hji
    · intro m hm'
      rcases List.mem_append.mp hm' with h' | h'
      · exact h.sub m h'
      · simp only [List.mem_singleton] at h'
        subst h'
        exact List.mem_of_getElem? hi
    · rw [List.nodup_append]
      exact ⟨h.nodup, by simp, by intro a ha b hb; simp only [List.mem_singleton] at hb; subst hb; rintro rfl; exact hn ha⟩
    · have hna : n ∉ A0 ++ C := fun h' => hn ((hall n).mp h')
      refine ⟨A0 ++ C ++ [n], B', by simp [e0, ecd, hd], ?_, ?_, by simp, A0 ++ C, rfl, hna⟩
      · intro x
        rw [List.mem_append, hall, List.mem_append]
      · rw [List.pairwise_append]
        refine ⟨hord, by simp, ?_⟩
        intro a ha b hb
        simp only [List.mem_singleton] at hb
        subst hb
        have ed : data = (A0 ++ C) ++ b :: B' := by simp [e0, ecd, hd]
        have ha' := (hall a).mpr ha
        generalize A0 ++ C = Q at *
        have q1 := List.idxOf_append (l₁ := Q) (l₂ := b :: B') (a := a)
        have q2 := List.idxOf_append (l₁ := Q) (l₂ := b :: B') (a := b)
        rw [if_pos ha'] at q1
        rw [if_neg hna] at q2
        have := List.idxOf_lt_length_of_mem ha'
        rw [ed]
        omega

theorem loop_spec {mods data : List Nat} (hm : mods.Nodup) (f : Nat) : ∀ (out : List Nat) (last : Option Nat) (aux : Nat → Bool),
    Inv mods data out last aux → (last = none → aux = fun _ => false) → mods.length < f + out.length →
    ∃ r, loop mods data f last aux = some r ∧ (out ++ r).Nodup ∧
      (out ++ r).Pairwise (fun x y => data.idxOf x < data.idxOf y) ∧
      ∃ C D, data = C ++ D ∧ (∀ x, x ∈ C ↔ x ∈ out ++ r) ∧ (∀ x ∈ out ++ r, x ∈ mods) ∧ (D = [] ∨ ∃ n D', D = n :: D' ∧ n ∉ mods) := by
  induction f with
  | zero =>
    intro out last aux h _ hlen
    exfalso
    have := h.nodup.length_le_of_subset (fun x hx => h.sub x hx)
    omega
  | succ f ih =>
    intro out last aux h h0 hlen
    rcases next_spec hm h h0 with ⟨hs, C, D, e, h1, h2⟩ | ⟨n, aux', hs, h'⟩
    · refine ⟨[], by simp [loop, hs], by simpa using h.nodup, ?_, C, D, e, by simpa using h1, by simpa using h.sub, h2⟩
      obtain ⟨_, _, _, _, hord, _⟩ := h.pre
      simpa using hord
    · obtain ⟨r, hr, h1, h2, h3⟩ := ih _ _ _ h' (by simp) (by simp; omega)
      exact ⟨n :: r, by simp [loop, hs, hr], by simpa using h1, by simpa using h2, by simpa using h3⟩

/-- C53. If every node of the data belongs to one of the modules, the loop ends and gets exactly the modules that have nodes, each
once, in the order of their first nodes. -/
theorem every_module_once (mods data : List Nat) (hm : mods.Nodup) (hd : ∀ x ∈ data, x ∈ mods) (aux : Nat → Bool) :
    ∃ r, loop mods data (mods.length + 1) none aux = some r ∧ r.Nodup ∧ (∀ m, m ∈ r ↔ m ∈ data) ∧
      r.Pairwise fun x y => data.idxOf x < data.idxOf y := by
  have : loop mods data (mods.length + 1) none aux = loop mods data (mods.length + 1) none (fun _ => false) := by
    simp [loop, nextMod]
  rw [this]
  obtain ⟨r, h1, h2, h3, C, D, e, h4, _, h6⟩ := loop_spec hm (mods.length + 1) [] none (fun _ => false) (inv_first mods data) (by simp) (by simp)
  have hD : D = [] := by
    rcases h6 with h | ⟨n, D', h, hn⟩
    · exact h
    · exact absurd (hd n (by simp [e, h])) hn
  subst hD
  simp only [List.append_nil] at e
  subst e
  exact ⟨r, h1, by simpa using h2, fun m => by simpa using (h4 m).symm, by simpa using h3⟩

/-- C53 with nodes of unknown modules: the modules in front of the first of them. -/
theorem modules_before_unknown_once (mods data : List Nat) (hm : mods.Nodup) (aux : Nat → Bool) :
    ∃ r, loop mods data (mods.length + 1) none aux = some r ∧ r.Nodup ∧
      ∃ C D, data = C ++ D ∧ (∀ m, m ∈ r ↔ m ∈ C) ∧ (∀ m ∈ C, m ∈ mods) ∧ (D = [] ∨ ∃ n D', D = n :: D' ∧ n ∉ mods) := by
  have : loop mods data (mods.length + 1) none aux = loop mods data (mods.length + 1) none (fun _ => false) := by
    simp [loop, nextMod]
  rw [this]
  obtain ⟨r, h1, h2, h3, C, D, e, h4, h5, h6⟩ := loop_spec hm (mods.length + 1) [] none (fun _ => false) (inv_first mods data) (by simp) (by simp)
  exact ⟨r, h1, by simpa using h2, C, D, e, fun m => by simpa using (h4 m).symm, fun m hc => h5 m ((h4 m).mp hc), h6⟩

example : [5, 7, 9].Nodup ∧ (∀ x ∈ [7, 7, 9, 7, 5, 9], x ∈ [5, 7, 9]) ∧
    loop [5, 7, 9] [7, 7, 9, 7, 5, 9] 4 none (fun _ => true) = some [7, 9, 5] := by decide

/-- Finding: the modules behind a node of an unknown module are not processed. -/
theorem behind_unknown_skipped : loop [5, 7] [7, 0, 5] 3 none (fun _ => false) = some [7] := by decide

end Verif.NextMod
