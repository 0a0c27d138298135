import Verif.EnabledLemmas

namespace Verif.Enabled

theorem find_eq (x : Id) (f : List Node) : find x f = f.find? (fun n => n.id = x) := by
  induction f with
  | nil => rfl
  | cons n f ih =>
    simp only [find, List.find?_cons]
    by_cases h : n.id = x
    · simp [h]
    · simp [h, ih]

theorem kidsAt_cons (f : List Node) (x : Id) (r : Path) :
    kidsAt f (x :: r) = (match find x f with | none => [] | some n => kidsAt n.kids r) := by
  simp only [kidsAt, find_eq]
  cases f.find? (fun n => n.id = x) <;> rfl

theorem ids_nil (f : List Node) : ids f [] = f.map Node.id := rfl

theorem ids_none {f : List Node} {x : Id} {r : Path} (h : find x f = none) : ids f (x :: r) = [] := by
  simp [ids, kidsAt_cons, h]

theorem ids_some {f : List Node} {n : Node} {x : Id} {r : Path} (h : find x f = some n) :
    ids f (x :: r) = ids n.kids r := by
  simp [ids, kidsAt_cons, h]

theorem find_none {x : Id} {f : List Node} : find x f = none ↔ x ∉ f.map Node.id := by
  induction f with
  | nil => simp [find]
  | cons n f ih =>
    simp only [find]
    by_cases h : n.id = x
    · simp [h]
    · simp only [h, if_false, ih, List.map_cons, List.mem_cons, not_or]
      exact ⟨fun a => ⟨fun e => h e.symm, a⟩, fun a => a.2⟩

theorem find_cons_self (n : Node) (f : List Node) : find n.id (n :: f) = some n := by simp [find]

theorem find_cons_ne {n : Node} {x : Id} (f : List Node) (h : n.id ≠ x) : find x (n :: f) = find x f := by
  simp [find, h]

theorem find_append (x : Id) (f g : List Node) :
    find x (f ++ g) = (match find x f with | some n => some n | none => find x g) := by
  induction f with
  | nil => rfl
  | cons n f ih =>
    by_cases h : n.id = x
    · simp [find, h]
    · simp [find, h, ih]

theorem replace_ids {i : Id} {m' : Node} (hm : m'.id = i) (t : List Node) :
    (replace i m' t).map Node.id = t.map Node.id := by
  induction t with
  | nil => rfl
  | cons n t ih =>
    simp only [replace]
    split
    · rename_i h; simp [hm, h]
    · simp [ih]

theorem find_replace {i : Id} {m m' : Node} (hm : m'.id = i) {t : List Node} (hf : find i t = some m) (x : Id) :
    find x (replace i m' t) = if x = i then some m' else find x t := by
  induction t with
  | nil => cases hf
  | cons n t ih =>
    simp only [find] at hf
    simp only [replace]
    by_cases h : n.id = i
    · rw [if_pos h]
      by_cases hx : x = i
      · simp [find, hm, hx]
      · rw [if_neg hx, find_cons_ne _ (by rw [hm]; exact fun e => hx e.symm),
          find_cons_ne _ (by rw [h]; exact fun e => hx e.symm)]
    · rw [if_neg h] at hf
      rw [if_neg h]
      by_cases hn : n.id = x
      · have : x ≠ i := fun e => h (by rw [hn, e])
        rw [if_neg this]
        simp [find, hn]
      · rw [find_cons_ne _ hn, ih hf, find_cons_ne _ hn]

/-- The instances that are not there yet. -/
abbrev new (a b : List Id) : List Id := b.filter fun x => x ∉ a

theorem new_nil (a : List Id) : new a [] = [] := rfl
theorem nil_new (b : List Id) : new [] b = b := by simp [new]

theorem Uniq.kids {f : List Node} (h : Uniq f) {n : Node} (hn : find n.id f = some n) : Uniq n.kids := by
  intro r
  rw [← ids_some hn]
  exact h (n.id :: r)

theorem Uniq.tail {n : Node} {f : List Node} (h : Uniq (n :: f)) : Uniq f := by
  have h0 := h []
  simp only [ids_nil, List.map_cons, List.nodup_cons] at h0
  intro r
  cases r with
  | nil => exact h0.2
  | cons x r =>
    cases hf : find x f with
    | none => rw [ids_none hf]; exact List.nodup_nil
    | some m =>
      have hx : n.id ≠ x := by
        intro e
        obtain ⟨h1, h2⟩ := find_mem hf
        exact h0.1 (List.mem_map.2 ⟨m, h1, by rw [h2, e]⟩)
      have := h (x :: r)
      rw [ids_some (n := m) (by rw [find_cons_ne _ hx]; exact hf)] at this
      rw [ids_some hf]
      exact this

mutual
theorem ids_put (n : Node) (t : List Node) (r : Path) (hu : Uniq n.kids) :
    ids (put t n) r = ids t r ++ new (ids t r) (ids [n] r) := by
  match n with
  | .mk i k l =>
    have hm := ids_merge l
    have hu : Uniq l := hu
    simp only [put]
    cases hf : find i t with
    | none =>
      have hi := find_none.1 hf
      cases r with
      | nil =>
        simp only [ids_nil, List.map_append, List.map_cons, List.map_nil, Node.id, new]
        rw [List.filter_cons_of_pos (by simpa using hi)]
        rfl
      | cons x r =>
        by_cases hx : i = x
        · subst hx
          rw [ids_none hf, nil_new, List.nil_append, ids_some (n := .mk i k l) (by rw [find_append, hf]; simp [find, Node.id]),
            ids_some (n := .mk i k l) (by simp [find, Node.id])]
        · have h1 : find x [Node.mk i k l] = none := by simp [find, Node.id, hx]
          rw [ids_none h1, new_nil, List.append_nil]
          cases hx' : find x t with
          | none => rw [ids_none (by rw [find_append, hx']; exact h1), ids_none hx']
          | some m => rw [ids_some (by rw [find_append, hx']), ids_some hx']
    | some m =>
      obtain ⟨hmem, hid⟩ := find_mem hf
      have hidm : (Node.mk m.id m.kind (merge m.kids l)).id = i := hid
      cases r with
      | nil =>
        rw [ids_nil, replace_ids hidm]
        simp only [ids_nil, List.map_cons, List.map_nil, Node.id, new]
        rw [List.filter_cons_of_neg]
        · simp
        · have : i ∈ t.map Node.id := List.mem_map.2 ⟨m, hmem, hid⟩
          simpa using this
      | cons x r =>
        have hfr := find_replace hidm hf x
        by_cases hx : x = i
        · subst hx
          rw [if_pos rfl] at hfr
          rw [ids_some hfr, ids_some hf, ids_some (n := .mk x k l) (by simp [find, Node.id])]
          exact hm m.kids r hu
        · rw [if_neg hx] at hfr
          have h1 : find x [Node.mk i k l] = none := by simp [find, Node.id, Ne.symm hx]
          rw [ids_none h1, new_nil, List.append_nil]
          cases hx' : find x t with
          | none => rw [ids_none (by rw [hfr]; exact hx'), ids_none hx']
          | some m => rw [ids_some (by rw [hfr]; exact hx'), ids_some hx']
theorem ids_merge (s : List Node) (t : List Node) (r : Path) (hu : Uniq s) :
    ids (merge t s) r = ids t r ++ new (ids t r) (ids s r) := by
  match s with
  | [] =>
    have : ids [] r = [] := by
      cases r with
      | nil => rfl
      | cons x r => exact ids_none rfl
    simp only [merge, this, new_nil, List.append_nil]
  | n :: s =>
    have h1 := ids_put n t r (hu.kids (find_cons_self n s))
    have h2 := ids_merge s (put t n) r hu.tail
    simp only [merge]
    rw [h2, h1, List.append_assoc]
    congr 1
    have h0 := hu []
    simp only [ids_nil, List.map_cons, List.nodup_cons] at h0
    cases r with
    | nil =>
      simp only [ids_nil, List.map_cons, List.map_nil, new]
      by_cases hn : n.id ∈ t.map Node.id
      · rw [List.filter_cons_of_neg (by simpa using hn), List.filter_cons_of_neg (by simpa using hn)]
        simp
      · rw [List.filter_cons_of_pos (by simpa using hn), List.filter_cons_of_pos (by simpa using hn)]
        simp only [List.filter_nil, List.singleton_append, List.cons.injEq, true_and]
        apply List.filter_congr
        intro y hy
        have : y ≠ n.id := fun e => h0.1 (by rw [← e]; exact hy)
        simp [this]
    | cons x r =>
      by_cases hx : n.id = x
      · subst hx
        have hns : find n.id s = none := find_none.2 h0.1
        rw [ids_none hns, new_nil, List.append_nil, ids_some (find_cons_self n []), ids_some (find_cons_self n s)]
      · have e1 : ids [n] (x :: r) = [] := ids_none (by simp [find, hx])
        have e2 : ids (n :: s) (x :: r) = ids s (x :: r) := by
          simp only [ids, kidsAt_cons, find_cons_ne s hx]
        rw [e1, e2, new_nil, List.append_nil, List.nil_append]
end

theorem mem_ids {f : List Node} (hu : Uniq f) {r : Path} {x : Id} : x ∈ ids f r ↔ Has f (r ++ [x]) := by
  induction r generalizing f with
  | nil =>
    simp only [ids_nil, List.nil_append, Has, and_true, List.mem_map]
  | cons y r ih =>
    simp only [List.cons_append, Has]
    cases hf : find y f with
    | none =>
      rw [ids_none hf]
      constructor
      · intro h; cases h
      · rintro ⟨n, hn, hy, _⟩
        exact absurd (List.mem_map.2 ⟨n, hn, hy⟩) (find_none.1 hf)
    | some m =>
      obtain ⟨h1, h2⟩ := find_mem hf
      have hk : Uniq m.kids := hu.kids (by rw [h2]; exact hf)
      rw [ids_some hf, ih hk]
      constructor
      · intro h; exact ⟨m, h1, h2, h⟩
      · rintro ⟨n, hn, hy, h⟩
        have : n = m := by
          have hnd := hu []
          rw [ids_nil] at hnd
          have := find_uniq hnd hn
          rw [hy, hf] at this
          exact (Option.some.inj this).symm
        rw [← this]; exact h
where
  find_uniq {f : List Node} {n : Node} (h : (f.map Node.id).Nodup) (hn : n ∈ f) : find n.id f = some n := by
    induction f with
    | nil => cases hn
    | cons m f ih =>
      simp only [List.map_cons, List.nodup_cons] at h
      rcases List.mem_cons.1 hn with rfl | hn
      · simp [find]
      · have : m.id ≠ n.id := fun e => h.1 (List.mem_map.2 ⟨n, hn, e.symm⟩)
        rw [find_cons_ne _ this]
        exact ih h.2 hn

theorem find_uniq {f : List Node} {n : Node} (h : Uniq f) (hn : n ∈ f) : find n.id f = some n :=
  mem_ids.find_uniq (h []) hn

end Verif.Enabled
