import Verif.Enabled

namespace Verif.Enabled

theorem find_mem {x : Id} {t : List Node} {m : Node} (h : find x t = some m) : m ∈ t ∧ m.id = x := by
  induction t with
  | nil => cases h
  | cons n t ih =>
    simp only [find] at h
    split at h
    · rename_i hx; cases h; exact ⟨List.mem_cons_self .., hx⟩
    · obtain ⟨h1, h2⟩ := ih h; exact ⟨List.mem_cons_of_mem _ h1, h2⟩

theorem has_nil (f : List Node) : Has f [] := by simp [Has]

theorem has_cons {f : List Node} {n : Node} {p : Path} : Has (n :: f) p ↔ Has [n] p ∨ Has f p := by
  cases p with
  | nil => simp [Has]
  | cons x p => simp [Has]

theorem has_append {f g : List Node} {p : Path} : Has (f ++ g) p ↔ Has f p ∨ Has g p := by
  induction f with
  | nil =>
    cases p with
    | nil => simp [Has]
    | cons x p => simp [Has]
  | cons n f ih => rw [List.cons_append, has_cons, has_cons (f := f), ih, or_assoc]

theorem has_replace {i : Id} {k : Kind} {l : List Node} {t : List Node} {m : Node} {p : Path}
    (hf : find i t = some m) (hm : ∀ q, Has (merge m.kids l) q ↔ Has m.kids q ∨ Has l q) :
    Has (replace i (.mk m.id m.kind (merge m.kids l)) t) p ↔ Has t p ∨ Has [.mk i k l] p := by
  induction t with
  | nil => cases hf
  | cons n t ih =>
    simp only [find] at hf
    simp only [replace]
    split at hf
    · rename_i hx
      have hnm := Option.some.inj hf
      subst hnm
      rw [if_pos hx, has_cons, has_cons (f := t)]
      cases p with
      | nil => simp [Has]
      | cons x p =>
        have : Has [.mk n.id n.kind (merge n.kids l)] (x :: p) ↔ Has [n] (x :: p) ∨ Has [.mk i k l] (x :: p) := by
          simp only [Has, List.mem_singleton, exists_eq_left]
          show n.id = x ∧ Has (merge n.kids l) p ↔ (n.id = x ∧ Has n.kids p) ∨ (i = x ∧ Has l p)
          rw [hm, hx]
          constructor
          · rintro ⟨h1, h2 | h2⟩
            · exact Or.inl ⟨h1, h2⟩
            · exact Or.inr ⟨h1, h2⟩
          · rintro (⟨h1, h2⟩ | ⟨h1, h2⟩)
            · exact ⟨h1, Or.inl h2⟩
            · exact ⟨h1, Or.inr h2⟩
        rw [this]
        constructor
        · rintro ((h | h) | h)
          · exact Or.inl (Or.inl h)
          · exact Or.inr h
          · exact Or.inl (Or.inr h)
        · rintro ((h | h) | h)
          · exact Or.inl (Or.inl h)
          · exact Or.inr h
          · exact Or.inl (Or.inr h)
    · rename_i hx
      rw [if_neg hx, has_cons, has_cons (f := t), ih hf, or_assoc]

mutual
theorem has_put (n : Node) (t : List Node) (p : Path) : Has (put t n) p ↔ Has t p ∨ Has [n] p := by
  match n with
  | .mk i k l =>
    have hm := has_merge l
    simp only [put]
    cases hf : find i t with
    | none => exact has_append
    | some m => exact has_replace hf (fun q => hm m.kids q)
theorem has_merge (s : List Node) (t : List Node) (p : Path) : Has (merge t s) p ↔ Has t p ∨ Has s p := by
  match s with
  | [] =>
    simp only [merge]
    cases p with
    | nil => simp [Has]
    | cons x p => simp [Has]
  | n :: s =>
    simp only [merge]
    rw [has_merge s (put t n) p, has_put n t p, has_cons (f := s), or_assoc]
end

theorem only_has {f : List Node} {r w : Path} (h : Only f r w) : Has f (r ++ w) := by
  induction r generalizing f with
  | nil =>
    induction w generalizing f with
    | nil => exact has_nil f
    | cons x w ih =>
      obtain ⟨n, hn, hx, ⟨_, rfl⟩ | ⟨_, h⟩⟩ := h
      · exact ⟨n, hn, hx, has_nil _⟩
      · exact ⟨n, hn, hx, ih h⟩
  | cons x r ih =>
    obtain ⟨n, hn, hx, h⟩ := h
    exact ⟨n, hn, hx, ih h⟩

mutual
theorem has_bone (n : Node) (x : Id) (q : Path) :
    (∃ m, bone n = some m ∧ m.id = x ∧ Has m.kids q) ↔
    n.id = x ∧ (n.kind = .key ∧ q = [] ∨ n.kind = .np ∧ Always n.kids q) := by
  match n with
  | .mk i k l =>
    have hl := has_bones l q
    cases k with
    | key =>
      simp only [bone, Option.some.injEq, exists_eq_left', Node.id, Node.kids, Node.kind]
      cases q with
      | nil => simp [Has]
      | cons y q => simp [Has]
    | np =>
      simp only [bone, Option.some.injEq, exists_eq_left', Node.id, Node.kids, Node.kind]
      rw [hl]; simp
    | inner => simp [bone, Node.kind]
    | term => simp [bone, Node.kind]
theorem has_bones (f : List Node) (q : Path) : Has (bones f) q ↔ Always f q := by
  match f with
  | [] =>
    cases q with
    | nil => simp [Has, Always]
    | cons x q => simp [bones, Has, Always]
  | n :: f =>
    have hf := has_bones f q
    cases q with
    | nil => simp [Has, Always]
    | cons x q =>
      have hn := has_bone n x q
      have hc : Always (n :: f) (x :: q) ↔
          (n.id = x ∧ (n.kind = .key ∧ q = [] ∨ n.kind = .np ∧ Always n.kids q)) ∨ Always f (x :: q) := by
        simp [Always]
      rw [hc, ← hn, ← hf]
      simp only [bones]
      cases hb : bone n with
      | none => simp
      | some m => simp [Has]
end

theorem brings_has {f : List Node} {p q : Path} (h : Brings f p q) : Has f q := by
  rcases h with ⟨h, _⟩ | ⟨r, w, rfl, _, h⟩
  · exact h
  · exact only_has h

theorem has_pick {f : List Node} {p q : Path} : Has (pick f p) q ↔ Brings f p q := by
  induction p generalizing f q with
  | nil =>
    simp only [pick]
    exact ⟨fun h => Or.inl ⟨h, List.nil_prefix⟩, brings_has⟩
  | cons x p ih =>
    cases q with
    | nil =>
      refine ⟨fun _ => Or.inr ⟨[], [], rfl, List.nil_prefix, ?_⟩, fun _ => has_nil _⟩
      simp [Only, Always]
    | cons y q =>
      have h1 : Has (pick f (x :: p)) (y :: q) ↔
          ∃ n ∈ f, (n.id = x ∧ x = y ∧ Brings n.kids p q) ∨
            (n.id ≠ x ∧ n.id = y ∧ (n.kind = .key ∧ q = [] ∨ n.kind = .np ∧ Always n.kids q)) := by
        simp only [pick, Has, List.mem_filterMap]
        constructor
        · rintro ⟨m, ⟨n, hn, hm⟩, hy, hq⟩
          refine ⟨n, hn, ?_⟩
          split at hm
          · rename_i hx
            cases hm
            refine Or.inl ⟨hx, ?_, (ih).1 hq⟩
            rw [← hx]; exact hy
          · rename_i hx
            have := (has_bone n y q).1 ⟨m, hm, hy, hq⟩
            exact Or.inr ⟨hx, this⟩
        · rintro ⟨n, hn, ⟨hx, hy, hb⟩ | ⟨hx, hb⟩⟩
          · refine ⟨_, ⟨n, hn, if_pos hx⟩, ?_, ?_⟩
            · show n.id = y; rw [hx, hy]
            · exact (ih).2 hb
          · obtain ⟨m, hm, hy, hq⟩ := (has_bone n y q).2 hb
            exact ⟨m, ⟨n, hn, by rw [if_neg hx]; exact hm⟩, hy, hq⟩
      rw [h1]
      constructor
      · rintro ⟨n, hn, ⟨hx, rfl, hb⟩ | ⟨_, hy, hb⟩⟩
        · rcases hb with ⟨hh, hp⟩ | ⟨r, w, rfl, hr, ho⟩
          · exact Or.inl ⟨⟨n, hn, hx, hh⟩, List.cons_prefix_cons.2 ⟨rfl, hp⟩⟩
          · exact Or.inr ⟨x :: r, w, rfl, List.cons_prefix_cons.2 ⟨rfl, hr⟩, n, hn, hx, ho⟩
        · exact Or.inr ⟨[], y :: q, rfl, List.nil_prefix, n, hn, hy, hb⟩
      · rintro (⟨⟨n, hn, hy, hh⟩, hp⟩ | ⟨r, w, hq, hr, ho⟩)
        · obtain ⟨rfl, hp2⟩ := List.cons_prefix_cons.1 hp
          exact ⟨n, hn, Or.inl ⟨hy, rfl, Or.inl ⟨hh, hp2⟩⟩⟩
        · cases r with
          | nil =>
            simp only [List.nil_append] at hq
            subst hq
            obtain ⟨n, hn, hy, hb⟩ := ho
            refine ⟨n, hn, ?_⟩
            by_cases hx : n.id = x
            · refine Or.inl ⟨hx, by rw [← hx, hy], Or.inr ⟨[], q, rfl, List.nil_prefix, ?_⟩⟩
              rcases hb with ⟨_, rfl⟩ | ⟨_, hb⟩
              · simp [Only, Always]
              · exact hb
            · exact Or.inr ⟨hx, hy, hb⟩
          | cons z r =>
            simp only [List.cons_append, List.cons.injEq] at hq
            obtain ⟨rfl, rfl⟩ := hq
            obtain ⟨rfl, hr2⟩ := List.cons_prefix_cons.1 hr
            obtain ⟨n, hn, hy, ho⟩ := ho
            exact ⟨n, hn, Or.inl ⟨hy, rfl, Or.inr ⟨r, w, rfl, hr2, ho⟩⟩⟩

theorem has_pickTop {f : List Node} {p q : Path} (h : Has (pickTop f p) q) : Brings f p q := by
  cases q with
  | nil => exact Or.inr ⟨[], [], rfl, List.nil_prefix, by simp [Only, Always]⟩
  | cons y q =>
    cases p with
    | nil => simp [pickTop, Has] at h
    | cons x p =>
      simp only [pickTop, Has, List.mem_map, List.mem_filter, decide_eq_true_eq] at h
      obtain ⟨m, ⟨n, ⟨hn, hx⟩, rfl⟩, hy, hq⟩ := h
      have hy : n.id = y := hy
      rcases has_pick.1 hq with ⟨hh, hp⟩ | ⟨r, w, rfl, hr, ho⟩
      · exact Or.inl ⟨⟨n, hn, hy, hh⟩, List.cons_prefix_cons.2 ⟨by rw [← hx, hy], hp⟩⟩
      · exact Or.inr ⟨x :: r, w, by rw [← hx, hy]; rfl, List.cons_prefix_cons.2 ⟨rfl, hr⟩, n, hn, hx, ho⟩

theorem pickTop_has {f : List Node} {p q : Path} (hp : p ≠ []) (h : Brings f p q) :
    Has (pickTop f p) q ∨ Always f q := by
  cases q with
  | nil => exact Or.inl (has_nil _)
  | cons y q =>
    cases p with
    | nil => exact absurd rfl hp
    | cons x p =>
      have key : ∀ n ∈ f, n.id = x → x = y → Brings n.kids p q → Has (pickTop f (x :: p)) (y :: q) := by
        intro n hn hx hy hb
        simp only [pickTop, Has, List.mem_map, List.mem_filter, decide_eq_true_eq]
        exact ⟨_, ⟨n, ⟨hn, hx⟩, rfl⟩, by show n.id = y; rw [hx, hy], has_pick.2 hb⟩
      rcases h with ⟨⟨n, hn, hy, hh⟩, hpr⟩ | ⟨r, w, hq, hr, ho⟩
      · obtain ⟨rfl, hp2⟩ := List.cons_prefix_cons.1 hpr
        exact Or.inl (key n hn hy rfl (Or.inl ⟨hh, hp2⟩))
      · cases r with
        | nil => simp only [List.nil_append] at hq; subst hq; exact Or.inr ho
        | cons z r =>
          simp only [List.cons_append, List.cons.injEq] at hq
          obtain ⟨rfl, rfl⟩ := hq
          obtain ⟨rfl, hr2⟩ := List.cons_prefix_cons.1 hr
          obtain ⟨n, hn, hy, ho⟩ := ho
          exact Or.inl (key n hn hy rfl (Or.inr ⟨r, w, rfl, hr2, ho⟩))

theorem has_add {f out : List Node} {p q : Path} (hp : p ≠ []) (hb : ∀ q, Always f q → Has out q) :
    Has (merge out (pickTop f p)) q ↔ Has out q ∨ Brings f p q := by
  rw [has_merge]
  constructor
  · rintro (h | h)
    · exact Or.inl h
    · exact Or.inr (has_pickTop h)
  · rintro (h | h)
    · exact Or.inl h
    · rcases pickTop_has hp h with h | h
      · exact Or.inr h
      · exact Or.inl (hb q h)

theorem has_takeDup {f out : List Node} {l : List Path} {q : Path} (hl : ∀ p ∈ l, p ≠ [])
    (hb : ∀ q, Always f q → Has out q) :
    Has (takeDup f out l) q ↔ Has out q ∨ ∃ p ∈ l, Brings f p q := by
  induction l generalizing out with
  | nil => simp [takeDup]
  | cons p l ih =>
    simp only [takeDup]
    have hp := hl p (List.mem_cons_self ..)
    rw [ih (fun p hp => hl p (List.mem_cons_of_mem _ hp)) (fun q hq => (has_add hp hb).2 (Or.inl (hb q hq))),
      has_add hp hb]
    simp [or_assoc]

theorem has_unlink {f : List Node} {p q : Path} (hp : p ≠ []) : Has (unlink f p) q ↔ Has f q ∧ ¬ p <+: q := by
  induction p generalizing f q with
  | nil => exact absurd rfl hp
  | cons x p ih =>
    cases q with
    | nil => simp [Has]
    | cons y q =>
      cases p with
      | nil =>
        simp only [unlink, Has, List.mem_filter, decide_eq_true_eq, List.cons_prefix_cons, List.nil_prefix, and_true]
        constructor
        · rintro ⟨n, ⟨hn, hx⟩, hy, hq⟩
          exact ⟨⟨n, hn, hy, hq⟩, fun he => hx (by rw [hy, he])⟩
        · rintro ⟨⟨n, hn, hy, hq⟩, hx⟩
          exact ⟨n, ⟨hn, fun he => hx (by rw [← he, hy])⟩, hy, hq⟩
      | cons z p =>
        have ih := @ih
        simp only [unlink, Has, List.mem_map, List.cons_prefix_cons (a := x)]
        constructor
        · rintro ⟨m, ⟨n, hn, rfl⟩, hy, hq⟩
          split at hy
          · rename_i hx
            rw [if_pos hx] at hq
            have hy : n.id = y := hy
            obtain ⟨h1, h2⟩ := (ih (by simp)).1 hq
            exact ⟨⟨n, hn, hy, h1⟩, fun h => h2 h.2⟩
          · rename_i hx
            rw [if_neg hx] at hq
            exact ⟨⟨n, hn, hy, hq⟩, fun h => hx (by rw [hy, h.1])⟩
        · rintro ⟨⟨n, hn, hy, hq⟩, hnp⟩
          refine ⟨_, ⟨n, hn, rfl⟩, ?_⟩
          by_cases hx : n.id = x
          · rw [if_pos hx]
            exact ⟨hy, (ih (by simp)).2 ⟨hq, fun h => hnp ⟨by rw [← hx, hy], h⟩⟩⟩
          · rw [if_neg hx]; exact ⟨hy, hq⟩

theorem kids_unlink {x z : Id} {p : Path} {n : Node} :
    (if n.id = x then Node.mk n.id n.kind (unlink n.kids (z :: p)) else n).id = n.id ∧
    (if n.id = x then Node.mk n.id n.kind (unlink n.kids (z :: p)) else n).kind = n.kind := by
  split <;> exact ⟨rfl, rfl⟩

theorem only_unlink {f : List Node} {p r w : Path} (hp : p ≠ []) :
    Only (unlink f p) r w ↔ Only f r w ∧ ¬ p <+: r ++ w := by
  induction p generalizing f r w with
  | nil => exact absurd rfl hp
  | cons x p ih =>
    have ih := @ih
    cases r with
    | nil =>
      cases w with
      | nil => simp [Only, Always]
      | cons y w =>
        have iha := @ih
        simp only [List.nil_append]
        cases p with
        | nil =>
          simp only [unlink, Only, Always, List.mem_filter, decide_eq_true_eq, List.cons_prefix_cons, List.nil_prefix, and_true]
          constructor
          · rintro ⟨n, ⟨hn, hx⟩, hy, hq⟩
            exact ⟨⟨n, hn, hy, hq⟩, fun he => hx (by rw [hy, he])⟩
          · rintro ⟨⟨n, hn, hy, hq⟩, hx⟩
            exact ⟨n, ⟨hn, fun he => hx (by rw [← he, hy])⟩, hy, hq⟩
        | cons z p =>
          simp only [unlink, Only, Always, List.mem_map, List.cons_prefix_cons (a := x)]
          constructor
          · rintro ⟨m, ⟨n, hn, rfl⟩, hy, hq⟩
            rw [kids_unlink.1] at hy
            rw [kids_unlink.2] at hq
            by_cases hx : n.id = x
            · rw [if_pos hx] at hq
              rcases hq with ⟨hk, rfl⟩ | ⟨hk, hq⟩
              · exact ⟨⟨n, hn, hy, Or.inl ⟨hk, rfl⟩⟩, fun h => by simp at h⟩
              · obtain ⟨h1, h2⟩ := (ih (r := []) (by simp)).1 hq
                exact ⟨⟨n, hn, hy, Or.inr ⟨hk, h1⟩⟩, fun h => h2 h.2⟩
            · rw [if_neg hx] at hq
              exact ⟨⟨n, hn, hy, hq⟩, fun h => hx (by rw [hy, h.1])⟩
          · rintro ⟨⟨n, hn, hy, hq⟩, hnp⟩
            refine ⟨_, ⟨n, hn, rfl⟩, by rw [kids_unlink.1]; exact hy, ?_⟩
            rw [kids_unlink.2]
            by_cases hx : n.id = x
            · rw [if_pos hx]
              rcases hq with ⟨hk, rfl⟩ | ⟨hk, hq⟩
              · exact Or.inl ⟨hk, rfl⟩
              · exact Or.inr ⟨hk, (ih (r := []) (by simp)).2 ⟨hq, fun h => hnp ⟨by rw [← hx, hy], h⟩⟩⟩
            · rw [if_neg hx]; exact hq
    | cons y r =>
      simp only [List.cons_append]
      cases p with
      | nil =>
        simp only [unlink, Only, Always, List.mem_filter, decide_eq_true_eq, List.cons_prefix_cons, List.nil_prefix, and_true]
        constructor
        · rintro ⟨n, ⟨hn, hx⟩, hy, hq⟩
          exact ⟨⟨n, hn, hy, hq⟩, fun he => hx (by rw [hy, he])⟩
        · rintro ⟨⟨n, hn, hy, hq⟩, hx⟩
          exact ⟨n, ⟨hn, fun he => hx (by rw [← he, hy])⟩, hy, hq⟩
      | cons z p =>
        simp only [unlink, Only, Always, List.mem_map, List.cons_prefix_cons (a := x)]
        constructor
        · rintro ⟨m, ⟨n, hn, rfl⟩, hy, hq⟩
          rw [kids_unlink.1] at hy
          by_cases hx : n.id = x
          · rw [if_pos hx] at hq
            obtain ⟨h1, h2⟩ := (ih (by simp)).1 hq
            exact ⟨⟨n, hn, hy, h1⟩, fun h => h2 h.2⟩
          · rw [if_neg hx] at hq
            exact ⟨⟨n, hn, hy, hq⟩, fun h => hx (by rw [hy, h.1])⟩
        · rintro ⟨⟨n, hn, hy, hq⟩, hnp⟩
          refine ⟨_, ⟨n, hn, rfl⟩, by rw [kids_unlink.1]; exact hy, ?_⟩
          by_cases hx : n.id = x
          · rw [if_pos hx]
            exact (ih (by simp)).2 ⟨hq, fun h => hnp ⟨by rw [← hx, hy], h⟩⟩
          · rw [if_neg hx]; exact hq

/-- What is left of the data after some nodes were unlinked. -/
structure Left (f0 f : List Node) (gone : List Path) : Prop where
  has : ∀ q, Has f q ↔ Has f0 q ∧ ∀ g ∈ gone, ¬ g <+: q
  only : ∀ r w, Only f r w ↔ Only f0 r w ∧ ∀ g ∈ gone, ¬ g <+: r ++ w

theorem Left.unlink {f0 f : List Node} {gone : List Path} (h : Left f0 f gone) {p : Path} (hp : p ≠ []) :
    Left f0 (Enabled.unlink f p) (p :: gone) where
  has := by
    intro q
    rw [has_unlink hp, h.has]
    simp only [List.mem_cons, forall_eq_or_imp]
    exact ⟨fun ⟨⟨a, b⟩, c⟩ => ⟨a, c, b⟩, fun ⟨a, c, b⟩ => ⟨⟨a, b⟩, c⟩⟩
  only := by
    intro r w
    rw [only_unlink hp, h.only]
    simp only [List.mem_cons, forall_eq_or_imp]
    exact ⟨fun ⟨⟨a, b⟩, c⟩ => ⟨a, c, b⟩, fun ⟨a, c, b⟩ => ⟨⟨a, b⟩, c⟩⟩

theorem Left.brings {f0 f : List Node} {gone : List Path} (h : Left f0 f gone) {p q : Path} :
    Brings f p q ↔ Brings f0 p q ∧ ∀ g ∈ gone, ¬ g <+: q := by
  constructor
  · intro hb
    have hq := (h.has q).1 (brings_has hb)
    refine ⟨?_, hq.2⟩
    rcases hb with ⟨_, hp⟩ | ⟨r, w, rfl, hr, ho⟩
    · exact Or.inl ⟨hq.1, hp⟩
    · exact Or.inr ⟨r, w, rfl, hr, ((h.only r w).1 ho).1⟩
  · rintro ⟨hb, hg⟩
    rcases hb with ⟨hq, hp⟩ | ⟨r, w, rfl, hr, ho⟩
    · exact Or.inl ⟨(h.has q).2 ⟨hq, hg⟩, hp⟩
    · exact Or.inr ⟨r, w, rfl, hr, (h.only r w).2 ⟨ho, hg⟩⟩

theorem brings_sub {f : List Node} {g p q : Path} (hg : g <+: p) (h : Brings f p q) : Brings f g q := by
  have hq := brings_has h
  rcases h with ⟨_, hp⟩ | ⟨r, w, rfl, hr, ho⟩
  · exact Or.inl ⟨hq, hg.trans hp⟩
  · rcases List.prefix_or_prefix_of_prefix hr hg with h1 | h1
    · exact Or.inr ⟨r, w, rfl, h1, ho⟩
    · exact Or.inl ⟨hq, h1.trans (List.prefix_append ..)⟩

theorem has_takeUnlink {f0 f out : List Node} {gone l : List Path} {q : Path} (h : Left f0 f gone)
    (hl : ∀ p ∈ l, p ≠ []) (hb : ∀ q, Always f0 q → Has out q)
    (hg : ∀ g ∈ gone, ∀ q, Brings f0 g q → Has out q) :
    Has (takeUnlink f out gone l) q ↔ Has out q ∨ ∃ p ∈ l, Brings f0 p q := by
  induction l generalizing f out gone with
  | nil => simp [takeUnlink]
  | cons p l ih =>
    have hp := hl p (List.mem_cons_self ..)
    have hl' := fun p hp => hl p (List.mem_cons_of_mem _ hp)
    simp only [takeUnlink]
    split
    · rename_i hs
      obtain ⟨g, hgm, hgp⟩ := List.any_eq_true.1 hs
      have hgp := List.isPrefixOf_iff_prefix.1 hgp
      rw [ih h hl' hb hg]
      simp only [List.mem_cons, exists_eq_or_imp]
      constructor
      · rintro (h1 | h1)
        · exact Or.inl h1
        · exact Or.inr (Or.inr h1)
      · rintro (h1 | h1 | h1)
        · exact Or.inl h1
        · exact Or.inl (hg g hgm q (brings_sub hgp h1))
        · exact Or.inr h1
    · rename_i hs
      have hb' : ∀ q, Always f q → Has out q := fun q hq => hb q ((h.only [] q).1 hq).1
      have hadd : ∀ q, Has (merge out (pickTop f p)) q ↔ Has out q ∨ Brings f0 p q := by
        intro q
        rw [has_add hp hb', h.brings]
        constructor
        · rintro (h1 | h1)
          · exact Or.inl h1
          · exact Or.inr h1.1
        · rintro (h1 | h1)
          · exact Or.inl h1
          · by_cases hx : ∃ g ∈ gone, g <+: q
            · obtain ⟨g, hgm, hgq⟩ := hx
              exact Or.inl (hg g hgm q (Or.inl ⟨brings_has h1, hgq⟩))
            · exact Or.inr ⟨h1, fun g hgm hgq => hx ⟨g, hgm, hgq⟩⟩
      have hout : ∀ q, Has out q → Has (merge out (pickTop f p)) q := fun q hq => (hadd q).2 (Or.inl hq)
      split
      · rw [ih h hl' (fun q hq => hout q (hb q hq)) (fun g hgm q hq => hout q (hg g hgm q hq)), hadd]
        simp [or_assoc]
      · rw [ih (h.unlink hp) hl' (fun q hq => hout q (hb q hq)) ?_, hadd]
        · simp [or_assoc]
        · intro g hgm q hq
          rcases List.mem_cons.1 hgm with rfl | hgm
          · exact (hadd q).2 (Or.inr hq)
          · exact hout q (hg g hgm q hq)

theorem mem_addSet {set l : List Path} {p : Path} : p ∈ addSet set l ↔ p ∈ set ∨ p ∈ l := by
  induction l generalizing set with
  | nil => simp [addSet]
  | cons a l ih =>
    simp only [addSet]
    split
    · rename_i hc
      rw [ih]
      simp only [List.contains_iff_mem] at hc
      simp only [List.mem_cons]
      constructor
      · rintro (h | h)
        · exact Or.inl h
        · exact Or.inr (Or.inr h)
      · rintro (h | rfl | h)
        · exact Or.inl h
        · exact Or.inl hc
        · exact Or.inr h
    · rw [ih]
      simp [or_assoc]

theorem mem_selected {set : List Path} {subs : List Sub} {p : Path} :
    p ∈ selected set subs ↔ p ∈ set ∨ ∃ s ∈ subs, Enables s ∧ ∃ ps, s.sel = some ps ∧ p ∈ ps := by
  induction subs generalizing set with
  | nil => simp [selected]
  | cons s l ih =>
    simp only [selected]
    cases hs : s.sel with
    | none => simp only [ih, List.mem_cons, exists_eq_or_imp, hs]; simp
    | some ps =>
      simp only
      by_cases hc : s.passive = false ∧ s.alive = true
      · simp only [hc.1, hc.2, Bool.not_false, Bool.and_self, if_true]
        rw [ih, mem_addSet]
        simp only [List.mem_cons, exists_eq_or_imp, hs, Enables, hc, and_self, true_and, Option.some.injEq, exists_eq_left', or_assoc]
      · have : (!s.passive && s.alive) = false := by
          cases h1 : s.passive <;> cases h2 : s.alive <;> simp_all
        simp only [this, Bool.false_eq_true, if_false]
        rw [ih]
        simp only [List.mem_cons, exists_eq_or_imp, hs, Enables, hc, false_and, false_or]

theorem whole_iff {subs : List Sub} : whole subs = true ↔ ∃ s ∈ subs, Enables s ∧ s.sel = none := by
  unfold whole
  rw [List.any_eq_true]
  constructor
  · rintro ⟨s, hs, h⟩
    simp only [Bool.and_eq_true, Option.isNone_iff_eq_none, Bool.not_eq_true'] at h
    exact ⟨s, hs, ⟨h.1.2, h.2⟩, h.1.1⟩
  · rintro ⟨s, hs, ⟨h1, h2⟩, h3⟩
    exact ⟨s, hs, by simp [h1, h2, h3]⟩

end Verif.Enabled
