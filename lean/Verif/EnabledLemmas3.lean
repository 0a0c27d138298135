import Verif.EnabledLemmas2

namespace Verif.Enabled

theorem ids_has {f : List Node} {r : Path} {x : Id} (h : x ∈ ids f r) : Has f (r ++ [x]) := by
  induction r generalizing f with
  | nil =>
    simp only [ids_nil, List.mem_map] at h
    obtain ⟨n, hn, hx⟩ := h
    exact ⟨n, hn, hx, has_nil _⟩
  | cons y r ih =>
    cases hf : find y f with
    | none => rw [ids_none hf] at h; cases h
    | some m =>
      obtain ⟨h1, h2⟩ := find_mem hf
      rw [ids_some hf] at h
      exact ⟨m, h1, h2, ih h⟩

theorem eq_of_sublist {α : Type} [DecidableEq α] {a b c : List α} (hc : c.Nodup) (ha : a.Sublist c) (hb : b.Sublist c)
    (h : ∀ x, x ∈ a ↔ x ∈ b) : a = b := by
  induction c generalizing a b with
  | nil => rw [List.sublist_nil.1 ha, List.sublist_nil.1 hb]
  | cons y c ih =>
    obtain ⟨hy, hc⟩ := List.nodup_cons.1 hc
    cases ha with
    | cons _ ha =>
      cases hb with
      | cons _ hb => exact ih hc ha hb h
      | cons_cons _ hb => exact absurd (ha.mem ((h y).2 (List.mem_cons_self ..))) hy
    | cons_cons _ ha =>
      cases hb with
      | cons _ hb => exact absurd (hb.mem ((h y).1 (List.mem_cons_self ..))) hy
      | cons_cons _ hb =>
        rename_i a b
        congr 1
        refine ih hc ha hb (fun x => ?_)
        have := h x
        simp only [List.mem_cons] at this
        constructor
        · intro hx
          rcases this.1 (Or.inr hx) with rfl | h1
          · exact absurd (ha.mem hx) hy
          · exact h1
        · intro hx
          rcases this.2 (Or.inr hx) with rfl | h1
          · exact absurd (hb.mem hx) hy
          · exact h1

/-- Siblings that are some of the siblings, in the same order, at all levels. -/
def Part (g f : List Node) : Prop := ∀ r, (ids g r).Sublist (ids f r)

theorem Part.uniq {g f : List Node} (h : Part g f) (hu : Uniq f) : Uniq g := fun r => (h r).nodup (hu r)
theorem Part.trans {g f k : List Node} (h : Part g f) (h' : Part f k) : Part g k := fun r => (h r).trans (h' r)
theorem Part.rfl {f : List Node} : Part f f := fun _ => List.Sublist.refl _

theorem find_fm {f : List Node} (hu : (f.map Node.id).Nodup) {g : Node → Option Node}
    (hid : ∀ n m, g n = some m → m.id = n.id) (x : Id) :
    find x (f.filterMap g) = (find x f).bind g := by
  induction f with
  | nil => rfl
  | cons n f ih =>
    simp only [List.map_cons, List.nodup_cons] at hu
    by_cases hx : n.id = x
    · subst hx
      rw [find_cons_self]
      cases hg : g n with
      | none =>
        rw [List.filterMap_cons_none hg, ih hu.2, find_none.2 hu.1]
        simp [hg]
      | some m =>
        rw [List.filterMap_cons_some hg]
        simp only [find, hid n m hg, if_true, Option.bind, hg]
    · rw [find_cons_ne _ hx]
      cases hg : g n with
      | none => rw [List.filterMap_cons_none hg, ih hu.2]
      | some m =>
        rw [List.filterMap_cons_some hg, find_cons_ne _ (by rw [hid n m hg]; exact hx), ih hu.2]

theorem part_fm {f : List Node} (hu : Uniq f) {g : Node → Option Node} (hid : ∀ n m, g n = some m → m.id = n.id)
    (hk : ∀ n ∈ f, ∀ m, g n = some m → Part m.kids n.kids) : Part (f.filterMap g) f := by
  intro r
  cases r with
  | nil =>
    simp only [ids_nil]
    clear hu hk
    induction f with
    | nil => exact List.Sublist.refl _
    | cons n f ih =>
      cases hg : g n with
      | none => rw [List.filterMap_cons_none hg]; exact ih.cons _
      | some m =>
        rw [List.filterMap_cons_some hg, List.map_cons, List.map_cons, hid n m hg]
        exact ih.cons_cons _
  | cons x r =>
    have hf : find x (f.filterMap g) = (find x f).bind g := find_fm (hu []) hid x
    cases hx : find x f with
    | none =>
      rw [hx] at hf
      rw [ids_none hf]; exact List.nil_sublist _
    | some n =>
      rw [hx] at hf
      cases hg : g n with
      | none =>
        rw [ids_none (by rw [hf]; exact hg)]; exact List.nil_sublist _
      | some m =>
        rw [ids_some (n := m) (by rw [hf]; exact hg), ids_some hx]
        exact hk n (find_mem hx).1 m hg r

theorem uniq_of_mem {f : List Node} (hu : Uniq f) {n : Node} (hn : n ∈ f) : Uniq n.kids :=
  hu.kids (find_uniq hu hn)

theorem bones_fm (f : List Node) : bones f = f.filterMap bone := by
  induction f with
  | nil => rfl
  | cons n f ih =>
    simp only [bones]
    cases hb : bone n with
    | none => rw [List.filterMap_cons_none hb, ih]
    | some m => rw [List.filterMap_cons_some hb, ih]

theorem bone_id {n m : Node} (h : bone n = some m) : m.id = n.id := by
  match n, h with
  | .mk i .key l, h => simp only [bone, Option.some.injEq] at h; subst h; rfl
  | .mk i .np l, h => simp only [bone, Option.some.injEq] at h; subst h; rfl
  | .mk i .inner l, h => simp [bone] at h
  | .mk i .term l, h => simp [bone] at h

theorem part_nil (f : List Node) : Part [] f := by
  intro r
  cases r with
  | nil => exact List.nil_sublist _
  | cons x r => rw [ids_none rfl]; exact List.nil_sublist _

mutual
theorem bone_part (n : Node) (hu : Uniq n.kids) (m : Node) (h : bone n = some m) : Part m.kids n.kids := by
  match n with
  | .mk i .key l => simp only [bone, Option.some.injEq] at h; subst h; exact part_nil _
  | .mk i .np l => simp only [bone, Option.some.injEq] at h; subst h; exact bones_part l hu
  | .mk i .inner l => simp [bone] at h
  | .mk i .term l => simp [bone] at h
theorem bones_part (f : List Node) (hu : Uniq f) : Part (bones f) f := by
  rw [bones_fm]
  refine part_fm hu (fun n m h => bone_id h) ?_
  exact bones_all f (fun n hn => uniq_of_mem hu hn)
theorem bones_all (f : List Node) (hu : ∀ n ∈ f, Uniq n.kids) : ∀ n ∈ f, ∀ m, bone n = some m → Part m.kids n.kids := by
  match f with
  | [] => intro n hn; cases hn
  | a :: f =>
    intro n hn m h
    rcases List.mem_cons.1 hn with h1 | h1
    · have := bone_part a (hu a (List.mem_cons_self ..)) m (by rw [← h1]; exact h)
      rw [h1]; exact this
    · exact bones_all f (fun n hn => hu n (List.mem_cons_of_mem _ hn)) n h1 m h
end

theorem pick_part {f : List Node} (hu : Uniq f) (p : Path) : Part (pick f p) f := by
  induction p generalizing f with
  | nil => exact Part.rfl
  | cons x p ih =>
    simp only [pick]
    refine part_fm hu ?_ ?_
    · intro n m h
      split at h
      · cases h; rfl
      · exact bone_id h
    · intro n hn m h
      split at h
      · cases h; exact ih (uniq_of_mem hu hn)
      · exact bone_part n (uniq_of_mem hu hn) m h

theorem pickTop_part {f : List Node} (hu : Uniq f) (p : Path) : Part (pickTop f p) f := by
  cases p with
  | nil => exact part_nil _
  | cons x p =>
    have : pickTop f (x :: p) =
        f.filterMap fun n => if n.id = x then some (.mk n.id n.kind (pick n.kids p)) else none := by
      simp only [pickTop]
      clear hu
      induction f with
      | nil => rfl
      | cons n f ih =>
        by_cases h : n.id = x
        · rw [List.filter_cons_of_pos (by simpa using h), List.map_cons, List.filterMap_cons_some (by rw [if_pos h]), ih]
        · rw [List.filter_cons_of_neg (by simpa using h), List.filterMap_cons_none (by rw [if_neg h]), ih]
    rw [this]
    refine part_fm hu ?_ ?_
    · intro n m h
      split at h
      · cases h; rfl
      · cases h
    · intro n hn m h
      split at h
      · cases h; exact pick_part (uniq_of_mem hu hn) p
      · cases h

theorem unlink_part {f : List Node} (hu : Uniq f) (p : Path) : Part (unlink f p) f := by
  induction p generalizing f with
  | nil => exact Part.rfl
  | cons x p ih =>
    cases p with
    | nil =>
      have : unlink f [x] = f.filterMap fun n => if n.id ≠ x then some n else none := by
        simp only [unlink]
        clear hu ih
        induction f with
        | nil => rfl
        | cons n f ih =>
          by_cases h : n.id = x
          · rw [List.filter_cons_of_neg (by simpa using h), List.filterMap_cons_none (by simp [h]), ih]
          · rw [List.filter_cons_of_pos (by simpa using h), List.filterMap_cons_some (b := n) (by simp [h]), ih]
      rw [this]
      refine part_fm hu ?_ ?_
      · intro n m h
        split at h
        · cases h; rfl
        · cases h
      · intro n hn m h
        split at h
        · cases h; exact Part.rfl
        · cases h
    | cons z p =>
      have : unlink f (x :: z :: p) = f.filterMap fun n =>
          some (if n.id = x then .mk n.id n.kind (unlink n.kids (z :: p)) else n) := by
        simp only [unlink]
        rw [List.filterMap_eq_map']
      rw [this]
      refine part_fm hu ?_ ?_
      · intro n m h
        cases h
        split <;> rfl
      · intro n hn m h
        cases h
        split
        · exact ih (uniq_of_mem hu hn)
        · exact Part.rfl

theorem ids_add {f out : List Node} {p r : Path} (hu : Uniq f) :
    ids (merge out (pickTop f p)) r = ids out r ++ new (ids out r) (ids (pickTop f p) r) :=
  ids_merge _ _ r ((pickTop_part hu p).uniq hu)

/-- Adding instances keeps an order: some of the others, none twice. -/
theorem uniq_add {f out : List Node} {p : Path} (hu : Uniq f) (ho : Uniq out) : Uniq (merge out (pickTop f p)) := by
  intro r
  rw [ids_add hu]
  refine List.nodup_append.2 ⟨ho r, (((pickTop_part hu p).uniq hu) r).filter _, ?_⟩
  intro a ha b hb e
  subst e
  simp [ha] at hb

/-- The cached and the uncached variant give the same instances in the same order. -/
theorem ids_takeUnlink {f0 f : List Node} {gone l : List Path} (hu0 : Uniq f0) (hl : ∀ p ∈ l, p ≠ [])
    (h : Left f0 f gone) (hp : Part f f0) :
    ∀ (a b : List Node), (∀ r, ids a r = ids b r) → Uniq a → Uniq b →
    (∀ q, Always f0 q → Has a q) → (∀ g ∈ gone, ∀ q, Brings f0 g q → Has a q) →
    ∀ r, ids (takeUnlink f a gone l) r = ids (takeDup f0 b l) r := by
  induction l generalizing f gone with
  | nil => intro a b hab _ _ _ _ r; simp only [takeUnlink, takeDup]; exact hab r
  | cons p l ih =>
    intro a b hab hua hub hb hg
    have hpn := hl p (List.mem_cons_self ..)
    have hl' := fun p hp => hl p (List.mem_cons_of_mem _ hp)
    have huf := hp.uniq hu0
    have hasab : ∀ r x, Has a (r ++ [x]) ↔ Has b (r ++ [x]) := by
      intro r x
      rw [← mem_ids hua, ← mem_ids hub, hab]
    simp only [takeUnlink, takeDup]
    split
    · rename_i hs
      obtain ⟨g, hgm, hgp⟩ := List.any_eq_true.1 hs
      have hgp := List.isPrefixOf_iff_prefix.1 hgp
      refine ih hl' h hp _ _ ?_ hua (uniq_add hu0 hub) hb hg
      intro r
      rw [ids_add hu0, ← hab]
      have : new (ids a r) (ids (pickTop f0 p) r) = [] := by
        rw [List.filter_eq_nil_iff]
        intro x hx
        have hx := hg g hgm _ (brings_sub hgp (has_pickTop (ids_has hx)))
        rw [← mem_ids hua] at hx
        simp [hx]
      rw [this, List.append_nil]
    · have hb' : ∀ q, Always f q → Has a q := fun q hq => hb q ((h.only [] q).1 hq).1
      have hstep : ∀ r, ids (merge a (pickTop f p)) r = ids (merge b (pickTop f0 p)) r := by
        intro r
        rw [ids_add huf, ids_add hu0, ← hab]
        congr 1
        refine eq_of_sublist (hu0 r) ((List.filter_sublist ..).trans (((pickTop_part huf p).trans hp) r))
          ((List.filter_sublist ..).trans ((pickTop_part hu0 p) r)) ?_
        intro x
        simp only [List.mem_filter, decide_eq_true_eq]
        rw [mem_ids ((pickTop_part huf p).uniq huf), mem_ids ((pickTop_part hu0 p).uniq hu0), mem_ids hua]
        constructor
        · rintro ⟨h1, h2⟩
          refine ⟨?_, h2⟩
          rcases pickTop_has hpn (h.brings.1 (has_pickTop h1)).1 with h3 | h3
          · exact h3
          · exact absurd (hb _ h3) h2
        · rintro ⟨h1, h2⟩
          refine ⟨?_, h2⟩
          have hbr := has_pickTop h1
          have : Brings f p (r ++ [x]) := by
            refine h.brings.2 ⟨hbr, fun g hgm hgq => h2 (hg g hgm _ (Or.inl ⟨brings_has hbr, hgq⟩))⟩
          rcases pickTop_has hpn this with h3 | h3
          · exact h3
          · exact absurd (hb' _ h3) h2
      have hout : ∀ q, Has a q → Has (merge a (pickTop f p)) q := fun q hq => (has_merge _ _ _).2 (Or.inl hq)
      split
      · exact ih hl' h hp _ _ hstep (uniq_add huf hua) (uniq_add hu0 hub) (fun q hq => hout q (hb q hq))
          (fun g hgm q hq => hout q (hg g hgm q hq))
      · refine ih hl' (h.unlink hpn) ((unlink_part huf p).trans hp) _ _ hstep (uniq_add huf hua) (uniq_add hu0 hub)
          (fun q hq => hout q (hb q hq)) ?_
        intro g hgm q hq
        rcases List.mem_cons.1 hgm with rfl | hgm
        · refine (has_add hpn hb').2 ?_
          by_cases hx : ∃ g' ∈ gone, g' <+: q
          · obtain ⟨g', hgm', hgq⟩ := hx
            exact Or.inl (hg g' hgm' q (Or.inl ⟨brings_has hq, hgq⟩))
          · exact Or.inr (h.brings.2 ⟨hq, fun g' hgm' hgq => hx ⟨g', hgm', hgq⟩⟩)
        · exact hout q (hg g hgm q hq)

theorem mem_entries {f : List Node} {r : Path} {s : Nat} {x : Id} : x ∈ entries f r s ↔ x ∈ ids f r ∧ x.sch = s := by
  simp [entries]

theorem always_listed {f : List Node} (hu : Uniq f) {r : Path} {s : Nat} (hl : Listed f r s) {x : Id} (hx : x.sch = s) :
    ¬ Always f (r ++ [x]) := by
  intro h
  induction r generalizing f with
  | nil =>
    obtain ⟨n, hn, hi, h⟩ := h
    have := hl n hn (by rw [hi, hx])
    rcases h with ⟨h, _⟩ | ⟨h, _⟩ <;> simp [h] at this
  | cons y r ih =>
    obtain ⟨n, hn, hi, h⟩ := h
    rcases h with ⟨_, h⟩ | ⟨_, h⟩
    · simp at h
    · refine ih (uniq_of_mem hu hn) ?_ h
      have : kidsAt f (y :: r) = kidsAt n.kids r := by
        rw [kidsAt_cons, ← hi, find_uniq hu hn]
      unfold Listed at hl
      rw [this] at hl
      exact hl

/-- A path all of whose nodes below another one are always there does not lead to a listed node. -/
theorem only_listed {f : List Node} (hu : Uniq f) {r : Path} {s : Nat} (hl : Listed f r s) {x : Id} (hx : x.sch = s)
    {a w : Path} (h : Only f a w) (he : a ++ w = r ++ [x]) : w = [] := by
  induction a generalizing f r with
  | nil =>
    have : Always f (r ++ [x]) := by rw [← he]; exact h
    exact absurd this (always_listed hu hl hx)
  | cons y a ih =>
    obtain ⟨n, hn, hi, h⟩ := h
    cases r with
    | nil =>
      simp only [List.cons_append, List.nil_append, List.cons.injEq] at he
      exact (List.append_eq_nil_iff.1 he.2).2
    | cons z r =>
      simp only [List.cons_append, List.cons.injEq] at he
      refine ih (uniq_of_mem hu hn) ?_ h he.2
      have : kidsAt f (z :: r) = kidsAt n.kids r := by
        rw [kidsAt_cons, ← he.1, ← hi, find_uniq hu hn]
      unfold Listed at hl
      rw [this] at hl
      exact hl

theorem brings_listed {f : List Node} (hu : Uniq f) {r : Path} {s : Nat} (hl : Listed f r s) {x : Id} (hx : x.sch = s)
    {p : Path} (h : Brings f p (r ++ [x])) : p <+: r ∨ (r ++ [x]) <+: p := by
  rcases h with ⟨_, h⟩ | ⟨a, w, he, ha, ho⟩
  · rcases List.prefix_concat_iff.1 h with rfl | h
    · exact Or.inr (List.prefix_refl _)
    · exact Or.inl h
  · have := only_listed hu hl hx ho he.symm
    subst this
    rw [List.append_nil] at he
    rw [he]; exact Or.inr ha

theorem entries_bones {f : List Node} (hu : Uniq f) {r : Path} {s : Nat} (hl : Listed f r s) : entries (bones f) r s = [] := by
  refine List.eq_nil_iff_forall_not_mem.2 fun x hx => ?_
  obtain ⟨h1, h2⟩ := mem_entries.1 hx
  exact always_listed hu hl h2 ((has_bones f _).1 (ids_has h1))

theorem entries_merge {s t : List Node} (hu : Uniq s) (r : Path) (k : Nat) :
    entries (merge t s) r k = entries t r k ++ new (entries t r k) (entries s r k) := by
  unfold entries new
  rw [ids_merge s t r hu, List.filter_append, List.filter_filter, List.filter_filter]
  congr 1
  apply List.filter_congr
  intro x _
  by_cases h : x.sch = k <;> simp [h]

theorem entries_part {g f : List Node} (h : Part g f) (r : Path) (s : Nat) : (entries g r s).Sublist (entries f r s) :=
  (h r).filter _

theorem entries_nodup {f : List Node} (h : Uniq f) (r : Path) (s : Nat) : (entries f r s).Nodup := (h r).filter _

/-- What one selected node gives. -/
theorem entries_pickTop {f : List Node} (hu : Uniq f) {r : Path} {s : Nat} (hl : Listed f r s) {p : Path} (hp : p ≠ []) :
    (p <+: r ∧ entries (pickTop f p) r s = entries f r s) ∨
    entries (pickTop f p) r s = [] ∨
    ∃ x, x ∈ entries f r s ∧ (r ++ [x]) <+: p ∧ entries (pickTop f p) r s = [x] := by
  by_cases hpr : p <+: r
  · refine Or.inl ⟨hpr, eq_of_sublist (entries_nodup hu r s) (entries_part (pickTop_part hu p) r s)
      (List.Sublist.refl _) ?_⟩
    intro x
    refine ⟨(entries_part (pickTop_part hu p) r s).mem, fun hx => ?_⟩
    obtain ⟨h1, h2⟩ := mem_entries.1 hx
    have hb : Brings f p (r ++ [x]) := Or.inl ⟨ids_has h1, hpr.trans (List.prefix_append ..)⟩
    rcases pickTop_has hp hb with h | h
    · exact mem_entries.2 ⟨(mem_ids ((pickTop_part hu p).uniq hu)).2 h, h2⟩
    · exact absurd h (always_listed hu hl h2)
  · refine Or.inr ?_
    have hmem : ∀ x ∈ entries (pickTop f p) r s, x ∈ entries f r s ∧ (r ++ [x]) <+: p := by
      intro x hx
      refine ⟨(entries_part (pickTop_part hu p) r s).mem hx, ?_⟩
      obtain ⟨h1, h2⟩ := mem_entries.1 hx
      rcases brings_listed hu hl h2 (has_pickTop (ids_has h1)) with h | h
      · exact absurd h hpr
      · exact h
    have hnd := entries_nodup ((pickTop_part hu p).uniq hu) r s
    match he : entries (pickTop f p) r s with
    | [] => exact Or.inl rfl
    | [x] =>
      rw [he] at hmem
      obtain ⟨h1, h2⟩ := hmem x (List.mem_cons_self ..)
      exact Or.inr ⟨x, h1, h2, rfl⟩
    | x :: y :: l =>
      rw [he] at hmem hnd
      obtain ⟨_, h2⟩ := hmem x (List.mem_cons_self ..)
      obtain ⟨_, h4⟩ := hmem y (List.mem_cons_of_mem _ (List.mem_cons_self ..))
      have hxy : x = y := by
        have : r ++ [x] = r ++ [y] := by
          rcases List.prefix_or_prefix_of_prefix h2 h4 with h | h
          · exact h.eq_of_length (by simp)
          · exact (h.eq_of_length (by simp)).symm
        simpa using this
      subst hxy
      simp at hnd

theorem sublist_snoc {α : Type} {e f : List α} {x : α} (hf : f.Nodup) (he : e.Sublist f) (hx : x ∈ f)
    (h : ∀ y ∈ e, [y, x].Sublist f) : (e ++ [x]).Sublist f := by
  obtain ⟨a, b, rfl⟩ := List.append_of_mem hx
  have hd := List.nodup_append.1 hf
  have hxb : x ∉ b := (List.nodup_cons.1 hd.2.1).1
  have hxa : x ∉ a := fun hm => hd.2.2 x hm x (List.mem_cons_self ..) rfl
  have hea : e.Sublist a := by
    have hmem : ∀ y ∈ e, y ∈ a := by
      intro y hy
      obtain ⟨l1, l2, h1, h2, h3⟩ := List.sublist_append_iff.1 (h y hy)
      match l1, h1 with
      | [], h1 =>
        simp only [List.nil_append] at h1
        subst h1
        cases h3 with
        | cons _ h3 => exact absurd (h3.mem (by simp)) hxb
        | cons_cons _ h3 => exact absurd (h3.mem (by simp)) hxb
      | z :: l1, h1 =>
        simp only [List.cons_append, List.cons.injEq] at h1
        rw [h1.1]; exact h2.mem (List.mem_cons_self ..)
    obtain ⟨l1, l2, rfl, h2, h3⟩ := List.sublist_append_iff.1 he
    have : l2 = [] := by
      refine List.eq_nil_iff_forall_not_mem.2 fun y hy => ?_
      exact hd.2.2 y (hmem y (List.mem_append_right _ hy)) y (h3.mem hy) rfl
    subst this
    rw [List.append_nil]; exact h2
  exact hea.append ((List.nil_sublist _).cons_cons x)

theorem sublist_filter_pair {f : List Node} {r : Path} {s : Nat} {x y : Id} (h : [x, y].Sublist (ids f r))
    (hx : x.sch = s) (hy : y.sch = s) : [x, y].Sublist (entries f r s) := by
  have := h.filter (fun z => decide (z.sch = s))
  simpa [hx, hy, entries] using this

/-- Selected nodes taken in document order leave the entries of a list in their order. -/
theorem order_takeDup {f : List Node} (hu : Uniq f) {r : Path} {s : Nat} (hl : Listed f r s) {l : List Path}
    (hne : ∀ p ∈ l, p ≠ []) (hs : l.Pairwise (Before f)) :
    ∀ (out : List Node), (entries out r s).Sublist (entries f r s) →
    (∀ p ∈ l, (p <+: r → entries out r s = [] ∨ entries out r s = entries f r s) ∧
      ∀ x ∈ entries f r s, (r ++ [x]) <+: p → x ∉ entries out r s → ∀ y ∈ entries out r s, [y, x].Sublist (entries f r s)) →
    (entries (takeDup f out l) r s).Sublist (entries f r s) := by
  induction l with
  | nil => intro out h _; exact h
  | cons p l ih =>
    intro out hsub hinv
    obtain ⟨hp, hs⟩ := List.pairwise_cons.1 hs
    have hpn := hne p (List.mem_cons_self ..)
    have hrest := fun p' (h : p' ∈ l) => hinv p' (List.mem_cons_of_mem _ h)
    have hnd := entries_nodup hu r s
    simp only [takeDup]
    have he := entries_merge (t := out) ((pickTop_part hu p).uniq hu) r s
    have ih := ih (fun p hp => hne p (List.mem_cons_of_mem _ hp)) hs
    rcases entries_pickTop hu hl hpn with ⟨hpr, h⟩ | h | ⟨x, hx, hxp, h⟩
    · have hfull : entries (merge out (pickTop f p)) r s = entries f r s := by
        rw [he, h]
        rcases (hinv p (List.mem_cons_self ..)).1 hpr with h0 | h0
        · rw [h0, nil_new, List.nil_append]
        · rw [h0]
          have : new (entries f r s) (entries f r s) = [] := by
            rw [List.filter_eq_nil_iff]; intro x hx; simpa using hx
          rw [this, List.append_nil]
      refine ih _ (by rw [hfull]; exact List.Sublist.refl _) ?_
      intro p' hp'
      rw [hfull]
      exact ⟨fun _ => Or.inr rfl, fun x hx _ hn => absurd hx hn⟩
    · have hsame : entries (merge out (pickTop f p)) r s = entries out r s := by
        rw [he, h, new_nil, List.append_nil]
      refine ih _ (by rw [hsame]; exact hsub) ?_
      intro p' hp'
      rw [hsame]
      exact hrest p' hp'
    · by_cases hxo : x ∈ entries out r s
      · have hsame : entries (merge out (pickTop f p)) r s = entries out r s := by
          rw [he, h]
          simp [new, hxo]
        refine ih _ (by rw [hsame]; exact hsub) ?_
        intro p' hp'
        rw [hsame]
        exact hrest p' hp'
      · have hadd : entries (merge out (pickTop f p)) r s = entries out r s ++ [x] := by
          rw [he, h]
          simp [new, hxo]
        have hbef := (hinv p (List.mem_cons_self ..)).2 x hx hxp hxo
        refine ih _ (by rw [hadd]; exact sublist_snoc hnd hsub hx hbef) ?_
        intro p' hp'
        rw [hadd]
        have hpp := hp p' hp'
        obtain ⟨c, hc⟩ := hxp
        refine ⟨?_, ?_⟩
        · intro hpr
          exfalso
          obtain ⟨d, hd⟩ := hpr
          rcases hpp with ⟨⟨e, hpre⟩, _⟩ | ⟨r0, a, b, p1, q1, h1, h2, hab, _⟩
          · have := congrArg List.length hc
            have h5 := congrArg List.length hd
            have h6 := congrArg List.length hpre
            simp only [List.length_append, List.length_cons, List.length_nil] at this h5 h6
            omega
          · have h3 : r0 ++ a :: p1 = r0 ++ b :: (q1 ++ (d ++ [x] ++ c)) := by
              rw [← h1, ← hc, ← hd, h2]
              simp [List.append_assoc]
            have := List.append_cancel_left h3
            exact hab (List.cons.inj this).1
        · intro z hz hzp hzo y hy
          obtain ⟨d, hd⟩ := hzp
          rcases List.mem_append.1 hy with hy | hy
          · exact (hrest p' hp').2 z hz ⟨d, hd⟩ (fun hm => hzo (List.mem_append_left _ hm)) y hy
          · have hy : y = x := by simpa using hy
            subst hy
            have hzy : z ≠ y := fun e => hzo (by simp [e])
            have hsx := (mem_entries.1 hx).2
            have hsz := (mem_entries.1 hz).2
            rcases hpp with ⟨⟨e, hpre⟩, _⟩ | ⟨r0, a, b, p1, q1, h1, h2, hab, hsubl⟩
            · exfalso
              rw [← hc, ← hd, List.append_assoc, List.append_assoc, List.append_assoc] at hpre
              have := List.append_cancel_left hpre
              simp only [List.singleton_append, List.cons_append, List.cons.injEq] at this
              exact hzy this.1.symm
            · obtain ⟨h5, h6, h7⟩ := diverge (r := r) (r0 := r0) (x := y) (z := z) (a := a) (b := b) (c := c) (d := d)
                (p1 := p1) (q1 := q1) (by rw [← h1, ← hc]; simp [List.append_assoc])
                (by rw [← h2, ← hd]; simp [List.append_assoc]) hab (Ne.symm hzy)
              subst h5; subst h6; subst h7
              exact sublist_filter_pair hsubl hsx hsz
where
  diverge {r r0 : Path} {x z a b : Id} {c d p1 q1 : Path} (h1 : r0 ++ a :: p1 = r ++ x :: c)
      (h2 : r0 ++ b :: q1 = r ++ z :: d) (hab : a ≠ b) (hxz : x ≠ z) : r0 = r ∧ a = x ∧ b = z := by
    induction r generalizing r0 with
    | nil =>
      cases r0 with
      | nil =>
        simp only [List.nil_append, List.cons.injEq] at h1 h2
        exact ⟨rfl, h1.1, h2.1⟩
      | cons y r0 =>
        simp only [List.nil_append, List.cons_append, List.cons.injEq] at h1 h2
        exact absurd (h1.1.symm.trans h2.1) hxz
    | cons w r ih =>
      cases r0 with
      | nil =>
        simp only [List.nil_append, List.cons_append, List.cons.injEq] at h1 h2
        exact absurd (h1.1.trans h2.1.symm) hab
      | cons y r0 =>
        simp only [List.cons_append, List.cons.injEq] at h1 h2
        obtain ⟨h3, h4, h5⟩ := ih h1.2 h2.2
        exact ⟨by rw [h1.1, h3], h4, h5⟩

theorem uniq_intro {f : List Node} (h0 : (f.map Node.id).Nodup) (hk : ∀ n ∈ f, Uniq n.kids) : Uniq f := by
  intro r
  cases r with
  | nil => exact h0
  | cons x r =>
    cases hf : find x f with
    | none => rw [ids_none hf]; exact List.nodup_nil
    | some m => rw [ids_some hf]; exact hk m (find_mem hf).1 r

end Verif.Enabled
