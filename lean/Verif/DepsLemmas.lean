import Verif.Deps

/- Lemmas: the items of a mod_info found by their module. -/

namespace Verif.Deps

variable {D : Type} [DecidableEq D]

theorem mem_addInv (inv : Nat → List Nat) (b a k x : Nat) :
    x ∈ addInv inv b a k ↔ x ∈ inv k ∨ (k = b ∧ x = a) := by
  unfold addInv
  by_cases hk : k = b
  · subst hk
    by_cases ha : a ∈ inv k
    · simp only [if_true, if_pos ha]
      constructor
      · exact Or.inl
      · rintro (h | ⟨_, rfl⟩)
        · exact h
        · exact ha
    · simp [ha]
  · simp [hk]

theorem mem_addInvs (bs : List Nat) (a k x : Nat) : ∀ (inv : Nat → List Nat),
    x ∈ bs.foldl (fun inv b => addInv inv b a) inv k ↔ x ∈ inv k ∨ (k ∈ bs ∧ x = a) := by
  induction bs with
  | nil => intro inv; simp
  | cons b bs ih =>
    intro inv
    rw [List.foldl_cons, ih, mem_addInv, List.mem_cons]
    grind

theorem mem_invDeps_aux (L : Lib D) (k x : Nat) (ms : List Nat) : ∀ (inv : Nat → List Nat),
    x ∈ ms.foldl (fun inv a => ((depsOf L a).flatMap targets).foldl (fun inv b => addInv inv b a) inv) inv k ↔
      x ∈ inv k ∨ (x ∈ ms ∧ k ∈ (depsOf L x).flatMap targets) := by
  induction ms with
  | nil => intro inv; simp
  | cons a ms ih =>
    intro inv
    rw [List.foldl_cons, ih, mem_addInvs, List.mem_cons]
    grind

theorem mem_invDeps (L : Lib D) (k x : Nat) :
    x ∈ invDeps L k ↔ x ∈ L.mods ∧ k ∈ (depsOf L x).flatMap targets := by
  unfold invDeps
  rw [mem_invDeps_aux]
  simp

/-- The item of a module. -/
def look (es : List Ent) (k : Nat) : Option Ent := es.find? fun e => e.m = k

def keys (es : List Ent) : List Nat := es.map Ent.m

theorem look_m {es : List Ent} {k : Nat} {e : Ent} (h : look es k = some e) : e.m = k := by
  have := List.find?_some h
  simpa using this

theorem look_mem {es : List Ent} {k : Nat} {e : Ent} (h : look es k = some e) : e ∈ es :=
  List.mem_of_find?_eq_some h

theorem mem_look {es : List Ent} (hn : (keys es).Nodup) {e : Ent} (h : e ∈ es) : look es e.m = some e := by
  induction es with
  | nil => cases h
  | cons x l ih =>
    simp only [keys, List.map_cons, List.nodup_cons] at hn
    unfold look
    rw [List.find?_cons]
    rcases List.mem_cons.1 h with rfl | h
    · simp
    · have hx : x.m ≠ e.m := by
        intro hxe
        exact hn.1 (hxe ▸ List.mem_map_of_mem h)
      simp only [hx, decide_false]
      exact ih hn.2 h

theorem look_none {es : List Ent} {k : Nat} : look es k = none ↔ k ∉ keys es := by
  unfold look keys
  rw [List.find?_eq_none]
  simp only [List.mem_map, not_exists, not_and, decide_eq_true_eq]

theorem any_keys (es : List Ent) (k : Nat) : (es.any fun e => e.m = k) = true ↔ k ∈ keys es := by
  simp [keys, List.any_eq_true]

theorem look_some {es : List Ent} {k : Nat} : (∃ e, look es k = some e) ↔ k ∈ keys es := by
  cases h : look es k with
  | none => simp [look_none.1 h]
  | some e =>
    simp only [Option.some.injEq, exists_eq', true_iff]
    have := look_mem h
    have hm := look_m h
    exact hm ▸ List.mem_map_of_mem this

theorem look_map {f : Ent → Ent} (hf : ∀ e, (f e).m = e.m) (es : List Ent) (k : Nat) :
    look (es.map f) k = (look es k).map f := by
  induction es with
  | nil => rfl
  | cons x l ih =>
    unfold look at ih ⊢
    rw [List.map_cons, List.find?_cons, List.find?_cons, hf]
    by_cases h : x.m = k
    · simp [h]
    · simp only [h, decide_false]
      exact ih

theorem keys_map {f : Ent → Ent} (hf : ∀ e, (f e).m = e.m) (es : List Ent) : keys (es.map f) = keys es := by
  unfold keys
  rw [List.map_map]
  apply List.map_congr_left
  intro e _
  exact hf e

theorem look_append (es : List Ent) (e : Ent) (k : Nat) :
    look (es ++ [e]) k = (look es k).or (if e.m = k then some e else none) := by
  unfold look
  rw [List.find?_append]
  congr 1
  by_cases h : e.m = k <;> simp [h]

/-- What a list operation does to the item of its module. -/
def Acts (op : List Ent → Nat → List Ent) (o : Nat → Option Ent → Ent) : Prop :=
  ∀ es m k, look (op es m) k = if k = m then some (o m (look es m)) else look es k

def addO (xp : Bool) (m : Nat) : Option Ent → Ent
  | none => { m := m, new := true, xp := xp }
  | some e => if e.req then e else { e with new := true, xp := e.xp || xp }

def newO (ty : Ty) (m : Nat) : Option Ent → Ent
  | none => ({ m := m } : Ent).as ty
  | some e => { e.as ty with new := false }

theorem acts_of {op : List Ent → Nat → List Ent} {f : Ent → Ent} {g : Nat → Ent} (hf : ∀ e, (f e).m = e.m)
    (hg : ∀ m, (g m).m = m)
    (hop : ∀ es m, op es m = if es.any (fun e => e.m = m) then upd m f es else es ++ [g m]) :
    Acts op (fun m o => match o with | none => g m | some e => f e) := by
  intro es m k
  rw [hop]
  by_cases h : m ∈ keys es
  · rw [if_pos ((any_keys es m).2 h)]
    unfold upd
    rw [look_map (by intro e; split <;> simp [hf])]
    by_cases hk : k = m
    · subst hk
      obtain ⟨e, he⟩ := look_some.2 h
      rw [he, if_pos rfl]
      simp [look_m he]
    · rw [if_neg hk]
      cases he : look es k with
      | none => rfl
      | some e =>
        have := look_m he
        simp only [Option.map_some, Option.some.injEq]
        rw [if_neg (by omega)]
  · rw [if_neg (by rw [any_keys]; exact h), look_append, hg]
    by_cases hk : k = m
    · subst hk
      rw [if_pos rfl, if_pos rfl, look_none.2 h]
      rfl
    · rw [if_neg hk, if_neg (Ne.symm hk)]
      simp

theorem as_m (e : Ent) (ty : Ty) : (e.as ty).m = e.m := by cases ty <;> rfl

theorem acts_add (xp : Bool) : Acts (add xp) (addO xp) := by
  have h := acts_of (op := add xp) (f := fun e => if e.req then e else { e with new := true, xp := e.xp || xp })
    (g := fun m => { m := m, new := true, xp := xp }) (by intro e; split <;> rfl) (by intro m; rfl)
    (by intro es m; rfl)
  intro es m k
  rw [h es m k]
  cases look es m <;> rfl

theorem acts_new (ty : Ty) : Acts (modNew ty) (newO ty) := by
  have h := acts_of (op := modNew ty) (f := fun e => { e.as ty with new := false })
    (g := fun m => ({ m := m } : Ent).as ty) (by intro e; exact as_m e ty) (by intro m; exact as_m _ ty)
    (by intro es m; rfl)
  intro es m k
  rw [h es m k]
  cases look es m <;> rfl

theorem acts_foldl {op : List Ent → Nat → List Ent} {o : Nat → Option Ent → Ent} (ha : Acts op o)
    (hi : ∀ m x, o m (some (o m x)) = o m x) (ms : List Nat) : ∀ (es : List Ent) (k : Nat),
    look (ms.foldl op es) k = if k ∈ ms then some (o k (look es k)) else look es k := by
  induction ms with
  | nil => intro es k; simp
  | cons m ms ih =>
    intro es k
    rw [List.foldl_cons, ih, ha]
    by_cases hk : k = m
    · subst hk
      simp only [if_true, List.mem_cons, true_or]
      split
      · rw [hi]
      · rfl
    · simp only [List.mem_cons, hk, false_or, if_false]

theorem addO_idem (xp : Bool) (m : Nat) (x : Option Ent) : addO xp m (some (addO xp m x)) = addO xp m x := by
  cases x with
  | none => simp [addO]
  | some e =>
    by_cases h : e.req <;> simp [addO, h]

theorem newO_idem (ty : Ty) (m : Nat) (x : Option Ent) : newO ty m (some (newO ty m x)) = newO ty m x := by
  cases x <;> cases ty <;> rfl

theorem look_adds (xp : Bool) (ms : List Nat) (es : List Ent) (k : Nat) :
    look (ms.foldl (add xp) es) k = if k ∈ ms then some (addO xp k (look es k)) else look es k :=
  acts_foldl (acts_add xp) (addO_idem xp) ms es k

theorem look_news (ty : Ty) (ms : List Nat) (es : List Ent) (k : Nat) :
    look (ms.foldl (modNew ty) es) k = if k ∈ ms then some (newO ty k (look es k)) else look es k :=
  acts_foldl (acts_new ty) (newO_idem ty) ms es k

theorem nodup_op {op : List Ent → Nat → List Ent} {f : Ent → Ent} {g : Nat → Ent} (hf : ∀ e, (f e).m = e.m)
    (hg : ∀ m, (g m).m = m)
    (hop : ∀ es m, op es m = if es.any (fun e => e.m = m) then upd m f es else es ++ [g m]) (ms : List Nat) :
    ∀ es, (keys es).Nodup → (keys (ms.foldl op es)).Nodup := by
  induction ms with
  | nil => intro es h; exact h
  | cons m ms ih =>
    intro es h
    apply ih
    rw [hop]
    split
    · unfold upd
      rw [keys_map (by intro e; split <;> simp [hf])]
      exact h
    · rename_i hn
      rw [any_keys] at hn
      unfold keys at hn h ⊢
      rw [List.map_append, List.nodup_append]
      refine ⟨h, by simp, ?_⟩
      intro a ha b hb
      simp only [List.map_cons, List.map_nil, List.mem_singleton] at hb
      rw [hb, hg]
      rintro rfl
      exact hn ha

theorem nodup_adds (xp : Bool) (ms : List Nat) (es : List Ent) (h : (keys es).Nodup) :
    (keys (ms.foldl (add xp) es)).Nodup :=
  nodup_op (op := add xp) (f := fun e => if e.req then e else { e with new := true, xp := e.xp || xp })
    (g := fun m => { m := m, new := true, xp := xp }) (by intro e; split <;> rfl) (by intro m; rfl)
    (by intro es m; rfl) ms es h

theorem nodup_news (ty : Ty) (ms : List Nat) (es : List Ent) (h : (keys es).Nodup) :
    (keys (ms.foldl (modNew ty) es)).Nodup :=
  nodup_op (op := modNew ty) (f := fun e => { e.as ty with new := false })
    (g := fun m => ({ m := m } : Ent).as ty) (by intro e; exact as_m e ty) (by intro m; exact as_m _ ty)
    (by intro es m; rfl) ms es h

theorem insert_perm (e : Ent) (l : List Ent) : (insert e l).Perm (e :: l) := by
  induction l with
  | nil => exact .refl _
  | cons x l ih =>
    unfold insert
    split
    · exact .refl _
    · exact (ih.cons x).trans (.swap e x l)

theorem sort_perm (l : List Ent) : (sort l).Perm l := by
  induction l with
  | nil => exact .refl _
  | cons x l ih => exact (insert_perm x (sort l)).trans (ih.cons x)

theorem keys_sort (l : List Ent) : (keys (sort l)).Perm (keys l) := (sort_perm l).map _

theorem nodup_sort {l : List Ent} (h : (keys l).Nodup) : (keys (sort l)).Nodup := (keys_sort l).nodup_iff.2 h

theorem insert_sorted (e : Ent) (l : List Ent) (h : (keys l).Pairwise (· ≤ ·)) :
    (keys (insert e l)).Pairwise (· ≤ ·) := by
  induction l with
  | nil => simp [insert, keys]
  | cons x l ih =>
    unfold insert
    simp only [keys, List.map_cons, List.pairwise_cons] at h
    split
    · rename_i hle
      simp only [keys, List.map_cons, List.pairwise_cons]
      refine ⟨?_, h⟩
      intro a ha
      rcases List.mem_cons.1 ha with rfl | ha
      · exact hle
      · have := h.1 a ha
        omega
    · rename_i hle
      simp only [keys, List.map_cons, List.pairwise_cons]
      refine ⟨?_, ih h.2⟩
      intro a ha
      have hp := ((insert_perm e l).map Ent.m).mem_iff.1 ha
      rcases List.mem_cons.1 hp with rfl | hp
      · omega
      · exact h.1 a hp

theorem sort_sorted (l : List Ent) : (keys (sort l)).Pairwise (· ≤ ·) := by
  induction l with
  | nil => exact .nil
  | cons x l ih => exact insert_sorted x _ ih

theorem look_perm {l l' : List Ent} (hp : l'.Perm l) (h : (keys l).Nodup) (k : Nat) : look l' k = look l k := by
  have h' : (keys l').Nodup := (hp.map Ent.m).nodup_iff.2 h
  cases he : look l k with
  | none =>
    rw [look_none] at he ⊢
    intro hk
    exact he ((hp.map Ent.m).mem_iff.1 hk)
  | some e =>
    have := mem_look h' (hp.mem_iff.2 (look_mem he))
    rw [look_m he] at this
    exact this

theorem foldl_map_m {β : Type} (op : β → Nat → β) (l : List Ent) (b : β) :
    l.foldl (fun b e => op b e.m) b = (l.map Ent.m).foldl op b := by
  rw [List.foldl_map]

theorem foldl_flat {β : Type} (op : β → Nat → β) {α : Type} (f : α → List Nat) (l : List α) : ∀ (b : β),
    l.foldl (fun b e => (f e).foldl op b) b = (l.flatMap f).foldl op b := by
  induction l with
  | nil => intro b; rfl
  | cons x l ih =>
    intro b
    rw [List.foldl_cons, ih, List.flatMap_cons, List.foldl_append]

open Classical in
/-- Consolidating, for every module. -/
theorem look_consolidate (L : Lib D) (cached : Bool) (ds : Nat → D) (ty : Ty) (inv : Bool) (mi : MI D)
    (hn : (keys mi.es).Nodup) (h : mi.es.any (·.new) = true) :
    ∃ es1 es2, (∀ k, look es1 k = if (∃ e, look mi.es k = some e ∧ e.new = true) then (look mi.es k).map fun e => { e.as ty with new := false } else look mi.es k) ∧
      (∀ k, look es2 k = if inv = true ∧ (∃ t e, look es1 t = some e ∧ e.req = true ∧ k ∈ invDeps L t)
        then some (newO .inv k (look es1 k)) else look es1 k) ∧
      (keys es2).Nodup ∧
      (consolidate L cached ds ty inv mi).es = (sort es2).map (fun e => if e.data then e else { e with data := cached || !e.xp, loads := e.loads + 1 }) ∧
      (consolidate L cached ds ty inv mi).cur = fun k => if (∃ e, look es2 k = some e ∧ e.data = false) then ds k else mi.cur k := by
  let es1 := (mi.es.filter (·.new)).foldl (fun es e => modNew ty es e.m) mi.es
  let es2 := if inv then (es1.filter (·.req)).foldl (fun es e => (invDeps L e.m).foldl (modNew .inv) es) es1 else es1
  have e1 : es1 = ((mi.es.filter (·.new)).map Ent.m).foldl (modNew ty) mi.es := foldl_map_m _ _ _
  have hn1 : (keys es1).Nodup := by rw [e1]; exact nodup_news _ _ _ hn
  have e2 : es2 = if inv then ((es1.filter (·.req)).flatMap fun e => invDeps L e.m).foldl (modNew .inv) es1 else es1 := by
    show (if inv then _ else _) = _
    rw [foldl_flat (op := modNew .inv) (f := fun e : Ent => invDeps L e.m)]
  have hn2 : (keys es2).Nodup := by
    rw [e2]
    split
    · exact nodup_news _ _ _ hn1
    · exact hn1
  refine ⟨es1, es2, ?_, ?_, hn2, ?_, ?_⟩
  · intro k
    rw [e1, look_news]
    have : (k ∈ (mi.es.filter (·.new)).map Ent.m) ↔ ∃ e, look mi.es k = some e ∧ e.new = true := by
      simp only [List.mem_map, List.mem_filter]
      constructor
      · rintro ⟨e, ⟨he, hne⟩, rfl⟩
        exact ⟨e, mem_look hn he, hne⟩
      · rintro ⟨e, he, hne⟩
        exact ⟨e, ⟨look_mem he, hne⟩, look_m he⟩
    by_cases hk : ∃ e, look mi.es k = some e ∧ e.new = true
    · rw [if_pos (this.2 hk), if_pos hk]
      obtain ⟨e, he, _⟩ := hk
      rw [he]
      rfl
    · rw [if_neg (fun h => hk (this.1 h)), if_neg hk]
  · intro k
    rw [e2]
    cases inv with
    | false => simp
    | true =>
      simp only [if_true, true_and]
      rw [look_news]
      have : (k ∈ (es1.filter (·.req)).flatMap fun e => invDeps L e.m) ↔
          ∃ t e, look es1 t = some e ∧ e.req = true ∧ k ∈ invDeps L t := by
        simp only [List.mem_flatMap, List.mem_filter]
        constructor
        · rintro ⟨e, ⟨he, hr⟩, hk⟩
          exact ⟨e.m, e, mem_look hn1 he, hr, hk⟩
        · rintro ⟨t, e, he, hr, hk⟩
          exact ⟨e, ⟨look_mem he, hr⟩, (look_m he).symm ▸ hk⟩
      by_cases hk : ∃ t e, look es1 t = some e ∧ e.req = true ∧ k ∈ invDeps L t
      · rw [if_pos (this.2 hk), if_pos hk]
      · rw [if_neg (fun h => hk (this.1 h)), if_neg hk]
  · unfold consolidate
    rw [h]
    rfl
  · unfold consolidate
    rw [h]
    funext k
    show (if ((sort es2).any fun e => e.m = k && !e.data) = true then _ else _) = _
    have : ((sort es2).any fun e => e.m = k && !e.data) = true ↔ ∃ e, look es2 k = some e ∧ e.data = false := by
      simp only [List.any_eq_true, Bool.and_eq_true, decide_eq_true_eq, Bool.not_eq_true', (sort_perm es2).mem_iff]
      constructor
      · rintro ⟨e, he, rfl, hd⟩
        exact ⟨e, mem_look hn2 he, hd⟩
      · rintro ⟨e, he, hd⟩
        exact ⟨e, look_mem he, look_m he, hd⟩
    by_cases hk : ∃ e, look es2 k = some e ∧ e.data = false
    · rw [if_pos (this.2 hk), if_pos hk]
    · rw [if_neg (fun h => hk (this.1 h)), if_neg hk]

end Verif.Deps
