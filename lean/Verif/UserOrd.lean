/-!
Model of user-ordered (leaf-)lists: edit_diff.c 98-180 (`sr_edit_op`, the insert attributes), 433-446
(`sr_edit_find_previous_instance`), 720-765 (`sr_edit_userord_is_moved`), 776-815 (`sr_edit_find_userord_predicate`),
900-935 (`sr_edit_find` of a list instance), 1003-1085 (`sr_edit_insert`), 1602-1660 (`sr_edit_apply_move`), 1711-1735,
1822-1850, 1886-1900 (replace, create, merge of an instance), 2215-2238 (children of a replaced parent).

The state is the list of the instances of one user-ordered list in their order, identified by a number (keys or value).
libyang keeps the instances of one list next to each other, so other siblings are left out. Lists without keys, whose
anchors are positions, are left out.
-/
namespace Verif.UserOrd

/-- `enum insert_val`. -/
inductive Ins where
  | dflt | first | last | before | after
deriving DecidableEq

/-- Operations creating or moving instances. -/
inductive Op where
  | create | merge | replace
deriving DecidableEq

/-- A node of the edit: instance, operation, place and the anchor attribute. -/
structure Edit where
  x : Nat
  op : Op
  ins : Ins
  anchor : Option Nat

/-- `sr_edit_find_previous_instance`, edit_diff.c 433-446. -/
def prev : List Nat → Nat → Option Nat
  | [], _ => none
  | [_], _ => none
  | a :: b :: l, x => if a = x then none else if b = x then some a else prev (b :: l) x

/-- The next instance, edit_diff.c 746-756. -/
def next : List Nat → Nat → Option Nat
  | [], _ => none
  | [_], _ => none
  | a :: b :: l, x => if a = x then some b else next (b :: l) x

/-- `sr_edit_userord_is_moved`, edit_diff.c 720-765. -/
def isMoved (l : List Nat) (x : Nat) (ins : Ins) (anchor : Option Nat) : Bool :=
  match ins with
  | .dflt => false
  | .first | .after => prev l x ≠ anchor
  | .last | .before => next l x ≠ anchor

/-- `lyd_insert_before`. -/
def insertBefore (a x : Nat) : List Nat → List Nat
  | [] => []
  | b :: l => if b = a then x :: b :: l else b :: insertBefore a x l

/-- `lyd_insert_after`. -/
def insertAfter (a x : Nat) : List Nat → List Nat
  | [] => []
  | b :: l => if b = a then b :: x :: l else b :: insertAfter a x l

/-- `sr_edit_insert`, edit_diff.c 1003-1085: the instance is unlinked first, then the anchor is searched for. -/
def insert (l : List Nat) (x : Nat) (ins : Ins) (anchor : Option Nat) : Option (List Nat) :=
  let l := l.filter (· ≠ x)
  match ins with
  | .dflt | .last => some (l ++ [x])
  | .first => some (x :: l)
  | .before =>
    match anchor with
    | some a => if l.contains a then some (insertBefore a x l) else none
    | none => none
  | .after =>
    match anchor with
    | some a => if l.contains a then some (insertAfter a x l) else none
    | none => none

/-- An instance in the diff: created or moved, the instance it is put after, for a move also the one it was after. -/
inductive Diff where
  | created (x : Nat) (after : Option Nat)
  | moved (x : Nat) (after : Option Nat) (orig : Option Nat)
deriving DecidableEq

/-- `sr_edit_apply_move`, edit_diff.c 1602-1660. -/
def move (l : List Nat) (e : Edit) : Option (List Nat × Option Diff) :=
  match insert l e.x e.ins e.anchor with
  | none => none
  | some l' =>
    some (l', some (if l.contains e.x then .moved e.x (prev l' e.x) (prev l e.x) else .created e.x (prev l' e.x)))

/-- One instance in an edit, `sr_edit_apply_r` with `sr_edit_find`: `inRepl` is the previous instance in the edit if the
parent is being replaced. -/
def applyEdit (l : List Nat) (inRepl : Option (Option Nat)) (e : Edit) : Option (List Nat × Option Diff) :=
  -- edit_diff.c 165-170
  if (e.ins = .before ∨ e.ins = .after) ∧ e.anchor = none then none
  else if l.contains e.x then
    -- edit_diff.c 913-935
    match
      (match e.anchor with
      | some a => if l.contains a then some (e.ins, some a) else none
      | none =>
        match inRepl with
        | some (some a) => some (.after, some a)
        | some none => some (.first, none)
        | none => some (e.ins, none)) with
    | none => none
    | some (ins, anchor) =>
      if e.op = .create then none  -- edit_diff.c 1836-1845
      else if isMoved l e.x ins anchor then move l e
      else some (l, none)
  else move l e

/-- The instances of an edit of a parent that is not replaced, one after another. -/
def applyEdits : List Nat → List Edit → Option (List Nat × List Diff)
  | l, [] => some (l, [])
  | l, e :: es =>
    match applyEdit l none e with
    | none => none
    | some (l', d) =>
      match applyEdits l' es with
      | none => none
      | some (l'', ds) => some (l'', d.toList ++ ds)

/-- The instances in an edit of a replaced parent, without insert attributes, edit_diff.c 2215-2238: those not in the edit
are removed first, then the instances of the edit are applied one after another. `p` is the previous instance in the edit. -/
def replaceGo (l : List Nat) (p : Option Nat) : List Nat → Option (List Nat)
  | [] => some l
  | x :: xs =>
    match applyEdit l (some p) ⟨x, .replace, .dflt, none⟩ with
    | none => none
    | some (l', _) => replaceGo l' (some x) xs

/-- The children of one list of a replaced parent. -/
def replaceAll (l xs : List Nat) : Option (List Nat) := replaceGo (l.filter xs.contains) none xs

/-! ## Specification -/

/-- `x` is right before `a`. -/
def RightBefore (x a : Nat) (l : List Nat) : Prop := ∃ u w, l = u ++ x :: a :: w

/-- The instance is where the attributes say. -/
def Placed (x : Nat) (ins : Ins) (anchor : Option Nat) (l : List Nat) : Prop :=
  match ins, anchor with
  | .first, _ => ∃ w, l = x :: w
  | .last, _ => ∃ u, l = u ++ [x]
  | .before, some a => RightBefore x a l
  | .after, some a => RightBefore a x l
  | _, _ => True

/-- What a reader of the diff does: put the instance after the given one (or to the beginning). -/
def replay (l : List Nat) : Diff → List Nat
  | .created x p | .moved x p _ =>
    match p with
    | none => x :: l.filter (· ≠ x)
    | some a =>
      let k := l.filter (· ≠ x)
      k.takeWhile (· ≠ a) ++ [a, x] ++ (k.dropWhile (· ≠ a)).drop 1

/-- Reading one change of a diff backwards on the new order: a created instance is removed, a moved one is put back right
after `orig` (first if there is none). -/
def undo (l : List Nat) : Diff → List Nat
  | .created x _ => l.filter (· ≠ x)
  | .moved x _ none => x :: l.filter (· ≠ x)
  | .moved x _ (some a) =>
    let k := l.filter (· ≠ x)
    k.takeWhile (· ≠ a) ++ [a, x] ++ (k.dropWhile (· ≠ a)).drop 1

/-! ## Lemmas -/

theorem mem_split_nodup {l : List Nat} {a : Nat} (h : a ∈ l) : ∃ u w, l = u ++ a :: w ∧ a ∉ u := by
  induction l with
  | nil => simp at h
  | cons b l ih =>
    by_cases hb : b = a
    · exact ⟨[], l, by simp [hb], by simp⟩
    · obtain ⟨u, w, hu, hn⟩ := ih (by simpa [Ne.symm hb] using h)
      exact ⟨b :: u, w, by simp [hu], by simp [Ne.symm hb, hn]⟩

theorem insertBefore_split {u w : List Nat} {a x : Nat} (h : a ∉ u) :
    insertBefore a x (u ++ a :: w) = u ++ x :: a :: w := by
  induction u with
  | nil => simp [insertBefore]
  | cons b u ih =>
    simp only [List.mem_cons, not_or] at h
    simp [insertBefore, Ne.symm h.1, ih h.2]

theorem insertAfter_split {u w : List Nat} {a x : Nat} (h : a ∉ u) :
    insertAfter a x (u ++ a :: w) = u ++ a :: x :: w := by
  induction u with
  | nil => simp [insertAfter]
  | cons b u ih =>
    simp only [List.mem_cons, not_or] at h
    simp [insertAfter, Ne.symm h.1, ih h.2]

theorem prev_split (u w : List Nat) (a x : Nat) (h : x ∉ u) (hax : a ≠ x) : prev (u ++ a :: x :: w) x = some a := by
  induction u with
  | nil => simp [prev, hax]
  | cons b u ih =>
    simp only [List.mem_cons, not_or] at h
    cases u with
    | nil => simp [prev, Ne.symm h.1, hax] 
    | cons c u =>
      have hc : c ≠ x := by have := h.2; simp only [List.mem_cons, not_or] at this; exact Ne.symm this.1
      have := ih h.2
      simp only [List.cons_append] at this ⊢
      simp only [prev, Ne.symm h.1, hc, if_false]
      exact this

theorem prev_head (x : Nat) (w : List Nat) : prev (x :: w) x = none := by
  cases w <;> simp [prev]

theorem next_split (u w : List Nat) (a x : Nat) (h : x ∉ u) : next (u ++ x :: a :: w) x = some a := by
  induction u with
  | nil => simp [next]
  | cons b u ih =>
    simp only [List.mem_cons, not_or] at h
    have := ih h.2
    cases u with
    | nil => simp only [List.cons_append, List.nil_append, next, Ne.symm h.1, if_false] at this ⊢; simp
    | cons c u => simp only [List.cons_append, next, Ne.symm h.1, if_false] at this ⊢; exact this

theorem next_last (u : List Nat) (x : Nat) (h : x ∉ u) : next (u ++ [x]) x = none := by
  induction u with
  | nil => simp [next]
  | cons b u ih =>
    simp only [List.mem_cons, not_or] at h
    have := ih h.2
    cases u with
    | nil => simp [next, Ne.symm h.1]
    | cons c u => simp only [List.cons_append, next, Ne.symm h.1, if_false] at this ⊢; exact this

/-- Where the previous instance is. -/
theorem prev_spec {l : List Nat} {x : Nat} (hx : x ∈ l) :
    (prev l x = none → ∃ w, l = x :: w) ∧ (∀ a, prev l x = some a → RightBefore a x l) := by
  obtain ⟨u, w, rfl, hn⟩ := mem_split_nodup hx
  rcases List.eq_nil_or_concat u with rfl | ⟨u', b, rfl⟩
  · simp [prev_head]
  · simp only [List.concat_eq_append, List.mem_append, List.mem_singleton, not_or, List.append_assoc, List.cons_append,
      List.nil_append] at hn ⊢
    have := prev_split u' w b x hn.1 (Ne.symm hn.2)
    simp only [this, reduceCtorEq, false_implies, true_and, Option.some.injEq]
    rintro a rfl
    exact ⟨u', w, rfl⟩

theorem next_spec {l : List Nat} {x : Nat} (hx : x ∈ l) :
    (next l x = none → ∃ u, l = u ++ [x]) ∧ (∀ a, next l x = some a → RightBefore x a l) := by
  obtain ⟨u, w, rfl, hn⟩ := mem_split_nodup hx
  cases w with
  | nil => rw [next_last u x hn]; simp
  | cons b w =>
    rw [next_split u w b x hn]
    simp only [reduceCtorEq, false_implies, true_and, Option.some.injEq]
    rintro a rfl
    exact ⟨u, w, rfl⟩

theorem filter_insert {l l' : List Nat} {x : Nat} {ins : Ins} {anchor : Option Nat} (h : insert l x ins anchor = some l') :
    l'.filter (· ≠ x) = l.filter (· ≠ x) ∧ x ∈ l' ∧ Placed x ins anchor l' ∧ (ins = .dflt → ∃ u, l' = u ++ [x]) ∧
      ((ins = .before ∨ ins = .after) → ∃ a, anchor = some a ∧ a ∈ l ∧ a ≠ x) ∧
      ∃ u w, l.filter (· ≠ x) = u ++ w ∧ l' = u ++ x :: w := by
  have hff : (l.filter (· ≠ x)).filter (· ≠ x) = l.filter (· ≠ x) := by simp [List.filter_filter]
  have hx : x ∉ l.filter (· ≠ x) := by simp
  generalize hk : l.filter (· ≠ x) = k at *
  have hkl : ∀ a, a ∈ k → a ∈ l ∧ a ≠ x := by intro a ha; rw [← hk] at ha; simpa using ha
  have key : ∀ u w, k = u ++ w → (u ++ x :: w).filter (· ≠ x) = k := by
    intro u w he
    rw [List.filter_append, List.filter_cons]
    simp only [ne_eq, not_true_eq_false, decide_false, Bool.false_eq_true, if_false]
    rw [← List.filter_append, ← he]; exact hff
  simp only [insert, hk] at h
  cases ins with
  | dflt =>
    simp only [Option.some.injEq] at h; subst h
    exact ⟨key k [] (by simp), by simp, by simp [Placed], fun _ => ⟨k, rfl⟩, by simp, k, [], by simp, rfl⟩
  | last =>
    simp only [Option.some.injEq] at h; subst h
    exact ⟨key k [] (by simp), by simp, ⟨k, rfl⟩, by simp, by simp, k, [], by simp, rfl⟩
  | first =>
    simp only [Option.some.injEq] at h; subst h
    exact ⟨key [] k (by simp), by simp, ⟨k, rfl⟩, by simp, by simp, [], k, by simp, rfl⟩
  | before =>
    cases anchor with
    | none => simp at h
    | some a =>
      simp only at h
      split at h
      · rename_i hc
        have hc' : a ∈ k := by simpa using hc
        simp only [Option.some.injEq] at h; subst h
        obtain ⟨u, w, hu, hn⟩ := mem_split_nodup hc'
        rw [hu, insertBefore_split hn, ← hu]
        exact ⟨key u (a :: w) hu, by simp, ⟨u, w, rfl⟩, by simp, fun _ => ⟨a, rfl, hkl a hc'⟩, u, a :: w, hu, rfl⟩
      · simp at h
  | after =>
    cases anchor with
    | none => simp at h
    | some a =>
      simp only at h
      split at h
      · rename_i hc
        have hc' : a ∈ k := by simpa using hc
        simp only [Option.some.injEq] at h; subst h
        obtain ⟨u, w, hu, hn⟩ := mem_split_nodup hc'
        rw [hu, insertAfter_split hn, ← hu]
        have e1 : u ++ a :: x :: w = (u ++ [a]) ++ x :: w := by simp
        exact ⟨e1 ▸ key (u ++ [a]) w (by simp [hu]), by simp, ⟨u, w, rfl⟩, by simp, fun _ => ⟨a, rfl, hkl a hc'⟩, u ++ [a], w,
          by simp [hu], by simp⟩
      · simp at h

/-- Reading a diff node made from the new list. -/
theorem replay_prev {l l' u w : List Nat} {x : Nat} (hl : l.filter (· ≠ x) = u ++ w) (hl' : l' = u ++ x :: w)
    (hn : (u ++ w).Nodup) :
    replay l (.created x (prev l' x)) = l' ∧ ∀ o, replay l (.moved x (prev l' x) o) = l' := by
  have hxu : x ∉ u ++ w := by rw [← hl]; simp
  simp only [List.mem_append, not_or] at hxu
  suffices h : replay l (.created x (prev l' x)) = l' by
    refine ⟨h, fun o => ?_⟩
    simpa [replay] using h
  subst hl'
  rcases List.eq_nil_or_concat u with rfl | ⟨u', b, rfl⟩
  · simp only [List.nil_append] at hl ⊢
    simp only [prev_head, replay, hl]
  · simp only [List.concat_eq_append, List.mem_append, List.mem_singleton, not_or, List.append_assoc, List.cons_append,
      List.nil_append] at hxu hl hn ⊢
    rw [prev_split u' w b x hxu.1.1 (Ne.symm hxu.1.2)]
    simp only [replay, hl]
    have hbu : b ∉ u' := by
      rw [List.nodup_append] at hn
      intro hb; exact hn.2.2 b hb b (by simp) rfl
    have h1 : (u' ++ b :: w).takeWhile (· ≠ b) = u' := by
      rw [List.takeWhile_append_of_pos (by intro y hy; simp; rintro rfl; exact hbu hy)]
      simp
    have h2 : (u' ++ b :: w).dropWhile (· ≠ b) = b :: w := by
      rw [List.dropWhile_append_of_pos (by intro y hy; simp; rintro rfl; exact hbu hy)]
      simp
    rw [h1, h2]; simp

theorem nodup_insert {l u w : List Nat} {x : Nat} (hn : l.Nodup) (hl : l.filter (· ≠ x) = u ++ w) : (u ++ x :: w).Nodup := by
  have h1 : (u ++ w).Nodup := by rw [← hl]; exact hn.sublist List.filter_sublist
  have h2 : x ∉ u ++ w := by rw [← hl]; simp
  rw [List.nodup_append] at h1 ⊢
  simp only [List.mem_append, not_or] at h2
  refine ⟨h1.1, ?_, ?_⟩
  · rw [List.nodup_cons]; exact ⟨h2.2, h1.2.1⟩
  · intro a ha b hb
    rcases List.mem_cons.mp hb with rfl | hb
    · rintro rfl; exact h2.1 ha
    · exact h1.2.2 a ha b hb

end Verif.UserOrd
