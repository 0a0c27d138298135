import Verif.UserOrd
/-!
C19: user-ordered lists. Specification: `Placed`, `RightBefore`, `replay` in `Verif.UserOrd`; "the others keep their
order" is equality of the lists without the instance.
-/
namespace Verif.UserOrd

/-- The attributes are as RFC 7950 (7.8.6) requires: an anchor exactly with before and after. -/
def Proper (e : Edit) : Prop := e.anchor = none ↔ ¬ (e.ins = .before ∨ e.ins = .after)

theorem isMoved_false {l : List Nat} {x : Nat} {ins : Ins} {anchor : Option Nat} (hx : x ∈ l)
    (hp : anchor = none ↔ ¬ (ins = .before ∨ ins = .after)) (h : isMoved l x ins anchor = false) : Placed x ins anchor l := by
  have hps := prev_spec hx
  have hns := next_spec hx
  cases ins with
  | dflt => simp [Placed]
  | first =>
    have ha : anchor = none := hp.mpr (by simp)
    subst ha
    exact hps.1 (by simpa [isMoved] using h)
  | last =>
    have ha : anchor = none := hp.mpr (by simp)
    subst ha
    exact hns.1 (by simpa [isMoved] using h)
  | before =>
    cases anchor with
    | none => simp at hp
    | some a => exact hns.2 a (by simpa [isMoved] using h)
  | after =>
    cases anchor with
    | none => simp at hp
    | some a => exact hps.2 a (by simpa [isMoved] using h)

theorem isMoved_true {l : List Nat} {x : Nat} {ins : Ins} {anchor : Option Nat} (hn : l.Nodup)
    (hp : anchor = none ↔ ¬ (ins = .before ∨ ins = .after)) (h : isMoved l x ins anchor = true) : ¬ Placed x ins anchor l := by
  intro hpl
  have hsplit : ∀ u w : List Nat, (u ++ x :: w).Nodup → x ∉ u := by
    intro u w hn hu
    rw [List.nodup_append] at hn
    exact hn.2.2 x hu x (by simp) rfl
  cases ins with
  | dflt => simp [isMoved] at h
  | first =>
    have ha : anchor = none := hp.mpr (by simp)
    subst ha
    obtain ⟨w, rfl⟩ := hpl
    simp [isMoved, prev_head] at h
  | last =>
    have ha : anchor = none := hp.mpr (by simp)
    subst ha
    obtain ⟨u, rfl⟩ := hpl
    simp [isMoved, next_last u x (hsplit u [] hn)] at h
  | before =>
    cases anchor with
    | none => simp at hp
    | some a =>
      obtain ⟨u, w, rfl⟩ := hpl
      simp [isMoved, next_split u w a x (hsplit u _ hn)] at h
  | after =>
    cases anchor with
    | none => simp at hp
    | some a =>
      obtain ⟨u, w, rfl⟩ := hpl
      have e1 : u ++ a :: x :: w = (u ++ [a]) ++ x :: w := by simp
      have h1 := hsplit (u ++ [a]) w (e1 ▸ hn)
      simp only [List.mem_append, List.mem_singleton, not_or] at h1
      simp [isMoved, prev_split u w a x h1.1 (Ne.symm h1.2)] at h

/-- What a successful `applyEdit` was. -/
theorem applyEdit_cases {l l' : List Nat} {e : Edit} {d : Option Diff} (hp : Proper e) (h : applyEdit l none e = some (l', d)) :
    (e.x ∈ l ∧ e.op ≠ .create ∧ isMoved l e.x e.ins e.anchor = false ∧ l' = l ∧ d = none) ∨
    (insert l e.x e.ins e.anchor = some l' ∧ (e.x ∈ l → e.op ≠ .create ∧ isMoved l e.x e.ins e.anchor = true) ∧
      d = some (if l.contains e.x then .moved e.x (prev l' e.x) (prev l e.x) else .created e.x (prev l' e.x))) := by
  simp only [applyEdit] at h
  split at h
  · simp at h
  have hmove : ∀ {r}, move l e = some r → r = (l', d) → insert l e.x e.ins e.anchor = some l' ∧
      d = some (if l.contains e.x then .moved e.x (prev l' e.x) (prev l e.x) else .created e.x (prev l' e.x)) := by
    intro r hm hr
    simp only [move] at hm
    split at hm
    · simp at hm
    · rename_i k hk
      simp only [Option.some.injEq] at hm
      rw [← hm, Prod.mk.injEq] at hr
      obtain ⟨rfl, rfl⟩ := hr
      exact ⟨hk, rfl⟩
  by_cases hx : l.contains e.x = true
  · rw [if_pos hx] at h
    have hx' : e.x ∈ l := by simpa using hx
    split at h
    · simp at h
    rename_i ins anchor hm
    have hia : ins = e.ins ∧ anchor = e.anchor := by
      cases ha : e.anchor with
      | none => simp only [ha, Option.some.injEq, Prod.mk.injEq] at hm; exact ⟨hm.1.symm, hm.2.symm⟩
      | some a =>
        simp only [ha] at hm
        split at hm
        · simp only [Option.some.injEq, Prod.mk.injEq] at hm; exact ⟨hm.1.symm, hm.2.symm⟩
        · simp at hm
    obtain ⟨rfl, rfl⟩ := hia
    split at h
    · simp at h
    rename_i hop
    split at h
    · rename_i hmv
      right
      obtain ⟨h1, h2⟩ := hmove h rfl
      exact ⟨h1, fun _ => ⟨hop, hmv⟩, h2⟩
    · rename_i hmv
      left
      simp only [Option.some.injEq, Prod.mk.injEq] at h
      exact ⟨hx', hop, by simpa using hmv, h.1.symm, h.2.symm⟩
  · rw [if_neg hx] at h
    right
    obtain ⟨h1, h2⟩ := hmove h rfl
    exact ⟨h1, fun hx' => absurd (by simpa using hx') hx, h2⟩

/-- C19. An accepted instance is exactly where it was asked to be and all the other instances keep their order. Without an
insert attribute an existing instance stays and a new one is last. -/
theorem lands_there (l l' : List Nat) (e : Edit) (d : Option Diff) (hn : l.Nodup) (hp : Proper e)
    (h : applyEdit l none e = some (l', d)) :
    e.x ∈ l' ∧ Placed e.x e.ins e.anchor l' ∧ l'.filter (· ≠ e.x) = l.filter (· ≠ e.x) ∧ l'.Nodup ∧
    (e.ins = .dflt → e.x ∈ l → l' = l) ∧ (e.ins = .dflt → e.x ∉ l → ∃ u, l' = u ++ [e.x]) := by
  rcases applyEdit_cases hp h with ⟨hx, _, hm, rfl, _⟩ | ⟨hi, hm, _⟩
  · exact ⟨hx, isMoved_false hx hp hm, rfl, hn, fun _ _ => rfl, fun _ h => absurd hx h⟩
  · obtain ⟨h1, h2, h3, h4, h5, u, w, h6, rfl⟩ := filter_insert hi
    refine ⟨h2, h3, h1, nodup_insert hn h6, ?_, fun h _ => h4 h⟩
    intro hd hx
    have := (hm hx).2
    simp [isMoved, hd] at this

/-- C19. An instance is refused exactly if it is to be created and exists, or its anchor is missing (not given, not in the
list or the instance itself). -/
theorem refused_iff (l : List Nat) (e : Edit) (hn : l.Nodup) (hp : Proper e ∨ e.anchor = none) :
    applyEdit l none e = none ↔
      (e.op = .create ∧ e.x ∈ l) ∨
      ((e.ins = .before ∨ e.ins = .after) ∧ ∀ a, e.anchor = some a → a ∉ l ∨ a = e.x) := by
  constructor
  · intro h
    simp only [applyEdit] at h
    split at h
    · rename_i hc
      right; exact ⟨hc.1, fun a ha => by simp [hc.2] at ha⟩
    rename_i hc
    have hins : insert l e.x e.ins e.anchor = none → (e.ins = .before ∨ e.ins = .after) ∧ ∀ a, e.anchor = some a → a ∉ l ∨ a = e.x := by
      intro hi
      simp only [insert] at hi
      split at hi
      all_goals first | (simp at hi; done) | skip
      all_goals
        rename_i hb
        refine ⟨by simp [hb], fun a ha => ?_⟩
        rw [ha] at hi
        simp only at hi
        split at hi
        · simp at hi
        · rename_i hcc
          simp only [List.contains_iff_mem, List.mem_filter, decide_eq_true_eq, not_and, Classical.not_not] at hcc
          by_cases hal : a ∈ l
          · right; exact hcc hal
          · left; exact hal
    have hmv : move l e = none → insert l e.x e.ins e.anchor = none := by
      intro hm; simp only [move] at hm; split at hm
      · assumption
      · simp at hm
    split at h
    · rename_i hx
      split at h
      · rename_i hm
        cases ha : e.anchor with
        | none => simp [ha] at hm
        | some a =>
          have hb : e.ins = .before ∨ e.ins = .after := by
            rcases hp with hp | hp
            · exact Classical.not_not.mp (fun hb => by have := hp.mpr hb; simp [this] at ha)
            · simp [hp] at ha
          simp only [ha] at hm
          split at hm
          · simp at hm
          · rename_i hal
            right
            refine ⟨hb, fun b hb' => ?_⟩
            simp only [Option.some.injEq] at hb'
            subst hb'; left; simpa using hal
      · split at h
        · rename_i hop
          left; exact ⟨hop, by simpa using hx⟩
        · split at h
          · right; exact hins (hmv h)
          · simp at h
    · right; exact hins (hmv h)
  · intro h
    cases hr : applyEdit l none e with
    | none => rfl
    | some r =>
      exfalso
      obtain ⟨l', d⟩ := r
      have hp' : Proper e := by
        rcases hp with hp | hp
        · exact hp
        · simp only [applyEdit] at hr
          split at hr
          · simp at hr
          · rename_i hc
            exact ⟨fun _ hb => hc ⟨hb, hp⟩, fun _ => hp⟩
      rcases applyEdit_cases hp' hr with ⟨hx, hop, hm, rfl, _⟩ | ⟨hi, hm, _⟩
      · rcases h with h | ⟨hb, ha⟩
        · exact hop h.1
        · have hpl := isMoved_false hx hp' hm
          cases han : e.anchor with
          | none => exact hp'.mp han hb
          | some a =>
            have hor := ha a han
            have hsp : ∃ u w : List Nat, l' = u ++ e.x :: a :: w ∨ l' = u ++ a :: e.x :: w := by
              rw [han] at hpl
              rcases hb with hb | hb <;> rw [hb] at hpl <;> obtain ⟨u, w, h⟩ := hpl
              · exact ⟨u, w, .inl h⟩
              · exact ⟨u, w, .inr h⟩
            obtain ⟨u, w, hsp⟩ := hsp
            rcases hor with hor | hor
            · rcases hsp with h | h <;> rw [h] at hor <;> simp at hor
            · rcases hsp with h | h <;> rw [h, List.nodup_append] at hn <;> simp [hor] at hn
      · rcases h with h | ⟨hb, ha⟩
        · exact (hm h.2).1 h.1
        · obtain ⟨_, _, _, _, h5, _⟩ := filter_insert hi
          obtain ⟨a, h1, h2, h3⟩ := h5 hb
          rcases ha a h1 with h | h
          · exact h h2
          · exact h3 h

/-- C19 with C18. The reported change read on the old order gives the new order; nothing is reported exactly if the order is
the same. -/
theorem order_reported (l l' : List Nat) (e : Edit) (d : Option Diff) (hn : l.Nodup) (hp : Proper e)
    (h : applyEdit l none e = some (l', d)) : d.elim l (replay l) = l' ∧ (d = none ↔ l' = l) := by
  rcases applyEdit_cases hp h with ⟨hx, _, hm, rfl, rfl⟩ | ⟨hi, hm, rfl⟩
  · simp
  · obtain ⟨h1, h2, h3, h4, h5, u, w, h6, h7⟩ := filter_insert hi
    have hnd : (u ++ w).Nodup := by rw [← h6]; exact hn.sublist List.filter_sublist
    have hr := replay_prev h6 h7 hnd
    refine ⟨?_, by simp, ?_⟩
    · simp only [Option.elim_some]
      split
      · exact hr.2 _
      · exact hr.1
    · intro he
      exfalso
      subst he
      have := hm h2
      exact isMoved_true hn hp this.2 h3

/-- C19 with C18. The reported change read backwards on the new order gives the old order: the previous place is reported
correctly and only a new instance is reported as created. -/
theorem order_undone (l l' : List Nat) (e : Edit) (d : Diff) (hn : l.Nodup) (hp : Proper e)
    (h : applyEdit l none e = some (l', some d)) : undo l' d = l := by
  rcases applyEdit_cases hp h with ⟨_, _, _, _, hd⟩ | ⟨hi, hm, hd⟩
  · simp at hd
  · obtain ⟨h1, h2, h3, h4, h5, u, w, h6, h7⟩ := filter_insert hi
    simp only [Option.some.injEq] at hd
    subst hd
    by_cases hx : e.x ∈ l
    · obtain ⟨a, b, hs, ha⟩ := mem_split_nodup hx
      have hb : e.x ∉ b := by
        rw [hs, List.nodup_append] at hn
        have := hn.2.1
        rw [List.nodup_cons] at this
        exact this.1
      have hf : ∀ k : List Nat, e.x ∉ k → k.filter (· ≠ e.x) = k := by
        intro k hk
        rw [List.filter_eq_self]
        intro y hy; simp only [ne_eq, decide_eq_true_eq]; rintro rfl; exact hk hy
      have hfl : l.filter (· ≠ e.x) = a ++ b := by
        rw [hs, List.filter_append, List.filter_cons, hf a ha, hf b hb]; simp
      have hr := replay_prev (l := l') (h1.trans hfl) hs (by rw [← hfl]; exact hn.sublist List.filter_sublist)
      have hc : l.contains e.x = true := by simpa using hx
      rw [if_pos hc]
      have := hr.1
      cases hpv : prev l e.x <;> rw [hpv] at this <;> simpa [undo, replay] using this
    · have hc : l.contains e.x = false := by simpa using hx
      simp only [hc, Bool.false_eq_true, if_false, undo]
      rw [h1, List.filter_eq_self]
      intro y hy; simp only [ne_eq, decide_eq_true_eq]; rintro rfl; exact hx hy

/-- Reading a whole diff. -/
def replays (l : List Nat) (ds : List Diff) : List Nat := ds.foldl replay l

/-- C19 with C18, for any number of instances in one edit. -/
theorem orders_reported (es : List Edit) : ∀ (l l' : List Nat) (ds : List Diff), l.Nodup → (∀ e ∈ es, Proper e) →
    applyEdits l es = some (l', ds) → replays l ds = l' ∧ l'.Nodup := by
  induction es with
  | nil =>
    intro l l' ds hn _ h
    simp only [applyEdits, Option.some.injEq, Prod.mk.injEq] at h
    obtain ⟨rfl, rfl⟩ := h
    exact ⟨rfl, hn⟩
  | cons e es ih =>
    intro l l' ds hn hp h
    simp only [applyEdits] at h
    cases h1 : applyEdit l none e with
    | none => simp [h1] at h
    | some r =>
      obtain ⟨l1, d⟩ := r
      cases h2 : applyEdits l1 es with
      | none => simp [h1, h2] at h
      | some r2 =>
        obtain ⟨l2, ds2⟩ := r2
        simp only [h1, h2, Option.some.injEq, Prod.mk.injEq] at h
        obtain ⟨rfl, rfl⟩ := h
        have a := lands_there l l1 e d hn (hp e (by simp)) h1
        have b := order_reported l l1 e d hn (hp e (by simp)) h1
        have c := ih l1 l2 ds2 a.2.2.2.1 (fun e he => hp e (by simp [he])) h2
        refine ⟨?_, c.2⟩
        have := b.1
        cases d with
        | none => simp only [Option.elim_none] at this; subst this; simpa using c.1
        | some d => simp only [Option.elim_some] at this; subst this; simpa [replays] using c.1

/-- The order while the instances of a replaced parent are applied. -/
theorem replaceGo_order (xs : List Nat) : ∀ (a u b : List Nat) (p : Option Nat), (a ++ u ++ b).Nodup →
    p = (a ++ b).getLast? → (∀ y ∈ u, y ∈ xs) → (∀ y ∈ xs, y ∉ a ++ b) → xs.Nodup →
    replaceGo (a ++ u ++ b) p xs = some (a ++ b ++ xs) := by
  induction xs with
  | nil =>
    intro a u b p hn hp hu _ _
    have : u = [] := by
      cases u with
      | nil => rfl
      | cons y u => exact absurd (hu y (by simp)) (by simp)
    simp [replaceGo, this]
  | cons x xs ih =>
    intro a u b p hn hp hu hx hxs
    have hxab := hx x (by simp)
    rw [List.nodup_cons] at hxs
    have hxa : x ∉ a := fun h => hxab (by simp [h])
    have hxb : x ∉ b := fun h => hxab (by simp [h])
    by_cases hxu : x ∈ u
    · obtain ⟨u1, u2, rfl, hn1⟩ := mem_split_nodup hxu
      have hn2 : x ∉ u2 := by
        intro h
        have h1 : (u1 ++ x :: u2).Nodup := by
          refine hn.sublist ?_
          exact (List.sublist_append_right a _).trans (List.sublist_append_left _ b)
        rw [List.nodup_append] at h1
        have := h1.2.1
        rw [List.nodup_cons] at this
        exact this.1 h
      have hmem : x ∈ a ++ (u1 ++ x :: u2) ++ b := by simp
      have hfil : (a ++ (u1 ++ x :: u2) ++ b).filter (· ≠ x) = a ++ (u1 ++ u2) ++ b := by
        have hf : ∀ k : List Nat, x ∉ k → k.filter (· ≠ x) = k := by
          intro k hk
          rw [List.filter_eq_self]
          intro y hy; simp; rintro rfl; exact hk hy
        rw [List.filter_append, List.filter_append, List.filter_append, hf a hxa, hf b hxb, hf u1 hn1, List.filter_cons,
          hf u2 hn2]
        simp
      -- moving to the end
      have hmoved : prev (a ++ (u1 ++ x :: u2) ++ b) x ≠ p →
          replaceGo (a ++ (u1 ++ x :: u2) ++ b) p (x :: xs) = some (a ++ b ++ x :: xs) := by
        intro hpr
        have hap : ∃ d, applyEdit (a ++ (u1 ++ x :: u2) ++ b) (some p) ⟨x, .replace, .dflt, none⟩ =
            some (a ++ (u1 ++ u2) ++ (b ++ [x]), d) := by
          have hmv : ∃ d, move (a ++ (u1 ++ x :: u2) ++ b) ⟨x, .replace, .dflt, none⟩ = some (a ++ (u1 ++ u2) ++ (b ++ [x]), d) := by
            refine ⟨some (if (a ++ (u1 ++ x :: u2) ++ b).contains x
              then .moved x (prev (a ++ (u1 ++ u2) ++ (b ++ [x])) x) (prev (a ++ (u1 ++ x :: u2) ++ b) x)
              else .created x (prev (a ++ (u1 ++ u2) ++ (b ++ [x])) x)), ?_⟩
            simp only [move, insert, hfil]
            simp only [List.append_assoc]
          obtain ⟨d, hd⟩ := hmv
          refine ⟨d, ?_⟩
          rw [← hd]
          cases p <;> simp [applyEdit, isMoved] at hpr ⊢ <;> intro h <;> exact absurd h (by simpa using hpr)
        obtain ⟨d, hd⟩ := hap
        simp only [replaceGo, hd]
        have := ih a (u1 ++ u2) (b ++ [x]) (some x) ?_ ?_ ?_ ?_ hxs.2
        · simpa using this
        · have hs := nodup_insert (x := x) (u := a ++ (u1 ++ u2) ++ b) (w := []) hn (by rw [hfil]; simp)
          simpa using hs
        · simp [← List.append_assoc]
        · intro y hy
          have : y ∈ x :: xs := hu y (by rcases List.mem_append.mp hy with h | h <;> simp [h])
          rcases List.mem_cons.mp this with rfl | h
          · simp at hy; exact absurd hy (by simp [hn1, hn2])
          · exact h
        · intro y hy
          have h1 := hx y (by simp [hy])
          have : y ≠ x := fun h => hxs.1 (h ▸ hy)
          simp at h1 ⊢; exact ⟨h1.1, h1.2, this⟩
      by_cases hst : u1 = [] ∧ b = []
      · obtain ⟨rfl, rfl⟩ := hst
        have hpr : prev (a ++ x :: u2) x = p := by
          rcases List.eq_nil_or_concat a with rfl | ⟨a', c, rfl⟩
          · simp [prev_head, hp]
          · simp only [List.concat_eq_append, List.mem_append, List.mem_singleton, not_or, List.append_assoc,
              List.cons_append, List.nil_append, List.append_nil] at hxa hp ⊢
            rw [prev_split a' u2 c x hxa.1 (Ne.symm hxa.2), hp]
            simp
        have hap : applyEdit (a ++ ([] ++ x :: u2) ++ []) (some p) ⟨x, .replace, .dflt, none⟩ = some (a ++ [x] ++ u2 ++ [], none) := by
          cases p <;> simp [applyEdit, isMoved, hpr]
        simp only [replaceGo, hap]
        have := ih (a ++ [x]) u2 [] (some x) ?_ (by simp) ?_ ?_ hxs.2
        · simpa using this
        · simpa using hn
        · intro y hy
          rcases List.mem_cons.mp (hu y (by simp [hy])) with rfl | h
          · exact absurd hy hn2
          · exact h
        · intro y hy
          have h1 := hx y (by simp [hy])
          have : y ≠ x := fun h => hxs.1 (h ▸ hy)
          simp at h1 ⊢; exact ⟨h1, this⟩
      · apply hmoved
        rw [hp]
        intro hpr
        rcases List.eq_nil_or_concat u1 with rfl | ⟨u1', c, rfl⟩
        · have hb : b ≠ [] := fun h => hst ⟨rfl, h⟩
          obtain ⟨b', z, rfl⟩ : ∃ b' z, b = b' ++ [z] := ⟨_, _, (List.dropLast_concat_getLast hb).symm⟩
          have hlast : (a ++ (b' ++ [z])).getLast? = some z := by simp [← List.append_assoc]
          rw [hlast] at hpr
          have hza : z ∉ a := by
            intro hz
            rw [List.append_assoc, List.nodup_append] at hn
            exact hn.2.2 z hz z (by simp) rfl
          rcases List.eq_nil_or_concat a with rfl | ⟨a', c, rfl⟩
          · simp [prev_head] at hpr
          · simp only [List.concat_eq_append, List.mem_append, List.mem_singleton, not_or, List.append_assoc,
              List.cons_append, List.nil_append] at hxa hpr hza
            rw [prev_split a' _ c x hxa.1 (Ne.symm hxa.2)] at hpr
            simp only [Option.some.injEq] at hpr
            exact hza.2 hpr.symm
        · simp only [List.concat_eq_append, List.mem_append, List.mem_singleton, not_or] at hn1
          have e1 : a ++ (u1'.concat c ++ x :: u2) ++ b = (a ++ u1') ++ c :: x :: (u2 ++ b) := by simp
          rw [e1, prev_split (a ++ u1') _ c x (by simp [hxa, hn1.1]) (Ne.symm hn1.2)] at hpr
          have hc : c ∈ a ++ b := List.mem_of_getLast? hpr.symm
          rw [e1, List.nodup_append] at hn
          rcases List.mem_append.mp hc with hc | hc
          · exact hn.2.2 c (by simp [hc]) c (by simp) rfl
          · have := hn.2.1
            simp [hc] at this
    · -- a new instance
      have hnx : x ∉ a ++ u ++ b := by simp [hxa, hxu, hxb]
      have hfil : (a ++ u ++ b).filter (· ≠ x) = a ++ u ++ b := by
        rw [List.filter_eq_self]
        intro y hy; simp only [ne_eq, decide_eq_true_eq]; rintro rfl; exact hnx hy
      have hap : ∃ d, applyEdit (a ++ u ++ b) (some p) ⟨x, .replace, .dflt, none⟩ = some (a ++ u ++ (b ++ [x]), d) := by
        have hc : (a ++ u ++ b).contains x = false := by simpa using hnx
        simp only [applyEdit, reduceCtorEq, or_self, false_and, if_false, hc, Bool.false_eq_true, move, insert, hfil]
        exact ⟨some (.created x (prev (a ++ u ++ (b ++ [x])) x)), by simp⟩
      obtain ⟨d, hd⟩ := hap
      simp only [replaceGo, hd]
      have := ih a u (b ++ [x]) (some x) ?_ ?_ ?_ ?_ hxs.2
      · simpa using this
      · have hs := nodup_insert (x := x) (u := a ++ u ++ b) (w := []) hn (by rw [hfil]; simp)
        simpa using hs
      · simp [← List.append_assoc]
      · intro y hy
        rcases List.mem_cons.mp (hu y hy) with rfl | h
        · exact absurd hy hxu
        · exact h
      · intro y hy
        have h1 := hx y (by simp [hy])
        have : y ≠ x := fun h => hxs.1 (h ▸ hy)
        simp at h1 ⊢; exact ⟨h1.1, h1.2, this⟩

/-- C19. Replacing a parent gives exactly the instances of the edit in the order of the edit. -/
theorem replaced_order (l xs : List Nat) (hl : l.Nodup) (hxs : xs.Nodup) : replaceAll l xs = some xs := by
  have := replaceGo_order xs [] (l.filter xs.contains) [] none
    (by simpa using hl.sublist List.filter_sublist) (by simp) (fun y hy => by simpa using (List.mem_filter.mp hy).2)
    (by simp) hxs
  simpa [replaceAll] using this

/-! ### Examples and witnesses -/

/-- Moving, creating and not moving; the anchor may not be the instance itself. -/
example : applyEdit [1, 2, 3] none ⟨1, .merge, .after, some 3⟩ = some ([2, 3, 1], some (.moved 1 (some 3) none)) ∧
    applyEdit [1, 2, 3] none ⟨4, .create, .before, some 1⟩ = some ([4, 1, 2, 3], some (.created 4 none)) ∧
    applyEdit [1, 2, 3] none ⟨2, .merge, .after, some 1⟩ = some ([1, 2, 3], none) ∧
    applyEdit [1, 2, 3] none ⟨2, .merge, .after, some 2⟩ = none ∧ Proper ⟨1, .merge, .after, some 3⟩ := by
  simp [Proper]; decide

example : replaceAll [1, 2, 3, 5, 4] [4, 9, 3, 1] = some [4, 9, 3, 1] := by decide

example : applyEdits [1, 2, 3] [⟨3, .merge, .first, none⟩, ⟨2, .merge, .last, none⟩] =
    some ([3, 1, 2], [.moved 3 none (some 2)]) := by decide

/-- Finding: with an anchor attribute beside insert "first" (not allowed by RFC 7950, not checked), an instance right after
that anchor is not moved. -/
theorem stray_anchor_not_moved : applyEdit [1, 2, 3] none ⟨2, .merge, .first, some 1⟩ = some ([1, 2, 3], none) := by decide

end Verif.UserOrd
