import Verif.OperPush
/-!
# C12: operational push order is a strict order and changes only what was asked

The full claim ("setting a session's order changes only that session's entry and keeps the strict order")
is false of the code: every call that raises the order of an existing entry damages the list
(`raise_order_always_breaks`), and the generated order wraps around (`generated_order_wraps`).
Proved: everything else (`update_partial`, `history_partial`, `del_removes_only`).
-/
namespace Verif.OperPush

/-- The call does not raise the order of an existing entry. -/
def NoRaise (l : List Entry) (sid order : Nat) : Prop :=
  order = 0 ∨ ∀ e ∈ l, e.sid = sid → order ≤ e.order

/-- The generated order fits 32 bits. -/
def NoWrap (l : List Entry) : Prop := ∀ e ∈ l, e.order + 1 < 4294967296

/-- A session belongs to one connection. -/
def Owned (l : List Entry) (cid sid : Nat) : Prop := ∀ e ∈ l, e.sid = sid → e.cid = cid

/-- The order a successful call has to give to the session: the requested one; for 0 the current one, or
one higher than all others for a new session (1 for the first). -/
def OrderGiven (l : List Entry) (sid order new : Nat) : Prop :=
  (order ≠ 0 → new = order) ∧
  (order = 0 → (∀ e ∈ l, e.sid = sid → new = e.order) ∧
    ((∀ e ∈ l, e.sid ≠ sid) → (∀ e ∈ l, e.order < new) ∧ (l = [] → new = 1)))

/-- The has-data flag a successful call has to give: the passed one, else the current one (none for new). -/
def DataGiven (l : List Entry) (sid : Nat) (hd : Option Bool) (new : Bool) : Prop :=
  (∀ b, hd = some b → new = b) ∧
  (hd = none → (∀ e ∈ l, e.sid = sid → new = e.hasData) ∧ ((∀ e ∈ l, e.sid ≠ sid) → new = false))

theorem ordered_split {pre post : List Entry} {e : Entry} (h : Ordered (pre ++ e :: post)) :
    (∀ x ∈ pre, x.sid ≠ e.sid) ∧ (∀ x ∈ post, x.sid ≠ e.sid) ∧
    (∀ x ∈ pre, x.order < e.order) ∧ (∀ x ∈ post, e.order < x.order) := by
  obtain ⟨h1, h2, _⟩ := h
  rw [List.pairwise_append, List.pairwise_cons] at h1 h2
  exact ⟨fun x hx => h2.2.2 x hx e (by simp), fun x hx h => h2.2.1.1 x hx h.symm,
    fun x hx => h1.2.2 x hx e (by simp), h1.2.1.1⟩

/-- **C12, partial.** A call that does not raise the order of an existing entry (and whose generated order
fits 32 bits) either fails exactly if another session uses the order, or succeeds, keeps the entries strictly
ordered and unique, keeps all the other sessions' entries, and gives the session's single entry the requested
order and flag. It never touches memory outside of the array and no assert fails. -/
theorem update_partial (l : List Entry) (cid sid order : Nat) (hd : Option Bool)
    (hO : Ordered l) (hown : Owned l cid sid) (hnr : NoRaise l sid order) (hnw : NoWrap l) :
    (update l cid sid order hd = .existsExtLockLeaked ∧ order ≠ 0 ∧ ∃ e ∈ l, e.sid ≠ sid ∧ e.order = order) ∨
    (¬ (order ≠ 0 ∧ ∃ e ∈ l, e.sid ≠ sid ∧ e.order = order)) ∧
      ∃ l', update l cid sid order hd = .ok l' ∧ Ordered l' ∧ SameOthers sid l l' ∧ Owned l' cid sid ∧
        ∃ e ∈ l', e.sid = sid ∧ OrderGiven l sid order e.order ∧ DataGiven l sid hd e.hasData := by
  by_cases hdup : order ≠ 0 ∧ ∃ e ∈ l, e.sid ≠ sid ∧ e.order = order
  · left
    refine ⟨?_, hdup⟩
    unfold update getIdx
    rw [idxLoop_dup sid l 0 ⟨order, none, none⟩ hdup.1 hdup.2]
  · right
    refine ⟨hdup, ?_⟩
    by_cases hf : ∃ e ∈ l, e.sid = sid
    · obtain ⟨e, hel, hes⟩ := hf
      obtain ⟨pre, post, rfl⟩ := List.append_of_mem hel
      have hsp := ordered_split hO
      have hc : e.cid = cid := hown e (by simp) hes
      by_cases hsame : order = 0 ∨ order = e.order
      · refine ⟨_, update_same pre post e cid sid order hd hes hc hO hsame, ?_, ?_, ?_, ?_⟩
        · obtain ⟨h1, h2, h3⟩ := hO
          refine ⟨?_, ?_, ?_⟩
          · rw [List.pairwise_append, List.pairwise_cons] at h1 ⊢; simpa using h1
          · rw [List.pairwise_append, List.pairwise_cons] at h2 ⊢; simpa using h2
          · intro x hx
            simp only [List.mem_append, List.mem_cons] at hx
            rcases hx with hx | rfl | hx
            · exact h3 x (by simp [hx])
            · exact h3 e (by simp)
            · exact h3 x (by simp [hx])
        · intro x hx
          simp only [List.mem_append, List.mem_cons]
          constructor
          · rintro (h | rfl | h)
            · exact Or.inl h
            · exact absurd hes hx
            · exact Or.inr (Or.inr h)
          · rintro (h | rfl | h)
            · exact Or.inl h
            · exact absurd hes hx
            · exact Or.inr (Or.inr h)
        · intro x hx
          simp only [List.mem_append, List.mem_cons] at hx
          rcases hx with hx | rfl | hx
          · exact hown x (by simp [hx])
          · intro _; exact hc
          · exact hown x (by simp [hx])
        · refine ⟨{ e with hasData := hd.getD e.hasData }, by simp, hes, ?_, ?_⟩
          · refine ⟨fun h => ?_, fun h => ⟨?_, ?_⟩⟩
            · rcases hsame with h' | h'
              · exact absurd h' h
              · exact h'.symm
            · intro x hx hxs
              simp only [List.mem_append, List.mem_cons] at hx
              rcases hx with hx | rfl | hx
              · exact absurd (hxs.trans hes.symm) (hsp.1 x hx)
              · rfl
              · exact absurd (hxs.trans hes.symm) (hsp.2.1 x hx)
            · intro hx; exact absurd hes (hx e (by simp))
          · refine ⟨fun b hb => by simp [hb], fun h => ⟨?_, ?_⟩⟩
            · intro x hx hxs
              simp only [List.mem_append, List.mem_cons] at hx
              rcases hx with hx | rfl | hx
              · exact absurd (hxs.trans hes.symm) (hsp.1 x hx)
              · simp [h]
              · exact absurd (hxs.trans hes.symm) (hsp.2.1 x hx)
            · intro hx; exact absurd hes (hx e (by simp))
      · have ho : order ≠ 0 := fun h => hsame (Or.inl h)
        have hlt : order < e.order := by
          rcases hnr with h | h
          · exact absurd h ho
          · have := h e (by simp) hes
            have : order ≠ e.order := fun h => hsame (Or.inr h)
            omega
        have hO' := hO
        obtain ⟨h1, h2, h3⟩ := hO
        have h1' := h1
        have h2' := h2
        rw [List.pairwise_append, List.pairwise_cons] at h1 h2
        obtain ⟨p, m, rfl, hp, hm⟩ := split_at pre order h1.1 (fun x hx h =>
          hdup ⟨ho, x, by simp [hx], fun h => hsp.1 x hx (h.trans hes.symm), h⟩)
        refine ⟨_, update_lower p m post e cid sid order hd hes hc hO' ho hlt hp hm, ?_, ?_, ?_, ?_⟩
        · refine ⟨?_, ?_, ?_⟩
          · rw [List.pairwise_append, List.pairwise_cons, List.pairwise_append]
            have hpm := List.pairwise_append.1 h1.1
            refine ⟨hpm.1, ⟨?_, hpm.2.1, h1.2.1.2, fun a ha b hb => h1.2.2 a (by simp [ha]) b (by simp [hb])⟩,
              ?_⟩
            · intro a ha
              rcases List.mem_append.1 ha with ha | ha
              · exact hm a ha
              · have := hsp.2.2.2 a ha; simp only; omega
            · intro a ha b hb
              simp only [List.mem_cons, List.mem_append] at hb
              rcases hb with rfl | hb | hb
              · exact hp a ha
              · exact hpm.2.2 a ha b hb
              · exact h1.2.2 a (by simp [ha]) b (by simp [hb])
          · rw [List.pairwise_append, List.pairwise_cons, List.pairwise_append]
            have hpm := List.pairwise_append.1 h2.1
            refine ⟨hpm.1, ⟨?_, hpm.2.1, h2.2.1.2, fun a ha b hb => h2.2.2 a (by simp [ha]) b (by simp [hb])⟩,
              ?_⟩
            · intro a ha
              rcases List.mem_append.1 ha with ha | ha
              · exact fun h => hsp.1 a (by simp [ha]) h.symm
              · exact fun h => hsp.2.1 a ha h.symm
            · intro a ha b hb
              simp only [List.mem_cons, List.mem_append] at hb
              rcases hb with rfl | hb | hb
              · exact hsp.1 a (by simp [ha])
              · exact hpm.2.2 a ha b hb
              · exact h2.2.2 a (by simp [ha]) b (by simp [hb])
          · intro x hx
            simp only [List.mem_append, List.mem_cons] at hx
            rcases hx with hx | rfl | hx | hx
            · exact h3 x (by simp [hx])
            · show 0 < order; omega
            · exact h3 x (by simp [hx])
            · exact h3 x (by simp [hx])
        · intro x hx
          simp only [List.mem_append, List.mem_cons]
          constructor
          · rintro (h | rfl | h | h)
            · exact Or.inl (Or.inl h)
            · exact absurd hes hx
            · exact Or.inl (Or.inr h)
            · exact Or.inr (Or.inr h)
          · rintro ((h | h) | rfl | h)
            · exact Or.inl h
            · exact Or.inr (Or.inr (Or.inl h))
            · exact absurd hes hx
            · exact Or.inr (Or.inr (Or.inr h))
        · intro x hx
          simp only [List.mem_append, List.mem_cons] at hx
          rcases hx with hx | rfl | hx | hx
          · exact hown x (by simp [hx])
          · intro _; exact hc
          · exact hown x (by simp [hx])
          · exact hown x (by simp [hx])
        · refine ⟨{ e with order := order, hasData := hd.getD e.hasData }, by simp, hes, ?_, ?_⟩
          · exact ⟨fun _ => rfl, fun h => absurd h ho⟩
          · refine ⟨fun b hb => by simp [hb], fun h => ⟨?_, ?_⟩⟩
            · intro x hx hxs
              rw [List.mem_append, List.mem_cons] at hx
              rcases hx with hx | rfl | hx
              · exact absurd (hxs.trans hes.symm) (hsp.1 x hx)
              · simp [h]
              · exact absurd (hxs.trans hes.symm) (hsp.2.1 x hx)
            · intro hx; exact absurd hes (hx e (by simp))
    · have hn : ∀ e ∈ l, e.sid ≠ sid := fun e he h => hf ⟨e, he, h⟩
      by_cases ho : order = 0
      · subst ho
        have hu := update_auto l cid sid hd hn hO.pos
        have hlast : ∀ e ∈ l, e.order < (match l.getLast? with | some e => u32 (e.order + 1) | none => 1) := by
          intro e he
          have hne : l ≠ [] := List.ne_nil_of_mem he
          rw [List.getLast?_eq_some_getLast hne]
          have hlm := List.getLast_mem hne
          have hle : e.order ≤ (l.getLast hne).order := by
            have hp := hO.asc
            rw [← List.dropLast_concat_getLast hne, List.pairwise_append] at hp
            have he' : e ∈ l.dropLast ++ [l.getLast hne] := by
              rw [List.dropLast_concat_getLast hne]; exact he
            rcases List.mem_append.1 he' with h | h
            · exact Nat.le_of_lt (hp.2.2 e h _ (by simp))
            · rw [List.mem_singleton.1 h]; exact Nat.le_refl _
          have := hnw _ hlm
          simp only [u32]
          omega
        refine ⟨_, hu, ?_, ?_, ?_, ?_⟩
        · refine ⟨?_, ?_, ?_⟩
          · rw [List.pairwise_append]
            exact ⟨hO.asc, by simp, fun a ha b hb => by rw [List.mem_singleton.1 hb]; exact hlast a ha⟩
          · rw [List.pairwise_append]
            exact ⟨hO.uniq, by simp, fun a ha b hb => by rw [List.mem_singleton.1 hb]; exact hn a ha⟩
          · intro x hx
            rcases List.mem_append.1 hx with hx | hx
            · exact hO.pos x hx
            · rw [List.mem_singleton.1 hx]
              cases hl : l with
              | nil => simp
              | cons a as => have := hlast a (by simp [hl]); rw [hl] at this; exact Nat.lt_of_le_of_lt (Nat.zero_le _) this
        · intro x hx
          simp only [List.mem_append, List.mem_singleton]
          constructor
          · rintro (h | rfl)
            · exact h
            · exact absurd rfl hx
          · exact Or.inl
        · intro x hx
          rcases List.mem_append.1 hx with hx | hx
          · exact hown x hx
          · rw [List.mem_singleton.1 hx]; exact fun _ => rfl
        · refine ⟨_, List.mem_append_right _ (List.mem_singleton.2 rfl), rfl, ?_, ?_⟩
          · refine ⟨fun h => absurd rfl h, fun _ => ⟨fun x hx hs => absurd hs (hn x hx), fun _ => ⟨hlast, ?_⟩⟩⟩
            intro h; simp [h]
          · exact ⟨fun b hb => by simp [hb], fun h => ⟨fun x hx hs => absurd hs (hn x hx), fun _ => by simp [h]⟩⟩
      · obtain ⟨pre, post, rfl, hpre, hpost⟩ := split_at l order hO.asc
          (fun x hx h => hdup ⟨ho, x, hx, hn x hx, h⟩)
        refine ⟨_, update_new pre post cid sid order hd ho hn hpre hpost, ?_, ?_, ?_, ?_⟩
        · obtain ⟨h1, h2, h3⟩ := hO
          rw [List.pairwise_append] at h1 h2
          refine ⟨?_, ?_, ?_⟩
          · rw [List.pairwise_append, List.pairwise_cons]
            refine ⟨h1.1, ⟨hpost, h1.2.1⟩, fun a ha b hb => ?_⟩
            rcases List.mem_cons.1 hb with rfl | hb
            · exact hpre a ha
            · exact h1.2.2 a ha b hb
          · rw [List.pairwise_append, List.pairwise_cons]
            refine ⟨h2.1, ⟨fun a ha h => hn a (by simp [ha]) h.symm, h2.2.1⟩, fun a ha b hb => ?_⟩
            rcases List.mem_cons.1 hb with rfl | hb
            · exact hn a (by simp [ha])
            · exact h2.2.2 a ha b hb
          · intro x hx
            simp only [List.mem_append, List.mem_cons] at hx
            rcases hx with hx | rfl | hx
            · exact h3 x (by simp [hx])
            · show 0 < order; omega
            · exact h3 x (by simp [hx])
        · intro x hx
          simp only [List.mem_append, List.mem_cons]
          constructor
          · rintro (h | rfl | h)
            · exact Or.inl h
            · exact absurd rfl hx
            · exact Or.inr h
          · rintro (h | h)
            · exact Or.inl h
            · exact Or.inr (Or.inr h)
        · intro x hx
          simp only [List.mem_append, List.mem_cons] at hx
          rcases hx with hx | rfl | hx
          · exact hown x (by simp [hx])
          · intro _; rfl
          · exact hown x (by simp [hx])
        · refine ⟨⟨cid, sid, order, hd.getD false⟩, by simp, rfl, ?_, ?_⟩
          · exact ⟨fun _ => rfl, fun h => absurd h ho⟩
          · exact ⟨fun b hb => by simp [hb], fun h => ⟨fun x hx hs => absurd hs (hn x hx), fun _ => by simp [h]⟩⟩

/-- hypotheses of `update_partial` hold for a list of three sessions, lowering the last one in between -/
example : Ordered [⟨1, 10, 1, true⟩, ⟨1, 11, 3, true⟩, ⟨2, 12, 5, false⟩] ∧
    Owned [⟨1, 10, 1, true⟩, ⟨1, 11, 3, true⟩, ⟨2, 12, 5, false⟩] 2 12 ∧
    NoRaise [⟨1, 10, 1, true⟩, ⟨1, 11, 3, true⟩, ⟨2, 12, 5, false⟩] 12 2 ∧
    NoWrap [⟨1, 10, 1, true⟩, ⟨1, 11, 3, true⟩, ⟨2, 12, 5, false⟩] ∧
    update [⟨1, 10, 1, true⟩, ⟨1, 11, 3, true⟩, ⟨2, 12, 5, false⟩] 2 12 2 (some true) =
      .ok [⟨1, 10, 1, true⟩, ⟨2, 12, 2, true⟩, ⟨1, 11, 3, true⟩] := by
  refine ⟨⟨by simp, by simp, by simp⟩, ?_, ?_, ?_, by decide⟩
  · intro e he; simp at he; rcases he with rfl | rfl | rfl <;> simp
  · right; intro e he; simp at he; rcases he with rfl | rfl | rfl <;> simp
  · intro e he; simp at he; rcases he with rfl | rfl | rfl <;> simp

/-- **C12, the code's defect.** Every call that raises the order of a session's existing entry to a free order
is broken: it either writes outside of the array, or loses the entry of another session. -/
theorem raise_order_always_breaks (l : List Entry) (cid sid order : Nat) (hd : Option Bool) (e : Entry)
    (hO : Ordered l) (he : e ∈ l) (hs : e.sid = sid) (hc : e.cid = cid) (hr : e.order < order)
    (hfree : ∀ x ∈ l, x.order ≠ order) :
    update l cid sid order hd = .ub ∨
    ∃ l' x, update l cid sid order hd = .ok l' ∧ x ∈ l ∧ x.sid ≠ sid ∧ x ∉ l' := by
  obtain ⟨pre, post, rfl⟩ := List.append_of_mem he
  have hsp := ordered_split hO
  have hO' := hO
  obtain ⟨h1, h2, h3⟩ := hO
  rw [List.pairwise_append, List.pairwise_cons] at h1 h2
  have ho : order ≠ 0 := by omega
  obtain ⟨p, m, rfl, hp, hm⟩ := split_at post order h1.2.1.2 (fun x hx => hfree x (by simp [hx]))
  have hnpre : ∀ x ∈ pre, x.sid ≠ sid := fun x hx => hs ▸ hsp.1 x hx
  have hnpost : ∀ x ∈ p ++ m, x.sid ≠ sid := fun x hx => hs ▸ hsp.2.1 x hx
  have hidx : getIdx (pre ++ e :: (p ++ m)) sid order =
      some (order, some pre.length, pre.length + 1 + p.length) := by
    unfold getIdx
    rw [idxLoop_append, idxLoop_lt _ _ _ _ _ _ hnpre
      (fun x hx => by have := hsp.2.2.1 x hx; omega)]
    simp only [idxLoop]
    have hstep : idxStep sid (0 + pre.length) e ⟨order, none, none⟩ =
        some ⟨order, some pre.length, none⟩ := by
      unfold idxStep
      rw [if_pos hs]
      have h1 : ¬ e.order = order := by omega
      have h2 : ¬ order < e.order := by omega
      simp [ho, h1, h2]
    rw [hstep]
    simp only
    rw [idxLoop_append, idxLoop_lt _ _ _ _ _ _ (fun x hx => hnpost x (by simp [hx])) hp]
    simp only
    rw [idxLoop_gt _ _ _ _ _ ho (fun x hx => hnpost x (by simp [hx])) hm]
    simp only [ho, if_false]
    by_cases hmm : m = []
    · simp [hmm]; omega
    · simp [hmm]
  have hne : ¬ pre.length = pre.length + 1 + p.length := by omega
  have hngt : ¬ pre.length > pre.length + 1 + p.length := by omega
  have hmove : ∃ w, w.length = p.length + 1 ∧ (∀ x ∈ w, x = e ∨ x ∈ p) ∧
      memmove (pre ++ e :: (p ++ m)) pre.length (pre.length + 1)
        (pre.length + 1 + p.length - pre.length - 1) = some (pre ++ w ++ m) := by
    unfold memmove
    rw [show pre.length + 1 + p.length - pre.length - 1 = p.length by omega]
    rw [if_pos (by simp; omega)]
    refine ⟨p ++ ((e :: p).drop p.length), by simp, ?_, ?_⟩
    · intro x hx
      rcases List.mem_append.1 hx with hx | hx
      · exact Or.inr hx
      · have := List.mem_of_mem_drop hx
        simpa using this
    · congr 1
      have ha : (pre ++ e :: (p ++ m)).take pre.length = pre := by simp
      have hb : ((pre ++ e :: (p ++ m)).drop (pre.length + 1)).take p.length = p := by
        rw [show pre ++ e :: (p ++ m) = (pre ++ [e]) ++ (p ++ m) by simp]
        rw [show pre.length + 1 = (pre ++ [e]).length by simp, List.drop_left, List.take_left]
      have hc' : (pre ++ e :: (p ++ m)).drop (pre.length + p.length) = (e :: p).drop p.length ++ m := by
        rw [← List.drop_drop, List.drop_left]
        rw [show e :: (p ++ m) = (e :: p) ++ m by simp]
        rw [List.drop_append_of_le_length (by simp)]
      rw [ha, hb, hc']
      simp
  obtain ⟨w, hwl, hw, hmove⟩ := hmove
  have hget : (pre ++ e :: (p ++ m))[pre.length]? = some e := by simp
  unfold update
  rw [hidx]
  simp only [hne, hngt, if_false, hget, hmove]
  cases m with
  | nil =>
    left
    have : store (pre ++ w ++ []) (pre.length + 1 + p.length) e = none := by
      unfold store
      rw [if_neg (by simp; omega)]
    rw [this]
  | cons x m =>
    right
    have : store (pre ++ w ++ x :: m) (pre.length + 1 + p.length) e = some (pre ++ w ++ e :: m) := by
      unfold store
      rw [if_pos (by simp; omega)]
      congr 1
      rw [show pre.length + 1 + p.length = (pre ++ w).length by simp; omega]
      simp
    rw [this]
    simp only
    rw [show pre.length + 1 + p.length = (pre ++ w).length by simp; omega]
    rw [finish_at _ _ _ _ _ _ _ hc hs]
    refine ⟨_, x, rfl, by simp, hnpost x (by simp), ?_⟩
    have hxs : x.sid ≠ sid := hnpost x (by simp)
    have hu := h2.2.1.2
    rw [List.pairwise_append, List.pairwise_cons] at hu
    intro hmem
    simp only [List.mem_append, List.mem_cons] at hmem
    rcases hmem with (hmem | hmem) | hmem | hmem
    · exact (h2.2.2 x hmem x (by simp)) rfl
    · rcases hw x hmem with h | h
      · rw [h] at hxs; exact hxs hs
      · exact hu.2.2 x h x (by simp) rfl
    · rw [hmem] at hxs; exact hxs hs
    · exact hu.2.1.1 x hmem rfl

/-- concrete witnesses: with one session the write is outside of the array, with three one entry is lost and
another duplicated -/
example : update [⟨1, 10, 1, true⟩] 1 10 5 none = .ub ∧
    update [⟨1, 10, 1, true⟩, ⟨1, 11, 3, true⟩, ⟨1, 12, 5, true⟩] 1 10 4 none =
      .ok [⟨1, 11, 3, true⟩, ⟨1, 11, 3, true⟩, ⟨1, 10, 4, true⟩] := by decide

/-- **C12, the code's defect 2.** If the highest order is 2^32-1, a new session with a generated order gets
order 0 at the end of the list, which is no longer ascending. -/
theorem generated_order_wraps : ∃ l cid sid l', Ordered l ∧ (∀ e ∈ l, e.sid ≠ sid ∧ e.order < 4294967296) ∧
    update l cid sid 0 (some true) = .ok l' ∧ ¬ Ordered l' := by
  refine ⟨[⟨1, 10, 4294967295, true⟩], 1, 11, [⟨1, 10, 4294967295, true⟩, ⟨1, 11, 0, true⟩],
    ⟨by simp, by simp, by simp⟩, by simp, by decide, ?_⟩
  intro h
  have := h.pos ⟨1, 11, 0, true⟩ (by simp)
  simp at this

/-- **C12.** Deleting a session's entry fails exactly if there is none; otherwise it removes exactly that
entry and keeps order and all the others. -/
theorem del_removes_only (l : List Entry) (sid : Nat) (hO : Ordered l) :
    (del l sid = none ∧ ∀ e ∈ l, e.sid ≠ sid) ∨
    ∃ l', del l sid = some l' ∧ (∃ e ∈ l, e.sid = sid) ∧ Ordered l' ∧ SameOthers sid l l' ∧
      ∀ e ∈ l', e.sid ≠ sid := by
  unfold del
  cases h : l.findIdx? (·.sid = sid) with
  | none =>
    left
    refine ⟨rfl, ?_⟩
    simpa [List.findIdx?_eq_none_iff] using h
  | some i =>
    right
    rw [List.findIdx?_eq_some_iff_getElem] at h
    obtain ⟨hi, hsid, _⟩ := h
    have hsid' : l[i].sid = sid := by simpa using hsid
    have hsplit : l = l.take i ++ l[i] :: l.drop (i + 1) := by
      rw [List.getElem_cons_drop, List.take_append_drop]
    have her : l.eraseIdx i = l.take i ++ l.drop (i + 1) := by rw [List.eraseIdx_eq_take_drop_succ]
    have hO' := hO
    rw [hsplit] at hO'
    have hsp := ordered_split hO'
    rw [hsid'] at hsp
    refine ⟨_, rfl, ⟨l[i], List.getElem_mem hi, hsid'⟩, ?_, ?_, ?_⟩
    · have hsub := List.eraseIdx_sublist l i
      exact ⟨hO.asc.sublist hsub, hO.uniq.sublist hsub, fun e he => hO.pos e (hsub.subset he)⟩
    · intro x hx
      rw [her]
      constructor
      · intro h
        rw [hsplit]
        simp only [List.mem_append, List.mem_cons]
        rcases List.mem_append.1 h with h | h
        · exact Or.inl h
        · exact Or.inr (Or.inr h)
      · intro h
        rw [hsplit] at h
        simp only [List.mem_append, List.mem_cons] at h ⊢
        rcases h with h | rfl | h
        · exact Or.inl h
        · exact absurd hsid' hx
        · exact Or.inr h
    · intro e he
      rw [her] at he
      rcases List.mem_append.1 he with h | h
      · exact hsp.1 e h
      · exact hsp.2.1 e h

example : del [⟨1, 10, 1, true⟩, ⟨1, 11, 3, true⟩] 10 = some [⟨1, 11, 3, true⟩] := by decide

/-- **C12.** Reading the order of a session returns the order and flag of its entry, or "none" exactly if it
has no entry. -/
theorem get_exact (l : List Entry) (sid : Nat) (hO : Ordered l) :
    (∀ e ∈ l, e.sid = sid → get l sid = (e.order, some e.hasData)) ∧
    ((∀ e ∈ l, e.sid ≠ sid) → get l sid = (0, none)) := by
  unfold get
  constructor
  · intro e he hs
    obtain ⟨pre, post, rfl⟩ := List.append_of_mem he
    have hsp := ordered_split hO
    rw [List.find?_append]
    have : pre.find? (·.sid = sid) = none := by
      rw [List.find?_eq_none]; intro x hx; have := hsp.1 x hx; rw [hs] at this; simpa using this
    simp [this, hs]
  · intro h
    have : l.find? (·.sid = sid) = none := by
      rw [List.find?_eq_none]; intro x hx; simpa using h x hx
    simp [this]

/-! ## Histories -/

/-- Calls of any sessions on one module. -/
inductive Op where
  | update (cid sid order : Nat) (hd : Option Bool)
  | del (sid : Nat)

/-- Effect of a call on the list; a failing call leaves it. `none`: undefined behaviour or failed assert. -/
def step (l : List Entry) : Op → Option (List Entry)
  | .update cid sid order hd =>
    match update l cid sid order hd with
    | .ok l' => some l'
    | .existsExtLockLeaked => some l
    | .assertFail => none
    | .ub => none
  | .del sid => some ((del l sid).getD l)

/-- The calls covered by the partial theorem: no raising, no 32-bit wrap, session of one connection. -/
def Allowed (cidOf : Nat → Nat) (l : List Entry) : Op → Prop
  | .update cid sid order _ => cid = cidOf sid ∧ NoRaise l sid order ∧ NoWrap l
  | .del _ => True

/-- Lists reachable by allowed calls from the empty list. -/
inductive Reach (cidOf : Nat → Nat) : List Entry → Prop
  | init : Reach cidOf []
  | step {l l' op} : Reach cidOf l → Allowed cidOf l op → step l op = some l' → Reach cidOf l'

/-- **C12, partial.** Over any history of allowed calls the entries stay strictly ordered and unique and no
call has undefined behaviour. -/
theorem history_partial (cidOf : Nat → Nat) (l : List Entry) (h : Reach cidOf l) :
    Ordered l ∧ (∀ e ∈ l, e.cid = cidOf e.sid) ∧
    ∀ op, Allowed cidOf l op → ∃ l', step l op = some l' := by
  have key : Ordered l ∧ (∀ e ∈ l, e.cid = cidOf e.sid) := by
    induction h with
    | init => exact ⟨⟨by simp, by simp, by simp⟩, by simp⟩
    | @step l l' op _ hal hst ih =>
      obtain ⟨hO, hcid⟩ := ih
      cases op with
      | update cid sid order hd =>
        obtain ⟨rfl, hnr, hnw⟩ := hal
        have hown : Owned l (cidOf sid) sid := fun e he hs => by rw [hcid e he, hs]
        rcases update_partial l _ sid order hd hO hown hnr hnw with ⟨hu, _⟩ | ⟨_, l1, hu, hO1, hso, hown1, _⟩
        · simp only [step, hu, Option.some.injEq] at hst; subst hst; exact ⟨hO, hcid⟩
        · simp only [step, hu, Option.some.injEq] at hst; subst hst
          refine ⟨hO1, fun e he => ?_⟩
          by_cases hs : e.sid = sid
          · rw [hown1 e he hs, hs]
          · exact hcid e ((hso e hs).1 he)
      | del sid =>
        simp only [step, Option.some.injEq] at hst; subst hst
        rcases del_removes_only l sid hO with ⟨hd, _⟩ | ⟨l1, hd, _, hO1, hso, hne⟩
        · rw [hd]; exact ⟨hO, hcid⟩
        · rw [hd]; exact ⟨hO1, fun e he => hcid e ((hso e (hne e he)).1 he)⟩
  refine ⟨key.1, key.2, ?_⟩
  intro op hal
  cases op with
  | update cid sid order hd =>
    obtain ⟨rfl, hnr, hnw⟩ := hal
    have hown : Owned l (cidOf sid) sid := fun e he hs => by rw [key.2 e he, hs]
    rcases update_partial l _ sid order hd key.1 hown hnr hnw with ⟨hu, _⟩ | ⟨_, l1, hu, _⟩
    · exact ⟨l, by simp [step, hu]⟩
    · exact ⟨l1, by simp [step, hu]⟩
  | del sid => exact ⟨_, rfl⟩

/-- a non-trivial reachable state: two sessions, the second moved before the first -/
example : Reach (fun _ => 7) [⟨7, 2, 3, true⟩, ⟨7, 1, 4, true⟩] := by
  have h1 : Reach (fun _ => 7) [⟨7, 1, 4, true⟩] :=
    .step (op := .update 7 1 4 (some true)) .init ⟨rfl, by simp [NoRaise], by simp [NoWrap]⟩ (by decide)
  have h2 : Reach (fun _ => 7) [⟨7, 1, 4, true⟩, ⟨7, 2, 5, true⟩] :=
    .step (op := .update 7 2 0 (some true)) h1 ⟨rfl, by simp [NoRaise], by simp [NoWrap]⟩ (by decide)
  exact .step (op := .update 7 2 3 none) h2 ⟨rfl, by simp [NoRaise], by simp [NoWrap]⟩ (by decide)

end Verif.OperPush
