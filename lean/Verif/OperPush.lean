/-
Order of operational push data entries of a module.

Models `/repo/src/shm_ext.c` lines 2865-3119 (`sr_shmext_oper_push_update_get_idx`,
`sr_shmext_oper_push_update`, `sr_shmext_oper_push_get`, `sr_shmext_oper_push_del`) and the entry type of
`/repo/src/shm_types.h` lines 78-86.

Simplifications: the shared array is a `List` (that `sr_shmrealloc_add`/`_del` insert and erase one element
of the shared array is proved in `ExtShm`); module and EXT locks are not part of this model except for the
explicit result `extLockLeaked` of the error path that skips the unlock.
-/
namespace Verif.OperPush

/-- Wrap-around of `uint32_t`. -/
def u32 (n : Nat) : Nat := n % 4294967296

/-- `sr_mod_oper_push_t`, shm_types.h 81-86. -/
structure Entry where
  cid : Nat
  sid : Nat
  order : Nat
  hasData : Bool
deriving DecidableEq, Repr

/-- Outcome of an update. `exists` is `SR_ERR_EXISTS` (the EXT lock stays locked, shm_ext.c 2962-2964 jumps
over the unlock on 3009-3011); `assertFail` is a failed `assert`; `ub` is an access outside of the array. -/
inductive Res (α : Type) where
  | ok (a : α)
  | existsExtLockLeaked
  | assertFail
  | ub
deriving DecidableEq, Repr

/-- Local variables `*order`, `*found_i`, `*insert_i` (-1 is `none`), shm_ext.c 2880-2888. -/
structure Idx where
  order : Nat
  found : Option Nat
  insert : Option Nat
deriving DecidableEq, Repr

/-- One iteration of the loop, shm_ext.c 2890-2915; `none` is the `SR_ERR_EXISTS` error. -/
def idxStep (sid i : Nat) (e : Entry) (st : Idx) : Option Idx :=
  let upd (st : Idx) : Idx :=
    if st.order ≠ 0 ∧ st.insert = none ∧ e.order > st.order then { st with insert := some i } else st
  if e.sid = sid then
    let o := if st.order = 0 then e.order else st.order
    let ins := if e.order = o then some i else st.insert
    some (upd ⟨o, some i, ins⟩)
  else if e.order = st.order then none
  else some (upd st)

/-- The loop over the entries, shm_ext.c 2890-2915. -/
def idxLoop (sid : Nat) : List Entry → Nat → Idx → Option Idx
  | [], _, st => some st
  | e :: es, i, st =>
    match idxStep sid i e st with
    | none => none
    | some st' => idxLoop sid es (i + 1) st'

/-- `sr_shmext_oper_push_update_get_idx`, shm_ext.c 2879-2933. -/
def getIdx (l : List Entry) (sid order : Nat) : Option (Nat × Option Nat × Nat) :=
  match idxLoop sid l 0 ⟨order, none, none⟩ with
  | none => none
  | some st =>
    let o := if st.order = 0 then
        match l.getLast? with
        | some e => u32 (e.order + 1)
        | none => 1
      else st.order
    some (o, st.found, st.insert.getD l.length)

/-- `memmove` inside of one array, in items; `none` when it leaves the array. -/
def memmove {α : Type} (l : List α) (dst src n : Nat) : Option (List α) :=
  if dst + n ≤ l.length ∧ src + n ≤ l.length then
    some (l.take dst ++ (l.drop src).take n ++ l.drop (dst + n))
  else none

/-- Store of one array item; `none` when outside of the array. -/
def store {α : Type} (l : List α) (i : Nat) (a : α) : Option (List α) :=
  if i < l.length then some (l.set i a) else none

/-- Final member update, shm_ext.c 2998-3006. `hd` is `has_data` (`none` is -1). -/
def finish (l : List Entry) (i cid sid order : Nat) (hd : Option Bool) : Res (List Entry) :=
  match l[i]? with
  | none => .ub
  | some e =>
    if e.cid ≠ cid ∨ e.sid ≠ sid then .assertFail
    else .ok (l.set i { e with order := order, hasData := hd.getD e.hasData })

/-- `sr_shmext_oper_push_update`, shm_ext.c 2936-3022, with the locks taken. -/
def update (l : List Entry) (cid sid order : Nat) (hd : Option Bool) : Res (List Entry) :=
  match getIdx l sid order with
  | none => .existsExtLockLeaked
  | some (o, none, ins) =>
    -- not found, sr_shmrealloc_add at ins (lines 2966-2984)
    finish (l.insertIdx ins ⟨cid, sid, 0, false⟩) ins cid sid o hd
  | some (o, some fnd, ins) =>
    if fnd = ins then finish l ins cid sid o hd
    else
      match l[fnd]? with
      | none => .ub
      | some tmp =>
        let moved :=
          if fnd > ins then memmove l (ins + 1) ins (fnd - ins)
          else memmove l fnd (fnd + 1) (ins - fnd - 1)
        match moved with
        | none => .ub
        | some l1 =>
          match store l1 ins tmp with
          | none => .ub
          | some l2 => finish l2 ins cid sid o hd

/-- `sr_shmext_oper_push_get`, shm_ext.c 3025-3083: order and has-data of the first entry of the session
(order 0 and `none`, that is -1, if there is no entry). -/
def get (l : List Entry) (sid : Nat) : Nat × Option Bool :=
  match l.find? (·.sid = sid) with
  | some e => (e.order, some e.hasData)
  | none => (0, none)

/-- `sr_shmext_oper_push_del`, shm_ext.c 3086-3119; `none` is the internal error when not found. -/
def del (l : List Entry) (sid : Nat) : Option (List Entry) :=
  match l.findIdx? (·.sid = sid) with
  | some i => some (l.eraseIdx i)
  | none => none

/-! ## Specification -/

/-- Strictly ascending order numbers, one entry per session, no order 0 (reserved for "choose for me"). -/
structure Ordered (l : List Entry) : Prop where
  asc : l.Pairwise (fun a b => a.order < b.order)
  uniq : l.Pairwise (fun a b => a.sid ≠ b.sid)
  pos : ∀ e ∈ l, 0 < e.order

/-- Entries of all the other sessions are the same in both lists. -/
def SameOthers (sid : Nat) (l l' : List Entry) : Prop :=
  ∀ e : Entry, e.sid ≠ sid → (e ∈ l' ↔ e ∈ l)

/-! ## Helper lemmas -/

theorem idxLoop_append (sid : Nat) (a b : List Entry) (i : Nat) (st : Idx) :
    idxLoop sid (a ++ b) i st =
      match idxLoop sid a i st with
      | none => none
      | some st' => idxLoop sid b (i + a.length) st' := by
  induction a generalizing i st with
  | nil => simp [idxLoop]
  | cons e es ih =>
    simp only [List.cons_append, idxLoop, List.length_cons]
    cases idxStep sid i e st with
    | none => rfl
    | some st' => simp only [ih]; rw [show i + 1 + es.length = i + (es.length + 1) by omega]

/-- entries of other sessions with smaller order do not change anything -/
theorem idxLoop_lt (sid : Nat) (a : List Entry) (i o : Nat) (f ins : Option Nat)
    (ha : ∀ e ∈ a, e.sid ≠ sid) (hlt : ∀ e ∈ a, e.order < o) :
    idxLoop sid a i ⟨o, f, ins⟩ = some ⟨o, f, ins⟩ := by
  induction a generalizing i with
  | nil => rfl
  | cons e es ih =>
    have h1 := ha e (by simp)
    have h2 := hlt e (by simp)
    have : idxStep sid i e ⟨o, f, ins⟩ = some ⟨o, f, ins⟩ := by
      unfold idxStep
      rw [if_neg h1, if_neg (by simp; omega)]
      simp; intro _ _ h; omega
    simp only [idxLoop, this]
    exact ih _ (fun e he => ha e (by simp [he])) (fun e he => hlt e (by simp [he]))

/-- once the insert index is known, entries of other sessions with other orders do not change anything -/
theorem idxLoop_some (sid : Nat) (a : List Entry) (i o k : Nat) (f : Option Nat)
    (ha : ∀ e ∈ a, e.sid ≠ sid) (hne : ∀ e ∈ a, e.order ≠ o) :
    idxLoop sid a i ⟨o, f, some k⟩ = some ⟨o, f, some k⟩ := by
  induction a generalizing i with
  | nil => rfl
  | cons e es ih =>
    have h1 := ha e (by simp)
    have h2 := hne e (by simp)
    have : idxStep sid i e ⟨o, f, some k⟩ = some ⟨o, f, some k⟩ := by
      unfold idxStep
      rw [if_neg h1, if_neg (by simpa using h2)]
      simp
    simp only [idxLoop, this]
    exact ih _ (fun e he => ha e (by simp [he])) (fun e he => hne e (by simp [he]))

/-- the automatic order with no entry found -/
theorem idxLoop_zero (sid : Nat) (a : List Entry) (i : Nat) (f : Option Nat)
    (ha : ∀ e ∈ a, e.sid ≠ sid) (hne : ∀ e ∈ a, 0 < e.order) :
    idxLoop sid a i ⟨0, f, none⟩ = some ⟨0, f, none⟩ := by
  induction a generalizing i with
  | nil => rfl
  | cons e es ih =>
    have h1 := ha e (by simp)
    have h2 := hne e (by simp)
    have : idxStep sid i e ⟨0, f, none⟩ = some ⟨0, f, none⟩ := by
      unfold idxStep
      rw [if_neg h1, if_neg (by simp; omega)]
      simp
    simp only [idxLoop, this]
    exact ih _ (fun e he => ha e (by simp [he])) (fun e he => hne e (by simp [he]))

/-- the first greater entry of another session gives the insert index -/
theorem idxLoop_gt (sid : Nat) (a : List Entry) (i o : Nat) (f : Option Nat) (ho : o ≠ 0)
    (ha : ∀ e ∈ a, e.sid ≠ sid) (hgt : ∀ e ∈ a, o < e.order) :
    idxLoop sid a i ⟨o, f, none⟩ = some ⟨o, f, if a = [] then none else some i⟩ := by
  cases a with
  | nil => rfl
  | cons e es =>
    have h1 := ha e (by simp)
    have h2 := hgt e (by simp)
    have : idxStep sid i e ⟨o, f, none⟩ = some ⟨o, f, some i⟩ := by
      unfold idxStep
      rw [if_neg h1, if_neg (by simp; omega)]
      simp [ho, h2]
    simp only [idxLoop, this]
    rw [idxLoop_some _ _ _ _ _ _ (fun e he => ha e (by simp [he]))
      (fun e he => by have := hgt e (by simp [he]); omega)]
    simp

/-- a foreign entry of the same order is an error wherever it is -/
theorem idxLoop_dup (sid : Nat) (a : List Entry) (i : Nat) (st : Idx) (ho : st.order ≠ 0)
    (hd : ∃ e ∈ a, e.sid ≠ sid ∧ e.order = st.order) :
    idxLoop sid a i st = none := by
  induction a generalizing i st with
  | nil => simp at hd
  | cons e es ih =>
    simp only [idxLoop]
    cases hst : idxStep sid i e st with
    | none => rfl
    | some st' =>
      simp only
      have horder : st'.order = st.order := by
        unfold idxStep at hst
        grind
      refine ih _ _ (by rw [horder]; exact ho) ?_
      obtain ⟨e', he', hs, hor⟩ := hd
      rcases List.mem_cons.1 he' with rfl | hmem
      · unfold idxStep at hst
        rw [if_neg hs, if_pos hor] at hst
        cases hst
      · exact ⟨e', hmem, hs, by rw [horder]; exact hor⟩

/-- the loop reports a duplicate only if there is one (explicit order) -/
theorem idxLoop_none (sid : Nat) (a : List Entry) (i : Nat) (st : Idx) (ho : st.order ≠ 0)
    (h : idxLoop sid a i st = none) : ∃ e ∈ a, e.sid ≠ sid ∧ e.order = st.order := by
  induction a generalizing i st with
  | nil => simp [idxLoop] at h
  | cons e es ih =>
    simp only [idxLoop] at h
    cases hst : idxStep sid i e st with
    | none =>
      unfold idxStep at hst
      refine ⟨e, by simp, ?_⟩
      grind
    | some st' =>
      rw [hst] at h
      have horder : st'.order = st.order := by
        unfold idxStep at hst
        grind
      obtain ⟨e', he', h1, h2⟩ := ih _ _ (by rw [horder]; exact ho) h
      exact ⟨e', by simp [he'], h1, by rw [← horder]; exact h2⟩

/-- split a strictly ascending list by an order it does not contain -/
theorem split_at (l : List Entry) (o : Nat) (h : l.Pairwise (fun a b => a.order < b.order))
    (hne : ∀ e ∈ l, e.order ≠ o) :
    ∃ pre post, l = pre ++ post ∧ (∀ e ∈ pre, e.order < o) ∧ (∀ e ∈ post, o < e.order) := by
  induction l with
  | nil => exact ⟨[], [], by simp⟩
  | cons e es ih =>
    rw [List.pairwise_cons] at h
    by_cases hlt : e.order < o
    · obtain ⟨p, q, rfl, hp, hq⟩ := ih h.2 (fun e he => hne e (by simp [he]))
      refine ⟨e :: p, q, by simp, ?_, hq⟩
      intro x hx
      rcases List.mem_cons.1 hx with rfl | hx
      · exact hlt
      · exact hp x hx
    · refine ⟨[], e :: es, by simp, by simp, ?_⟩
      have h0 := hne e (by simp)
      intro x hx
      rcases List.mem_cons.1 hx with rfl | hx
      · omega
      · have := h.1 x hx; omega

theorem insertIdx_length_append {α : Type} (a b : List α) (x : α) :
    (a ++ b).insertIdx a.length x = a ++ x :: b := by
  induction a with
  | nil => simp
  | cons y ys ih => simp [List.insertIdx_succ_cons, ih]

theorem finish_at (a b : List Entry) (e : Entry) (cid sid o : Nat) (hd : Option Bool)
    (hc : e.cid = cid) (hs : e.sid = sid) :
    finish (a ++ e :: b) a.length cid sid o hd =
      .ok (a ++ { e with order := o, hasData := hd.getD e.hasData } :: b) := by
  simp [finish, hc, hs]

/-- update of a session with no entry, explicit unused order -/
theorem update_new (pre post : List Entry) (cid sid o : Nat) (hd : Option Bool) (ho : o ≠ 0)
    (hn : ∀ e ∈ pre ++ post, e.sid ≠ sid) (hpre : ∀ e ∈ pre, e.order < o)
    (hpost : ∀ e ∈ post, o < e.order) :
    update (pre ++ post) cid sid o hd = .ok (pre ++ ⟨cid, sid, o, hd.getD false⟩ :: post) := by
  have hidx : getIdx (pre ++ post) sid o = some (o, none, pre.length) := by
    unfold getIdx
    rw [idxLoop_append, idxLoop_lt _ _ _ _ _ _ (fun e he => hn e (by simp [he])) hpre]
    simp only
    rw [idxLoop_gt _ _ _ _ _ ho (fun e he => hn e (by simp [he])) hpost]
    simp only [ho, if_false]
    by_cases hp : post = []
    · simp [hp]
    · simp [hp]
  unfold update
  rw [hidx]
  simp only
  rw [insertIdx_length_append, finish_at _ _ _ _ _ _ _ rfl rfl]

/-- update of a session with no entry, generated order -/
theorem update_auto (l : List Entry) (cid sid : Nat) (hd : Option Bool)
    (hn : ∀ e ∈ l, e.sid ≠ sid) (hpos : ∀ e ∈ l, 0 < e.order) :
    update l cid sid 0 hd =
      .ok (l ++ [⟨cid, sid, (match l.getLast? with | some e => u32 (e.order + 1) | none => 1),
        hd.getD false⟩]) := by
  have hidx : getIdx l sid 0 = some ((match l.getLast? with | some e => u32 (e.order + 1) | none => 1),
      none, l.length) := by
    unfold getIdx
    rw [idxLoop_zero _ _ _ _ hn hpos]
    simp
  unfold update
  rw [hidx]
  simp only
  have h := insertIdx_length_append l ([] : List Entry) ⟨cid, sid, 0, false⟩
  rw [List.append_nil] at h
  rw [h, finish_at _ _ _ _ _ _ _ rfl rfl]

/-- update of an existing entry that keeps its order -/
theorem update_same (pre post : List Entry) (e : Entry) (cid sid o : Nat) (hd : Option Bool)
    (hs : e.sid = sid) (hc : e.cid = cid) (hO : Ordered (pre ++ e :: post))
    (ho : o = 0 ∨ o = e.order) :
    update (pre ++ e :: post) cid sid o hd =
      .ok (pre ++ { e with hasData := hd.getD e.hasData } :: post) := by
  obtain ⟨hasc, huniq, hpos⟩ := hO
  rw [List.pairwise_append, List.pairwise_cons] at hasc huniq
  have hpe : 0 < e.order := hpos e (by simp)
  have hnpre : ∀ x ∈ pre, x.sid ≠ sid := fun x hx => hs ▸ huniq.2.2 x hx e (by simp)
  have hnpost : ∀ x ∈ post, x.sid ≠ sid := fun x hx h => huniq.2.1.1 x hx (by rw [hs, h])
  have hpre : idxLoop sid pre 0 ⟨o, none, none⟩ = some ⟨o, none, none⟩ := by
    rcases ho with rfl | rfl
    · exact idxLoop_zero _ _ _ _ hnpre (fun x hx => hpos x (by simp [hx]))
    · exact idxLoop_lt _ _ _ _ _ _ hnpre (fun x hx => hasc.2.2 x hx e (by simp))
  have hstep : ∀ i, idxStep sid i e ⟨o, none, none⟩ = some ⟨e.order, some i, some i⟩ := by
    intro i
    unfold idxStep
    rw [if_pos hs]
    rcases ho with rfl | rfl
    · simp
    · simp
  have hidx : getIdx (pre ++ e :: post) sid o = some (e.order, some pre.length, pre.length) := by
    unfold getIdx
    rw [idxLoop_append, hpre]
    simp only [idxLoop, hstep]
    rw [idxLoop_some _ _ _ _ _ _ hnpost (fun x hx => by have := hasc.2.1.1 x hx; omega)]
    have : e.order ≠ 0 := by omega
    simp [this]
  unfold update
  rw [hidx]
  simp only [if_true]
  rw [finish_at _ _ _ _ _ _ _ hc hs]

/-- update of an existing entry that lowers its order -/
theorem update_lower (p m post : List Entry) (e : Entry) (cid sid o : Nat) (hd : Option Bool)
    (hs : e.sid = sid) (hc : e.cid = cid) (hO : Ordered (p ++ m ++ e :: post))
    (ho : o ≠ 0) (hlt : o < e.order) (hp : ∀ x ∈ p, x.order < o) (hm : ∀ x ∈ m, o < x.order) :
    update (p ++ m ++ e :: post) cid sid o hd =
      .ok (p ++ { e with order := o, hasData := hd.getD e.hasData } :: (m ++ post)) := by
  obtain ⟨hasc, huniq, hpos⟩ := hO
  rw [List.pairwise_append, List.pairwise_cons] at hasc huniq
  have hnpm : ∀ x ∈ p ++ m, x.sid ≠ sid := fun x hx => hs ▸ huniq.2.2 x hx e (by simp)
  have hnpost : ∀ x ∈ post, x.sid ≠ sid := fun x hx h => huniq.2.1.1 x hx (by rw [hs, h])
  have hidx : getIdx (p ++ m ++ e :: post) sid o = some (o, some (p ++ m).length, p.length) := by
    unfold getIdx
    rw [idxLoop_append, idxLoop_append,
      idxLoop_lt _ _ _ _ _ _ (fun x hx => hnpm x (by simp [hx])) hp]
    simp only
    rw [idxLoop_gt _ _ _ _ _ ho (fun x hx => hnpm x (by simp [hx])) hm]
    simp only [idxLoop, Nat.zero_add]
    have hstep : idxStep sid (p ++ m).length e ⟨o, none, if m = [] then none else some p.length⟩ =
        some ⟨o, some (p ++ m).length, some p.length⟩ := by
      unfold idxStep
      rw [if_pos hs]
      by_cases hmm : m = []
      · subst hmm
        have : e.order ≠ o := by omega
        simp [ho, this, hlt]
      · have : e.order ≠ o := by omega
        simp [ho, this, hmm]
    rw [hstep]
    simp only
    rw [idxLoop_some _ _ _ _ _ _ hnpost (fun x hx => by have := hasc.2.1.1 x hx; omega)]
    simp [ho]
  unfold update
  rw [hidx]
  simp only
  by_cases hmm : m = []
  · subst hmm
    simp only [List.append_nil, List.nil_append, if_true]
    rw [finish_at _ _ _ _ _ _ _ hc hs]
  · have hml : 0 < m.length := List.length_pos_iff.2 hmm
    have hne : (p ++ m).length ≠ p.length := by simp; omega
    rw [if_neg hne]
    have hget : (p ++ m ++ e :: post)[(p ++ m).length]? = some e := by simp
    rw [hget]
    simp only
    have hgt : (p ++ m).length > p.length := by simp; omega
    rw [if_pos hgt]
    have hmove : memmove (p ++ m ++ e :: post) (p.length + 1) p.length ((p ++ m).length - p.length) =
        some (p ++ (m.head hmm) :: (m ++ post)) := by
      unfold memmove
      rw [if_pos (by simp; omega)]
      congr 1
      obtain ⟨a, as, rfl⟩ := List.exists_cons_of_ne_nil hmm
      simp only [List.append_assoc]
      rw [List.drop_left]
      have h1 : (p ++ (a :: as ++ e :: post)).take (p.length + 1) = p ++ [a] := by
        rw [List.take_append, List.take_of_length_le (by omega)]; simp
      have h2 : ((a :: as) ++ e :: post).take ((p ++ (a :: as)).length - p.length) = a :: as := by
        rw [show (p ++ (a :: as)).length - p.length = (a :: as).length by simp]
        exact List.take_left
      have h3 : (p ++ (a :: as ++ e :: post)).drop (p.length + 1 + ((p ++ (a :: as)).length - p.length))
          = post := by
        rw [show p.length + 1 + ((p ++ (a :: as)).length - p.length) = (p ++ ((a :: as) ++ [e])).length by
          simp; omega]
        rw [show p ++ (a :: as ++ e :: post) = (p ++ ((a :: as) ++ [e])) ++ post by simp]
        exact List.drop_left
      rw [h1, h2, h3]
      simp
    rw [hmove]
    simp only
    have hstore : store (p ++ (m.head hmm) :: (m ++ post)) p.length e = some (p ++ e :: (m ++ post)) := by
      unfold store
      rw [if_pos (by simp)]
      simp
    rw [hstore]
    simp only
    rw [finish_at _ _ _ _ _ _ _ hc hs]

end Verif.OperPush
