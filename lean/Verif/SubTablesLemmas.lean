import Verif.SubTables

namespace Verif.SubTables

open Verif.XPathTrim (trimPredicates lenNoPredicates)

/-! ### Simple tables -/

theorem erase_parts {α : Type} (l : List α) (i : Nat) (s : α) (h : l[i]? = some s) :
    (l.eraseIdx i).take i = l.take i ∧ (l.eraseIdx i).drop i = l.drop (i + 1) ∧ l.drop i = s :: l.drop (i + 1) ∧
    (l.eraseIdx i).length + 1 = l.length := by
  obtain ⟨hi, hs⟩ := List.getElem?_eq_some_iff.mp h
  refine ⟨?_, ?_, ?_, ?_⟩
  · rw [List.eraseIdx_eq_take_drop_succ, List.take_append_of_le_length (by simp; omega), List.take_take]
    simp
  · rw [List.eraseIdx_eq_take_drop_succ, List.drop_append_of_le_length (by simp; omega)]
    rw [List.drop_of_length_le (by simp; omega)]; simp
  · rw [List.drop_eq_getElem_cons hi, hs]
  · rw [List.length_eraseIdx]; simp [hi]; omega

theorem deadLoop_spec (alive : Nat → Bool) (fuel : Nat) : ∀ (i : Nat) (t : Tab), t.subs.length ≤ i + fuel →
    (deadLoop alive fuel i t).subs = t.subs.take i ++ (t.subs.drop i).filter (fun s => alive s.cid) ∧
    (deadLoop alive fuel i t).shm =
      if t.subs.take i ++ (t.subs.drop i).filter (fun s => alive s.cid) = [] ∧ t.subs ≠ [] then false else t.shm := by
  induction fuel with
  | zero =>
    intro i t h
    have : t.subs.drop i = [] := List.drop_of_length_le (by omega)
    have h2 : t.subs.take i = t.subs := List.take_of_length_le (by omega)
    simp only [deadLoop, this, h2, List.filter_nil, List.append_nil]
    simp
  | succ fuel ih =>
    intro i t h
    unfold deadLoop
    cases hs : t.subs[i]? with
    | none =>
      have hi : t.subs.length ≤ i := by simpa using hs
      have : t.subs.drop i = [] := List.drop_of_length_le (by omega)
      have h2 : t.subs.take i = t.subs := List.take_of_length_le (by omega)
      simp only [this, h2, List.filter_nil, List.append_nil]
      simp
    | some s =>
      obtain ⟨e1, e2, e3, e4⟩ := erase_parts _ _ _ hs
      obtain ⟨hi, hs'⟩ := List.getElem?_eq_some_iff.mp hs
      have e5 : t.subs.take (i + 1) = t.subs.take i ++ [s] := by
        rw [List.take_add_one, hs]; rfl
      have hne : t.subs ≠ [] := by intro h0; rw [h0] at hi; simp at hi
      by_cases ha : alive s.cid = true
      · simp only [ha, if_true]
        have := ih (i + 1) t (by omega)
        rw [e3, List.filter_cons_of_pos (by simpa using ha)]
        rw [e5] at this
        simpa using this
      · simp only [ha]
        have := ih i (free t i) (by simp only [free]; omega)
        rw [e3, List.filter_cons_of_neg (by simpa using ha)]
        have e6 : (free t i).subs = t.subs.eraseIdx i := rfl
        rw [e6, e1, e2] at this
        refine ⟨by simpa [free] using this.1, ?_⟩
        have e7 : (free t i).shm = if t.subs.eraseIdx i = [] then false else t.shm := rfl
        refine Eq.trans ?_ (this.2.trans ?_)
        · simp
        rw [e7]
        by_cases h0 : t.subs.eraseIdx i = []
        · have h1 : t.subs.take i ++ List.filter (fun s => alive s.cid) (t.subs.drop (i + 1)) = [] := by
            rw [← e1, ← e2, h0]; simp
          rw [if_neg (by simp [h0]), if_pos h0, if_pos ⟨h1, hne⟩]
        · rw [if_neg h0]
          by_cases h1 : t.subs.take i ++ List.filter (fun s => alive s.cid) (t.subs.drop (i + 1)) = []
          · rw [if_pos ⟨h1, h0⟩, if_pos ⟨h1, hne⟩]
          · rw [if_neg (fun h => h1 h.1), if_neg (fun h => h1 h.1)]

theorem removeDead_subs (alive : Nat → Bool) (t : Tab) :
    (removeDead alive t).subs = t.subs.filter (fun s => alive s.cid) := by
  have := (deadLoop_spec alive t.subs.length 0 t (by omega)).1
  simpa [removeDead] using this

theorem removeDead_shm (alive : Nat → Bool) (t : Tab) :
    (removeDead alive t).shm = if t.subs.filter (fun s => alive s.cid) = [] ∧ t.subs ≠ [] then false else t.shm := by
  have := (deadLoop_spec alive t.subs.length 0 t (by omega)).2
  simpa [removeDead] using this

theorem pollDead_spec (alive : Nat → Bool) (fuel : Nat) : ∀ (i : Nat) (l : List Sub), l.length ≤ i + fuel →
    pollDead alive fuel i l = l.take i ++ (l.drop i).filter (fun s => alive s.cid) := by
  induction fuel with
  | zero =>
    intro i l h
    rw [List.drop_of_length_le (by omega), List.take_of_length_le (by omega)]; simp [pollDead]
  | succ fuel ih =>
    intro i l h
    unfold pollDead
    cases hs : l[i]? with
    | none =>
      have hi : l.length ≤ i := by simpa using hs
      rw [List.drop_of_length_le (by omega), List.take_of_length_le (by omega)]; simp
    | some s =>
      obtain ⟨e1, e2, e3, e4⟩ := erase_parts _ _ _ hs
      have e5 : l.take (i + 1) = l.take i ++ [s] := by rw [List.take_add_one, hs]; rfl
      by_cases ha : alive s.cid = true
      · simp only [ha, if_true]
        rw [ih (i + 1) l (by omega), e3, e5, List.filter_cons_of_pos (by simpa using ha)]; simp
      · simp only [ha]
        rw [e3, List.filter_cons_of_neg (by simpa using ha)]
        have := ih i (l.eraseIdx i) (by omega)
        rw [e1, e2] at this
        simpa using this

theorem pollDead_eq (alive : Nat → Bool) (l : List Sub) :
    pollDead alive l.length 0 l = l.filter (fun s => alive s.cid) := by
  simpa using pollDead_spec alive l.length 0 l (by omega)

/-- IDs are different. -/
def Ids (l : List Sub) : Prop := l.Pairwise (fun a b => a.id ≠ b.id)

theorem erase_filter : ∀ (l : List Sub) (id i : Nat), Ids l → l.findIdx? (fun s => s.id == id) = some i →
    l.eraseIdx i = l.filter (fun s => s.id != id) := by
  intro l id
  induction l with
  | nil => intro i _ h; simp at h
  | cons a l ih =>
    intro i hp h
    rw [List.findIdx?_cons] at h
    obtain ⟨ha, hp'⟩ := List.pairwise_cons.mp hp
    by_cases hid : a.id = id
    · simp [hid] at h; subst h
      simp only [List.eraseIdx_cons_zero, List.filter_cons, hid]
      simp
      refine (List.filter_eq_self.mpr ?_).symm
      intro x hx
      have := ha x hx
      simp; omega
    · simp [hid] at h
      obtain ⟨j, hj, rfl⟩ := h
      have := ih j hp' (by simpa using hj)
      simp [hid, this]

theorem none_filter (l : List Sub) (id : Nat) (h : l.findIdx? (fun s => s.id == id) = none) :
    l = l.filter (fun s => s.id != id) := by
  refine (List.filter_eq_self.mpr ?_).symm
  intro x hx
  have := List.findIdx?_eq_none_iff.mp h x hx
  simpa using this

theorem del_subs (t : Tab) (id : Nat) (h : Ids t.subs) : (del t id).subs = t.subs.filter (fun s => s.id != id) := by
  unfold del
  cases hf : t.subs.findIdx? (fun s => s.id == id) with
  | none => simpa using none_filter _ _ hf
  | some i => simpa [free] using erase_filter _ _ _ h hf

theorem pollDel_eq (l : List Sub) (id : Nat) (h : Ids l) : pollDel l id = l.filter (fun s => s.id != id) := by
  unfold pollDel
  cases hf : l.findIdx? (fun s => s.id == id) with
  | none => simpa using none_filter _ _ hf
  | some i => simpa using erase_filter _ _ _ h hf

/-- Served: the sub SHM exists exactly when there is a subscription. -/
def Served (t : Tab) : Prop := t.shm = true ↔ t.subs ≠ []

theorem del_served (t : Tab) (id : Nat) (h : Served t) : Served (del t id) := by
  unfold del
  cases hf : t.subs.findIdx? (fun s => s.id == id) with
  | none => simpa using h
  | some i =>
    simp only [free, Served]
    by_cases h0 : t.subs.eraseIdx i = []
    · simp [h0]
    · have : t.subs ≠ [] := by intro e; rw [e] at h0; simp at h0
      simp [h0, h.mpr this]

theorem removeDead_served (alive : Nat → Bool) (t : Tab) (h : Served t) : Served (removeDead alive t) := by
  unfold Served
  rw [removeDead_subs, removeDead_shm]
  by_cases h0 : t.subs.filter (fun s => alive s.cid) = []
  · rw [h0]
    by_cases h1 : t.subs = []
    · rw [if_neg (by simp [h1])]
      have : ¬ t.shm = true := fun e => h.mp e h1
      simp [this]
    · rw [if_pos ⟨rfl, h1⟩]; simp
  · rw [if_neg (by simp [h0])]
    have : t.subs ≠ [] := by intro e; rw [e] at h0; simp at h0
    simp [h.mpr this, h0]

/-! ### Invariant of the simple tables -/

structure TInv (R : Sub → Sub → Prop) (n : Nat) (l : List Sub) : Prop where
  lt : ∀ s ∈ l, s.id < n
  ids : Ids l
  rel : l.Pairwise R

theorem TInv.sub {R : Sub → Sub → Prop} {n : Nat} {l l' : List Sub} (h : TInv R n l) (hs : l'.Sublist l) : TInv R n l' :=
  ⟨fun s m => h.lt s (hs.subset m), h.ids.sublist hs, h.rel.sublist hs⟩

theorem TInv.add {R : Sub → Sub → Prop} {n : Nat} {l : List Sub} {s : Sub} (h : TInv R n l) (hid : s.id = n)
    (hr : ∀ x ∈ l, R x s) : TInv R (n + 1) (l ++ [s]) := by
  refine ⟨?_, ?_, ?_⟩
  · intro x hx
    rcases List.mem_append.mp hx with hx | hx
    · have := h.lt x hx; omega
    · simp at hx; subst hx; omega
  · refine List.pairwise_append.mpr ⟨h.ids, by simp, ?_⟩
    intro x hx y hy
    simp at hy; subst hy
    have := h.lt x hx; omega
  · refine List.pairwise_append.mpr ⟨h.rel, by simp, ?_⟩
    intro x hx y hy
    simp at hy; subst hy
    exact hr x hx

theorem TInv.mono {R : Sub → Sub → Prop} {n : Nat} {l : List Sub} (h : TInv R n l) : TInv R (n + 1) l :=
  ⟨fun s m => Nat.lt_succ_of_lt (h.lt s m), h.ids, h.rel⟩

/-- Removing the subscription just added gives the table before. -/
theorem filter_new {R : Sub → Sub → Prop} {n : Nat} {l : List Sub} {s : Sub} (h : TInv R n l) (hid : s.id = n) :
    (l ++ [s]).filter (fun x => x.id != n) = l := by
  rw [List.filter_append]
  have : l.filter (fun x => x.id != n) = l := by
    refine List.filter_eq_self.mpr ?_
    intro x hx
    have := h.lt x hx
    simp; omega
  simp [this, hid]

def RChange (a b : Sub) : Prop := ¬ (a.flag = true ∧ b.flag = true ∧ a.prio = b.prio)
def RPoll (a b : Sub) : Prop := ¬ (a.flag = true ∧ b.flag = true ∧ a.xpath = b.xpath)
def RRpc (a b : Sub) : Prop := ¬ (trimPredicates a.xpath = trimPredicates b.xpath ∧ a.prio = b.prio)
def RAny (_ _ : Sub) : Prop := True

theorem append_cases (t : Tab) (s : Sub) (mem mk : Bool) :
    (append t s mem mk = .err t ∧ mem = false) ∨
    (append t s mem mk = .err { t with subs := t.subs ++ [s] } ∧ mem = true ∧ mk = false ∧ t.subs = []) ∨
    (∃ b, append t s mem mk = .ok ⟨t.subs ++ [s], b⟩ ∧ mem = true ∧ (mk = true ∨ t.subs ≠ []) ∧
      b = if t.subs = [] then true else t.shm) := by
  unfold append
  cases mem
  · simp
  · cases mk
    · by_cases h : t.subs = []
      · simp [h]
      · have : ¬ (t.subs ++ [s]).length = 1 := by simp [h]
        simp only [this]
        simp [h]
    · by_cases h : t.subs = []
      · simp [h]
      · have : ¬ (t.subs ++ [s]).length = 1 := by simp [h]
        simp only [this]
        simp [h]

/-- What a call of the change (notification) subscribe function does to the table. -/
theorem settle_append {R : Sub → Sub → Prop} {n : Nat} {t : Tab} {s : Sub} {mem mk later r : Bool} {t' : Tab}
    (h : TInv R n t.subs) (hid : s.id = n)
    (hset : settle (fun t => del t n) later (append t s mem mk) = some (r, t')) :
    (r = true ∧ t'.subs = t.subs ++ [s] ∧ mem = true ∧ (mk = true ∨ t.subs ≠ []) ∧ later = true) ∨
    (r = false ∧ t'.subs = t.subs ∧ (mem = false ∨ later = false)) ∨
    (r = false ∧ t'.subs = t.subs ++ [s] ∧ mk = false ∧ t.subs = []) := by
  have hi : Ids (t.subs ++ [s]) := by
    refine List.pairwise_append.mpr ⟨h.ids, by simp, ?_⟩
    intro x hx y hy
    simp at hy; subst hy
    have := h.lt x hx; omega
  rcases append_cases t s mem mk with ⟨h1, hm⟩ | ⟨h1, hm, hk, h0⟩ | ⟨b, h1, hm, hk, hb⟩
  · rw [h1] at hset; simp only [settle, Option.some.injEq, Prod.mk.injEq] at hset
    exact Or.inr (Or.inl ⟨hset.1.symm, by rw [← hset.2], Or.inl hm⟩)
  · rw [h1] at hset; simp only [settle, Option.some.injEq, Prod.mk.injEq] at hset
    exact Or.inr (Or.inr ⟨hset.1.symm, by rw [← hset.2], hk, h0⟩)
  · rw [h1] at hset
    cases later
    · simp only [settle, Option.some.injEq, Prod.mk.injEq] at hset
      simp only [Bool.false_eq_true, if_false, Prod.mk.injEq] at hset
      refine Or.inr (Or.inl ⟨hset.1.symm, ?_, Or.inr rfl⟩)
      rw [← hset.2, del_subs _ _ hi]
      exact filter_new h hid
    · simp only [settle, Option.some.injEq, Prod.mk.injEq] at hset
      simp only [if_true, Prod.mk.injEq] at hset
      exact Or.inl ⟨hset.1.symm, by rw [← hset.2], hm, hk, rfl⟩

theorem settle_served {n : Nat} {t : Tab} {s : Sub} {mem later r : Bool} {t' : Tab}
    (h : Served t) (hset : settle (fun t => del t n) later (append t s mem true) = some (r, t')) : Served t' := by
  rcases append_cases t s mem true with ⟨h1, hm⟩ | ⟨h1, hm, hk, h0⟩ | ⟨b, h1, hm, hk, hb⟩
  · rw [h1] at hset; simp only [settle, Option.some.injEq, Prod.mk.injEq] at hset
    rw [← hset.2]; exact h
  · cases hk
  · have hs : Served ⟨t.subs ++ [s], b⟩ := by
      by_cases h0 : t.subs = []
      · simp [Served, hb, h0]
      · simp [Served, hb, h0, h.mpr h0]
    rw [h1] at hset
    cases later
    · simp only [settle, Option.some.injEq, Prod.mk.injEq] at hset
      simp only [Bool.false_eq_true, if_false, Prod.mk.injEq] at hset
      rw [← hset.2]; exact del_served _ _ hs
    · simp only [settle, Option.some.injEq, Prod.mk.injEq] at hset
      simp only [if_true, Prod.mk.injEq] at hset
      rw [← hset.2]; exact hs

theorem settle_append_inv {R : Sub → Sub → Prop} {n : Nat} {t : Tab} {s : Sub} {mem mk later r : Bool} {t' : Tab}
    (h : TInv R n t.subs) (hid : s.id = n) (hr : ∀ x ∈ t.subs, R x s)
    (hset : settle (fun t => del t n) later (append t s mem mk) = some (r, t')) : TInv R (n + 1) t'.subs := by
  rcases settle_append h hid hset with ⟨_, e, _⟩ | ⟨_, e, _⟩ | ⟨_, e, _⟩
  · rw [e]; exact h.add hid hr
  · rw [e]; exact h.mono
  · rw [e]; exact h.add hid hr

/-! ### RPC tables -/

/-- The subscriptions' XPaths are well formed. -/
def Cut (l : List Sub) : Prop := ∀ s ∈ l, ∃ p, trimPredicates s.xpath = some p

/-- Served: the sub SHM of a path exists exactly when it has a subscription that is not internal. -/
def RServed (t : RTab) : Prop := ∀ p, p ∈ t.shm ↔ ∃ s ∈ t.subs, s.cid ≠ 0 ∧ trimPredicates s.xpath = some p

theorem rpcDead_subs (alive : Nat → Bool) (fuel : Nat) : ∀ (i : Nat) (t : RTab), Cut t.subs → t.subs.length ≤ i + fuel →
    (rpcDead alive fuel i t).subs = t.subs.take i ++ (t.subs.drop i).filter (fun s => s.cid == 0 || alive s.cid) := by
  induction fuel with
  | zero =>
    intro i t _ h
    rw [List.drop_of_length_le (by omega), List.take_of_length_le (by omega)]; simp [rpcDead]
  | succ fuel ih =>
    intro i t hc h
    unfold rpcDead
    cases hs : t.subs[i]? with
    | none =>
      have hi : t.subs.length ≤ i := by simpa using hs
      rw [List.drop_of_length_le (by omega), List.take_of_length_le (by omega)]; simp
    | some s =>
      obtain ⟨e1, e2, e3, e4⟩ := erase_parts _ _ _ hs
      have e5 : t.subs.take (i + 1) = t.subs.take i ++ [s] := by rw [List.take_add_one, hs]; rfl
      by_cases ha : s.cid = 0 ∨ alive s.cid = true
      · simp only [if_pos ha]
        rw [ih (i + 1) t hc (by omega), e3, e5, List.filter_cons_of_pos (by simpa using ha)]; simp
      · simp only [if_neg ha]
        obtain ⟨p, hp⟩ := hc s (List.mem_of_getElem? hs)
        simp only [hp]
        rw [e3, List.filter_cons_of_neg (by simpa using ha)]
        have hc' : Cut (rpcFree t p i).subs := fun x hx => hc x ((List.eraseIdx_sublist _ _).subset hx)
        have := ih i (rpcFree t p i) hc' (by simp only [rpcFree]; omega)
        simp only [rpcFree] at this
        rw [e1, e2] at this
        simpa [rpcFree] using this

theorem rpcUnlink_mem (path : Path) (shm : List Path) (l : List Sub) (hc : Cut l) (q : Path) :
    q ∈ rpcUnlink path shm l ↔ q ∈ shm ∧ (q = path → ∃ s ∈ l, s.cid ≠ 0 ∧ trimPredicates s.xpath = some path) := by
  induction l with
  | nil => simp [rpcUnlink, bne_iff_ne]
  | cons a l ih =>
    have hc' : Cut l := fun x hx => hc x (by simp [hx])
    obtain ⟨p, hp⟩ := hc a (by simp)
    unfold rpcUnlink
    by_cases h0 : a.cid = 0
    · rw [if_pos h0, ih hc']; simp [h0]
    · rw [if_neg h0]
      simp only [hp]
      by_cases hpp : p = path
      · rw [if_pos hpp]
        constructor
        · intro h; exact ⟨h, fun _ => ⟨a, by simp, h0, by rw [hp, hpp]⟩⟩
        · exact fun h => h.1
      · rw [if_neg hpp, ih hc']
        simp [hp, hpp]

theorem mem_erase_iff {α : Type} (l : List α) (i : Nat) (s : α) (h : l[i]? = some s) (x : α) :
    x ∈ l ↔ x = s ∨ x ∈ l.eraseIdx i := by
  obtain ⟨hi, hs⟩ := List.getElem?_eq_some_iff.mp h
  have : l = l.take i ++ s :: l.drop (i + 1) := by
    rw [← (erase_parts l i s h).2.2.1, List.take_append_drop]
  rw [List.eraseIdx_eq_take_drop_succ]
  conv => lhs; rw [this]
  simp only [List.mem_append, List.mem_cons]
  grind

theorem rpcFree_served (t : RTab) (p : Path) (i : Nat) (s : Sub) (hc : Cut t.subs) (h : RServed t)
    (hs : t.subs[i]? = some s) (hp : trimPredicates s.xpath = some p) : RServed (rpcFree t p i) := by
  intro q
  have hc' : Cut (t.subs.eraseIdx i) := fun x hx => hc x ((List.eraseIdx_sublist _ _).subset hx)
  simp only [rpcFree]
  rw [rpcUnlink_mem _ _ _ hc', h q]
  constructor
  · rintro ⟨⟨x, hx, hx0, hxq⟩, h2⟩
    by_cases hq : q = p
    · subst hq; exact h2 rfl
    · rcases (mem_erase_iff _ _ _ hs x).mp hx with rfl | hx'
      · rw [hp] at hxq; cases hxq; exact absurd rfl hq
      · exact ⟨x, hx', hx0, hxq⟩
  · rintro ⟨x, hx, hx0, hxq⟩
    exact ⟨⟨x, (List.eraseIdx_sublist _ _).subset hx, hx0, hxq⟩, fun e => ⟨x, hx, hx0, by rw [hxq, e]⟩⟩

theorem rpcDead_served (alive : Nat → Bool) (fuel : Nat) : ∀ (i : Nat) (t : RTab), Cut t.subs → RServed t →
    RServed (rpcDead alive fuel i t) := by
  induction fuel with
  | zero => intro i t _ h; exact h
  | succ fuel ih =>
    intro i t hc h
    unfold rpcDead
    cases hs : t.subs[i]? with
    | none => exact h
    | some s =>
      by_cases ha : s.cid = 0 ∨ alive s.cid = true
      · simp only [if_pos ha]; exact ih _ _ hc h
      · simp only [if_neg ha]
        obtain ⟨p, hp⟩ := hc s (List.mem_of_getElem? hs)
        simp only [hp]
        exact ih _ _ (fun x hx => hc x ((List.eraseIdx_sublist _ _).subset hx)) (rpcFree_served _ _ _ _ hc h hs hp)

theorem findIdx_get {l : List Sub} {id i : Nat} (h : l.findIdx? (fun s => s.id == id) = some i) :
    ∃ s, l[i]? = some s ∧ s.id = id := by
  obtain ⟨hi, hs, _⟩ := List.findIdx?_eq_some_iff_getElem.mp h
  exact ⟨l[i], by simp [hi], by simpa using hs⟩

theorem rpcDel_subs (t : RTab) (id : Nat) (hc : Cut t.subs) (h : Ids t.subs) :
    (rpcDel t id).subs = t.subs.filter (fun s => s.id != id) := by
  unfold rpcDel
  cases hf : t.subs.findIdx? (fun s => s.id == id) with
  | none => simpa using none_filter _ _ hf
  | some i =>
    obtain ⟨s, hs, _⟩ := findIdx_get hf
    obtain ⟨p, hp⟩ := hc s (List.mem_of_getElem? hs)
    simp only [hs, hp, rpcFree]
    exact erase_filter _ _ _ h hf

theorem rpcDel_served (t : RTab) (id : Nat) (hc : Cut t.subs) (h : RServed t) : RServed (rpcDel t id) := by
  unfold rpcDel
  cases hf : t.subs.findIdx? (fun s => s.id == id) with
  | none => exact h
  | some i =>
    obtain ⟨s, hs, _⟩ := findIdx_get hf
    obtain ⟨p, hp⟩ := hc s (List.mem_of_getElem? hs)
    simp only [hs, hp]
    exact rpcFree_served _ _ _ _ hc h hs hp

theorem rpcCheck_none (path : Path) (prio : Nat) (l : List Sub) (hc : Cut l) : ∀ found : Bool,
    (rpcCheck path prio found l = none ↔ ∃ s ∈ l, trimPredicates s.xpath = some path ∧ s.prio = prio) ∧
    (∀ b, rpcCheck path prio found l = some b → b = (found || l.any (fun s => s.cid != 0 && trimPredicates s.xpath == some path))) := by
  induction l with
  | nil => intro found; simp [rpcCheck]
  | cons a l ih =>
    intro found
    have hc' : Cut l := fun x hx => hc x (by simp [hx])
    obtain ⟨p, hp⟩ := hc a (by simp)
    unfold rpcCheck
    simp only [hp]
    by_cases hpp : p = path
    · rw [if_pos hpp]
      by_cases hpr : a.prio = prio
      · rw [if_pos hpr]
        refine ⟨iff_of_true rfl ⟨a, by simp, by rw [hp, hpp], hpr⟩, by simp⟩
      · rw [if_neg hpr]
        refine ⟨?_, ?_⟩
        · rw [(ih hc' _).1]; simp [hpr]
        · intro b hb
          rw [(ih hc' _).2 b hb]
          simp [hp, hpp, Bool.or_assoc]
    · rw [if_neg hpp]
      refine ⟨?_, ?_⟩
      · rw [(ih hc' _).1]; simp [hp, hpp]
      · intro b hb
        rw [(ih hc' _).2 b hb]
        have : (p == path) = false := by simpa using hpp
        simp [hp, this]

/-- What a call of the RPC subscribe function does to the table. -/
theorem settle_rpc {alive : Nat → Bool} {n : Nat} {t : RTab} {s : Sub} {mem mk later r : Bool} {t' : RTab}
    (h : TInv RRpc n t.subs) (hc : Cut t.subs) (hid : s.id = n)
    (hset : settle (fun t => rpcDel t n) later (rpcSubscribe alive t s mem mk) = some (r, t')) :
    (r = false ∧ trimPredicates s.xpath = none ∧ t' = t) ∨
    ((∃ p, trimPredicates s.xpath = some p) ∧
      ((r = true ∧ t'.subs = t.subs.filter (fun s => s.cid == 0 || alive s.cid) ++ [s] ∧ mem = true ∧ later = true ∧
        (∀ x ∈ t.subs.filter (fun s => s.cid == 0 || alive s.cid), RRpc x s)) ∨
      (r = false ∧ t'.subs = t.subs.filter (fun s => s.cid == 0 || alive s.cid) ∧ 
        (mem = false ∨ later = false ∨ ¬ ∀ x ∈ t.subs.filter (fun s => s.cid == 0 || alive s.cid), RRpc x s)) ∨
      (r = false ∧ t'.subs = t.subs.filter (fun s => s.cid == 0 || alive s.cid) ++ [s] ∧ mk = false ∧
        (∀ x ∈ t.subs.filter (fun s => s.cid == 0 || alive s.cid), RRpc x s)))) := by
  unfold rpcSubscribe at hset
  cases hp : trimPredicates s.xpath with
  | none =>
    rw [hp] at hset; simp only [settle, Option.some.injEq, Prod.mk.injEq] at hset
    exact Or.inl ⟨hset.1.symm, rfl, hset.2.symm⟩
  | some p =>
    refine Or.inr ⟨⟨p, rfl⟩, ?_⟩
    rw [hp] at hset
    simp only [rpcAdd] at hset
    have hd := rpcDead_subs alive t.subs.length 0 t hc (by omega)
    generalize rpcDead alive t.subs.length 0 t = u at hset hd
    simp only [List.take_zero, List.nil_append, List.drop_zero] at hd
    have hu : TInv RRpc n u.subs := by rw [hd]; exact h.sub List.filter_sublist
    have huc : Cut u.subs := by rw [hd]; exact fun x hx => hc x (List.mem_filter.mp hx).1
    rw [← hd]
    obtain ⟨c1, c2⟩ := rpcCheck_none p s.prio u.subs huc false
    have hR : (∀ x ∈ u.subs, RRpc x s) ↔ ¬ ∃ x ∈ u.subs, trimPredicates x.xpath = some p ∧ x.prio = s.prio := by
      simp only [RRpc, hp]; grind
    have hi : Ids (u.subs ++ [s]) := by
      refine List.pairwise_append.mpr ⟨hu.ids, by simp, ?_⟩
      intro x hx y hy
      simp at hy; subst hy
      have := hu.lt x hx; omega
    have hcc : Cut (u.subs ++ [s]) := by
      intro x hx
      rcases List.mem_append.mp hx with hx | hx
      · exact huc x hx
      · simp at hx; subst hx; exact ⟨p, hp⟩
    cases hk : rpcCheck p s.prio false u.subs with
    | none =>
      rw [hk] at hset
      simp only [settle, Option.some.injEq, Prod.mk.injEq] at hset
      refine Or.inr (Or.inl ⟨hset.1.symm, by rw [← hset.2], Or.inr (Or.inr ?_)⟩)
      rw [hR]; exact fun e => e (c1.mp hk)
    | some found =>
      have hok : ∀ x ∈ u.subs, RRpc x s := by
        rw [hR]; intro e; rw [c1.mpr e] at hk; cases hk
      rw [hk] at hset
      have fin : ∀ (sh : List Path), settle (fun t => rpcDel t n) later (.ok ⟨u.subs ++ [s], sh⟩) = some (r, t') → mem = true →
          (r = true ∧ t'.subs = u.subs ++ [s] ∧ mem = true ∧ later = true ∧ (∀ x ∈ u.subs, RRpc x s)) ∨
          (r = false ∧ t'.subs = u.subs ∧ (mem = false ∨ later = false ∨ ¬ ∀ x ∈ u.subs, RRpc x s)) ∨
          (r = false ∧ t'.subs = u.subs ++ [s] ∧ mk = false ∧ (∀ x ∈ u.subs, RRpc x s)) := by
        intro sh hset hm
        cases later
        · simp only [settle, Option.some.injEq, Prod.mk.injEq] at hset
          simp only [Bool.false_eq_true, if_false, Prod.mk.injEq] at hset
          refine Or.inr (Or.inl ⟨hset.1.symm, ?_, Or.inr (Or.inl rfl)⟩)
          rw [← hset.2, rpcDel_subs _ _ hcc hi]
          exact filter_new hu hid
        · simp only [settle, Option.some.injEq, Prod.mk.injEq] at hset
          simp only [if_true, Prod.mk.injEq] at hset
          exact Or.inl ⟨hset.1.symm, by rw [← hset.2], hm, rfl, hok⟩
      cases mem
      · simp only [Bool.false_eq_true, if_false, settle, Option.some.injEq, Prod.mk.injEq] at hset
        exact Or.inr (Or.inl ⟨hset.1.symm, by rw [← hset.2], Or.inl rfl⟩)
      · simp only [if_true] at hset
        by_cases hf : found = false ∧ s.cid ≠ 0
        · rw [if_pos hf] at hset
          cases mk
          · simp only [Bool.false_eq_true, if_false, settle, Option.some.injEq, Prod.mk.injEq] at hset
            exact Or.inr (Or.inr ⟨hset.1.symm, by rw [← hset.2], rfl, hok⟩)
          · simp only [if_true] at hset
            exact fin _ hset rfl
        · rw [if_neg hf] at hset
          exact fin _ hset rfl

theorem settle_rpc_served {alive : Nat → Bool} {n : Nat} {t : RTab} {s : Sub} {mem later r : Bool} {t' : RTab}
    (hc : Cut t.subs) (h : RServed t)
    (hset : settle (fun t => rpcDel t n) later (rpcSubscribe alive t s mem true) = some (r, t')) : RServed t' := by
  unfold rpcSubscribe at hset
  cases hp : trimPredicates s.xpath with
  | none =>
    rw [hp] at hset; simp only [settle, Option.some.injEq, Prod.mk.injEq] at hset
    rw [← hset.2]; exact h
  | some p =>
    rw [hp] at hset
    simp only [rpcAdd] at hset
    have hd := rpcDead_subs alive t.subs.length 0 t hc (by omega)
    have hu := rpcDead_served alive t.subs.length 0 t hc h
    generalize rpcDead alive t.subs.length 0 t = u at hset hd hu
    simp only [List.take_zero, List.nil_append, List.drop_zero] at hd
    have huc : Cut u.subs := by rw [hd]; exact fun x hx => hc x (List.mem_filter.mp hx).1
    obtain ⟨c1, c2⟩ := rpcCheck_none p s.prio u.subs huc false
    have hcc : Cut (u.subs ++ [s]) := by
      intro x hx
      rcases List.mem_append.mp hx with hx | hx
      · exact huc x hx
      · simp at hx; subst hx; exact ⟨p, hp⟩
    cases hk : rpcCheck p s.prio false u.subs with
    | none =>
      rw [hk] at hset
      simp only [settle, Option.some.injEq, Prod.mk.injEq] at hset
      rw [← hset.2]; exact hu
    | some found =>
      rw [hk] at hset
      have hfd := c2 found hk
      have fin : ∀ (sh : List Path), settle (fun t => rpcDel t n) later (.ok ⟨u.subs ++ [s], sh⟩) = some (r, t') →
          RServed ⟨u.subs ++ [s], sh⟩ → RServed t' := by
        intro sh hset hs
        cases later
        · simp only [settle, Option.some.injEq, Prod.mk.injEq] at hset
          simp only [Bool.false_eq_true, if_false, Prod.mk.injEq] at hset
          rw [← hset.2]; exact rpcDel_served _ _ hcc hs
        · simp only [settle, Option.some.injEq, Prod.mk.injEq] at hset
          simp only [if_true, Prod.mk.injEq] at hset
          rw [← hset.2]; exact hs
      cases mem
      · simp only [Bool.false_eq_true, if_false, settle, Option.some.injEq, Prod.mk.injEq] at hset
        rw [← hset.2]; exact hu
      · simp only [if_true] at hset
        by_cases hf : found = false ∧ s.cid ≠ 0
        · rw [if_pos hf] at hset
          refine fin _ hset ?_
          intro q
          have := hu q
          simp only [List.mem_cons, List.mem_append, List.not_mem_nil, or_false]
          constructor
          · rintro (rfl | hq)
            · exact ⟨s, Or.inr rfl, hf.2, hp⟩
            · obtain ⟨x, hx, h2⟩ := this.mp hq
              exact ⟨x, Or.inl hx, h2⟩
          · rintro ⟨x, hx | rfl, hx0, hxq⟩
            · exact Or.inr (this.mpr ⟨x, hx, hx0, hxq⟩)
            · rw [hp] at hxq; cases hxq; exact Or.inl rfl
        · rw [if_neg hf] at hset
          refine fin _ hset ?_
          intro q
          have := hu q
          rw [this]
          constructor
          · rintro ⟨x, hx, h2⟩
            exact ⟨x, by simp [hx], h2⟩
          · rintro ⟨x, hx, hx0, hxq⟩
            rcases List.mem_append.mp hx with hx | hx
            · exact ⟨x, hx, hx0, hxq⟩
            · simp at hx; subst hx
              rw [hp] at hxq; cases hxq
              have hft : found = true := by
                cases found
                · exact absurd ⟨rfl, hx0⟩ hf
                · rfl
              rw [hft] at hfd
              simp at hfd
              obtain ⟨y, hy, hy0, hyp⟩ := hfd
              exact ⟨y, hy, hy0, hyp⟩

/-! ### Operational tables -/

/-- Some subscriptions and some paths are removed, the order is kept. -/
inductive Shrinks : List OSub → List OSub → Prop where
  | nil : Shrinks [] []
  | drop {l' l : List OSub} (o : OSub) : Shrinks l' l → Shrinks l' (o :: l)
  | keep {l' l : List OSub} (o : OSub) (k : List XSub) : k.Sublist o.subs → Shrinks l' l →
      Shrinks ({ o with subs := k } :: l') (o :: l)

theorem Shrinks.refl : ∀ l, Shrinks l l
  | [] => .nil
  | o :: l => .keep o o.subs (List.Sublist.refl _) (Shrinks.refl l)

theorem Shrinks.flat {l' l : List OSub} (h : Shrinks l' l) : (flat l').Sublist (flat l) := by
  induction h with
  | nil => exact List.Sublist.refl _
  | drop o _ ih => simp only [SubTables.flat, List.flatMap_cons]; exact ih.trans (List.sublist_append_right _ _)
  | keep o k hk _ ih =>
    simp only [SubTables.flat, List.flatMap_cons]
    exact List.Sublist.append (hk.map _) ih

theorem Shrinks.paths {l' l : List OSub} (h : Shrinks l' l) : (l'.map (·.path)).Sublist (l.map (·.path)) := by
  induction h with
  | nil => exact List.Sublist.refl _
  | drop o _ ih => exact ih.trans (List.sublist_cons_self _ _)
  | keep o k hk _ ih => exact List.Sublist.cons₂ _ ih

theorem Shrinks.each {l' l : List OSub} (h : Shrinks l' l) : ∀ o' ∈ l', ∃ o ∈ l, o'.path = o.path ∧ o'.subs.Sublist o.subs := by
  induction h with
  | nil => simp
  | drop o _ ih =>
    intro o' ho'
    obtain ⟨x, hx, h2⟩ := ih o' ho'
    exact ⟨x, by simp [hx], h2⟩
  | keep o k hk _ ih =>
    intro o' ho'
    rcases List.mem_cons.mp ho' with rfl | ho'
    · exact ⟨o, by simp, rfl, hk⟩
    · obtain ⟨x, hx, h2⟩ := ih o' ho'
      exact ⟨x, by simp [hx], h2⟩

theorem operDead_shrinks (alive : Nat → Bool) : ∀ l, Shrinks (operDead alive l) l
  | [] => .nil
  | o :: l => by
    unfold operDead
    simp only []
    split
    · exact .drop o (operDead_shrinks alive l)
    · exact .keep o _ List.filter_sublist (operDead_shrinks alive l)

theorem operDel_shrinks (id : Nat) : ∀ l, Shrinks (operDel id l) l
  | [] => .nil
  | o :: l => by
    unfold operDel
    split
    · simp only []
      split
      · exact .drop o (Shrinks.refl l)
      · exact .keep o _ (List.eraseIdx_sublist _ _) (Shrinks.refl l)
    · exact .keep o o.subs (List.Sublist.refl _) (operDel_shrinks id l)

structure OInv (n : Nat) (l : List OSub) : Prop where
  lt : ∀ x ∈ flat l, x.2.id < n
  ids : (flat l).Pairwise (fun a b => a.2.id ≠ b.2.id)
  sorted : (l.map (·.path)).Pairwise (fun a b => lenNoPredicates a ≤ lenNoPredicates b)
  paths : (l.map (·.path)).Pairwise (· ≠ ·)
  prio : ∀ o ∈ l, o.subs.Pairwise (fun a b => a.prio < b.prio)
  merge : ∀ o ∈ l, ∀ x ∈ o.subs.tail, x.merge = true

theorem OInv.shrink {n : Nat} {l l' : List OSub} (h : OInv n l) (hs : Shrinks l' l) : OInv n l' := by
  refine ⟨fun x hx => h.lt x (hs.flat.subset hx), h.ids.sublist hs.flat, h.sorted.sublist hs.paths,
    h.paths.sublist hs.paths, ?_, ?_⟩
  · intro o ho
    obtain ⟨x, hx, _, h2⟩ := hs.each o ho
    exact (h.prio x hx).sublist h2
  · intro o ho y hy
    obtain ⟨x, hx, _, h2⟩ := hs.each o ho
    exact h.merge x hx y (h2.tail.subset hy)

theorem OInv.mono {n : Nat} {l : List OSub} (h : OInv n l) : OInv (n + 1) l :=
  ⟨fun x hx => Nat.lt_succ_of_lt (h.lt x hx), h.ids, h.sorted, h.paths, h.prio, h.merge⟩

theorem flat_append (a b : List OSub) : flat (a ++ b) = flat a ++ flat b := by simp [flat]

theorem flat_cons (o : OSub) (b : List OSub) : flat (o :: b) = (o.subs.map fun x => (o.path, x)) ++ flat b := by simp [flat]

theorem operPos_insert {path : Path} {l : List OSub} : ∀ {before b a : List OSub}, operPos path before l = .insert b a →
    ∃ mid, b = before ++ mid ∧ l = mid ++ a ∧ (∀ o ∈ mid, lenNoPredicates o.path ≤ lenNoPredicates path ∧ o.path ≠ path) ∧
      (∀ o, a.head? = some o → lenNoPredicates path < lenNoPredicates o.path) ∧ ∀ o ∈ mid, o.subs ≠ [] := by
  induction l with
  | nil =>
    intro before b a h
    simp only [operPos, Pos.insert.injEq] at h
    exact ⟨[], by simp [h.1], by simp [← h.2], by simp, by simp [← h.2], by simp⟩
  | cons o l ih =>
    intro before b a h
    unfold operPos at h
    split at h
    · cases h
    · rename_i hne
      split at h
      · rename_i hgt
        simp only [Pos.insert.injEq] at h
        exact ⟨[], by simp [h.1], by simp [← h.2], by simp, by simp [← h.2]; omega, by simp⟩
      · rename_i hle
        split at h
        · cases h
        · rename_i hnf
          obtain ⟨mid, h1, h2, h3, h4, h5⟩ := ih h
          refine ⟨o :: mid, by simp [h1], by simp [h2], ?_, h4, ?_⟩
          · intro x hx
            rcases List.mem_cons.mp hx with rfl | hx
            · refine ⟨by omega, ?_⟩
              intro e; exact hnf ⟨by rw [e], e⟩
            · exact h3 x hx
          · intro x hx
            rcases List.mem_cons.mp hx with rfl | hx
            · exact hne
            · exact h5 x hx

theorem operPos_found {path : Path} {l : List OSub} : ∀ {before b a : List OSub} {o : OSub},
    operPos path before l = .found b o a → ∃ mid, b = before ++ mid ∧ l = mid ++ o :: a ∧ o.path = path ∧ o.subs ≠ [] := by
  induction l with
  | nil => intro before b a o h; simp [operPos] at h
  | cons x l ih =>
    intro before b a o h
    unfold operPos at h
    split at h
    · cases h
    · rename_i hne
      split at h
      · cases h
      · split at h
        · rename_i hf
          simp only [Pos.found.injEq] at h
          obtain ⟨rfl, rfl, rfl⟩ := h
          exact ⟨[], by simp, by simp, hf.2, hne⟩
        · obtain ⟨mid, h1, h2, h3⟩ := ih h
          exact ⟨x :: mid, by simp [h1], by simp [h2], h3⟩

theorem operPos_hang {path : Path} {l : List OSub} : ∀ {before : List OSub}, operPos path before l = .hang →
    ∃ o ∈ l, o.subs = [] := by
  induction l with
  | nil => intro before h; simp [operPos] at h
  | cons x l ih =>
    intro before h
    unfold operPos at h
    split at h
    · rename_i h0; exact ⟨x, by simp, h0⟩
    · split at h
      · cases h
      · split at h
        · cases h
        · obtain ⟨o, ho, h0⟩ := ih h
          exact ⟨o, by simp [ho], h0⟩

theorem nextPrio_gt (l : List XSub) (h : l.Pairwise (fun a b => a.prio < b.prio)) : ∀ x ∈ l, x.prio < nextPrio l := by
  intro x hx
  rcases List.eq_nil_or_concat l with rfl | ⟨ini, y, rfl⟩
  · simp at hx
  · rw [List.concat_eq_append] at *
    simp only [nextPrio, List.getLast?_append, List.getLast?_singleton]
    obtain ⟨_, _, h3⟩ := List.pairwise_append.mp h
    rcases List.mem_append.mp hx with hx | hx
    · have := h3 x hx y (by simp)
      simp; omega
    · simp at hx; subst hx; simp

/-- Inserting a new path. -/
theorem OInv.insert {n : Nat} {b a : List OSub} {path : Path} {k : List XSub} (h : OInv n (b ++ a))
    (h1 : ∀ o ∈ b, lenNoPredicates o.path ≤ lenNoPredicates path ∧ o.path ≠ path)
    (h2 : ∀ o, a.head? = some o → lenNoPredicates path < lenNoPredicates o.path)
    (hk : k = [] ∨ ∃ cid m, k = [⟨n, cid, 1, m⟩]) : OInv (n + 1) (b ++ ⟨path, k⟩ :: a) := by
  have ha : ∀ o ∈ a, lenNoPredicates path < lenNoPredicates o.path := by
    cases a with
    | nil => simp
    | cons o r =>
      intro x hx
      have ho := h2 o rfl
      rcases List.mem_cons.mp hx with rfl | hx
      · exact ho
      · have := h.sorted
        rw [List.map_append, List.map_cons, List.pairwise_append] at this
        have := (List.pairwise_cons.mp this.2.1).1 x.path (List.mem_map_of_mem hx)
        omega
  have hfl := h.lt
  have hid := h.ids
  rw [flat_append] at hfl hid
  have hkm : ∀ x ∈ k.map (fun x => (path, x)), x.2.id = n := by
    rcases hk with rfl | ⟨cid, m, rfl⟩ <;> simp
  refine ⟨?_, ?_, ?_, ?_, ?_, ?_⟩
  · intro x hx
    rw [flat_append, flat_cons] at hx
    simp only [List.mem_append] at hx
    rcases hx with hx | hx | hx
    · have := hfl x (by simp [hx]); omega
    · have := hkm x hx; omega
    · have := hfl x (by simp [hx]); omega
  · rw [flat_append, flat_cons, List.pairwise_append]
    rw [List.pairwise_append] at hid
    refine ⟨hid.1, ?_, ?_⟩
    · rw [List.pairwise_append]
      refine ⟨?_, hid.2.1, ?_⟩
      · rcases hk with rfl | ⟨cid, m, rfl⟩ <;> simp
      · intro x hx y hy
        have := hkm x hx
        have := hfl y (by simp [hy]); omega
    · intro x hx y hy
      rcases List.mem_append.mp hy with hy | hy
      · have := hkm y hy
        have := hfl x (by simp [hx]); omega
      · exact hid.2.2 x hx y hy
  · have := h.sorted
    rw [List.map_append, List.pairwise_append] at this
    rw [List.map_append, List.map_cons, List.pairwise_append]
    refine ⟨this.1, List.pairwise_cons.mpr ⟨?_, this.2.1⟩, ?_⟩
    · intro p hp
      obtain ⟨o, ho, rfl⟩ := List.mem_map.mp hp
      have := ha o ho; simp only; omega
    · intro p hp q hq
      rcases List.mem_cons.mp hq with rfl | hq
      · obtain ⟨o, ho, rfl⟩ := List.mem_map.mp hp
        exact (h1 o ho).1
      · exact this.2.2 p hp q hq
  · have := h.paths
    rw [List.map_append, List.pairwise_append] at this
    rw [List.map_append, List.map_cons, List.pairwise_append]
    refine ⟨this.1, List.pairwise_cons.mpr ⟨?_, this.2.1⟩, ?_⟩
    · intro p hp
      obtain ⟨o, ho, rfl⟩ := List.mem_map.mp hp
      have := ha o ho
      intro e
      simp only at e
      rw [e] at this; omega
    · intro p hp q hq
      rcases List.mem_cons.mp hq with rfl | hq
      · obtain ⟨o, ho, rfl⟩ := List.mem_map.mp hp
        exact (h1 o ho).2
      · exact this.2.2 p hp q hq
  · intro o ho
    simp only [List.mem_append, List.mem_cons] at ho
    rcases ho with ho | rfl | ho
    · exact h.prio o (by simp [ho])
    · rcases hk with rfl | ⟨cid, m, rfl⟩ <;> simp
    · exact h.prio o (by simp [ho])
  · intro o ho
    simp only [List.mem_append, List.mem_cons] at ho
    rcases ho with ho | rfl | ho
    · exact h.merge o (by simp [ho])
    · rcases hk with rfl | ⟨cid, m, rfl⟩ <;> simp
    · exact h.merge o (by simp [ho])

/-- Another subscription for a path. -/
theorem OInv.addTo {n : Nat} {b a : List OSub} {o : OSub} {cid : Nat} (h : OInv n (b ++ o :: a)) :
    OInv (n + 1) (b ++ { o with subs := o.subs ++ [⟨n, cid, nextPrio o.subs, true⟩] } :: a) := by
  have hfl := h.lt
  have hid := h.ids
  rw [flat_append, flat_cons] at hfl hid
  have hp : (b ++ { o with subs := o.subs ++ [⟨n, cid, nextPrio o.subs, true⟩] } :: a).map (·.path) = (b ++ o :: a).map (·.path) := by
    simp
  refine ⟨?_, ?_, ?_, ?_, ?_, ?_⟩
  · intro x hx
    rw [flat_append, flat_cons] at hx
    simp only [List.mem_append, List.map_append, List.map_cons, List.map_nil, List.mem_singleton] at hx
    rcases hx with hx | (hx | rfl) | hx
    · have := hfl x (by simp [hx]); omega
    · have := hfl x (by simp only [List.mem_append]; exact Or.inr (Or.inl hx)); omega
    · simp
    · have := hfl x (by simp [hx]); omega
  · have hperm : (flat (b ++ { o with subs := o.subs ++ [⟨n, cid, nextPrio o.subs, true⟩] } :: a)).Perm
        ((o.path, ⟨n, cid, nextPrio o.subs, true⟩) :: (flat b ++ (o.subs.map (fun x => (o.path, x)) ++ flat a))) := by
      rw [flat_append, flat_cons]
      simp only [List.map_append, List.map_cons, List.map_nil, List.append_assoc, List.singleton_append]
      rw [← List.append_assoc, ← List.append_assoc]
      exact List.perm_middle
    refine (hperm.pairwise_iff (R := fun a b => a.2.id ≠ b.2.id) (fun h => h.symm)).mpr ?_
    refine List.pairwise_cons.mpr ⟨?_, hid⟩
    intro x hx
    have := hfl x hx
    simp only; omega
  · rw [hp]; exact h.sorted
  · rw [hp]; exact h.paths
  · intro x hx
    simp only [List.mem_append, List.mem_cons] at hx
    rcases hx with hx | rfl | hx
    · exact h.prio x (by simp [hx])
    · have := h.prio o (by simp)
      refine List.pairwise_append.mpr ⟨this, by simp, ?_⟩
      intro y hy z hz
      simp at hz; subst hz
      exact nextPrio_gt _ this y hy
    · exact h.prio x (by simp [hx])
  · intro x hx
    simp only [List.mem_append, List.mem_cons] at hx
    rcases hx with hx | rfl | hx
    · exact h.merge x (by simp [hx])
    · intro y hy
      simp only at hy
      cases hs : o.subs with
      | nil => rw [hs] at hy; simp at hy
      | cons z zs =>
        rw [hs] at hy
        simp only [List.cons_append, List.tail_cons, List.mem_append, List.mem_singleton] at hy
        rcases hy with hy | rfl
        · exact h.merge o (by simp) y (by rw [hs]; exact hy)
        · rfl
    · exact h.merge x (by simp [hx])

theorem settle_oper_inv {alive : Nat → Bool} {n : Nat} {l : List OSub} {path : Path} {cid : Nat} {m mem1 mem2 mk later r : Bool}
    {l' : List OSub} (h : OInv n l)
    (hset : settle (fun t => operDel n t) later (operAdd alive l path n cid m mem1 mem2 mk) = some (r, l')) :
    OInv (n + 1) l' := by
  have hd := h.shrink (operDead_shrinks alive l)
  have fin : ∀ (x : List OSub) (b : Bool), OInv (n + 1) x →
      settle (fun t => operDel n t) later (if b then .ok x else .err x) = some (r, l') → OInv (n + 1) l' := by
    intro x b hx hset
    cases b
    · simp only [Bool.false_eq_true, if_false, settle, Option.some.injEq, Prod.mk.injEq] at hset
      rw [← hset.2]; exact hx
    · simp only [if_true] at hset
      cases later
      · simp only [settle, Bool.false_eq_true, if_false, Option.some.injEq, Prod.mk.injEq] at hset
        rw [← hset.2]; exact hx.shrink (operDel_shrinks _ _)
      · simp only [settle, if_true, Option.some.injEq, Prod.mk.injEq] at hset
        rw [← hset.2]; exact hx
  have finE : ∀ (x : List OSub), OInv (n + 1) x →
      settle (fun t => operDel n t) later (.err x) = some (r, l') → OInv (n + 1) l' := fun x hx hs => fin x false hx hs
  unfold operAdd at hset
  simp only [] at hset
  cases hp : operPos path [] (operDead alive l) with
  | hang => rw [hp] at hset; simp [settle] at hset
  | found b o a =>
    rw [hp] at hset
    simp only [] at hset
    obtain ⟨mid, h1, h2, _⟩ := operPos_found hp
    simp only [List.nil_append] at h1
    subst h1
    cases m
    · simp only [Bool.false_eq_true, if_false] at hset
      exact finE _ hd.mono hset
    · cases mem2
      · simp only [Bool.false_eq_true, if_false, if_true] at hset
        exact finE _ hd.mono hset
      · simp only [if_true] at hset
        refine fin _ mk ?_ hset
        rw [h2] at hd
        exact hd.addTo
  | insert b a =>
    rw [hp] at hset
    simp only [] at hset
    obtain ⟨mid, h1, h2, h3, h4, _⟩ := operPos_insert hp
    simp only [List.nil_append] at h1
    subst h1
    cases mem1
    · simp only [Bool.false_eq_true, if_false] at hset
      exact finE _ hd.mono hset
    · rw [h2] at hd
      cases mem2
      · simp only [Bool.false_eq_true, if_false, if_true] at hset
        exact finE _ (hd.insert h3 h4 (Or.inl rfl)) hset
      · simp only [if_true] at hset
        exact fin _ mk (hd.insert h3 h4 (Or.inr ⟨_, _, rfl⟩)) hset

theorem map_filter_path (p : Path) (k : List XSub) (f : XSub → Bool) :
    (k.map (fun x => (p, x))).filter (fun y => f y.2) = (k.filter f).map (fun x => (p, x)) := by
  induction k with
  | nil => rfl
  | cons a k ih => by_cases h : f a = true <;> simp [h, ih]

theorem operDead_flat (alive : Nat → Bool) : ∀ l, flat (operDead alive l) = (flat l).filter (fun x => alive x.2.cid)
  | [] => rfl
  | o :: l => by
    unfold operDead
    simp only []
    rw [flat_cons, List.filter_append, ← operDead_flat alive l, map_filter_path o.path o.subs (fun x => alive x.cid)]
    split
    · rename_i h; simp [h.1]
    · rw [flat_cons]

theorem xerase_filter : ∀ (l : List XSub) (id i : Nat), l.Pairwise (fun a b => a.id ≠ b.id) →
    l.findIdx? (fun s => s.id == id) = some i → l.eraseIdx i = l.filter (fun s => s.id != id) := by
  intro l id
  induction l with
  | nil => intro i _ h; simp at h
  | cons a l ih =>
    intro i hp h
    rw [List.findIdx?_cons] at h
    obtain ⟨ha, hp'⟩ := List.pairwise_cons.mp hp
    by_cases hid : a.id = id
    · simp [hid] at h; subst h
      simp only [List.eraseIdx_cons_zero, List.filter_cons, hid]
      simp
      refine (List.filter_eq_self.mpr ?_).symm
      intro x hx
      have := ha x hx
      simp; omega
    · simp [hid] at h
      obtain ⟨j, hj, rfl⟩ := h
      have := ih j hp' (by simpa using hj)
      simp [hid, this]

theorem operDel_flat (id : Nat) : ∀ l, (flat l).Pairwise (fun a b => a.2.id ≠ b.2.id) →
    flat (operDel id l) = (flat l).filter (fun x => x.2.id != id)
  | [], _ => rfl
  | o :: l, h => by
    rw [flat_cons] at h
    obtain ⟨h1, h2, h3⟩ := List.pairwise_append.mp h
    have h1' : o.subs.Pairwise (fun a b => a.id ≠ b.id) := by simpa [List.pairwise_map] using h1
    unfold operDel
    rw [flat_cons, List.filter_append, map_filter_path o.path o.subs (fun x => x.id != id)]
    cases hf : o.subs.findIdx? (fun x => x.id == id) with
    | none =>
      have : o.subs.filter (fun x => x.id != id) = o.subs := by
        refine List.filter_eq_self.mpr ?_
        intro x hx
        have := List.findIdx?_eq_none_iff.mp hf x hx
        simpa using this
      simp only []
      rw [flat_cons, operDel_flat id l h2, this]
    | some j =>
      have he := xerase_filter _ _ _ h1' hf
      obtain ⟨hj, hjs, _⟩ := List.findIdx?_eq_some_iff_getElem.mp hf
      have hrest : (flat l).filter (fun x => x.2.id != id) = flat l := by
        refine List.filter_eq_self.mpr ?_
        intro x hx
        have := h3 (o.path, o.subs[j]) (List.mem_map_of_mem (List.getElem_mem hj)) x hx
        have hjs' : o.subs[j].id = id := by simpa using hjs
        simp only at this
        rw [hjs'] at this
        simp; exact fun e => this e.symm
      simp only []
      rw [← he, hrest]
      split
      · rename_i h0; simp [h0]
      · rw [flat_cons]

/-! ### The whole world -/

structure Inv (w : World) : Prop where
  change : ∀ k, TInv RChange w.next (w.change k).subs
  notif : ∀ k, TInv RAny w.next (w.notif k).subs
  poll : ∀ k, TInv RPoll w.next (w.poll k)
  rpc : ∀ k, TInv RRpc w.next (w.rpc k).subs
  cut : ∀ k, Cut (w.rpc k).subs
  oper : ∀ k, OInv w.next (w.oper k)

theorem upd_all {α : Type} {P : α → Prop} {f : Nat → α} {k : Nat} {a : α} (h : ∀ i, P (f i)) (ha : P a) :
    ∀ i, P (upd f k a i) := by
  intro i
  unfold upd
  split
  · exact ha
  · exact h i

theorem tinv_nil (R : Sub → Sub → Prop) (n : Nat) : TInv R n [] := ⟨by simp, List.Pairwise.nil, List.Pairwise.nil⟩

theorem Inv.init : Inv init :=
  ⟨fun _ => tinv_nil _ _, fun _ => tinv_nil _ _, fun _ => tinv_nil _ _, fun _ => tinv_nil _ _, fun _ => by simp [SubTables.init, Cut],
    fun _ => ⟨by simp [SubTables.init, flat], by simp [SubTables.init, flat], by simp [SubTables.init], by simp [SubTables.init],
      by simp [SubTables.init], by simp [SubTables.init]⟩⟩

theorem change_clear {alive : Nat → Bool} {t : Tab} {s : Sub}
    (h : ¬ (s.flag && (removeDead alive t).subs.any (fun x => x.flag && x.prio == s.prio)) = true) :
    ∀ x ∈ (removeDead alive t).subs, RChange x s := by
  intro x hx hR
  apply h
  simp only [Bool.and_eq_true, List.any_eq_true]
  exact ⟨hR.2.1, x, hx, hR.1, by simpa using hR.2.2⟩

/-- What a call of the change subscribe function does to the table. -/
theorem settle_change {alive : Nat → Bool} {n : Nat} {t : Tab} {s : Sub} {mem mk later r : Bool} {t' : Tab}
    (h : TInv RChange n t.subs) (hid : s.id = n)
    (hset : settle (fun t => del t n) later (changeAdd alive t s mem mk) = some (r, t')) :
    (r = true ∧ t'.subs = t.subs.filter (fun s => alive s.cid) ++ [s] ∧ (∀ x ∈ t.subs.filter (fun s => alive s.cid), RChange x s)) ∨
    (r = false ∧ t'.subs = t.subs.filter (fun s => alive s.cid) ∧
      (mem = false ∨ later = false ∨ ¬ (∀ x ∈ t.subs.filter (fun s => alive s.cid), RChange x s))) ∨
    (r = false ∧ t'.subs = t.subs.filter (fun s => alive s.cid) ++ [s] ∧ mk = false ∧
      (∀ x ∈ t.subs.filter (fun s => alive s.cid), RChange x s)) := by
  unfold changeAdd at hset
  simp only [] at hset
  rw [← removeDead_subs]
  have hd : TInv RChange n (removeDead alive t).subs := by rw [removeDead_subs]; exact h.sub List.filter_sublist
  by_cases hc : (s.flag && (removeDead alive t).subs.any (fun x => x.flag && x.prio == s.prio)) = true
  · rw [if_pos hc] at hset
    simp only [settle, Option.some.injEq, Prod.mk.injEq] at hset
    refine Or.inr (Or.inl ⟨hset.1.symm, by rw [← hset.2], Or.inr (Or.inr ?_)⟩)
    simp only [Bool.and_eq_true, List.any_eq_true] at hc
    obtain ⟨h1, x, hx, h2, h3⟩ := hc
    exact fun e => e x hx ⟨h2, h1, by simpa using h3⟩
  · rw [if_neg hc] at hset
    have hcl := change_clear hc
    rcases settle_append hd hid hset with ⟨e1, e2, _⟩ | ⟨e1, e2, e3⟩ | ⟨e1, e2, e3, _⟩
    · exact Or.inl ⟨e1, e2, hcl⟩
    · exact Or.inr (Or.inl ⟨e1, e2, by rcases e3 with e | e <;> simp [e]⟩)
    · exact Or.inr (Or.inr ⟨e1, e2, e3, hcl⟩)

theorem settle_poll {alive : Nat → Bool} {n : Nat} {l : List Sub} {s : Sub} {mem later r : Bool} {l' : List Sub}
    (h : TInv RPoll n l) (hid : s.id = n)
    (hset : settle (fun t => pollDel t n) later (pollAdd alive l s mem) = some (r, l')) :
    (r = true ∧ l' = l.filter (fun s => alive s.cid) ++ [s] ∧ (∀ x ∈ l.filter (fun s => alive s.cid), RPoll x s)) ∨
    (r = false ∧ l' = l.filter (fun s => alive s.cid) ∧
      (mem = false ∨ later = false ∨ ¬ (∀ x ∈ l.filter (fun s => alive s.cid), RPoll x s))) := by
  unfold pollAdd at hset
  simp only [pollDead_eq] at hset
  have hd : TInv RPoll n (l.filter (fun s => alive s.cid)) := h.sub List.filter_sublist
  generalize l.filter (fun s => alive s.cid) = u at *
  by_cases hc : (s.flag && u.any (fun x => x.flag && x.xpath == s.xpath)) = true
  · rw [if_pos hc] at hset
    simp only [settle, Option.some.injEq, Prod.mk.injEq] at hset
    refine Or.inr ⟨hset.1.symm, hset.2.symm, Or.inr (Or.inr ?_)⟩
    simp only [Bool.and_eq_true, List.any_eq_true] at hc
    obtain ⟨h1, x, hx, h2, h3⟩ := hc
    exact fun e => e x hx ⟨h2, h1, by simpa using h3⟩
  · rw [if_neg hc] at hset
    have hcl : ∀ x ∈ u, RPoll x s := by
      intro x hx hR
      apply hc
      simp only [Bool.and_eq_true, List.any_eq_true]
      exact ⟨hR.2.1, x, hx, hR.1, by simpa using hR.2.2⟩
    cases mem
    · simp only [Bool.false_eq_true, if_false, settle, Option.some.injEq, Prod.mk.injEq] at hset
      exact Or.inr ⟨hset.1.symm, hset.2.symm, Or.inl rfl⟩
    · cases later
      · simp only [settle, Bool.false_eq_true, if_true, if_false, Option.some.injEq, Prod.mk.injEq] at hset
        refine Or.inr ⟨hset.1.symm, ?_, Or.inr (Or.inl rfl)⟩
        rw [← hset.2, pollDel_eq _ _ (hd.add hid hcl).ids]
        exact filter_new hd hid
      · simp only [settle, if_true, Option.some.injEq, Prod.mk.injEq] at hset
        exact Or.inl ⟨hset.1.symm, hset.2.symm, hcl⟩

theorem Inv.step {w v : World} {op : Op} {r : Bool} (h : Inv w) (hs : step w op = some (r, v)) : Inv v := by
  cases op with
  | die c =>
    simp only [SubTables.step, Option.some.injEq, Prod.mk.injEq] at hs
    rw [← hs.2]; exact ⟨h.change, h.notif, h.poll, h.rpc, h.cut, h.oper⟩
  | subChange k cid prio u xp mem mk later =>
    simp only [SubTables.step, Option.map_eq_some_iff, Prod.mk.injEq] at hs
    obtain ⟨⟨r', t'⟩, hset, _, rfl⟩ := hs
    refine ⟨upd_all (P := fun (t : Tab) => TInv RChange (w.next + 1) t.subs) (fun i => (h.change i).mono) ?_, fun i => (h.notif i).mono, fun i => (h.poll i).mono, fun i => (h.rpc i).mono, h.cut,
      fun i => (h.oper i).mono⟩
    have hd : TInv RChange w.next ((w.change k).subs.filter (fun s => w.alive s.cid)) := (h.change k).sub List.filter_sublist
    rcases settle_change (h.change k) rfl hset with ⟨_, e, hc⟩ | ⟨_, e, _⟩ | ⟨_, e, _, hc⟩
    · simp only [e]; exact hd.add rfl hc
    · simp only [e]; exact hd.mono
    · simp only [e]; exact hd.add rfl hc
  | unsubChange k id =>
    simp only [SubTables.step, Option.some.injEq, Prod.mk.injEq] at hs
    rw [← hs.2]
    refine ⟨upd_all (P := fun (t : Tab) => TInv RChange w.next t.subs) h.change ?_, h.notif, h.poll, h.rpc, h.cut, h.oper⟩
    rw [del_subs _ _ (h.change k).ids]; exact (h.change k).sub List.filter_sublist
  | subNotif k cid xp mem mk later =>
    simp only [SubTables.step, Option.map_eq_some_iff, Prod.mk.injEq] at hs
    obtain ⟨⟨r', t'⟩, hset, _, rfl⟩ := hs
    refine ⟨fun i => (h.change i).mono, upd_all (P := fun (t : Tab) => TInv RAny (w.next + 1) t.subs) (fun i => (h.notif i).mono) ?_, fun i => (h.poll i).mono, fun i => (h.rpc i).mono, h.cut,
      fun i => (h.oper i).mono⟩
    have hd : TInv RAny w.next (removeDead w.alive (w.notif k)).subs := by
      rw [removeDead_subs]; exact (h.notif k).sub List.filter_sublist
    exact settle_append_inv hd rfl (fun _ _ => trivial) hset
  | unsubNotif k id =>
    simp only [SubTables.step, Option.some.injEq, Prod.mk.injEq] at hs
    rw [← hs.2]
    refine ⟨h.change, upd_all (P := fun (t : Tab) => TInv RAny w.next t.subs) h.notif ?_, h.poll, h.rpc, h.cut, h.oper⟩
    rw [del_subs _ _ (h.notif k).ids]; exact (h.notif k).sub List.filter_sublist
  | subPoll k cid d xp mem later =>
    simp only [SubTables.step, Option.map_eq_some_iff, Prod.mk.injEq] at hs
    obtain ⟨⟨r', t'⟩, hset, _, rfl⟩ := hs
    refine ⟨fun i => (h.change i).mono, fun i => (h.notif i).mono, upd_all (P := fun t => TInv RPoll (w.next + 1) t) (fun i => (h.poll i).mono) ?_, fun i => (h.rpc i).mono, h.cut,
      fun i => (h.oper i).mono⟩
    have hd : TInv RPoll w.next ((w.poll k).filter (fun s => w.alive s.cid)) := (h.poll k).sub List.filter_sublist
    rcases settle_poll (h.poll k) rfl hset with ⟨_, e, hc⟩ | ⟨_, e, _⟩
    · simp only [e]; exact hd.add rfl hc
    · simp only [e]; exact hd.mono
  | unsubPoll k id =>
    simp only [SubTables.step, Option.some.injEq, Prod.mk.injEq] at hs
    rw [← hs.2]
    refine ⟨h.change, h.notif, upd_all (P := fun t => TInv RPoll w.next t) h.poll ?_, h.rpc, h.cut, h.oper⟩
    rw [pollDel_eq _ _ (h.poll k).ids]; exact (h.poll k).sub List.filter_sublist
  | subRpc k cid prio xp mem mk later =>
    simp only [SubTables.step, Option.map_eq_some_iff, Prod.mk.injEq] at hs
    obtain ⟨⟨r', t'⟩, hset, _, rfl⟩ := hs
    have hd : TInv RRpc w.next ((w.rpc k).subs.filter (fun s => s.cid == 0 || w.alive s.cid)) := (h.rpc k).sub List.filter_sublist
    have hdc : Cut ((w.rpc k).subs.filter (fun s => s.cid == 0 || w.alive s.cid)) := fun x hx => h.cut k x (List.mem_filter.mp hx).1
    have key : TInv RRpc (w.next + 1) t'.subs ∧ Cut t'.subs := by
      rcases settle_rpc (h.rpc k) (h.cut k) rfl hset with ⟨_, _, e⟩ | ⟨⟨p, hp⟩, ⟨_, e, _, _, hc⟩ | ⟨_, e, _⟩ | ⟨_, e, _, hc⟩⟩
      · rw [e]; exact ⟨(h.rpc k).mono, h.cut k⟩
      · rw [e]
        refine ⟨hd.add rfl hc, ?_⟩
        intro x hx
        rcases List.mem_append.mp hx with hx | hx
        · exact hdc x hx
        · simp at hx; subst hx; exact ⟨p, hp⟩
      · rw [e]; exact ⟨hd.mono, hdc⟩
      · rw [e]
        refine ⟨hd.add rfl hc, ?_⟩
        intro x hx
        rcases List.mem_append.mp hx with hx | hx
        · exact hdc x hx
        · simp at hx; subst hx; exact ⟨p, hp⟩
    exact ⟨fun i => (h.change i).mono, fun i => (h.notif i).mono, fun i => (h.poll i).mono,
      upd_all (P := fun (t : RTab) => TInv RRpc (w.next + 1) t.subs) (fun i => (h.rpc i).mono) key.1,
      upd_all (P := fun (t : RTab) => Cut t.subs) h.cut key.2, fun i => (h.oper i).mono⟩
  | unsubRpc k id =>
    simp only [SubTables.step, Option.some.injEq, Prod.mk.injEq] at hs
    rw [← hs.2]
    refine ⟨h.change, h.notif, h.poll, upd_all (P := fun (t : RTab) => TInv RRpc w.next t.subs) h.rpc ?_,
      upd_all (P := fun (t : RTab) => Cut t.subs) h.cut ?_, h.oper⟩
    · rw [rpcDel_subs _ _ (h.cut k) (h.rpc k).ids]; exact (h.rpc k).sub List.filter_sublist
    · rw [rpcDel_subs _ _ (h.cut k) (h.rpc k).ids]; exact fun x hx => h.cut k x (List.mem_filter.mp hx).1
  | subOper k cid m p mem1 mem2 mk later =>
    simp only [SubTables.step, Option.map_eq_some_iff, Prod.mk.injEq] at hs
    obtain ⟨⟨r', t'⟩, hset, _, rfl⟩ := hs
    exact ⟨fun i => (h.change i).mono, fun i => (h.notif i).mono, fun i => (h.poll i).mono, fun i => (h.rpc i).mono, h.cut,
      upd_all (P := fun t => OInv (w.next + 1) t) (fun i => (h.oper i).mono) (settle_oper_inv (h.oper k) hset)⟩
  | unsubOper k id =>
    simp only [SubTables.step, Option.some.injEq, Prod.mk.injEq] at hs
    rw [← hs.2]
    exact ⟨h.change, h.notif, h.poll, h.rpc, h.cut,
      upd_all (P := fun t => OInv w.next t) h.oper ((h.oper k).shrink (operDel_shrinks _ _))⟩

theorem reach_inv {ok : Op → Prop} {w : World} (h : Reach ok w) : Inv w := by
  induction h with
  | init => exact Inv.init
  | step _ _ hs ih => exact ih.step hs

/-- In histories without failures every subscription is served and no path is left without a subscription. -/
structure Good (w : World) : Prop where
  change : ∀ k, Served (w.change k)
  notif : ∀ k, Served (w.notif k)
  rpc : ∀ k, RServed (w.rpc k)
  oper : ∀ k, ∀ o ∈ w.oper k, o.subs ≠ []

theorem settle_oper_full {alive : Nat → Bool} {n : Nat} {l : List OSub} {path : Path} {cid : Nat} {m mem1 mk later r : Bool}
    {l' : List OSub} (h : ∀ o ∈ l, o.subs ≠ [])
    (hset : settle (fun t => operDel n t) later (operAdd alive l path n cid m mem1 true mk) = some (r, l')) :
    ∀ o ∈ l', o.subs ≠ [] := by
  have hdead : ∀ l : List OSub, (∀ o ∈ l, o.subs ≠ []) → ∀ o ∈ operDead alive l, o.subs ≠ [] := by
    intro l
    induction l with
    | nil => intro _ o ho; simp [operDead] at ho
    | cons x l ih =>
      intro h o ho
      have := h x (by simp)
      unfold operDead at ho
      simp only [] at ho
      split at ho
      · exact ih (fun y hy => h y (by simp [hy])) o ho
      · rename_i hk
        rcases List.mem_cons.mp ho with rfl | ho
        · intro e; exact hk ⟨e, this⟩
        · exact ih (fun y hy => h y (by simp [hy])) o ho
  have hdel : ∀ l : List OSub, (∀ o ∈ l, o.subs ≠ []) → ∀ o ∈ operDel n l, o.subs ≠ [] := by
    intro l
    induction l with
    | nil => intro _ o ho; simp [operDel] at ho
    | cons x l ih =>
      intro h o ho
      have := h x (by simp)
      unfold operDel at ho
      split at ho
      · simp only [] at ho
        split at ho
        · exact h o (by simp [ho])
        · rename_i hk
          rcases List.mem_cons.mp ho with rfl | ho
          · exact hk
          · exact h o (by simp [ho])
      · rcases List.mem_cons.mp ho with rfl | ho
        · exact this
        · exact ih (fun y hy => h y (by simp [hy])) o ho
  have hd := hdead l h
  have fin : ∀ (x : List OSub) (b : Bool), (∀ o ∈ x, o.subs ≠ []) →
      settle (fun t => operDel n t) later (if b then .ok x else .err x) = some (r, l') → ∀ o ∈ l', o.subs ≠ [] := by
    intro x b hx hset
    cases b
    · simp only [Bool.false_eq_true, if_false, settle, Option.some.injEq, Prod.mk.injEq] at hset
      rw [← hset.2]; exact hx
    · simp only [if_true] at hset
      cases later
      · simp only [settle, Bool.false_eq_true, if_false, Option.some.injEq, Prod.mk.injEq] at hset
        rw [← hset.2]; exact hdel _ hx
      · simp only [settle, if_true, Option.some.injEq, Prod.mk.injEq] at hset
        rw [← hset.2]; exact hx
  have finE : ∀ (x : List OSub), (∀ o ∈ x, o.subs ≠ []) →
      settle (fun t => operDel n t) later (.err x) = some (r, l') → ∀ o ∈ l', o.subs ≠ [] := fun x hx hs => fin x false hx hs
  unfold operAdd at hset
  simp only [] at hset
  cases hp : operPos path [] (operDead alive l) with
  | hang => rw [hp] at hset; simp [settle] at hset
  | found b o a =>
    rw [hp] at hset
    simp only [] at hset
    obtain ⟨mid, h1, h2, _⟩ := operPos_found hp
    simp only [List.nil_append] at h1
    subst h1
    cases m
    · simp only [Bool.false_eq_true, if_false] at hset
      exact finE _ hd hset
    · simp only [if_true] at hset
      refine fin _ mk ?_ hset
      rw [h2] at hd
      intro x hx
      simp only [List.mem_append, List.mem_cons] at hx
      rcases hx with hx | rfl | hx
      · exact hd x (by simp [hx])
      · simp
      · exact hd x (by simp [hx])
  | insert b a =>
    rw [hp] at hset
    simp only [] at hset
    obtain ⟨mid, h1, h2, h3, h4, _⟩ := operPos_insert hp
    simp only [List.nil_append] at h1
    subst h1
    cases mem1
    · simp only [Bool.false_eq_true, if_false] at hset
      exact finE _ hd hset
    · rw [h2] at hd
      simp only [if_true] at hset
      refine fin _ mk ?_ hset
      intro x hx
      simp only [List.mem_append, List.mem_cons] at hx
      rcases hx with hx | rfl | hx
      · exact hd x (by simp [hx])
      · simp
      · exact hd x (by simp [hx])

theorem operDel_full {id : Nat} : ∀ l : List OSub, (∀ o ∈ l, o.subs ≠ []) → ∀ o ∈ operDel id l, o.subs ≠ [] := by
  intro l
  induction l with
  | nil => intro _ o ho; simp [operDel] at ho
  | cons x l ih =>
    intro h o ho
    have := h x (by simp)
    unfold operDel at ho
    split at ho
    · simp only [] at ho
      split at ho
      · exact h o (by simp [ho])
      · rename_i hk
        rcases List.mem_cons.mp ho with rfl | ho
        · exact hk
        · exact h o (by simp [ho])
    · rcases List.mem_cons.mp ho with rfl | ho
      · exact this
      · exact ih (fun y hy => h y (by simp [hy])) o ho

theorem settle_change_served {alive : Nat → Bool} {n : Nat} {t : Tab} {s : Sub} {mem later r : Bool} {t' : Tab}
    (h : Served t) (hset : settle (fun t => del t n) later (changeAdd alive t s mem true) = some (r, t')) : Served t' := by
  unfold changeAdd at hset
  simp only [] at hset
  split at hset
  · simp only [settle, Option.some.injEq, Prod.mk.injEq] at hset
    rw [← hset.2]; exact removeDead_served _ _ h
  · exact settle_served (removeDead_served _ _ h) hset

theorem Good.step {w v : World} {op : Op} {r : Bool} (hi : Inv w) (h : Good w) (hok : NoFailure op)
    (hs : step w op = some (r, v)) : Good v := by
  cases op with
  | die c =>
    simp only [SubTables.step, Option.some.injEq, Prod.mk.injEq] at hs
    rw [← hs.2]; exact ⟨h.change, h.notif, h.rpc, h.oper⟩
  | subChange k cid prio u xp mem mk later =>
    simp only [SubTables.step, Option.map_eq_some_iff, Prod.mk.injEq] at hs
    obtain ⟨⟨r', t'⟩, hset, _, rfl⟩ := hs
    simp only [NoFailure] at hok; subst hok
    exact ⟨upd_all h.change (settle_change_served (h.change k) hset), h.notif, h.rpc, h.oper⟩
  | unsubChange k id =>
    simp only [SubTables.step, Option.some.injEq, Prod.mk.injEq] at hs
    rw [← hs.2]; exact ⟨upd_all h.change (del_served _ _ (h.change k)), h.notif, h.rpc, h.oper⟩
  | subNotif k cid xp mem mk later =>
    simp only [SubTables.step, Option.map_eq_some_iff, Prod.mk.injEq] at hs
    obtain ⟨⟨r', t'⟩, hset, _, rfl⟩ := hs
    simp only [NoFailure] at hok; subst hok
    exact ⟨h.change, upd_all h.notif (settle_served (removeDead_served _ _ (h.notif k)) hset), h.rpc, h.oper⟩
  | unsubNotif k id =>
    simp only [SubTables.step, Option.some.injEq, Prod.mk.injEq] at hs
    rw [← hs.2]; exact ⟨h.change, upd_all h.notif (del_served _ _ (h.notif k)), h.rpc, h.oper⟩
  | subPoll k cid d xp mem later =>
    simp only [SubTables.step, Option.map_eq_some_iff, Prod.mk.injEq] at hs
    obtain ⟨⟨r', t'⟩, hset, _, rfl⟩ := hs
    exact ⟨h.change, h.notif, h.rpc, h.oper⟩
  | unsubPoll k id =>
    simp only [SubTables.step, Option.some.injEq, Prod.mk.injEq] at hs
    rw [← hs.2]; exact ⟨h.change, h.notif, h.rpc, h.oper⟩
  | subRpc k cid prio xp mem mk later =>
    simp only [SubTables.step, Option.map_eq_some_iff, Prod.mk.injEq] at hs
    obtain ⟨⟨r', t'⟩, hset, _, rfl⟩ := hs
    simp only [NoFailure] at hok; subst hok
    exact ⟨h.change, h.notif, upd_all h.rpc (settle_rpc_served (hi.cut k) (h.rpc k) hset), h.oper⟩
  | unsubRpc k id =>
    simp only [SubTables.step, Option.some.injEq, Prod.mk.injEq] at hs
    rw [← hs.2]; exact ⟨h.change, h.notif, upd_all h.rpc (rpcDel_served _ _ (hi.cut k) (h.rpc k)), h.oper⟩
  | subOper k cid m p mem1 mem2 mk later =>
    simp only [SubTables.step, Option.map_eq_some_iff, Prod.mk.injEq] at hs
    obtain ⟨⟨r', t'⟩, hset, _, rfl⟩ := hs
    simp only [NoFailure] at hok; obtain ⟨rfl, rfl⟩ := hok
    exact ⟨h.change, h.notif, h.rpc, upd_all (P := fun (l : List OSub) => ∀ o ∈ l, o.subs ≠ []) h.oper (settle_oper_full (h.oper k) hset)⟩
  | unsubOper k id =>
    simp only [SubTables.step, Option.some.injEq, Prod.mk.injEq] at hs
    rw [← hs.2]
    exact ⟨h.change, h.notif, h.rpc, upd_all (P := fun (l : List OSub) => ∀ o ∈ l, o.subs ≠ []) h.oper (operDel_full _ (h.oper k))⟩

theorem reach_good {w : World} (h : Reach NoFailure w) : Good w := by
  induction h with
  | init => exact ⟨by simp [SubTables.init, Served], by simp [SubTables.init, Served], by simp [SubTables.init, RServed], by simp [SubTables.init]⟩
  | step hr hok hs ih => exact ih.step (reach_inv hr) hok hs

end Verif.SubTables
