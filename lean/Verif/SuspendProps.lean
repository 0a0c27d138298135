/-
Properties of suspending and resuming: C124 (subscriptions), C125 (subscribed notifications).
-/
import Verif.Suspend

namespace Verif.Suspend

/-! ### Tables -/

theorem idx_inj {l : List Entry} (h : (l.map (·.id)).Nodup) {a c : Nat} {x y : Entry} (ha : l[a]? = some x) (hc : l[c]? = some y)
    (e : x.id = y.id) : a = c := by
  induction l generalizing a c with
  | nil => simp at ha
  | cons z l ih =>
    rw [List.map_cons, List.nodup_cons] at h
    cases a with
    | zero =>
      cases c with
      | zero => rfl
      | succ c =>
        simp only [List.getElem?_cons_zero, Option.some.injEq] at ha
        simp only [List.getElem?_cons_succ] at hc
        exact absurd (List.mem_map.2 ⟨y, List.mem_of_getElem? hc, by rw [← e, ha]⟩) h.1
    | succ a =>
      cases c with
      | zero =>
        simp only [List.getElem?_cons_zero, Option.some.injEq] at hc
        simp only [List.getElem?_cons_succ] at ha
        exact absurd (List.mem_map.2 ⟨x, List.mem_of_getElem? ha, by rw [e, hc]⟩) h.1
      | succ c =>
        simp only [List.getElem?_cons_succ] at ha hc
        rw [ih h.2 ha hc]

theorem findFlat_ok {l : List Entry} (h : (l.map (·.id)).Nodup) {id : Nat} {b : Bool} (hm : (⟨id, b⟩ : Entry) ∈ l) :
    ∃ i, findFlat id l = some i ∧ l[i]? = some ⟨id, b⟩ := by
  induction l with
  | nil => cases hm
  | cons e l ih =>
    rw [List.map_cons, List.nodup_cons] at h
    simp only [findFlat]
    by_cases he : e.id = id
    · rw [if_pos he]
      refine ⟨0, rfl, ?_⟩
      rcases List.mem_cons.1 hm with hm | hm
      · rw [hm]; rfl
      · exact absurd (List.mem_map.2 ⟨_, hm, he.symm⟩) h.1
    · rw [if_neg he]
      rcases List.mem_cons.1 hm with hm | hm
      · exact absurd (by rw [← hm]) he
      · obtain ⟨i, h1, h2⟩ := ih h.2 hm
        exact ⟨i + 1, by rw [h1]; rfl, h2⟩

theorem setFlat_ids (l : List Entry) (i : Nat) (b : Bool) : (setFlat l i b).map (·.id) = l.map (·.id) := by
  apply List.ext_getElem?
  intro m
  unfold setFlat
  simp only [List.getElem?_map, List.getElem?_modify]
  by_cases h : i = m
  · subst h; cases l[i]? <;> simp
  · cases l[m]? <;> simp [h]

theorem setFlat_length (l : List Entry) (i : Nat) (b : Bool) : (setFlat l i b).length = l.length := by
  unfold setFlat; exact List.length_modify ..

theorem setFlat_mem {l : List Entry} (h : (l.map (·.id)).Nodup) {i : Nat} {id : Nat} {b0 : Bool} (hi : l[i]? = some ⟨id, b0⟩)
    (b : Bool) (e : Entry) : e ∈ setFlat l i b ↔ if e.id = id then e.off = b else e ∈ l := by
  unfold setFlat
  rw [List.mem_iff_getElem?]
  simp only [List.getElem?_modify]
  constructor
  · rintro ⟨m, hm⟩
    by_cases him : i = m
    · subst him
      rw [hi] at hm
      simp only [if_true, Option.map_eq_map, Option.map_some, Option.some.injEq] at hm
      subst hm
      rw [if_pos rfl]
    · cases hl : l[m]? with
      | none => rw [hl] at hm; cases hm
      | some x =>
        rw [hl] at hm
        simp only [him, if_false, Option.map_eq_map, Option.map_some, Option.some.injEq] at hm
        subst hm
        rw [if_neg (fun hx => him (idx_inj h hi hl hx.symm))]
        exact List.mem_of_getElem? hl
  · intro he
    by_cases hid : e.id = id
    · rw [if_pos hid] at he
      refine ⟨i, ?_⟩
      rw [hi]
      cases e; simp only at hid he; subst hid; subst he; simp
    · rw [if_neg hid] at he
      obtain ⟨m, hm⟩ := List.mem_iff_getElem?.1 he
      refine ⟨m, ?_⟩
      have him : i ≠ m := by
        intro him
        subst him
        rw [hi] at hm; cases hm; exact hid rfl
      rw [hm]
      simp [him]

theorem findRow_ok (i : Nat) {id : Nat} : ∀ (n j : Nat) (l : List Entry), l.length = n → (l.map (·.id)).Nodup →
    (id ∉ l.map (·.id) ∧ findRow id i n j l = .missing) ∨
    ∃ m b, l[m]? = some ⟨id, b⟩ ∧ findRow id i n j l = .at_ i (j + m) := by
  intro n
  induction n with
  | zero =>
    intro j l hl _
    rw [List.length_eq_zero_iff.1 hl]
    exact Or.inl ⟨by simp, rfl⟩
  | succ n ih =>
    intro j l hl hn
    cases l with
    | nil => cases hl
    | cons e l =>
      rw [List.map_cons, List.nodup_cons] at hn
      simp only [findRow]
      by_cases he : e.id = id
      · rw [if_pos he]
        exact Or.inr ⟨0, e.off, by cases e; simp only at he; subst he; rfl, rfl⟩
      · rw [if_neg he]
        rcases ih (j + 1) l (by simpa using hl) hn.2 with ⟨h1, h2⟩ | ⟨m, b, h1, h2⟩
        · exact Or.inl ⟨by simp only [List.map_cons, List.mem_cons, not_or]; exact ⟨Ne.symm he, h1⟩, h2⟩
        · exact Or.inr ⟨m + 1, b, h1, by rw [h2]; congr 1; omega⟩

theorem findRows_ok {id n : Nat} {b : Bool} : ∀ (t : List (List Entry)) (i : Nat), (∀ l ∈ t, l.length = n) →
    (t.flatten.map (·.id)).Nodup → (∃ l ∈ t, (⟨id, b⟩ : Entry) ∈ l) →
    ∃ a m l, t[a]? = some l ∧ l[m]? = some ⟨id, b⟩ ∧ findRows id n i t = .at_ (i + a) m := by
  intro t
  induction t with
  | nil => rintro i _ _ ⟨l, h, _⟩; cases h
  | cons r t ih =>
    intro i hlen hn ⟨l, hl, hm⟩
    rw [List.flatten_cons, List.map_append, List.nodup_append] at hn
    simp only [findRows]
    rcases findRow_ok i (id := id) n 0 r (hlen r List.mem_cons_self) hn.1 with ⟨h1, h2⟩ | ⟨m, b', h1, h2⟩
    · rw [h2]
      have hl' : l ∈ t := by
        rcases List.mem_cons.1 hl with rfl | hl
        · exact absurd (List.mem_map.2 ⟨_, hm, rfl⟩) h1
        · exact hl
      obtain ⟨a, m, l', h3, h4, h5⟩ := ih (i + 1) (fun l hl => hlen l (List.mem_cons_of_mem _ hl)) hn.2.1 ⟨l, hl', hm⟩
      exact ⟨a + 1, m, l', h3, h4, by rw [h5, Nat.add_right_comm]; rfl⟩
    · rw [h2]
      refine ⟨0, m, r, rfl, ?_, by simp⟩
      have hr : (⟨id, b'⟩ : Entry) ∈ r := List.mem_of_getElem? h1
      rcases List.mem_cons.1 hl with rfl | hl
      · obtain ⟨m', hm'⟩ := List.mem_iff_getElem?.1 hm
        have := idx_inj hn.1 h1 hm' rfl
        rw [this, hm']
      · exact absurd rfl (hn.2.2 id (List.mem_map.2 ⟨_, hr, rfl⟩) id (List.mem_map.2 ⟨_, List.mem_flatten.2 ⟨l, hl, hm⟩, rfl⟩))

theorem row_nodup {t : List (List Entry)} (h : (t.flatten.map (·.id)).Nodup) {a : Nat} {l : List Entry} (ha : t[a]? = some l) :
    (l.map (·.id)).Nodup := by
  induction t generalizing a with
  | nil => simp at ha
  | cons r t ih =>
    rw [List.flatten_cons, List.map_append, List.nodup_append] at h
    cases a with
    | zero => simp only [List.getElem?_cons_zero, Option.some.injEq] at ha; subst ha; exact h.1
    | succ a => exact ih h.2.1 ha

theorem setOper_ids (t : List (List Entry)) (i j : Nat) (b : Bool) :
    (setOper t i j b).flatten.map (·.id) = t.flatten.map (·.id) := by
  unfold setOper
  induction t generalizing i with
  | nil => simp
  | cons r t ih =>
    cases i with
    | zero => simp [setFlat_ids]
    | succ i => simp only [List.modify_succ_cons, List.flatten_cons, List.map_append, ih i]

theorem setOper_mem {t : List (List Entry)} (h : (t.flatten.map (·.id)).Nodup) {i j : Nat} {id : Nat} {b0 : Bool} {l : List Entry}
    (hi : t[i]? = some l) (hj : l[j]? = some ⟨id, b0⟩) (b : Bool) (e : Entry) :
    (∃ r ∈ setOper t i j b, e ∈ r) ↔ if e.id = id then e.off = b else ∃ r ∈ t, e ∈ r := by
  unfold setOper
  induction t generalizing i with
  | nil => simp at hi
  | cons r t ih =>
    rw [List.flatten_cons, List.map_append, List.nodup_append] at h
    cases i with
    | zero =>
      simp only [List.getElem?_cons_zero, Option.some.injEq] at hi
      subst hi
      have hm := setFlat_mem h.1 hj b e
      simp only [List.modify_zero_cons, List.mem_cons, exists_eq_or_imp, hm]
      by_cases he : e.id = id
      · rw [if_pos he, if_pos he]
        constructor
        · rintro (h1 | ⟨r', hr', her⟩)
          · exact h1
          · exact absurd he.symm (h.2.2 id (List.mem_map.2 ⟨_, List.mem_of_getElem? hj, rfl⟩) e.id
              (List.mem_map.2 ⟨e, List.mem_flatten.2 ⟨r', hr', her⟩, rfl⟩))
        · exact Or.inl
      · rw [if_neg he, if_neg he]
    | succ i =>
      simp only [List.getElem?_cons_succ] at hi
      have := ih h.2.1 hi
      simp only [List.modify_succ_cons, List.mem_cons, exists_eq_or_imp, this]
      by_cases he : e.id = id
      · rw [if_pos he, if_pos he]
        constructor
        · rintro (h1 | h1)
          · exact absurd he (h.2.2 e.id (List.mem_map.2 ⟨e, h1, rfl⟩) id
              (List.mem_map.2 ⟨⟨id, b0⟩, List.mem_flatten.2 ⟨l, List.mem_of_getElem? hi, List.mem_of_getElem? hj⟩, rfl⟩))
          · exact h1
        · exact Or.inr
      · rw [if_neg he, if_neg he]

theorem setOper_len (t : List (List Entry)) (i j : Nat) (b : Bool) : (setOper t i j b).map List.length = t.map List.length := by
  unfold setOper
  induction t generalizing i with
  | nil => simp
  | cons r t ih =>
    cases i with
    | zero => simp [setFlat_length]
    | succ i => simp only [List.modify_succ_cons, List.map_cons, ih i]

theorem even_iff (t : List (List Entry)) :
    (∀ l ∈ t, l.length = (t.headD []).length) ↔ ∀ n ∈ t.map List.length, n = (t.map List.length).headD 0 := by
  cases t with
  | nil => simp
  | cons r t => simp

/-! ### One call -/

/-- C124, one call without failures: a subscription that is in the requested state is refused and nothing changes; otherwise
exactly its flags change. -/
theorem change_exact_partial {s : State} (hu : Unique s) (he : Even s) {id key : Nat} {k : Kind} {old b : Bool}
    (ho : s.own id = some (k, key)) (hh : Has s k key id old) :
    (old = b → change .none s id b = (.unsupported, s)) ∧
    (old ≠ b → (change .none s id b).1 = .ok ∧ (∀ v, Has (change .none s id b).2 k key id v ↔ v = b) ∧
      (∀ k' key' id' v, (k', key', id') ≠ (k, key, id) → (Has (change .none s id b).2 k' key' id' v ↔ Has s k' key' id' v)) ∧
      (∀ x, (change .none s id b).2.loc x = if x = id then b else s.loc x)) := by
  by_cases hk : k = .operGet
  · subst hk
    obtain ⟨a, m, l, h1, h2, h3⟩ := findRows_ok (s.oper key) 0 (he key) (hu.2 key) hh
    rw [Nat.zero_add] at h3
    have hf : findOper id (s.oper key) = .at_ a m := h3
    have hoff : offAt (s.oper key) a m = old := by simp [offAt, h1, h2]
    have hmem := fun b e => setOper_mem (hu.2 key) h1 h2 b e
    constructor
    · intro e
      simp only [change, ho, hf, hoff, if_pos e, reduceCtorEq, if_false]
    · intro e
      simp only [change, ho, hf, hoff, if_neg e, reduceCtorEq, if_false, setLoc]
      refine ⟨trivial, ?_, ?_, fun x => trivial⟩
      · intro v
        simp only [Has, if_true, hmem]
      · intro k' key' id' v hne
        cases k' with
        | operGet =>
          simp only [Has]
          by_cases hkey : key' = key
          · subst hkey
            simp only [if_true, hmem]
            have : id' ≠ id := fun e => hne (by rw [e])
            rw [if_neg this]
          · simp only [if_neg hkey]
        | _ => simp only [Has]
  · obtain ⟨i, h1, h2⟩ := findFlat_ok (hu.1 k key) (id := id) (b := old) (by cases k <;> first | exact absurd rfl hk | exact hh)
    have hoff : offFlat (s.flat k key) i = old := by simp [offFlat, h2]
    have hmem := fun b e => setFlat_mem (hu.1 k key) h2 b e
    have hc : change .none s id b = if old = b then (.unsupported, s) else
        (.ok, setLoc { s with flat := fun k' key' => if k' = k ∧ key' = key then setFlat (s.flat k key) i b else s.flat k' key' } id b) := by
      cases k with
      | operGet => exact absurd rfl hk
      | _ => simp only [change, ho, h1, hoff, reduceCtorEq, if_false, false_and]
    constructor
    · intro e; rw [hc, if_pos e]
    · intro e
      rw [hc, if_neg e]
      refine ⟨rfl, ?_, ?_, fun x => rfl⟩
      · intro v
        have : Has (setLoc { s with flat := fun k' key' => if k' = k ∧ key' = key then setFlat (s.flat k key) i b else s.flat k' key' } id b) k key id v ↔
            (⟨id, v⟩ : Entry) ∈ setFlat (s.flat k key) i b := by
          cases k <;> first | exact absurd rfl hk | simp [Has, setLoc]
        simp only [this, hmem, if_true]
      · intro k' key' id' v hne
        by_cases hkk : k' = k ∧ key' = key
        · obtain ⟨rfl, rfl⟩ := hkk
          have hid : id' ≠ id := fun e => hne (by rw [e])
          have h3 := hmem b ⟨id', v⟩
          rw [if_neg hid] at h3
          cases k' <;> first | exact absurd rfl hk | (simp only [Has, setLoc]; simpa using h3)
        · cases k' with
          | operGet => simp only [Has, setLoc]
          | _ => simp only [Has, setLoc, if_neg hkk]

/-- C124: its state is read. -/
theorem get_exact_partial {s : State} (hu : Unique s) (he : Even s) {id key : Nat} {k : Kind} {old : Bool}
    (ho : s.own id = some (k, key)) (hh : Has s k key id old) : get .none s id = .okOff old := by
  by_cases hk : k = .operGet
  · subst hk
    obtain ⟨a, m, l, h1, h2, h3⟩ := findRows_ok (s.oper key) 0 (he key) (hu.2 key) hh
    rw [Nat.zero_add] at h3
    have hf : findOper id (s.oper key) = .at_ a m := h3
    simp [get, ho, hf, offAt, h1, h2]
  · obtain ⟨i, h1, h2⟩ := findFlat_ok (hu.1 k key) (id := id) (b := old) (by cases k <;> first | exact absurd rfl hk | exact hh)
    cases k <;> first | exact absurd rfl hk | simp [get, ho, h1, offFlat, h2]

/-! ### Histories -/

theorem change_keeps {s : State} (hu : Unique s) (he : Even s) (f : Fault) (id : Nat) (b : Bool) :
    Unique (change f s id b).2 ∧ Even (change f s id b).2 ∧ (change f s id b).2.own = s.own := by
  have hflat : ∀ k key i, Unique { s with flat := fun k' key' => if k' = k ∧ key' = key then setFlat (s.flat k key) i b else s.flat k' key' } := by
    intro k key i
    refine ⟨fun k' key' => ?_, hu.2⟩
    simp only
    split
    · rw [setFlat_ids]; exact hu.1 k key
    · exact hu.1 k' key'
  have hop : ∀ key i j, Unique { s with oper := fun k => if k = key then setOper (s.oper key) i j b else s.oper k } := by
    intro key i j
    refine ⟨hu.1, fun key' => ?_⟩
    simp only
    split
    · rw [setOper_ids]; exact hu.2 key
    · exact hu.2 key'
  have hev : ∀ key i j, Even { s with oper := fun k => if k = key then setOper (s.oper key) i j b else s.oper k } := by
    intro key i j key'
    simp only
    split
    · rw [even_iff, setOper_len, ← even_iff]; exact he key
    · exact he key'
  unfold change
  split
  · exact ⟨hu, he, rfl⟩
  · split
    · exact ⟨hu, he, rfl⟩
    · split
      · exact ⟨hu, he, rfl⟩
      · exact ⟨hu, he, rfl⟩
      · split
        · exact ⟨hu, he, rfl⟩
        · dsimp only
          split
          · exact ⟨hop _ _ _, hev _ _ _, rfl⟩
          · exact ⟨hop _ _ _, hev _ _ _, rfl⟩
    · split
      · exact ⟨hu, he, rfl⟩
      · split
        · exact ⟨hu, he, rfl⟩
        · dsimp only
          split
          · exact ⟨hflat _ _ _, he, rfl⟩
          · exact ⟨hflat _ _ _, he, rfl⟩

theorem change_spec {s : State} {susp : Nat → Bool} (hu : Unique s) (he : Even s) (ha : Agrees s susp) (id : Nat) (b : Bool) :
    (change .none s id b).1 = (spec susp (fun x => (s.own x).isSome) id b).1 ∧
    Agrees (change .none s id b).2 (spec susp (fun x => (s.own x).isSome) id b).2 := by
  cases ho : s.own id with
  | none =>
    have hc : change .none s id b = (.notFound, s) := by simp [change, ho]
    have hs : spec susp (fun x => (s.own x).isSome) id b = (.notFound, susp) := by simp [spec, ho]
    rw [hc, hs]; exact ⟨rfl, ha⟩
  | some kk =>
    obtain ⟨k, key⟩ := kk
    obtain ⟨h1, h2⟩ := change_exact_partial hu he (b := b) ho (ha id k key ho).1
    by_cases e : susp id = b
    · have hs : spec susp (fun x => (s.own x).isSome) id b = (.unsupported, susp) := by simp [spec, ho, e]
      rw [h1 e, hs]; exact ⟨rfl, ha⟩
    · have hs : spec susp (fun x => (s.own x).isSome) id b = (.ok, fun x => if x = id then b else susp x) := by simp [spec, ho, e]
      obtain ⟨h3, h4, h5, h6⟩ := h2 e
      rw [hs]
      refine ⟨h3, fun id' k' key' ho' => ?_⟩
      rw [(change_keeps hu he .none id b).2.2] at ho'
      rw [h6]
      by_cases hid : id' = id
      · subst hid
        rw [ho] at ho'; cases ho'
        simp only [if_true]
        exact ⟨(h4 b).2 rfl, trivial⟩
      · simp only [if_neg hid]
        exact ⟨(h5 k' key' id' _ (fun h => hid (by cases h; rfl))).2 (ha id' k' key' ho').1, (ha id' k' key' ho').2⟩

/-- C124 for all sequences of calls, without failures and with the same number of subscriptions for each operational path:
every call returns what it is to return, and afterwards every subscription is what the last successful call made it, in the
shared tables and in the structure. -/
theorem calls_exact_partial {s : State} {susp : Nat → Bool} (hu : Unique s) (he : Even s) (ha : Agrees s susp)
    (cs : List (Nat × Bool)) :
    (calls s cs).1 = (specCalls (fun x => (s.own x).isSome) susp cs).1 ∧
    Agrees (calls s cs).2 (specCalls (fun x => (s.own x).isSome) susp cs).2 := by
  induction cs generalizing s susp with
  | nil => exact ⟨rfl, ha⟩
  | cons c cs ih =>
    obtain ⟨id, b⟩ := c
    obtain ⟨h1, h2⟩ := change_spec hu he ha id b
    obtain ⟨h3, h4, h5⟩ := change_keeps hu he .none id b
    have := ih h3 h4 h2
    rw [h5] at this
    exact ⟨by simp only [calls, specCalls, h1, this.1], this.2⟩

/-- Subscriptions of three kinds, two paths of operational data. -/
def demo : State where
  flat := fun k key => match k, key with
    | .change, 1 => [⟨9, true⟩, ⟨1, false⟩]
    | .notif, 2 => [⟨2, true⟩]
    | _, _ => []
  oper := fun key => if key = 1 then [[⟨3, false⟩], [⟨4, false⟩]] else []
  loc := fun x => x == 2
  own := fun x => match x with
    | 1 => some (.change, 1)
    | 2 => some (.notif, 2)
    | 4 => some (.operGet, 1)
    | _ => none

/-- They meet the hypotheses. -/
example : Unique demo ∧ Even demo ∧ Agrees demo (fun x => x == 2) := by
  refine ⟨⟨?_, ?_⟩, ?_, ?_⟩
  · intro k key; simp only [demo]; split <;> simp
  · intro key; simp only [demo]; split <;> simp
  · intro key l hl
    simp only [demo] at hl ⊢
    split at hl
    · next h => rw [if_pos h]; simp at hl; rcases hl with rfl | rfl <;> rfl
    · cases hl
  · intro id k key h
    simp only [demo] at h
    split at h <;> cases h <;> simp [Has, demo]

/-- What is returned. -/
example : (calls demo [(1, true), (4, true), (4, true), (2, true), (2, false), (7, true)]).1 =
    [.ok, .ok, .unsupported, .unsupported, .ok, .notFound] := by decide

/-- C124: a call that fails to take a lock changes nothing. -/
theorem lock_failure_exact (s : State) (id : Nat) (b : Bool) : change .lock s id b = (.failed, s) := rfl

/-- C124 fails for operational subscriptions: with more subscriptions for a path than for the first one the last ones are not
found. -/
theorem merged_not_found : ∃ s id, Unique s ∧ Listed s ∧ s.own id = some (.operGet, 1) ∧
    (∀ b, (change .none s id b).1 = .internal) ∧ get .none s id = .internal := by
  refine ⟨⟨fun _ _ => [], fun key => if key = 1 then [[⟨1, false⟩], [⟨2, false⟩, ⟨3, false⟩]] else [], fun _ => false,
    fun x => if x = 3 then some (.operGet, 1) else none⟩, 3, ⟨?_, ?_⟩, ?_, rfl, ?_, rfl⟩
  · intro k key; simp
  · intro key; simp only; split <;> simp
  · intro id k key h
    simp only at h
    split at h
    · next e => cases h; subst e; exact ⟨false, by simp [Has]⟩
    · cases h
  · intro b; cases b <;> rfl

/-- C124 fails for operational subscriptions: with fewer subscriptions for a path than for the first one memory outside of the
table is read. -/
theorem merged_reads_outside : ∃ s id, Unique s ∧ Listed s ∧ s.own id = some (.operGet, 1) ∧
    (∀ b, (change .none s id b).1 = .oob) ∧ get .none s id = .oob := by
  refine ⟨⟨fun _ _ => [], fun key => if key = 1 then [[⟨1, false⟩, ⟨2, false⟩], [⟨3, false⟩], [⟨4, false⟩]] else [], fun _ => false,
    fun x => if x = 4 then some (.operGet, 1) else none⟩, 4, ⟨?_, ?_⟩, ?_, rfl, ?_, rfl⟩
  · intro k key; simp
  · intro key; simp only; split <;> simp
  · intro id k key h
    simp only at h
    split at h
    · next e => cases h; subst e; exact ⟨false, by simp [Has]⟩
    · cases h
  · intro b; cases b <;> rfl

/-- C124 fails when there is an error after the flag was changed: the call returns an error, but the subscription of
notifications is suspended for all the publishers, and can be suspended no more. -/
theorem error_but_suspended : ∃ s, Unique s ∧ Even s ∧ Agrees s (fun _ => false) ∧ (change .late s 1 true).1 = .failed ∧
    Has (change .late s 1 true).2 .notif 1 1 true ∧ (change .late s 1 true).2.loc 1 = false ∧
    (change .none (change .late s 1 true).2 1 true).1 = .unsupported := by
  refine ⟨⟨fun k key => if k = .notif ∧ key = 1 then [⟨1, false⟩] else [], fun _ => [], fun _ => false,
    fun x => if x = 1 then some (.notif, 1) else none⟩, ⟨?_, ?_⟩, ?_, ?_, rfl, ?_, rfl, rfl⟩
  · intro k key; simp only; split <;> simp
  · intro key; simp
  · intro key l hl; cases hl
  · intro id k key h
    simp only at h
    split at h
    · next e => cases h; subst e; simp [Has]
    · cases h
  · exact List.mem_singleton.2 rfl

/-! ### Subscribed notifications -/

/-- C125 when nothing fails: all the subscriptions are suspended or resumed, and this is announced only if they were not. -/
theorem sn_exact_partial {s : Sn} {v b : Bool} (hn : s.ids.Nodup) (hne : s.ids ≠ []) (hall : ∀ i ∈ s.ids, s.off i = v) :
    (snSet false (fun _ => .none) s b).1 = .ok (decide (v ≠ b)) ∧
    (∀ x, (snSet false (fun _ => .none) s b).2.off x = if x ∈ s.ids then b else s.off x) ∧
    (snSet false (fun _ => .none) s b).2.ids = s.ids := by
  have key : ∀ (l : List Nat) (n : Nat) (s1 : Sn) (d : List Nat), l.Nodup → (∀ i ∈ l, s1.off i ≠ b) →
      (all (fun _ => .none) b n s1 d l).1 = true ∧
      (∀ x, (all (fun _ => .none) b n s1 d l).2.off x = if x ∈ l then b else s1.off x) ∧
      (all (fun _ => .none) b n s1 d l).2.ids = s1.ids := by
    intro l
    induction l with
    | nil => intro n s1 d _ _; simp [all]
    | cons i l ih =>
      intro n s1 d hnd hoff
      rw [List.nodup_cons] at hnd
      have ho : one .none s1 i b = (true, { s1 with off := fun x => if x = i then b else s1.off x }) := by
        simp [one, hoff i List.mem_cons_self]
      simp only [all, ho]
      obtain ⟨h1, h2, h3⟩ := ih (n + 1) { s1 with off := fun x => if x = i then b else s1.off x } (d ++ [i]) hnd.2 (by
        intro j hj
        have : j ≠ i := fun e => hnd.1 (e ▸ hj)
        simp only [if_neg this]
        exact hoff j (List.mem_cons_of_mem _ hj))
      refine ⟨h1, fun x => ?_, h3⟩
      rw [h2]
      by_cases hx : x = i
      · subst hx; simp [hnd.1]
      · simp [hx]
  cases hids : s.ids with
  | nil => exact absurd hids hne
  | cons i t =>
    have hi : s.off i = v := hall i (by rw [hids]; exact List.mem_cons_self)
    by_cases e : v = b
    · subst e
      simp only [snSet, hids, hi]
      simp only [Bool.not_false, BEq.rfl, Bool.and_self, if_true, ne_eq, not_true_eq_false, decide_false, true_and]
      refine ⟨fun x => ?_, hids⟩
      by_cases hx : x ∈ s.ids
      · rw [← hids, if_pos hx]; exact hall x hx
      · rw [← hids, if_neg hx]
    · obtain ⟨h1, h2, h3⟩ := key s.ids 0 s [] hn (fun i hi => by rw [hall i hi]; exact e)
      have : (snSet false (fun _ => .none) s b) = (.ok true, (all (fun _ => .none) b 0 s [] s.ids).2) := by
        have hb : (v == b) = false := by simpa using e
        unfold snSet
        rw [hids]
        simp only [hi, hb, Bool.and_false, Bool.false_eq_true, if_false]
        rw [← hids]
        generalize all (fun _ => .none) b 0 s [] s.ids = q at h1
        obtain ⟨q1, q2⟩ := q
        simp only at h1; subst h1; rfl
      rw [this, ← hids]
      exact ⟨by simp [e], h2, h3⟩

/-- Only locks fail, and nothing after the first failure. -/
def Mild (fs : Nat → Fault) : Prop := (∀ n, fs n ≠ .late) ∧ ∀ n m, n < m → fs n = .lock → fs m = .none

/-- C125 when a lock cannot be taken once: all the subscriptions are changed or, when an error is returned, none. -/
theorem sn_atomic_partial {g : Bool} {fs : Nat → Fault} (hf : Mild fs) {s : Sn} {v b : Bool} (hn : s.ids.Nodup) (hne : s.ids ≠ [])
    (hall : ∀ i ∈ s.ids, s.off i = v) (hvb : v ≠ b) :
    ((snSet g fs s b).1 = .ok true ∧ ∀ x, (snSet g fs s b).2.off x = if x ∈ s.ids then b else s.off x) ∨
    ((snSet g fs s b).1 = .error ∧ ∀ x, (snSet g fs s b).2.off x = s.off x) := by
  have hv : v = !b := by cases v <;> cases b <;> simp_all
  -- reverting
  have rev : ∀ (d : List Nat) (n : Nat) (s1 : Sn), (∀ m, n ≤ m → fs m = .none) → d.Nodup → (∀ i ∈ d, s1.off i = b) →
      ∀ x, (revert fs (!b) n s1 d).off x = if x ∈ d then !b else s1.off x := by
    intro d
    induction d with
    | nil => intro n s1 _ _ _ x; simp [revert]
    | cons i d ih =>
      intro n s1 h1 hnd h2 x
      rw [List.nodup_cons] at hnd
      have ho : one (fs n) s1 i (!b) = (true, { s1 with off := fun x => if x = i then !b else s1.off x }) := by
        simp [one, h1 n (Nat.le_refl _), h2 i List.mem_cons_self]
      simp only [revert, ho]
      rw [ih (n + 1) _ (fun m hm => h1 m (by omega)) hnd.2 (by
        intro j hj
        have : j ≠ i := fun e => hnd.1 (e ▸ hj)
        simp only [if_neg this]
        exact h2 j (List.mem_cons_of_mem _ hj))]
      by_cases hx : x = i
      · subst hx; simp [hnd.1]
      · simp [hx]
  have key : ∀ (l : List Nat) (n : Nat) (s1 : Sn) (d : List Nat), (d ++ l).Nodup → (∀ i ∈ l, s1.off i = v) → (∀ i ∈ d, s1.off i = b) →
      ((all fs b n s1 d l).1 = true ∧ ∀ x, (all fs b n s1 d l).2.off x = if x ∈ l then b else s1.off x) ∨
      ((all fs b n s1 d l).1 = false ∧ ∀ x, (all fs b n s1 d l).2.off x = if x ∈ d then v else s1.off x) := by
    intro l
    induction l with
    | nil => intro n s1 d _ _ _; left; simp [all]
    | cons i l ih =>
      intro n s1 d hnd h1 h2
      have hnd' := List.nodup_append.1 hnd
      have hi := h1 i List.mem_cons_self
      simp only [all]
      cases hfn : fs n with
      | late => exact absurd hfn (hf.1 n)
      | lock =>
        right
        have ho : one .lock s1 i b = (false, s1) := rfl
        rw [ho]
        refine ⟨rfl, fun x => ?_⟩
        have := rev d (n + 1) s1 (fun m hm => hf.2 n m (by omega) hfn) hnd'.1 h2 x
        simp only [this, hv]
      | none =>
        have ho : one .none s1 i b = (true, { s1 with off := fun x => if x = i then b else s1.off x }) := by
          simp [one, hi, hvb]
        rw [ho]
        simp only
        have hil : i ∉ l := (List.nodup_cons.1 hnd'.2.1).1
        have hid : i ∉ d := fun hd => hnd'.2.2 i hd i List.mem_cons_self rfl
        rcases ih (n + 1) { s1 with off := fun x => if x = i then b else s1.off x } (d ++ [i]) (by simpa using hnd)
          (by
            intro j hj
            have : j ≠ i := fun e => hil (e ▸ hj)
            simp only [if_neg this]
            exact h1 j (List.mem_cons_of_mem _ hj))
          (by
            intro j hj
            simp only
            by_cases hji : j = i
            · rw [if_pos hji]
            · rw [if_neg hji]
              rcases List.mem_append.1 hj with hj | hj
              · exact h2 j hj
              · exact absurd (List.mem_singleton.1 hj) hji) with ⟨h3, h4⟩ | ⟨h3, h4⟩
        · left
          refine ⟨h3, fun x => ?_⟩
          rw [h4]
          by_cases hx : x = i
          · subst hx; simp [hil]
          · simp [hx]
        · right
          refine ⟨h3, fun x => ?_⟩
          rw [h4]
          by_cases hx : x = i
          · subst hx; simp [hid, hi]
          · simp [hx]
  cases hids : s.ids with
  | nil => exact absurd hids hne
  | cons i t =>
    have hi : s.off i = v := hall i (by rw [hids]; exact List.mem_cons_self)
    have hb : (v == b) = false := by simpa using hvb
    have hs : snSet g fs s b = (match all fs b 0 s [] s.ids with
      | (true, s') => (.ok true, s')
      | (false, s') => (.error, s')) := by
      unfold snSet
      rw [hids]
      simp only [hi, hb, Bool.and_false, Bool.false_eq_true, if_false]
      rfl
    rw [hs, ← hids]
    rcases key s.ids 0 s [] (by simpa using hn) hall (fun i hi => by cases hi) with ⟨h1, h2⟩ | ⟨h1, h2⟩
    · left
      generalize all fs b 0 s [] s.ids = q at h1 h2
      obtain ⟨q1, q2⟩ := q
      simp only at h1; subst h1
      exact ⟨rfl, h2⟩
    · right
      generalize all fs b 0 s [] s.ids = q at h1 h2
      obtain ⟨q1, q2⟩ := q
      simp only at h1; subst h1
      exact ⟨rfl, fun x => by simpa using h2 x⟩

/-- Three subscriptions, taking the lock of the third one fails. -/
example : Mild (fun n => if n = 2 then .lock else .none) ∧
    (snSet false (fun n => if n = 2 then .lock else .none) ⟨[1, 2, 3], fun _ => false⟩ true).1 = .error := by
  refine ⟨⟨fun n => ?_, fun n m h => ?_⟩, by decide⟩
  · simp only; split <;> simp
  · intro hl
    have : n = 2 := by by_cases e : n = 2; exact e; simp [e] at hl
    simp only; rw [if_neg (by omega)]

/-- C125 fails when there is an error after a flag was changed: it is not reverted. -/
theorem sn_half : (snSet false (fun n => if n = 1 then .late else .none) ⟨[1, 2, 3], fun _ => false⟩ true).1 = .error ∧
    (snSet false (fun n => if n = 1 then .late else .none) ⟨[1, 2, 3], fun _ => false⟩ true).2.off 2 = true := by decide

/-- C125 fails then for good: a subscription of which only others than the first sysrepo subscription are suspended can be
neither suspended, nor resumed, although resuming it is successful. -/
theorem sn_stuck (fs : Nat → Fault) (g : Bool) (s : Sn) (i j : Nat) (t : List Nat) (hids : s.ids = i :: t) (hi : s.off i = false)
    (hj : j ∈ t) (hjs : s.off j = true) (hji : j ≠ i) :
    snSet false fs s false = (.ok false, s) ∧ (snSet g fs s true).1 = .error := by
  refine ⟨by simp [snSet, hids, hi], ?_⟩
  have key : ∀ (l : List Nat) (n : Nat) (s1 : Sn) (d : List Nat), j ∈ l → s1.off j = true → (all fs true n s1 d l).1 = false := by
    intro l
    induction l with
    | nil => intro n s1 d h _; cases h
    | cons a l ih =>
      intro n s1 d hjl ho
      simp only [all]
      by_cases haj : a = j
      · subst haj
        have h1 : (one (fs n) s1 a true).1 = false := by
          unfold one; split
          · rfl
          · simp [ho]
        generalize one (fs n) s1 a true = q at h1
        obtain ⟨q1, q2⟩ := q
        simp only at h1; subst h1; rfl
      · have hjl' : j ∈ l := by
          rcases List.mem_cons.1 hjl with e | h
          · exact absurd e.symm haj
          · exact h
        have h1 : (one (fs n) s1 a true).2.off j = true := by
          unfold one
          split
          · exact ho
          · split
            · exact ho
            · dsimp only
              split <;> (simp only [if_neg (Ne.symm haj)]; exact ho)
        generalize one (fs n) s1 a true = q at h1
        obtain ⟨q1, q2⟩ := q
        cases q1 with
        | true => exact ih (n + 1) q2 (d ++ [a]) hjl' h1
        | false => rfl
  have h1 := key s.ids 0 s [] (by rw [hids]; exact List.mem_cons_of_mem _ hj) hjs
  unfold snSet
  rw [hids]
  simp only [hi]
  simp only [BEq.beq, Bool.and_false, Bool.false_eq_true, if_false, decide_false, reduceCtorEq, Bool.not_eq_true]
  rw [← hids]
  generalize all fs true 0 s [] s.ids = q at h1
  obtain ⟨q1, q2⟩ := q
  simp only at h1; subst h1; rfl

/-- Such a subscription is left by the failure above. -/
example : (snSet false (fun n => if n = 1 then .late else .none) ⟨[1, 2, 3], fun _ => false⟩ true).2.off 1 = false ∧
    (snSet false (fun n => if n = 1 then .late else .none) ⟨[1, 2, 3], fun _ => false⟩ true).2.ids = [1, 2, 3] := by decide

/-! ### Periodic subscriptions -/

/-- Modified only if it is not suspended. -/
def POk (s : Per) : PAct → Prop
  | .modify _ _ => s.off = false
  | _ => True

/-- C125 for periodic subscriptions that are not modified while suspended: updates are sent, with the period of the
subscription, if and only if it is not suspended. -/
theorem periodic_exact_partial {s : Per} (acts : List PAct) (h : s.timer = if s.off then none else some (s.period, s.anchor))
    (hok : ∀ k a, acts[k]? = some a → POk ((acts.take k).foldl pstep s) a) :
    (acts.foldl pstep s).timer = if (acts.foldl pstep s).off then none else some ((acts.foldl pstep s).period, (acts.foldl pstep s).anchor) := by
  induction acts generalizing s with
  | nil => exact h
  | cons a acts ih =>
    refine ih ?_ (fun k b hb => hok (k + 1) b hb)
    have h0 := hok 0 a rfl
    cases a with
    | suspend =>
      by_cases ho : s.off
      · have : pstep s .suspend = s := by simp [pstep, ho]
        rw [this]; exact h
      · simp [pstep, ho]
    | resume =>
      by_cases ho : s.off
      · simp [pstep, ho]
      · have : pstep s .resume = s := by simp [pstep, ho]
        rw [this]; exact h
    | modify p an =>
      have ho : s.off = false := h0
      simp only [pstep]
      split
      · simp [ho]
      · exact h

/-- C125: a subscription that is not suspended is modified as requested. -/
theorem periodic_modified {s : Per} (h : s.timer = if s.off then none else some (s.period, s.anchor)) (ho : s.off = false) (p : Nat)
    (a : Option Nat) : pstep s (.modify p a) = ⟨false, p, a, some (p, a)⟩ := by
  simp only [pstep]
  split
  · rw [ho]
  · next hn =>
    simp only [not_or, ne_eq, Classical.not_not] at hn
    rw [ho] at h
    cases s
    simp_all

/-- A history. -/
example : ([.modify 5 none, .suspend, .suspend, .resume].foldl pstep ⟨false, 10, none, some (10, none)⟩) = ⟨false, 5, none, some (5, none)⟩ := by decide

/-- C125 fails for a periodic subscription modified while it is suspended: it sends updates again. -/
theorem modified_sends : ([.suspend, .modify 5 none].foldl pstep ⟨false, 10, none, some (10, none)⟩) = ⟨true, 5, none, some (5, none)⟩ := by decide

end Verif.Suspend
