import Verif.OperAsk

/-!
# Asking subscribers for operational data (properties, C135)
-/

namespace Verif.OperAsk

/-! ## Helper lemmas -/

/-- A subscriber that returns data. -/
def Good (s : Sub) : Prop := ∃ d, s.cb = .data d

theorem answer_ok {s : Sub} {d : List Nat} : answer s.cb = .ok d ↔ s.cb = .data d := by
  cases h : s.cb <;> simp [answer]

/-- All the subscribers asked return data, but possibly the last one. -/
def GoodInit : List Sub → Prop
  | [] => True
  | s :: ss => (s.suspended = false → Good s ∨ ((∃ c, s.cb = .fail c) ∧ ∀ t ∈ ss, t.suspended = true)) ∧ GoodInit ss

theorem listen_suspended (subs : List Sub) (h : ∀ s ∈ subs, s.suspended = true) : listen subs = (subs, []) := by
  induction subs with
  | nil => rfl
  | cons s ss ih =>
    simp only [listen, h s List.mem_cons_self, Bool.true_or, ↓reduceIte]
    rw [ih fun t ht => h t (List.mem_cons_of_mem _ ht)]

theorem ask_suspended (subs : List Sub) (h : ∀ s ∈ subs, s.suspended = true) : ask subs = subs := by
  induction subs with
  | nil => rfl
  | cons s ss ih =>
    have := ih fun t ht => h t (List.mem_cons_of_mem _ ht)
    unfold ask at *
    simp [h s List.mem_cons_self, this]

theorem collect_suspended (subs : List Sub) (h : ∀ s ∈ subs, s.suspended = true) : collect subs = ([], []) := by
  induction subs with
  | nil => rfl
  | cons s ss ih =>
    simp only [collect, h s List.mem_cons_self, ↓reduceIte]
    exact ih fun t ht => h t (List.mem_cons_of_mem _ ht)

/-- Everything of a reading without a failure before others. -/
theorem get_good (subs : List Sub) (h : GoodInit subs) :
    (listen (ask subs)).2 = (subs.filter fun s => !s.suspended).map Sub.id ∧
    collect (listen (ask subs)).1 =
      ((subs.filter fun s => !s.suspended).flatMap (fun s => dataOf (answer s.cb)),
       (subs.filter fun s => !s.suspended).filterMap (fun s => errOf (answer s.cb))) := by
  induction subs with
  | nil => simp [ask, listen, collect]
  | cons s ss ih =>
    obtain ⟨h1, h2⟩ := h
    obtain ⟨i1, i2⟩ := ih h2
    have hask : ask (s :: ss) = (if s.suspended then s else { s with ev := .oper, seen := false }) :: ask ss := rfl
    rw [hask]
    cases hs : s.suspended with
    | true =>
      simp only [↓reduceIte, listen, hs, Bool.true_or, collect, Bool.not_true, Bool.false_eq_true,
        not_false_eq_true, List.filter_cons_of_neg]
      exact ⟨i1, i2⟩
    | false =>
      rcases h1 hs with ⟨d, hd⟩ | ⟨⟨c, hc⟩, hall⟩
      · have e1 : dataOf (answer s.cb) = d := by simp [hd, answer, dataOf]
        have e2 : errOf (answer s.cb) = none := by simp [hd, answer, errOf]
        simp only [hs, Bool.not_false, List.filter_cons_of_pos, List.map_cons, List.flatMap_cons, List.filterMap_cons, e1, e2]
        simp only [Bool.false_eq_true, ↓reduceIte, listen, bne_self_eq_false, Bool.or_self, processOne, hd, collect]
        exact ⟨by rw [i1], by rw [i2]⟩
      · have hf : (ss.filter fun s => !s.suspended) = [] := by
          rw [List.filter_eq_nil_iff]; intro t ht; simp [hall t ht]
        have e1 : dataOf (answer s.cb) = [] := by simp [hc, answer, dataOf]
        have e2 : errOf (answer s.cb) = some c := by simp [hc, answer, errOf]
        simp only [hs, Bool.not_false, List.filter_cons_of_pos, List.map_cons, List.flatMap_cons, List.filterMap_cons, e1, e2, hf]
        simp only [Bool.false_eq_true, ↓reduceIte, listen, bne_self_eq_false, Bool.or_self, processOne, hc, collect]
        rw [ask_suspended ss hall, collect_suspended ss hall]
        simp

/-! ## Properties -/

/-- C135 (partial).  When all the subscribers return data, or only the last one asked fails, all of them are called, and the data
of all of them are returned in their order, or the error.

Full statement: `Expected subs (get subs).1 (get subs).2` for all subscribers; `failure_hides_others`
and `late_hides_others` show it false. -/
theorem all_asked_partial (subs : List Sub) (h : GoodInit subs) :
    Expected subs (get subs).1 (get subs).2 := by
  obtain ⟨h1, h2⟩ := get_good subs h
  refine ⟨h1, fun hg => ?_, fun ⟨s, hm, hs, c, hc⟩ => ?_⟩
  · have hnil : (subs.filter fun s => !s.suspended).filterMap
        (fun s => errOf (answer s.cb)) = [] := by
      rw [List.filterMap_eq_nil_iff]
      intro s hs
      simp only [List.mem_filter, Bool.not_eq_eq_eq_not, Bool.not_true] at hs
      obtain ⟨d, hd⟩ := hg s hs.1 hs.2
      simp [hd, errOf]
    simp only [get, h2, hnil, ↓reduceIte]
  · have hne : (subs.filter fun s => !s.suspended).filterMap
        (fun s => errOf (answer s.cb)) ≠ [] := by
      intro hn
      rw [List.filterMap_eq_nil_iff] at hn
      have := hn s (by simp [hm, hs])
      simp [hc, errOf] at this
    simp only [get, h2, hne, ↓reduceIte]

def exSubs : List Sub :=
  [⟨1, false, .data [10, 11], .none, false⟩, ⟨2, true, .shelve, .none, true⟩, ⟨3, false, .data [12], .none, true⟩,
   ⟨4, false, .data [], .none, false⟩]

example : GoodInit exSubs ∧ get exSubs = (.ok [10, 11, 12], [1, 3, 4]) :=
  ⟨by simp [exSubs, GoodInit, Good], by rfl⟩

example : GoodInit (exSubs ++ [⟨5, false, .fail 7, .none, false⟩]) ∧
    get (exSubs ++ [⟨5, false, .fail 7, .none, false⟩]) = (.error [7], [1, 3, 4, 5]) :=
  ⟨by simp [exSubs, GoodInit, Good], by rfl⟩

/-- C135, for all subscribers: no data are returned as if they were complete: data are returned only when
every subscriber that is not suspended was called and returned data, and these are the data of all. -/
theorem data_complete (subs : List Sub) (d : List Nat) (h : (get subs).1 = .ok d) :
    (∀ s ∈ subs, s.suspended = false → ∃ x, answer s.cb = .ok x) ∧
    d = (subs.filter fun s => !s.suspended).flatMap fun s => dataOf (answer s.cb) := by
  have hgood : ∀ ss : List Sub, (collect (listen (ask ss)).1).2 = [] → ∀ s ∈ ss, s.suspended = false → Good s := by
    intro ss
    induction ss with
    | nil => simp
    | cons s ss ih =>
      intro hc
      have hask : ask (s :: ss) = (if s.suspended then s else { s with ev := .oper, seen := false }) :: ask ss := rfl
      rw [hask] at hc
      cases hs : s.suspended with
      | true =>
        simp only [↓reduceIte, listen, hs, Bool.true_or, collect] at hc
        intro t ht hts
        rcases List.mem_cons.mp ht with rfl | ht
        · simp [hs] at hts
        · exact ih hc t ht hts
      | false =>
        cases hcb : s.cb with
        | data x =>
          simp only [Bool.false_eq_true, ↓reduceIte, listen, hs, bne_self_eq_false, Bool.or_self, processOne,
            hcb, collect] at hc
          intro t ht hts
          rcases List.mem_cons.mp ht with rfl | ht
          · exact ⟨x, hcb⟩
          · exact ih hc t ht hts
        | fail c => simp [listen, hs, processOne, hcb, collect] at hc
        | shelve => simp [listen, hs, processOne, hcb, collect] at hc
        | late => simp [listen, hs, processOne, hcb, collect] at hc
  have hnil : (collect (listen (ask subs)).1).2 = [] := by
    simp only [get] at h
    split at h
    · assumption
    · simp at h
  have hg := hgood subs hnil
  have hinit : ∀ ss : List Sub, (∀ s ∈ ss, s.suspended = false → Good s) → GoodInit ss := by
    intro ss
    induction ss with
    | nil => intro _; trivial
    | cons s ss ih =>
      intro hh
      exact ⟨fun hs => .inl (hh s List.mem_cons_self hs), ih fun t ht => hh t (List.mem_cons_of_mem _ ht)⟩
  have hall : ∀ s ∈ subs, s.suspended = false → ∃ x, answer s.cb = .ok x := by
    intro s hm hs
    obtain ⟨x, hx⟩ := hg s hm hs
    exact ⟨x, answer_ok.mpr hx⟩
  refine ⟨hall, ?_⟩
  have := (all_asked_partial subs (hinit subs hg)).data hall
  rw [this] at h
  simpa using h.symm

/-- C135: which callbacks are called, exactly, for all subscribers: those up to the first one that does not return data. -/
theorem called_exact (subs : List Sub) :
    ∃ n, (get subs).2 = (((subs.filter fun s => !s.suspended).take n).map Sub.id) ∧
      (n < (subs.filter fun s => !s.suspended).length →
        ∃ s, (subs.filter fun s => !s.suspended)[n - 1]? = some s ∧ 0 < n ∧ ¬ Good s) ∧
      ∀ i, i + 1 < n → ∀ s, (subs.filter fun s => !s.suspended)[i]? = some s → Good s := by
  show ∃ n, (listen (ask subs)).2 = _ ∧ _
  induction subs with
  | nil => exact ⟨0, by simp [ask, listen]⟩
  | cons s ss ih =>
    obtain ⟨n, h1, h2, h3⟩ := ih
    have hask : ask (s :: ss) = (if s.suspended then s else { s with ev := .oper, seen := false }) :: ask ss := rfl
    rw [hask]
    cases hs : s.suspended with
    | true =>
      refine ⟨n, ?_⟩
      simp only [↓reduceIte, listen, hs, Bool.true_or, Bool.not_true, Bool.false_eq_true,
        not_false_eq_true, List.filter_cons_of_neg]
      exact ⟨h1, h2, h3⟩
    | false =>
      simp only [hs, Bool.not_false, List.filter_cons_of_pos]
      cases hcb : s.cb with
      | data x =>
        refine ⟨n + 1, ?_, ?_, ?_⟩
        · simp only [Bool.false_eq_true, ↓reduceIte, listen, hs, bne_self_eq_false, Bool.or_self, processOne, hcb]
          simp [h1]
        · intro hl
          simp only [List.length_cons] at hl
          obtain ⟨t, ht, hn, hg⟩ := h2 (by omega)
          refine ⟨t, ?_, by omega, hg⟩
          obtain ⟨m, rfl⟩ : ∃ m, n = m + 1 := ⟨n - 1, by omega⟩
          simpa using ht
        · intro i hi t ht
          cases i with
          | zero => simp at ht; exact ht ▸ ⟨x, hcb⟩
          | succ j => exact h3 j (by omega) t (by simpa using ht)
      | fail c | shelve | late =>
        refine ⟨1, ?_, ?_, ?_⟩
        · simp [listen, hs, processOne, hcb]
        · intro _; exact ⟨s, by simp, by omega, by simp [Good, hcb]⟩
        · intro i hi; omega

/-- C135: no callback is called without being asked, or again for the same request, for all states. -/
theorem called_only_asked (subs : List Sub) (i : Nat) (h : i ∈ (listen subs).2) :
    ∃ s ∈ subs, s.id = i ∧ s.suspended = false ∧ s.ev = .oper ∧ s.seen = false := by
  induction subs with
  | nil => simp [listen] at h
  | cons s ss ih =>
    by_cases hc : s.suspended = false ∧ s.ev = .oper ∧ s.seen = false
    · obtain ⟨h1, h2, h3⟩ := hc
      by_cases hi : s.id = i
      · exact ⟨s, List.mem_cons_self, hi, h1, h2, h3⟩
      · have hss : i ∈ (listen ss).2 := by
          simp only [listen, h1, h2, h3, bne_self_eq_false, Bool.or_self, Bool.false_eq_true, ↓reduceIte] at h
          split at h
          · exact (List.mem_cons.mp h).resolve_left (fun he => hi he.symm)
          · simp at h; exact absurd h.symm hi
        obtain ⟨t, ht, hrest⟩ := ih hss
        exact ⟨t, List.mem_cons_of_mem _ ht, hrest⟩
    · have hcond : (s.suspended || s.ev != .oper || s.seen) = true := by
        cases h1 : s.suspended <;> cases h3 : s.seen <;> simp_all
      simp only [listen, hcond, ↓reduceIte] at h
      obtain ⟨t, ht, hrest⟩ := ih h
      exact ⟨t, List.mem_cons_of_mem _ ht, hrest⟩

example : (listen [⟨1, false, .data [5], .none, false⟩, ⟨2, false, .data [6], .oper, true⟩,
    ⟨3, false, .data [7], .oper, false⟩]).2 = [3] := by rfl

/-- C135 is false when a callback fails: for every error, a subscriber after it that is asked too is not called, and the process reading
waits for it until it times out: two errors instead of one. -/
theorem failure_hides_others (c : Nat) (d : List Nat) :
    get [⟨1, false, .fail c, .none, false⟩, ⟨2, false, .data d, .none, false⟩] = (.error [c, timeOut], [1]) ∧
    ¬ Expected [⟨1, false, .fail c, .none, false⟩, ⟨2, false, .data d, .none, false⟩]
      (get [⟨1, false, .fail c, .none, false⟩, ⟨2, false, .data d, .none, false⟩]).1
      (get [⟨1, false, .fail c, .none, false⟩, ⟨2, false, .data d, .none, false⟩]).2 := by
  refine ⟨by simp [get, ask, listen, processOne, collect], fun h => ?_⟩
  have := h.called
  simp [get, ask, listen, processOne] at this

/-- C135 is false when a process gave up: the event of another subscriber is left without being looked at, though the call succeeds. -/
theorem late_hides_others (d : List Nat) :
    listen [⟨1, false, .late, .oper, false⟩, ⟨2, false, .data d, .oper, false⟩] =
      ([⟨1, false, .late, .none, true⟩, ⟨2, false, .data d, .oper, false⟩], [1]) := by
  simp [listen, processOne]

/-- C135 is false with shelving: a subscriber that shelves the event keeps all those after it
from being called, however often events are processed. -/
theorem shelving_starves (s : Sub) (ss : List Sub) (n : Nat) (h : s.cb = .shelve) (h1 : s.suspended = false)
    (h2 : s.ev = .oper) (h3 : s.seen = false) :
    again n (s :: ss) = (s :: ss, List.replicate n s.id) := by
  have hl : listen (s :: ss) = (s :: ss, [s.id]) := by
    simp [listen, processOne, h, h1, h2, h3]
  induction n with
  | zero => rfl
  | succ n ih => simp [again, hl, ih, List.replicate_succ]

example : again 3 [⟨1, false, .shelve, .oper, false⟩, ⟨2, false, .data [5], .oper, false⟩] =
    ([⟨1, false, .shelve, .oper, false⟩, ⟨2, false, .data [5], .oper, false⟩], [1, 1, 1]) := by rfl

end Verif.OperAsk
