import Verif.OperPoll
import Verif.TimeProps
/-!
Helper lemmas for C110, C112, C113.
-/
namespace Verif.OperPoll
open Verif.Time

theorem pollSubs_append (env : Nat → Env) (a b : List Sub) (s : St) :
    pollSubs env s (a ++ b) = match pollSubs env s a with | .ok s1 => pollSubs env s1 b | r => r := by
  induction a generalizing s with
  | nil => rfl
  | cons p ps ih =>
    simp only [List.cons_append, pollSubs]
    cases pollSub (env p.id) s p <;> simp [ih]

theorem pollMods_eq (env : Nat → Env) (ms : List (String × List Sub)) (s : St) :
    pollMods env s ms = pollSubs env s (ms.flatMap (·.2)) := by
  induction ms generalizing s with
  | nil => rfl
  | cons m ms ih =>
    simp only [pollMods, List.flatMap_cons, pollSubs_append]
    cases pollSubs env s m.2 <;> simp [ih]

theorem findCache_setCache_same (cs : List Cache) (id : Nat) (d : Data) (t : Ts) :
    findCache (setCache cs id d t) id = (findCache cs id).map (fun c => { c with data := d, ts := t }) := by
  induction cs with
  | nil => rfl
  | cons c cs ih =>
    simp only [findCache, setCache, List.map_cons] at ih ⊢
    by_cases h : c.subId = id
    · subst h; simp
    · rw [if_neg h]
      have hb : (c.subId == id) = false := by simpa using h
      rw [List.find?_cons, List.find?_cons, hb, ih]

theorem findCache_setCache_other (cs : List Cache) (id j : Nat) (d : Data) (t : Ts) (hj : j ≠ id) :
    findCache (setCache cs id d t) j = findCache cs j := by
  induction cs with
  | nil => rfl
  | cons c cs ih =>
    simp only [findCache, setCache, List.map_cons] at ih ⊢
    by_cases h : c.subId = id
    · have hb : (c.subId == j) = false := by
        have : c.subId ≠ j := fun hh => hj (hh.symm.trans h)
        simpa using this
      rw [if_pos h, List.find?_cons, List.find?_cons]
      simp only [hb, ih]
    · rw [if_neg h, List.find?_cons, List.find?_cons, ih]

/-- The ways a visit succeeds. -/
theorem pollSub_ok {e : Env} {s s1 : St} {p : Sub} (h : pollSub e s p = .ok s1) :
    (p.suspended = true ∧ s1 = s) ∨
    (p.suspended = false ∧ e.found = false ∧ (∃ c, findCache s.caches p.id = some c) ∧
      s1 = { s with caches := setCache s.caches p.id [] ⟨0, 0⟩ }) ∨
    (p.suspended = false ∧ e.found = true ∧ ∃ c inv, findCache s.caches p.id = some c ∧
      cacheValid c p.validMs e.now = some (some inv) ∧ s1 = { s with wake := offer s.wake inv }) ∨
    (p.suspended = false ∧ e.found = true ∧ ∃ c d inv, findCache s.caches p.id = some c ∧
      cacheValid c p.validMs e.now = some none ∧ e.answer = .ok d ∧ tsAdd none p.validMs = some inv ∧
      s1.caches = setCache s.caches p.id d e.stored ∧ s1.wake = offer s.wake inv ∧
      (p.diff = false → s1.events = s.events) ∧
      (p.diff = true → s1.events = if diff c.data d = [] then s.events else s.events ++ [(p.id, diff c.data d)])) := by
  unfold pollSub at h
  by_cases hs : p.suspended = true
  · rw [if_pos hs] at h
    exact Or.inl ⟨hs, by simpa using h.symm⟩
  have hs' : p.suspended = false := by simpa using hs
  rw [if_neg hs] at h
  cases hc : findCache s.caches p.id with
  | none => rw [hc] at h; cases h
  | some c =>
    rw [hc] at h
    simp only at h
    by_cases hf : e.found = false
    · rw [if_pos hf] at h
      exact Or.inr (Or.inl ⟨hs', hf, ⟨c, rfl⟩, by simpa using h.symm⟩)
    · rw [if_neg hf] at h
      have hf' : e.found = true := by simpa using hf
      cases hv : cacheValid c p.validMs e.now with
      | none => rw [hv] at h; cases h
      | some o =>
        rw [hv] at h
        cases o with
        | some inv =>
          simp only at h
          exact Or.inr (Or.inr (Or.inl ⟨hs', hf', c, inv, rfl, hv, by simpa using h.symm⟩))
        | none =>
          simp only at h
          cases ha : e.answer with
          | error code => rw [ha] at h; cases h
          | ok d =>
            rw [ha] at h
            simp only at h
            by_cases hd : p.diff = true ∧ d = []
            · rw [if_pos hd] at h; cases h
            · rw [if_neg hd] at h
              generalize hch : (if p.diff = true then diff c.data d else []) = ch at h
              split at h
              · cases h
              · cases ht : tsAdd none p.validMs with
                | none => rw [ht] at h; cases h
                | some inv =>
                  rw [ht] at h
                  simp only at h
                  refine Or.inr (Or.inr (Or.inr ⟨hs', hf', c, d, inv, rfl, hv, rfl, rfl, ?_⟩))
                  by_cases hz : ch = []
                  · rw [if_pos hz] at h
                    simp only [Out.ok.injEq] at h
                    subst h
                    refine ⟨rfl, rfl, fun _ => rfl, fun hp => ?_⟩
                    rw [if_pos hp] at hch
                    rw [hch, if_pos hz]
                  · rw [if_neg hz] at h
                    split at h
                    · cases h
                    · simp only [Out.ok.injEq] at h
                      subst h
                      refine ⟨rfl, rfl, fun hp => ?_, fun hp => ?_⟩
                      · simp only [hp, Bool.false_eq_true, if_false] at hch
                        exact absurd hch.symm hz
                      · rw [if_pos hp] at hch
                        rw [hch, if_neg hz]

/-- The ways a visit fails with an error. -/
theorem pollSub_err {e : Env} {s s1 : St} {p : Sub} {code : Code} (h : pollSub e s p = .err code s1) :
    s1 = s ∨ (e.pubErr = true ∧ e.found = true ∧ ∃ d, e.answer = .ok d ∧ s1.caches = setCache s.caches p.id d e.stored ∧
      s1.events = s.events) := by
  unfold pollSub at h
  split at h
  · cases h
  · split at h
    · cases h
    · rename_i c hc
      split at h
      · cases h
      · rename_i hf
        split at h
        · cases h
        · cases h
        · split at h
          · cases h; exact Or.inl rfl
          · rename_i d hans
            split at h
            · cases h
            · simp only at h
              generalize (if p.diff = true then diff c.data d else []) = ch at h
              split at h
              · cases h; exact Or.inl rfl
              · split at h
                · cases h
                · split at h
                  · cases h
                  · split at h
                    · rename_i hpe
                      cases h
                      exact Or.inr ⟨hpe, by simpa using hf, d, hans, rfl, rfl⟩
                    · cases h

/-- A visit leaves the other caches alone. -/
theorem pollSub_other {e : Env} {s s1 : St} {p : Sub} (h : pollSub e s p = .ok s1) {j : Nat} (hj : j ≠ p.id) :
    findCache s1.caches j = findCache s.caches j := by
  rcases pollSub_ok h with ⟨_, rfl⟩ | ⟨_, _, _, rfl⟩ | ⟨_, _, _, _, _, _, rfl⟩ | ⟨_, _, _, _, _, _, _, _, _, hc, _⟩
  · rfl
  · exact findCache_setCache_other _ _ _ _ _ hj
  · rfl
  · rw [hc]; exact findCache_setCache_other _ _ _ _ _ hj

theorem pollSubs_other {env : Nat → Env} {ps : List Sub} {s s1 : St} (h : pollSubs env s ps = .ok s1) {j : Nat}
    (hj : ∀ p ∈ ps, p.id ≠ j) : findCache s1.caches j = findCache s.caches j := by
  induction ps generalizing s with
  | nil => simp only [pollSubs, Out.ok.injEq] at h; rw [h]
  | cons p ps ih =>
    simp only [pollSubs] at h
    cases hp : pollSub (env p.id) s p with
    | ok s2 =>
      rw [hp] at h
      rw [ih h (fun q hq => hj q (by simp [hq])), pollSub_other hp (fun hh => hj p (by simp) hh.symm)]
    | err c s2 => rw [hp] at h; cases h
    | crash => rw [hp] at h; cases h
    | undef => rw [hp] at h; cases h

theorem setCache_ids (cs : List Cache) (id : Nat) (d : Data) (t : Ts) :
    (setCache cs id d t).map (·.subId) = cs.map (·.subId) := by
  simp only [setCache, List.map_map]
  apply List.map_congr_left
  intro c _
  simp only [Function.comp]
  split <;> rfl

theorem pollSubs_ids {env : Nat → Env} {ps : List Sub} {s s1 : St} (h : pollSubs env s ps = .ok s1) :
    s1.caches.map (·.subId) = s.caches.map (·.subId) := by
  induction ps generalizing s with
  | nil => simp only [pollSubs, Out.ok.injEq] at h; rw [h]
  | cons p ps ih =>
    simp only [pollSubs] at h
    cases hp : pollSub (env p.id) s p with
    | ok s2 =>
      rw [hp] at h
      rw [ih h]
      rcases pollSub_ok hp with ⟨_, rfl⟩ | ⟨_, _, _, rfl⟩ | ⟨_, _, _, _, _, _, rfl⟩ | ⟨_, _, _, _, _, _, _, _, _, hc, _⟩
      · rfl
      · exact setCache_ids _ _ _ _
      · rfl
      · rw [hc]; exact setCache_ids _ _ _ _
    | err c s2 => rw [hp] at h; cases h
    | crash => rw [hp] at h; cases h
    | undef => rw [hp] at h; cases h

theorem findCache_of_mem {cs : List Cache} (hnd : (cs.map (·.subId)).Nodup) {c : Cache} (hc : c ∈ cs) :
    findCache cs c.subId = some c := by
  induction cs with
  | nil => cases hc
  | cons x xs ih =>
    simp only [List.map_cons, List.nodup_cons] at hnd
    simp only [findCache, List.find?_cons] at ih ⊢
    rcases List.mem_cons.1 hc with rfl | hc
    · simp
    · have hb : (x.subId == c.subId) = false := by
        have : x.subId ≠ c.subId := fun hh => hnd.1 (by rw [hh]; exact List.mem_map_of_mem hc)
        simpa using this
      rw [hb]
      exact ih hnd.2 hc

theorem mem_of_findCache {cs : List Cache} {id : Nat} {c : Cache} (h : findCache cs id = some c) : c ∈ cs ∧ c.subId = id :=
  ⟨List.mem_of_find?_eq_some h, by simpa using List.find?_some h⟩

/-- The visit of each subscription in a successful pass. -/
theorem visit {env : Nat → Env} {a b : List Sub} {p : Sub} {s s2 : St} (h : pollSubs env s (a ++ p :: b) = .ok s2) :
    ∃ sa sb, pollSubs env s a = .ok sa ∧ pollSub (env p.id) sa p = .ok sb ∧ pollSubs env sb b = .ok s2 := by
  rw [pollSubs_append] at h
  cases ha : pollSubs env s a with
  | ok sa =>
    rw [ha] at h
    simp only [pollSubs] at h
    cases hp : pollSub (env p.id) sa p with
    | ok sb => rw [hp] at h; exact ⟨sa, sb, rfl, hp, h⟩
    | err c s2 => rw [hp] at h; cases h
    | crash => rw [hp] at h; cases h
    | undef => rw [hp] at h; cases h
  | err c s2 => rw [ha] at h; cases h
  | crash => rw [ha] at h; cases h
  | undef => rw [ha] at h; cases h

/-- Validity of a cache in terms of instants. -/
theorem cacheValid_spec (c : Cache) (ms : Nat) (now : Ts) (hc : Clock c.ts) (hn : Clock now) (hms : ms + 999 < 2 ^ 32) :
    (c.ts.sec = 0 → cacheValid c ms now = some none) ∧
    (c.ts.sec ≠ 0 → c.ts.ns + ms * 1000000 ≤ now.ns → cacheValid c ms now = some none) ∧
    (c.ts.sec ≠ 0 → now.ns < c.ts.ns + ms * 1000000 →
      ∃ inv, cacheValid c ms now = some (some inv) ∧ Normal inv ∧ inv.ns = c.ts.ns + ms * 1000000 - now.ns) := by
  refine ⟨fun h => by simp [cacheValid, h], ?_, ?_⟩
  all_goals
    intro h0 hlt
    have hn1 := hc.1
    obtain ⟨r, h1, h2, h3⟩ := add_exact_partial c.ts ms hc (by simp only [Normal] at hn1; omega)
    have hcmp := cmp_exact r now h3 hn.1
    have hw : Wide r := by
      refine ⟨h3, ?_, ?_⟩
      · have := hc.2.1; simp only [Ts.ns, Normal] at h2 h3 hn1; omega
      · have := hc.2.2; simp only [Ts.ns, Normal] at h2 h3 hn1; omega
    unfold cacheValid
    rw [if_neg h0, h1]
    simp only
  · rw [if_pos]
    rcases Int.lt_trichotomy r.ns now.ns with hh | hh | hh
    · rw [hcmp.2.1.2 hh]; omega
    · have : ¬ tsCmp r now = 1 := fun hx => by have := hcmp.1.1 hx; omega
      unfold tsCmp at this ⊢
      repeat' split
      all_goals first | omega | simp_all
    · omega
  · have hgt : r.ns > now.ns := by omega
    rw [if_neg (by rw [hcmp.1.2 hgt]; omega)]
    obtain ⟨q, g1, g2, _⟩ := sub_exact r now hw hn.wide
    obtain ⟨g3, g4⟩ := g2 (by omega)
    rw [g1]
    exact ⟨q, rfl, g4, by omega⟩

/-- The wake-up time so far: none or at least a second. -/
def Coarse (w : Ts) : Prop := w = ⟨0, 0⟩ ∨ (Normal w ∧ 1 ≤ w.sec)

theorem offer_coarse {w t : Ts} (hw : Coarse w) (ht : Normal t) (ht1 : 1 ≤ t.sec) :
    ∃ w', offer (some w) t = some w' ∧ Coarse w' ∧ w' ≠ ⟨0, 0⟩ ∧ w'.ns ≤ t.ns ∧ (w ≠ ⟨0, 0⟩ → w'.ns ≤ w.ns) := by
  have htne : t ≠ ⟨0, 0⟩ := by rintro rfl; simp at ht1
  rcases hw with rfl | ⟨hn, h1⟩
  · exact ⟨t, by simp [offer], Or.inr ⟨ht, ht1⟩, htne, by omega, by simp⟩
  · have hwne : w ≠ ⟨0, 0⟩ := by rintro rfl; simp at h1
    have hcmp := cmp_exact t w ht hn
    simp only [offer]
    by_cases hc : w.sec = 0 ∨ tsCmp t w < 0
    · rw [if_pos hc]
      refine ⟨t, rfl, Or.inr ⟨ht, ht1⟩, htne, by omega, fun _ => ?_⟩
      have h2 : tsCmp t w < 0 := by rcases hc with h | h; omega; exact h
      have : ¬ t.ns > w.ns := fun hh => by rw [hcmp.1.2 hh] at h2; omega
      omega
    · rw [if_neg hc]
      refine ⟨w, rfl, Or.inr ⟨hn, h1⟩, hwne, ?_, fun _ => by omega⟩
      have : ¬ t.ns < w.ns := fun hh => hc (Or.inr (by rw [hcmp.2.1.2 hh]; omega))
      omega

theorem sec_of_ns {t : Ts} (h : Normal t) (h1 : 1000000000 ≤ t.ns) : 1 ≤ t.sec := by
  simp only [Ts.ns, Normal] at *; omega

/-- One visit keeps the wake-up time and makes it early enough for the visited subscription. -/
theorem pollSub_wake {start : Int} {e : Env} {s s1 : St} {p : Sub} {w : Ts} (h : pollSub e s p = .ok s1)
    (hw : s.wake = some w) (hco : Coarse w)
    (hs : ∀ c, p.suspended = false → e.found = true → findCache s.caches p.id = some c → Slow start e p c) :
    ∃ w', s1.wake = some w' ∧ Coarse w' ∧ (w ≠ ⟨0, 0⟩ → w' ≠ ⟨0, 0⟩ ∧ w'.ns ≤ w.ns) ∧
      (p.suspended = false → e.found = true → w' ≠ ⟨0, 0⟩ ∧
        ∃ c, findCache s1.caches p.id = some c ∧ start + w'.ns ≤ expiry c.ts p ∧ w'.ns ≤ p.validMs * 1000000) := by
  rcases pollSub_ok h with ⟨h1, rfl⟩ | ⟨h1, h2, _, rfl⟩ | ⟨h1, h2, c, inv, hc, hv, rfl⟩ |
    ⟨h1, h2, c, d, inv, hc, hv, ha, ht, hcs, hwk, _, _⟩
  · exact ⟨w, hw, hco, fun hh => ⟨hh, by omega⟩, by simp [h1]⟩
  · exact ⟨w, hw, hco, fun hh => ⟨hh, by omega⟩, by simp [h2]⟩
  · obtain ⟨v1, v2, v3, v4, v5, v6, v7, v9, v8⟩ := hs c h1 h2 hc
    have hsp := cacheValid_spec c p.validMs e.now v5 v3 v2
    have h0 : c.ts.sec ≠ 0 := fun hh => by rw [hsp.1 hh] at hv; cases hv
    have hlt : ¬ c.ts.ns + p.validMs * 1000000 ≤ e.now.ns := fun hh => by rw [hsp.2.1 h0 hh] at hv; cases hv
    obtain ⟨i, g1, g2, g3⟩ := hsp.2.2 h0 (by omega)
    rw [g1] at hv
    obtain rfl : i = inv := by simpa using hv
    simp only [expiry] at v8 ⊢
    have hbig : 1000000000 ≤ i.ns := by clear hsp hs; omega
    obtain ⟨w', k1, k2, k3, k4, k5⟩ := offer_coarse hco g2 (sec_of_ns g2 hbig)
    refine ⟨w', by rw [← k1, ← hw], k2, fun hh => ⟨k3, k5 hh⟩, fun _ _ => ⟨k3, c, hc, ?_, ?_⟩⟩
    · clear hs hsp hv g1 k1; omega
    · clear hs hsp hv g1 k1; omega
  · obtain ⟨v1, v2, v3, v4, v5, v6, v7, v9, v8⟩ := hs c h1 h2 hc
    obtain ⟨i, g1, g2, g3⟩ := add_null_exact p.validMs (by omega)
    rw [g1] at ht
    obtain rfl : i = inv := by simpa using ht
    have hbig : 1000000000 ≤ i.ns := by omega
    obtain ⟨w', k1, k2, k3, k4, k5⟩ := offer_coarse hco g3 (sec_of_ns g3 hbig)
    refine ⟨w', by rw [hwk, hw, k1], k2, fun hh => ⟨k3, k5 hh⟩, fun _ _ => ⟨k3, { c with data := d, ts := e.stored }, ?_, ?_, ?_⟩⟩
    · rw [hcs, findCache_setCache_same, hc]; rfl
    · simp only [expiry]; omega
    · omega

theorem pollSubs_wake {start : Int} {env : Nat → Env} {ps : List Sub} {s s1 : St} {w : Ts}
    (h : pollSubs env s ps = .ok s1) (hw : s.wake = some w) (hco : Coarse w) (hnd : (ps.map (·.id)).Nodup)
    (hs : ∀ p ∈ ps, ∀ c, p.suspended = false → (env p.id).found = true → findCache s.caches p.id = some c →
      Slow start (env p.id) p c) :
    ∃ w', s1.wake = some w' ∧ Coarse w' ∧ (w ≠ ⟨0, 0⟩ → w' ≠ ⟨0, 0⟩ ∧ w'.ns ≤ w.ns) := by
  induction ps generalizing s w with
  | nil =>
    simp only [pollSubs, Out.ok.injEq] at h
    subst h
    exact ⟨w, hw, hco, fun hh => ⟨hh, by omega⟩⟩
  | cons p ps ih =>
    obtain ⟨sa, sb, e1, e2, e3⟩ := visit (a := []) h
    simp only [pollSubs, Out.ok.injEq] at e1
    subst e1
    obtain ⟨w1, k1, k2, k3, _⟩ := pollSub_wake e2 hw hco (hs p (by simp))
    simp only [List.map_cons, List.nodup_cons] at hnd
    obtain ⟨w2, g1, g2, g3⟩ := ih e3 k1 k2 hnd.2 (fun q hq c q1 q2 q3 => by
      refine hs q (by simp [hq]) c q1 q2 ?_
      rwa [pollSub_other e2 (fun hh => hnd.1 (by rw [← hh]; exact List.mem_map_of_mem hq))] at q3)
    exact ⟨w2, g1, g2, fun hh => ⟨(g3 (k3 hh).1).1, by have := (g3 (k3 hh).1).2; have := (k3 hh).2; omega⟩⟩

/-! ### Replicas -/

theorem get_eq (d : Data) (k : Nat) : get d k = value d k := by
  induction d with
  | nil => rfl
  | cons x xs ih =>
    simp only [get, List.find?_cons, value] at ih ⊢
    by_cases h : x.1 = k
    · simp [h]
    · have hb : (x.1 == k) = false := by simpa using h
      simp only [hb, h, if_false]
      exact ih

theorem value_some {d : Data} {k : Nat} (h : value d k ≠ none) : ∃ x ∈ d, x.1 = k := by
  induction d with
  | nil => simp [value] at h
  | cons x xs ih =>
    simp only [value] at h
    by_cases hx : x.1 = k
    · exact ⟨x, by simp, hx⟩
    · rw [if_neg hx] at h
      obtain ⟨y, h1, h2⟩ := ih h
      exact ⟨y, by simp [h1], h2⟩

theorem diff_val {old new : Data} {c : Change} (h : c ∈ diff old new) : c.2 = value new c.1 := by
  simp only [diff, List.mem_append, List.mem_map, List.mem_filter] at h
  rcases h with ⟨x, ⟨_, h2⟩, rfl⟩ | ⟨x, _, rfl⟩
  · simp only [Option.isNone_iff_eq_none, get_eq] at h2; exact h2.symm
  · exact get_eq _ _

theorem diff_covers {old new : Data} {k : Nat} (h : value old k ≠ value new k) : ∃ c ∈ diff old new, c.1 = k := by
  cases hn : value new k with
  | none =>
    rw [hn] at h
    obtain ⟨x, h1, h2⟩ := value_some h
    refine ⟨(x.1, none), ?_, h2⟩
    simp only [diff, List.mem_append, List.mem_map, List.mem_filter]
    exact Or.inl ⟨x, ⟨h1, by rw [get_eq, h2, hn]; rfl⟩, rfl⟩
  | some v =>
    obtain ⟨x, h1, h2⟩ := value_some (d := new) (k := k) (by simp [hn])
    refine ⟨(x.1, get new x.1), ?_, h2⟩
    simp only [diff, List.mem_append, List.mem_map, List.mem_filter]
    exact Or.inr ⟨x, ⟨h1, by simpa [get_eq, h2] using h⟩, rfl⟩

theorem apply_all (cs : List Change) (f g : Nat → Option Nat) (h : ∀ c ∈ cs, c.2 = g c.1) (k : Nat) :
    cs.foldl applyChange f k = if ∃ c ∈ cs, c.1 = k then g k else f k := by
  induction cs generalizing f with
  | nil => simp
  | cons c cs ih =>
    simp only [List.foldl_cons]
    rw [ih _ (fun x hx => h x (by simp [hx]))]
    by_cases h1 : ∃ x ∈ cs, x.1 = k
    · rw [if_pos h1, if_pos (by obtain ⟨x, a, b⟩ := h1; exact ⟨x, by simp [a], b⟩)]
    · rw [if_neg h1]
      simp only [applyChange]
      by_cases h2 : k = c.1
      · rw [if_pos h2, if_pos ⟨c, by simp, h2.symm⟩, h c (by simp), h2]
      · rw [if_neg h2, if_neg]
        rintro ⟨x, hx, rfl⟩
        rcases List.mem_cons.1 hx with rfl | hx
        · exact h2 rfl
        · exact h1 ⟨x, hx, rfl⟩

theorem apply_diff (old new : Data) (f : Nat → Option Nat) (hf : ∀ k, f k = value old k) (k : Nat) :
    (diff old new).foldl applyChange f k = value new k := by
  rw [apply_all _ _ (value new) (fun c hc => diff_val hc)]
  by_cases h : ∃ c ∈ diff old new, c.1 = k
  · rw [if_pos h]
  · rw [if_neg h, hf]
    by_cases he : value old k = value new k
    · exact he
    · exact absurd (diff_covers he) h

theorem replica_append_same (ev : List (Nat × List Change)) (id : Nat) (ch : List Change) :
    replica (ev ++ [(id, ch)]) id = ch.foldl applyChange (replica ev id) := by
  simp [replica, List.filter_append, List.flatMap_append, List.foldl_append]

theorem replica_append_other (ev : List (Nat × List Change)) (id j : Nat) (ch : List Change) (h : j ≠ id) :
    replica (ev ++ [(j, ch)]) id = replica ev id := by
  have hb : (j == id) = false := by simpa using h
  simp [replica, List.filter_append, hb]

/-- Data in the cache of a subscription. -/
def cacheData (cs : List Cache) (id : Nat) : Data := ((findCache cs id).map (·.data)).getD []

/-- The subscriber's knowledge is the cached data. -/
def Sync (id : Nat) (cs : List Cache) (ev : List (Nat × List Change)) : Prop := ∀ k, replica ev id k = value (cacheData cs id) k

theorem pollSub_sync {e : Env} {s : St} {p : Sub} {id : Nat} (hs : Sync id s.caches s.events)
    (he : p.id = id → e.found = true ∧ e.pubErr = false) (hd : p.id = id → p.diff = true) :
    match pollSub e s p with
    | .ok s1 => Sync id s1.caches s1.events
    | .err _ s1 => Sync id s1.caches s1.events
    | _ => True := by
  cases h : pollSub e s p with
  | crash => trivial
  | undef => trivial
  | ok s1 =>
    simp only
    rcases pollSub_ok h with ⟨_, rfl⟩ | ⟨_, hf, _, rfl⟩ | ⟨_, _, _, _, _, _, rfl⟩ |
      ⟨_, _, c, d, _, hc, _, _, _, hcs, _, hev0, hev1⟩
    · exact hs
    · have hne : id ≠ p.id := fun hh => by have := (he hh.symm).1; rw [hf] at this; cases this
      intro k
      simp only [cacheData, findCache_setCache_other _ _ _ _ _ hne]
      exact hs k
    · exact hs
    · intro k
      by_cases hid : p.id = id
      · subst hid
        have hcd : cacheData s.caches p.id = c.data := by simp [cacheData, hc]
        have hnew : cacheData s1.caches p.id = d := by simp [cacheData, hcs, findCache_setCache_same, hc]
        rw [hnew, hev1 (hd rfl)]
        have hb : ∀ k, replica s.events p.id k = value c.data k := by rw [← hcd]; exact hs
        by_cases hz : diff c.data d = []
        · rw [if_pos hz]
          have := apply_diff c.data d _ hb k
          rw [hz] at this
          exact this
        · rw [if_neg hz, replica_append_same]
          exact apply_diff c.data d _ hb k
      · have hne : id ≠ p.id := fun hh => hid hh.symm
        have : replica s1.events id k = replica s.events id k := by
          cases hpd : p.diff with
          | false => rw [hev0 hpd]
          | true =>
            rw [hev1 hpd]
            split
            · rfl
            · rw [replica_append_other _ _ _ _ hid]
        rw [this, hs k]
        simp only [cacheData, hcs, findCache_setCache_other _ _ _ _ _ hne]
  | err code s1 =>
    simp only
    rcases pollSub_err h with rfl | ⟨h1, _, d, _, h2, h3⟩
    · exact hs
    · have hne : id ≠ p.id := fun hh => by
        have := (he hh.symm).2; rw [h1] at this; cases this
      intro k
      simp only [cacheData, h2, h3, findCache_setCache_other _ _ _ _ _ hne]
      exact hs k

theorem pollSubs_sync {env : Nat → Env} {id : Nat} (he : (env id).found = true ∧ (env id).pubErr = false) {ps : List Sub}
    {s : St} (hs : Sync id s.caches s.events) (hd : ∀ p ∈ ps, p.id = id → p.diff = true) :
    match pollSubs env s ps with
    | .ok s1 => Sync id s1.caches s1.events
    | .err _ s1 => Sync id s1.caches s1.events
    | _ => True := by
  induction ps generalizing s with
  | nil => exact hs
  | cons p ps ih =>
    simp only [pollSubs]
    have h1 := pollSub_sync (e := env p.id) (p := p) hs (fun hh => by rw [hh]; exact he) (hd p (by simp))
    cases hp : pollSub (env p.id) s p with
    | ok s1 =>
      rw [hp] at h1
      exact ih h1 (fun q hq => hd q (by simp [hq]))
    | err c s1 => rw [hp] at h1; exact h1
    | crash => trivial
    | undef => trivial

/-! ### Data come from the provider -/

/-- A cache entry of a history: made by a subscription, with nothing or an answer of the provider. -/
def Origin (ops : List Op) (c : Cache) : Prop :=
  (∃ env p, Op.subscribe env c.module p ∈ ops ∧ p.id = c.subId ∧ p.path = c.path) ∧
  (c.data = [] ∨ ∃ o ∈ ops, Answered c.subId c.data o)

theorem Origin.mono {ops : List Op} {c : Cache} (h : Origin ops c) (o : Op) : Origin (ops ++ [o]) c := by
  obtain ⟨⟨env, p, h1, h2⟩, h3⟩ := h
  refine ⟨⟨env, p, by simp [h1], h2⟩, ?_⟩
  rcases h3 with h | ⟨o', h4, h5⟩
  · exact Or.inl h
  · exact Or.inr ⟨o', by simp [h4], h5⟩

theorem setCache_origin {ops : List Op} {cs : List Cache} {id : Nat} {d : Data} {t : Ts} (h : ∀ c ∈ cs, Origin ops c)
    (hd : d = [] ∨ ∃ o ∈ ops, Answered id d o) : ∀ c ∈ setCache cs id d t, Origin ops c := by
  intro c hc
  simp only [setCache, List.mem_map] at hc
  obtain ⟨c0, h0, rfl⟩ := hc
  by_cases hi : c0.subId = id
  · rw [if_pos hi]
    exact ⟨(h c0 h0).1, by rw [← hi] at hd; exact hd⟩
  · rw [if_neg hi]; exact h c0 h0

theorem pollSub_origin {ops : List Op} {e : Env} {s : St} {p : Sub} (h : ∀ c ∈ s.caches, Origin ops c)
    (ha : ∀ d, e.answer = .ok d → e.found = true → ∃ o ∈ ops, Answered p.id d o) :
    match pollSub e s p with
    | .ok s1 => ∀ c ∈ s1.caches, Origin ops c
    | .err _ s1 => ∀ c ∈ s1.caches, Origin ops c
    | _ => True := by
  cases hp : pollSub e s p with
  | crash => trivial
  | undef => trivial
  | ok s1 =>
    simp only
    rcases pollSub_ok hp with ⟨_, rfl⟩ | ⟨_, hf, _, rfl⟩ | ⟨_, _, _, _, _, _, rfl⟩ |
      ⟨_, hf, c, d, _, hc, _, hans, _, hcs, _⟩
    · exact h
    · exact setCache_origin h (Or.inl rfl)
    · exact h
    · rw [hcs]; exact setCache_origin h (Or.inr (ha d hans hf))
  | err code s1 =>
    simp only
    rcases pollSub_err hp with rfl | ⟨_, hf, d, hans, h2, _⟩
    · exact h
    · rw [h2]; exact setCache_origin h (Or.inr (ha d hans hf))

theorem pollSubs_origin {ops : List Op} {env : Nat → Env} {ps : List Sub} {s : St} (h : ∀ c ∈ s.caches, Origin ops c)
    (ha : ∀ id d, (env id).answer = .ok d → (env id).found = true → ∃ o ∈ ops, Answered id d o) :
    match pollSubs env s ps with
    | .ok s1 => ∀ c ∈ s1.caches, Origin ops c
    | .err _ s1 => ∀ c ∈ s1.caches, Origin ops c
    | _ => True := by
  induction ps generalizing s with
  | nil => exact h
  | cons p ps ih =>
    simp only [pollSubs]
    have h1 := pollSub_origin (e := env p.id) (p := p) h (ha p.id)
    cases hp : pollSub (env p.id) s p with
    | ok s1 => rw [hp] at h1; exact ih h1
    | err c s1 => rw [hp] at h1; exact h1
    | crash => trivial
    | undef => trivial

theorem step_origin {ops : List Op} {c c1 : Conn} {o : Op} (h : ∀ x ∈ c.caches, Origin ops x) (hs : step c o = some c1) :
    ∀ x ∈ c1.caches, Origin (ops ++ [o]) x := by
  have h' : ∀ x ∈ c.caches, Origin (ops ++ [o]) x := fun x hx => (h x hx).mono o
  cases o with
  | flush =>
    simp only [step, flush, Option.some.injEq] at hs
    subst hs
    intro x hx
    simp only [List.mem_map] at hx
    obtain ⟨x0, h0, rfl⟩ := hx
    exact ⟨(h' x0 h0).1, Or.inl rfl⟩
  | suspend id on =>
    simp only [step, Option.some.injEq] at hs
    subst hs
    exact h'
  | unsubscribe id =>
    simp only [step, Option.some.injEq] at hs
    subst hs
    intro x hx
    exact h' x (List.mem_filter.1 hx |>.1)
  | pass env =>
    simp only [step, pollMods_eq] at hs
    have h1 := pollSubs_origin (ops := ops ++ [.pass env]) (env := env) (ps := c.mods.flatMap (·.2))
      (s := ⟨c.caches, some ⟨0, 0⟩, c.events⟩) h'
      (fun id d a b => ⟨.pass env, by simp, a, b⟩)
    cases hp : pollSubs env ⟨c.caches, some ⟨0, 0⟩, c.events⟩ (c.mods.flatMap (·.2)) with
    | ok s1 =>
      rw [hp] at hs h1
      simp only [Option.some.injEq] at hs
      subst hs; exact h1
    | err e s1 =>
      rw [hp] at hs h1
      simp only [Option.some.injEq] at hs
      subst hs; exact h1
    | crash => rw [hp] at hs; cases hs
    | undef => rw [hp] at hs; cases hs
  | subscribe env m p =>
    simp only [step, subscribe] at hs
    split at hs
    · cases hs
    · split at hs
      · cases hs
      · rename_i hm _ m0 _
        have h2 : ∀ x ∈ c.caches ++ [⟨p.id, m, p.path, [], ⟨0, 0⟩⟩], Origin (ops ++ [.subscribe env m p]) x := by
          intro x hx
          rcases List.mem_append.1 hx with hx | hx
          · exact h' x hx
          · simp only [List.mem_singleton] at hx
            subst hx
            exact ⟨⟨env, p, by simp, rfl, rfl⟩, Or.inl rfl⟩
        have h1 := pollSubs_origin (ops := ops ++ [.subscribe env m p]) (env := env) (ps := m0.2)
          (s := ⟨c.caches ++ [⟨p.id, m, p.path, [], ⟨0, 0⟩⟩], none, c.events⟩) h2
          (fun id d a b => ⟨.subscribe env m p, by simp, a, b⟩)
        split at hs
        · rename_i s1 hp
          rw [hp] at h1
          simp only [Option.some.injEq] at hs
          subst hs; exact h1
        · cases hs

theorem run_origin {ops0 ops : List Op} {c c1 : Conn} (h : ∀ x ∈ c.caches, Origin ops0 x) (hs : run c ops = some c1) :
    ∀ x ∈ c1.caches, Origin (ops0 ++ ops) x := by
  induction ops generalizing c ops0 with
  | nil =>
    simp only [run, Option.some.injEq] at hs
    subst hs
    simpa using h
  | cons o os ih =>
    simp only [run] at hs
    cases h1 : step c o with
    | none => rw [h1] at hs; cases hs
    | some c2 =>
      rw [h1] at hs
      have := ih (step_origin h h1) hs
      simpa using this

end Verif.OperPoll
