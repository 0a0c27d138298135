/-
Invariants of notification delivery.
-/
import Verif.NotifEv

namespace Verif.NotifEv

theorem next_inj {a b : State} (h : Out.next a = Out.next b) : a = b := by injection h

theorem id_inj {l : List Sub} (h : (l.map (·.id)).Nodup) {x y : Sub} (hx : x ∈ l) (hy : y ∈ l) (e : x.id = y.id) : x = y := by
  induction l with
  | nil => cases hx
  | cons z l ih =>
    rw [List.map_cons, List.nodup_cons] at h
    rcases List.mem_cons.1 hx with hx' | hx' <;> rcases List.mem_cons.1 hy with hy' | hy'
    · rw [hx', hy']
    · exact absurd (by rw [← hx', e]; exact List.mem_map.2 ⟨y, hy', rfl⟩) h.1
    · exact absurd (by rw [← hy', ← e]; exact List.mem_map.2 ⟨x, hx', rfl⟩) h.1
    · exact ih h.2 hx' hy'

/-- What holds always. -/
structure G (s : State) : Prop where
  nod : (s.subs.map (·.id)).Nodup
  ids : ∀ x ∈ s.subs, x.id < s.nextId
  since : ∀ x ∈ s.subs, x.since < s.clock
  snd : ∀ t ∈ s.senders, t < s.clock ∧ ∀ x ∈ s.subs, x.since < t
  done : ∀ c, s.done c ≤ s.rid
  log : ∀ p ∈ s.log, p.rid ≤ s.rid
  gotnod : s.got.Nodup
  gotlt : ∀ g ∈ s.got, g.1 < s.nextId
  gotdone : ∀ g ∈ s.got, g.2 = s.rid → ∀ x ∈ s.subs, x.id = g.1 → s.done x.ctx = s.rid
  ev : ∀ t, s.ev = some t → t < s.clock ∧ 0 < s.rid ∧ ∃ p ∈ s.log, p.rid = s.rid ∧ ∀ x ∈ s.subs, x.since ≤ t → x.id ∈ p.known
  gotlog : ∀ g ∈ s.got, ∃ p ∈ s.log, p.rid = g.2 ∧ g.1 ∈ p.known

theorem g_sub {s : State} {l : List Sub} (h : G s) (hl : l.Sublist s.subs) : G { s with subs := l } where
  nod := (hl.map _).nodup h.nod
  ids := fun x hx => h.ids x (hl.subset hx)
  since := fun x hx => h.since x (hl.subset hx)
  snd := fun t ht => ⟨(h.snd t ht).1, fun x hx => (h.snd t ht).2 x (hl.subset hx)⟩
  done := h.done
  log := h.log
  gotnod := h.gotnod
  gotlt := h.gotlt
  gotdone := fun g hg hr x hx => h.gotdone g hg hr x (hl.subset hx)
  ev := fun t ht => by
    obtain ⟨h1, h2, p, hp, hr, hk⟩ := h.ev t ht
    exact ⟨h1, h2, p, hp, hr, fun x hx => hk x (hl.subset hx)⟩
  gotlog := h.gotlog

theorem g_map {s : State} (f : Sub → Sub) (h : G s)
    (hf : ∀ x, (f x).id = x.id ∧ (f x).ctx = x.ctx ∧ (f x).since = x.since) : G { s with subs := s.subs.map f } where
  nod := by
    have : (s.subs.map f).map (·.id) = s.subs.map (·.id) := by
      rw [List.map_map]; exact List.map_congr_left (fun x _ => (hf x).1)
    show ((s.subs.map f).map (·.id)).Nodup
    rw [this]; exact h.nod
  ids := fun x hx => by
    obtain ⟨y, hy, rfl⟩ := List.mem_map.1 hx
    rw [(hf y).1]; exact h.ids y hy
  since := fun x hx => by
    obtain ⟨y, hy, rfl⟩ := List.mem_map.1 hx
    rw [(hf y).2.2]; exact h.since y hy
  snd := fun t ht => ⟨(h.snd t ht).1, fun x hx => by
    obtain ⟨y, hy, rfl⟩ := List.mem_map.1 hx
    rw [(hf y).2.2]; exact (h.snd t ht).2 y hy⟩
  done := h.done
  log := h.log
  gotnod := h.gotnod
  gotlt := h.gotlt
  gotdone := fun g hg hr x hx => by
    obtain ⟨y, hy, rfl⟩ := List.mem_map.1 hx
    rw [(hf y).1, (hf y).2.1]; exact h.gotdone g hg hr y hy
  ev := fun t ht => by
    obtain ⟨h1, h2, p, hp, hr, hk⟩ := h.ev t ht
    refine ⟨h1, h2, p, hp, hr, fun x hx => ?_⟩
    obtain ⟨y, hy, rfl⟩ := List.mem_map.1 hx
    rw [(hf y).1, (hf y).2.2]; exact hk y hy
  gotlog := h.gotlog

theorem g_ev {s : State} (h : G s) (e : Option Nat) (n : Nat) (he : e = s.ev ∨ e = none) : G { s with ev := e, cnt := n } where
  nod := h.nod
  ids := h.ids
  since := h.since
  snd := h.snd
  done := h.done
  log := h.log
  gotnod := h.gotnod
  gotlt := h.gotlt
  gotdone := h.gotdone
  ev := fun t ht => by
    rcases he with rfl | rfl
    · exact h.ev t ht
    · cases ht
  gotlog := h.gotlog

theorem g_fin {s : State} (h : G s) (l : List (Nat × Nat × Nat)) (d : List Nat) : G { s with fin := l, dead := d } where
  nod := h.nod
  ids := h.ids
  since := h.since
  snd := h.snd
  done := h.done
  log := h.log
  gotnod := h.gotnod
  gotlt := h.gotlt
  gotdone := h.gotdone
  ev := h.ev
  gotlog := h.gotlog

theorem g_written {dbg : Bool} {s s' : State} {v : Nat} (h : G s) (hw : written dbg s v = .next s') : G s' := by
  unfold written at hw
  split at hw
  · cases hw
  · cases hw
    refine g_ev h _ _ ?_
    split
    · exact Or.inr rfl
    · exact Or.inl rfl

theorem map_filter_nodup {l : List Sub} (p : Sub → Bool) (r : Nat) (h : (l.map (·.id)).Nodup) :
    ((l.filter p).map (fun x => (x.id, r))).Nodup := by
  have h1 : ((l.filter p).map (·.id)).Nodup := (List.Sublist.map _ List.filter_sublist).nodup h
  have h2 := List.pairwise_map.1 h1
  exact List.pairwise_map.2 (h2.imp (fun {a b} h e => h (by injection e)))

theorem g_step {dbg : Bool} {s s' : State} {a : Act} (h : G s) (hs : step dbg s a = .next s') : G s' := by
  cases a with
  | subscribe c =>
    simp only [step] at hs
    split at hs
    case isFalse => cases hs
    case isTrue hc =>
    cases hs
    refine ⟨?_, ?_, ?_, ?_, ?_, h.log, h.gotnod, ?_, ?_, ?_, h.gotlog⟩
    · rw [List.map_append, List.nodup_append]
      refine ⟨h.nod, by simp, ?_⟩
      intro a ha b hb e
      simp only [List.map_cons, List.map_nil, List.mem_singleton] at hb
      obtain ⟨x, hx, rfl⟩ := List.mem_map.1 ha
      have := h.ids x hx
      omega
    · intro x hx
      rcases List.mem_append.1 hx with hx | hx
      · have := h.ids x hx; show x.id < s.nextId + 1; omega
      · simp only [List.mem_singleton] at hx; subst hx; exact Nat.lt_succ_self _
    · intro x hx
      rcases List.mem_append.1 hx with hx | hx
      · have := h.since x hx; show x.since < s.clock + 1; omega
      · simp only [List.mem_singleton] at hx; subst hx; exact Nat.lt_succ_self _
    · intro t ht
      rw [show s.senders = [] from hc.1] at ht; cases ht
    · intro i
      show (if _ then 0 else s.done i) ≤ s.rid
      split
      · exact Nat.zero_le _
      · exact h.done i
    · intro g hg
      have := h.gotlt g hg; show g.1 < s.nextId + 1; omega
    · intro g hg hr x hx hi
      rcases List.mem_append.1 hx with hx | hx
      · have hn : ¬ (x.ctx = c ∧ c ∉ s.subs.map (·.ctx)) := by
          rintro ⟨e, hn⟩
          exact hn (e ▸ List.mem_map.2 ⟨x, hx, rfl⟩)
        show (if _ then 0 else s.done x.ctx) = s.rid
        rw [if_neg hn]
        exact h.gotdone g hg hr x hx hi
      · simp only [List.mem_singleton] at hx; subst hx
        have := h.gotlt g hg
        simp only at hi
        omega
    · intro t ht
      obtain ⟨h1, h2, p, hp, hr, hk⟩ := h.ev t ht
      refine ⟨?_, h2, p, hp, hr, ?_⟩
      · show t < s.clock + 1; omega
      · intro x hx hle
        rcases List.mem_append.1 hx with hx | hx
        · exact hk x hx hle
        · simp only [List.mem_singleton] at hx; subst hx
          simp only at hle; omega
  | unsubscribe i =>
    simp only [step] at hs
    split at hs
    case h_1 => cases hs
    case h_2 x hx =>
    have hg := g_sub (l := s.subs.filter (fun y => y.id != i)) h List.filter_sublist
    split at hs
    case isFalse => cases hs
    case isTrue =>
    split at hs
    · exact g_written hg hs
    · cases hs; exact hg
  | flag i b =>
    simp only [step] at hs
    split at hs
    case isFalse => cases hs
    case isTrue =>
    cases hs
    exact g_map _ h (fun x => by split <;> simp)
  | lflag i b =>
    simp only [step] at hs
    split at hs
    case isFalse => cases hs
    case isTrue =>
    cases hs
    exact g_map _ h (fun x => by split <;> simp)
  | send =>
    simp only [step] at hs
    split at hs
    case isFalse => cases hs
    case isTrue =>
    cases hs
    refine ⟨h.nod, h.ids, ?_, ?_, h.done, h.log, h.gotnod, h.gotlt, h.gotdone, ?_, h.gotlog⟩
    · intro x hx; have := h.since x hx; show x.since < s.clock + 1; omega
    · intro t ht
      rcases List.mem_cons.1 ht with rfl | ht
      · exact ⟨Nat.lt_succ_self _, fun x hx => h.since x hx⟩
      · exact ⟨Nat.lt_succ_of_lt (h.snd t ht).1, (h.snd t ht).2⟩
    · intro t ht
      obtain ⟨h1, h2⟩ := h.ev t ht
      exact ⟨Nat.lt_succ_of_lt h1, h2⟩
  | publish t w =>
    simp only [step] at hs
    split at hs
    case isFalse => cases hs
    case isTrue hc =>
    split at hs
    case isTrue => cases hs
    case isFalse hn =>
    cases hs
    refine ⟨h.nod, h.ids, h.since, ?_, ?_, ?_, h.gotnod, h.gotlt, ?_, ?_, ?_⟩
    · intro t' ht'; exact h.snd t' (List.mem_of_mem_erase ht')
    · intro c; exact Nat.le_succ_of_le (h.done c)
    · intro p hp
      rcases List.mem_cons.1 hp with rfl | hp
      · exact Nat.le_refl _
      · exact Nat.le_succ_of_le (h.log p hp)
    · intro g hg hr x hx hi
      obtain ⟨p, hp, hpr, _⟩ := h.gotlog g hg
      have := h.log p hp
      simp only at hr
      omega
    · intro t' ht'
      cases ht'
      exact ⟨(h.snd t hc.1).1, Nat.succ_pos _, _, List.mem_cons_self, rfl, fun x hx _ => List.mem_map.2 ⟨x, hx, rfl⟩⟩
    · intro g hg
      obtain ⟨p, hp, h1⟩ := h.gotlog g hg
      exact ⟨p, List.mem_cons_of_mem _ hp, h1⟩
  | begin_ c =>
    simp only [step] at hs
    split at hs
    case h_1 => cases hs
    case h_2 t ht =>
    split at hs
    case isFalse => cases hs
    case isTrue hc =>
    cases hs
    refine ⟨h.nod, h.ids, h.since, h.snd, ?_, h.log, ?_, ?_, ?_, h.ev, ?_⟩
    · intro i
      show (if i = c then s.rid else s.done i) ≤ s.rid
      split
      · exact Nat.le_refl _
      · exact h.done i
    · rw [List.nodup_append]
      refine ⟨map_filter_nodup _ _ h.nod, h.gotnod, ?_⟩
      intro a ha b hb e
      obtain ⟨x, hx, rfl⟩ := List.mem_map.1 ha
      have hx' := List.mem_filter.1 hx
      simp only [Bool.and_eq_true, beq_iff_eq] at hx'
      have := h.gotdone b hb (by rw [← e]) x hx'.1 (by rw [← e])
      rw [hx'.2.1.1] at this
      exact hc.1 this.symm
    · intro g hg
      rcases List.mem_append.1 hg with hg | hg
      · obtain ⟨x, hx, rfl⟩ := List.mem_map.1 hg
        exact h.ids x (List.mem_filter.1 hx).1
      · exact h.gotlt g hg
    · intro g hg hr x hx hi
      show (if x.ctx = c then s.rid else s.done x.ctx) = s.rid
      split
      · rfl
      · next hne =>
        rcases List.mem_append.1 hg with hg | hg
        · obtain ⟨y, hy, rfl⟩ := List.mem_map.1 hg
          have hy' := List.mem_filter.1 hy
          simp only [Bool.and_eq_true, beq_iff_eq] at hy'
          have hxy : x = y := by
            exact id_inj h.nod hx hy'.1 hi
          subst hxy
          exact absurd hy'.2.1.1 hne
        · exact h.gotdone g hg hr x hx hi
    · intro g hg
      rcases List.mem_append.1 hg with hg | hg
      · obtain ⟨x, hx, rfl⟩ := List.mem_map.1 hg
        have hx' := List.mem_filter.1 hx
        simp only [Bool.and_eq_true, decide_eq_true_eq] at hx'
        obtain ⟨_, _, p, hp, hr, hk⟩ := h.ev t ht
        exact ⟨p, hp, hr, hk x hx'.1 hx'.2.2⟩
      · exact h.gotlog g hg
  | finish c =>
    simp only [step] at hs
    split at hs
    case h_1 => cases hs
    case h_2 f hf =>
    have hg := g_fin h (s.fin.filter (fun f => f.1 != c)) s.dead
    split at hs
    · cases hs; exact hg
    · exact g_written hg hs
  | return_ r =>
    simp only [step] at hs
    split at hs
    case isFalse => cases hs
    case isTrue =>
    split at hs
    case isTrue => cases hs
    case isFalse =>
    cases hs
    exact ⟨h.nod, h.ids, h.since, h.snd, h.done, h.log, h.gotnod, h.gotlt, h.gotdone, h.ev, h.gotlog⟩
  | die c =>
    simp only [step] at hs
    cases hs
    exact g_fin h _ _
  | discard =>
    simp only [step] at hs
    split at hs
    case isFalse => cases hs
    case isTrue =>
    cases hs
    exact g_ev h none s.cnt (Or.inr rfl)

theorem g0 : G s0 := by
  refine ⟨?_, ?_, ?_, ?_, ?_, ?_, ?_, ?_, ?_, ?_, ?_⟩ <;> intros <;> simp_all [s0]

theorem g_reach {dbg : Bool} {A : State → Act → Prop} {s : State} (h : Reach dbg A s) : G s := by
  induction h with
  | init => exact g0
  | step a _ _ hs ih => exact g_step ih hs


/-! ### Quiet runs -/

/-- A subscription that is to get the notification of time `t` and has not. -/
def todo (done : Nat → Nat) (r t : Nat) (x : Sub) : Bool := !x.off && decide (x.since ≤ t) && decide (done x.ctx ≠ r)

/-- Callbacks called and not counted yet. -/
def finSum (l : List (Nat × Nat × Nat)) (r : Nat) : Nat := ((l.filter (fun f => f.2.1 == r)).map (·.2.2)).sum

/-- What holds in quiet runs. -/
structure Q (s : State) : Prop where
  g : G s
  dead : s.dead = []
  len : s.subs.length < 2 ^ 32
  finnod : (s.fin.map (·.1)).Nodup
  finrid : ∀ f ∈ s.fin, f.2.1 ≤ s.rid
  agree : s.ev ≠ none → ∀ x ∈ s.subs, x.off = x.loff
  cnt : ∀ t, s.ev = some t → s.cnt = s.subs.countP (todo s.done s.rid t) + finSum s.fin s.rid ∧ 0 < s.cnt ∧ s.cnt < 2 ^ 32
  act : s.senders ≠ [] → ∃ x ∈ s.subs, x.off = false
  to : ∀ t, s.ev = some t → ∀ p ∈ s.log, p.rid = s.rid → ∀ x ∈ s.subs, x.id ∈ p.to → x.off = false ∧ x.since ≤ t
  served : ∀ p ∈ s.log, ∀ i ∈ p.to, Served s p i ∨ (Pending s p ∧ ∀ x ∈ s.subs, x.id = i → s.done x.ctx ≠ s.rid)
  wait : ∀ r ∈ s.waiters, r ≤ s.rid ∧ ∃ p ∈ s.log, p.rid = r
  tolt : ∀ p ∈ s.log, ∀ i ∈ p.to, i < s.nextId

theorem finSum_cons (f : Nat × Nat × Nat) (l : List (Nat × Nat × Nat)) (r : Nat) :
    finSum (f :: l) r = (if f.2.1 = r then f.2.2 else 0) + finSum l r := by
  unfold finSum
  by_cases h : f.2.1 = r <;> simp [h]

theorem finSum_remove {l : List (Nat × Nat × Nat)} {c : Nat} {f : Nat × Nat × Nat} (hn : (l.map (·.1)).Nodup)
    (hf : l.find? (fun f => f.1 == c) = some f) (r : Nat) :
    finSum l r = (if f.2.1 = r then f.2.2 else 0) + finSum (l.filter (fun f => f.1 != c)) r := by
  induction l with
  | nil => cases hf
  | cons y l ih =>
    rw [List.map_cons, List.nodup_cons] at hn
    by_cases hy : y.1 = c
    · rw [List.find?_cons_of_pos (by simp [hy])] at hf
      cases hf
      rw [List.filter_cons_of_neg (by simp [hy]), finSum_cons]
      congr 2
      symm
      apply List.filter_eq_self.2
      intro z hz
      have : z.1 ≠ c := fun e => hn.1 (by rw [hy, ← e]; exact List.mem_map.2 ⟨z, hz, rfl⟩)
      simp [this]
    · rw [List.find?_cons_of_neg (by simp [hy])] at hf
      rw [List.filter_cons_of_pos (by simp [hy]), finSum_cons, finSum_cons, ih hn.2 hf]
      omega

theorem count_remove {l : List Sub} {i : Nat} {x : Sub} (p : Sub → Bool) (hn : (l.map (·.id)).Nodup)
    (hf : l.find? (fun y => y.id == i) = some x) :
    l.countP p = (if p x then 1 else 0) + (l.filter (fun y => y.id != i)).countP p := by
  induction l with
  | nil => cases hf
  | cons y l ih =>
    rw [List.map_cons, List.nodup_cons] at hn
    by_cases hy : y.id = i
    · rw [List.find?_cons_of_pos (by simp [hy])] at hf
      cases hf
      rw [List.filter_cons_of_neg (by simp [hy])]
      have : l.filter (fun y => y.id != i) = l := by
        apply List.filter_eq_self.2
        intro z hz
        have : z.id ≠ i := fun e => hn.1 (by rw [hy, ← e]; exact List.mem_map.2 ⟨z, hz, rfl⟩)
        simp [this]
      rw [this, List.countP_cons]; omega
    · rw [List.find?_cons_of_neg (by simp [hy])] at hf
      rw [List.filter_cons_of_pos (by simp [hy]), List.countP_cons, List.countP_cons, ih hn.2 hf]
      omega

theorem count_split (l : List Sub) (p q : Sub → Bool) :
    l.countP p = l.countP (fun x => p x && q x) + l.countP (fun x => p x && !q x) := by
  induction l with
  | nil => rfl
  | cons x l ih =>
    simp only [List.countP_cons, ih]
    cases p x <;> cases q x <;> simp <;> omega

theorem finSum_zero {l : List (Nat × Nat × Nat)} {r : Nat} (h : ∀ f ∈ l, f.2.1 < r) : finSum l r = 0 := by
  unfold finSum
  rw [show l.filter (fun f => f.2.1 == r) = [] from List.filter_eq_nil_iff.2 (fun f hf => by have := h f hf; simp; omega)]
  rfl

/-- The update of the event by listeners that are counted. -/
theorem q_written {dbg : Bool} {s s' : State} {v t : Nat} (hg : G s) (hd : s.dead = []) (hl : s.subs.length < 2 ^ 32)
    (hfn : (s.fin.map (·.1)).Nodup) (hfr : ∀ f ∈ s.fin, f.2.1 ≤ s.rid) (ha : s.ev ≠ none → ∀ x ∈ s.subs, x.off = x.loff)
    (he : s.ev = some t) (hc : s.cnt = v + s.subs.countP (todo s.done s.rid t) + finSum s.fin s.rid) (hlt : s.cnt < 2 ^ 32)
    (hact : s.senders ≠ [] → ∃ x ∈ s.subs, x.off = false)
    (hto : ∀ t, s.ev = some t → ∀ p ∈ s.log, p.rid = s.rid → ∀ x ∈ s.subs, x.id ∈ p.to → x.off = false ∧ x.since ≤ t)
    (hs : ∀ p ∈ s.log, ∀ i ∈ p.to, Served s p i ∨ (Pending s p ∧ ∀ x ∈ s.subs, x.id = i → s.done x.ctx ≠ s.rid))
    (hwt : ∀ r ∈ s.waiters, r ≤ s.rid ∧ ∃ p ∈ s.log, p.rid = r) (htl : ∀ p ∈ s.log, ∀ i ∈ p.to, i < s.nextId)
    (hw : written dbg s v = .next s') : Q s' := by
  have hg' := g_written hg hw
  unfold written at hw
  split at hw
  · cases hw
  have hmod : (s.cnt + 2 ^ 32 - v % 2 ^ 32) % 2 ^ 32 = s.cnt - v := by
    rw [Nat.mod_eq_of_lt (show v < 2 ^ 32 by omega)]
    rw [show s.cnt + 2 ^ 32 - v = (s.cnt - v) + 2 ^ 32 by omega, Nat.add_mod_right, Nat.mod_eq_of_lt (by omega)]
  rw [hmod] at hw
  by_cases hv : s.cnt = v
  · rw [if_pos hv] at hw
    cases hw
    refine ⟨hg', hd, hl, hfn, hfr, (fun h => absurd rfl h), (fun t h => by cases h), hact, (fun t h => by cases h), ?_, hwt, htl⟩
    intro p hp i hi
    rcases hs p hp i hi with h | ⟨⟨_, hpr⟩, hnd⟩
    · exact Or.inl h
    · left; right
      intro hm
      obtain ⟨x, hx, rfl⟩ := List.mem_map.1 hm
      have h1 := hto t he p hp hpr x hx hi
      have h2 := hnd x hx rfl
      have h3 : 0 < s.subs.countP (todo s.done s.rid t) := List.countP_pos_iff.2 ⟨x, hx, by simp [todo, h1, h2]⟩
      omega
  · rw [if_neg hv] at hw
    cases hw
    refine ⟨hg', hd, hl, hfn, hfr, ha, ?_, hact, hto, hs, hwt, htl⟩
    intro t' h'
    rw [he] at h'; cases h'
    refine ⟨?_, ?_, ?_⟩
    · show s.cnt - v = s.subs.countP (todo s.done s.rid t) + finSum s.fin s.rid; omega
    · show 0 < s.cnt - v; omega
    · show s.cnt - v < 2 ^ 32; omega

theorem q0 : Q s0 := by
  refine ⟨g0, rfl, by decide, ?_, ?_, ?_, ?_, ?_, ?_, ?_, ?_, ?_⟩ <;> intros <;> simp_all [s0]

theorem q_step {dbg : Bool} {s s' : State} {a : Act} (h : Q s) (hq : Quiet s a) (hs : step dbg s a = .next s') : Q s' := by
  have hg' := g_step h.g hs
  cases a with
  | subscribe c =>
    simp only [step] at hs
    split at hs
    case isFalse => cases hs
    case isTrue hc =>
    cases hs
    have hdn : ∀ x ∈ s.subs, (if x.ctx = c ∧ c ∉ s.subs.map (·.ctx) then 0 else s.done x.ctx) = s.done x.ctx := by
      intro x hx
      rw [if_neg]
      rintro ⟨e, hn⟩
      exact hn (e ▸ List.mem_map.2 ⟨x, hx, rfl⟩)
    refine ⟨hg', h.dead, ?_, h.finnod, h.finrid, ?_, ?_, ?_, ?_, ?_, h.wait, ?_⟩
    · show (s.subs ++ [_]).length < _
      rw [List.length_append]; exact hc.2.2.2.2
    · intro he x hx
      rcases List.mem_append.1 hx with hx | hx
      · exact h.agree he x hx
      · simp only [List.mem_singleton] at hx; subst hx; rfl
    · intro t ht
      obtain ⟨h1, h2, h3⟩ := h.cnt t ht
      refine ⟨?_, h2, h3⟩
      show s.cnt = (s.subs ++ [_]).countP (todo (fun i => if i = c ∧ c ∉ s.subs.map Sub.ctx then 0 else s.done i) s.rid t)
        + finSum s.fin s.rid
      have hn : ¬ s.clock ≤ t := by have := (h.g.ev t ht).1; omega
      have hcg : s.subs.countP (todo s.done s.rid t) =
          s.subs.countP (todo (fun i => if i = c ∧ c ∉ s.subs.map (·.ctx) then 0 else s.done i) s.rid t) := by
        apply List.countP_congr
        intro x hx
        simp only [todo, hdn x hx]
      rw [h1, List.countP_append, hcg]
      simp [todo, hn]
    · intro hne; exact absurd hc.1 hne
    · intro t ht p hp hr x hx hi
      rcases List.mem_append.1 hx with hx | hx
      · exact h.to t ht p hp hr x hx hi
      · simp only [List.mem_singleton] at hx; subst hx
        exact absurd (h.tolt p hp _ hi) (Nat.lt_irrefl _)
    · intro p hp i hi
      have hin : i ≠ s.nextId := Nat.ne_of_lt (h.tolt p hp i hi)
      rcases h.served p hp i hi with (h1 | h1) | ⟨h1, h2⟩
      · exact Or.inl (Or.inl h1)
      · refine Or.inl (Or.inr ?_)
        show i ∉ (s.subs ++ [_]).map Sub.id
        rw [List.map_append, List.mem_append]
        simp only [List.map_cons, List.map_nil, List.mem_singleton]
        exact fun h => h.elim h1 hin
      · refine Or.inr ⟨h1, ?_⟩
        intro x hx hxi
        rcases List.mem_append.1 hx with hx | hx
        · show (if _ then 0 else s.done x.ctx) ≠ s.rid
          rw [hdn x hx]; exact h2 x hx hxi
        · simp only [List.mem_singleton] at hx; subst hx
          exact absurd hxi.symm hin
    · intro p hp i hi
      exact Nat.lt_succ_of_lt (h.tolt p hp i hi)
  | unsubscribe i =>
    simp only [step] at hs
    split at hs
    case h_1 => cases hs
    case h_2 x hx =>
    have hxm : x ∈ s.subs := List.mem_of_find?_eq_some hx
    have hxi : x.id = i := by simpa using List.find?_some hx
    have hsl : (s.subs.filter (fun y => y.id != i)).Sublist s.subs := List.filter_sublist
    have hserved : ∀ p ∈ s.log, ∀ j ∈ p.to, Served { s with subs := s.subs.filter (fun y => y.id != i) } p j ∨
        (Pending s p ∧ ∀ x ∈ s.subs.filter (fun y => y.id != i), x.id = j → s.done x.ctx ≠ s.rid) := by
      intro p hp j hj
      rcases h.served p hp j hj with (h1 | h1) | ⟨h1, h2⟩
      · exact Or.inl (Or.inl h1)
      · exact Or.inl (Or.inr (fun hm => h1 ((hsl.map _).subset hm)))
      · exact Or.inr ⟨h1, fun x hx => h2 x (hsl.subset hx)⟩
    split at hs
    case isFalse => cases hs
    case isTrue hc =>
    have hlen : (s.subs.filter (fun y => y.id != i)).length < 2 ^ 32 := Nat.lt_of_le_of_lt hsl.length_le h.len
    have hact : s.senders ≠ [] → ∃ x ∈ s.subs.filter (fun y => y.id != i), x.off = false := fun hne => absurd hc.1 hne
    split at hs
    case isTrue he =>
      obtain ⟨t, ht⟩ := Option.isSome_iff_exists.1 he.1
      obtain ⟨h1, h2, h3⟩ := h.cnt t ht
      have hto : x.off = false ∧ x.since ≤ t := by
        rcases hq x hxm hxi with h4 | h4 | ⟨p, hp, hpr, hi⟩
        · rw [ht] at h4; cases h4
        · exact absurd h4.symm he.2
        · exact h.to t ht p hp hpr x hxm (hxi ▸ hi)
      have hrem := count_remove (todo s.done s.rid t) h.g.nod hx
      rw [if_pos (by simp [todo, hto, Ne.symm he.2])] at hrem
      refine q_written (s := { s with subs := s.subs.filter (fun y => y.id != i) }) (t := t)
        (g_sub h.g hsl) h.dead hlen h.finnod h.finrid (fun he x hx => h.agree he x (hsl.subset hx)) ht ?_ h3 hact
        (fun t ht p hp hr x hx => h.to t ht p hp hr x (hsl.subset hx)) hserved h.wait h.tolt hs
      show s.cnt = 1 + (s.subs.filter (fun y => y.id != i)).countP (todo s.done s.rid t) + finSum s.fin s.rid
      omega
    case isFalse he =>
      cases hs
      refine ⟨hg', h.dead, hlen, h.finnod, h.finrid, fun he x hx => h.agree he x (hsl.subset hx), ?_, hact,
        fun t ht p hp hr x hx => h.to t ht p hp hr x (hsl.subset hx), hserved, h.wait, h.tolt⟩
      intro t ht
      obtain ⟨h1, h2, h3⟩ := h.cnt t ht
      have hd : s.rid = s.done x.ctx := by
        apply Classical.byContradiction
        intro hne
        exact he ⟨Option.isSome_iff_exists.2 ⟨t, ht⟩, hne⟩
      have hrem := count_remove (todo s.done s.rid t) h.g.nod hx
      rw [if_neg (by simp [todo, hd.symm])] at hrem
      refine ⟨?_, h2, h3⟩
      show s.cnt = (s.subs.filter (fun y => y.id != i)).countP (todo s.done s.rid t) + finSum s.fin s.rid
      omega
  | flag i b =>
    have he : s.ev = none := hq
    simp only [step] at hs
    split at hs
    case isFalse => cases hs
    case isTrue hc =>
    cases hs
    have hid : (s.subs.map (fun x => if x.id = i then { x with off := b } else x)).map (·.id) = s.subs.map (·.id) := by
      rw [List.map_map]; apply List.map_congr_left; intro x _; simp only [Function.comp]; split <;> rfl
    refine ⟨hg', h.dead, ?_, h.finnod, h.finrid, (fun h => absurd he h), (fun t h => by rw [he] at h; cases h),
      (fun hne => absurd hc.1 hne), (fun t h => by rw [he] at h; cases h), ?_, h.wait, h.tolt⟩
    · show (s.subs.map _).length < _
      rw [List.length_map]; exact h.len
    · intro p hp j hj
      rcases h.served p hp j hj with (h1 | h1) | ⟨h1, h2⟩
      · exact Or.inl (Or.inl h1)
      · refine Or.inl (Or.inr ?_)
        show j ∉ (s.subs.map _).map Sub.id
        rw [hid]; exact h1
      · exact absurd he h1.1
  | lflag i b =>
    have he : s.ev = none := hq
    simp only [step] at hs
    split at hs
    case isFalse => cases hs
    case isTrue hc =>
    cases hs
    have hid : (s.subs.map (fun x => if x.id = i then { x with loff := b } else x)).map (·.id) = s.subs.map (·.id) := by
      rw [List.map_map]; apply List.map_congr_left; intro x _; simp only [Function.comp]; split <;> rfl
    refine ⟨hg', h.dead, ?_, h.finnod, h.finrid, (fun h => absurd he h), (fun t h => by rw [he] at h; cases h),
      ?_, (fun t h => by rw [he] at h; cases h), ?_, h.wait, h.tolt⟩
    · show (s.subs.map _).length < _
      rw [List.length_map]; exact h.len
    · intro hne
      obtain ⟨x, hx, ho⟩ := h.act hne
      refine ⟨_, List.mem_map.2 ⟨x, hx, rfl⟩, ?_⟩
      split <;> exact ho
    · intro p hp j hj
      rcases h.served p hp j hj with (h1 | h1) | ⟨h1, h2⟩
      · exact Or.inl (Or.inl h1)
      · refine Or.inl (Or.inr ?_)
        show j ∉ (s.subs.map _).map Sub.id
        rw [hid]; exact h1
      · exact absurd he h1.1
  | send =>
    simp only [step] at hs
    split at hs
    case isFalse => cases hs
    case isTrue hc =>
    cases hs
    refine ⟨hg', h.dead, h.len, h.finnod, h.finrid, h.agree, h.cnt, ?_, h.to, h.served, h.wait, h.tolt⟩
    intro _
    obtain ⟨x, hx, ha⟩ := List.any_eq_true.1 hc
    simp only [active, Bool.and_eq_true, Bool.not_eq_true'] at ha
    exact ⟨x, hx, ha.2⟩
  | publish t w =>
    have hfl : ∀ x ∈ s.subs, x.off = x.loff := hq
    simp only [step] at hs
    split at hs
    case isFalse => cases hs
    case isTrue hc =>
    split at hs
    case isTrue => cases hs
    case isFalse =>
    cases hs
    have hs1 : s.senders ≠ [] := by intro e; rw [e] at hc; cases hc.1
    have hact := h.act hs1
    have hin : ∀ x ∈ s.subs, x.since ≤ t := fun x hx => Nat.le_of_lt ((h.g.snd t hc.1).2 x hx)
    have hdn : ∀ c, s.done c ≠ s.rid + 1 := fun c => by have := h.g.done c; omega
    have hcount : s.subs.countP (active s) = s.subs.countP (todo s.done (s.rid + 1) t) := by
      apply List.countP_congr
      intro x hx
      simp [active, todo, h.dead, hin x hx, hdn]
    refine ⟨hg', h.dead, h.len, h.finnod, ?_, ?_, ?_, ?_, ?_, ?_, ?_, ?_⟩
    · intro f hf; exact Nat.le_succ_of_le (h.finrid f hf)
    · intro _; exact hfl
    · intro t' ht'
      cases ht'
      refine ⟨?_, ?_, ?_⟩
      · show s.subs.countP (active s) = s.subs.countP (todo s.done (s.rid + 1) t) + finSum s.fin (s.rid + 1)
        rw [finSum_zero (fun f hf => Nat.lt_succ_of_le (h.finrid f hf)), hcount]; rfl
      · show 0 < s.subs.countP (active s)
        obtain ⟨x, hx, ho⟩ := hact
        exact List.countP_pos_iff.2 ⟨x, hx, by simp [active, h.dead, ho]⟩
      · exact Nat.lt_of_le_of_lt List.countP_le_length h.len
    · intro _; exact hact
    · intro t' ht' p hp hr x hx hi
      cases ht'
      rcases List.mem_cons.1 hp with rfl | hp
      · obtain ⟨y, hy, hyi⟩ := List.mem_map.1 hi
        have hy' := List.mem_filter.1 hy
        have := id_inj h.g.nod hx hy'.1 hyi.symm
        subst this
        simp only [Bool.and_eq_true, Bool.not_eq_true'] at hy'
        exact ⟨hy'.2.2, hin x hx⟩
      · have := h.g.log p hp; simp only at hr; omega
    · intro p hp i hi
      rcases List.mem_cons.1 hp with rfl | hp
      · right
        exact ⟨⟨by simp, rfl⟩, fun x hx _ => hdn _⟩
      · rcases h.served p hp i hi with h1 | ⟨h1, _⟩
        · exact Or.inl h1
        · exact absurd hc.2 h1.1
    · intro r hr
      have hr' : r ∈ (if w then (s.rid + 1) :: s.waiters else s.waiters) := hr
      have hcase : r = s.rid + 1 ∨ r ∈ s.waiters := by
        cases w
        · exact Or.inr (by simpa using hr')
        · exact (List.mem_cons.1 (by simpa using hr'))
      rcases hcase with rfl | hm
      · exact ⟨Nat.le_refl _, _, List.mem_cons_self, rfl⟩
      · obtain ⟨h1, p, hp, h2⟩ := h.wait r hm
        exact ⟨Nat.le_succ_of_le h1, p, List.mem_cons_of_mem _ hp, h2⟩
    · intro p hp i hi
      rcases List.mem_cons.1 hp with rfl | hp
      · obtain ⟨y, hy, rfl⟩ := List.mem_map.1 hi
        exact h.g.ids y (List.mem_filter.1 hy).1
      · exact h.tolt p hp i hi
  | begin_ c =>
    simp only [step] at hs
    split at hs
    case h_1 => cases hs
    case h_2 t ht =>
    split at hs
    case isFalse => cases hs
    case isTrue hc =>
    cases hs
    have hag := h.agree (by rw [ht]; simp)
    obtain ⟨h1, h2, h3⟩ := h.cnt t ht
    refine ⟨hg', h.dead, h.len, ?_, ?_, h.agree, ?_, h.act, h.to, ?_, h.wait, h.tolt⟩
    · show ((c, _) :: s.fin |>.map (·.1)).Nodup
      rw [List.map_cons, List.nodup_cons]; exact ⟨hc.2.2.1, h.finnod⟩
    · intro f hf
      rcases List.mem_cons.1 hf with rfl | hf
      · exact Nat.le_refl _
      · exact h.finrid f hf
    · intro t' ht'
      have : t' = t := by
        have h5 : s.ev = some t' := ht'
        rw [ht] at h5; cases h5; rfl
      subst this
      refine ⟨?_, h2, h3⟩
      show s.cnt = s.subs.countP (todo (fun i => if i = c then s.rid else s.done i) s.rid t') + finSum (_ :: s.fin) s.rid
      rw [finSum_cons, if_pos rfl, h1, count_split s.subs (todo s.done s.rid t') (fun x => x.ctx == c)]
      have e1 : s.subs.countP (fun x => todo s.done s.rid t' x && x.ctx == c) =
          s.subs.countP (fun x => x.ctx == c && !x.loff && decide (x.since ≤ t')) := by
        apply List.countP_congr
        intro x hx
        simp only [todo, hag x hx, Bool.and_eq_true, beq_iff_eq, decide_eq_true_eq, Bool.not_eq_true']
        constructor
        · rintro ⟨⟨⟨a, b⟩, _⟩, d⟩; exact ⟨⟨d, a⟩, b⟩
        · rintro ⟨⟨d, a⟩, b⟩; exact ⟨⟨⟨a, b⟩, by rw [d]; exact Ne.symm hc.1⟩, d⟩
      have e2 : s.subs.countP (fun x => todo s.done s.rid t' x && !(x.ctx == c)) =
          s.subs.countP (todo (fun i => if i = c then s.rid else s.done i) s.rid t') := by
        apply List.countP_congr
        intro x hx
        by_cases hx : x.ctx = c <;> simp [todo, hx]
      rw [e1, e2]
      show _ = _ + (s.subs.countP _ + _)
      omega
    · intro p hp i hi
      rcases h.served p hp i hi with (h4 | h4) | ⟨h4, h5⟩
      · exact Or.inl (Or.inl (List.mem_append_right _ h4))
      · exact Or.inl (Or.inr h4)
      · by_cases hx : ∃ x ∈ s.subs, x.id = i ∧ x.ctx = c
        · obtain ⟨x, hx, hxi, hxc⟩ := hx
          have h6 := h.to t ht p hp h4.2 x hx (hxi ▸ hi)
          refine Or.inl (Or.inl (List.mem_append_left _ ?_))
          refine List.mem_map.2 ⟨x, List.mem_filter.2 ⟨hx, ?_⟩, ?_⟩
          · simp [hxc, ← hag x hx, h6]
          · rw [hxi, h4.2]
        · refine Or.inr ⟨h4, fun x hx' hxi => ?_⟩
          show (if x.ctx = c then s.rid else s.done x.ctx) ≠ s.rid
          rw [if_neg (fun e => hx ⟨x, hx', hxi, e⟩)]
          exact h5 x hx' hxi
  | finish c =>
    simp only [step] at hs
    split at hs
    case h_1 => cases hs
    case h_2 f hf =>
    have hsl : (s.fin.filter (fun f => f.1 != c)).Sublist s.fin := List.filter_sublist
    have hfn : ((s.fin.filter (fun f => f.1 != c)).map (·.1)).Nodup := (hsl.map _).nodup h.finnod
    have hfr : ∀ f ∈ s.fin.filter (fun f => f.1 != c), f.2.1 ≤ s.rid := fun f hf => h.finrid f (hsl.subset hf)
    have hrem := finSum_remove h.finnod hf s.rid
    split at hs
    case isTrue he =>
      cases hs
      refine ⟨hg', h.dead, h.len, hfn, hfr, h.agree, ?_, h.act, h.to, h.served, h.wait, h.tolt⟩
      intro t ht
      obtain ⟨h1, h2, h3⟩ := h.cnt t ht
      refine ⟨?_, h2, h3⟩
      rcases he with he | he
      · rw [he] at ht; cases ht
      · rw [if_neg (Ne.symm he), Nat.zero_add] at hrem
        show s.cnt = s.subs.countP (todo s.done s.rid t) + finSum (s.fin.filter (fun f => f.1 != c)) s.rid
        omega
    case isFalse he =>
      have he1 : s.ev ≠ none := fun e => he (Or.inl e)
      have he2 : f.2.1 = s.rid := Classical.byContradiction (fun e => he (Or.inr (Ne.symm e)))
      obtain ⟨t, ht⟩ := Option.ne_none_iff_exists'.1 he1
      obtain ⟨h1, h2, h3⟩ := h.cnt t ht
      rw [if_pos he2] at hrem
      refine q_written (s := { s with fin := s.fin.filter (fun f => f.1 != c) }) (t := t)
        (g_fin h.g _ s.dead) h.dead h.len hfn hfr h.agree ht ?_ h3 h.act h.to h.served h.wait h.tolt hs
      show s.cnt = f.2.2 + s.subs.countP (todo s.done s.rid t) + finSum (s.fin.filter (fun f => f.1 != c)) s.rid
      omega
  | return_ r =>
    simp only [step] at hs
    split at hs
    case isFalse => cases hs
    case isTrue =>
    split at hs
    case isTrue => cases hs
    case isFalse =>
    cases hs
    exact ⟨hg', h.dead, h.len, h.finnod, h.finrid, h.agree, h.cnt, h.act, h.to, h.served,
      fun r hr => h.wait r (List.mem_of_mem_erase hr), h.tolt⟩
  | die c => exact absurd hq id
  | discard => exact absurd hq id

theorem q_reach {dbg : Bool} {s : State} (h : Reach dbg Quiet s) : Q s := by
  induction h with
  | init => exact q0
  | step a _ hq hs ih => exact q_step ih hq hs

/-! ### Who gets it, and who is woken -/

/-- Only the subscriptions the notification is for get it. -/
structure R (s : State) : Prop where
  back : ∀ t, s.ev = some t → ∀ p ∈ s.log, p.rid = s.rid → ∀ x ∈ s.subs, x.off = false → x.since ≤ t → x.id ∈ p.to
  gotto : ∀ g ∈ s.got, ∃ p ∈ s.log, p.rid = g.2 ∧ g.1 ∈ p.to

theorem r_written {dbg : Bool} {s s' : State} {v : Nat} (h : R s) (hw : written dbg s v = .next s') : R s' := by
  unfold written at hw
  split at hw
  · cases hw
  · cases hw
    refine ⟨?_, h.gotto⟩
    intro t ht
    have : s.ev = some t := by
      by_cases hv : s.cnt = v
      · rw [if_pos hv] at ht; cases ht
      · rw [if_neg hv] at ht; exact ht
    exact h.back t this

theorem r_step {dbg : Bool} {s s' : State} {a : Act} (h : R s) (hQ : Q s) (hq : Quiet s a) (hs : step dbg s a = .next s') :
    R s' := by
  cases a with
  | subscribe c =>
    simp only [step] at hs
    split at hs
    case isFalse => cases hs
    case isTrue hc =>
    cases hs
    refine ⟨?_, h.gotto⟩
    intro t ht p hp hr x hx ho hle
    rcases List.mem_append.1 hx with hx | hx
    · exact h.back t ht p hp hr x hx ho hle
    · simp only [List.mem_singleton] at hx; subst hx
      have := (hQ.g.ev t ht).1
      simp only at hle; omega
  | unsubscribe i =>
    have hsl : (s.subs.filter (fun y => y.id != i)).Sublist s.subs := List.filter_sublist
    have hR : R { s with subs := s.subs.filter (fun y => y.id != i) } :=
      ⟨fun t ht p hp hr x hx => h.back t ht p hp hr x (hsl.subset hx), h.gotto⟩
    simp only [step] at hs
    split at hs
    case h_1 => cases hs
    case h_2 x hx =>
    split at hs
    case isFalse => cases hs
    case isTrue =>
    split at hs
    · exact r_written hR hs
    · cases hs; exact hR
  | flag i b =>
    have he : s.ev = none := hq
    simp only [step] at hs
    split at hs
    case isFalse => cases hs
    case isTrue =>
    cases hs
    exact ⟨(fun t h => by rw [he] at h; cases h), h.gotto⟩
  | lflag i b =>
    have he : s.ev = none := hq
    simp only [step] at hs
    split at hs
    case isFalse => cases hs
    case isTrue =>
    cases hs
    exact ⟨(fun t h => by rw [he] at h; cases h), h.gotto⟩
  | send =>
    simp only [step] at hs
    split at hs
    case isFalse => cases hs
    case isTrue =>
    cases hs
    exact ⟨h.back, h.gotto⟩
  | publish t w =>
    simp only [step] at hs
    split at hs
    case isFalse => cases hs
    case isTrue hc =>
    split at hs
    case isTrue => cases hs
    case isFalse =>
    cases hs
    refine ⟨?_, ?_⟩
    · intro t' ht' p hp hr x hx ho _
      rcases List.mem_cons.1 hp with rfl | hp
      · exact List.mem_map.2 ⟨x, List.mem_filter.2 ⟨hx, by simp [hQ.dead, ho]⟩, rfl⟩
      · have := hQ.g.log p hp; simp only at hr; omega
    · intro g hg
      obtain ⟨p, hp, h1⟩ := h.gotto g hg
      exact ⟨p, List.mem_cons_of_mem _ hp, h1⟩
  | begin_ c =>
    simp only [step] at hs
    split at hs
    case h_1 => cases hs
    case h_2 t ht =>
    split at hs
    case isFalse => cases hs
    case isTrue hc =>
    cases hs
    refine ⟨h.back, ?_⟩
    intro g hg
    rcases List.mem_append.1 hg with hg | hg
    · obtain ⟨x, hx, rfl⟩ := List.mem_map.1 hg
      have hx' := List.mem_filter.1 hx
      simp only [Bool.and_eq_true, decide_eq_true_eq, Bool.not_eq_true'] at hx'
      obtain ⟨_, _, p, hp, hr, _⟩ := hQ.g.ev t ht
      refine ⟨p, hp, hr, h.back t ht p hp hr x hx'.1 ?_ hx'.2.2⟩
      rw [hQ.agree (by rw [ht]; simp) x hx'.1]; exact hx'.2.1.2
    · exact h.gotto g hg
  | finish c =>
    have hR : R { s with fin := s.fin.filter (fun f => f.1 != c) } := ⟨h.back, h.gotto⟩
    simp only [step] at hs
    split at hs
    case h_1 => cases hs
    case h_2 f hf =>
    split at hs
    · cases hs; exact hR
    · exact r_written hR hs
  | return_ r =>
    simp only [step] at hs
    split at hs
    case isFalse => cases hs
    case isTrue =>
    split at hs
    case isTrue => cases hs
    case isFalse =>
    cases hs
    exact ⟨h.back, h.gotto⟩
  | die c => exact absurd hq id
  | discard => exact absurd hq id

theorem r_reach {dbg : Bool} {s : State} (h : Reach dbg Quiet s) : R s := by
  induction h with
  | init => exact ⟨(fun t h => by cases h), (fun g h => by cases h)⟩
  | step a hr hq hs ih => exact r_step ih (q_reach hr) hq hs

/-- Listeners with something to do are woken. -/
def W (s : State) : Prop := ∀ t, s.ev = some t → ∀ x ∈ s.subs, x.since ≤ t → s.done x.ctx ≠ s.rid → x.ctx ∈ s.woken

theorem w_written {dbg : Bool} {s s' : State} {v : Nat} (h : W s) (hw : written dbg s v = .next s') : W s' := by
  unfold written at hw
  split at hw
  · cases hw
  · cases hw
    intro t ht
    have : s.ev = some t := by
      by_cases hv : s.cnt = v
      · rw [if_pos hv] at ht; cases ht
      · rw [if_neg hv] at ht; exact ht
    exact h t this

theorem w_step {dbg : Bool} {s s' : State} {a : Act} (h : W s) (hQ : Q s) (hq : Quiet s a)
    (hp : ∀ t w, a = .publish t w → ∀ x ∈ s.subs, x.off = false) (hs : step dbg s a = .next s') : W s' := by
  cases a with
  | subscribe c =>
    simp only [step] at hs
    split at hs
    case isFalse => cases hs
    case isTrue hc =>
    cases hs
    intro t ht x hx hle hd
    rcases List.mem_append.1 hx with hx | hx
    · have hn : ¬ (x.ctx = c ∧ c ∉ s.subs.map (·.ctx)) := by
        rintro ⟨e, hn⟩
        exact hn (e ▸ List.mem_map.2 ⟨x, hx, rfl⟩)
      refine h t ht x hx hle ?_
      have hd' : (if x.ctx = c ∧ c ∉ s.subs.map (·.ctx) then 0 else s.done x.ctx) ≠ s.rid := hd
      rwa [if_neg hn] at hd'
    · simp only [List.mem_singleton] at hx; subst hx
      have := (hQ.g.ev t ht).1
      simp only at hle; omega
  | unsubscribe i =>
    have hsl : (s.subs.filter (fun y => y.id != i)).Sublist s.subs := List.filter_sublist
    have hR : W { s with subs := s.subs.filter (fun y => y.id != i) } := fun t ht x hx => h t ht x (hsl.subset hx)
    simp only [step] at hs
    split at hs
    case h_1 => cases hs
    case h_2 x hx =>
    split at hs
    case isFalse => cases hs
    case isTrue =>
    split at hs
    · exact w_written hR hs
    · cases hs; exact hR
  | flag i b =>
    have he : s.ev = none := hq
    simp only [step] at hs
    split at hs
    case isFalse => cases hs
    case isTrue =>
    cases hs
    intro t h; rw [he] at h; cases h
  | lflag i b =>
    have he : s.ev = none := hq
    simp only [step] at hs
    split at hs
    case isFalse => cases hs
    case isTrue =>
    cases hs
    intro t h; rw [he] at h; cases h
  | send =>
    simp only [step] at hs
    split at hs
    case isFalse => cases hs
    case isTrue =>
    cases hs
    exact h
  | publish t w =>
    have hoff := hp t w rfl
    simp only [step] at hs
    split at hs
    case isFalse => cases hs
    case isTrue hc =>
    split at hs
    case isTrue => cases hs
    case isFalse =>
    cases hs
    intro t' ht' x hx _ _
    have hall : ∀ y ∈ s.subs, active s y = true := fun y hy => by simp [active, hQ.dead, hoff y hy]
    refine List.mem_append_left _ ?_
    unfold wake
    rw [List.countP_eq_length.2 hall, List.take_length, List.filter_eq_self.2 hall]
    exact List.mem_map.2 ⟨x, hx, rfl⟩
  | begin_ c =>
    simp only [step] at hs
    split at hs
    case h_1 => cases hs
    case h_2 t ht =>
    split at hs
    case isFalse => cases hs
    case isTrue hc =>
    cases hs
    intro t' ht' x hx hle hd
    have hd' : (if x.ctx = c then s.rid else s.done x.ctx) ≠ s.rid := hd
    by_cases hxc : x.ctx = c
    · rw [if_pos hxc] at hd'; exact absurd rfl hd'
    · rw [if_neg hxc] at hd'
      exact List.mem_filter.2 ⟨h t' ht' x hx hle hd', by simp [hxc]⟩
  | finish c =>
    have hR : W { s with fin := s.fin.filter (fun f => f.1 != c) } := h
    simp only [step] at hs
    split at hs
    case h_1 => cases hs
    case h_2 f hf =>
    split at hs
    · cases hs; exact hR
    · exact w_written hR hs
  | return_ r =>
    simp only [step] at hs
    split at hs
    case isFalse => cases hs
    case isTrue =>
    split at hs
    case isTrue => cases hs
    case isFalse =>
    cases hs
    exact h
  | die c => exact absurd hq id
  | discard => exact absurd hq id

theorem reach_mono {dbg : Bool} {A B : State → Act → Prop} (hAB : ∀ s a, A s a → B s a) {s : State} (h : Reach dbg A s) :
    Reach dbg B s := by
  induction h with
  | init => exact .init
  | step a _ hq hs ih => exact .step a ih (hAB _ _ hq) hs

/-- Run a list of actions. -/
def exec (dbg : Bool) (ok : State → Act → Bool) (s : State) : List Act → Option State
  | [] => some s
  | a :: as =>
    if ok s a then
      match step dbg s a with
      | .next s' => exec dbg ok s' as
      | _ => none
    else none

theorem exec_reach {dbg : Bool} {ok : State → Act → Bool} {A : State → Act → Prop} (hA : ∀ s a, ok s a = true → A s a)
    {as : List Act} {s s' : State} (h : Reach dbg A s) (he : exec dbg ok s as = some s') : Reach dbg A s' := by
  induction as generalizing s with
  | nil => cases he; exact h
  | cons a as ih =>
    simp only [exec] at he
    split at he
    case isFalse => cases he
    case isTrue hok =>
    split at he
    case h_1 s1 hs => exact ih (.step a h (hA _ _ hok) hs) he
    case h_2 => cases he

/-- A check of quiet actions. -/
def quietB (s : State) : Act → Bool
  | .die _ => false
  | .discard => false
  | .flag _ _ => s.ev == none
  | .lflag _ _ => s.ev == none
  | .publish _ _ => s.subs.all (fun x => x.off == x.loff)
  | .unsubscribe i => s.subs.all (fun x => x.id != i || s.ev == none || s.done x.ctx == s.rid ||
      s.log.any (fun p => p.rid == s.rid && p.to.contains i))
  | _ => true

theorem quietB_quiet (s : State) (a : Act) (h : quietB s a = true) : Quiet s a := by
  cases a with
  | unsubscribe i =>
    simp only [quietB, List.all_eq_true, Bool.or_eq_true, bne_iff_ne, beq_iff_eq, List.any_eq_true, Bool.and_eq_true,
      List.contains_iff_mem] at h
    intro x hx hxi
    rcases h x hx with ((h1 | h1) | h1) | h1
    · exact absurd hxi h1
    · exact Or.inl h1
    · exact Or.inr (Or.inl h1)
    · exact Or.inr (Or.inr h1)
  | publish t w =>
    simp only [quietB, List.all_eq_true, beq_iff_eq] at h
    exact h
  | flag i b => simpa [quietB, Quiet] using h
  | lflag i b => simpa [quietB, Quiet] using h
  | die c => cases h
  | discard => cases h
  | _ => exact trivial

end Verif.NotifEv
