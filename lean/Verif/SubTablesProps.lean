import Verif.SubTablesLemmas
import Verif.XPathTrimProps

namespace Verif.SubTables

open Verif.XPathTrim (trimPredicates lenNoPredicates lenLoop itemsText itemsValid itemsPlain len_items len_counts withoutPreds
  trim_predicates_exact len_plain_path_partial)

/-! ## C25: update subscriptions -/

/-- C25: in every history (including failing calls and dying connections), two update subscriptions of a module with the same priority
are the same subscription. -/
theorem update_unique {w : World} (h : Reach Any w) (k i j : Nat) (s t : Sub) (hi : (w.change k).subs[i]? = some s)
    (hj : (w.change k).subs[j]? = some t) (hs : s.flag = true) (ht : t.flag = true) (hp : s.prio = t.prio) : i = j := by
  have hr := ((reach_inv h).change k).rel
  obtain ⟨hi', rfl⟩ := List.getElem?_eq_some_iff.mp hi
  obtain ⟨hj', rfl⟩ := List.getElem?_eq_some_iff.mp hj
  rcases Nat.lt_trichotomy i j with hlt | heq | hgt
  · exact absurd ⟨hs, ht, hp⟩ (List.pairwise_iff_getElem.mp hr i j hi' hj' hlt)
  · exact heq
  · exact absurd ⟨ht, hs, hp.symm⟩ (List.pairwise_iff_getElem.mp hr j i hj' hi' hgt)

/-- C25: a second update subscription with the priority of a living one is refused and all subscriptions of living connections stay, in
their order and with their data; nothing else changes. -/
theorem second_update_refused {w v : World} (h : Reach Any w) {k cid prio : Nat} {xp : Path} {mem mk later r : Bool} {s : Sub}
    (hs : s ∈ (w.change k).subs) (hal : w.alive s.cid = true) (hu : s.flag = true) (hp : s.prio = prio)
    (hst : step w (.subChange k cid prio true xp mem mk later) = some (r, v)) :
    r = false ∧ (v.change k).subs = (w.change k).subs.filter (fun x => w.alive x.cid) ∧
    (∀ i, i ≠ k → v.change i = w.change i) ∧ v.notif = w.notif ∧ v.poll = w.poll ∧ v.rpc = w.rpc ∧ v.oper = w.oper := by
  simp only [step, Option.map_eq_some_iff, Prod.mk.injEq] at hst
  obtain ⟨⟨r', t'⟩, hset, rfl, rfl⟩ := hst
  have hm : s ∈ (w.change k).subs.filter (fun x => w.alive x.cid) := List.mem_filter.mpr ⟨hs, hal⟩
  have hno : ¬ ∀ x ∈ (w.change k).subs.filter (fun x => w.alive x.cid), RChange x ⟨w.next, cid, prio, true, xp⟩ :=
    fun e => e s hm ⟨hu, rfl, hp⟩
  refine ⟨?_, ?_, fun i hi => by simp [upd, hi], rfl, rfl, rfl, rfl⟩
  · rcases settle_change ((reach_inv h).change k) rfl hset with ⟨_, _, hc⟩ | ⟨e, _, _⟩ | ⟨e, _, _, _⟩
    · exact absurd hc hno
    · exact e
    · exact e
  · rcases settle_change ((reach_inv h).change k) rfl hset with ⟨_, _, hc⟩ | ⟨_, e, _⟩ | ⟨_, _, _, hc⟩
    · exact absurd hc hno
    · simpa [upd] using e
    · exact absurd hc hno

/-- A subscribe call for changes otherwise: it succeeds exactly when nothing fails (after the last one is gone the sub SHM is created
again), and then adds the subscription after all the others; a failing call adds nothing unless the sub SHM could not be created. -/
theorem subscribe_change {w v : World} (h : Reach Any w) {k cid prio : Nat} {u : Bool} {xp : Path} {mem mk later r : Bool}
    (hst : step w (.subChange k cid prio u xp mem mk later) = some (r, v)) :
    (r = true → (v.change k).subs = (w.change k).subs.filter (fun x => w.alive x.cid) ++ [⟨w.next, cid, prio, u, xp⟩]) ∧
    (r = false → mk = true → (v.change k).subs = (w.change k).subs.filter (fun x => w.alive x.cid)) ∧
    (mem = true → mk = true → later = true →
      (∀ x ∈ (w.change k).subs, w.alive x.cid = true → u = true → x.flag = true → x.prio ≠ prio) → r = true) ∧
    (∀ i, i ≠ k → v.change i = w.change i) ∧ v.notif = w.notif ∧ v.poll = w.poll ∧ v.rpc = w.rpc ∧ v.oper = w.oper := by
  simp only [step, Option.map_eq_some_iff, Prod.mk.injEq] at hst
  obtain ⟨⟨r', t'⟩, hset, rfl, rfl⟩ := hst
  refine ⟨?_, ?_, ?_, fun i hi => by simp [upd, hi], rfl, rfl, rfl, rfl⟩
  · intro hr
    simp only at hr
    rcases settle_change ((reach_inv h).change k) rfl hset with ⟨_, e, _⟩ | ⟨e, _, _⟩ | ⟨e, _, _, _⟩
    · simpa [upd] using e
    · rw [hr] at e; cases e
    · rw [hr] at e; cases e
  · intro hr hk
    simp only at hr
    rcases settle_change ((reach_inv h).change k) rfl hset with ⟨e, _, _⟩ | ⟨_, e, _⟩ | ⟨_, _, e, _⟩
    · rw [hr] at e; cases e
    · simpa [upd] using e
    · rw [hk] at e; cases e
  · intro hm hk hl hc
    rcases settle_change ((reach_inv h).change k) rfl hset with ⟨e, _, _⟩ | ⟨_, _, e⟩ | ⟨_, _, e, _⟩
    · exact e
    · rcases e with e | e | e
      · rw [hm] at e; cases e
      · rw [hl] at e; cases e
      · refine absurd ?_ e
        intro x hx hR
        obtain ⟨hx1, hx2⟩ := List.mem_filter.mp hx
        exact hc x hx1 hx2 hR.2.1 hR.1 hR.2.2
    · rw [hk] at e; cases e

/-! ## C26: unsubscribing -/

/-- C26, changes: the named subscription is removed; every other one keeps its place and data. -/
theorem unsubscribe_change {w v : World} (h : Reach Any w) {k id : Nat} {r : Bool} (hst : step w (.unsubChange k id) = some (r, v)) :
    (v.change k).subs = (w.change k).subs.filter (fun s => s.id != id) ∧ (∀ i, i ≠ k → v.change i = w.change i) ∧
    v.notif = w.notif ∧ v.poll = w.poll ∧ v.rpc = w.rpc ∧ v.oper = w.oper := by
  simp only [step, Option.some.injEq, Prod.mk.injEq] at hst
  obtain ⟨rfl, rfl⟩ := hst
  refine ⟨?_, fun i hi => by simp [upd, hi], rfl, rfl, rfl, rfl⟩
  simpa [upd] using del_subs (w.change k) id ((reach_inv h).change k).ids

/-- C26, notifications. -/
theorem unsubscribe_notif {w v : World} (h : Reach Any w) {k id : Nat} {r : Bool} (hst : step w (.unsubNotif k id) = some (r, v)) :
    (v.notif k).subs = (w.notif k).subs.filter (fun s => s.id != id) ∧ (∀ i, i ≠ k → v.notif i = w.notif i) ∧
    v.change = w.change ∧ v.poll = w.poll ∧ v.rpc = w.rpc ∧ v.oper = w.oper := by
  simp only [step, Option.some.injEq, Prod.mk.injEq] at hst
  obtain ⟨rfl, rfl⟩ := hst
  refine ⟨?_, fun i hi => by simp [upd, hi], rfl, rfl, rfl, rfl⟩
  simpa [upd] using del_subs (w.notif k) id ((reach_inv h).notif k).ids

/-- C26, polling of operational data. -/
theorem unsubscribe_poll {w v : World} (h : Reach Any w) {k id : Nat} {r : Bool} (hst : step w (.unsubPoll k id) = some (r, v)) :
    v.poll k = (w.poll k).filter (fun s => s.id != id) ∧ (∀ i, i ≠ k → v.poll i = w.poll i) ∧
    v.change = w.change ∧ v.notif = w.notif ∧ v.rpc = w.rpc ∧ v.oper = w.oper := by
  simp only [step, Option.some.injEq, Prod.mk.injEq] at hst
  obtain ⟨rfl, rfl⟩ := hst
  refine ⟨?_, fun i hi => by simp [upd, hi], rfl, rfl, rfl, rfl⟩
  simpa [upd] using pollDel_eq (w.poll k) id ((reach_inv h).poll k).ids

/-- C26, RPCs and actions. -/
theorem unsubscribe_rpc {w v : World} (h : Reach Any w) {k id : Nat} {r : Bool} (hst : step w (.unsubRpc k id) = some (r, v)) :
    (v.rpc k).subs = (w.rpc k).subs.filter (fun s => s.id != id) ∧ (∀ i, i ≠ k → v.rpc i = w.rpc i) ∧
    v.change = w.change ∧ v.notif = w.notif ∧ v.poll = w.poll ∧ v.oper = w.oper := by
  simp only [step, Option.some.injEq, Prod.mk.injEq] at hst
  obtain ⟨rfl, rfl⟩ := hst
  refine ⟨?_, fun i hi => by simp [upd, hi], rfl, rfl, rfl, rfl⟩
  simpa [upd] using rpcDel_subs (w.rpc k) id ((reach_inv h).cut k) ((reach_inv h).rpc k).ids

/-- C26, providers of operational data. -/
theorem unsubscribe_oper {w v : World} (h : Reach Any w) {k id : Nat} {r : Bool} (hst : step w (.unsubOper k id) = some (r, v)) :
    flat (v.oper k) = (flat (w.oper k)).filter (fun s => s.2.id != id) ∧ (∀ i, i ≠ k → v.oper i = w.oper i) ∧
    v.change = w.change ∧ v.notif = w.notif ∧ v.poll = w.poll ∧ v.rpc = w.rpc := by
  simp only [step, Option.some.injEq, Prod.mk.injEq] at hst
  obtain ⟨rfl, rfl⟩ := hst
  refine ⟨?_, fun i hi => by simp [upd, hi], rfl, rfl, rfl, rfl⟩
  simpa [upd] using operDel_flat id (w.oper k) ((reach_inv h).oper k).ids

/-- C26: the IDs handed out are all different, so that "the named subscription" is one subscription. -/
theorem ids_unique {w : World} (h : Reach Any w) (k : Nat) :
    ((w.change k).subs.map (·.id)).Nodup ∧ ((w.notif k).subs.map (·.id)).Nodup ∧ ((w.poll k).map (·.id)).Nodup ∧
    ((w.rpc k).subs.map (·.id)).Nodup ∧ ((flat (w.oper k)).map (fun x => x.2.id)).Nodup := by
  have hi := reach_inv h
  refine ⟨?_, ?_, ?_, ?_, ?_⟩ <;> rw [List.nodup_iff_pairwise_ne, List.pairwise_map]
  · exact (hi.change k).ids
  · exact (hi.notif k).ids
  · exact (hi.poll k).ids
  · exact (hi.rpc k).ids
  · exact (hi.oper k).ids

/-- C26, "keep being notified": whatever is subscribed and unsubscribed, and whoever dies, the segment used to notify subscribers exists
exactly as long as there is a subscriber. Missing: histories where creating a segment failed (`failed_create_unserved`). -/
theorem kept_served_partial {w : World} (h : Reach NoFailure w) (k : Nat) :
    ((w.change k).shm = true ↔ (w.change k).subs ≠ []) ∧ ((w.notif k).shm = true ↔ (w.notif k).subs ≠ []) ∧
    (∀ p, p ∈ (w.rpc k).shm ↔ ∃ s ∈ (w.rpc k).subs, s.cid ≠ 0 ∧ trimPredicates s.xpath = some p) :=
  let g := reach_good h
  ⟨g.change k, g.notif k, g.rpc k⟩

/-! ## C27, C60: no two equal subscriptions -/

/-- C27: in every history no two subscriptions of an RPC or action have the same priority. -/
theorem rpc_unique {w : World} (h : Reach Any w) (k i j : Nat) (s t : Sub) (hi : (w.rpc k).subs[i]? = some s)
    (hj : (w.rpc k).subs[j]? = some t) (hx : trimPredicates s.xpath = trimPredicates t.xpath) (hp : s.prio = t.prio) : i = j := by
  have hr := ((reach_inv h).rpc k).rel
  obtain ⟨hi', rfl⟩ := List.getElem?_eq_some_iff.mp hi
  obtain ⟨hj', rfl⟩ := List.getElem?_eq_some_iff.mp hj
  rcases Nat.lt_trichotomy i j with hlt | heq | hgt
  · exact absurd ⟨hx, hp⟩ (List.pairwise_iff_getElem.mp hr i j hi' hj' hlt)
  · exact heq
  · exact absurd ⟨hx.symm, hp.symm⟩ (List.pairwise_iff_getElem.mp hr j i hj' hi' hgt)

/-- C27: a second RPC subscription with the priority of a living one is refused without touching the others. -/
theorem second_rpc_refused {w v : World} (h : Reach Any w) {k cid prio : Nat} {xp : Path} {mem mk later r : Bool} {s : Sub}
    (hs : s ∈ (w.rpc k).subs) (hal : w.alive s.cid = true) (hx : trimPredicates s.xpath = trimPredicates xp) (hp : s.prio = prio)
    (hst : step w (.subRpc k cid prio xp mem mk later) = some (r, v)) :
    r = false ∧ (v.rpc k).subs = (w.rpc k).subs.filter (fun x => x.cid == 0 || w.alive x.cid) ∧
    (∀ i, i ≠ k → v.rpc i = w.rpc i) ∧ v.change = w.change ∧ v.notif = w.notif ∧ v.poll = w.poll ∧ v.oper = w.oper := by
  simp only [step, Option.map_eq_some_iff, Prod.mk.injEq] at hst
  obtain ⟨⟨r', t'⟩, hset, rfl, rfl⟩ := hst
  have hm : s ∈ (w.rpc k).subs.filter (fun x => x.cid == 0 || w.alive x.cid) := List.mem_filter.mpr ⟨hs, by simp [hal]⟩
  have hno : ¬ ∀ x ∈ (w.rpc k).subs.filter (fun x => x.cid == 0 || w.alive x.cid), RRpc x ⟨w.next, cid, prio, false, xp⟩ :=
    fun e => e s hm ⟨hx, hp⟩
  obtain ⟨p, hcut⟩ := (reach_inv h).cut k s hs
  have key : r' = false ∧ t'.subs = (w.rpc k).subs.filter (fun x => x.cid == 0 || w.alive x.cid) := by
    rcases settle_rpc ((reach_inv h).rpc k) ((reach_inv h).cut k) rfl hset with ⟨_, e, _⟩ | ⟨_, ⟨_, _, _, _, hc⟩ | ⟨e1, e2, _⟩ | ⟨_, _, _, hc⟩⟩
    · simp only at e; rw [← hx, hcut] at e; cases e
    · exact absurd hc hno
    · exact ⟨e1, e2⟩
    · exact absurd hc hno
  exact ⟨key.1, by simpa [upd] using key.2, fun i hi => by simp [upd, hi], rfl, rfl, rfl, rfl⟩

/-- C60: in every history at most one poll subscription of a path reports changes. -/
theorem poll_diff_unique {w : World} (h : Reach Any w) (k i j : Nat) (s t : Sub) (hi : (w.poll k)[i]? = some s)
    (hj : (w.poll k)[j]? = some t) (hs : s.flag = true) (ht : t.flag = true) (hx : s.xpath = t.xpath) : i = j := by
  have hr := ((reach_inv h).poll k).rel
  obtain ⟨hi', rfl⟩ := List.getElem?_eq_some_iff.mp hi
  obtain ⟨hj', rfl⟩ := List.getElem?_eq_some_iff.mp hj
  rcases Nat.lt_trichotomy i j with hlt | heq | hgt
  · exact absurd ⟨hs, ht, hx⟩ (List.pairwise_iff_getElem.mp hr i j hi' hj' hlt)
  · exact heq
  · exact absurd ⟨ht, hs, hx.symm⟩ (List.pairwise_iff_getElem.mp hr j i hj' hi' hgt)

/-- C60: a poll subscription is added after the others, or nothing is changed; only another one that reports changes is refused. -/
theorem subscribe_poll {w v : World} (h : Reach Any w) {k cid : Nat} {d : Bool} {xp : Path} {mem later r : Bool}
    (hst : step w (.subPoll k cid d xp mem later) = some (r, v)) :
    (r = true → v.poll k = (w.poll k).filter (fun x => w.alive x.cid) ++ [⟨w.next, cid, 0, d, xp⟩]) ∧
    (r = false → v.poll k = (w.poll k).filter (fun x => w.alive x.cid)) ∧
    (mem = true → later = true → (r = false ↔ ∃ x ∈ w.poll k, w.alive x.cid = true ∧ d = true ∧ x.flag = true ∧ x.xpath = xp)) := by
  simp only [step, Option.map_eq_some_iff, Prod.mk.injEq] at hst
  obtain ⟨⟨r', t'⟩, hset, rfl, rfl⟩ := hst
  rcases settle_poll ((reach_inv h).poll k) rfl hset with ⟨e1, e2, e3⟩ | ⟨e1, e2, e3⟩
  · refine ⟨fun _ => by simpa [upd] using e2, (fun hr => by simp only at hr; rw [e1] at hr; cases hr), fun _ _ => ?_⟩
    constructor
    · intro hr; simp only at hr; rw [e1] at hr; cases hr
    · rintro ⟨x, hx, ha, hd, hf, hxp⟩
      exact absurd ⟨hf, hd, hxp⟩ (e3 x (List.mem_filter.mpr ⟨hx, ha⟩))
  · refine ⟨(fun hr => by simp only at hr; rw [e1] at hr; cases hr), fun _ => by simpa [upd] using e2, fun hm hl => ?_⟩
    refine iff_of_true e1 ?_
    rcases e3 with e3 | e3 | e3
    · rw [hm] at e3; cases e3
    · rw [hl] at e3; cases e3
    · simp only [RPoll] at e3
      grind

/-! ## C28: providers of operational data -/

theorem lenLoop_mono (cs : List Char) : ∀ (q : Option Char) (k : Int),
    (∀ m, lenLoop q k m cs = 0) ∨ ∀ m, m ≤ lenLoop q k m cs := by
  induction cs with
  | nil =>
    intro q k
    unfold lenLoop
    split
    · exact Or.inl (fun _ => rfl)
    · exact Or.inr (fun _ => Nat.le_refl _)
  | cons c cs ih =>
    intro q k
    unfold lenLoop
    cases q with
    | some q => exact ih _ _
    | none =>
      simp only []
      split
      · exact ih _ _
      · split
        · exact ih _ _
        · split
          · exact ih _ _
          · rcases ih none k with h | h
            · exact Or.inl (fun m => h _)
            · exact Or.inr (fun m => Nat.le_trans (Nat.le_succ m) (h _))

theorem plain_without (is : List XPathTrim.Item) : itemsPlain (withoutPreds is) ≤ itemsPlain is := by
  induction is with
  | nil => simp [withoutPreds]
  | cons i is ih =>
    cases i with
    | pred x => simp only [withoutPreds, List.filter_cons] at *; simp [itemsPlain]; omega
    | ch c => simp only [withoutPreds, List.filter_cons] at *; simp [itemsPlain]; omega
    | lit d t => simp only [withoutPreds, List.filter_cons] at *; simp [itemsPlain]; omega

theorem valid_without (is : List XPathTrim.Item) (h : itemsValid is) : itemsValid (withoutPreds is) := by
  induction is with
  | nil => simpa [withoutPreds] using h
  | cons i is ih =>
    cases i with
    | pred x => simp only [withoutPreds, List.filter_cons, itemsValid] at *; exact ih h.2
    | ch c => simp only [withoutPreds, List.filter_cons, itemsValid] at *; exact ⟨h.1, ih h.2⟩
    | lit d t => simp only [withoutPreds, List.filter_cons, itemsValid] at *; exact ⟨h.1, ih h.2⟩

/-- The path `q` is inside `p`: it continues `p`, or `p` has no predicates and `q` continues it after its predicates are removed. -/
def Within (p q : Path) : Prop := Inside p q ∨ (Plain p ∧ ∃ q', trimPredicates q = some q' ∧ Inside p q')

theorem within_longer {p q p' q' : Path} (hp : trimPredicates p = some p') (hq : trimPredicates q = some q') (h : Within p q) :
    lenNoPredicates p < lenNoPredicates q := by
  rcases h with ⟨r, rfl⟩ | ⟨hpl, q'', hq'', r, hr⟩
  · obtain ⟨is, h1, h2, _⟩ := (trim_predicates_exact _ _).mp hp
    obtain ⟨js, g1, g2, _⟩ := (trim_predicates_exact _ _).mp hq
    have e1 : ∀ m, lenLoop none 0 m (p ++ '/' :: r) = lenLoop none 0 (m + itemsPlain is + 1) r := by
      intro m
      rw [← h2]
      have := len_items is h1 0 m ('/' :: r)
      rw [this]; rfl
    have e2 : ∀ m, lenLoop none 0 m (p ++ '/' :: r) = m + itemsPlain js := by
      intro m
      rw [← g2]
      have := len_items js g1 0 m []
      simp only [List.append_nil] at this
      rw [this]; simp [lenLoop]
    have hlp : lenNoPredicates p = itemsPlain is := by rw [← h2]; exact len_counts is h1
    rw [hlp, lenNoPredicates, e1 0]
    rcases lenLoop_mono r none 0 with h | h
    · have := e2 1
      rw [e1 1, h] at this; omega
    · have := h (0 + itemsPlain is + 1); omega
  · rw [hq] at hq''; cases hq''
    obtain ⟨js, g1, g2, g3⟩ := (trim_predicates_exact _ _).mp hq
    have hlq : lenNoPredicates q = itemsPlain js := by rw [← g2]; exact len_counts js g1
    have h4 := plain_without js
    have h5 : lenNoPredicates q' = itemsPlain (withoutPreds js) := by rw [← g3]; exact len_counts _ (valid_without js g1)
    have h6 : lenNoPredicates p < lenNoPredicates q' := by
      have hlp := len_plain_path_partial p hpl
      -- `q'` continues `p`
      have hpi : ∀ (s : List Char), Plain s → ∀ (n : Nat) (rest : List Char),
          lenLoop none 0 n (s ++ rest) = lenLoop none 0 (n + s.length) rest := by
        intro s
        induction s with
        | nil => intro _ n rest; simp
        | cons c s ih =>
          intro hs n rest
          have hc := hs c (by simp)
          rw [List.cons_append, lenLoop]
          simp only [hc.1, hc.2.1, hc.2.2.1, hc.2.2.2, if_false, or_self]
          rw [ih (fun d hd => hs d (by simp [hd]))]
          congr 1; simp; omega
      have e1 : ∀ m, lenLoop none 0 m q' = lenLoop none 0 (m + p.length + 1) r := by
        intro m; rw [hr, hpi p hpl]; rfl
      have e2 : ∀ m, lenLoop none 0 m q' = m + itemsPlain (withoutPreds js) := by
        intro m
        rw [← g3]
        have := len_items _ (valid_without js g1) 0 m []
        simp only [List.append_nil] at this
        rw [this]; simp [lenLoop]
      rw [hlp, lenNoPredicates, e1 0]
      rcases lenLoop_mono r none 0 with h | h
      · have := e2 1
        rw [e1 1, h] at this; omega
      · have := h (0 + p.length + 1); omega
    omega

/-- C28: in every history, the providers of a path come before the providers of the paths inside it (they are asked in this order).
Missing: an outer path with a predicate that the inner path does not have (`inner_first`). -/
theorem outer_first_partial {w : World} (h : Reach Any w) (k i j : Nat) (o u : OSub) (hi : (w.oper k)[i]? = some o)
    (hj : (w.oper k)[j]? = some u) (p' q' : Path) (hp : trimPredicates o.path = some p') (hq : trimPredicates u.path = some q')
    (hin : Within o.path u.path) : i < j := by
  have hs := ((reach_inv h).oper k).sorted
  obtain ⟨hi', rfl⟩ := List.getElem?_eq_some_iff.mp hi
  obtain ⟨hj', rfl⟩ := List.getElem?_eq_some_iff.mp hj
  have hlt := within_longer hp hq hin
  rcases Nat.lt_trichotomy i j with hl | heq | hg
  · exact hl
  · subst heq; omega
  · have := List.pairwise_iff_getElem.mp hs j i (by simpa using hj') (by simpa using hi') hg
    simp only [List.getElem_map] at this
    omega

/-- C28: in every history a path is listed once, its providers have increasing priorities in the order they subscribed, and every
provider except the first allows merging. Missing: that the first one allows it, too (`first_without_merge`). -/
theorem coexist_merge_partial {w : World} (h : Reach Any w) (k : Nat) :
    ((w.oper k).map (·.path)).Nodup ∧
    ∀ o ∈ w.oper k, o.subs.Pairwise (fun a b => a.prio < b.prio ∧ b.merge = true) := by
  have hi := (reach_inv h).oper k
  refine ⟨List.nodup_iff_pairwise_ne.mpr hi.paths, fun o ho => ?_⟩
  have h1 := hi.prio o ho
  have h2 := hi.merge o ho
  cases hs : o.subs with
  | nil => exact List.Pairwise.nil
  | cons a l =>
    rw [hs] at h1 h2
    rw [List.pairwise_cons] at h1 ⊢
    simp only [List.tail_cons] at h2
    refine ⟨fun b hb => ⟨h1.1 b hb, h2 b hb⟩, ?_⟩
    exact h1.2.imp_of_mem (fun _ hb hlt => ⟨hlt, h2 _ hb⟩)

/-- Membership of the new provider after `operAdd` without failures, and the others. -/
theorem operAdd_flat {alive : Nat → Bool} {l l' : List OSub} {path : Path} {id cid : Nat} {m : Bool}
    (h : operAdd alive l path id cid m true true true = .ok l') :
    ∃ x : XSub, x.id = id ∧ x.cid = cid ∧ x.merge = m ∧
      (flat l').Perm ((path, x) :: (flat l).filter (fun y => alive y.2.cid)) := by
  rw [← operDead_flat]
  unfold operAdd at h
  simp only [if_true] at h
  cases hp : operPos path [] (operDead alive l) with
  | hang => rw [hp] at h; cases h
  | found b o a =>
    rw [hp] at h
    obtain ⟨mid, h1, h2, h3, _⟩ := operPos_found hp
    simp only [List.nil_append] at h1; subst h1
    cases m
    · simp at h
    · simp only [if_true, Res.ok.injEq] at h
      refine ⟨⟨id, cid, nextPrio o.subs, true⟩, rfl, rfl, rfl, ?_⟩
      rw [← h, h2, flat_append, flat_cons, flat_append, flat_cons]
      simp only [List.map_append, List.map_cons, List.map_nil, List.append_assoc, List.singleton_append, h3]
      rw [← List.append_assoc, ← List.append_assoc]
      exact List.perm_middle
  | insert b a =>
    rw [hp] at h
    obtain ⟨mid, h1, h2, h3, h4, _⟩ := operPos_insert hp
    simp only [List.nil_append] at h1; subst h1
    simp only [Res.ok.injEq] at h
    refine ⟨⟨id, cid, 1, m⟩, rfl, rfl, rfl, ?_⟩
    rw [← h, h2, flat_append, flat_cons, flat_append]
    simp only [List.map_cons, List.map_nil, List.singleton_append]
    exact List.perm_middle

/-- C28: subscribing as a provider adds exactly one provider, of the given path, and keeps all the living ones; it is refused only when
merging is not allowed and the path has a living provider already. Missing: calls where an allocation fails. -/
theorem subscribe_oper_partial {w v : World} (h : Reach NoFailure w) {k cid : Nat} {m : Bool} {p : Path} {r : Bool}
    (hst : step w (.subOper k cid m p true true true true) = some (r, v)) :
    (r = true → ∃ x : XSub, x.id = w.next ∧ x.cid = cid ∧ x.merge = m ∧
      (flat (v.oper k)).Perm ((p, x) :: (flat (w.oper k)).filter (fun y => w.alive y.2.cid))) ∧
    (r = false → flat (v.oper k) = (flat (w.oper k)).filter (fun y => w.alive y.2.cid)) ∧
    (r = false ↔ m = false ∧ ∃ x ∈ flat (w.oper k), x.1 = p ∧ w.alive x.2.cid = true) := by
  have hfin : ∀ l, settle (fun t => operDel w.next t) true (.ok l) = some (r, l) ∧ operAdd w.alive (w.oper k) p w.next cid m true true true = .ok l →
      v.oper k = l → r = true := by
    intro l hl _; simp [settle] at hl; exact hl.1.symm ▸ rfl
  simp only [step, Option.map_eq_some_iff, Prod.mk.injEq] at hst
  obtain ⟨⟨r', t'⟩, hset, rfl, rfl⟩ := hst
  have hmem : ∀ (x : Path × XSub), x ∈ flat (operDead w.alive (w.oper k)) ↔ x ∈ flat (w.oper k) ∧ w.alive x.2.cid = true := by
    intro x; rw [operDead_flat]; simp
  have hinv := ((reach_inv h).oper k).shrink (operDead_shrinks w.alive (w.oper k))
  cases ha : operAdd w.alive (w.oper k) p w.next cid m true true true with
  | hang => rw [ha] at hset; simp [settle] at hset
  | ok l =>
    rw [ha] at hset
    simp only [settle, if_true, Option.some.injEq, Prod.mk.injEq] at hset
    obtain ⟨rfl, rfl⟩ := hset
    refine ⟨fun _ => by simpa [upd] using operAdd_flat ha, fun e => by simp at e, ?_⟩
    refine iff_of_false (by simp) ?_
    rintro ⟨rfl, x, hx, hxp, hxa⟩
    have hx' := (hmem x).mpr ⟨hx, hxa⟩
    unfold operAdd at ha
    simp only [] at ha
    cases hp : operPos p [] (operDead w.alive (w.oper k)) with
    | hang => rw [hp] at ha; cases ha
    | found b o a => rw [hp] at ha; simp at ha
    | insert b a =>
      obtain ⟨mid, h1, h2, h3, h4, _⟩ := operPos_insert hp
      rw [h2] at hinv hx'
      simp only [flat, List.mem_flatMap, List.mem_map] at hx'
      obtain ⟨o, ho, y, hy, rfl⟩ := hx'
      simp only at hxp
      rcases List.mem_append.mp ho with ho | ho
      · exact (h3 o ho).2 hxp
      · cases a with
        | nil => simp at ho
        | cons c cs =>
          have hc := h4 c rfl
          rcases List.mem_cons.mp ho with rfl | ho
          · rw [hxp] at hc; omega
          · have := hinv.sorted
            rw [List.map_append, List.map_cons, List.pairwise_append] at this
            have := (List.pairwise_cons.mp this.2.1).1 o.path (List.mem_map_of_mem ho)
            rw [hxp] at this; omega
  | err l =>
    rw [ha] at hset
    simp only [settle, Option.some.injEq, Prod.mk.injEq] at hset
    obtain ⟨rfl, rfl⟩ := hset
    unfold operAdd at ha
    simp only [if_true] at ha
    cases hp : operPos p [] (operDead w.alive (w.oper k)) with
    | hang => rw [hp] at ha; cases ha
    | insert b a => rw [hp] at ha; simp at ha
    | found b o a =>
      rw [hp] at ha
      obtain ⟨mid, h1, h2, h3, h4⟩ := operPos_found hp
      cases m
      · simp only [Bool.false_eq_true, if_false, Res.err.injEq] at ha
        refine ⟨fun e => by simp at e, fun _ => ?_, iff_of_true rfl ⟨rfl, ?_⟩⟩
        · rw [← operDead_flat, ha]; simp [upd]
        · obtain ⟨y, ys, hy⟩ := List.exists_cons_of_ne_nil h4
          have : (p, y) ∈ flat (operDead w.alive (w.oper k)) := by
            rw [h2, flat_append, flat_cons, hy, h3]; simp
          have := (hmem _).mp this
          exact ⟨(p, y), this.1, rfl, this.2⟩
      · simp at ha

/-- Without failures no call hangs. Missing: after a failed allocation one does (`hangs`). -/
theorem returns_partial {w : World} (h : Reach NoFailure w) (op : Op) : ∃ r v, step w op = some (r, v) := by
  have g := reach_good h
  cases op with
  | subOper k cid m p mem1 mem2 mk later =>
    simp only [step]
    cases ha : operAdd w.alive (w.oper k) p w.next cid m mem1 mem2 mk with
    | ok l => simp [settle]
    | err l => simp [settle]
    | hang =>
      exfalso
      have hd : ∀ o ∈ operDead w.alive (w.oper k), o.subs ≠ [] := by
        have : ∀ l : List OSub, (∀ o ∈ l, o.subs ≠ []) → ∀ o ∈ operDead w.alive l, o.subs ≠ [] := by
          intro l
          induction l with
          | nil => intro _ o ho; simp [operDead] at ho
          | cons x l ih =>
            intro h o ho
            have := h x (by simp)
            unfold operDead at ho
            simp only [] at ho
            split at ho
            · exact ih (fun y hy => h y (by simp [hy])) o ho
            · rename_i hk
              rcases List.mem_cons.mp ho with rfl | ho
              · intro e; exact hk ⟨e, this⟩
              · exact ih (fun y hy => h y (by simp [hy])) o ho
        exact this _ (g.oper k)
      unfold operAdd at ha
      simp only [] at ha
      cases hp : operPos p [] (operDead w.alive (w.oper k)) with
      | hang =>
        obtain ⟨o, ho, h0⟩ := operPos_hang hp
        exact hd o ho h0
      | found b o a => rw [hp] at ha; simp only [] at ha; split at ha <;> (try split at ha) <;> (try split at ha) <;> cases ha
      | insert b a => rw [hp] at ha; simp only [] at ha; split at ha <;> (try split at ha) <;> (try split at ha) <;> cases ha
  | subChange k cid prio u xp mem mk later =>
    simp only [step, changeAdd, append]
    split <;> (try split) <;> (try split) <;> (try split) <;> simp [settle]
  | subNotif k cid xp mem mk later =>
    simp only [step, notifAdd, append]
    split <;> (try split) <;> (try split) <;> (try split) <;> simp [settle]
  | subPoll k cid d xp mem later =>
    simp only [step, pollAdd]
    split <;> (try split) <;> (try split) <;> (try split) <;> simp [settle]
  | subRpc k cid prio xp mem mk later =>
    simp only [step, rpcSubscribe, rpcAdd]
    split <;> (try split) <;> (try split) <;> (try split) <;> (try split) <;> simp [settle]
  | die c => exact ⟨_, _, rfl⟩
  | unsubChange k id => exact ⟨_, _, rfl⟩
  | unsubNotif k id => exact ⟨_, _, rfl⟩
  | unsubPoll k id => exact ⟨_, _, rfl⟩
  | unsubRpc k id => exact ⟨_, _, rfl⟩
  | unsubOper k id => exact ⟨_, _, rfl⟩

/-! ## What fails, and examples -/

def exec (w : World) : List Op → Option World
  | [] => some w
  | op :: ops => match step w op with
    | none => none
    | some (_, v) => exec v ops

theorem exec_reach {ok : Op → Prop} : ∀ (ops : List Op) {w v : World}, Reach ok w → (∀ o ∈ ops, ok o) → exec w ops = some v → Reach ok v
  | [], w, v, h, _, he => by simp [exec] at he; exact he ▸ h
  | op :: ops, w, v, h, hok, he => by
    simp only [exec] at he
    cases hs : step w op with
    | none => rw [hs] at he; cases he
    | some x =>
      rw [hs] at he
      exact exec_reach ops (h.step (hok op (by simp)) hs) (fun o ho => hok o (by simp [ho])) he

theorem run {ok : Op → Prop} {α : Type} (ops : List Op) (f : World → α) (x : α) (hok : ∀ o ∈ ops, ok o)
    (h : (exec init ops).map f = some x) : ∃ w, exec init ops = some w ∧ Reach ok w ∧ f w = x := by
  cases he : exec init ops with
  | none => rw [he] at h; cases h
  | some w =>
    rw [he] at h
    simp only [Option.map_some, Option.some.injEq] at h
    exact ⟨w, rfl, exec_reach ops .init hok he, h⟩

/-- C28 fails: the provider of `/m:list/a` is asked before the provider of the whole entry, whose predicate is counted into the length. -/
theorem inner_first : ∃ w, exec init [.subOper 0 1 false "/m:list[name='x']".toList true true true true,
    .subOper 0 1 false "/m:list/a".toList true true true true] = some w ∧ Reach NoFailure w ∧
    (w.oper 0).map (·.path) = ["/m:list/a".toList, "/m:list[name='x']".toList] := by
  refine run _ _ _ ?_ (by decide)
  intro o ho
  simp only [List.mem_cons, List.not_mem_nil, or_false] at ho
  rcases ho with rfl | rfl <;> exact ⟨rfl, rfl⟩

/-- C28 fails: the first provider of the path did not allow merging, the second is accepted next to it. -/
theorem first_without_merge : ∃ w, exec init [.subOper 0 1 false "/m:c".toList true true true true,
    .subOper 0 2 true "/m:c".toList true true true true] = some w ∧ Reach NoFailure w ∧
    (flat (w.oper 0)).map (fun x => (x.2.cid, x.2.merge)) = [(1, false), (2, true)] := by
  refine run _ (fun w => (flat (w.oper 0)).map (fun x => (x.2.cid, x.2.merge))) _ ?_ ?_
  · intro o ho
    simp only [List.mem_cons, List.not_mem_nil, or_false] at ho
    rcases ho with rfl | rfl <;> exact ⟨rfl, rfl⟩
  · decide

/-- C26 fails after a failure: the call whose sub SHM could not be created fails but its subscription stays, and the next subscriber,
whose call succeeds, never gets the segment. -/
theorem failed_create_unserved : ∃ w, exec init [.subChange 0 1 0 false [] true false true,
    .subChange 0 2 0 false [] true true true] = some w ∧ Reach Any w ∧
    ((step init (.subChange 0 1 0 false [] true false true)).map (·.1), (w.change 0).subs.map (·.cid), (w.change 0).shm) =
      (some false, [1, 2], false) :=
  run _ (fun w => ((step init (.subChange 0 1 0 false [] true false true)).map (·.1), (w.change 0).subs.map (·.cid), (w.change 0).shm)) _
    (fun _ _ => trivial) (by decide)

/-- After a provider's call failed on the second allocation, subscribing for another path never returns. -/
theorem hangs : ∃ w, exec init [.subOper 0 1 false "/m:c".toList true false true true] = some w ∧ Reach Any w ∧
    (step w (.subOper 0 2 false "/m:d".toList true true true true)).isNone = true :=
  run _ (fun w => (step w (.subOper 0 2 false "/m:d".toList true true true true)).isNone) _ (fun _ _ => trivial) (by decide)

/-- A history with an update subscription of a dead connection being replaced, and a refused one. -/
example : (exec init [.subChange 0 1 5 true [] true true true, .subChange 0 2 5 true [] true true true,
    .subChange 0 2 5 false [] true true true, .die 1, .subChange 0 3 5 true [] true true true]).map
      (fun w => (w.change 0).subs.map (fun s => (s.id, s.cid, s.flag))) = some [(3, 2, false), (4, 3, true)] := by decide

example : (exec init [.subChange 0 1 5 true [] true true true]).map
    (fun w => (step w (.subChange 0 2 5 true [] true true true)).map (·.1)) = some (some false) := by decide

/-- Unsubscribing one of three, and the last one. -/
example : (exec init [.subNotif 0 1 [] true true true, .subNotif 0 2 [] true true true, .subNotif 0 1 [] true true true,
    .unsubNotif 0 2]).map (fun w => ((w.notif 0).subs.map (·.id), (w.notif 0).shm)) = some ([1, 3], true) ∧
  (exec init [.subNotif 0 1 [] true true true, .unsubNotif 0 1]).map (fun w => ((w.notif 0).subs.map (·.id), (w.notif 0).shm)) =
    some ([], false) := by decide

/-- RPC subscriptions of two paths. -/
example : (exec init [.subRpc 0 1 0 "/m:r".toList true true true, .subRpc 0 1 1 "/m:r[x='1']".toList true true true,
    .subRpc 0 2 1 "/m:r".toList true true true, .subRpc 0 2 1 "/m:q".toList true true true, .unsubRpc 0 4]).map
      (fun w => ((w.rpc 0).subs.map (·.id), (w.rpc 0).shm)) = some ([1, 2], ["/m:r".toList]) := by decide

/-- Three providers; the hypotheses of `outer_first_partial`. -/
example : (exec init [.subOper 0 1 true "/m:c/d/e".toList true true true true, .subOper 0 1 false "/m:c".toList true true true true,
    .subOper 0 2 true "/m:c/d/e".toList true true true true, .subOper 0 2 true "/m:c/d[k='1']/f".toList true true true true]).map
      (fun w => (flat (w.oper 0)).map (fun x => (String.ofList x.1, x.2.id, x.2.prio))) =
      some [("/m:c", 2, 1), ("/m:c/d/e", 1, 1), ("/m:c/d/e", 3, 2), ("/m:c/d[k='1']/f", 4, 1)] ∧
    Within "/m:c/d".toList "/m:c/d[k='1']/f".toList ∧ trimPredicates "/m:c/d[k='1']/f".toList = some "/m:c/d/f".toList := by
  refine ⟨by decide, Or.inr ⟨by simp [Plain], "/m:c/d/f".toList, by decide, "f".toList, by decide⟩, by decide⟩

end Verif.SubTables
