import Verif.OperPollLemmas
/-!
C110, C112, C113. Specification: `Live`, `expiry`, `Slow`, `replica`, `value`, `Answered` in `Verif.OperPoll`.
-/
namespace Verif.OperPoll
open Verif.Time

/-! ## C110: polled data are refreshed in time -/

/-- The wait of the listening thread is the wake-up time rounded down to milliseconds, if that is below 2^31 ms (24 days). -/
theorem wait_exact_partial (w : Ts) (hn : Normal w) (h0 : 0 ≤ w.sec) (hne : w ≠ ⟨0, 0⟩) (hlt : w.ns < 2 ^ 31 * 1000000) :
    waitFor w = some (.wait (w.ns / 1000000).toNat) := by
  obtain ⟨s, n⟩ := w
  simp only [Normal, Ts.ns, ne_eq, Ts.mk.injEq] at *
  simp only [waitFor, hne, if_false]
  have hf : fits (s * 1000) := by simp only [fits]; omega
  rw [if_neg (by simpa using hf)]
  have h1 : toInt (s * 1000) = s * 1000 := by simp only [toInt]; omega
  have h2 : toInt (s * 1000 + n / 1000000) = s * 1000 + n / 1000000 := by simp only [toInt]; omega
  rw [h1, h2, if_neg (by omega)]
  simp only [Option.some.injEq, Next.wait.injEq]
  omega

example : waitFor ⟨1, 500000000⟩ = some (.wait 1500) := rfl

/-- C110. After a successful pass the listening thread wakes up before the data of any polled subscription expire: `ms`
milliseconds after `start`, which is no later than any clock reading of the pass. `Slow` holds the assumptions on the
subscriptions. Missing from C110: data with less than a second left (`wake_overwritten`), validity of 2^31 ms or more
(`waits_forever`), failing providers (`provider_error_ends_thread`). -/
theorem refreshed_in_time_partial (env : Nat → Env) (cs : List Cache) (ev : List (Nat × List Change))
    (mods : List (String × List Sub)) (start : Int) (s : St)
    (h : pollMods env ⟨cs, some ⟨0, 0⟩, ev⟩ mods = .ok s)
    (hids : ((mods.flatMap (·.2)).map (·.id)).Nodup) (hcs : (cs.map (·.subId)).Nodup)
    (hslow : ∀ m ∈ mods, ∀ p ∈ m.2, Live env p → ∀ c ∈ cs, c.subId = p.id → Slow start (env p.id) p c)
    (m : String × List Sub) (hm : m ∈ mods) (p : Sub) (hp : p ∈ m.2) (hl : Live env p) (hv : p.validMs < 2 ^ 31) :
    ∃ ms, threadNext (pollMods env ⟨cs, some ⟨0, 0⟩, ev⟩ mods) = some (.wait ms) ∧
      (∃ c ∈ s.caches, c.subId = p.id) ∧
      ∀ c ∈ s.caches, c.subId = p.id → start + ms * 1000000 ≤ expiry c.ts p := by
  rw [pollMods_eq] at h ⊢
  have hmem : p ∈ mods.flatMap (·.2) := List.mem_flatMap.2 ⟨m, hm, hp⟩
  have hsl : ∀ q ∈ mods.flatMap (·.2), ∀ c, q.suspended = false → (env q.id).found = true → findCache cs q.id = some c →
      Slow start (env q.id) q c := by
    intro q hq c h1 h2 h3
    obtain ⟨m', hm', hq'⟩ := List.mem_flatMap.1 hq
    exact hslow m' hm' q hq' ⟨h1, h2⟩ c (mem_of_findCache h3).1 (mem_of_findCache h3).2
  generalize hps : mods.flatMap (·.2) = ps at h hids hmem hsl ⊢
  obtain ⟨a, b, rfl⟩ := List.append_of_mem hmem
  obtain ⟨sa, sb, e1, e2, e3⟩ := visit h
  simp only [List.map_append, List.map_cons, List.nodup_append, List.nodup_cons, List.mem_cons, List.mem_map] at hids
  obtain ⟨na, ⟨np, nb⟩, nab⟩ := hids
  have hpa : ∀ q ∈ a, q.id ≠ p.id := fun q hq => nab _ ⟨q, hq, rfl⟩ _ (Or.inl rfl)
  have hpb : ∀ q ∈ b, q.id ≠ p.id := fun q hq hh => np ⟨q, hq, hh⟩
  have hba : ∀ q ∈ b, ∀ r ∈ a, r.id ≠ q.id := fun q hq r hr => nab _ ⟨r, hr, rfl⟩ _ (Or.inr ⟨q, hq, rfl⟩)
  obtain ⟨wa, a1, a2, _⟩ := pollSubs_wake (start := start) e1 rfl (Or.inl rfl) na
    (fun q hq c h1 h2 h3 => hsl q (by simp [hq]) c h1 h2 h3)
  obtain ⟨wb, b1, b2, _, b4⟩ := pollSub_wake (start := start) e2 a1 a2 (fun c h1 h2 h3 => by
    rw [pollSubs_other e1 hpa] at h3
    exact hsl p (by simp) c h1 h2 h3)
  obtain ⟨b5, c, b6, b7, b8⟩ := b4 hl.1 hl.2
  obtain ⟨w, d1, d2, d3⟩ := pollSubs_wake (start := start) e3 b1 b2 nb (fun q hq c h1 h2 h3 => by
    rw [pollSub_other e2 (hpb q hq), pollSubs_other e1 (hba q hq)] at h3
    exact hsl q (by simp [hq]) c h1 h2 h3)
  obtain ⟨d4, d5⟩ := d3 b5
  have hw : Normal w ∧ 1 ≤ w.sec := by
    rcases d2 with hh | hh
    · exact absurd hh d4
    · exact hh
  have hwait := wait_exact_partial w hw.1 (by omega) d4 (by omega)
  refine ⟨(w.ns / 1000000).toNat, ?_, ?_, ?_⟩
  · rw [h]; simp only [threadNext, d1, Option.getD_some]; exact hwait
  · rw [← pollSubs_other e3 hpb] at b6
    exact ⟨c, mem_of_findCache b6⟩
  · intro c' hc' hid
    have hfc := findCache_of_mem (by rw [pollSubs_ids h]; exact hcs) hc'
    rw [hid, pollSubs_other e3 hpb, b6] at hfc
    obtain rfl : c = c' := by simpa using hfc
    have hpos : 0 ≤ w.ns := by have := hw.1; simp only [Normal, Ts.ns] at *; omega
    omega

/-- Time `s` seconds. -/
def sec (s : Int) : Ts := ⟨s, 0⟩

/-- A provider that answers with one leaf. -/
def one (now : Ts) (v : Nat) : Env := ⟨true, now, .ok [(1, v)], false, now, false⟩

example : ∃ s, pollMods (fun _ => one (sec 1000) 5)
      ⟨[⟨1, "m", "/m:a".toList, [], ⟨0, 0⟩⟩, ⟨2, "m", "/m:b".toList, [(1, 4)], sec 998⟩], some ⟨0, 0⟩, []⟩
      [("m", [⟨1, "/m:a".toList, 2500, false, false⟩, ⟨2, "/m:b".toList, 3000, true, false⟩])] = .ok s ∧
    s.wake = some ⟨1, 0⟩ ∧ Live (fun _ => one (sec 1000) 5) ⟨2, "/m:b".toList, 3000, true, false⟩ ∧
    Slow 1000000000000 (one (sec 1000) 5) ⟨1, "/m:a".toList, 2500, false, false⟩ ⟨1, "m", "/m:a".toList, [], ⟨0, 0⟩⟩ ∧
    Slow 1000000000000 (one (sec 1000) 5) ⟨2, "/m:b".toList, 3000, true, false⟩ ⟨2, "m", "/m:b".toList, [(1, 4)], sec 998⟩ := by
  refine ⟨_, rfl, rfl, ⟨rfl, rfl⟩, ?_, ?_⟩ <;>
    simp [Slow, one, sec, Clock, Normal, Ts.ns, expiry]

/-- Finding, C110 is violated: subscription 1 has half a second left and the thread should wake up then, but the wake-up time is
overwritten by that of subscription 2, because only its seconds are looked at. The thread sleeps for a second and the data of
subscription 1 are half a second too old when it wakes up. -/
theorem wake_overwritten : ∃ (env : Nat → Env) (cs : List Cache) (mods : List (String × List Sub)) (s : St) (c : Cache) (p : Sub),
    pollMods env ⟨cs, some ⟨0, 0⟩, []⟩ mods = .ok s ∧ (∃ m ∈ mods, p ∈ m.2) ∧ Live env p ∧ c ∈ s.caches ∧ c.subId = p.id ∧
    threadNext (.ok s) = some (.wait 1000) ∧ (∀ id, (env id).now = sec 1001) ∧
    expiry c.ts p < (sec 1001).ns + 1000 * 1000000 :=
  ⟨fun _ => one (sec 1001) 5, [⟨1, "m", "/m:a".toList, [(1, 5)], sec 1000⟩, ⟨2, "m", "/m:b".toList, [(1, 5)], sec 1000⟩],
   [("m", [⟨1, "/m:a".toList, 1500, false, false⟩, ⟨2, "/m:b".toList, 1000, false, false⟩])], _,
   ⟨1, "m", "/m:a".toList, [(1, 5)], sec 1000⟩, ⟨1, "/m:a".toList, 1500, false, false⟩,
   rfl, ⟨_, List.Mem.head _, List.Mem.head _⟩, ⟨rfl, rfl⟩, List.Mem.head _, rfl, rfl, fun _ => rfl, by simp [expiry, sec, Ts.ns]⟩

/-- Finding, C110 is violated: with a validity of 25 days the timeout of `poll()` is negative and the thread waits for an event
without a limit. -/
theorem waits_forever : ∃ (env : Nat → Env) (cs : List Cache) (p : Sub) (s : St),
    p.validMs = 25 * 24 * 3600 * 1000 ∧ Live env p ∧ pollMods env ⟨cs, some ⟨0, 0⟩, []⟩ [("m", [p])] = .ok s ∧
    threadNext (.ok s) = some .forever :=
  ⟨fun _ => one (sec 1000) 5, [⟨1, "m", "/m:a".toList, [], ⟨0, 0⟩⟩], ⟨1, "/m:a".toList, 2160000000, false, false⟩, _,
   rfl, ⟨rfl, rfl⟩, rfl, rfl⟩

/-- Finding, C110 is violated: when the callback of the provider fails once, the listening thread of the poll subscription ends;
no subscription of the structure is handled any more. -/
theorem provider_error_ends_thread : ∃ (env : Nat → Env) (cs : List Cache) (p : Sub),
    Live env p ∧ (env p.id).answer = .error .other ∧ threadNext (pollMods env ⟨cs, some ⟨0, 0⟩, []⟩ [("m", [p])]) = some .ended :=
  ⟨fun _ => ⟨true, sec 1000, .error .other, false, sec 1000, false⟩, [⟨1, "m", "/m:a".toList, [], ⟨0, 0⟩⟩],
   ⟨1, "/m:a".toList, 2000, false, false⟩, ⟨rfl, rfl⟩, rfl, rfl⟩

/-! ## C112: reads of polled data -/

/-- C112. After a successful pass the cache of every polled subscription has data that were not expired when they were looked at
or the answer the provider just gave. -/
theorem pass_fresh (env : Nat → Env) (s0 s : St) (mods : List (String × List Sub))
    (h : pollMods env s0 mods = .ok s)
    (hids : ((mods.flatMap (·.2)).map (·.id)).Nodup) (hcs : (s0.caches.map (·.subId)).Nodup)
    (hclk : ∀ c ∈ s0.caches, Clock c.ts)
    (m : String × List Sub) (hm : m ∈ mods) (p : Sub) (hp : p ∈ m.2) (hl : Live env p) (hv : p.validMs + 999 < 2 ^ 32)
    (hn : Clock (env p.id).now) (c : Cache) (hc : c ∈ s.caches) (hid : c.subId = p.id) :
    (c ∈ s0.caches ∧ c.ts.sec ≠ 0 ∧ (env p.id).now.ns < expiry c.ts p) ∨
    ((env p.id).answer = .ok c.data ∧ c.ts = (env p.id).stored ∧
      ∀ c0 ∈ s0.caches, c0.subId = p.id → c0.ts.sec = 0 ∨ expiry c0.ts p ≤ (env p.id).now.ns) := by
  rw [pollMods_eq] at h
  have hmem : p ∈ mods.flatMap (·.2) := List.mem_flatMap.2 ⟨m, hm, hp⟩
  generalize mods.flatMap (·.2) = ps at h hids hmem
  obtain ⟨a, b, rfl⟩ := List.append_of_mem hmem
  obtain ⟨sa, sb, e1, e2, e3⟩ := visit h
  simp only [List.map_append, List.map_cons, List.nodup_append, List.nodup_cons, List.mem_cons, List.mem_map] at hids
  obtain ⟨na, ⟨np, nb⟩, nab⟩ := hids
  have hpa : ∀ q ∈ a, q.id ≠ p.id := fun q hq => nab _ ⟨q, hq, rfl⟩ _ (Or.inl rfl)
  have hpb : ∀ q ∈ b, q.id ≠ p.id := fun q hq hh => np ⟨q, hq, hh⟩
  have hfc := findCache_of_mem (by rw [pollSubs_ids h]; exact hcs) hc
  rw [hid, pollSubs_other e3 hpb] at hfc
  rcases pollSub_ok e2 with ⟨h1, _⟩ | ⟨_, h2, _⟩ | ⟨h1, h2, c1, inv, hc1, hcv, rfl⟩ |
    ⟨h1, h2, c1, d, inv, hc1, hcv, ha, _, hset, _⟩
  · rw [hl.1] at h1; cases h1
  · rw [hl.2] at h2; cases h2
  · simp only at hfc
    rw [hc1] at hfc
    obtain rfl : c1 = c := by simpa using hfc
    rw [pollSubs_other e1 hpa] at hc1
    have hsp := cacheValid_spec c1 p.validMs _ (hclk c1 (mem_of_findCache hc1).1) hn hv
    have h0 : c1.ts.sec ≠ 0 := fun hh => by rw [hsp.1 hh] at hcv; cases hcv
    have hlt : ¬ c1.ts.ns + p.validMs * 1000000 ≤ (env p.id).now.ns := fun hh => by rw [hsp.2.1 h0 hh] at hcv; cases hcv
    exact Or.inl ⟨(mem_of_findCache hc1).1, h0, by simp only [expiry]; omega⟩
  · rw [hset, findCache_setCache_same, hc1] at hfc
    simp only [Option.map_some, Option.some.injEq] at hfc
    subst hfc
    refine Or.inr ⟨ha, rfl, ?_⟩
    intro c0 hc0 hid0
    have hf0 := findCache_of_mem hcs hc0
    rw [pollSubs_other e1 hpa, ← hid0, hf0] at hc1
    obtain rfl : c0 = c1 := by simpa using hc1
    have hsp := cacheValid_spec c0 p.validMs _ (hclk c0 hc0) hn hv
    by_cases h0 : c0.ts.sec = 0
    · exact Or.inl h0
    · right
      simp only [expiry]
      by_cases hh : (env p.id).now.ns < c0.ts.ns + p.validMs * 1000000
      · obtain ⟨i, g1, _⟩ := hsp.2.2 h0 hh
        rw [g1] at hcv; cases hcv
      · omega

/-- C112. A read served from the cache gives data of a poll subscription of that module to the read path or an ancestor of it:
nothing, or what the provider answered to a poll of that subscription. Missing from C112: that the data are not expired
(`suspended_stale`) and that the provider is asked when nothing is cached (`flush_empty`, `second_not_polled`). -/
theorem cached_from_provider_partial (ops : List Op) (c : Conn) (h : run ⟨[], [], []⟩ ops = some c) (module : String)
    (path : List Char) (d : Data) (hr : readCached c.caches module path = some d) :
    ∃ env p, Op.subscribe env module p ∈ ops ∧ (path = p.path ∨ ∃ rest, path = p.path ++ '/' :: rest) ∧
      (d = [] ∨ ∃ o ∈ ops, Answered p.id d o) := by
  have hinv := run_origin (ops0 := []) (c := ⟨[], [], []⟩) (by simp) h
  simp only [readCached, Option.map_eq_some_iff] at hr
  obtain ⟨x, hx, rfl⟩ := hr
  have hp := List.find?_some hx
  have hmem := List.mem_of_find?_eq_some hx
  obtain ⟨⟨env, p, h1, h2, h3⟩, h4⟩ := hinv x hmem
  simp only [Bool.and_eq_true, beq_iff_eq, Bool.or_eq_true, List.isEmpty_iff, List.isPrefixOf_iff_prefix] at hp
  obtain ⟨⟨hm, t, ht⟩, hnext⟩ := hp
  refine ⟨env, p, by rw [← hm]; simpa using h1, ?_, by rw [h2]; simpa using h4⟩
  rw [h3, ← ht]
  rw [← ht, List.drop_left] at hnext
  rcases hnext with h | h
  · left; simp [h]
  · right
    cases t with
    | nil => cases h
    | cons y ys =>
      simp only [List.head?_cons, Option.some.injEq] at h
      subst h
      exact ⟨ys, rfl⟩

example : ∃ c, run ⟨[], [], []⟩ [.subscribe (fun _ => one (sec 1000) 5) "m" ⟨1, "/m:a".toList, 2000, false, false⟩] = some c ∧
    readCached c.caches "m" "/m:a/b".toList = some [(1, 5)] := ⟨_, rfl, rfl⟩

/-- Finding, C112 is violated: a suspended poll subscription is not refreshed any more but its cache is still used. An hour after
the last poll, with a validity of two seconds, a read gives the value 5 although the provider has answered 6 since. -/
theorem suspended_stale : ∃ c, run ⟨[], [], []⟩
      [.subscribe (fun _ => one (sec 1000) 5) "m" ⟨1, "/m:a".toList, 2000, false, false⟩, .suspend 1 true,
       .pass (fun _ => one (sec 4600) 6)] = some c ∧
    readCached c.caches "m" "/m:a".toList = some [(1, 5)] := ⟨_, rfl, rfl⟩

/-- Finding, C112 is violated: after a change of the schema context the cache is empty, but reads use it and give nothing although
the provider has data, until the next pass of the subscription. -/
theorem flush_empty : ∃ c, run ⟨[], [], []⟩
      [.subscribe (fun _ => one (sec 1000) 5) "m" ⟨1, "/m:a".toList, 2000, false, false⟩, .flush] = some c ∧
    readCached c.caches "m" "/m:a".toList = some [] := ⟨_, rfl, rfl⟩

/-- Finding, C112 is violated: the first update of a new subscription is done for the last module of the structure, here "n", not
for the module of the subscription. After the successful call reads of "/m:b" give nothing although the provider has data. -/
theorem second_not_polled : ∃ c, run ⟨[], [], []⟩
      [.subscribe (fun _ => one (sec 1000) 5) "m" ⟨1, "/m:a".toList, 2000, false, false⟩,
       .subscribe (fun _ => one (sec 1000) 5) "n" ⟨2, "/n:a".toList, 2000, false, false⟩,
       .subscribe (fun _ => one (sec 1000) 5) "m" ⟨3, "/m:b".toList, 2000, false, false⟩] = some c ∧
    readCached c.caches "m" "/m:b".toList = some [] := ⟨_, rfl, rfl⟩

/-- Finding, C112 is violated: a provider that returns no data crashes the process of a poll subscription that asked for
changes (`NULL` dereference). -/
theorem empty_answer_crash : ∃ (env : Nat → Env) (s : St) (p : Sub), Live env p ∧ p.diff = true ∧
    (env p.id).answer = .ok [] ∧ pollMods env s [("m", [p])] = .crash :=
  ⟨fun _ => ⟨true, sec 1000, .ok [], false, sec 1000, false⟩, ⟨[⟨1, "m", "/m:a".toList, [(1, 5)], sec 990⟩], none, []⟩,
   ⟨1, "/m:a".toList, 2000, true, false⟩, ⟨rfl, rfl⟩, rfl, rfl, rfl⟩

/-- A validity near 2^32 ms ("forever") makes the data invalid at once: they are polled in every pass. -/
theorem longest_validity_never_valid : ∃ (c : Cache) (now : Ts), c.ts.ns < now.ns ∧ now.ns < c.ts.ns + 1000000 ∧
    Clock c.ts ∧ Clock now ∧ cacheValid c (2 ^ 32 - 1) now = some none :=
  ⟨⟨1, "m", [], [], ⟨1000, 5000000⟩⟩, ⟨1000, 5000001⟩, by simp [Ts.ns], by simp [Ts.ns], by simp [Clock, Normal],
   by simp [Clock, Normal], rfl⟩

/-! ## C113: published changes of polled data -/

/-- Operations after which C113 holds for subscription `id`: its data always have a provider, publishing does not fail, the schema
context does not change and the subscription publishes changes and is not cancelled. -/
def Steady (id : Nat) : Op → Prop
  | .subscribe env _ p => (env id).found = true ∧ (env id).pubErr = false ∧ (p.id = id → p.diff = true)
  | .pass env => (env id).found = true ∧ (env id).pubErr = false
  | .flush => False
  | .suspend _ _ => True
  | .unsubscribe j => j ≠ id

theorem step_sync {id : Nat} {c c1 : Conn} {o : Op} (ho : Steady id o) (hs : Sync id c.caches c.events)
    (hd : ∀ m ∈ c.mods, ∀ p ∈ m.2, p.id = id → p.diff = true) (h : step c o = some c1) :
    Sync id c1.caches c1.events ∧ ∀ m ∈ c1.mods, ∀ p ∈ m.2, p.id = id → p.diff = true := by
  cases o with
  | flush => exact absurd ho (by simp [Steady])
  | suspend j on =>
    simp only [step, Option.some.injEq] at h
    subst h
    refine ⟨hs, ?_⟩
    intro m hm p hp
    simp only [List.mem_map] at hm
    obtain ⟨m0, hm0, rfl⟩ := hm
    simp only [List.mem_map] at hp
    obtain ⟨p0, hp0, rfl⟩ := hp
    have := hd m0 hm0 p0 hp0
    split <;> simpa using this
  | unsubscribe j =>
    simp only [step, Option.some.injEq] at h
    subst h
    simp only [Steady] at ho
    constructor
    · intro k
      have : cacheData (c.caches.filter (·.subId != j)) id = cacheData c.caches id := by
        simp only [cacheData, findCache]
        rw [List.find?_filter]
        congr 3
        funext x
        by_cases hx : x.subId = id
        · have hne : ¬ id = j := fun hh => ho hh.symm
          simp [hx, hne]
        · simp [hx]
      simp only [this]
      exact hs k
    · intro m hm p hp
      obtain ⟨hm, _⟩ := List.mem_filter.1 hm
      simp only [List.mem_map] at hm
      obtain ⟨m0, hm0, rfl⟩ := hm
      exact hd m0 hm0 p (List.mem_filter.1 hp).1
  | pass env =>
    simp only [step, pollMods_eq] at h
    have h1 := pollSubs_sync (env := env) ho (ps := c.mods.flatMap (·.2)) (s := ⟨c.caches, some ⟨0, 0⟩, c.events⟩) hs
      (fun p hp => by obtain ⟨m, hm, hp'⟩ := List.mem_flatMap.1 hp; exact hd m hm p hp')
    cases hp : pollSubs env ⟨c.caches, some ⟨0, 0⟩, c.events⟩ (c.mods.flatMap (·.2)) with
    | ok s1 => rw [hp] at h h1; simp only [Option.some.injEq] at h; subst h; exact ⟨h1, hd⟩
    | err e s1 => rw [hp] at h h1; simp only [Option.some.injEq] at h; subst h; exact ⟨h1, hd⟩
    | crash => rw [hp] at h; cases h
    | undef => rw [hp] at h; cases h
  | subscribe env m p =>
    have hd2 : ∀ x ∈ addSub c.mods m p, ∀ q ∈ x.2, q.id = id → q.diff = true := by
      intro x hx q hq
      simp only [addSub] at hx
      split at hx
      · simp only [List.mem_map] at hx
        obtain ⟨x0, hx0, rfl⟩ := hx
        split at hq
        · rcases List.mem_append.1 hq with hq | hq
          · exact hd x0 hx0 q hq
          · simp only [List.mem_singleton] at hq; subst hq; exact ho.2.2
        · exact hd x0 hx0 q hq
      · rcases List.mem_append.1 hx with hx | hx
        · exact hd x hx q hq
        · simp only [List.mem_singleton] at hx
          subst hx
          simp only [List.mem_singleton] at hq
          subst hq; exact ho.2.2
    simp only [step, subscribe] at h
    split at h
    · cases h
    · split at h
      · cases h
      · rename_i m0 hm0
        have hs2 : Sync id (c.caches ++ [⟨p.id, m, p.path, [], ⟨0, 0⟩⟩]) c.events := by
          intro k
          rw [hs k]
          simp only [cacheData, findCache, List.find?_append]
          cases hf : c.caches.find? (fun x => x.subId == id) with
          | some x => simp
          | none =>
            by_cases hpi : p.id = id
            · simp [hpi]
            · have hb : (p.id == id) = false := by simpa using hpi
              simp [hb]
        have h1 := pollSubs_sync (env := env) ⟨ho.1, ho.2.1⟩ (ps := m0.2)
          (s := ⟨c.caches ++ [⟨p.id, m, p.path, [], ⟨0, 0⟩⟩], none, c.events⟩) hs2
          (fun q hq => hd2 m0 (List.mem_of_getLast? hm0) q hq)
        split at h
        · rename_i s1 hp
          rw [hp] at h1
          simp only [Option.some.injEq] at h
          subst h
          exact ⟨h1, hd2⟩
        · cases h

/-- C113. In a history of `Steady` operations, a subscriber to the changes of a polled subtree that applies them in order knows the
polled data: every leaf instance has the same value in its replica and in the cache. Missing from C113: providers that come and go
(`lost_provider_not_published`), changes of the schema context (`flush_not_published`). -/
theorem changes_complete_partial (id : Nat) (ops : List Op) (c : Conn) (h : run ⟨[], [], []⟩ ops = some c)
    (ho : ∀ o ∈ ops, Steady id o) (x : Cache) (hx : c.caches.find? (·.subId == id) = some x) (k : Nat) :
    replica c.events id k = value x.data k := by
  have key : ∀ (ops : List Op) (c0 : Conn), Sync id c0.caches c0.events →
      (∀ m ∈ c0.mods, ∀ p ∈ m.2, p.id = id → p.diff = true) → (∀ o ∈ ops, Steady id o) → run c0 ops = some c →
      Sync id c.caches c.events := by
    intro ops
    induction ops with
    | nil => intro c0 hs _ _ h; simp only [run, Option.some.injEq] at h; subst h; exact hs
    | cons o os ih =>
      intro c0 hs hd ho h
      simp only [run] at h
      cases h1 : step c0 o with
      | none => rw [h1] at h; cases h
      | some c2 =>
        rw [h1] at h
        obtain ⟨a, b⟩ := step_sync (ho o (by simp)) hs hd h1
        exact ih c2 a b (fun o' ho' => ho o' (by simp [ho'])) h
  have := key ops _ (fun _ => rfl) (by simp) ho h k
  rw [this]
  simp [cacheData, findCache, hx]

example : ∃ c, run ⟨[], [], []⟩
      [.subscribe (fun _ => one (sec 1000) 5) "m" ⟨1, "/m:a".toList, 2000, true, false⟩, .pass (fun _ => one (sec 1001) 6),
       .pass (fun _ => ⟨true, sec 1005, .ok [(2, 7)], false, sec 1005, false⟩)] = some c ∧
    c.events = [(1, [(1, some 5)]), (1, [(1, none), (2, some 7)])] := ⟨_, rfl, rfl⟩

/-- Finding, C113 is violated: when the provider unsubscribes, the cached data are dropped without an event, and when a provider
comes back the published changes are those from nothing. The subscriber keeps leaf 1, which does not exist any more. -/
theorem lost_provider_not_published : ∃ c, run ⟨[], [], []⟩
      [.subscribe (fun _ => one (sec 1000) 5) "m" ⟨1, "/m:a".toList, 2000, true, false⟩,
       .pass (fun _ => ⟨false, sec 1001, .ok [], false, sec 1001, false⟩),
       .pass (fun _ => ⟨true, sec 1005, .ok [(2, 7)], false, sec 1005, false⟩)] = some c ∧
    replica c.events 1 1 = some 5 ∧ (∃ x ∈ c.caches, x.subId = 1 ∧ x.data = [(2, 7)]) := by
  refine ⟨_, rfl, rfl, ⟨1, "m", "/m:a".toList, [(2, 7)], sec 1005⟩, List.Mem.head _, rfl, rfl⟩

/-- Finding, C113 is violated: the same after a change of the schema context. -/
theorem flush_not_published : ∃ c, run ⟨[], [], []⟩
      [.subscribe (fun _ => one (sec 1000) 5) "m" ⟨1, "/m:a".toList, 2000, true, false⟩, .flush,
       .pass (fun _ => ⟨true, sec 1001, .ok [(2, 7)], false, sec 1001, false⟩)] = some c ∧
    replica c.events 1 1 = some 5 ∧ (∃ x ∈ c.caches, x.subId = 1 ∧ x.data = [(2, 7)]) := by
  refine ⟨_, rfl, rfl, ⟨1, "m", "/m:a".toList, [(2, 7)], sec 1001⟩, List.Mem.head _, rfl, rfl⟩

end Verif.OperPoll
