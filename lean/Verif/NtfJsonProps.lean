import Verif.NtfJsonLemmas

/-! Properties of stored notifications: C37, C38, C39, C40. -/
namespace Verif.NtfJson

/-! ## Concrete data -/

def r1 : Rec := ⟨⟨10, 500⟩, 600000, 1⟩
def r2 : Rec := ⟨⟨10, 500⟩, 30, 2⟩
def r3 : Rec := ⟨⟨12, 0⟩, 600000, 3⟩
def r4 : Rec := ⟨⟨12, 1⟩, 20, 4⟩
def f1 : File := ⟨10, 10, [r1, r2], 0⟩
def f2 : File := ⟨12, 12, [r3, r4], 1⟩
def d4 : Dir := ⟨[f2, f1], 2⟩

theorem hist4 : Hist d4 [r1, r2, r3, r4] := by
  have h1 : Hist ⟨[⟨10, 10, [r1], 0⟩], 1⟩ ([] ++ [r1]) := .store r1 (.empty 0) (by decide) (by simp) (by decide)
  have h2 : Hist ⟨[f1], 1⟩ ([r1] ++ [r2]) := .store r2 h1 (by decide) (by decide) (by decide)
  have h3 : Hist ⟨[f1, ⟨12, 12, [r3], 1⟩], 2⟩ ([r1, r2] ++ [r3]) := .store r3 h2 (by decide) (by decide) (by decide)
  have h4 : Hist ⟨[f1, f2], 2⟩ ([r1, r2, r3] ++ [r4]) := .store r4 h3 (by decide) (by decide) (by decide)
  exact .relist _ h4 (List.Perm.swap _ _ _)

/-! ## C37 -/

/-- C37 (partial: the time does not go back, nothing is stored during the replay): a replay ends and returns
exactly the stored notifications of the window, each once, in the order they were stored. -/
theorem replay_exact_partial {d : Dir} {h : List Rec} (hh : Hist d h) {start stop : Ts} (hstart : 0 < start.sec)
    (hss : ¬ stop.Before start) : ∃ n, run start stop d n = (.done, window start stop h) := by
  obtain ⟨ch, c⟩ := hh.chain
  have hstop : 0 < stop.sec := by unfold Ts.Before at hss; omega
  obtain ⟨n, hn⟩ := ends_init (stop := stop) hstart hstop c
  refine ⟨n, ?_⟩
  rw [← run_iter] at hn
  have key : ∀ n, At start stop ch (run start stop d n).2 (run start stop d n).1 := by
    intro n
    induction n with
    | zero => exact Or.inl ⟨rfl, rfl, rfl⟩
    | succ n ih => exact at_step hstart hss c ih
  have := key n
  rw [hn] at this
  have he : (run start stop d n).2 = window start stop h := by rw [c.hist]; exact this
  rw [← he, ← hn]

example : run ⟨10, 500⟩ ⟨12, 1⟩ d4 20 = (.done, [r1, r2, r3]) := by decide
example : window ⟨10, 500⟩ ⟨12, 1⟩ [r1, r2, r3, r4] = [r1, r2, r3] := by decide

/-- C37 (partial): the same when notifications are being stored during the replay, if they belong after the window and
no file is being looked for or opened at that moment. The replay cannot fail, and what it returns when it ends
is the window of everything that was stored before it. -/
theorem replay_concurrent_partial {d0 : Dir} {h0 : List Rec} (hh : Hist d0 h0) {start stop : Ts}
    (hstart : 0 < start.sec) (hss : ¬ stop.Before start) {d : Dir} {h : List Rec} {pc : Pc} {out : List Rec}
    (he : Exec start stop d0 h0 d h pc out) :
    pc ≠ .failed ∧ out <+: window start stop h0 ∧ (pc = .done → out = window start stop h0) := by
  have key : ∃ ch, Chain d h ch ∧ At start stop ch out pc ∧ window start stop h = window start stop h0 := by
    induction he with
    | init => obtain ⟨ch, c⟩ := hh.chain; exact ⟨ch, c, Or.inl ⟨rfl, rfl, rfl⟩, rfl⟩
    | replay _ ih => obtain ⟨ch, c, ha, hw⟩ := ih; exact ⟨ch, c, at_step hstart hss c ha, hw⟩
    | store r _ hin hpos hmono hr hs ih =>
      obtain ⟨ch, c, ha, hw⟩ := ih
      obtain ⟨ch', hg, c'⟩ := c.store hpos hmono hs
      refine ⟨ch', c', at_store ha hin hr hg, ?_⟩
      rw [window_append, hw, window_nil_of_late (a := [r]) (by simpa using hr), List.append_nil]
    | relist fs _ hp ih => obtain ⟨ch, c, ha, hw⟩ := ih; exact ⟨ch, c.relist hp, ha, hw⟩
  obtain ⟨ch, c, ha, hw⟩ := key
  refine ⟨fun hc => by subst hc; exact ha, ?_, fun hc => by subst hc; rw [← hw, c.hist]; exact ha⟩
  rw [← hw, c.hist]
  cases pc with
  | find lo hi =>
    rcases ha with ⟨_, _, rfl⟩ | ⟨pre, p, post, rfl, _, _, rfl⟩
    · exact List.nil_prefix
    · rw [show pre ++ p :: post = (pre ++ [p]) ++ post by simp, List.flatMap_append (ys := post), window_append]
      exact List.prefix_append _ _
  | opening lo hi =>
    obtain ⟨pre, p, post, rfl, _, _, rfl⟩ := ha
    rw [List.flatMap_append, window_append]; exact List.prefix_append _ _
  | skipping lo hi ino off =>
    obtain ⟨pre, p, post, rfl, _, _, _, _, rfl⟩ := ha
    rw [List.flatMap_append, List.flatMap_cons, window_append, window_append, window_append,
      List.prefix_append_right_inj]
    exact ((List.take_prefix _ _).filter _).trans (List.prefix_append _ _)
  | reading lo hi ino off =>
    obtain ⟨pre, p, post, rfl, _, _, _, _, rfl, _⟩ := ha
    rw [List.flatMap_append, List.flatMap_cons, window_append, window_append, window_append,
      List.prefix_append_right_inj]
    exact ((List.take_prefix _ _).filter _).trans (List.prefix_append _ _)
  | done => rw [ha]; exact List.prefix_refl _
  | failed => exact ha.elim

/-- A notification stored while the first file is being read. -/
example : ∃ (d : Dir) (h : List Rec), Exec ⟨10, 0⟩ ⟨12, 0⟩ d4 [r1, r2, r3, r4] d h (.reading 10 10 0 1) [r1] ∧
    h = [r1, r2, r3, r4, ⟨⟨13, 0⟩, 5, 5⟩] := by
  have e0 : Exec ⟨10, 0⟩ ⟨12, 0⟩ d4 [r1, r2, r3, r4] d4 [r1, r2, r3, r4] (.reading 10 10 0 1) [r1] :=
    .replay (.replay (.replay .init))
  exact ⟨_, _, .store ⟨⟨13, 0⟩, 5, 5⟩ e0 (by decide) (by decide) (by decide) (by decide) rfl, rfl⟩

/-- A replay with other processes storing at any moment. -/
inductive ExecAny (start stop : Ts) (d0 : Dir) : Dir → Pc → List Rec → Prop
  | init : ExecAny start stop d0 d0 (rinit start) []
  | replay {d : Dir} {pc : Pc} {out : List Rec} : ExecAny start stop d0 d pc out →
      ExecAny start stop d0 d (rstep start stop d pc).1 (out ++ (rstep start stop d pc).2.toList)
  | store {d d' : Dir} {pc : Pc} {out : List Rec} (r : Rec) : ExecAny start stop d0 d pc out →
      store d r = some d' → ExecAny start stop d0 d' pc out

/-- C37 does not hold in general: a file renamed because of a later notification, after the replay read it and before it
looked for the next one, is replayed again. -/
theorem renamed_replayed_twice :
    ∃ (d0 d : Dir) (h : List Rec), Hist d0 h ∧ ExecAny ⟨5, 0⟩ ⟨15, 0⟩ d0 d .done [r1, r1] ∧ h = [r1] := by
  have h1 : Hist ⟨[⟨10, 10, [r1], 0⟩], 1⟩ [r1] := .store r1 (.empty 0) (by decide) (by simp) (by decide)
  have e4 : ExecAny ⟨5, 0⟩ ⟨15, 0⟩ ⟨[⟨10, 10, [r1], 0⟩], 1⟩ ⟨[⟨10, 10, [r1], 0⟩], 1⟩ (.find 10 10) [r1] :=
    .replay (.replay (.replay (.replay .init)))
  have e5 : ExecAny ⟨5, 0⟩ ⟨15, 0⟩ ⟨[⟨10, 10, [r1], 0⟩], 1⟩
      ⟨[⟨10, 20, [r1, ⟨⟨20, 0⟩, 5, 5⟩], 0⟩], 1⟩ (.find 10 10) [r1] :=
    .store ⟨⟨20, 0⟩, 5, 5⟩ e4 (by decide)
  exact ⟨_, _, _, h1, .replay (.replay (.replay (.replay e5))), rfl⟩

/-- A notification of the window stored (late) while the replay reads its file makes the whole file be replayed again. -/
theorem late_replayed_twice :
    ∃ (d0 d : Dir) (out : List Rec), Hist d0 [r1] ∧ ExecAny ⟨5, 0⟩ ⟨15, 0⟩ d0 d .done out ∧
      out = [r1, ⟨⟨12, 0⟩, 5, 5⟩, r1, ⟨⟨12, 0⟩, 5, 5⟩] := by
  have h1 : Hist ⟨[⟨10, 10, [r1], 0⟩], 1⟩ [r1] := .store r1 (.empty 0) (by decide) (by simp) (by decide)
  have e4 : ExecAny ⟨5, 0⟩ ⟨15, 0⟩ ⟨[⟨10, 10, [r1], 0⟩], 1⟩ ⟨[⟨10, 10, [r1], 0⟩], 1⟩ (.reading 10 10 0 1) [r1] :=
    .replay (.replay (.replay .init))
  have e5 : ExecAny ⟨5, 0⟩ ⟨15, 0⟩ ⟨[⟨10, 10, [r1], 0⟩], 1⟩
      ⟨[⟨10, 12, [r1, ⟨⟨12, 0⟩, 5, 5⟩], 0⟩], 1⟩ (.reading 10 10 0 1) [r1] :=
    .store ⟨⟨12, 0⟩, 5, 5⟩ e4 (by decide)
  exact ⟨_, _, _, h1, .replay (.replay (.replay (.replay (.replay (.replay (.replay (.replay e5))))))), rfl⟩

/-- A file renamed before the replay opens it makes the replay fail. -/
theorem renamed_before_open_fails :
    ∃ (d0 d : Dir), Hist d0 [r1] ∧ ExecAny ⟨5, 0⟩ ⟨15, 0⟩ d0 d .failed [] := by
  have h1 : Hist ⟨[⟨10, 10, [r1], 0⟩], 1⟩ [r1] := .store r1 (.empty 0) (by decide) (by simp) (by decide)
  have e4 : ExecAny ⟨5, 0⟩ ⟨15, 0⟩ ⟨[⟨10, 10, [r1], 0⟩], 1⟩ ⟨[⟨10, 10, [r1], 0⟩], 1⟩ (.opening 10 10) [] :=
    .replay .init
  have e5 : ExecAny ⟨5, 0⟩ ⟨15, 0⟩ ⟨[⟨10, 10, [r1], 0⟩], 1⟩
      ⟨[⟨10, 20, [r1, ⟨⟨20, 0⟩, 5, 5⟩], 0⟩], 1⟩ (.opening 10 10) [] :=
    .store ⟨⟨20, 0⟩, 5, 5⟩ e4 (by decide)
  exact ⟨_, _, h1, .replay e5⟩

/-- Storing at any times. -/
inductive HistAny : Dir → List Rec → Prop
  | empty (n : Nat) : HistAny ⟨[], n⟩ []
  | store {d d' : Dir} {h : List Rec} (r : Rec) : HistAny d h → 0 < r.ts.sec → store d r = some d' →
      HistAny d' (h ++ [r])
  | relist {d : Dir} {h : List Rec} (fs : List File) : HistAny d h → fs.Perm d.files → HistAny ⟨fs, d.next⟩ h

/-- If the time goes back, a notification of the window may not be replayed and one out of it may be. -/
theorem clock_back_replay_wrong :
    ∃ (d : Dir) (a b c : Rec), HistAny d [a, b, c] ∧
      (¬ b.ts.Before ⟨10, 0⟩ ∧ b.ts.Before ⟨50, 0⟩ ∧ run ⟨10, 0⟩ ⟨50, 0⟩ d 5 = (.done, [])) ∧
      (b.ts.Before ⟨60, 0⟩ ∧ run ⟨60, 0⟩ ⟨200, 0⟩ d 8 = (.done, [a, b, c])) := by
  let a : Rec := ⟨⟨100, 0⟩, 5, 1⟩
  let b : Rec := ⟨⟨20, 0⟩, 5, 2⟩
  let c : Rec := ⟨⟨110, 0⟩, 5, 3⟩
  have h1 : HistAny ⟨[⟨100, 100, [a], 0⟩], 1⟩ ([] ++ [a]) := .store a (.empty 0) (by decide) (by decide)
  have h2 : HistAny ⟨[⟨100, 100, [a, b], 0⟩], 1⟩ ([a] ++ [b]) := .store b h1 (by decide) (by decide)
  have h3 : HistAny ⟨[⟨100, 110, [a, b, c], 0⟩], 1⟩ ([a, b] ++ [c]) := .store c h2 (by decide) (by decide)
  exact ⟨_, a, b, c, h3, ⟨by decide, by decide, by decide⟩, by decide, by decide⟩

/-- A replay from within the first second after the epoch replays only the last file. -/
theorem epoch_start_skips : ∃ (d : Dir) (h : List Rec), Hist d h ∧ h = [r1, r2, r3, r4] ∧
    run ⟨0, 1⟩ ⟨20, 0⟩ d 20 = (.done, [r3, r4]) := ⟨d4, _, hist4, rfl, by decide⟩

/-! ## C38 -/

theorem mem_files_sec {d : Dir} {h : List Rec} {ch : List File} (c : Chain d h ch) {f : File} (hf : f ∈ d.files) :
    ∀ r ∈ f.recs, r ∈ h ∧ f.lo ≤ r.ts.sec ∧ r.ts.sec ≤ f.hi := fun r hr =>
  have hf := c.perm.mem_iff.1 hf
  ⟨by rw [c.hist]; exact List.mem_flatMap.2 ⟨f, hf, hr⟩, c.inside f hf r hr⟩

/-- Storing fails exactly if the second of the notification has its own file and it is full. -/
theorem store_fails_iff {d : Dir} {h : List Rec} (hh : Hist d h) {r : Rec} (hpos : 0 < r.ts.sec)
    (hmono : ∀ x ∈ h, ¬ r.ts.Before x.ts) :
    store d r = none ↔
      ∃ f ∈ d.files, (∀ x ∈ f.recs, x.ts.sec = r.ts.sec) ∧ f.lo = r.ts.sec ∧
        (f.recs.map (fun x => 20 + x.len)).sum + (20 + r.len) > 1024 * 1024 := by
  obtain ⟨ch, c⟩ := hh.chain
  have hcr : ∀ f ∈ d.files, f.lo = r.ts.sec → (∀ x ∈ f.recs, x.ts.sec = r.ts.sec) → f.hi = r.ts.sec := by
    intro f hf _ h2
    obtain ⟨x, hx, he⟩ := c.last f (c.perm.mem_iff.1 hf)
    rw [← he, h2 x hx]
  have hsz : ∀ f : File, fileSize f = (f.recs.map (fun x => 20 + x.len)).sum := fun f => rfl
  rcases List.eq_nil_or_concat ch with rfl | ⟨ini, l, rfl⟩
  · have he : d.files = [] := List.Perm.eq_nil c.perm
    simp [store, he, findFile, create, byName]
  · rw [List.concat_eq_append] at c
    have hlm : l ∈ d.files := c.perm.mem_iff.2 (by simp)
    have hl := c.rng l (by simp)
    have hb := byName_of c.names hlm
    have hge : l.hi ≤ r.ts.sec := by
      obtain ⟨x, hx, he⟩ := c.last l (by simp)
      have h1 := hmono x (mem_files_sec c hlm x hx).1
      unfold Ts.Before at h1; omega
    have hlast : ∀ f ∈ d.files, f.lo = r.ts.sec → f = l := by
      intro f hf he
      rcases List.mem_append.1 (c.perm.mem_iff.1 hf) with h1 | h1
      · have := (List.pairwise_append.1 c.ord).2.2 f h1 l (by simp); omega
      · exact List.mem_singleton.1 h1
    simp only [store, c.find_latest]
    rw [if_pos ⟨by omega, by omega⟩, hb]
    simp only
    constructor
    · intro hn
      split at hn
      · cases hn
      · rename_i hfull
        unfold create at hn
        split at hn
        · rename_i g hg
          have hgm := List.mem_of_find?_eq_some hg
          have hgn := List.find?_some hg
          simp at hgn
          have : g = l := hlast g hgm hgn.1
          subst this
          refine ⟨g, hgm, fun x hx => ?_, hgn.1, ?_⟩
          · have := mem_files_sec c hgm x hx; omega
          · rw [← hsz]; unfold maxSize at hfull; omega
        · cases hn
    · rintro ⟨f, hf, h1, h2, h3⟩
      have h4 := hcr f hf h2 h1
      have := hlast f hf h2
      subst this
      rw [← hsz] at h3
      rw [if_neg (by unfold maxSize; omega)]
      unfold create
      rw [h2, h4] at hb
      rw [hb]

theorem sum_map_sublist {l1 l2 : List Rec} (f : Rec → Nat) (h : l1.Sublist l2) :
    (l1.map f).sum ≤ (l2.map f).sum := by
  induction h with
  | slnil => simp
  | cons a _ ih => simp; omega
  | cons_cons a _ ih => simp; omega

/-- C38 (partial): a notification can be stored if all the ones stored in the same second and it fit together into
1 MiB, or if there are none. -/
theorem store_ok_partial {d : Dir} {h : List Rec} (hh : Hist d h) {r : Rec} (hpos : 0 < r.ts.sec)
    (hmono : ∀ x ∈ h, ¬ r.ts.Before x.ts)
    (hfit : (∀ x ∈ h, x.ts.sec ≠ r.ts.sec) ∨
      ((h.filter (fun x => x.ts.sec = r.ts.sec)).map (fun x => 20 + x.len)).sum + (20 + r.len) ≤ 1024 * 1024) :
    ∃ d', store d r = some d' ∧ Hist d' (h ++ [r]) := by
  cases hs : store d r with
  | some d' => exact ⟨d', rfl, .store r hh hpos hmono hs⟩
  | none =>
    exfalso
    obtain ⟨f, hf, h1, h2, h3⟩ := (store_fails_iff hh hpos hmono).1 hs
    obtain ⟨ch, c⟩ := hh.chain
    obtain ⟨x, hx, _⟩ := c.last f (c.perm.mem_iff.1 hf)
    rcases hfit with h4 | h4
    · exact h4 x (mem_files_sec c hf x hx).1 (h1 x hx)
    · have hsub : f.recs.Sublist (h.filter (fun x => x.ts.sec = r.ts.sec)) := by
        have h5 : f.recs.Sublist h := by
          obtain ⟨a, b, hab⟩ := List.append_of_mem (c.perm.mem_iff.1 hf)
          rw [c.hist, hab, List.flatMap_append, List.flatMap_cons]
          exact (List.sublist_append_left _ _).trans (List.sublist_append_right _ _)
        have h6 := h5.filter (fun x => decide (x.ts.sec = r.ts.sec))
        rwa [List.filter_eq_self.2 (fun x hx => by simpa using h1 x hx)] at h6
      have := sum_map_sublist (fun x => 20 + x.len) hsub
      omega

example : (∀ x ∈ [r1, r2, r3, r4], ¬ (⟨⟨12, 7⟩, 400000, 5⟩ : Rec).ts.Before x.ts) ∧
    (([r1, r2, r3, r4].filter (fun x => x.ts.sec = 12)).map (fun x => 20 + x.len)).sum + (20 + 400000) ≤ 1024 * 1024 := by
  decide

/-- C38 does not hold in general: two notifications of one second that do not fit into a file together. -/
theorem same_second_fails : ∃ (d : Dir) (a b : Rec), Hist d [a] ∧ a.ts.sec = b.ts.sec ∧ a.ts.Before b.ts ∧
    store d b = none := by
  have h1 : Hist ⟨[⟨10, 10, [r1], 0⟩], 1⟩ ([] ++ [r1]) := .store r1 (.empty 0) (by decide) (by simp) (by decide)
  exact ⟨_, r1, ⟨⟨10, 600⟩, 600000, 2⟩, h1, by decide, by decide, by decide⟩

/-- If the time goes back, storing a notification can delete a file with other ones. -/
theorem clock_back_overwrites : ∃ (d d' : Dir) (h : List Rec) (r x : Rec), HistAny d h ∧ store d r = some d' ∧
    (∃ f ∈ d.files, x ∈ f.recs) ∧ ¬ ∃ f ∈ d'.files, x ∈ f.recs := by
  let a : Rec := ⟨⟨98, 0⟩, 600000, 1⟩
  let b : Rec := ⟨⟨110, 0⟩, 400000, 2⟩
  let c : Rec := ⟨⟨100, 0⟩, 600000, 3⟩
  let e : Rec := ⟨⟨105, 0⟩, 400000, 4⟩
  let g : Rec := ⟨⟨100, 5⟩, 100000, 5⟩
  have h1 : HistAny ⟨[⟨98, 98, [a], 0⟩], 1⟩ _ := .store a (.empty 0) (by decide) (by decide)
  have h2 : HistAny ⟨[⟨98, 110, [a, b], 0⟩], 1⟩ _ := .store b h1 (by decide) (by decide)
  have h3 : HistAny ⟨[⟨98, 110, [a, b], 0⟩, ⟨100, 100, [c], 1⟩], 2⟩ _ := .store c h2 (by decide) (by decide)
  have h4 : HistAny ⟨[⟨98, 110, [a, b], 0⟩, ⟨100, 105, [c, e], 1⟩], 2⟩ _ := .store e h3 (by decide) (by decide)
  have h5 : HistAny ⟨[⟨98, 110, [a, b], 0⟩, ⟨100, 105, [c, e], 1⟩, ⟨100, 100, [g], 2⟩], 3⟩ _ :=
    .store g h4 (by decide) (by decide)
  have h6 : HistAny ⟨[⟨100, 105, [c, e], 1⟩, ⟨98, 110, [a, b], 0⟩, ⟨100, 100, [g], 2⟩], 3⟩ _ :=
    .relist _ h5 (List.Perm.swap _ _ _)
  exact ⟨_, ⟨[⟨98, 110, [a, b], 0⟩, ⟨100, 105, [g, ⟨⟨105, 9⟩, 1, 6⟩], 2⟩], 3⟩, _, ⟨⟨105, 9⟩, 1, 6⟩, c, h6, by decide,
    by decide, by decide⟩

/-! ## C39 -/

/-- C39 (partial: the time does not go back): the reported time is the time of the first stored notification, zero if
there is none. -/
theorem earliest_first_partial {d : Dir} {h : List Rec} (hh : Hist d h) :
    earliest d = some ((h.head?.map (·.ts)).getD ⟨0, 0⟩) := by
  obtain ⟨ch, c⟩ := hh.chain
  obtain ⟨pre, post, hch, hpre, hf⟩ := c.find_from (s := 1) (by omega)
  have hp0 : pre = [] := by
    cases pre with
    | nil => rfl
    | cons x t =>
      have := hpre x (by simp); have := c.rng x (by rw [hch]; simp); omega
  subst hp0
  cases post with
  | nil =>
    have : h = [] := by rw [c.hist, hch]; rfl
    subst this
    simp [earliest, hf, headName, zeroTs]
  | cons g t =>
    have hg := c.rng g (by rw [hch]; simp)
    have hb := byName_of c.names (c.perm.mem_iff.2 (by rw [hch]; simp : g ∈ ch))
    have hh2 := c.hist
    rw [hch] at hh2
    simp only [List.nil_append, List.flatMap_cons] at hh2
    obtain ⟨x, hx, _⟩ := c.last g (by rw [hch]; simp)
    cases hr : g.recs with
    | nil => rw [hr] at hx; simp at hx
    | cons y u =>
      have hy := c.inside g (by rw [hch]; simp) y (by rw [hr]; simp)
      rw [hr] at hh2
      subst hh2
      simp only [earliest, hf, headName]
      rw [if_neg (by omega), hb]
      simp only [hr, List.getElem?_cons_zero, tsAt]
      rw [if_neg (by omega)]
      rfl

example : earliest d4 = some ⟨10, 500⟩ := by decide

/-- The reported time is not the earliest one if the time went back. -/
theorem earliest_not_min : ∃ (d : Dir) (a b : Rec), HistAny d [a, b] ∧ b.ts.Before a.ts ∧ earliest d = some a.ts := by
  let a : Rec := ⟨⟨100, 0⟩, 5, 1⟩
  let b : Rec := ⟨⟨20, 0⟩, 5, 2⟩
  have h1 : HistAny ⟨[⟨100, 100, [a], 0⟩], 1⟩ ([] ++ [a]) := .store a (.empty 0) (by decide) (by decide)
  have h2 : HistAny ⟨[⟨100, 100, [a, b], 0⟩], 1⟩ ([a] ++ [b]) := .store b h1 (by decide) (by decide)
  exact ⟨_, a, b, h2, by decide, by decide⟩

/-! ## C40 -/

/-- C40 (partial): changing the permissions returns if nothing is stored. -/
theorem access_set_returns_partial {d : Dir} (hh : Hist d []) (ok : Nat → Bool) : ∃ n, accessSet d ok n = (some true, []) := by
  obtain ⟨ch, c⟩ := hh.chain
  have hf : d.files = [] := by
    cases hd : d.files with
    | nil => rfl
    | cons x t =>
      obtain ⟨r, hr, _⟩ := c.last x (c.perm.mem_iff.1 (by rw [hd]; simp))
      have := (mem_files_sec c (by rw [hd]; simp : x ∈ d.files) r hr).1
      simp at this
  exact ⟨0, by simp [accessSet, hf, findFile]⟩

/-- C40 does not hold: if something is stored after the first second of the epoch and every change of permissions
succeeds, it never returns and changes the same file over and over. -/
theorem access_set_never_returns {d : Dir} {h : List Rec} (hh : Hist d h) {r : Rec} (hr : r ∈ h) (h1 : 1 < r.ts.sec)
    (n : Nat) : ∃ (lo hi : Nat), accessSet d (fun _ => true) n = (none, List.replicate n (lo, hi)) := by
  obtain ⟨ch, c⟩ := hh.chain
  refine ⟨(findFile d.files 1 1).1, (findFile d.files 1 1).2, ?_⟩
  have hne : (findFile d.files 1 1).1 ≠ 0 ∧ (findFile d.files 1 1).2 ≠ 0 := by
    obtain ⟨f, hf, hrf⟩ := List.mem_flatMap.1 (c.hist ▸ hr)
    have hfm := c.perm.mem_iff.2 hf
    have hin := c.inside f hf r hrf
    rcases fold_pick (findStep 1 1) (fun f => ¬ (f.lo = 1 ∧ f.hi = 1)) (fun _ _ => True) d.files
      (fun f hf => (c.names.pos f hf).1)
      (fun cur f hf hc => by
        have := c.names.pos f hf
        simp only [findStep]
        rw [if_neg (by omega), if_pos (by omega), if_pos (by omega)])
      (fun f hf hc => by
        have := c.names.pos f hf
        simp only [findStep]
        rw [if_neg (by omega), if_pos (by omega), if_neg (by omega), if_neg (by omega)])
      (fun g hg f hf hcg hcf => by
        have := c.names.pos f hf
        simp only [findStep]
        rw [if_neg (by omega), if_pos (by omega), if_neg (by omega)]
        split
        · exact Or.inl ⟨rfl, trivial⟩
        · exact Or.inr ⟨rfl, trivial⟩)
      (fun _ => trivial) (fun _ _ _ _ _ => trivial) with ⟨_, hn⟩ | ⟨g, hg, _, he, _⟩
    · exact absurd (fun hc => by omega) (hn f hfm)
    · have hp := c.names.pos g hg
      unfold findFile
      rw [he]
      exact ⟨by show g.lo ≠ 0; omega, by show g.hi ≠ 0; omega⟩
  induction n with
  | zero => simp [accessSet, hne]
  | succ n ih => simp [accessSet, ih, List.replicate_succ']

example : accessSet d4 (fun _ => true) 3 = (none, [(10, 10), (10, 10), (10, 10)]) := by decide

end Verif.NtfJson
