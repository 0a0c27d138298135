import Verif.SnPipe
/-!
C97: a subscriber reads the notifications that were sent.
-/
namespace Verif.SnPipe
open Verif.Bytes

theorem notifs_append (a b : List Res) : notifs (a ++ b) = notifs a ++ notifs b := by
  induction a with
  | nil => rfl
  | cons r a ih => cases r <;> simp [notifs, ih]

theorem num_le32 (n : Nat) (h : n < 4294967296) (r : List Nat) : num (le32 n ++ r) = n := by
  simp only [le32, List.cons_append, List.nil_append, num]
  omega

/-- What is in the pipe when the notifications `rest` have not been read. -/
def Rel (s : St) (rest : List Msg) : Prop :=
  match s.pc with
  | .idle => s.pipe = rest.flatMap encode
  | .size t => ∃ m r, rest = m :: r ∧ m.ts = t ∧ s.pipe = le32 m.body.length ++ m.body ++ r.flatMap encode
  | .data t n => ∃ m r, rest = m :: r ∧ m.ts = t ∧ n = m.body.length ∧ s.pipe = m.body ++ r.flatMap encode
  | .ub => False

/-- The invariant when only small notifications are sent. -/
structure Inv (s : St) (rest : List Msg) : Prop where
  none : s.writing = []
  split : s.sent = notifs s.got ++ rest
  rel : Rel s rest
  noErr : .err ∉ s.got

/-- The size of a notification that is written at once. -/
def Small (m : Msg) : Prop := m.ts.length = 16 ∧ 20 + m.body.length ≤ 4096

theorem encode_length {m : Msg} (h : m.ts.length = 16) : (encode m).length = 20 + m.body.length := by
  simp [encode, le32_length, h]; omega

theorem flatMap_nil {rest : List Msg} (h : ∀ m ∈ rest, m.ts.length = 16) (h0 : rest.flatMap encode = []) : rest = [] := by
  cases rest with
  | nil => rfl
  | cons m r =>
    have := encode_length (h m (by simp))
    rw [List.flatMap_cons] at h0
    have := congrArg List.length h0
    simp only [List.length_append, List.length_nil] at this
    omega

theorem inv_read {s : St} {rest : List Msg} (h : Inv s rest) (hsm : ∀ m ∈ rest, Small m) : ∃ rest', Inv (read s) rest' := by
  obtain ⟨h1, h2, h3, h4⟩ := h
  unfold read
  unfold Rel at h3
  cases hp : s.pc with
  | ub => simp [hp] at h3
  | idle =>
    simp only [hp] at h3 ⊢
    split
    · exact ⟨rest, h1, by simp only [notifs_append]; cases s.closed <;> simp [notifs, h2], by simp [Rel, hp, h3],
        by cases s.closed <;> simp [h4]⟩
    · rename_i he
      cases rest with
      | nil => simp [h3] at he
      | cons m r =>
        have hm := hsm m (by simp)
        have hl : 16 ≤ s.pipe.length := by
          rw [h3, List.flatMap_cons, List.length_append, encode_length hm.1]; omega
        rw [if_neg (by omega)]
        refine ⟨m :: r, h1, h2, ?_, h4⟩
        simp only [Rel]
        have ht : s.pipe = m.ts ++ (le32 m.body.length ++ m.body ++ r.flatMap encode) := by
          rw [h3, List.flatMap_cons, encode]; simp
        exact ⟨m, r, rfl, by rw [ht, ← hm.1]; simp, by rw [ht, ← hm.1]; simp⟩
  | size t =>
    simp only [hp] at h3 ⊢
    obtain ⟨m, r, rfl, hts, hpipe⟩ := h3
    have hm := hsm m (by simp)
    have hl : 4 ≤ s.pipe.length := by rw [hpipe]; simp only [List.length_append, le32_length]; omega
    rw [if_neg (by omega)]
    refine ⟨m :: r, h1, h2, ?_, h4⟩
    simp only [Rel]
    refine ⟨m, r, rfl, hts, ?_, ?_⟩
    · rw [hpipe, List.append_assoc, num_le32 _ (by have := hm.2; omega)]
    · rw [hpipe, List.append_assoc]; rfl
  | data t n =>
    simp only [hp] at h3 ⊢
    obtain ⟨m, r, rfl, hts, hn, hpipe⟩ := h3
    have hm := hsm m (by simp)
    have hl : n ≤ s.pipe.length := by rw [hpipe, List.length_append]; omega
    have hn' : n ≤ 4076 := by have := hm.2; omega
    rw [if_neg (by intro hc; have := hc.1; unfold u32 at this; omega), if_neg (by omega)]
    refine ⟨r, h1, ?_, ?_, by simp [h4]⟩
    · rw [notifs_append]
      simp only [notifs]
      rw [hn, hpipe, List.take_left, ← hts, h2]; simp
    · simp only [Rel]
      rw [hn, hpipe, List.drop_left]

theorem inv_reach {cap : Nat} {s : St} (h : Reach cap s) (hsm : ∀ m ∈ s.sent, Small m) : ∃ rest, Inv s rest := by
  induction h with
  | init => exact ⟨[], rfl, rfl, rfl, by simp⟩
  | @step s s' a hr hm hs ih =>
    cases a with
    | send m =>
      simp only [step] at hs
      split at hs
      · cases hs
      · split at hs
        · split at hs
          · cases hs
            obtain ⟨rest, h1, h2, h3, h4⟩ := ih (fun x hx => hsm x (by simp [hx]))
            refine ⟨rest ++ [m], h1, by simp [h2], ?_, h4⟩
            unfold Rel at h3 ⊢
            cases hp : s.pc with
            | ub => simp [hp] at h3
            | idle => simp only [hp] at h3 ⊢; simp [h3]
            | size t =>
              simp only [hp] at h3 ⊢
              obtain ⟨x, r, rfl, ht, hpp⟩ := h3
              exact ⟨x, r ++ [m], rfl, ht, by simp [hpp]⟩
            | data t n =>
              simp only [hp] at h3 ⊢
              obtain ⟨x, r, rfl, ht, hn, hpp⟩ := h3
              exact ⟨x, r ++ [m], rfl, ht, hn, by simp [hpp]⟩
          · cases hs
        · rename_i hb
          cases hs
          have := hsm m (by simp)
          rw [encode_length this.1] at hb
          exact absurd this.2 hb
    | write i n =>
      simp only [step] at hs
      split at hs
      · cases hs
      · rename_i w hw
        split at hs
        · cases hs
        · cases hs
          obtain ⟨rest, h1, _⟩ := ih hsm
          rw [h1] at hw; simp at hw
    | close =>
      simp only [step] at hs
      split at hs
      · cases hs
        obtain ⟨rest, h1, h2, h3, h4⟩ := ih hsm
        exact ⟨rest, h1, h2, h3, h4⟩
      · cases hs
    | read =>
      simp only [step] at hs
      cases hs
      have hsent : (read s).sent = s.sent := by
        unfold read; repeat' split
        all_goals rfl
      rw [hsent] at hsm
      obtain ⟨rest, hi⟩ := ih hsm
      exact inv_read hi (fun m hm => hsm m (by rw [hi.split]; simp [hm]))

theorem ts16 {cap : Nat} {s : St} (h : Reach cap s) : ∀ m ∈ s.sent, m.ts.length = 16 := by
  induction h with
  | init => intro m hm; cases hm
  | @step s s' a hr hm hs ih =>
    cases a with
    | send m =>
      have h16 := hm m rfl
      simp only [step] at hs
      split at hs
      · cases hs
      · split at hs
        · split at hs
          · cases hs
            intro x hx
            rcases List.mem_append.1 hx with hx | hx
            · exact ih x hx
            · rw [List.mem_singleton] at hx; exact hx ▸ h16.1
          · cases hs
        · cases hs
          intro x hx
          rcases List.mem_append.1 hx with hx | hx
          · exact ih x hx
          · rw [List.mem_singleton] at hx; exact hx ▸ h16.1
    | write i n =>
      simp only [step] at hs
      split at hs
      · cases hs
      · split at hs
        · cases hs
        · cases hs; exact ih
    | close => simp only [step] at hs; split at hs <;> cases hs; exact ih
    | read =>
      simp only [step] at hs; cases hs
      have hsent : (read s).sent = s.sent := by
        unfold read; repeat' split
        all_goals rfl
      rw [hsent]; exact ih

/-- **C97** (partial: only notifications of which each fits, with its 20 bytes of header, into `PIPE_BUF`; others are below).
However sending and reading go on at the same time, the reader gets the notifications that were sent, complete, once each
and in their order, and no call of it fails. -/
theorem read_exact_partial {cap : Nat} {s : St} (h : Reach cap s) (hsm : ∀ m ∈ s.sent, 20 + m.body.length ≤ 4096) :
    (∃ rest, s.sent = notifs s.got ++ rest) ∧ .err ∉ s.got ∧ s.pc ≠ .ub := by
  obtain ⟨rest, hi⟩ := inv_reach h (fun m hm => ⟨ts16 h m hm, hsm m hm⟩)
  refine ⟨⟨rest, hi.split⟩, hi.noErr, ?_⟩
  intro hu
  have := hi.rel
  simp [Rel, hu] at this

/-- **C97** (partial, as above). When a call reports that there is nothing to read, or that the subscription was terminated,
all the notifications sent so far have been read. -/
theorem nothing_left_partial {cap : Nat} {s s' : St} {r : Res} (h : Reach cap s)
    (hsm : ∀ m ∈ s.sent, 20 + m.body.length ≤ 4096) (hs : step cap s .read = some s') (hg : s'.got = s.got ++ [r])
    (hr : r = .again ∨ r = .eof) : notifs s.got = s.sent := by
  obtain ⟨rest, hi⟩ := inv_reach h (fun m hm => ⟨ts16 h m hm, hsm m hm⟩)
  have hrest : ∀ m ∈ rest, Small m := fun m hm =>
    ⟨ts16 h m (by rw [hi.split]; simp [hm]), hsm m (by rw [hi.split]; simp [hm])⟩
  have hrel := hi.rel
  simp only [step, Option.some.injEq] at hs
  subst hs
  unfold read at hg
  unfold Rel at hrel
  cases hp : s.pc with
  | ub => simp [hp] at hrel
  | idle =>
    simp only [hp] at hg hrel
    split at hg
    · rename_i he
      have : rest = [] := flatMap_nil (fun m hm => (hrest m hm).1) (by rw [← hrel]; simpa using he)
      rw [hi.split, this]; simp
    · split at hg
      · have := List.append_cancel_left hg
        simp at this; subst this; rcases hr with hr | hr <;> cases hr
      · have := congrArg List.length hg; simp at this
  | size t =>
    simp only [hp] at hg
    split at hg
    · have := List.append_cancel_left hg
      simp at this; subst this; rcases hr with hr | hr <;> cases hr
    · have := congrArg List.length hg; simp at this
  | data t n =>
    simp only [hp] at hg
    split at hg
    · have := congrArg List.length hg; simp at this
    · split at hg
      · have := List.append_cancel_left hg
        simp at this; subst this; rcases hr with hr | hr <;> cases hr
      · have := List.append_cancel_left hg
        simp at this; subst this; rcases hr with hr | hr <;> cases hr

/-- **C97** (partial, as above). When a notification that was sent has not been read, the next call returns the first such. -/
theorem next_read_partial {cap : Nat} {s : St} (h : Reach cap s) (hsm : ∀ m ∈ s.sent, 20 + m.body.length ≤ 4096)
    (hp : s.pc = .idle) {m : Msg} {r : List Msg} (hu : s.sent = notifs s.got ++ m :: r) :
    (read (read (read s))).got = s.got ++ [.notif m] ∧ (read (read (read s))).pc = .idle := by
  obtain ⟨rest, hi⟩ := inv_reach h (fun m hm => ⟨ts16 h m hm, hsm m hm⟩)
  have hr : rest = m :: r := List.append_cancel_left (hi.split.symm.trans hu)
  subst hr
  have hm : Small m := ⟨ts16 h m (by rw [hu]; simp), hsm m (by rw [hu]; simp)⟩
  have hrel := hi.rel
  simp only [Rel, hp, List.flatMap_cons] at hrel
  have hpipe : s.pipe = m.ts ++ (le32 m.body.length ++ (m.body ++ r.flatMap encode)) := by rw [hrel, encode]; simp
  have hl : s.pipe.length = 20 + m.body.length + (r.flatMap encode).length := by
    rw [hpipe]; simp only [List.length_append, le32_length, hm.1]; omega
  have e1 : read s = { s with pipe := le32 m.body.length ++ (m.body ++ r.flatMap encode), pc := .size m.ts } := by
    unfold read
    simp only [hp]
    rw [if_neg (by intro h0; rw [List.isEmpty_iff] at h0; rw [h0] at hl; simp at hl; omega), if_neg (by omega)]
    rw [hpipe, ← hm.1]; simp
  have e2 : read (read s) = { s with pipe := m.body ++ r.flatMap encode, pc := .data m.ts m.body.length } := by
    rw [e1]; unfold read
    simp only
    rw [if_neg (by simp only [List.length_append, le32_length]; omega), num_le32 _ (by have := hm.2; omega)]
    rfl
  have e3 : read (read (read s)) = { s with pipe := r.flatMap encode, got := s.got ++ [.notif m] } := by
    rw [e2]; unfold read
    simp only
    have := hm.2
    rw [if_neg (by intro hc; have := hc.1; unfold u32 at this; omega),
      if_neg (by simp only [List.length_append]; omega), List.take_left, List.drop_left, hp]
  rw [e3]; exact ⟨rfl, hp⟩

/-- A schedule. -/
def exec (cap : Nat) : List Act → St → Option St
  | [], s => some s
  | a :: as, s => (step cap s a).bind (exec cap as)

theorem reach_exec {cap : Nat} {as : List Act} {s s' : St} (h : Reach cap s)
    (hm : ∀ m, .send m ∈ as → m.ts.length = 16 ∧ m.body.length < 4294967296) (he : exec cap as s = some s') : Reach cap s' := by
  induction as generalizing s with
  | nil => simp only [exec, Option.some.injEq] at he; exact he ▸ h
  | cons a as ih =>
    simp only [exec] at he
    cases hs : step cap s a with
    | none => simp [hs] at he
    | some s1 =>
      rw [hs] at he
      exact ih (.step a h (fun m e => hm m (by simp [e])) hs) (fun m hmm => hm m (by simp [hmm])) he

/-- Two notifications sent and read, with another one sent in the middle of a read. -/
def run : List Act :=
  let t := List.replicate 16 1
  [.send ⟨t, [5, 6]⟩, .read, .read, .send ⟨t, [7]⟩, .read, .read, .read, .send ⟨t, []⟩, .read, .read, .read, .read, .read, .close, .read]

/-- The state after it. -/
def runSt : St :=
  { closed := true, sent := [⟨List.replicate 16 1, [5, 6]⟩, ⟨List.replicate 16 1, [7]⟩, ⟨List.replicate 16 1, []⟩],
    got := [.notif ⟨List.replicate 16 1, [5, 6]⟩, .notif ⟨List.replicate 16 1, [7]⟩, .notif ⟨List.replicate 16 1, []⟩, .again, .eof] }

/-- The hypotheses are met. -/
example : Reach 65536 runSt ∧ (∀ m ∈ runSt.sent, 20 + m.body.length ≤ 4096) :=
  ⟨reach_exec .init (by intro m hm; simp [run] at hm; rcases hm with rfl | rfl | rfl <;> decide) (show exec 65536 run {} = some runSt by rfl), by decide +kernel⟩

theorem cap_reach {cap : Nat} {s : St} (h : Reach cap s) : s.pipe.length ≤ cap ∧ ∀ m, .notif m ∈ s.got → m.body.length ≤ cap := by
  induction h with
  | init => exact ⟨by simp, by simp⟩
  | @step s s' a hr hm hs ih =>
    obtain ⟨ih1, ih2⟩ := ih
    cases a with
    | send m =>
      simp only [step] at hs
      split at hs
      · cases hs
      · split at hs
        · split at hs
          · cases hs; exact ⟨by simpa using ‹_›, ih2⟩
          · cases hs
        · cases hs; exact ⟨ih1, ih2⟩
    | write i n =>
      simp only [step] at hs
      split at hs
      · cases hs
      · split at hs
        · cases hs
        · cases hs
          refine ⟨?_, ih2⟩
          simp only [List.length_append, List.length_take]
          omega
    | close => simp only [step] at hs; split at hs <;> cases hs; exact ⟨ih1, ih2⟩
    | read =>
      simp only [step] at hs; cases hs
      unfold read
      repeat' split
      all_goals first
        | exact ⟨ih1, ih2⟩
        | (refine ⟨by simp <;> omega, fun m hmem => ?_⟩
           simp only [List.mem_append, List.mem_singleton] at hmem
           rcases hmem with hmem | hmem
           · exact ih2 m hmem
           · first
             | (cases hmem; done)
             | (split at hmem <;> cases hmem; done)
             | (cases hmem; simp only [List.length_take]; omega))
        | exact ⟨by simp; omega, ih2⟩

/-- **C97 does not hold of the code**: a notification larger than the pipe (64 KiB by default) is never read, by any
schedule, because its data are read by one `read`. -/
theorem large_never_read {cap : Nat} {s : St} (h : Reach cap s) {m : Msg} (hm : .notif m ∈ s.got) : m.body.length ≤ cap :=
  (cap_reach h).2 m hm

/-- The data of a notification as large as the pipe, of which the end looks like another notification. -/
def forged (cap : Nat) (tail : List Nat) : Msg := ⟨List.replicate 16 0, List.replicate (cap - 20) 0 ++ (List.replicate 16 0 ++ tail)⟩

/-- It is written in two pieces and read meanwhile. -/
def forgedRun (cap : Nat) (tail : List Nat) : List Act :=
  [.send (forged cap tail), .write 0 cap, .read, .read, .read, .write 0 (16 + tail.length), .read, .read, .read]

theorem forged_run {cap : Nat} (hc : 4096 ≤ cap) {tail : List Nat} (ht : 4 ≤ tail.length ∧ tail.length ≤ 100) (hb : cap + tail.length < 2147483648) :
    exec cap (forgedRun cap tail) {} =
      some (read { sent := [forged cap tail], pipe := tail.drop 4, pc := .data (List.replicate 16 0) (num tail), got := [.err] }) := by
  have hlen : (forged cap tail).body.length = cap - 4 + tail.length := by
    simp only [forged, List.length_append, List.length_replicate]; omega
  have henc : encode (forged cap tail) = (List.replicate 16 0 ++ (le32 (forged cap tail).body.length ++ List.replicate (cap - 20) 0)) ++
      (List.replicate 16 0 ++ tail) := by
    simp [encode, forged]
  have hl1 : (List.replicate 16 0 ++ (le32 (forged cap tail).body.length ++ List.replicate (cap - 20) 0)).length = cap := by
    simp only [List.length_append, List.length_replicate, le32_length]; omega
  have hl2 : (List.replicate 16 0 ++ tail : List Nat).length = 16 + tail.length := by simp only [List.length_append, List.length_replicate]
  generalize hA : (List.replicate 16 0 ++ (le32 (forged cap tail).body.length ++ List.replicate (cap - 20) 0)) = A at henc hl1
  generalize hB : (List.replicate 16 0 ++ tail : List Nat) = B at henc hl2
  have s1 : step cap {} (.send (forged cap tail)) = some { writing := [A ++ B], sent := [forged cap tail] } := by
    simp only [step]
    rw [if_neg (by simp), if_neg (by rw [henc, List.length_append, hl1, hl2, pipeBuf]; omega), henc]; rfl
  have s2 : step cap { writing := [A ++ B], sent := [forged cap tail] } (.write 0 cap) =
      some { pipe := A, writing := [B], sent := [forged cap tail] } := by
    simp only [step, List.getElem?_cons_zero]
    rw [if_neg (by simp only [List.length_append, List.length_nil, hl1]; omega),
      if_neg (by simp only [List.length_append, hl1]; omega), ← hl1, List.take_left, List.drop_left]; rfl
  have r1 : read { pipe := A, writing := [B], sent := [forged cap tail] } =
      { pipe := le32 (forged cap tail).body.length ++ List.replicate (cap - 20) 0, writing := [B], sent := [forged cap tail],
        pc := .size (List.replicate 16 0) } := by
    unfold read
    simp only
    rw [if_neg (by rw [List.isEmpty_iff]; intro h0; rw [h0] at hl1; simp at hl1; omega), if_neg (by omega), ← hA]
    rfl
  have r2 : read { pipe := le32 (forged cap tail).body.length ++ List.replicate (cap - 20) 0, writing := [B], sent := [forged cap tail], pc := .size (List.replicate 16 0) } =
      { pipe := List.replicate (cap - 20) 0, writing := [B], sent := [forged cap tail],
        pc := .data (List.replicate 16 0) (cap - 4 + tail.length) } := by
    unfold read
    simp only
    rw [if_neg (by simp only [List.length_append, le32_length]; omega), num_le32 _ (by omega), hlen]
    rfl
  have r3 : read { pipe := List.replicate (cap - 20) 0, writing := [B], sent := [forged cap tail], pc := .data (List.replicate 16 0) (cap - 4 + tail.length) } =
      { writing := [B], sent := [forged cap tail], got := [.err] } := by
    unfold read
    simp only
    rw [if_neg (by intro hc'; have := hc'.1; unfold u32 at this; omega),
      if_pos (by simp only [List.length_replicate]; omega), List.drop_of_length_le (by simp only [List.length_replicate]; omega)]
    rfl
  have s3 : step cap { writing := [B], sent := [forged cap tail], got := [.err] } (.write 0 (16 + tail.length)) =
      some { pipe := B, sent := [forged cap tail], got := [.err] } := by
    simp only [step, List.getElem?_cons_zero]
    rw [if_neg (by simp only [List.length_nil, hl2]; omega), if_pos hl2.symm, List.take_of_length_le (by omega)]; rfl
  have r4 : read { pipe := B, sent := [forged cap tail], got := [.err] } =
      { pipe := tail, sent := [forged cap tail], pc := .size (List.replicate 16 0), got := [.err] } := by
    unfold read
    simp only
    rw [if_neg (by rw [List.isEmpty_iff]; intro h0; rw [h0] at hl2; simp at hl2; omega), if_neg (by omega), ← hB]
    rfl
  have r5 : read { pipe := tail, sent := [forged cap tail], pc := .size (List.replicate 16 0), got := [.err] } =
      { pipe := tail.drop 4, sent := [forged cap tail], pc := .data (List.replicate 16 0) (num tail), got := [.err] } := by
    unfold read
    simp only
    rw [if_neg (by omega)]
  simp only [forgedRun, exec, s1, s2, Option.bind_some]
  simp only [step]
  simp only [Option.bind_some, r1, r2, r3]
  have s3' := s3
  simp only [step] at s3'
  rw [s3']
  simp only [Option.bind_some, r4, r5]

theorem forged_reach {cap : Nat} (hc : 4096 ≤ cap) {tail : List Nat} (ht : 4 ≤ tail.length ∧ tail.length ≤ 100) (hb : cap + tail.length < 2147483648) :
    Reach cap (read { sent := [forged cap tail], pipe := tail.drop 4, pc := .data (List.replicate 16 0) (num tail), got := [.err] }) := by
  refine reach_exec .init ?_ (forged_run hc ht hb)
  intro m hm
  simp only [forgedRun, List.mem_cons, Act.send.injEq, reduceCtorEq, List.not_mem_nil, or_false] at hm
  subst hm
  refine ⟨by simp [forged], ?_⟩
  simp only [forged, List.length_append, List.length_replicate]
  omega

/-- **C97 does not hold of the code**: the data of one notification as large as the pipe are taken for another notification,
that nobody sent. -/
theorem content_taken_for_notification {cap : Nat} (hc : 4096 ≤ cap) (hb : cap < 1073741824) :
    ∃ s m, Reach cap s ∧ s.sent = [m] ∧ s.got = [.err, .notif ⟨List.replicate 16 0, [7]⟩] ∧ m.body ≠ [7] := by
  have h := forged_reach hc (tail := [1, 0, 0, 0, 7]) (by simp) (by simp; omega)
  refine ⟨_, forged cap [1, 0, 0, 0, 7], h, ?_, ?_, ?_⟩
  · rfl
  · rfl
  · intro he
    have := congrArg List.length he
    simp only [forged, List.length_append, List.length_replicate, List.length_cons, List.length_nil] at this
    omega

/-- **C97 does not hold of the code**: they may also make the reader write behind its buffer, by a size of 2^32 - 1, which plus
one is 0 in 32 bits. -/
theorem content_overflows_buffer {cap : Nat} (hc : 4096 ≤ cap) (hb : cap < 1073741824) :
    ∃ s m, Reach cap s ∧ s.sent = [m] ∧ s.pc = .ub := by
  have h := forged_reach hc (tail := [255, 255, 255, 255, 7]) (by simp) (by simp; omega)
  exact ⟨_, forged cap [255, 255, 255, 255, 7], h, rfl, rfl⟩

end Verif.SnPipe
