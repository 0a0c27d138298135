import Verif.CtxLock

/-
Helper lemmas and the invariants of the schema context locks.
-/
namespace Verif.CtxLock

@[simp] theorem upd_same {α} (f : Nat → α) (i : Nat) (a : α) : upd f i a i = a := by simp [upd]
theorem upd_ne {α} (f : Nat → α) {i j : Nat} (a : α) (h : j ≠ i) : upd f i a j = f j := by simp [upd, h]

/-- Holds the context lock as a reader. -/
def ctxHeld : Pc → Prop
  | .gotCtx _ | .gotRemap _ | .wantW _ | .gotW _ | .switched _ | .hold _ | .upd _ => True
  | _ => False

/-- Holds the remap lock for reading. -/
def rmHeld : Pc → Prop
  | .gotRemap _ | .hold _ | .upd _ | .write _ => True
  | _ => False

/-- Holds the remap lock for writing. -/
def wHeld : Pc → Prop
  | .gotW _ | .switched _ => True
  | _ => False

/-- Is a writer of the context lock. -/
def wrHeld : Pc → Prop
  | .write _ => True
  | _ => False

/-- Holds the upgradable lock. -/
def upHeld : Pc → Prop
  | .gotCtx k | .gotRemap k | .wantW k | .gotW k | .switched k => k ≠ .read
  | .upd _ => True
  | _ => False

/-- Facts about the locks and allocated contexts. -/
structure Inv (C : Cfg) (s : State) : Prop where
  ndRd : s.rd.Nodup
  ndRm : s.rm.Nodup
  rdIff : ∀ a, a ∈ s.rd ↔ ctxHeld (s.pc a)
  rmIff : ∀ a, a ∈ s.rm ↔ rmHeld (s.pc a)
  wIff : ∀ a, s.rmW (C.own a) = some a ↔ wHeld (s.pc a)
  wOwn : ∀ c a, s.rmW c = some a → C.own a = c
  ex : ∀ c b, s.rmW c = some b → ∀ a ∈ s.rm, C.own a ≠ c
  wrIff : ∀ a, s.writer = some a ↔ wrHeld (s.pc a)
  wrRd : ∀ a, s.writer = some a → s.rd = []
  upIff : ∀ a, s.upgr = some a ↔ upHeld (s.pc a)
  kind : ∀ a, s.pc a ≠ .upd .read ∧ s.pc a ≠ .write .read
  hold : ∀ a h, s.pc a = .hold h → (s.conn (C.own a)).ctx = h
  heapOk : ∀ a, (s.heap (s.conn (C.own a)).ctx).isSome = true
  lt : ∀ a, (s.conn (C.own a)).ctx < s.next
  inj : ∀ a b, (s.conn (C.own a)).ctx = (s.conn (C.own b)).ctx → C.own a = C.own b
  noFail : ∀ a, s.pc a ≠ .failed

theorem unrd_mem {own : Nat → Nat} {l : List Nat} {a : Nat} (h : a ∈ l) : unrd own l a = l.erase a := by
  simp [unrd, h]

theorem mem_unrd {own : Nat → Nat} {l : List Nat} {a : Nat} (hn : l.Nodup) (h : a ∈ l) (b : Nat) :
    b ∈ unrd own l a ↔ b ≠ a ∧ b ∈ l := by
  rw [unrd_mem h, hn.mem_erase_iff]

theorem nd_unrd {own : Nat → Nat} {l : List Nat} {a : Nat} (hn : l.Nodup) : (unrd own l a).Nodup := by
  unfold unrd; split
  · exact hn.erase _
  · exact hn.sublist (List.eraseP_sublist)

theorem inv_init {C : Cfg} {s : State} (h : Init C s) : Inv C s where
  ndRd := by simp [h.rd]
  ndRm := by simp [h.rm]
  rdIff := by simp [h.rd, h.pc, ctxHeld]
  rmIff := by simp [h.rm, h.pc, rmHeld]
  wIff := by simp [h.rmW, h.pc, wHeld]
  wOwn := by simp [h.rmW]
  ex := by simp [h.rmW]
  wrIff := by simp [h.writer, h.pc, wrHeld]
  wrRd := by simp [h.writer]
  upIff := by simp [h.upgr, h.pc, upHeld]
  kind := by simp [h.pc]
  hold := by simp [h.pc]
  heapOk := fun a => by rw [(h.conn a).2.1]; rfl
  lt := fun a => (h.conn a).2.2.2
  inj := h.inj
  noFail := by simp [h.pc]

/-- Steps that are not the unlock after a failed lock. -/
def Good : State → Label → Prop
  | _, .failLock _ => False
  | _, .badUnlock _ => False
  | _, _ => True

section
variable {C : Cfg} {s s' : State}

theorem inv_lock {a : Nat} (I : Inv C s) (h : step C s (.lock a) = some s') : Inv C s' := by
  simp only [step] at h
  split at h
  · rename_i hc
    cases h
    obtain ⟨h1, h2⟩ := hc
    obtain ⟨i1, i2, i3, i4, i5, i6, i7, i8, i9, i10, i11, i12, i13, i14, i15, i16⟩ := I
    constructor <;> simp only [] <;> first | assumption | grind [upd, ctxHeld, rmHeld, wHeld, wrHeld, upHeld]
  · cases h

theorem inv_load {a : Nat} {m : Mod} (I : Inv C s) (h : step C s (.load a m) = some s') : Inv C s' := by
  simp only [step] at h
  split at h
  · cases h
    obtain ⟨i1, i2, i3, i4, i5, i6, i7, i8, i9, i10, i11, i12, i13, i14, i15, i16⟩ := I
    constructor <;> simp only [] <;> first | assumption | grind [upd, ctxHeld, rmHeld, wHeld, wrHeld, upHeld]
  · cases h

theorem inv_lockInstall {a : Nat} (I : Inv C s) (h : step C s (.lockInstall a) = some s') : Inv C s' := by
  simp only [step] at h
  split at h
  · split at h
    · cases h
      obtain ⟨i1, i2, i3, i4, i5, i6, i7, i8, i9, i10, i11, i12, i13, i14, i15, i16⟩ := I
      constructor <;> simp only [] <;> first | assumption | grind [upd, ctxHeld, rmHeld, wHeld, wrHeld, upHeld]
    · cases h
  · cases h

theorem inv_lockRemove {a n : Nat} (I : Inv C s) (h : step C s (.lockRemove a n) = some s') : Inv C s' := by
  simp only [step] at h
  split at h
  · cases h
    obtain ⟨i1, i2, i3, i4, i5, i6, i7, i8, i9, i10, i11, i12, i13, i14, i15, i16⟩ := I
    constructor <;> simp only [] <;> first | assumption | grind [upd, ctxHeld, rmHeld, wHeld, wrHeld, upHeld]
  · cases h

theorem inv_remap {a : Nat} (I : Inv C s) (h : step C s (.remap a) = some s') : Inv C s' := by
  simp only [step] at h
  split at h
  · split at h
    · cases h
      obtain ⟨i1, i2, i3, i4, i5, i6, i7, i8, i9, i10, i11, i12, i13, i14, i15, i16⟩ := I
      constructor <;> simp only [] <;> first | assumption | grind [upd, ctxHeld, rmHeld, wHeld, wrHeld, upHeld]
    · cases h
  · cases h

theorem inv_check {a : Nat} (I : Inv C s) (h : step C s (.check a) = some s') : Inv C s' := by
  simp only [step] at h
  split at h
  · rename_i k hk
    have hm : a ∈ s.rm := (I.rmIff a).2 (by rw [hk]; trivial)
    split at h
    · cases h
      obtain ⟨i1, i2, i3, i4, i5, i6, i7, i8, i9, i10, i11, i12, i13, i14, i15, i16⟩ := I
      cases k <;> (constructor <;> simp only [enter] <;> first | assumption | grind [upd, ctxHeld, rmHeld, wHeld, wrHeld, upHeld])
    · cases h
      have hu := mem_unrd (own := C.own) I.ndRm hm
      have hn := nd_unrd (own := C.own) (a := a) I.ndRm
      obtain ⟨i1, i2, i3, i4, i5, i6, i7, i8, i9, i10, i11, i12, i13, i14, i15, i16⟩ := I
      constructor <;> simp only [] <;> first | assumption | grind [upd, ctxHeld, rmHeld, wHeld, wrHeld, upHeld]
  · cases h

theorem inv_lockW {a : Nat} (I : Inv C s) (h : step C s (.lockW a) = some s') : Inv C s' := by
  simp only [step] at h
  split at h
  · rename_i k hk
    split at h
    · rename_i hc
      cases h
      obtain ⟨h1, h2⟩ := hc
      simp only [List.all_eq_true, decide_eq_true_eq] at h2
      obtain ⟨i1, i2, i3, i4, i5, i6, i7, i8, i9, i10, i11, i12, i13, i14, i15, i16⟩ := I
      constructor <;> simp only [] <;> first | assumption | grind [upd, ctxHeld, rmHeld, wHeld, wrHeld, upHeld]
    · cases h
  · cases h

theorem inv_timeoutW {a : Nat} (I : Inv C s) (h : step C s (.timeoutW a) = some s') : Inv C s' := by
  simp only [step] at h
  split at h
  · rename_i k hk
    have hm : a ∈ s.rd := (I.rdIff a).2 (by rw [hk]; trivial)
    split at h
    · cases h
    · cases h
      have hu := mem_unrd (own := C.own) I.ndRd hm
      have hn := nd_unrd (own := C.own) (a := a) I.ndRd
      obtain ⟨i1, i2, i3, i4, i5, i6, i7, i8, i9, i10, i11, i12, i13, i14, i15, i16⟩ := I
      constructor <;> simp only [] <;> first | assumption | grind [upd, ctxHeld, rmHeld, wHeld, wrHeld, upHeld]
  · cases h

theorem inv_failW {a : Nat} (I : Inv C s) (hk : wHeld (s.pc a)) : Inv C (failW C s a) := by
  have hm : a ∈ s.rd := (I.rdIff a).2 (by revert hk; cases s.pc a <;> simp [wHeld, ctxHeld])
  have hu := mem_unrd (own := C.own) I.ndRd hm
  have hn := nd_unrd (own := C.own) (a := a) I.ndRd
  obtain ⟨i1, i2, i3, i4, i5, i6, i7, i8, i9, i10, i11, i12, i13, i14, i15, i16⟩ := I
  constructor <;> simp only [failW] <;> first | assumption | grind [upd, ctxHeld, rmHeld, wHeld, wrHeld, upHeld]

theorem inv_unlockAll {a : Nat} (I : Inv C s) (hk : ctxHeld (s.pc a) ∧ rmHeld (s.pc a)) :
    Inv C (unlockAll C s a) := by
  have hm : a ∈ s.rd := (I.rdIff a).2 hk.1
  have hu := mem_unrd (own := C.own) I.ndRd hm
  have hn := nd_unrd (own := C.own) (a := a) I.ndRd
  have hm' : a ∈ s.rm := (I.rmIff a).2 hk.2
  have hu' := mem_unrd (own := C.own) I.ndRm hm'
  have hn' := nd_unrd (own := C.own) (a := a) I.ndRm
  obtain ⟨i1, i2, i3, i4, i5, i6, i7, i8, i9, i10, i11, i12, i13, i14, i15, i16⟩ := I
  constructor <;> simp only [unlockAll] <;> first | assumption | grind [upd, ctxHeld, rmHeld, wHeld, wrHeld, upHeld]

theorem inv_unlockWrite {a : Nat} {k : Kind} (I : Inv C s) (hk : s.pc a = .write k) :
    Inv C (unlockWrite C s a) := by
  have hm' : a ∈ s.rm := (I.rmIff a).2 (by rw [hk]; trivial)
  have hu' := mem_unrd (own := C.own) I.ndRm hm'
  have hn' := nd_unrd (own := C.own) (a := a) I.ndRm
  obtain ⟨i1, i2, i3, i4, i5, i6, i7, i8, i9, i10, i11, i12, i13, i14, i15, i16⟩ := I
  constructor <;> simp only [unlockWrite] <;> first | assumption | grind [upd, ctxHeld, rmHeld, wHeld, wrHeld, upHeld]

/-- Nobody of the connection uses its context. -/
def Unused (C : Cfg) (s : State) (c : Nat) : Prop := ∀ a h, C.own a = c → s.pc a ≠ .hold h

theorem inv_switchTo {b : Nat} {new : Schema} (I : Inv C s) (hu : Unused C s (C.own b)) :
    Inv C (switchTo s (C.own b) new) := by
  unfold Unused at hu
  obtain ⟨i1, i2, i3, i4, i5, i6, i7, i8, i9, i10, i11, i12, i13, i14, i15, i16⟩ := I
  constructor <;> simp only [switchTo] <;> try assumption
  · grind [upd]
  · intro a
    by_cases hc : C.own a = C.own b
    · rw [hc]; simp [upd]
    · have := i14 a
      rw [upd_ne _ _ hc, upd_ne _ _ (by omega), upd_ne _ _ (fun e => hc (i15 a b e))]
      exact i13 a
  · grind [upd]
  · grind [upd]

theorem unused_of_w {a : Nat} (I : Inv C s) (hw : wHeld (s.pc a)) : Unused C s (C.own a) := by
  intro b h hb hp
  exact I.ex _ _ ((I.wIff a).2 hw) b ((I.rmIff b).2 (by rw [hp]; trivial)) hb

theorem unused_of_wr {a : Nat} (I : Inv C s) (hw : wrHeld (s.pc a)) (c : Nat) : Unused C s c := by
  intro b h _ hp
  have := (I.rdIff b).2 (by rw [hp]; trivial)
  rw [I.wrRd a ((I.wrIff a).2 hw)] at this
  cases this

theorem inv_build {a : Nat} {ok : Bool} (I : Inv C s) (h : step C s (.build a ok) = some s') : Inv C s' := by
  simp only [step] at h
  split at h
  · rename_i k hk
    have hw : wHeld (s.pc a) := by rw [hk]; trivial
    split at h
    · cases h
      have I' := inv_switchTo (b := a) (new := sch s.installed) I (unused_of_w I hw)
      have hk' : (switchTo s (C.own a) (sch s.installed)).pc a = .gotW k := hk
      generalize switchTo s (C.own a) (sch s.installed) = t at I' hk'
      obtain ⟨i1, i2, i3, i4, i5, i6, i7, i8, i9, i10, i11, i12, i13, i14, i15, i16⟩ := I'
      constructor <;> simp only [] <;> first | assumption | grind [upd, ctxHeld, rmHeld, wHeld, wrHeld, upHeld]
    · cases h; exact inv_failW I hw
  · cases h

theorem inv_initP {a : Nat} {ok : Bool} (I : Inv C s) (h : step C s (.init a ok) = some s') : Inv C s' := by
  simp only [step] at h
  split at h
  · rename_i k hk
    have hw : wHeld (s.pc a) := by rw [hk]; trivial
    have hr : s.rmW (C.own a) = some a := (I.wIff a).2 hw
    have hrm : a ∉ s.rm := fun hm => by
      have := (I.rmIff a).1 hm; rw [hk] at this; exact this
    split at h
    · cases h
      obtain ⟨i1, i2, i3, i4, i5, i6, i7, i8, i9, i10, i11, i12, i13, i14, i15, i16⟩ := I
      cases k <;> (constructor <;> simp only [enter] <;>
        first | assumption | grind [upd, ctxHeld, rmHeld, wHeld, wrHeld, upHeld])
    · cases h; exact inv_failW I hw
  · cases h

theorem inv_release {a : Nat} (I : Inv C s) (h : step C s (.release a) = some s') : Inv C s' := by
  simp only [step] at h
  split at h
  · rename_i k hk
    cases h; exact inv_unlockAll I (by rw [hk]; exact ⟨trivial, trivial⟩)
  · cases h

theorem inv_upgrade {a : Nat} (I : Inv C s) (h : step C s (.upgrade a) = some s') : Inv C s' := by
  simp only [step] at h
  split at h
  · rename_i k hk
    split at h
    · rename_i hr
      cases h
      have hw : s.writer = none := by
        cases hw : s.writer with
        | none => rfl
        | some b => have := I.wrRd b hw; rw [hr] at this; cases this
      have hkk := (I.kind a).1
      have hup : s.upgr = some a := (I.upIff a).2 (by rw [hk]; trivial)
      obtain ⟨i1, i2, i3, i4, i5, i6, i7, i8, i9, i10, i11, i12, i13, i14, i15, i16⟩ := I
      constructor <;> simp only [] <;> first | assumption | grind [upd, ctxHeld, rmHeld, wHeld, wrHeld, upHeld]
    · cases h
  · cases h

theorem inv_giveUp {a : Nat} (I : Inv C s) (h : step C s (.giveUp a) = some s') : Inv C s' := by
  simp only [step] at h
  split at h
  · rename_i k hk
    cases h; exact inv_unlockAll I (by rw [hk]; exact ⟨trivial, trivial⟩)
  · rename_i k hk
    cases h; exact inv_unlockWrite I hk
  · cases h

/-- The state after the change itself, before the unlock. -/
def committed (C : Cfg) (s : State) (a : Nat) (k : Kind) (ms : List Mod) (new : Schema) : State :=
  let s1 := switchTo { s with installed := ms, contentId := C.hash new } (C.own a) new
  let c := s1.conn (C.own a)
  { s1 with conn := upd s1.conn (C.own a) { c with inited := newPlugs k ++ c.inited } }

theorem commit_eq {a : Nat} (h : step C s (.commit a) = some s') : ∃ k ms new, s.pc a = .write k ∧
    change s.installed k = some (ms, new) ∧ s' = unlockWrite C (committed C s a k ms new) a := by
  simp only [step] at h
  split at h
  · rename_i k hk
    split at h
    · cases h
    · rename_i ms new hc
      cases h
      exact ⟨k, ms, new, hk, hc, rfl⟩
  · cases h

theorem inv_committed {a : Nat} {k : Kind} {ms : List Mod} {new : Schema} (I : Inv C s)
    (hk : s.pc a = .write k) : Inv C (committed C s a k ms new) := by
  have hw : wrHeld (s.pc a) := by rw [hk]; trivial
  have J : Inv C { s with installed := ms, contentId := C.hash new } := by
    obtain ⟨i1, i2, i3, i4, i5, i6, i7, i8, i9, i10, i11, i12, i13, i14, i15, i16⟩ := I
    constructor <;> assumption
  have J' := inv_switchTo (b := a) (new := new) J (unused_of_wr (a := a) J hw (C.own a))
  simp only [committed]
  generalize switchTo { s with installed := ms, contentId := C.hash new } (C.own a) new = t at J'
  obtain ⟨i1, i2, i3, i4, i5, i6, i7, i8, i9, i10, i11, i12, i13, i14, i15, i16⟩ := J'
  constructor <;> simp only [] <;> first | assumption | grind [upd, ctxHeld, rmHeld, wHeld, wrHeld, upHeld]

theorem inv_commit {a : Nat} (I : Inv C s) (h : step C s (.commit a) = some s') : Inv C s' := by
  obtain ⟨k, ms, new, hk, _, rfl⟩ := commit_eq h
  exact inv_unlockWrite (k := k) (inv_committed I hk) hk

theorem inv_step {l : Label} (I : Inv C s) (hA : Good s l) (h : step C s l = some s') : Inv C s' := by
  cases l with
  | lock a => exact inv_lock I h
  | load a m => exact inv_load I h
  | lockInstall a => exact inv_lockInstall I h
  | lockRemove a n => exact inv_lockRemove I h
  | remap a => exact inv_remap I h
  | check a => exact inv_check I h
  | lockW a => exact inv_lockW I h
  | timeoutW a => exact inv_timeoutW I h
  | build a ok => exact inv_build I h
  | init a ok => exact inv_initP I h
  | release a => exact inv_release I h
  | upgrade a => exact inv_upgrade I h
  | giveUp a => exact inv_giveUp I h
  | commit a => exact inv_commit I h
  | failLock a => exact hA.elim
  | badUnlock a => exact hA.elim

theorem inv_reach {A : State → Label → Prop} (hA : ∀ s l, A s l → Good s l) (h : Reach C A s) : Inv C s := by
  induction h with
  | init hi => exact inv_init hi
  | step l _ ha hs ih => exact inv_step ih (hA _ _ ha) hs

/-! ### Currency of the contexts -/

/-- Relies on the context of the connection being current. -/
def late : Pc → Prop
  | .switched _ | .upd _ | .write _ => True
  | _ => False

/-- The contexts are described by their content IDs and the ones in use are current. -/
structure Cur (C : Cfg) (s : State) : Prop where
  main : s.contentId = C.hash (sch s.installed)
  conn : ∀ a sc, s.heap (s.conn (C.own a)).ctx = some sc → (s.conn (C.own a)).cid = C.hash sc
  hold : ∀ a h, s.pc a = .hold h → s.heap h = some (sch s.installed)
  sw : ∀ a, late (s.pc a) → s.heap (s.conn (C.own a)).ctx = some (sch s.installed)

/-- The context prepared by an installation is of the modules installed when the change is made. -/
def NoRace (s : State) (l : Label) : Prop :=
  Good s l ∧ ∀ a, l = .commit a → ∀ m sc, s.pc a = .write (.install m sc) → sc = sch s.installed

theorem cur_init (h : Init C s) : Cur C s where
  main := h.cidOk
  conn := fun a sc hs => by
    rw [(h.conn a).2.1] at hs
    cases hs
    rw [(h.conn a).1, h.cidOk]
  hold := by simp [h.pc]
  sw := by simp [h.pc, late]

theorem cur_pc {s t : State} (K : Cur C s) (h1 : t.installed = s.installed) (h2 : t.contentId = s.contentId)
    (h3 : ∀ c, (t.conn c).cid = (s.conn c).cid ∧ (t.conn c).ctx = (s.conn c).ctx) (h4 : t.heap = s.heap)
    (h5 : ∀ a h, t.pc a = .hold h → s.pc a = .hold h ∨ s.heap h = some (sch s.installed))
    (h6 : ∀ a, late (t.pc a) → late (s.pc a) ∨ s.heap (s.conn (C.own a)).ctx = some (sch s.installed)) :
    Cur C t where
  main := by rw [h1, h2]; exact K.main
  conn := fun a sc hs => by
    rw [(h3 _).1]; rw [h4, (h3 _).2] at hs; exact K.conn a sc hs
  hold := fun a h hp => by
    rw [h4, h1]
    rcases h5 a h hp with h' | h'
    · exact K.hold a h h'
    · exact h'
  sw := fun a hp => by
    rw [h4, h1, (h3 _).2]
    rcases h6 a hp with h' | h'
    · exact K.sw a h'
    · exact h'

theorem change_sch {ms : List Mod} {k : Kind} {ms' : List Mod} {new : Schema} (h : change ms k = some (ms', new))
    (hk : ∀ m sc, k = .install m sc → sc = sch ms) : new = sch ms' := by
  cases k with
  | read => cases h
  | install m sc =>
    have := hk m sc rfl
    subst this
    simp only [change] at h
    split at h
    · cases h
    · split at h
      · cases h; simp [sch]
      · cases h
  | remove n =>
    simp only [change] at h
    split at h
    · cases h; rfl
    · cases h

theorem cur_step {l : Label} (hinj : ∀ x y, C.hash x = C.hash y → x = y) (I : Inv C s) (K : Cur C s)
    (hA : NoRace s l) (h : step C s l = some s') : Cur C s' := by
  cases l with
  | lock a =>
    simp only [step] at h
    split at h
    · cases h
      exact cur_pc K rfl rfl (fun _ => ⟨rfl, rfl⟩) rfl (by simp only [upd]; intro b h; split <;> simp_all)
        (by simp only [upd]; intro b hb; split at hb <;> simp_all [late])
    · cases h
  | load a m =>
    simp only [step] at h
    split at h
    · cases h
      exact cur_pc K rfl rfl (fun _ => ⟨rfl, rfl⟩) rfl (by simp only [upd]; intro b h; split <;> simp_all)
        (by simp only [upd]; intro b hb; split at hb <;> simp_all [late])
    · cases h
  | lockInstall a =>
    simp only [step] at h
    split at h
    · split at h
      · cases h
        exact cur_pc K rfl rfl (fun _ => ⟨rfl, rfl⟩) rfl (by simp only [upd]; intro b h; split <;> simp_all)
          (by simp only [upd]; intro b hb; split at hb <;> simp_all [late])
      · cases h
    · cases h
  | lockRemove a n =>
    simp only [step] at h
    split at h
    · cases h
      exact cur_pc K rfl rfl (fun _ => ⟨rfl, rfl⟩) rfl (by simp only [upd]; intro b h; split <;> simp_all)
        (by simp only [upd]; intro b hb; split at hb <;> simp_all [late])
    · cases h
  | remap a =>
    simp only [step] at h
    split at h
    · split at h
      · cases h
        exact cur_pc K rfl rfl (fun _ => ⟨rfl, rfl⟩) rfl (by simp only [upd]; intro b h; split <;> simp_all)
          (by simp only [upd]; intro b hb; split at hb <;> simp_all [late])
      · cases h
    · cases h
  | check a =>
    simp only [step] at h
    split at h
    · rename_i k hk
      split at h
      · rename_i hid
        cases h
        have hcur : s.heap (s.conn (C.own a)).ctx = some (sch s.installed) := by
          cases hh : s.heap (s.conn (C.own a)).ctx with
          | none => have := I.heapOk a; rw [hh] at this; cases this
          | some sc =>
            have h1 := K.conn a sc hh
            rw [← hid, K.main] at h1
            rw [hinj _ _ h1]
        refine cur_pc K rfl rfl (fun _ => ⟨rfl, rfl⟩) rfl ?_ ?_
        · simp only [upd]; intro b h hb
          split at hb
          · cases k <;> simp only [enter, Pc.hold.injEq, reduceCtorEq] at hb
            subst hb; exact .inr hcur
          · exact .inl hb
        · simp only [upd]; intro b hb
          split at hb
          · rename_i e; subst e; exact .inr hcur
          · exact .inl hb
      · cases h
        exact cur_pc K rfl rfl (fun _ => ⟨rfl, rfl⟩) rfl (by simp only [upd]; intro b h; split <;> simp_all)
          (by simp only [upd]; intro b hb; split at hb <;> simp_all [late])
    · cases h
  | lockW a =>
    simp only [step] at h
    split at h
    · split at h
      · cases h
        exact cur_pc K rfl rfl (fun _ => ⟨rfl, rfl⟩) rfl (by simp only [upd]; intro b h; split <;> simp_all)
          (by simp only [upd]; intro b hb; split at hb <;> simp_all [late])
      · cases h
    · cases h
  | timeoutW a =>
    simp only [step] at h
    split at h
    · split at h
      · cases h
      · cases h
        exact cur_pc K rfl rfl (fun _ => ⟨rfl, rfl⟩) rfl (by simp only [upd]; intro b h; split <;> simp_all)
          (by simp only [upd]; intro b hb; split at hb <;> simp_all [late])
    · cases h
  | build a ok =>
    simp only [step] at h
    split at h
    · rename_i k hk
      have hw : wHeld (s.pc a) := by rw [hk]; trivial
      have hu := unused_of_w I hw
      split at h
      · cases h
        refine ⟨K.main, ?_, ?_, ?_⟩
        · intro b sc hs
          simp only [switchTo] at hs ⊢
          by_cases hb : C.own b = C.own a
          · rw [hb] at hs ⊢
            simp only [upd_same] at hs ⊢
            cases hs; exact K.main
          · have := I.lt b
            rw [upd_ne _ _ hb] at hs ⊢
            rw [upd_ne _ _ (by omega), upd_ne _ _ (fun e => hb (I.inj _ _ e))] at hs
            exact K.conn b sc hs
        · intro b h hb
          simp only [switchTo] at hb ⊢
          simp only [upd] at hb
          split at hb
          · cases hb
          · have hne : C.own b ≠ C.own a := fun e => hu b h e hb
            have hx := I.hold b h hb
            have := I.lt b
            rw [upd_ne _ _ (by omega), upd_ne _ _ (fun e => hne (I.inj _ _ (hx.trans e)))]
            exact K.hold b h hb
        · intro b hb
          simp only [switchTo] at hb ⊢
          by_cases hba : b = a
          · subst hba; simp
          · rw [upd_ne _ _ hba] at hb
            have hne : C.own b ≠ C.own a := fun e => by
              have h0 := (I.wIff a).2 hw
              by_cases hwb : wHeld (s.pc b)
              · have h1 := (I.wIff b).2 hwb
                rw [e, h0] at h1
                cases h1; exact hba rfl
              · refine I.ex _ _ h0 b ((I.rmIff b).2 ?_) e
                revert hb hwb
                cases s.pc b <;> simp [late, wHeld, rmHeld]
            have := I.lt b
            rw [upd_ne _ _ hne, upd_ne _ _ (by omega), upd_ne _ _ (fun e => hne (I.inj _ _ e))]
            exact K.sw b hb
      · cases h
        exact cur_pc K rfl rfl (fun _ => ⟨rfl, rfl⟩) rfl
          (by simp only [failW, upd]; intro b h; split <;> simp_all)
          (by simp only [failW, upd]; intro b hb; split at hb <;> simp_all [late])
    · cases h
  | init a ok =>
    simp only [step] at h
    split at h
    · rename_i k hk
      split at h
      · cases h
        refine cur_pc K rfl rfl (fun c => ?_) rfl ?_ ?_
        · simp only [upd]; split <;> simp_all
        · simp only [upd]; intro b h hb
          split at hb
          · cases k <;> simp only [enter, Pc.hold.injEq, reduceCtorEq] at hb
            subst hb; exact .inr (K.sw a (by rw [hk]; trivial))
          · exact .inl hb
        · simp only [upd]; intro b hb
          split at hb
          · rename_i e; subst e; exact .inr (K.sw b (by rw [hk]; trivial))
          · exact .inl hb
      · cases h
        exact cur_pc K rfl rfl (fun _ => ⟨rfl, rfl⟩) rfl
          (by simp only [failW, upd]; intro b h; split <;> simp_all)
          (by simp only [failW, upd]; intro b hb; split at hb <;> simp_all [late])
    · cases h
  | release a =>
    simp only [step] at h
    split at h
    · cases h
      exact cur_pc K rfl rfl (fun _ => ⟨rfl, rfl⟩) rfl
        (by simp only [unlockAll, upd]; intro b h; split <;> simp_all)
        (by simp only [unlockAll, upd]; intro b hb; split at hb <;> simp_all [late])
    · cases h
  | upgrade a =>
    simp only [step] at h
    split at h
    · split at h
      · cases h
        exact cur_pc K rfl rfl (fun _ => ⟨rfl, rfl⟩) rfl (by simp only [upd]; intro b h; split <;> simp_all)
          (by simp only [upd]; intro b hb; split at hb <;> simp_all [late])
      · cases h
    · cases h
  | giveUp a =>
    simp only [step] at h
    split at h
    · cases h
      exact cur_pc K rfl rfl (fun _ => ⟨rfl, rfl⟩) rfl
        (by simp only [unlockAll, upd]; intro b h; split <;> simp_all)
        (by simp only [unlockAll, upd]; intro b hb; split at hb <;> simp_all [late])
    · cases h
      exact cur_pc K rfl rfl (fun _ => ⟨rfl, rfl⟩) rfl
        (by simp only [unlockWrite, upd]; intro b h; split <;> simp_all)
        (by simp only [unlockWrite, upd]; intro b hb; split at hb <;> simp_all [late])
    · cases h
  | commit a =>
    obtain ⟨k, ms, new, hk, hc, rfl⟩ := commit_eq h
    have hw : wrHeld (s.pc a) := by rw [hk]; trivial
    have hnew : new = sch ms := change_sch hc (fun m sc e => hA.2 a rfl m sc (by rw [hk, e]))
    have hrd := I.wrRd a ((I.wrIff a).2 hw)
    have hno : ∀ b, ¬ ctxHeld (s.pc b) := fun b hb => by
      have := (I.rdIff b).2 hb; rw [hrd] at this; cases this
    refine ⟨?_, ?_, ?_, ?_⟩
    · simp [unlockWrite, committed, switchTo, hnew]
    · intro b sc hs
      simp only [unlockWrite, committed, switchTo] at hs ⊢
      by_cases hb : C.own b = C.own a
      · rw [hb] at hs ⊢
        simp only [upd_same] at hs ⊢
        cases hs; rfl
      · have := I.lt b
        rw [upd_ne _ _ hb, upd_ne _ _ hb] at hs ⊢
        rw [upd_ne _ _ (by omega), upd_ne _ _ (fun e => hb (I.inj _ _ e))] at hs
        exact K.conn b sc hs
    · intro b h hb
      simp only [unlockWrite, committed, switchTo, upd] at hb
      split at hb
      · cases hb
      · exact (hno b (by rw [hb]; trivial)).elim
    · intro b hb
      simp only [unlockWrite, committed, switchTo, upd] at hb
      split at hb
      · exact hb.elim
      · rename_i hne
        by_cases hwb : wrHeld (s.pc b)
        · have h1 := (I.wrIff b).2 hwb
          rw [(I.wrIff a).2 hw] at h1
          cases h1; exact (hne rfl).elim
        · refine (hno b ?_).elim
          revert hb hwb
          cases s.pc b <;> simp [late, wrHeld, ctxHeld]
  | failLock a => exact hA.1.elim
  | badUnlock a => exact hA.1.elim

theorem cur_reach {A : State → Label → Prop} (hinj : ∀ x y, C.hash x = C.hash y → x = y)
    (hA : ∀ s l, A s l → NoRace s l) (h : Reach C A s) : Inv C s ∧ Cur C s := by
  induction h with
  | init hi => exact ⟨inv_init hi, cur_init hi⟩
  | step l _ ha hs ih =>
    exact ⟨inv_step ih.1 (hA _ _ ha).1 hs, cur_step hinj ih.1 ih.2 (hA _ _ ha) hs⟩

/-! ### Initialization of the datastore plugins -/

/-- No call of the connection is between the switch of the context and the initialization of plugins. -/
def Settled (C : Cfg) (s : State) (c : Nat) : Prop := ∀ b k, C.own b = c → s.pc b ≠ .switched k

/-- Every module has its fixed plugin and those of the context of a connection are initialized. -/
structure Plug (C : Cfg) (P : Nat → Nat) (s : State) : Prop where
  mods : ∀ m ∈ s.installed, m.plug = P m.name
  conn : ∀ a sc, Settled C s (C.own a) → s.heap (s.conn (C.own a)).ctx = some sc →
    ∀ x ∈ sc, P x.1 ∈ (s.conn (C.own a)).inited

/-- Steps without a race, without a failed initialization and with a fixed plugin of every module. -/
def SamePlugin (P : Nat → Nat) (s : State) (l : Label) : Prop :=
  NoRace s l ∧ (∀ a, l ≠ .init a false) ∧
    ∀ a, l = .commit a → ∀ m sc, s.pc a = .write (.install m sc) → m.plug = P m.name

theorem plug_init {P : Nat → Nat} (h : Init C s) (hP : ∀ m ∈ s.installed, m.plug = P m.name) : Plug C P s where
  mods := hP
  conn := fun a sc _ hs x hx => by
    rw [(h.conn a).2.1] at hs
    cases hs
    simp only [sch, List.mem_map] at hx
    obtain ⟨m, hm, rfl⟩ := hx
    rw [← hP m hm]
    exact (h.conn a).2.2.1 m hm

theorem plug_pc {P : Nat → Nat} {s t : State} (K : Plug C P s) (h1 : t.installed = s.installed)
    (h3 : t.conn = s.conn) (h4 : t.heap = s.heap)
    (h5 : ∀ b k, s.pc b = .switched k → ∃ k, t.pc b = .switched k) : Plug C P t where
  mods := by rw [h1]; exact K.mods
  conn := fun a sc hset hs => by
    rw [h3, h4] at hs
    rw [h3]
    refine K.conn a sc (fun b k hb hp => ?_) hs
    obtain ⟨k', hk'⟩ := h5 b k hp
    exact hset b k' hb hk'

theorem keep_sw {f : Nat → Pc} {a : Nat} {p : Pc} (h : ∀ k, f a ≠ .switched k) (b : Nat) (k : Kind)
    (hb : f b = .switched k) : ∃ k, upd f a p b = .switched k := by
  by_cases e : b = a
  · subst e; exact (h k hb).elim
  · exact ⟨k, by rw [upd_ne _ _ e]; exact hb⟩

theorem change_names {ms ms' : List Mod} {k : Kind} {new : Schema} (h : change ms k = some (ms', new)) :
    ∀ m ∈ ms', m ∈ ms ∨ ∃ sc, k = .install m sc := by
  cases k with
  | read => cases h
  | install m sc =>
    simp only [change] at h
    split at h
    · cases h
    · split at h
      · cases h
        intro x hx
        simp only [List.mem_append, List.mem_singleton] at hx
        rcases hx with hx | rfl
        · exact .inl hx
        · exact .inr ⟨_, rfl⟩
      · cases h
  | remove n =>
    simp only [change] at h
    split at h
    · cases h
      intro x hx
      exact .inl (List.mem_filter.1 hx).1
    · cases h

theorem plug_step {l : Label} {P : Nat → Nat} (I : Inv C s) (K : Cur C s) (Q : Plug C P s)
    (hA : SamePlugin P s l) (h : step C s l = some s') : Plug C P s' := by
  cases l with
  | init a ok =>
    simp only [step] at h
    split at h
    · rename_i k hk
      split at h
      · cases h
        refine ⟨Q.mods, fun b sc hset hs x hx => ?_⟩
        simp only [] at hs ⊢
        have hctx : (upd s.conn (C.own a) { s.conn (C.own a) with
            inited := addPlugs (s.conn (C.own a)).inited s.installed } (C.own b)).ctx = (s.conn (C.own b)).ctx := by
          by_cases e : C.own b = C.own a
          · rw [e]; simp
          · rw [upd_ne _ _ e]
        rw [hctx] at hs
        by_cases e : C.own b = C.own a
        · rw [e] at hs ⊢
          rw [K.sw a (by rw [hk]; trivial)] at hs
          cases hs
          simp only [upd_same, addPlugs, List.mem_append, List.mem_map]
          simp only [sch, List.mem_map] at hx
          obtain ⟨m, hm, rfl⟩ := hx
          exact .inl ⟨m, hm, Q.mods m hm⟩
        · rw [upd_ne _ _ e]
          refine Q.conn b sc (fun b' k' hb' hp => ?_) hs x hx
          refine hset b' k' hb' ?_
          simp only []
          have : b' ≠ a := fun e' => e (by rw [← hb', e'])
          rw [upd_ne _ _ this]; exact hp
      · rename_i hok
        have : ok = false := by simpa using hok
        subst this
        exact (hA.2.1 a rfl).elim
    · cases h
  | build a ok =>
    simp only [step] at h
    split at h
    · rename_i k hk
      split at h
      · cases h
        refine ⟨Q.mods, fun b sc hset hs x hx => ?_⟩
        simp only [switchTo] at hset hs ⊢
        have e : C.own b ≠ C.own a := fun e => hset a k e.symm (by simp)
        have := I.lt b
        rw [upd_ne _ _ e] at hs ⊢
        rw [upd_ne _ _ (by omega), upd_ne _ _ (fun e' => e (I.inj _ _ e'))] at hs
        refine Q.conn b sc (fun b' k' hb' hp => hset b' k' hb' ?_) hs x hx
        have : b' ≠ a := fun e' => e (by rw [← hb', e'])
        simp only []
        rw [upd_ne _ _ this]; exact hp
      · cases h
        exact plug_pc Q rfl rfl rfl (keep_sw (by simp [hk]))
    · cases h
  | commit a =>
    obtain ⟨k, ms, new, hk, hc, rfl⟩ := commit_eq h
    have hnew : new = sch ms := change_sch hc (fun m sc e => hA.1.2 a rfl m sc (by rw [hk, e]))
    have hmods : ∀ m ∈ ms, m.plug = P m.name := by
      intro m hm
      rcases change_names hc m hm with h' | ⟨sc, rfl⟩
      · exact Q.mods m h'
      · exact hA.2.2 a rfl m sc hk
    have hset0 : ∀ b, (∀ b' k', C.own b' = C.own b → (unlockWrite C (committed C s a k ms new) a).pc b' ≠ .switched k') →
        Settled C s (C.own b) := by
      intro b hb b' k' hb' hp
      refine hb b' k' hb' ?_
      simp only [unlockWrite, committed, switchTo]
      have : b' ≠ a := fun e => by rw [e, hk] at hp; cases hp
      rw [upd_ne _ _ this]; exact hp
    refine ⟨hmods, fun b sc hset hs x hx => ?_⟩
    have hs0 := hset0 b hset
    simp only [unlockWrite, committed, switchTo] at hs ⊢
    by_cases e : C.own b = C.own a
    · rw [e] at hs ⊢
      simp only [upd_same] at hs ⊢
      cases hs
      rw [hnew] at hx
      simp only [sch, List.mem_map] at hx
      obtain ⟨m, hm, rfl⟩ := hx
      rcases change_names hc m hm with h' | ⟨sc, rfl⟩
      · rw [e] at hs0
        refine List.mem_append.2 (.inr ?_)
        exact Q.conn a _ hs0 (K.sw a (by rw [hk]; trivial)) (m.name, m.rev)
          (by simp only [sch, List.mem_map]; exact ⟨m, h', rfl⟩)
      · simp [newPlugs, hmods m hm]
    · have := I.lt b
      rw [upd_ne _ _ e, upd_ne _ _ e] at hs ⊢
      rw [upd_ne _ _ (by omega), upd_ne _ _ (fun e' => e (I.inj _ _ e'))] at hs
      exact Q.conn b sc hs0 hs x hx
  | failLock a => exact hA.1.1.elim
  | badUnlock a => exact hA.1.1.elim
  | check a =>
    simp only [step] at h
    split at h
    · rename_i k hk
      split at h <;> (cases h; exact plug_pc Q rfl rfl rfl (keep_sw (by simp [hk])))
    · cases h
  | giveUp a =>
    simp only [step] at h
    split at h
    · rename_i k hk
      cases h; exact plug_pc Q rfl rfl rfl (keep_sw (by simp [hk]))
    · rename_i k hk
      cases h; exact plug_pc Q rfl rfl rfl (keep_sw (by simp [hk]))
    · cases h
  | release a =>
    simp only [step] at h
    split at h
    · rename_i k hk
      cases h; exact plug_pc Q rfl rfl rfl (keep_sw (by simp [hk]))
    · cases h
  | lock a =>
    simp only [step] at h
    split at h
    · rename_i hk
      cases h; exact plug_pc Q rfl rfl rfl (keep_sw (by simp [hk]))
    · cases h
  | load a m =>
    simp only [step] at h
    split at h
    · rename_i hk
      cases h; exact plug_pc Q rfl rfl rfl (keep_sw (by simp [hk]))
    · cases h
  | lockRemove a n =>
    simp only [step] at h
    split at h
    · rename_i hk
      cases h; exact plug_pc Q rfl rfl rfl (keep_sw (by simp [hk]))
    · cases h
  | lockInstall a =>
    simp only [step] at h
    split at h
    · rename_i k hk _
      split at h
      · cases h; exact plug_pc Q rfl rfl rfl (keep_sw (by simp_all))
      · cases h
    · cases h
  | remap a =>
    simp only [step] at h
    split at h
    · split at h
      · cases h; exact plug_pc Q rfl rfl rfl (keep_sw (by simp_all))
      · cases h
    · cases h
  | lockW a =>
    simp only [step] at h
    split at h
    · rename_i k hk
      split at h
      · cases h; exact plug_pc Q rfl rfl rfl (keep_sw (by simp [hk]))
      · cases h
    · cases h
  | timeoutW a =>
    simp only [step] at h
    split at h
    · rename_i k hk
      split at h
      · cases h
      · cases h; exact plug_pc Q rfl rfl rfl (keep_sw (by simp [hk]))
    · cases h
  | upgrade a =>
    simp only [step] at h
    split at h
    · rename_i k hk
      split at h
      · cases h; exact plug_pc Q rfl rfl rfl (keep_sw (by simp [hk]))
      · cases h
    · cases h

end

end Verif.CtxLock
