import Verif.JsonStore
import Verif.WritevProps

/-! Properties C33 and C34: startup data survive crashes and failed stores. -/
namespace Verif.JsonStore

open Verif.Writev

/-! ## Invariant of a store -/

/-- What the files hold at every place of a store of `new` over `old`. -/
def Inv (old new : Bytes) (st : Store) : Prop :=
  match st.pc with
  | .stat | .openBck => st.fs = ⟨some old, none⟩
  | .cpFrom | .cpTo => st.fs = ⟨some old, some []⟩
  | .cp s => st.fs = ⟨some old, some s.tgt⟩ ∧ Good old s
  | .openMain | .newOut => st.fs = ⟨some old, some old⟩
  | .print p => p ≤ new.length ∧ st.fs = ⟨some (new.take p ++ old.drop p), some old⟩
  | .trunc => st.fs = ⟨some (new ++ old.drop new.length), some old⟩
  | .clean none b => b = true ∧ st.fs = ⟨some new, some old⟩
  | .clean (some c) b =>
    if c = .print ∨ c = .trunc then b = true ∧ st.fs.bck = some old ∧ st.fs.main.isSome
    else st.fs.main = some old ∧ (b = false → st.fs.bck = none)
  | .done none u => st.fs = ⟨some new, if u then some old else none⟩
  | .done (some c) u =>
    if c = .print ∨ c = .trunc then u = true → st.fs.bck = some old ∧ st.fs.main.isSome
    else st.fs.main = some old ∧ (u = false → st.fs.bck = none)

theorem take_overwrite (old new : Bytes) (p n : Nat) (hp : p ≤ new.length) :
    overwrite (new.take p ++ old.drop p) p ((new.drop p).take n) =
      new.take (p + ((new.drop p).take n).length) ++ old.drop (p + ((new.drop p).take n).length) := by
  have hl : (new.take p).length = p := by rw [List.length_take]; omega
  simp only [overwrite]
  rw [List.take_append_of_le_length (by omega), List.take_of_length_le (by omega)]
  rw [List.drop_append, hl]
  have h1 : (new.take p).drop (p + ((new.drop p).take n).length) = [] :=
    List.drop_eq_nil_of_le (by omega)
  rw [h1, List.nil_append, List.drop_drop]
  congr 1
  · rw [List.take_add]
    congr 1
    rw [List.length_take, List.length_drop]
    by_cases hn : n ≤ new.length - p
    · rw [Nat.min_eq_left hn]
    · rw [Nat.min_eq_right (by omega), List.take_of_length_le (by simp; omega),
        List.take_of_length_le (by simp)]
  · congr 1; omega

theorem Inv.step {old new : Bytes} {st : Store} (h : Inv old new st) (k : KCall) :
    Inv old new (storeStep new st k) := by
  obtain ⟨fs, pc⟩ := st
  cases pc with
  | stat =>
    simp only [Inv] at h; subst h
    cases hk : good k <;> simp [storeStep, hk, Inv]
  | openBck =>
    simp only [Inv] at h; subst h
    cases hk : good k <;> simp [storeStep, hk, Inv]
  | cpFrom =>
    simp only [Inv] at h; subst h
    cases hk : good k <;> simp [storeStep, hk, Inv]
  | cpTo =>
    simp only [Inv] at h; subst h
    cases hk : good k <;> simp [storeStep, hk, Inv]
    exact good_init old
  | cp s =>
    simp only [Inv] at h
    obtain ⟨rfl, hg⟩ := h
    obtain ⟨h1, h2, h3⟩ := hg.step k
    cases hc : cpStep s k with
    | running s' => simp [storeStep, hc, Inv]; exact h1 s' hc
    | ok t =>
      have ht := h2 t hc
      have hst : s.tgt = t := by
        revert hc
        unfold cpStep
        split
        · cases k <;> simp only <;> (try (intro h; cases h))
          split
          · intro h; cases h; rfl
          · intro h; cases h
        · cases k <;> simp
      simp [storeStep, hc, Inv, hst, ht]
    | err t => simp [storeStep, hc, Inv]
  | openMain =>
    simp only [Inv] at h; subst h
    cases hk : good k <;> simp [storeStep, hk, Inv]
  | newOut =>
    simp only [Inv] at h; subst h
    cases hk : good k <;> simp [storeStep, hk, Inv]
  | print p =>
    simp only [Inv] at h
    obtain ⟨hp, rfl⟩ := h
    cases k with
    | amount n =>
      have ht := take_overwrite old new p n hp
      have hle : p + ((new.drop p).take n).length ≤ new.length := by
        rw [List.length_take, List.length_drop]; omega
      simp only [storeStep, Option.map_some]
      rw [ht]
      generalize p + ((new.drop p).take n).length = q at *
      by_cases hq : q = new.length
      · subst hq; simp [Inv]
      · simp [Inv, hq, hle]
    | eintr => simp [storeStep, Inv]
    | fail => simp [storeStep, Inv]
  | trunc =>
    simp only [Inv] at h; subst h
    cases hk : good k <;> simp [storeStep, hk, Inv]
  | clean e b =>
    cases e with
    | none =>
      simp only [Inv] at h
      obtain ⟨rfl, rfl⟩ := h
      cases hk : good k <;> simp [storeStep, hk, Inv]
    | some c =>
      simp only [Inv] at h
      by_cases hc : c = .print ∨ c = .trunc
      · rw [if_pos hc] at h
        obtain ⟨rfl, hb, hm⟩ := h
        cases hk : good k <;> simp [storeStep, hk, Inv, hc, hb, hm]
      · rw [if_neg hc] at h
        obtain ⟨hm, hb⟩ := h
        cases b
        · cases hk : good k <;> simp [storeStep, Inv, hc, hm, hb]
        · cases hk : good k <;> simp [storeStep, hk, Inv, hc, hm]
  | done e u => exact h

theorem Inv.run {old new : Bytes} (ks : List KCall) {st : Store} (h : Inv old new st) :
    Inv old new (storeRun new st ks) := by
  induction ks generalizing st with
  | nil => exact h
  | cons k ks ih => exact ih (h.step k)

/-! ## Loading -/

/-- What is known of the files before, while and after loading when the content to be loaded is
`c`: the backup is complete, or there is none and the file is `c`. -/
def LInv (c : Bytes) (l : Load) : Prop :=
  match l.pc with
  | .check | .failed => (l.fs.bck = none ∧ l.fs.main = some c) ∨ (l.fs.bck = some c ∧ l.fs.main.isSome)
  | .cpFrom | .cpTo => l.fs.bck = some c ∧ l.fs.main.isSome
  | .cp s => l.fs = ⟨some s.tgt, some c⟩ ∧ Good c s
  | .unlink => l.fs = ⟨some c, some c⟩
  | .read => l.fs = ⟨some c, none⟩
  | .done d => d = c ∧ l.fs = ⟨some c, none⟩

theorem LInv.step {c : Bytes} {l : Load} (h : LInv c l) (k : KCall) : LInv c (loadStep l k) := by
  obtain ⟨⟨main, bck⟩, pc⟩ := l
  cases pc with
  | check =>
    simp only [LInv] at h
    rcases h with ⟨rfl, rfl⟩ | ⟨rfl, hm⟩
    · simp [loadStep, LInv]
    · simp [loadStep, LInv, hm]
  | cpFrom =>
    simp only [LInv] at h
    cases hk : good k <;> simp [loadStep, hk, LInv, h]
  | cpTo =>
    simp only [LInv] at h
    obtain ⟨rfl, hm⟩ := h
    cases main with
    | none => simp at hm
    | some m =>
      cases hk : good k <;> simp [loadStep, hk, LInv]
      exact good_init c
  | cp s =>
    simp only [LInv] at h
    obtain ⟨hfs, hg⟩ := h
    cases hfs
    obtain ⟨h1, h2, h3⟩ := hg.step k
    cases hc : cpStep s k with
    | running s' => simp [loadStep, hc, LInv]; exact h1 s' hc
    | ok t =>
      have ht := h2 t hc
      have hst : s.tgt = t := by
        revert hc
        unfold cpStep
        split
        · cases k <;> simp only <;> (try (intro h; cases h))
          split
          · intro h; cases h; rfl
          · intro h; cases h
        · cases k <;> simp
      simp [loadStep, hc, LInv, hst, ht]
    | err t => simp [loadStep, hc, LInv]
  | unlink =>
    simp only [LInv] at h
    cases h
    cases hk : good k <;> simp [loadStep, hk, LInv]
  | read =>
    simp only [LInv] at h
    cases h
    cases hk : good k <;> simp [loadStep, hk, LInv]
  | done d => exact h
  | failed => exact h

theorem LInv.run {c : Bytes} (ks : List KCall) {l : Load} (h : LInv c l) : LInv c (loadRun l ks) := by
  induction ks generalizing l with
  | nil => exact h
  | cons k ks ih => exact ih (h.step k)

/-- The files from which `c` will be loaded. -/
def Holds (c : Bytes) (fs : FS) : Prop :=
  (fs.bck = none ∧ fs.main = some c) ∨ (fs.bck = some c ∧ fs.main.isSome)

theorem LInv.holds {c : Bytes} {l : Load} (h : LInv c l) : Holds c l.fs := by
  obtain ⟨fs, pc⟩ := l
  cases pc <;> simp only [LInv] at h
  case check => exact h
  case failed => exact h
  case cpFrom => exact Or.inr h
  case cpTo => exact Or.inr h
  case cp s => obtain ⟨rfl, _⟩ := h; exact Or.inr ⟨rfl, rfl⟩
  case unlink => subst h; exact Or.inr ⟨rfl, rfl⟩
  case read => subst h; exact Or.inl ⟨rfl, rfl⟩
  case done d => obtain ⟨_, rfl⟩ := h; exact Or.inl ⟨rfl, rfl⟩

theorem holds_load {c : Bytes} {fs : FS} (h : Holds c fs) (ks : List KCall) :
    Holds c (load fs ks).fs := (LInv.run ks (l := ⟨fs, .check⟩) h).holds

theorem holds_loads {c : Bytes} (kss : List (List KCall)) {fs : FS} (h : Holds c fs) :
    Holds c (loads fs kss) := by
  induction kss generalizing fs with
  | nil => exact h
  | cons ks kss ih => exact ih (holds_load h ks)

theorem loaded_eq {c d : Bytes} {fs : FS} (h : Holds c fs) (ks : List KCall)
    (hd : (load fs ks).pc = .done d) : d = c := by
  have := LInv.run ks (l := ⟨fs, .check⟩) h
  rw [show loadRun ⟨fs, .check⟩ ks = load fs ks from rfl] at this
  unfold LInv at this
  rw [hd] at this
  exact this.1

/-! ## C33 -/

/-- The files before a store: the content is `old`, there is no backup. -/
def stored (old : Bytes) : FS := ⟨some old, none⟩

/-- C33 (partial): the process dies at any moment of storing `new` over `old` (after any calls
`ks`, including failed ones, but before the store has returned an error). If at that moment the
backup does not exist or is complete, then whatever loads are interrupted afterwards, a load that
finishes returns the complete old or the complete new content.
Missing: a crash while the backup is being made (`crash_in_backup_loses_data`). -/
theorem crash_safe_partial (old new : Bytes) (ks : List KCall) (kss : List (List KCall))
    (kl : List KCall) (c : Bytes)
    (hret : ∀ e u, (store new (stored old) ks).pc ≠ .done (some e) u)
    (hbck : (store new (stored old) ks).fs.bck = none ∨ (store new (stored old) ks).fs.bck = some old)
    (hload : (load (loads (store new (stored old) ks).fs kss) kl).pc = .done c) :
    c = old ∨ c = new := by
  have hinv : Inv old new (store new (stored old) ks) :=
    Inv.run ks (st := ⟨stored old, .stat⟩) rfl
  generalize store new (stored old) ks = st at *
  have : Holds old st.fs ∨ Holds new st.fs := by
    obtain ⟨⟨main, bck⟩, pc⟩ := st
    simp only at hbck hret
    cases pc <;> simp only [Inv] at hinv
    case stat => cases hinv; exact Or.inl (Or.inl ⟨rfl, rfl⟩)
    case openBck => cases hinv; exact Or.inl (Or.inl ⟨rfl, rfl⟩)
    case cpFrom =>
      cases hinv
      rcases hbck with h | h
      · cases h
      · exact Or.inl (Or.inr ⟨h, rfl⟩)
    case cpTo =>
      cases hinv
      rcases hbck with h | h
      · cases h
      · exact Or.inl (Or.inr ⟨h, rfl⟩)
    case cp s =>
      obtain ⟨hfs, _⟩ := hinv
      cases hfs
      rcases hbck with h | h
      · cases h
      · exact Or.inl (Or.inr ⟨h, rfl⟩)
    case openMain => cases hinv; exact Or.inl (Or.inr ⟨rfl, rfl⟩)
    case newOut => cases hinv; exact Or.inl (Or.inr ⟨rfl, rfl⟩)
    case print p => obtain ⟨_, h⟩ := hinv; cases h; exact Or.inl (Or.inr ⟨rfl, rfl⟩)
    case trunc => cases hinv; exact Or.inl (Or.inr ⟨rfl, rfl⟩)
    case clean e b =>
      cases e with
      | none => obtain ⟨_, h⟩ := hinv; cases h; exact Or.inl (Or.inr ⟨rfl, rfl⟩)
      | some cc =>
        by_cases hc : cc = .print ∨ cc = .trunc
        · replace hinv : b = true ∧ bck = some old ∧ main.isSome := by
            simpa only [Inv, if_pos hc] using hinv
          exact Or.inl (Or.inr ⟨hinv.2.1, hinv.2.2⟩)
        · replace hinv : main = some old ∧ (b = false → bck = none) := by
            simpa only [Inv, if_neg hc] using hinv
          obtain ⟨hm, _⟩ := hinv
          rcases hbck with h | h
          · exact Or.inl (Or.inl ⟨h, hm⟩)
          · exact Or.inl (Or.inr ⟨h, by simp [hm]⟩)
    case done e u =>
      cases e with
      | none =>
        cases hinv
        cases u
        · exact Or.inr (Or.inl ⟨rfl, rfl⟩)
        · exact Or.inl (Or.inr ⟨rfl, rfl⟩)
      | some cc => exact absurd rfl (hret cc u)
  rcases this with h | h
  · exact Or.inl (loaded_eq (holds_loads kss h) kl hload)
  · exact Or.inr (loaded_eq (holds_loads kss h) kl hload)

/-- C33: while the backup is incomplete, the file itself still holds the old content; so only the
preference of the load for the backup loses the data. -/
theorem backup_incomplete_main_intact (old new : Bytes) (ks : List KCall)
    (hret : ∀ e u, (store new (stored old) ks).pc ≠ .done e u)
    (hbck : (store new (stored old) ks).fs.bck ≠ some old) :
    (store new (stored old) ks).fs.main = some old := by
  have hinv : Inv old new (store new (stored old) ks) :=
    Inv.run ks (st := ⟨stored old, .stat⟩) rfl
  generalize store new (stored old) ks = st at *
  obtain ⟨⟨main, bck⟩, pc⟩ := st
  simp only at hbck hret
  cases pc <;> simp only [Inv] at hinv
  case stat => cases hinv; rfl
  case openBck => cases hinv; rfl
  case cpFrom => cases hinv; rfl
  case cpTo => cases hinv; rfl
  case cp s => obtain ⟨hfs, _⟩ := hinv; cases hfs; rfl
  case openMain => cases hinv; rfl
  case newOut => cases hinv; rfl
  case print p => obtain ⟨_, h⟩ := hinv; cases h; exact absurd rfl hbck
  case trunc => cases hinv; exact absurd rfl hbck
  case clean e b =>
    cases e with
    | none => obtain ⟨_, h⟩ := hinv; cases h; exact absurd rfl hbck
    | some cc =>
      simp only at hinv
      split at hinv
      · exact absurd hinv.2.1 hbck
      · exact hinv.1
  case done e u => exact absurd rfl (hret e u)

/-- C33, finding: a crash right after the backup file was created makes the next load return an
empty file; both the old and the new content are lost. This happens for every content. -/
theorem crash_in_backup_loses_data (old new : Bytes) :
    ∃ ks kl, (∀ k ∈ ks, k = .amount 0) ∧
      (load (store new (stored old) ks).fs kl).pc = .done [] ∧
      (load (store new (stored old) ks).fs kl).fs = ⟨some [], none⟩ := by
  refine ⟨[.amount 0, .amount 0], List.replicate 6 (.amount 0), by simp, ?_, ?_⟩ <;>
    simp [store, storeRun, storeStep, good, stored, load, loadRun, loadStep, List.replicate, cpStep]

/-- C33: a successful store is loaded. -/
theorem store_then_load (old new : Bytes) (ks : List KCall) (kss : List (List KCall))
    (kl : List KCall) (c : Bytes)
    (hret : (store new (stored old) ks).pc = .done none false)
    (hload : (load (loads (store new (stored old) ks).fs kss) kl).pc = .done c) : c = new := by
  have hinv : Inv old new (store new (stored old) ks) :=
    Inv.run ks (st := ⟨stored old, .stat⟩) rfl
  simp only [Inv, hret] at hinv
  have : Holds new (store new (stored old) ks).fs := by rw [hinv]; exact Or.inl ⟨rfl, rfl⟩
  exact loaded_eq (holds_loads kss this) kl hload

/-! ## C34 -/

/-- C34 (partial): a store that returned an error of any call except printing and truncating, and
that could remove the backup, changes nothing: the old content is loaded.
Missing: failures of printing or truncating (`failed_print_corrupts`) and of a copy together with
the removal of the backup (`failed_copy_and_unlink`). -/
theorem failed_store_keeps_partial (old new : Bytes) (ks : List KCall) (kss : List (List KCall))
    (kl : List KCall) (c : Bytes) (e : Call)
    (hret : (store new (stored old) ks).pc = .done (some e) false)
    (he : e ≠ .print ∧ e ≠ .trunc)
    (hload : (load (loads (store new (stored old) ks).fs kss) kl).pc = .done c) : c = old := by
  have hinv : Inv old new (store new (stored old) ks) :=
    Inv.run ks (st := ⟨stored old, .stat⟩) rfl
  simp only [Inv, hret] at hinv
  rw [if_neg (by simp [he])] at hinv
  have : Holds old (store new (stored old) ks).fs := Or.inl ⟨hinv.2 trivial, hinv.1⟩
  exact loaded_eq (holds_loads kss this) kl hload

/-- C34: if only the removal of the backup failed, the store returns an error and the old content
is loaded. -/
theorem failed_unlink_keeps (old new : Bytes) (ks : List KCall) (kss : List (List KCall))
    (kl : List KCall) (c : Bytes)
    (hret : (store new (stored old) ks).pc = .done none true)
    (hload : (load (loads (store new (stored old) ks).fs kss) kl).pc = .done c) : c = old := by
  have hinv : Inv old new (store new (stored old) ks) :=
    Inv.run ks (st := ⟨stored old, .stat⟩) rfl
  simp only [Inv, hret] at hinv
  have : Holds old (store new (stored old) ks).fs := by rw [hinv]; exact Or.inr ⟨rfl, rfl⟩
  exact loaded_eq (holds_loads kss this) kl hload

/-- Outcomes of the calls until printing starts, for a file of three bytes. -/
def upToPrint : List KCall :=
  [.amount 0, .amount 0, .amount 0, .amount 0,   -- stat, backup, open, open
   .amount 9, .amount 9, .amount 0,              -- read, write, end of file
   .amount 0, .amount 0]                         -- open, out handler

/-- C34, finding: when writing fails (a full disk) after some bytes, the backup is removed and the
file is left with a mixture of both contents. -/
theorem failed_print_corrupts :
    store [7, 8, 9, 10] (stored [1, 2, 3]) (upToPrint ++ [.amount 2, .fail, .amount 0])
      = ⟨⟨some [7, 8, 3], none⟩, .done (some .print) false⟩ := by decide

/-- C34, finding: also when truncating fails. -/
theorem failed_trunc_corrupts :
    store [7] (stored [1, 2, 3]) (upToPrint ++ [.amount 2, .fail, .amount 0])
      = ⟨⟨some [7, 2, 3], none⟩, .done (some .trunc) false⟩ := by decide

/-- C34, finding: when neither the copy nor the removal of the backup works, the next load
restores a part of the old content. -/
theorem failed_copy_and_unlink :
    ∃ kl, (load (store [7] (stored [1, 2, 3])
        [.amount 0, .amount 0, .amount 0, .amount 0, .amount 9, .amount 1, .fail, .fail]).fs kl).pc
      = .done [1] := ⟨[.amount 0, .amount 0, .amount 0, .amount 0, .amount 9, .amount 0, .amount 0, .amount 0], by decide⟩

/-- A crash in the middle of printing: the next load, interrupted once, returns the old content. -/
example : (load (loads (store [7, 8, 9, 10] (stored [1, 2, 3]) (upToPrint ++ [.amount 2])).fs
      [[.amount 0, .amount 0, .amount 0, .amount 9, .amount 1]])
    [.amount 0, .amount 0, .amount 0, .amount 9, .amount 9, .amount 0, .amount 0, .amount 0]).pc
    = .done [1, 2, 3] := by decide
example : (store [7, 8, 9, 10] (stored [1, 2, 3]) (upToPrint ++ [.amount 2])).fs
    = ⟨some [7, 8, 3], some [1, 2, 3]⟩ := by decide
/-- A complete store and load. -/
example : (store [7, 8, 9, 10] (stored [1, 2, 3]) (upToPrint ++ [.amount 2, .amount 9, .amount 0, .amount 0]))
    = ⟨⟨some [7, 8, 9, 10], none⟩, .done none false⟩ := by decide
/-- A store failing to open the file. -/
example : store [7] (stored [1, 2, 3]) (upToPrint.take 7 ++ [.fail, .amount 0])
    = ⟨stored [1, 2, 3], .done (some .openMain) false⟩ := by decide
/-- A store failing to remove the backup. -/
example : store [7] (stored [1, 2, 3]) (upToPrint ++ [.amount 2, .amount 2, .fail])
    = ⟨⟨some [7], some [1, 2, 3]⟩, .done none true⟩ := by decide

end Verif.JsonStore
