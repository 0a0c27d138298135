/-!
Model of how API calls take the data locks of modules: modinfo.c 2921-2936 (`sr_modinfo_qsort_cmp`), 3033-3117
(`sr_modinfo_consolidate`), shm_mod.c 1297-1404 (`sr_shmmod_lock`), 1415-1600 (`sr_shmmod_modinfo_lock`, `rdlock`, `wrlock`,
`rdlock_upgrade`, `wrlock_downgrade`, `unlock`) and their callers in sysrepo.c and modinfo.c.

Every lock is the read-write lock of `Verif.RWLock`; here only its blocking rules are used (see `conflicts`).
Simplifications: at most 15 calls read one module at a time (the limit of 16 reader slots is never hit), a call is
identified with its own entry in the lock, waiting for the DS lock (which holds no data lock of that module while
sleeping) is not modelled, neither are the other locks of sysrepo (context, subscriptions).
-/
namespace Verif.LockOrder

/-- Datastores, sysrepo_types.h. -/
inductive Ds where
  | startup | candidate | operational | factory | running
deriving DecidableEq

/-- Position of a datastore in the order in which one call locks: the secondary datastore is always running
(`SR_MODINFO_INIT`, common.h 192, and its uses, e.g. sysrepo.c 2759, 4528). -/
def Ds.rank : Ds → Nat
  | .startup => 0 | .candidate => 1 | .operational => 2 | .factory => 3 | .running => 4

-- A data lock: module (its offset in the mod SHM) and datastore, `data_lock_info[ds]`, shm_types.h.
local notation "Key" => Nat

/-- Lock of a module in a datastore. -/
def key (d : Ds) (m : Nat) : Key := d.rank * 4294967296 + m

/-- `sr_lock_mode_t`; WRITE_URGE is the only write mode used for the data locks. -/
inductive Mode where
  | read | upgr | write
deriving DecidableEq

/-- `sr_modinfo_add`, modinfo.c 52-110: a module is added once. -/
def collect : List Nat → List Nat
  | [] => []
  | m :: t => if m ∈ t then collect t else m :: collect t

/-- Insertion of the sort. -/
def insert (m : Nat) : List Nat → List Nat
  | [] => [m]
  | x :: t => if m ≤ x then m :: x :: t else x :: insert m t

/-- `qsort` with `sr_modinfo_qsort_cmp`, modinfo.c 2921-2936 and 3083. -/
def sort : List Nat → List Nat
  | [] => []
  | m :: t => insert m (sort t)

/-- Schema dependencies of the modules and the inverse ones, as stored in the mod SHM (`deps`, `inv_deps`). -/
structure Schema where
  deps : Nat → List Nat
  inv : Nat → List Nat

/-- API calls, by the way they lock.
* `get`: sr_get_data and the like, sysrepo.c 2759-2775 (also RPC and notification data),
* `apply`: sr_apply_changes and the like, sysrepo.c 4262-4283, 4028; `need` are the modules that its data really need
  for validation (`sr_modinfo_collect_deps`, modinfo.c 376-397),
* `direct`: sr_lock and sr_unlock, sysrepo.c 4914-4941, sr_copy_config from candidate, sysrepo.c 4530-4576, and
  `discard` (copy running to candidate), sysrepo.c 4528-4563,
* `validate`: sr_validate, sysrepo.c 3847-3930,
* `update`: sr_apply_changes whose update callback has changed also other modules `more`, modinfo.c 3550-3562. -/
inductive Call where
  | get (d : Ds) (mods : List Nat)
  | apply (d : Ds) (edited : List Nat) (need : Nat → Bool)
  | direct (d : Ds) (mods : List Nat)
  | discard (mods : List Nat)
  | validate (d : Ds) (edited : List Nat) (need : Nat → Bool)
  | update (d : Ds) (edited more : List Nat)

/-- Modules with inverse dependencies: `SR_MI_INV_DEPS`, modinfo.c 3062-3071. -/
def withInv (S : Schema) (edited : List Nat) : List Nat := edited ++ edited.flatMap S.inv

/-- Datastores whose changes are validated when applied (so that dependencies are needed): sysrepo.c 4022-4030 and
4276-4279, modinfo.c 3555-3557. -/
def Ds.checked : Ds → Bool
  | .startup | .running => true
  | _ => false

/-- Modules of the first consolidation. -/
def Call.mods (S : Schema) : Call → List Nat
  | .get _ ms => ms
  | .apply d e _ => if d.checked then withInv S e else e
  | .direct _ ms => ms
  | .discard ms => ms
  | .validate _ e _ => withInv S e
  | .update d e _ => if d.checked then withInv S e else e

/-- Main datastore. -/
def Call.ds : Call → Ds
  | .get d _ => d
  | .apply d _ _ => d
  | .direct d _ => d
  | .discard _ => .candidate
  | .validate d _ _ => d
  | .update d _ _ => d

/-- Whether running is locked, too: `mod_info->ds2`. -/
def Call.second : Call → Bool
  | .get d _ => d == .operational
  | .discard _ => true
  | .validate d _ _ => d == .operational
  | _ => false

/-- Lock mode of the main datastore. -/
def Call.mode : Call → Mode
  | .get _ _ => .read
  | .apply _ _ _ => .upgr
  | .direct _ _ => .write
  | .discard _ => .write
  | .validate _ _ _ => .read
  | .update _ _ _ => .upgr

/-- `sr_shmmod_modinfo_lock` for both datastores, shm_mod.c 1415-1498: sorted modules of the main datastore, then of
the secondary one. -/
def lockList (c : Call) (m : Mode) (mods : List Nat) : List (Key × Mode) :=
  mods.map (fun x => (key c.ds x, m)) ++ if c.second then mods.map (fun x => (key .running x, .read)) else []

/-- Locks taken by the first consolidation. -/
def plan1 (S : Schema) (c : Call) : List (Key × Mode) := lockList c c.mode (sort (collect (c.mods S)))

/-- Modules added by the second consolidation: needed dependencies of the modules (`SR_MI_NEW_DEPS`), or modules of the
updated edit with their inverse dependencies. -/
def Call.more (S : Schema) : Call → List Nat
  | .apply d e need => if d.checked then ((Call.apply d e need).mods S).flatMap fun x => (S.deps x).filter need else []
  | .validate d e need => ((Call.validate d e need).mods S).flatMap fun x => (S.deps x).filter need
  | .update d _ m => if d.checked then withInv S m else m
  | _ => []

/-- Mode of the second consolidation. -/
def Call.mode2 : Call → Mode
  | .update _ _ _ => .upgr
  | _ => .read

/-- Locks taken by the second consolidation: modules that are already locked are skipped, shm_mod.c 1428-1439. -/
def plan2 (S : Schema) (c : Call) : List (Key × Mode) :=
  lockList c c.mode2 ((sort (collect (c.mods S ++ c.more S))).filter fun m => !(c.mods S).contains m)

/-- Locks upgraded for storing the changes, in the same order: only modules to be changed (`MOD_INFO_REQ`),
`sr_shmmod_modinfo_rdlock_upgrade`, shm_mod.c 1500-1530. -/
def planUp (S : Schema) : Call → List Key
  | .apply d e need => ((sort (collect ((Call.apply d e need).mods S))).filter fun m => e.contains m).map (key d)
  | .update d e m =>
    ((sort (collect ((Call.update d e m).mods S ++ (Call.update d e m).more S))).filter fun x => (e ++ m).contains x).map (key d)
  | _ => []

/-- Where a call is: in its first or second consolidation, upgrading, or not taking locks any more. -/
inductive Phase where
  | first | second | up | finished
deriving DecidableEq

/-- A running call. `held` are the lock bits of its modules, `mark` the lock with the writer mark of a pending
WRITE_URGE request of this call. -/
structure Run where
  call : Call
  phase : Phase
  todo : List (Key × Mode)
  ups : List Key
  held : Key → Option Mode
  mark : Option Key

/-- A lock operation. -/
inductive Op where
  | acq (k : Key) (m : Mode)
  | upg (k : Key)
deriving DecidableEq

/-- Lock of an operation. -/
def Op.key : Op → Key
  | .acq k _ => k
  | .upg k => k

/-- The lock operation a call is in, if any. -/
def Run.cur (x : Run) : Option Op :=
  match x.phase with
  | .first | .second => x.todo.head?.map fun (k, m) => .acq k m
  | .up => x.ups.head?.map .upg
  | .finished => none

/-- Wait conditions of `sr_sub_rwlock` and `sr_rwrelock` (`RWLock.busy`, `RWLock.busyUp`): whether the other call `q`
makes the operation wait. A writer or a pending urgent writer blocks all, a holder of READ_UPGR blocks another
READ_UPGR, any holder blocks a writer. -/
def conflicts (o : Op) (q : Run) : Bool :=
  q.mark == some o.key ||
  match o with
  | .acq k .read => q.held k == some .write
  | .acq k .upgr => q.held k == some .write || q.held k == some .upgr
  | .acq k .write => (q.held k).isSome
  | .upg k => (q.held k).isSome

/-- Whether an operation wants the WRITE lock. -/
def Op.wantsWrite : Op → Bool
  | .acq _ .write => true
  | .upg _ => true
  | _ => false

/-- All the calls; `none` is a thread that is in no call. -/
abbrev State := List (Option Run)

/-- No thread is in a call. -/
def init (n : Nat) : State := List.replicate n none

/-- Call `r` waits for call `q`. -/
def waits (s : State) (r q : Nat) : Bool :=
  r != q &&
  match s[r]?, s[q]? with
  | some (some x), some (some y) => match x.cur with | some o => conflicts o y | none => false
  | _, _ => false

/-- Whether a call waits for any other. -/
def blocked (s : State) (r : Nat) : Bool := (List.range s.length).any fun q => waits s r q

/-- Whether another call has its mark in the lock. -/
def otherMark (s : State) (r : Nat) (k : Key) : Bool :=
  (List.range s.length).any fun q => r != q && match s[q]? with | some (some y) => y.mark == some k | _ => false

/-- Start of a call, all the modules are collected and sorted. -/
def begin (S : Schema) (c : Call) : Run := ⟨c, .first, plan1 S c, [], fun _ => none, none⟩

/-- Function update. -/
def upd (f : Key → Option Mode) (k : Key) (m : Mode) : Key → Option Mode := fun i => if i = k then some m else f i

/-- A lock is granted. -/
def grant (x : Run) : Run :=
  match x.phase with
  | .first | .second =>
    match x.todo with
    | (k, m) :: t => { x with todo := t, held := upd x.held k m, mark := none }
    | [] => x
  | .up =>
    match x.ups with
    | k :: t => { x with ups := t, held := upd x.held k .write, mark := none }
    | [] => x
  | .finished => x

inductive Act where
  /-- the API function is called -/
  | start (c : Call)
  /-- the next lock operation is tried, also when woken up -/
  | lock
  /-- next part of the call -/
  | next
  /-- one module is downgraded to READ (`sr_shmmod_modinfo_wrlock_downgrade`, shm_mod.c 1533-1561); never waits -/
  | down (k : Key)
  /-- all the locks are released: the call is finished, or failed (also by a time-out) -/
  | release

/-- One step of thread `r`. -/
def step (S : Schema) (s : State) (r : Nat) : Act → Option State
  | .start c =>
    match s[r]? with
    | some none => some (s.set r (some (begin S c)))
    | _ => none
  | .lock =>
    match s[r]? with
    | some (some x) =>
      match x.cur with
      | none => none
      | some o =>
        if blocked s r then
          -- WRITE_URGE announces itself unless another writer did, common.c 2448-2457 and 2700-2709
          if o.wantsWrite ∧ ¬ otherMark s r o.key then some (s.set r (some { x with mark := some o.key })) else some s
        else some (s.set r (some (grant x)))
    | _ => none
  | .next =>
    match s[r]? with
    | some (some x) =>
      match x.phase with
      | .first => if x.todo = [] then some (s.set r (some { x with phase := .second, todo := plan2 S x.call })) else none
      | .second => if x.todo = [] then some (s.set r (some { x with phase := .up, ups := planUp S x.call })) else none
      | .up => if x.ups = [] then some (s.set r (some { x with phase := .finished })) else none
      | .finished => none
    | _ => none
  | .down k =>
    match s[r]? with
    | some (some x) =>
      if x.phase = .finished ∧ (x.held k).isSome then some (s.set r (some { x with held := upd x.held k .read })) else none
    | _ => none
  | .release =>
    match s[r]? with
    | some (some _) => some (s.set r none)
    | _ => none

/-- States reachable with `n` threads when only calls allowed by `P` are made. -/
inductive Reach (S : Schema) (P : Call → Prop) (n : Nat) : State → Prop
  | init : Reach S P n (init n)
  | step {s s' : State} {r : Nat} {a : Act} : Reach S P n s → (∀ c, a = .start c → P c) → step S s r a = some s' → Reach S P n s'

/-! ## Specification -/

/-- Chain of calls each waiting for the next one. -/
inductive Chain (s : State) : Nat → Nat → Prop
  | one {r q : Nat} : waits s r q = true → Chain s r q
  | more {r q p : Nat} : waits s r q = true → Chain s q p → Chain s r p

/-- There are calls waiting for each other in a cycle: each of them waits until a time-out. -/
def Deadlock (s : State) : Prop := ∃ r, Chain s r r

/-- The inverse dependencies stored in SHM are complete. -/
def Schema.Complete (S : Schema) : Prop := ∀ x y, y ∈ S.deps x → x ∈ S.inv y

/-- Assumed discipline of the calls: a datastore is changed either only by `apply` (then it is in `A`) or only by `direct`
and `discard`; `validate` and `update` are not called; offsets of modules are below 4 GiB. -/
def Disciplined (S : Schema) (A : Ds → Bool) (c : Call) : Prop :=
  (∀ m, m ∈ c.mods S ∨ m ∈ c.more S → m < 4294967296) ∧
  match c with
  | .get _ _ => True
  | .apply d _ _ => A d = true
  | .direct d _ => A d = false
  | .discard _ => A .candidate = false
  | .validate _ _ _ => False
  | .update _ _ _ => False

/-! ## Lemmas -/

theorem mem_collect {m : Nat} {l : List Nat} : m ∈ collect l ↔ m ∈ l := by
  induction l with
  | nil => simp [collect]
  | cons x t ih => simp only [collect]; split <;> grind

theorem nodup_collect (l : List Nat) : (collect l).Nodup := by
  induction l with
  | nil => simp [collect]
  | cons x t ih =>
    simp only [collect]; split
    · exact ih
    · exact List.nodup_cons.2 ⟨by rw [mem_collect]; assumption, ih⟩

theorem mem_insert {m x : Nat} {l : List Nat} : x ∈ insert m l ↔ x = m ∨ x ∈ l := by
  induction l with
  | nil => simp [insert]
  | cons y t ih => simp only [insert]; split <;> grind

theorem mem_sort {x : Nat} {l : List Nat} : x ∈ sort l ↔ x ∈ l := by
  induction l with
  | nil => simp [sort]
  | cons y t ih => simp only [sort, mem_insert, ih]; grind

theorem insert_sorted {m : Nat} {l : List Nat} (h : l.Pairwise (· < ·)) (hm : m ∉ l) : (insert m l).Pairwise (· < ·) := by
  induction l with
  | nil => simp [insert]
  | cons y t ih =>
    simp only [insert]
    have h' := List.pairwise_cons.1 h
    split
    · rename_i hle
      refine List.pairwise_cons.2 ⟨fun a ha => ?_, h⟩
      rcases List.mem_cons.1 ha with rfl | ha
      · have : m ≠ a := fun e => hm (by simp [e])
        omega
      · have := h'.1 a ha; omega
    · refine List.pairwise_cons.2 ⟨fun a ha => ?_, ih h'.2 (fun e => hm (by simp [e]))⟩
      rcases mem_insert.1 ha with rfl | ha
      · omega
      · exact h'.1 a ha

theorem sort_sorted {l : List Nat} (h : l.Nodup) : (sort l).Pairwise (· < ·) := by
  induction l with
  | nil => simp [sort]
  | cons y t ih =>
    have h' := List.nodup_cons.1 h
    exact insert_sorted (ih h'.2) (by rw [mem_sort]; exact h'.1)

/-- Locks in increasing order. -/
abbrev Inc (l : List (Key × Mode)) : Prop := l.Pairwise (fun a b => a.1 < b.1)

theorem lockList_inc {c : Call} {m : Mode} {l : List Nat} (h : l.Pairwise (· < ·)) (hb : ∀ x ∈ l, x < 4294967296)
    (hs : c.second = true → c.ds.rank < 4) : Inc (lockList c m l) := by
  unfold lockList
  refine List.pairwise_append.2 ⟨?_, ?_, ?_⟩
  · rw [List.pairwise_map]
    exact h.imp fun {a b} hab => by simp only [key]; omega
  · split
    · rw [List.pairwise_map]
      exact h.imp fun {a b} hab => by simp only [key]; omega
    · simp
  · intro a ha b hb'
    split at hb'
    · rename_i hsec
      simp only [List.mem_map] at ha hb'
      obtain ⟨x, hx, rfl⟩ := ha
      obtain ⟨y, hy, rfl⟩ := hb'
      have := hs hsec
      have := hb x hx
      simp only [key, Ds.rank] at *
      omega
    · simp at hb'

theorem key_inj {d d' : Ds} {m m' : Nat} (h : key d m = key d' m') (h1 : m < 4294967296) (h2 : m' < 4294967296) : d = d' ∧ m = m' := by
  have : d.rank = d'.rank ∧ m = m' := by unfold key at h; omega
  refine ⟨?_, this.2⟩
  have := this.1
  cases d <;> cases d' <;> simp [Ds.rank] at this ⊢

theorem second_rank {S : Schema} {A : Ds → Bool} {c : Call} (h : Disciplined S A c) (hs : c.second = true) : c.ds.rank < 4 := by
  cases c <;> simp_all [Call.second, Call.ds, Ds.rank, Disciplined]

theorem plan1_inc {S : Schema} {A : Ds → Bool} {c : Call} (h : Disciplined S A c) : Inc (plan1 S c) := by
  refine lockList_inc (sort_sorted (nodup_collect _)) (fun x hx => h.1 x (Or.inl ?_)) (second_rank h)
  rwa [mem_sort, mem_collect] at hx

theorem plan2_inc {S : Schema} {A : Ds → Bool} {c : Call} (h : Disciplined S A c) : Inc (plan2 S c) := by
  refine lockList_inc ((sort_sorted (nodup_collect _)).filter _) (fun x hx => h.1 x ?_) (second_rank h)
  have := (List.mem_filter.1 hx).1
  rw [mem_sort, mem_collect] at this
  simpa using this

theorem mem_lockList {c : Call} {m : Mode} {l : List Nat} {k : Key} {md : Mode} (h : (k, md) ∈ lockList c m l) :
    (∃ x ∈ l, k = key c.ds x ∧ md = m) ∨ (c.second = true ∧ md = .read ∧ ∃ x ∈ l, k = key .running x) := by
  unfold lockList at h
  rcases List.mem_append.1 h with h | h
  · simp only [List.mem_map] at h
    obtain ⟨x, hx, e⟩ := h
    injection e with e1 e2
    exact Or.inl ⟨x, hx, e1.symm, e2.symm⟩
  · split at h
    · rename_i hs
      simp only [List.mem_map] at h
      obtain ⟨x, hx, e⟩ := h
      injection e with e1 e2
      exact Or.inr ⟨hs, e2.symm, x, hx, e1.symm⟩
    · simp at h

theorem plan2_apply {S : Schema} {A : Ds → Bool} {c : Call} (h : Disciplined S A c) {k : Key} {m : Mode} (hk : (k, m) ∈ plan2 S c) :
    ∃ d e need x, c = .apply d e need ∧ m = .read ∧ k = key d x ∧ x ∈ c.more S ∧ x ∉ c.mods S := by
  cases c with
  | get _ _ => simp [plan2, Call.more, lockList, Call.second, mem_sort, mem_collect] at hk
  | direct _ _ => simp [plan2, Call.more, lockList, Call.second, mem_sort, mem_collect] at hk
  | discard _ => simp [plan2, Call.more, lockList, Call.second, mem_sort, mem_collect] at hk
  | validate _ _ _ => exact h.2.elim
  | update _ _ _ => exact h.2.elim
  | apply d e need =>
    refine ⟨d, e, need, ?_⟩
    rcases mem_lockList hk with ⟨x, hx, e1, e2⟩ | ⟨hs, _⟩
    · refine ⟨x, rfl, e2, e1, ?_⟩
      have := List.mem_filter.1 hx
      rw [mem_sort, mem_collect] at this
      simp at this
      grind
    · simp [Call.second] at hs

theorem plan12_disjoint {S : Schema} {A : Ds → Bool} {c : Call} (h : Disciplined S A c) {k : Nat} {m m' : Mode}
    (h1 : (k, m) ∈ plan1 S c) (h2 : (k, m') ∈ plan2 S c) : False := by
  obtain ⟨d, e, need, x, rfl, _, rfl, hx, hn⟩ := plan2_apply h h2
  rcases mem_lockList h1 with ⟨y, hy, e1, _⟩ | ⟨hs, _⟩
  · rw [mem_sort, mem_collect] at hy
    have := key_inj e1 (h.1 x (Or.inr hx)) (h.1 y (Or.inl hy))
    exact hn (this.2 ▸ hy)
  · simp [Call.second] at hs

theorem planUp_apply {S : Schema} {A : Ds → Bool} {c : Call} (h : Disciplined S A c) {k : Nat} (hk : k ∈ planUp S c) :
    ∃ d e need x, c = .apply d e need ∧ k = key d x ∧ x ∈ e ∧ x ∈ c.mods S ∧ (k, .upgr) ∈ plan1 S c := by
  cases c with
  | get _ _ => simp [planUp] at hk
  | direct _ _ => simp [planUp] at hk
  | discard _ => simp [planUp] at hk
  | validate _ _ _ => exact h.2.elim
  | update _ _ _ => exact h.2.elim
  | apply d e need =>
    simp only [planUp, List.mem_map] at hk
    obtain ⟨x, hx, rfl⟩ := hk
    have hx := List.mem_filter.1 hx
    refine ⟨d, e, need, x, rfl, rfl, by simpa using hx.2, ?_, ?_⟩
    · have := hx.1; rwa [mem_sort, mem_collect] at this
    · simp only [plan1, lockList, List.mem_append, List.mem_map]
      exact Or.inl ⟨x, hx.1, rfl⟩

theorem planUp_inc {S : Schema} {A : Ds → Bool} {c : Call} (h : Disciplined S A c) : (planUp S c).Pairwise (· < ·) := by
  cases c with
  | get _ _ => simp [planUp]
  | direct _ _ => simp [planUp]
  | discard _ => simp [planUp]
  | validate _ _ _ => exact h.2.elim
  | update _ _ _ => exact h.2.elim
  | apply d e need =>
    simp only [planUp]
    rw [List.pairwise_map]
    exact ((sort_sorted (nodup_collect _)).filter _).imp fun {a b} hab => by simp only [key]; omega

/-- Locks held by a call and what it still has to lock fit together. -/
def WF (S : Schema) (x : Run) : Prop :=
  (match x.phase with
  | .first => ∃ done, plan1 S x.call = done ++ x.todo ∧ ∀ k m, x.held k = some m ↔ (k, m) ∈ done
  | .second => ∃ done, plan2 S x.call = done ++ x.todo ∧ ∀ k m, x.held k = some m ↔ (k, m) ∈ plan1 S x.call ∨ (k, m) ∈ done
  | .up => ∃ done, planUp S x.call = done ++ x.ups ∧
      ∀ k m, x.held k = some m ↔ if k ∈ done then m = .write else (k, m) ∈ plan1 S x.call ∨ (k, m) ∈ plan2 S x.call
  | .finished => True) ∧
  ∀ k, x.mark = some k → ∃ o, x.cur = some o ∧ o.key = k ∧ o.wantsWrite = true

/-- Invariant of all the calls. -/
structure Good (S : Schema) (A : Ds → Bool) (s : State) : Prop where
  disc : ∀ (r : Nat) (x : Run), s[r]? = some (some x) → Disciplined S A x.call
  wf : ∀ (r : Nat) (x : Run), s[r]? = some (some x) → WF S x
  wr : ∀ (r q : Nat) (x y : Run) (k : Nat), s[r]? = some (some x) → s[q]? = some (some y) → r ≠ q → x.held k = some .write →
    y.held k = none
  up : ∀ (r q : Nat) (x y : Run) (k : Nat), s[r]? = some (some x) → s[q]? = some (some y) → r ≠ q → x.held k = some .upgr →
    y.held k ≠ some .upgr
  mrk : ∀ (r q : Nat) (x y : Run) (k : Nat), s[r]? = some (some x) → s[q]? = some (some y) → r ≠ q → x.mark = some k →
    y.mark ≠ some k

/-- Changing one call. -/
theorem Good.set {S : Schema} {A : Ds → Bool} {s : State} (h : Good S A s) {r : Nat} {o : Option Run}
    (hd : ∀ x, o = some x → Disciplined S A x.call) (hw : ∀ x, o = some x → WF S x)
    (h1 : ∀ (q : Nat) (x y : Run) (k : Nat), o = some x → s[q]? = some (some y) → r ≠ q →
      (x.held k = some .write → y.held k = none) ∧ (y.held k = some .write → x.held k = none) ∧
      (x.held k = some .upgr → y.held k ≠ some .upgr) ∧ (x.mark = some k → y.mark ≠ some k)) : Good S A (s.set r o) := by
  have key : ∀ (i : Nat) (x : Run), (s.set r o)[i]? = some (some x) → (i = r ∧ o = some x) ∨ (i ≠ r ∧ s[i]? = some (some x)) := by
    intro i x hi
    by_cases hir : i = r
    · subst hir
      rw [List.getElem?_set_self'] at hi
      cases hs : s[i]? with
      | none => simp [hs] at hi
      | some z => simp [hs] at hi; exact Or.inl ⟨rfl, hi⟩
    · rw [List.getElem?_set_ne (by omega)] at hi
      exact Or.inr ⟨hir, hi⟩
  constructor
  · intro i x hi
    rcases key i x hi with ⟨_, e⟩ | ⟨_, e⟩
    · exact hd x e
    · exact h.disc i x e
  · intro i x hi
    rcases key i x hi with ⟨_, e⟩ | ⟨_, e⟩
    · exact hw x e
    · exact h.wf i x e
  · intro i j x y k hi hj hij hk
    rcases key i x hi with ⟨e1, e⟩ | ⟨e1, e⟩ <;> rcases key j y hj with ⟨e2, e'⟩ | ⟨e2, e'⟩
    · omega
    · exact (h1 j x y k e e' (by omega)).1 hk
    · exact (h1 i y x k e' e (by omega)).2.1 hk
    · exact h.wr i j x y k e e' hij hk
  · intro i j x y k hi hj hij hk
    rcases key i x hi with ⟨e1, e⟩ | ⟨e1, e⟩ <;> rcases key j y hj with ⟨e2, e'⟩ | ⟨e2, e'⟩
    · omega
    · exact (h1 j x y k e e' (by omega)).2.2.1 hk
    · exact fun hy => (h1 i y x k e' e (by omega)).2.2.1 hy hk
    · exact h.up i j x y k e e' hij hk
  · intro i j x y k hi hj hij hk
    rcases key i x hi with ⟨e1, e⟩ | ⟨e1, e⟩ <;> rcases key j y hj with ⟨e2, e'⟩ | ⟨e2, e'⟩
    · omega
    · exact (h1 j x y k e e' (by omega)).2.2.2 hk
    · exact fun hy => (h1 i y x k e' e (by omega)).2.2.2 hy hk
    · exact h.mrk i j x y k e e' hij hk

theorem lt_of_get {s : State} {r : Nat} {x : Option Run} (h : s[r]? = some x) : r < s.length := by
  rcases Nat.lt_or_ge r s.length with h' | h'
  · exact h'
  · rw [List.getElem?_eq_none h'] at h; simp at h

theorem not_blocked {s : State} {r q : Nat} {x y : Run} {o : Op} (hb : ¬ blocked s r = true) (hx : s[r]? = some (some x))
    (hc : x.cur = some o) (hy : s[q]? = some (some y)) (hrq : r ≠ q) : conflicts o y = false := by
  cases hcf : conflicts o y with
  | false => rfl
  | true =>
    refine absurd ?_ hb
    simp only [blocked, List.any_eq_true]
    exact ⟨q, List.mem_range.2 (lt_of_get hy), by simp [waits, hx, hy, hc, hcf, hrq]⟩

theorem nodup_key {l done : List (Nat × Mode)} {k : Nat} {m m' : Mode} {t : List (Nat × Mode)} (h : Inc l) (e : l = done ++ (k, m) :: t)
    (hd : (k, m') ∈ done) : False := by
  subst e
  have := (List.pairwise_append.1 h).2.2 _ hd (k, m) (by simp)
  simp at this

/-- A granted lock keeps the call well formed. -/
theorem grant_wf {S : Schema} {A : Ds → Bool} {x : Run} (hd : Disciplined S A x.call) (h : WF S x) : WF S (grant x) := by
  obtain ⟨h, hm⟩ := h
  unfold grant
  split
  · rename_i hp
    simp only [hp] at h
    obtain ⟨done, e, hh⟩ := h
    cases ht : x.todo with
    | nil => simp only; exact ⟨by simp only [hp]; exact ⟨done, e, hh⟩, hm⟩
    | cons a t =>
      obtain ⟨k, m⟩ := a
      rw [ht] at e
      refine ⟨?_, by simp⟩
      simp only [hp]
      refine ⟨done ++ [(k, m)], by simp [e], fun k' m' => ?_⟩
      simp only [upd]
      split
      · rename_i hk; subst hk
        simp only [List.mem_append, List.mem_singleton]
        constructor
        · intro e'; injection e' with e'; subst e'; simp
        · rintro (h' | h')
          · exact (nodup_key (plan1_inc hd) e h').elim
          · injection h' with _ h'; rw [h']
      · rename_i hk
        rw [hh, List.mem_append, List.mem_singleton]
        constructor
        · exact Or.inl
        · rintro (h' | h')
          · exact h'
          · injection h' with h' _; exact (hk h').elim
  · rename_i hp
    simp only [hp] at h
    obtain ⟨done, e, hh⟩ := h
    cases ht : x.todo with
    | nil => simp only; exact ⟨by simp only [hp]; exact ⟨done, e, hh⟩, hm⟩
    | cons a t =>
      obtain ⟨k, m⟩ := a
      rw [ht] at e
      refine ⟨?_, by simp⟩
      simp only [hp]
      refine ⟨done ++ [(k, m)], by simp [e], fun k' m' => ?_⟩
      simp only [upd]
      split
      · rename_i hk; subst hk
        simp only [List.mem_append, List.mem_singleton]
        constructor
        · intro e'; injection e' with e'; subst e'; simp
        · rintro (h' | h' | h')
          · exact (plan12_disjoint hd h' (m' := m) (by rw [e]; simp)).elim
          · exact (nodup_key (plan2_inc hd) e h').elim
          · injection h' with _ h'; rw [h']
      · rename_i hk
        rw [hh, List.mem_append, List.mem_singleton]
        constructor
        · rintro (h' | h')
          · exact Or.inl h'
          · exact Or.inr (Or.inl h')
        · rintro (h' | h' | h')
          · exact Or.inl h'
          · exact Or.inr h'
          · injection h' with h' _; exact (hk h').elim
  · rename_i hp
    simp only [hp] at h
    obtain ⟨done, e, hh⟩ := h
    cases ht : x.ups with
    | nil => simp only; exact ⟨by simp only [hp]; exact ⟨done, e, hh⟩, hm⟩
    | cons k t =>
      rw [ht] at e
      refine ⟨?_, by simp⟩
      simp only [hp]
      refine ⟨done ++ [k], by simp [e], fun k' m' => ?_⟩
      simp only [upd]
      by_cases hk : k' = k
      · subst hk
        simp
        constructor <;> (intro h; exact h.symm)
      · rw [if_neg hk, hh]; simp only [List.mem_append, List.mem_singleton, hk, or_false]
  · exact ⟨h, hm⟩

theorem step_good {S : Schema} {A : Ds → Bool} {s s' : State} {r : Nat} {a : Act} (h : Good S A s)
    (ha : ∀ c, a = .start c → Disciplined S A c) (e : step S s r a = some s') : Good S A s' := by
  cases a with
  | start c =>
    simp only [step] at e
    split at e <;> first | (simp at e; done) | skip
    injection e with e; subst e
    refine h.set (fun x hx => ?_) (fun x hx => ?_) (fun q x y k hx hy hq => ?_)
    · injection hx with hx; subst hx; exact ha c rfl
    · injection hx with hx; subst hx; exact ⟨⟨[], by simp [begin]⟩, by simp [begin]⟩
    · injection hx with hx; subst hx; simp [begin]
  | release =>
    simp only [step] at e
    split at e <;> first | (simp at e; done) | skip
    injection e with e; subst e
    exact h.set (by simp) (by simp) (by simp)
  | down k =>
    simp only [step] at e
    split at e <;> first | (simp at e; done) | skip
    rename_i x hx
    split at e <;> first | (simp at e; done) | skip
    rename_i hk
    injection e with e; subst e
    refine h.set (fun z hz => ?_) (fun z hz => ?_) (fun q z y k' hz hy hq => ?_)
    · injection hz with hz; subst hz; exact h.disc r x hx
    · injection hz with hz; subst hz
      have := h.wf r x hx
      refine ⟨by simp only [hk.1], fun k hm => ?_⟩
      obtain ⟨o, ho, _⟩ := this.2 k hm
      simp [Run.cur, hk.1] at ho
    · injection hz with hz; subst hz
      have e1 := h.wr r q x y k' hx hy hq
      have e2 := h.wr q r y x k' hy hx (by omega)
      have e3 := h.up r q x y k' hx hy hq
      have e4 := h.mrk r q x y k' hx hy hq
      refine ⟨?_, ?_, ?_, e4⟩
      · simp only [upd]; split
        · simp
        · exact e1
      · intro hy'
        have := e2 hy'
        simp only [upd]
        split
        · rename_i hkk; subst hkk; simp [this] at hk
        · exact this
      · simp only [upd]; split
        · simp
        · exact e3
  | next =>
    simp only [step] at e
    split at e <;> first | (simp at e; done) | skip
    rename_i x hx
    have hd := h.disc r x hx
    have hw := h.wf r x hx
    -- the locks and the mark do not change
    have key : ∀ z : Run, z.call = x.call → z.held = x.held → z.mark = x.mark → WF S z → Good S A (s.set r (some z)) := by
      intro z e1 e2 e3 hz
      refine h.set (fun z' hz' => ?_) (fun z' hz' => ?_) (fun q z' y k' hz' hy hq => ?_)
      · injection hz' with hz'; subst hz'; rw [e1]; exact hd
      · injection hz' with hz'; subst hz'; exact hz
      · injection hz' with hz'; subst hz'
        rw [e2, e3]
        exact ⟨h.wr r q x y k' hx hy hq, h.wr q r y x k' hy hx (by omega), h.up r q x y k' hx hy hq, h.mrk r q x y k' hx hy hq⟩
    obtain ⟨hw, hm⟩ := hw
    split at e
    · rename_i hp
      split at e <;> first | (simp at e; done) | skip
      rename_i ht
      injection e with e; subst e
      refine key _ rfl rfl rfl ⟨?_, fun k hk => ?_⟩
      · simp only [hp] at hw
        obtain ⟨done, e1, e2⟩ := hw
        refine ⟨[], rfl, fun k m => ?_⟩
        simp only
        rw [e2, e1, ht]; simp
      · obtain ⟨o, ho, _⟩ := hm k hk
        simp [Run.cur, hp, ht] at ho
    · rename_i hp
      split at e <;> first | (simp at e; done) | skip
      rename_i ht
      injection e with e; subst e
      refine key _ rfl rfl rfl ⟨?_, fun k hk => ?_⟩
      · simp only [hp] at hw
        obtain ⟨done, e1, e2⟩ := hw
        refine ⟨[], rfl, fun k m => ?_⟩
        simp only
        rw [e2, e1, ht]; simp
      · obtain ⟨o, ho, _⟩ := hm k hk
        simp [Run.cur, hp, ht] at ho
    · rename_i hp
      split at e <;> first | (simp at e; done) | skip
      rename_i ht
      injection e with e; subst e
      refine key _ rfl rfl rfl ⟨trivial, fun k hk => ?_⟩
      obtain ⟨o, ho, _⟩ := hm k hk
      simp [Run.cur, hp, ht] at ho
    · simp at e
  | lock =>
    simp only [step] at e
    split at e <;> first | (simp at e; done) | skip
    rename_i x hx
    have hd := h.disc r x hx
    have hw := h.wf r x hx
    split at e <;> first | (simp at e; done) | skip
    rename_i o ho
    split at e
    · split at e
      · rename_i hm
        injection e with e; subst e
        refine h.set (fun z hz => ?_) (fun z hz => ?_) (fun q z y k' hz hy hq => ?_)
        · injection hz with hz; subst hz; exact hd
        · injection hz with hz; subst hz
          exact ⟨hw.1, fun k hk => ⟨o, ho, by injection hk, hm.1⟩⟩
        · injection hz with hz; subst hz
          refine ⟨h.wr r q x y k' hx hy hq, h.wr q r y x k' hy hx (by omega), h.up r q x y k' hx hy hq, fun hk hy' => ?_⟩
          injection hk with hk; subst hk
          refine hm.2 ?_
          simp only [otherMark, List.any_eq_true]
          exact ⟨q, List.mem_range.2 (lt_of_get hy), by simp [hy, hy', hq]⟩
      · injection e with e; subst e; exact h
    · rename_i hb
      injection e with e; subst e
      refine h.set (fun z hz => ?_) (fun z hz => ?_) (fun q z y k' hz hy hq => ?_)
      · injection hz with hz; subst hz
        have : (grant x).call = x.call := by unfold grant; split <;> (try split) <;> rfl
        rw [this]; exact hd
      · injection hz with hz; subst hz; exact grant_wf hd hw
      · injection hz with hz; subst hz
        have hc := not_blocked hb hx ho hy hq
        have e1 := h.wr r q x y k' hx hy hq
        have e2 := h.wr q r y x k' hy hx (by omega)
        have e3 := h.up r q x y k' hx hy hq
        have e4 := h.mrk r q x y k' hx hy hq
        -- held locks after the grant
        have key : ∀ k m, (∀ i, (grant x).held i = upd x.held k m i) → (m = .write → y.held k = none) → (m = .upgr → y.held k ≠ some .upgr) →
            y.held k ≠ some .write → (grant x).mark = none →
            ((grant x).held k' = some .write → y.held k' = none) ∧ (y.held k' = some .write → (grant x).held k' = none) ∧
            ((grant x).held k' = some .upgr → y.held k' ≠ some .upgr) ∧ ((grant x).mark = some k' → y.mark ≠ some k') := by
          intro k m g1 g2 g3 g4 g5
          rw [g1, g5]
          simp only [upd]
          split
          · rename_i hk; subst hk
            refine ⟨fun he => g2 (by injection he), fun he => absurd he g4, fun he => g3 (by injection he), by simp⟩
          · exact ⟨e1, e2, e3, by simp⟩
        have hcur : (∃ k m t, (x.phase = .first ∨ x.phase = .second) ∧ x.todo = (k, m) :: t ∧ o = .acq k m) ∨
            ∃ k t, x.phase = .up ∧ x.ups = k :: t ∧ o = .upg k := by
          unfold Run.cur at ho
          split at ho
          · rename_i hp
            cases ht : x.todo with
            | nil => simp [ht] at ho
            | cons a t => simp [ht] at ho; exact Or.inl ⟨a.1, a.2, t, Or.inl hp, rfl, ho.symm⟩
          · rename_i hp
            cases ht : x.todo with
            | nil => simp [ht] at ho
            | cons a t => simp [ht] at ho; exact Or.inl ⟨a.1, a.2, t, Or.inr hp, rfl, ho.symm⟩
          · rename_i hp
            cases ht : x.ups with
            | nil => simp [ht] at ho
            | cons a t => simp [ht] at ho; exact Or.inr ⟨a, t, hp, rfl, ho.symm⟩
          · simp at ho
        rcases hcur with ⟨k, m, t, hp, ht, rfl⟩ | ⟨k, t, hp, ht, rfl⟩
        · have hg : (grant x) = { x with todo := t, held := upd x.held k m, mark := none } := by
            rcases hp with hp | hp <;> simp [grant, hp, ht]
          refine key k m (fun i => by rw [hg]) ?_ ?_ ?_ (by rw [hg])
          · rintro rfl; simp [conflicts] at hc; exact hc.2
          · rintro rfl; simp [conflicts] at hc; exact hc.2.2
          · cases m <;> simp [conflicts] at hc
            · exact hc.2
            · exact hc.2.1
            · simp [hc.2]
        · have hg : (grant x) = { x with ups := t, held := upd x.held k .write, mark := none } := by
            simp [grant, hp, ht]
          simp [conflicts] at hc
          refine key k .write (fun i => by rw [hg]) (fun _ => hc.2) (by simp) (by simp [hc.2]) (by rw [hg])

theorem Reach.good {S : Schema} {A : Ds → Bool} {n : Nat} {s : State} (h : Reach S (Disciplined S A) n s) : Good S A s := by
  induction h with
  | init =>
    have : ∀ (r : Nat) (x : Run), (LockOrder.init n)[r]? ≠ some (some x) := by
      intro r x hx
      rw [LockOrder.init, List.getElem?_replicate] at hx
      split at hx <;> simp at hx
    constructor
    · intro r x hx; exact (this r x hx).elim
    · intro r x hx; exact (this r x hx).elim
    · intro r _ x _ _ hx; exact (this r x hx).elim
    · intro r _ x _ _ hx; exact (this r x hx).elim
    · intro r _ x _ _ hx; exact (this r x hx).elim
  | step _ ha e ih => exact step_good ih ha e

/-! ### The order of waiting calls -/

/-- Class of an operation. -/
def Op.cls : Op → Nat
  | .acq _ .upgr => 0
  | _ => 1

theorem cls_le (o : Op) : o.cls ≤ 1 := by unfold Op.cls; split <;> omega
theorem cls_zero {o : Op} (h : o.cls = 0) : o = .acq o.key .upgr := by unfold Op.cls at h; split at h <;> simp_all [Op.key]
theorem cls_one {o : Op} (h : ¬ o = .acq o.key .upgr) : o.cls = 1 := by
  have := cls_le o
  have : ¬ o.cls = 0 := fun e => h (cls_zero e)
  omega

/-- Calls that wait for READ_UPGR come first, then all the others, by the lock they wait for, those that have their mark
in it last. -/
def level (x : Run) : Nat × Nat × Nat :=
  match x.cur with
  | none => (2, 0, 0)
  | some o => (o.cls, o.key, if x.mark = some o.key then 1 else 0)

/-- Lexicographic order. -/
def less (a b : Nat × Nat × Nat) : Prop :=
  a.1 < b.1 ∨ (a.1 = b.1 ∧ (a.2.1 < b.2.1 ∨ (a.2.1 = b.2.1 ∧ a.2.2 < b.2.2)))

theorem less_trans {a b c : Nat × Nat × Nat} (h1 : less a b) (h2 : less b c) : less a c := by
  unfold less at *; omega

theorem less_irrefl (a : Nat × Nat × Nat) : ¬ less a a := by unfold less; omega

theorem cur_cases {x : Run} {o : Op} (ho : x.cur = some o) :
    (∃ k m t, (x.phase = .first ∨ x.phase = .second) ∧ x.todo = (k, m) :: t ∧ o = .acq k m) ∨
      ∃ k t, x.phase = .up ∧ x.ups = k :: t ∧ o = .upg k := by
  unfold Run.cur at ho
  split at ho
  · rename_i hp
    cases ht : x.todo with
    | nil => simp [ht] at ho
    | cons a t => simp [ht] at ho; exact Or.inl ⟨a.1, a.2, t, Or.inl hp, rfl, ho.symm⟩
  · rename_i hp
    cases ht : x.todo with
    | nil => simp [ht] at ho
    | cons a t => simp [ht] at ho; exact Or.inl ⟨a.1, a.2, t, Or.inr hp, rfl, ho.symm⟩
  · rename_i hp
    cases ht : x.ups with
    | nil => simp [ht] at ho
    | cons a t => simp [ht] at ho; exact Or.inr ⟨a, t, hp, rfl, ho.symm⟩
  · simp at ho

theorem plan1_mode {S : Schema} {c : Call} {k : Nat} {m : Mode} (h : (k, m) ∈ plan1 S c) :
    (m = c.mode ∧ ∃ x ∈ c.mods S, k = key c.ds x) ∨ (m = .read ∧ c.second = true ∧ ∃ x ∈ c.mods S, k = key .running x) := by
  rcases mem_lockList h with ⟨x, hx, e1, e2⟩ | ⟨hs, e2, x, hx, e1⟩
  · rw [mem_sort, mem_collect] at hx
    exact Or.inl ⟨e2, x, hx, e1⟩
  · rw [mem_sort, mem_collect] at hx
    exact Or.inr ⟨e2, hs, x, hx, e1⟩

/-- What a call waiting for a lock holds. -/
inductive Holds (S : Schema) (y : Run) (k : Nat) : Mode → Prop
  /-- in the first consolidation: smaller locks -/
  | first {m : Mode} {k' : Nat} {m' : Mode} : y.cur = some (.acq k' m') → (k', m') ∈ plan1 S y.call → (k, m) ∈ plan1 S y.call → k < k' →
    Holds S y k m
  /-- apply in its second consolidation: READ of smaller locks -/
  | second {k' : Nat} : y.cur = some (.acq k' .read) → (∃ d e n, y.call = .apply d e n) → k < k' → Holds S y k .read
  /-- apply in its second consolidation: READ_UPGR of the modules of the first one -/
  | secondUp {k' : Nat} : y.cur = some (.acq k' .read) → (∃ d e n, y.call = .apply d e n) → (k, .upgr) ∈ plan1 S y.call →
    Holds S y k .upgr
  /-- upgrading: READ of the dependencies -/
  | upRead {k' : Nat} : y.cur = some (.upg k') → (k, .read) ∈ plan2 S y.call →
    (∀ i, (i, .upgr) ∈ plan1 S y.call → y.held i = some .upgr ∨ y.held i = some .write) → Holds S y k .read
  /-- upgrading: not yet upgraded -/
  | upUp {k' : Nat} : y.cur = some (.upg k') → (k, .upgr) ∈ plan1 S y.call → Holds S y k .upgr
  /-- upgrading: already upgraded, smaller -/
  | upWr {k' : Nat} : y.cur = some (.upg k') → k < k' → Holds S y k .write

theorem first_lt {l done : List (Nat × Mode)} {k k' : Nat} {m m' : Mode} {t : List (Nat × Mode)} (h : Inc l) (e : l = done ++ (k', m') :: t)
    (hd : (k, m) ∈ done) : k < k' := by
  subst e
  exact (List.pairwise_append.1 h).2.2 _ hd (k', m') (by simp)

theorem apply_plan1 {S : Schema} {d : Ds} {e : List Nat} {n : Nat → Bool} {k : Nat} {m : Mode}
    (h : (k, m) ∈ plan1 S (.apply d e n)) : m = .upgr ∧ ∃ x ∈ (Call.apply d e n).mods S, k = key d x := by
  rcases plan1_mode h with ⟨e1, e2⟩ | ⟨_, hs, _⟩
  · exact ⟨e1, e2⟩
  · simp [Call.second] at hs

theorem holds {S : Schema} {A : Ds → Bool} {y : Run} (hd : Disciplined S A y.call) (hw : WF S y) {o : Op} (ho : y.cur = some o)
    {k : Nat} {m : Mode} (hk : y.held k = some m) : Holds S y k m := by
  obtain ⟨hw, _⟩ := hw
  rcases cur_cases ho with ⟨k', m', t, hp, ht, rfl⟩ | ⟨k', t, hp, ht, rfl⟩
  · rcases hp with hp | hp
    · simp only [hp] at hw
      obtain ⟨done, e, hh⟩ := hw
      rw [ht] at e
      have hk := (hh k m).1 hk
      exact .first ho (by rw [e]; simp) (by rw [e]; simp [hk]) (first_lt (plan1_inc hd) e hk)
    · simp only [hp] at hw
      obtain ⟨done, e, hh⟩ := hw
      rw [ht] at e
      obtain ⟨d, ed, n, x, hc, hm, _⟩ := plan2_apply hd (k := k') (m := m') (by rw [e]; simp)
      subst hm
      rcases (hh k m).1 hk with h1 | h1
      · have h2 := h1
        rw [hc] at h2
        obtain ⟨rfl, _⟩ := apply_plan1 h2
        exact .secondUp ho ⟨d, ed, n, hc⟩ h1
      · obtain ⟨_, _, _, _, _, rfl, _⟩ := plan2_apply hd (k := k) (m := m) (by rw [e]; simp [h1])
        exact .second ho ⟨d, ed, n, hc⟩ (first_lt (plan2_inc hd) e h1)
  · simp only [hp] at hw
    obtain ⟨done, e, hh⟩ := hw
    rw [ht] at e
    have hk' := (hh k m).1 hk
    split at hk'
    · rename_i hin
      subst hk'
      refine .upWr ho ?_
      have := planUp_inc hd
      rw [e] at this
      exact (List.pairwise_append.1 this).2.2 k hin k' (by simp)
    · obtain ⟨d, ed, n, x, hc, _⟩ := planUp_apply hd (k := k') (by rw [e]; simp)
      rcases hk' with h1 | h1
      · have h2 := h1
        rw [hc] at h2
        obtain ⟨rfl, _⟩ := apply_plan1 h2
        exact .upUp ho h1
      · obtain ⟨_, _, _, _, _, rfl, _⟩ := plan2_apply hd h1
        refine .upRead ho h1 (fun i hi => ?_)
        by_cases hdn : i ∈ done
        · exact Or.inr ((hh i .write).2 (by rw [if_pos hdn]))
        · exact Or.inl ((hh i .upgr).2 (by rw [if_neg hdn]; exact Or.inl hi))

/-- What a call that waits for a lock waits for. -/
theorem cur_plan {S : Schema} {A : Ds → Bool} {x : Run} (hd : Disciplined S A x.call) (hw : WF S x) {o : Op} (ho : x.cur = some o) :
    match o with
    | .acq k m => (k, m) ∈ plan1 S x.call ∨ (m = .read ∧ (k, .read) ∈ plan2 S x.call)
    | .upg k => k ∈ planUp S x.call ∧ x.held k = some .upgr ∧
        (∀ i, (i, .upgr) ∈ plan1 S x.call → x.held i = some .upgr ∨ x.held i = some .write) := by
  obtain ⟨hw, _⟩ := hw
  rcases cur_cases ho with ⟨k', m', t, hp, ht, rfl⟩ | ⟨k', t, hp, ht, rfl⟩
  · rcases hp with hp | hp
    · simp only [hp] at hw
      obtain ⟨done, e, hh⟩ := hw
      rw [ht] at e
      exact Or.inl (by rw [e]; simp)
    · simp only [hp] at hw
      obtain ⟨done, e, hh⟩ := hw
      rw [ht] at e
      obtain ⟨d, ed, n, x, hc, rfl, _⟩ := plan2_apply hd (k := k') (m := m') (by rw [e]; simp)
      exact Or.inr ⟨rfl, by rw [e]; simp⟩
  · simp only [hp] at hw
    obtain ⟨done, e, hh⟩ := hw
    rw [ht] at e
    have hin : k' ∈ planUp S x.call := by rw [e]; simp
    obtain ⟨d, ed, n, z, hc, _, _, _, h1⟩ := planUp_apply hd hin
    have hnd : k' ∉ done := by
      intro hin'
      have := planUp_inc hd
      rw [e] at this
      have := (List.pairwise_append.1 this).2.2 k' hin' k' (by simp)
      omega
    refine ⟨hin, (hh k' .upgr).2 (by rw [if_neg hnd]; exact Or.inl h1), fun i hi => ?_⟩
    by_cases hdn : i ∈ done
    · exact Or.inr ((hh i .write).2 (by rw [if_pos hdn]))
    · exact Or.inl ((hh i .upgr).2 (by rw [if_neg hdn]; exact Or.inl hi))

/-- Datastores of the locks of a call. -/
theorem write_ds {S : Schema} {A : Ds → Bool} {c : Call} (hd : Disciplined S A c) {k : Nat} (hk : (k, .write) ∈ plan1 S c) :
    ∃ d x, A d = false ∧ k = key d x ∧ x < 4294967296 := by
  rcases plan1_mode hk with ⟨e1, x, hx, e2⟩ | ⟨e, _⟩
  · have hb := hd.1 x (Or.inl hx)
    cases c <;> simp [Call.mode] at e1
    · exact ⟨_, x, hd.2, e2, hb⟩
    · exact ⟨_, x, hd.2, e2, hb⟩
  · simp at e

theorem upgr_ds {S : Schema} {A : Ds → Bool} {c : Call} (hd : Disciplined S A c) {k : Nat} (hk : (k, .upgr) ∈ plan1 S c) :
    ∃ d x, A d = true ∧ k = key d x ∧ x < 4294967296 := by
  rcases plan1_mode hk with ⟨e1, x, hx, e2⟩ | ⟨e, _⟩
  · have hb := hd.1 x (Or.inl hx)
    cases c <;> simp [Call.mode] at e1
    · exact ⟨_, x, hd.2, e2, hb⟩
    · exact hd.2.elim
  · simp at e

theorem dep_ds {S : Schema} {A : Ds → Bool} {c : Call} (hd : Disciplined S A c) {k : Nat} {m : Mode} (hk : (k, m) ∈ plan2 S c) :
    ∃ d x, A d = true ∧ k = key d x ∧ x < 4294967296 := by
  obtain ⟨d, e, n, x, rfl, _, hk, hx, _⟩ := plan2_apply hd hk
  exact ⟨d, x, hd.2, hk, hd.1 x (Or.inr hx)⟩

theorem ds_clash {A : Ds → Bool} {k : Nat} (h1 : ∃ d x, A d = false ∧ k = key d x ∧ x < 4294967296)
    (h2 : ∃ d x, A d = true ∧ k = key d x ∧ x < 4294967296) : False := by
  obtain ⟨d, x, ha, e, hx⟩ := h1
  obtain ⟨d', x', ha', e', hx'⟩ := h2
  have := (key_inj (e.symm.trans e') hx hx').1
  subst this
  rw [ha] at ha'; simp at ha'

theorem edge {S : Schema} {A : Ds → Bool} {s : State} (hc : S.Complete) (h : Good S A s) {r q : Nat} {x y : Run} {o o' : Op}
    (hx : s[r]? = some (some x)) (hy : s[q]? = some (some y)) (hrq : r ≠ q) (ho : x.cur = some o) (ho' : y.cur = some o')
    (hcf : conflicts o y = true) : less (level x) (level y) := by
  have dx := h.disc r x hx
  have dy := h.disc q y hy
  have wx := h.wf r x hx
  have wy := h.wf q y hy
  have px := cur_plan dx wx ho
  have py := cur_plan dy wy ho'
  have lx : level x = (o.cls, o.key, if x.mark = some o.key then 1 else 0) := by simp only [level, ho]
  have ly : level y = (o'.cls, o'.key, if y.mark = some o'.key then 1 else 0) := by simp only [level, ho']
  have cx := cls_le o
  -- the other call has its mark in the lock
  by_cases hm : y.mark = some o.key
  · obtain ⟨o2, e1, e2, e3⟩ := wy.2 _ hm
    rw [ho'] at e1; injection e1 with e1; subst e1
    have hmx : x.mark ≠ some o.key := fun e => h.mrk r q x y o.key hx hy hrq e hm
    have hne : o'.cls = 1 := by cases o' with | upg _ => rfl | acq _ m => cases m <;> simp_all [Op.wantsWrite, Op.cls]
    rw [e2, if_pos hm] at ly
    rw [if_neg hmx] at lx
    rw [lx, ly, hne]
    rcases Nat.lt_or_ge o.cls 1 with h1 | h1
    · exact Or.inl h1
    · exact Or.inr ⟨Nat.le_antisymm cx h1, Or.inr ⟨rfl, Nat.zero_lt_one⟩⟩
  -- the other call holds the lock
  simp only [conflicts, beq_eq_false_iff_ne.2 hm, Bool.false_or] at hcf
  -- comparing levels
  have up1 : ∀ k', o' = .acq k' .upgr → (o = .acq o.key .upgr) → o.key < k' → less (level x) (level y) := by
    intro k' e1 e2 e3
    have : o.cls = 0 := by rw [e2]; rfl
    rw [lx, ly, e1, this]
    exact Or.inr ⟨rfl, Or.inl e3⟩
  have up5 : o'.cls = 1 → o.key < o'.key → less (level x) (level y) := by
    intro e1 e3
    rw [lx, ly]; unfold less
    simp only; omega
  have up2 : ∀ k' m, o' = .acq k' m → m ≠ .upgr → o.key < k' → less (level x) (level y) := by
    intro k' m e1 e2 e3
    exact up5 (by subst e1; cases m with | read => rfl | upgr => exact (e2 rfl).elim | write => rfl) (by subst e1; exact e3)
  have up3 : ∀ k', o' = .upg k' → o.key < k' → less (level x) (level y) := by
    intro k' e1 e3
    exact up5 (by subst e1; rfl) (by subst e1; exact e3)
  have up4 : (o = .acq o.key .upgr) → ¬ o' = .acq o'.key .upgr → less (level x) (level y) := by
    intro e1 e2
    have h1 : o.cls = 0 := by rw [e1]; rfl
    have h2 := cls_one e2
    rw [lx, ly, h1, h2]; exact Or.inl Nat.zero_lt_one
  -- a call in its first consolidation waits for a greater lock
  have hfirst : ∀ {k' : Nat} {m m' : Mode}, o' = .acq k' m' → (k', m') ∈ plan1 S y.call → (o.key, m) ∈ plan1 S y.call → o.key < k' →
      m ≠ .upgr → less (level x) (level y) := by
    intro k' m m' e1 h1 h2 h3 hne
    refine up2 k' m' e1 (fun e => ?_) h3
    subst e
    rcases plan1_mode h1 with ⟨e1, _⟩ | ⟨e1, _⟩
    · rcases plan1_mode h2 with ⟨e2, _⟩ | ⟨e2, hs, _⟩
      · exact hne (e2.trans e1.symm)
      · cases hcall : y.call with
        | update _ _ _ => rw [hcall] at dy; exact dy.2.elim
        | _ => simp [hcall, Call.mode, Call.second] at e1 hs
    · simp at e1
  match o, hcf with
  | .acq k .read, hcf =>
    simp only [beq_iff_eq] at hcf
    cases holds dy wy ho' hcf with
    | first e1 h1 h2 h3 => rw [ho'] at e1; injection e1 with e1; exact hfirst e1 h1 h2 h3 (by simp)
    | upWr e1 h3 => rw [ho'] at e1; injection e1 with e1; exact up3 _ e1 h3
  | .acq k .upgr, hcf =>
    by_cases hup : o' = .acq o'.key .upgr
    · simp only [Bool.or_eq_true, beq_iff_eq] at hcf
      have key : ∀ m, y.held k = some m → k < o'.key := by
        intro m hm
        cases holds dy wy ho' hm with
        | first e1 h1 h2 h3 => rw [ho'] at e1; injection e1 with e1; subst e1; exact h3
        | second e1 => rw [ho'] at e1; injection e1 with e1; subst e1; simp [Op.key] at hup
        | secondUp e1 => rw [ho'] at e1; injection e1 with e1; subst e1; simp [Op.key] at hup
        | upRead e1 => rw [ho'] at e1; injection e1 with e1; subst e1; simp at hup
        | upUp e1 => rw [ho'] at e1; injection e1 with e1; subst e1; simp at hup
        | upWr e1 => rw [ho'] at e1; injection e1 with e1; subst e1; simp at hup
      refine up1 o'.key hup rfl ?_
      rcases hcf with hcf | hcf
      · exact key _ hcf
      · exact key _ hcf
    · exact up4 rfl hup
  | .acq k .write, hcf =>
    have hk : (k, .write) ∈ plan1 S x.call := by
      rcases px with h1 | ⟨h1, _⟩
      · exact h1
      · simp at h1
    have hA := write_ds dx hk
    obtain ⟨m, hm⟩ := Option.isSome_iff_exists.1 hcf
    cases holds dy wy ho' hm with
    | first e1 h1 h2 h3 =>
      rw [ho'] at e1; injection e1 with e1
      refine hfirst e1 h1 h2 h3 (fun e => ?_)
      subst e
      exact ds_clash hA (upgr_ds dy h2)
    | second e1 _ h3 => rw [ho'] at e1; injection e1 with e1; exact up2 _ _ e1 (by simp) h3
    | secondUp _ _ h2 => exact (ds_clash hA (upgr_ds dy h2)).elim
    | upRead _ h2 => exact (ds_clash hA (dep_ds dy h2)).elim
    | upUp _ h2 => exact (ds_clash hA (upgr_ds dy h2)).elim
    | upWr e1 h3 => rw [ho'] at e1; injection e1 with e1; exact up3 _ e1 h3
  | .upg k, hcf =>
    obtain ⟨hk, hkh, hall⟩ := px
    obtain ⟨m, hm⟩ := Option.isSome_iff_exists.1 hcf
    have hmr : m = .read := by
      cases m with
      | read => rfl
      | upgr => exact (h.up r q x y k hx hy hrq hkh hm).elim
      | write => have := h.wr q r y x k hy hx (by omega) hm; rw [hkh] at this; simp at this
    subst hmr
    cases holds dy wy ho' hm with
    | first e1 h1 h2 h3 => rw [ho'] at e1; injection e1 with e1; exact hfirst e1 h1 h2 h3 (by simp)
    | second e1 _ h3 => rw [ho'] at e1; injection e1 with e1; exact up2 _ _ e1 (by simp) h3
    | upRead e1 h2 hally =>
      -- the changed module has the other call's module as its inverse dependency
      exfalso
      obtain ⟨d, e, n, a, hcx, rfl, hae, _, _⟩ := planUp_apply dx hk
      obtain ⟨d', e', n', b, hcy, _, hkb, hbm, _⟩ := plan2_apply dy h2
      have hdx := dx; have hdy := dy
      rw [hcx] at hdx; rw [hcy] at hdy
      have hab : a = b ∧ d = d' := by
        have ha : a < 4294967296 := by
          refine hdx.1 a (Or.inl ?_)
          simp only [Call.mods]; split
          · simp [withInv, hae]
          · exact hae
        have hb : b < 4294967296 := hdy.1 b (Or.inr (by rw [hcy] at hbm; exact hbm))
        have := key_inj hkb ha hb
        exact ⟨this.2, this.1⟩
      obtain ⟨rfl, rfl⟩ := hab
      rw [hcy] at hbm
      simp only [Call.more] at hbm
      split at hbm
      · rename_i hch
        obtain ⟨z, hz, hbz⟩ := List.mem_flatMap.1 hbm
        have hbz := (List.mem_filter.1 hbz).1
        have hinv := hc z a hbz
        have hzx : z ∈ (Call.apply d e n).mods S := by
          simp only [Call.mods, hch, if_true, withInv, List.mem_append, List.mem_flatMap]
          exact Or.inr ⟨a, hae, hinv⟩
        have m1 : (key d z, .upgr) ∈ plan1 S x.call := by
          rw [hcx]
          simp only [plan1, lockList, List.mem_append, List.mem_map, Call.ds, Call.mode]
          exact Or.inl ⟨z, by rwa [mem_sort, mem_collect], rfl⟩
        have m2 : (key d z, .upgr) ∈ plan1 S y.call := by
          rw [hcy]
          simp only [plan1, lockList, List.mem_append, List.mem_map, Call.ds, Call.mode]
          exact Or.inl ⟨z, by rwa [mem_sort, mem_collect], rfl⟩
        rcases hall _ m1 with i1 | i1 <;> rcases hally _ m2 with i2 | i2
        · exact h.up r q x y _ hx hy hrq i1 i2
        · have := h.wr q r y x _ hy hx (by omega) i2; rw [i1] at this; simp at this
        · have := h.wr r q x y _ hx hy hrq i1; rw [i2] at this; simp at this
        · have := h.wr r q x y _ hx hy hrq i1; rw [i2] at this; simp at this
      · simp at hbm

theorem waits_iff {s : State} {r q : Nat} (h : waits s r q = true) :
    ∃ x y o, r ≠ q ∧ s[r]? = some (some x) ∧ s[q]? = some (some y) ∧ x.cur = some o ∧ conflicts o y = true := by
  unfold waits at h
  simp only [Bool.and_eq_true, bne_iff_ne] at h
  obtain ⟨h1, h2⟩ := h
  split at h2
  · rename_i x y hx hy
    split at h2
    · rename_i o ho; exact ⟨x, y, o, h1, hx, hy, ho, h2⟩
    · simp at h2
  · simp at h2

theorem chain_less {S : Schema} {A : Ds → Bool} {s : State} (hc : S.Complete) (h : Good S A s) {r p : Nat} (hch : Chain s r p) :
    ∃ x y, s[r]? = some (some x) ∧ s[p]? = some (some y) ∧ x.cur ≠ none ∧ (y.cur ≠ none → less (level x) (level y)) := by
  induction hch with
  | one hw =>
    obtain ⟨x, y, o, hne, hx, hy, ho, hcf⟩ := waits_iff hw
    refine ⟨x, y, hx, hy, by simp [ho], fun hn => ?_⟩
    obtain ⟨o', ho'⟩ := Option.ne_none_iff_exists'.1 hn
    exact edge hc h hx hy hne ho ho' hcf
  | more hw _ ih =>
    obtain ⟨x, y, o, hne, hx, hy, ho, hcf⟩ := waits_iff hw
    obtain ⟨y', z, hy', hz, hn, hl⟩ := ih
    rw [hy] at hy'
    injection hy' with hy'; injection hy' with hy'; subst hy'
    obtain ⟨o', ho'⟩ := Option.ne_none_iff_exists'.1 hn
    exact ⟨x, z, hx, hz, by simp [ho], fun hzn => less_trans (edge hc h hx hy hne ho ho' hcf) (hl hzn)⟩

/-- A finite non-empty set has a maximal element. -/
theorem exists_max {α : Type} (f : α → Nat × Nat × Nat) : ∀ {l : List α}, l ≠ [] → ∃ a ∈ l, ∀ b ∈ l, ¬ less (f a) (f b)
  | [a], _ => ⟨a, by simp, by simp [less_irrefl]⟩
  | a :: b :: t, _ => by
    obtain ⟨c, hc, hmax⟩ := exists_max f (l := b :: t) (by simp)
    by_cases h : less (f c) (f a)
    · refine ⟨a, by simp, fun d hd => ?_⟩
      rcases List.mem_cons.1 hd with rfl | hd
      · exact less_irrefl _
      · exact fun h' => hmax d hd (less_trans h h')
    · refine ⟨c, List.mem_cons_of_mem _ hc, fun d hd => ?_⟩
      rcases List.mem_cons.1 hd with rfl | hd
      · exact h
      · exact hmax d hd

end Verif.LockOrder
