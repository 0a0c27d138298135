import Verif.OperPush
/-!
Model of how the push data of all the sessions are put together: `sr_module_oper_data_load`, modinfo.c 1272-1392, and
`sr_modinfo_get_oper_data`, modinfo.c 1394-1430.

A data tree is a map from the paths of node instances to values; a path is the list of the steps from the root, so the
nodes inside of a subtree are those whose path extends the path of its root. Simplifications: nodes without keys (keyless
lists, duplicate leaf-lists), node metadata and the order of siblings are not modelled. Whether a connection is alive does
not change during one load.
-/
namespace Verif.OperData
open Verif.OperPush (Entry Ordered)

/-- Path of a node instance. -/
abbrev Path := List Nat

/-- Data tree. -/
abbrev Data := Path → Option Nat

/-- An XPath of a `discard-items` node: selects nodes of the data it is evaluated on. -/
abbrev XPath := Data → Path → Bool

/-- Push data of a session. -/
structure Push where
  discards : List XPath
  data : Data

/-- Whether a selected node is the node itself or its ancestor. -/
def inSelected (x : XPath) (d : Data) (p : Path) : Bool := (List.range (p.length + 1)).any fun n => x d (p.take n)

/-- Selected subtrees are freed, modinfo.c 1343-1358. -/
def discard (d : Data) (x : XPath) : Data := fun p => if inSelected x d p then none else d p

/-- `sr_lyd_merge_module`, modinfo.c 1367: values of the second tree win. -/
def merge (d e : Data) : Data := fun p => match e p with | some v => some v | none => d p

/-- Processing of one entry: XPath removals first, then the data, modinfo.c 1328-1370. -/
def process (d : Data) (q : Push) : Data := merge (q.discards.foldl discard d) q.data

/-- Result of the loop: data, whether the session of interest was processed; or a dead connection was found. -/
inductive LoopRes where
  | done (d : Data) (last : Bool)
  | dead (d : Data)

/-- The loop over the entries, modinfo.c 1293-1375. `own` are the data of the session `sid` provided by the caller. -/
def loop (alive : Nat → Bool) (stored : Nat → Push) (sid : Nat) (own : Option Push) : List Entry → Data → LoopRes
  | [], d => .done d false
  | e :: t, d =>
    if !alive e.cid then .dead d
    else if !e.hasData then loop alive stored sid own t d
    else if e.sid = sid then .done (process d (match own with | some q => q | none => stored e.sid)) true
    else loop alive stored sid own t (process d (stored e.sid))

/-- The whole function: entries of all the dead connections are deleted (`sr_shmmod_del_module_oper_data`, shm_mod.c
967-977) and it is called again on the same data, modinfo.c 1294-1303; own data without an entry are used at the end,
modinfo.c 1377-1381. No entry is dead in the second call, so there is no third one. -/
def load (alive : Nat → Bool) (stored : Nat → Push) (sid : Nat) (own : Option Push) (entries : List Entry) (d : Data) : Data :=
  let finish : LoopRes → Data
    | .done d last => match own with | some q => if last then d else process d q | none => d
    | .dead d => d
  match loop alive stored sid own entries d with
  | .done d last => finish (.done d last)
  | .dead d => finish (loop alive stored sid own (entries.filter fun e => alive e.cid) d)

/-- Reading operational data: all the sessions, modinfo.c 1459. Session ID 0 is nobody. -/
def read (alive : Nat → Bool) (stored : Nat → Push) (entries : List Entry) (d : Data) : Data := load alive stored 0 none entries d

/-! ## Specification -/

/-- The push data of a session discard a node: one of its XPaths selects the node or an ancestor. -/
def Discards (q : Push) (p : Path) : Prop := ∃ x ∈ q.discards, ∃ r s, p = r ++ s ∧ x (fun _ => none) r = true

/-- The XPath selects nodes only by their path (names and keys), not by other data. -/
def ByPath (q : Push) : Prop := ∀ x ∈ q.discards, ∀ (d d' : Data) (p : Path), x d p = x d' p

/-- The session of a live connection with push data has said something about the node. -/
def Speaks (alive : Nat → Bool) (stored : Nat → Push) (entries : List Entry) (p : Path) (e : Entry) : Prop :=
  e ∈ entries ∧ alive e.cid = true ∧ e.hasData = true ∧
    ((∃ v, (stored e.sid).data p = some v) ∨ Discards (stored e.sid) p)

/-! ## Lemmas -/

/-- What push data say about a node: a value, removal, or nothing. -/
def says (q : Push) (p : Path) : Option (Option Nat) :=
  match q.data p with
  | some v => some (some v)
  | none => if q.discards.any (fun x => inSelected x (fun _ => none) p) then some none else none

theorem inSelected_iff {x : XPath} {d : Data} {p : Path} : inSelected x d p = true ↔ ∃ r s, p = r ++ s ∧ x d r = true := by
  simp only [inSelected, List.any_eq_true, List.mem_range]
  constructor
  · rintro ⟨n, _, h⟩
    exact ⟨p.take n, p.drop n, (List.take_append_drop n p).symm, h⟩
  · rintro ⟨r, s, rfl, h⟩
    exact ⟨r.length, by simp; omega, by simpa using h⟩

theorem says_none {q : Push} {p : Path} : says q p = none ↔ ¬ ((∃ v, q.data p = some v) ∨ Discards q p) := by
  simp only [says]
  cases hd : q.data p with
  | some v => simp
  | none =>
    simp only [reduceCtorEq, exists_false, false_or, Discards, ite_eq_right_iff]
    simp only [List.any_eq_true, inSelected_iff, imp_false]


theorem inSelected_byPath {x : XPath} (h : ∀ (d d' : Data) (p : Path), x d p = x d' p) (d d' : Data) (p : Path) :
    inSelected x d p = inSelected x d' p := by
  unfold inSelected
  exact congrArg _ (funext fun n => h d d' _)

theorem discards_eq {l : List XPath} (h : ∀ x ∈ l, ∀ (d d' : Data) (p : Path), x d p = x d' p) (d : Data) (p : Path) :
    l.foldl discard d p = if l.any (fun x => inSelected x (fun _ => none) p) then none else d p := by
  induction l generalizing d with
  | nil => simp
  | cons x t ih =>
    simp only [List.foldl_cons, List.any_cons]
    rw [ih (fun y hy => h y (by simp [hy]))]
    simp only [discard]
    rw [inSelected_byPath (h x (by simp)) d (fun _ => none)]
    by_cases hx : inSelected x (fun _ => none) p = true <;> simp [hx]

theorem process_eq {q : Push} (h : ByPath q) (d : Data) (p : Path) : process d q p = (says q p).getD (d p) := by
  simp only [process, merge, says]
  cases q.data p with
  | some v => rfl
  | none =>
    simp only
    rw [discards_eq h]
    split <;> rfl

/-- The last push data that say something. -/
def lastSays (p : Path) : List Push → Option (Option Nat)
  | [] => none
  | q :: t => match lastSays p t with | some r => some r | none => says q p

theorem foldl_process {l : List Push} (h : ∀ q ∈ l, ByPath q) (d : Data) (p : Path) :
    l.foldl process d p = (lastSays p l).getD (d p) := by
  induction l generalizing d with
  | nil => rfl
  | cons q t ih =>
    simp only [List.foldl_cons, lastSays]
    rw [ih (fun y hy => h y (by simp [hy])), process_eq (h q (by simp))]
    cases lastSays p t <;> rfl

/-- Push data of the entries that are processed. -/
def pushes (stored : Nat → Push) (l : List Entry) : List Push := (l.filter (·.hasData)).map fun e => stored e.sid

theorem loop_live {alive : Nat → Bool} {stored : Nat → Push} {sid : Nat} {l : List Entry} (ha : ∀ e ∈ l, alive e.cid = true)
    (hs : ∀ e ∈ l, e.sid ≠ sid) (d : Data) : loop alive stored sid none l d = .done ((pushes stored l).foldl process d) false := by
  induction l generalizing d with
  | nil => rfl
  | cons e t ih =>
    have := hs e (by simp)
    simp only [loop, ha e (by simp), Bool.not_true, Bool.false_eq_true, if_false]
    rw [ih (fun e he => ha e (by simp [he])) (fun e he => hs e (by simp [he])),
      ih (fun e he => ha e (by simp [he])) (fun e he => hs e (by simp [he]))]
    simp only [if_neg this, pushes, List.filter_cons]
    cases e.hasData <;> simp

/-- The loop stops at the first dead entry. -/
theorem loop_dead {alive : Nat → Bool} {stored : Nat → Push} {sid : Nat} {l : List Entry} (hs : ∀ e ∈ l, e.sid ≠ sid)
    (hd : ¬ ∀ e ∈ l, alive e.cid = true) (d : Data) :
    ∃ l1 l2, l = l1 ++ l2 ∧ (∀ e ∈ l1, alive e.cid = true) ∧
      loop alive stored sid none l d = .dead ((pushes stored l1).foldl process d) := by
  induction l generalizing d with
  | nil => simp at hd
  | cons e t ih =>
    cases ha : alive e.cid with
    | false => exact ⟨[], e :: t, rfl, by simp, by simp [loop, ha, pushes]⟩
    | true =>
      have hd' : ¬ ∀ e ∈ t, alive e.cid = true := by
        intro h; apply hd; intro e' he'
        rcases List.mem_cons.1 he' with rfl | he'
        · exact ha
        · exact h e' he'
      have := hs e (by simp)
      simp only [loop, ha, Bool.not_true, Bool.false_eq_true, if_false, if_neg this]
      cases hh : e.hasData with
      | false =>
        obtain ⟨l1, l2, rfl, h1, h2⟩ := ih (fun e he => hs e (by simp [he])) hd' d
        refine ⟨e :: l1, l2, rfl, ?_, ?_⟩
        · intro e' he'; rcases List.mem_cons.1 he' with rfl | he'
          · exact ha
          · exact h1 e' he'
        · simp only [Bool.not_false, if_true]; rw [h2]; simp [pushes, hh]
      | true =>
        obtain ⟨l1, l2, rfl, h1, h2⟩ := ih (fun e he => hs e (by simp [he])) hd' (process d (stored e.sid))
        refine ⟨e :: l1, l2, rfl, ?_, ?_⟩
        · intro e' he'; rcases List.mem_cons.1 he' with rfl | he'
          · exact ha
          · exact h1 e' he'
        · simp only [Bool.not_true, Bool.false_eq_true, if_false]; rw [h2]; simp [pushes, hh]

theorem lastSays_append (p : Path) (a b : List Push) :
    lastSays p (a ++ b) = match lastSays p b with | some r => some r | none => lastSays p a := by
  induction a with
  | nil => simp only [List.nil_append, lastSays]; cases lastSays p b <;> rfl
  | cons q t ih => simp only [List.cons_append, lastSays, ih]; cases lastSays p b <;> rfl

theorem lastSays_none {p : Path} {l : List Push} : lastSays p l = none ↔ ∀ q ∈ l, says q p = none := by
  induction l with
  | nil => simp [lastSays]
  | cons q t ih =>
    simp only [lastSays, List.mem_cons, forall_eq_or_imp]
    cases hl : lastSays p t with
    | some r =>
      simp only [reduceCtorEq, false_iff, not_and]
      intro _ h
      rw [ih.2 h] at hl; simp at hl
    | none => simp only; constructor
              · intro h; exact ⟨h, ih.1 hl⟩
              · exact fun h => h.1

/-- The result of reading only depends on the live entries, also when the dead ones are found in the middle. -/
theorem read_eq {alive : Nat → Bool} {stored : Nat → Push} {l : List Entry} (hs : ∀ e ∈ l, e.sid ≠ 0)
    (hp : ∀ e ∈ l, ByPath (stored e.sid)) (d : Data) (p : Path) :
    read alive stored l d p = (lastSays p (pushes stored (l.filter fun e => alive e.cid))).getD (d p) := by
  have hb : ∀ l', (∀ e ∈ l', e ∈ l) → ∀ q ∈ pushes stored l', ByPath q := by
    intro l' hl' q hq
    simp only [pushes, List.mem_map] at hq
    obtain ⟨e, he, rfl⟩ := hq
    exact hp e (hl' e (List.mem_filter.1 he).1)
  have hfl : ∀ e ∈ l.filter (fun e => alive e.cid), alive e.cid = true := fun e he => by simpa using (List.mem_filter.1 he).2
  have hfs : ∀ e ∈ l.filter (fun e => alive e.cid), e.sid ≠ 0 := fun e he => hs e (List.mem_filter.1 he).1
  by_cases hall : ∀ e ∈ l, alive e.cid = true
  · have : l.filter (fun e => alive e.cid) = l := List.filter_eq_self.2 hall
    rw [this]
    simp only [read, load, loop_live hall hs]
    exact foldl_process (hb l fun _ h => h) d p
  · obtain ⟨l1, l2, rfl, h1, h2⟩ := loop_dead (stored := stored) hs hall d
    simp only [read, load, h2]
    rw [loop_live hfl hfs]
    simp only
    rw [foldl_process (hb _ fun e he => (List.mem_filter.1 he).1), foldl_process (hb l1 fun e he => List.mem_append_left _ he)]
    -- nodes decided in the first part are decided in the second run, too
    have e1 : l1.filter (fun e => alive e.cid) = l1 := List.filter_eq_self.2 h1
    rw [List.filter_append, e1]
    have e2 : pushes stored (l1 ++ l2.filter fun e => alive e.cid) = pushes stored l1 ++ pushes stored (l2.filter fun e => alive e.cid) := by
      simp [pushes]
    rw [e2, lastSays_append]
    cases lastSays p (pushes stored (l2.filter fun e => alive e.cid)) with
    | some r => rfl
    | none => simp only; cases lastSays p (pushes stored l1) <;> rfl

end Verif.OperData
