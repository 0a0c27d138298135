import Verif.ModOpsLemmas4

/-!
Properties of installing, removing and updating modules and changing features.

The specification is `Good` (internal data, shared memory, YANG files, datastore plugins and content
ID agree) and the plain equations in the conclusions. `Laws` is what is assumed of libyang.
-/

namespace Verif.ModOps

/-! ## An example library, with all laws proved -/

/-- Modules 0, 1 and 2. Module 1 imports and needs module 0; module 2 has features 0, 1 and 2 and
with feature 2 needs module 1. Nodes 2n and 2n+1 are of module n, the odd one is under feature 0. -/
def exDeclared (f : File) : List Feat := if f.1 = 2 then [0, 1, 2] else [0]

def exNorm (n : Name) (i : Info) : Info :=
  { i with feats := fun f => i.feats f && (exDeclared (n, i.rev)).contains f }

def exRevOk (n : Name) (o : Option Info) : Bool := match o with
  | some i => i.rev == 1 || (n == 2 && i.rev == 2)
  | none => true

def exNeeds1 (l : Mods) : Bool := match l 2 with
  | some i => i.feats 2
  | none => false

def exCtx (l : Mods) (n : Name) : Option Info := match l n with
  | some i => if n < 3 then some (exNorm n i) else none
  | none =>
    if n = 1 ∧ exNeeds1 l = true then some ⟨1, fun _ => false⟩
    else if n = 0 ∧ (exNeeds1 l || (l 1).isSome) = true then some ⟨1, fun _ => false⟩
    else none

def exLoad (l : Mods) : Option Mods :=
  if exRevOk 0 (l 0) && exRevOk 1 (l 1) && exRevOk 2 (l 2) then some (exCtx l) else none

def exCode (o : Option Info) : Nat := match o with
  | some i => 1 + (i.rev - 1) + 2 * (i.feats 0).toNat + 4 * (i.feats 1).toNat + 8 * (i.feats 2).toNat
  | none => 0

def exKnown (c : Mods) (k : Key) : Bool := match c (k / 2) with
  | some i => k % 2 == 0 || i.feats 0
  | none => false

def exLib : Lib where
  names := [0, 1, 2]
  load := exLoad
  imports := fun f => if f.1 = 1 then [(0, 1)] else []
  depth := 2
  declared := exDeclared
  deps := fun c n => if n = 1 then [0] else if n = 2 ∧ (c 1).isSome then [1] else []
  changedBy := fun _ _ => []
  hash := fun c => exCode (c 0) + 32 * exCode (c 1) + 1024 * exCode (c 2)
  home := fun k => if k < 6 then k / 2 else 99
  keys := [0, 1, 2, 3, 4, 5]
  known := exKnown

theorem lt3 {n : Nat} : n < 3 ↔ n = 0 ∨ n = 1 ∨ n = 2 := by omega

theorem lt6 {n : Nat} (h : n < 6) : n = 0 ∨ n = 1 ∨ n = 2 ∨ n = 3 ∨ n = 4 ∨ n = 5 := by omega

theorem exLoad_some {l c : Mods} (h : exLoad l = some c) :
    c = exCtx l ∧ exRevOk 0 (l 0) = true ∧ exRevOk 1 (l 1) = true ∧ exRevOk 2 (l 2) = true := by
  unfold exLoad at h
  split at h
  · rename_i hc
    cases h
    simp only [Bool.and_eq_true] at hc
    exact ⟨rfl, hc.1.1, hc.1.2, hc.2⟩
  · cases h

theorem exWf {l c : Mods} (h : exLoad l = some c) : Wf exLib c := by
  obtain ⟨rfl, _⟩ := exLoad_some h
  intro n i hi
  unfold exCtx at hi
  split at hi
  · split at hi
    · rename_i hn
      cases hi
      refine ⟨?_, fun f hf => ?_⟩
      · simp only [exLib, List.mem_cons, List.not_mem_nil, or_false]; exact lt3.1 hn
      · simp only [exNorm, Bool.and_eq_true, List.contains_eq_mem, decide_eq_true_eq] at hf
        exact hf.2
    · cases hi
  · split at hi
    · rename_i hn; cases hi; simp [exLib, hn.1]
    · split at hi
      · rename_i hn; cases hi; simp [exLib, hn.1]
      · cases hi

theorem exNorm_eq {n : Name} {i : Info} (h : ∀ f, i.feats f = true → f ∈ exDeclared (n, i.rev)) :
    exNorm n i = i := by
  unfold exNorm
  cases i with
  | mk rev feats =>
    simp only [Info.mk.injEq, true_and]
    funext f
    cases hf : feats f with
    | false => rfl
    | true => have := h f hf; simp only at this; simp [this]

theorem exCtx_keep {l : Mods} (hl : Wf exLib l) {n : Name} {i : Info} (h : l n = some i) :
    exCtx l n = some i := by
  obtain ⟨h1, h2⟩ := hl n i h
  unfold exCtx
  rw [h]
  simp only
  have hn : n < 3 := by
    simp only [exLib, List.mem_cons, List.not_mem_nil, or_false] at h1; exact lt3.2 h1
  rw [if_pos hn, exNorm_eq h2]

theorem exNeeds1_ctx {l : Mods} : exNeeds1 (exCtx l) = exNeeds1 l := by
  unfold exNeeds1
  cases h : l 2 with
  | some i => simp [exCtx, h, exNorm, exDeclared]
  | none => simp [exCtx, h]

theorem exClosed {l c : Mods} (h : exLoad l = some c) : exLoad c = some c := by
  have hw := exWf h
  obtain ⟨rfl, r0, r1, r2⟩ := exLoad_some h
  have hr : ∀ n, n < 3 → exRevOk n (l n) = true → exRevOk n (exCtx l n) = true := by
    intro n hn hh
    unfold exCtx
    cases hl : l n with
    | some i => rw [hl] at hh; simp only [if_pos hn]; exact hh
    | none =>
      simp only
      split
      · rfl
      · split <;> rfl
  unfold exLoad
  rw [if_pos (by rw [hr 0 (by decide) r0, hr 1 (by decide) r1, hr 2 (by decide) r2]; rfl)]
  congr 1
  funext n
  cases hn : exCtx l n with
  | some i => exact exCtx_keep hw hn
  | none =>
    have hout : ∀ c : Mods, c n = none → exCtx c n =
        if n = 1 ∧ exNeeds1 c = true then some ⟨1, fun _ => false⟩
        else if n = 0 ∧ (exNeeds1 c || (c 1).isSome) = true then some ⟨1, fun _ => false⟩
        else none := by
      intro c hc; unfold exCtx; rw [hc]
    rw [hout _ hn]
    rw [exNeeds1_ctx]
    unfold exCtx at hn
    have h1 : (exCtx l 1).isSome = ((l 1).isSome || exNeeds1 l) := by
      unfold exCtx
      cases hl : l 1 with
      | some i => simp
      | none => simp only [Option.isSome_none, Bool.false_or]; cases exNeeds1 l <;> simp
    cases hl : l n with
    | some i =>
      rw [hl] at hn
      simp only at hn
      split at hn
      · cases hn
      · rename_i hn3
        have a1 : ¬ (n = 1 ∧ exNeeds1 l = true) := by rintro ⟨rfl, _⟩; exact hn3 (by decide)
        have a0 : ∀ b : Bool, ¬ (n = 0 ∧ b = true) := by rintro b ⟨rfl, _⟩; exact hn3 (by decide)
        rw [if_neg a1, if_neg (a0 _)]
    | none =>
      rw [hl] at hn
      simp only at hn
      split at hn
      · cases hn
      · rename_i a1
        split at hn
        · cases hn
        · rename_i a0
          rw [if_neg a1, if_neg]
          rintro ⟨rfl, hb⟩
          refine a0 ⟨rfl, ?_⟩
          rw [show (exCtx l 1).isSome = ((l 1).isSome || exNeeds1 l) from h1] at hb
          cases hx : exNeeds1 l <;> simp_all

theorem exLess {l m c d : Mods} {n : Name} {i : Info} (hl : Wf exLib l) (hm : Wf exLib m)
    (hc : exLoad l = some c) (hd : exLoad m = some d) (hsub : ∀ x j, l x = some j → m x = some j)
    (hi : c n = some i) : ∃ j, d n = some j ∧ j.rev = i.rev := by
  obtain ⟨rfl, _⟩ := exLoad_some hc
  obtain ⟨rfl, r0, r1, r2⟩ := exLoad_some hd
  have hneeds : exNeeds1 l = true → exNeeds1 m = true := by
    unfold exNeeds1
    cases h2 : l 2 with
    | none => simp
    | some j => rw [hsub 2 j h2]; exact id
  cases hln : l n with
  | some j =>
    have h1 := exCtx_keep hl hln
    rw [hi] at h1
    cases h1
    exact ⟨i, exCtx_keep hm (hsub n i hln), rfl⟩
  | none =>
    have hrev : i.rev = 1 ∧ (n = 1 ∧ exNeeds1 l = true ∨ n = 0 ∧ (exNeeds1 l || (l 1).isSome) = true) := by
      unfold exCtx at hi
      rw [hln] at hi
      simp only at hi
      split at hi
      · rename_i h; cases hi; exact ⟨rfl, Or.inl h⟩
      · split at hi
        · rename_i h; cases hi; exact ⟨rfl, Or.inr h⟩
        · cases hi
    obtain ⟨hrev, hwhy⟩ := hrev
    cases hmn : m n with
    | some j =>
      refine ⟨j, exCtx_keep hm hmn, ?_⟩
      rw [hrev]
      rcases hwhy with ⟨rfl, _⟩ | ⟨rfl, _⟩
      · rw [hmn] at r1; simpa [exRevOk] using r1
      · rw [hmn] at r0; simpa [exRevOk] using r0
    | none =>
      refine ⟨⟨1, fun _ => false⟩, ?_, by rw [hrev]⟩
      unfold exCtx
      rw [hmn]
      simp only
      rcases hwhy with ⟨rfl, h⟩ | ⟨rfl, h⟩
      · rw [if_pos ⟨rfl, hneeds h⟩]
      · rw [if_neg (by simp), if_pos]
        refine ⟨rfl, ?_⟩
        rw [Bool.or_eq_true] at h ⊢
        rcases h with h | h
        · exact Or.inl (hneeds h)
        · right
          obtain ⟨j, hj⟩ := Option.isSome_iff_exists.1 h
          rw [hsub 1 j hj]; rfl

theorem exHash {a b : Mods} (ha : exLoad a = some a) (hb : exLoad b = some b)
    (h : exLib.hash a = exLib.hash b) : a = b := by
  have hwa := exWf ha
  have hwb := exWf hb
  obtain ⟨_, a0, a1, a2⟩ := exLoad_some ha
  obtain ⟨_, b0, b1, b2⟩ := exLoad_some hb
  have hle : ∀ n o, exRevOk n o = true → exCode o < 32 := by
    intro n o ho
    unfold exCode
    split
    · rename_i i
      simp only [exRevOk, Bool.or_eq_true, beq_iff_eq, Bool.and_eq_true] at ho
      have h0 := Bool.toNat_le (i.feats 0)
      have h1 := Bool.toNat_le (i.feats 1)
      have h2 := Bool.toNat_le (i.feats 2)
      omega
    · omega
  have l0 := hle 0 _ a0
  have l1 := hle 1 _ a1
  have l2 := hle 2 _ a2
  have m0 := hle 0 _ b0
  have m1 := hle 1 _ b1
  have m2 := hle 2 _ b2
  simp only [exLib] at h
  have e0 : exCode (a 0) = exCode (b 0) := by omega
  have e1 : exCode (a 1) = exCode (b 1) := by omega
  have e2 : exCode (a 2) = exCode (b 2) := by omega
  have hone : ∀ n, exRevOk n (a n) = true → exRevOk n (b n) = true → exCode (a n) = exCode (b n) →
      a n = b n := by
    intro n hra hrb he
    cases hx : a n with
    | none =>
      cases hy : b n with
      | none => rfl
      | some j => rw [hx, hy] at he; simp only [exCode] at he; omega
    | some i =>
      cases hy : b n with
      | none => rw [hx, hy] at he; simp only [exCode] at he; omega
      | some j =>
        rw [hx] at hra
        rw [hy] at hrb
        rw [hx, hy] at he
        simp only [exRevOk, Bool.or_eq_true, beq_iff_eq, Bool.and_eq_true] at hra hrb
        simp only [exCode] at he
        have hi0 := Bool.toNat_le (i.feats 0)
        have hi1 := Bool.toNat_le (i.feats 1)
        have hi2 := Bool.toNat_le (i.feats 2)
        have hj0 := Bool.toNat_le (j.feats 0)
        have hj1 := Bool.toNat_le (j.feats 1)
        have hj2 := Bool.toNat_le (j.feats 2)
        have ha' : i.rev = 1 ∨ i.rev = 2 := by omega
        have hb' : j.rev = 1 ∨ j.rev = 2 := by omega
        clear hra hrb
        have hrev : i.rev = j.rev := by omega
        have f0 : (i.feats 0).toNat = (j.feats 0).toNat := by omega
        have f1 : (i.feats 1).toNat = (j.feats 1).toNat := by omega
        have f2 : (i.feats 2).toNat = (j.feats 2).toNat := by omega
        have toB : ∀ x y : Bool, x.toNat = y.toNat → x = y := by
          intro x y; cases x <;> cases y <;> simp
        congr 1
        have da := (hwa n i hx).2
        have db := (hwb n j hy).2
        have hfe : i.feats = j.feats := by
          funext f
          by_cases hf : f < 3
          · rcases lt3.1 hf with rfl | rfl | rfl
            · exact toB _ _ f0
            · exact toB _ _ f1
            · exact toB _ _ f2
          · have hbig : ∀ g : File, f ∉ exDeclared g := by
              intro g hg
              unfold exDeclared at hg
              split at hg
              · simp only [List.mem_cons, List.not_mem_nil, or_false] at hg; exact hf (lt3.2 hg)
              · simp only [List.mem_cons, List.not_mem_nil, or_false] at hg; exact hf (lt3.2 (Or.inl hg))
            cases hif : i.feats f with
            | true => exact absurd (da f hif) (hbig _)
            | false =>
              cases hjf : j.feats f with
              | true => exact absurd (db f hjf) (hbig _)
              | false => rfl
        cases i with
        | mk r1 f1' => cases j with
          | mk r2 f2' =>
            simp only at hrev hfe
            rw [hrev, hfe]
  funext n
  by_cases hn : n < 3
  · rcases lt3.1 hn with rfl | rfl | rfl
    · exact hone 0 a0 b0 e0
    · exact hone 1 a1 b1 e1
    · exact hone 2 a2 b2 e2
  · have ho : ∀ c : Mods, Wf exLib c → c n = none := by
      intro c hc
      cases hx : c n with
      | none => rfl
      | some i =>
        have := (hc n i hx).1
        simp only [exLib, List.mem_cons, List.not_mem_nil, or_false] at this; exact absurd (lt3.2 this) hn
    rw [ho a hwa, ho b hwb]

/-- The laws hold of the example library. -/
theorem exLaws : Laws exLib where
  wf := exWf
  keeps := fun hw h hi => by
    obtain ⟨rfl, _⟩ := exLoad_some h
    exact exCtx_keep hw hi
  closed := exClosed
  less := exLess
  listed := by
    intro k hk
    simp only [exLib] at hk ⊢
    split at hk
    · rename_i h6
      simp only [List.mem_cons, List.not_mem_nil, or_false]; exact lt6 h6
    · simp at hk
  hash := exHash

/-! ## An example state -/

/-- Modules 0 and 2 are installed, feature 0 of module 2 is enabled. -/
def exMods : Mods := fun n =>
  if n = 0 then some ⟨1, fun _ => false⟩ else if n = 2 then some ⟨1, fun f => f == 0⟩ else none

def exRec : Rec := ⟨exMods, fun _ => [], exLib.hash exMods⟩

def exState : State where
  lyd := exRec
  shm := exRec
  yang := fun f => f == (0, 1) || f == (2, 1)
  inst := fun n _ => n == 0 || n == 2
  data := fun d k => if d = .running ∧ k = 4 then some 7 else if d = .running ∧ k = 5 then some 8 else none
  oper := fun _ => false
  cid := exLib.hash exMods
  conns := fun c => if c < 2 then some ⟨exMods, exLib.hash exMods, some exMods⟩ else none

theorem exMods_closed : exLoad exMods = some exMods := by
  have h : exLoad exMods = some (exCtx exMods) := rfl
  rw [h]
  congr 1
  funext n
  by_cases h0 : n = 0
  · subst h0; rfl
  · by_cases h2 : n = 2
    · subst h2
      rw [show exCtx exMods 2 = some (exNorm 2 ⟨1, fun f => f == 0⟩) from rfl, exNorm_eq]
      · rfl
      · intro f hf
        have : f = 0 := by simpa using hf
        subst this; decide
    · simp [exCtx, exMods, h0, h2, exNeeds1]

theorem exGood : Good exLib exState where
  same := rfl
  closed := exMods_closed
  files := by decide
  inst := by
    intro n i hi d
    simp only [exState, exRec, exMods] at hi ⊢
    split at hi
    · rename_i h; simp [h]
    · split at hi
      · rename_i h; simp [h]
      · cases hi
  clean := by
    intro n hi d
    simp only [exState, exRec, exMods] at hi ⊢
    split at hi
    · cases hi
    · rename_i h0
      split at hi
      · cases hi
      · rename_i h2; simp [h0, h2]
  nodata := by
    intro d k hk
    simp only [exState]
    split
    · rename_i h; rw [h.2] at hk; cases hk
    · split
      · rename_i h; rw [h.2] at hk; cases hk
      · rfl
  cid := rfl
  conns := by
    intro c k hk
    simp only [exState] at hk
    split at hk
    · cases hk; exact ⟨rfl, exMods_closed⟩
    · cases hk

/-- Circumstances in which everything goes on. -/
def calm : Call := ⟨fun _ => .go, exRec, fun _ => false⟩

/-- Circumstances in which one step fails. -/
def failing (p : Pt) : Call := ⟨fun q => if q = p then .fail else .go, exRec, fun _ => false⟩

/-- Circumstances in which the process dies at one step. -/
def dying (p : Pt) : Call := ⟨fun q => if q = p then .die else .go, exRec, fun _ => false⟩

/-- What can be seen of a module: revision and the features 0 to 2. -/
def seen (m : Mods) (n : Name) : Option (Nat × Bool × Bool × Bool) :=
  (m n).map fun i => (i.rev, i.feats 0, i.feats 1, i.feats 2)

/-! ## Installing -/

/-- An installation that succeeds installs what was asked for: a new module in the revision of its
schema with the features asked for (all for "*"), an installed one keeps its revision and its
features and gets those asked for; every other installed module stays as it is, and a module is added
only if it is imported by a new one. Internal data, shared memory, YANG files, plugins and the content
ID agree afterwards and the connection has the new context.
Partial: the installation read the modules without being overtaken by another change of modules; no
module is listed twice; enabling a feature of an installed module names all its enabled features too;
and "*" for an installed module is read as no features. The code violates the property otherwise, see
`hole_disables_features`, `star_ignored`, `install_race_loses_feature` and
`install_race_kills`. -/
theorem install_success_partial {lib : Lib} (laws : Laws lib) {call : Call} {c : Nat} {reqs : List Req}
    {init : Option (Key → Option Val)} {s s' : State} (hg : Good lib s)
    (hsnap : (s.conn c).snap = some s.shm.mods)
    (hnd : (reqs.map (·.name)).Nodup) (hnm : ∀ r ∈ reqs, r.name ∈ lib.names)
    (hhole : NoHole s.shm.mods reqs)
    (h : install lib call c reqs init s = (s', .ok)) :
    Good lib s' ∧ (s'.conn c).ctx = s'.shm.mods ∧
    (∀ r ∈ reqs, ∃ i, s'.shm.mods r.name = some i ∧
      (s.shm.mods r.name = none → i.rev = r.rev ∧ ∀ f, i.feats f = true ↔
        (r.star = true ∧ f ∈ lib.declared (r.name, r.rev)) ∨ (r.star = false ∧ f ∈ r.feats)) ∧
      (∀ j, s.shm.mods r.name = some j → i.rev = j.rev ∧ ∀ f, i.feats f = true ↔
        j.feats f = true ∨ (r.star = false ∧ f ∈ r.feats))) ∧
    (∀ n i, n ∉ reqs.map (·.name) → s.shm.mods n = some i → s'.shm.mods n = some i) ∧
    (∀ n i, n ∉ reqs.map (·.name) → s.shm.mods n = none → s'.shm.mods n = some i →
      ∃ r ∈ reqs, s.shm.mods r.name = none ∧ (n, i.rev) ∈ reach lib (r.name, r.rev)) := by
  rcases install_cases laws (by simp) (by simp) hg hsnap hnd hnm hhole (by simp) h (by simp) with
    ⟨_, hI | ⟨hno, hgd, hsm, hcx, _⟩⟩ | ⟨hx, _⟩
  · refine ⟨hI.good, hI.ctx, ?_, hI.kept, hI.implied⟩
    intro r hr
    refine ⟨_, hI.wanted r hr, ?_, ?_⟩
    · intro hn
      unfold want
      rw [hn]
      refine ⟨rfl, fun f => ?_⟩
      cases r.star <;> simp
    · intro j hj
      unfold want
      rw [hj]
      refine ⟨rfl, fun f => ?_⟩
      simp only [Req.named]
      cases r.star <;> simp
  · have hm : s'.shm.mods = s.shm.mods := hsm.shm
    refine ⟨hgd, hcx, ?_, ?_, ?_⟩
    · intro r hr
      obtain ⟨i, hi, hon⟩ := hno r hr
      refine ⟨i, by rw [hm, hi], ?_, ?_⟩
      · intro hx; rw [hi] at hx; cases hx
      · intro j hj
        rw [hi] at hj
        have hj := Option.some.inj hj
        subst hj
        refine ⟨rfl, fun f => ⟨Or.inl, ?_⟩⟩
        rintro (h1 | ⟨h1, h2⟩)
        · exact h1
        · exact hon f (by simp [Req.named, h1, h2])
    · intro n i _ hi; rw [hm]; exact hi
    · intro n i _ hn hi; rw [hm, hn] at hi; cases hi
  · cases hx

/-- A new module together with a feature of an installed one, naming the enabled one too. -/
def exReqs : List Req := [⟨1, 1, [], false⟩, ⟨2, 1, [0, 1], false⟩]

/-- The hypotheses are met by an installation of a new module with a feature of an installed one, and
it succeeds. -/
example : (exState.conn 0).snap = some exState.shm.mods ∧ (exReqs.map (·.name)).Nodup ∧
    (∀ r ∈ exReqs, r.name ∈ exLib.names) ∧ NoHole exState.shm.mods exReqs ∧
    (install exLib calm 0 exReqs none exState).2 = .ok ∧
    seen (install exLib calm 0 exReqs none exState).1.shm.mods 1 = some (1, false, false, false) ∧
    seen (install exLib calm 0 exReqs none exState).1.shm.mods 2 = some (1, true, true, false) := by
  refine ⟨rfl, by decide, by decide, ?_, by decide +kernel, by decide +kernel, by decide +kernel⟩
  intro r hr i hi
  simp only [exReqs, List.mem_cons, List.not_mem_nil, or_false] at hr
  rcases hr with rfl | rfl
  · cases hi
  · right
    have hi := Option.some.inj hi
    subst hi
    intro f hf
    have : f = 0 := by simpa using hf
    subst this; decide

theorem mem_confDs {d : Ds} : d ∈ confDs ↔ d = .startup ∨ d = .running ∨ d = .factory := by
  cases d <;> decide

/-- The data after an installation that did something: for the modules of the new context the initial
data given, and else what was stored, without nodes the new context does not know. Partial as above. -/
theorem install_data_partial {lib : Lib} (laws : Laws lib) {call : Call} {c : Nat} {reqs : List Req}
    {init : Option (Key → Option Val)} {s s' : State} (hg : Good lib s)
    (hsnap : (s.conn c).snap = some s.shm.mods)
    (hnd : (reqs.map (·.name)).Nodup) (hnm : ∀ r ∈ reqs, r.name ∈ lib.names)
    (hhole : NoHole s.shm.mods reqs)
    (h : install lib call c reqs init s = (s', .ok))
    (hsome : ∃ r ∈ reqs, s.shm.mods r.name = none) :
    ∀ d k, ((s'.shm.mods (lib.home k)).isSome = false → s'.data d k = none) ∧
      (d = .startup ∨ d = .running ∨ d = .factory → (s'.shm.mods (lib.home k)).isSome = true →
        (∀ g v, init = some g → g k = some v → s'.data d k = some v) ∧
        ((init = none ∨ ∃ g, init = some g ∧ g k = none) → lib.known s'.shm.mods k = true →
          s'.data d k = s.data d k) ∧
        ((init = none ∨ ∃ g, init = some g ∧ g k = none) → lib.known s'.shm.mods k = false →
          s'.data d k = none)) ∧
      (d = .candidate ∨ d = .operational → s'.data d k = s.data d k) := by
  rcases install_cases laws (by simp) (by simp) hg hsnap hnd hnm hhole (by simp) h (by simp) with
    ⟨_, hI | ⟨hno, _⟩⟩ | ⟨hx, _⟩
  · intro d k
    have hd := hI.data d k
    refine ⟨?_, ?_, ?_⟩
    · intro hn
      refine hI.good.nodata d k ?_
      cases hx : s'.shm.mods (lib.home k) with
      | none => rfl
      | some i => rw [hx] at hn; cases hn
    · intro hc hin
      rw [if_pos ⟨mem_confDs.2 hc, hin⟩] at hd
      refine ⟨?_, ?_, ?_⟩
      · rintro g v rfl hv
        rw [hd]; simp [hv]
      · intro hi hk
        have : (init.getD fun _ => none) k = none := by
          rcases hi with rfl | ⟨g, rfl, hgk⟩
          · rfl
          · exact hgk
        rw [hd, this]; simp [hk]
      · intro hi hk
        have : (init.getD fun _ => none) k = none := by
          rcases hi with rfl | ⟨g, rfl, hgk⟩
          · rfl
          · exact hgk
        rw [hd, this]; simp [hk]
    · intro hc
      rw [hd, if_neg]
      rintro ⟨h1, _⟩
      rcases mem_confDs.1 h1 with h1 | h1 | h1 <;> rw [h1] at hc <;> simp at hc
  · obtain ⟨r, hr, hn⟩ := hsome
    obtain ⟨i, hi, _⟩ := hno r hr
    rw [hn] at hi; cases hi
  · cases hx

/-- The data of module 2 are kept when module 1 is installed with a value for its node. -/
example : (install exLib calm 0 [⟨1, 1, [], false⟩] (some fun k => if k = 2 then some 9 else none)
      exState).2 = .ok ∧
    (install exLib calm 0 [⟨1, 1, [], false⟩] (some fun k => if k = 2 then some 9 else none)
      exState).1.data .running 2 = some 9 ∧
    (install exLib calm 0 [⟨1, 1, [], false⟩] (some fun k => if k = 2 then some 9 else none)
      exState).1.data .running 5 = some 8 := by decide +kernel

/-- An installation that fails leaves everything as it was: modules, features, data, plugins and the
content ID, and all that agrees still agrees.
Partial: storing the modules in shared memory and storing data do not fail, the undo itself does not
fail, and no installed module would come to depend on a new one; the code violates the property
otherwise, see `failed_store_changes_data` and `back_dependency_keeps_module`. -/
theorem install_failure_partial {lib : Lib} (laws : Laws lib) {call : Call} {c : Nat} {reqs : List Req}
    {init : Option (Key → Option Val)} {s s' : State} (hg : Good lib s)
    (hsnap : (s.conn c).snap = some s.shm.mods)
    (hnd : (reqs.map (·.name)).Nodup) (hnm : ∀ r ∈ reqs, r.name ∈ lib.names)
    (hhole : NoHole s.shm.mods reqs) (hlate : Late call) (hu : UndoGoes call)
    (hback : NoBack lib s.shm.mods)
    (h : install lib call c reqs init s = (s', .err)) :
    Good lib s' ∧ s'.lyd.mods = s.lyd.mods ∧ s'.shm.mods = s.shm.mods ∧ s'.inst = s.inst ∧
      s'.data = s.data ∧ s'.cid = s.cid ∧ ∀ x, x ≠ c → s'.conns x = s.conns x := by
  rcases install_cases laws (fun _ => hlate) (fun _ => hu) hg hsnap hnd hnm hhole (fun _ => hback) h
    (by simp) with ⟨hx, _⟩ | ⟨_, h1, h2, h3⟩
  · cases hx
  · exact ⟨h1, h2.lyd, h2.shm, h2.inst, h2.data, h2.cid, h3⟩

/-- A state with module 0 only. -/
def exMods0 : Mods := fun n => if n = 0 then some ⟨1, fun _ => false⟩ else none

def exState0 : State := { exState with
  lyd := ⟨exMods0, fun _ => [], exLib.hash exMods0⟩
  shm := ⟨exMods0, fun _ => [], exLib.hash exMods0⟩
  inst := fun n _ => n == 0
  data := fun _ _ => none
  cid := exLib.hash exMods0
  conns := fun c => if c < 2 then some ⟨exMods0, exLib.hash exMods0, some exMods0⟩ else none }

theorem exMods0_closed : exLoad exMods0 = some exMods0 := by
  have h : exLoad exMods0 = some (exCtx exMods0) := rfl
  rw [h]
  congr 1
  funext n
  by_cases h0 : n = 0
  · subst h0; rfl
  · simp [exCtx, exMods0, h0, exNeeds1]

/-- The hypotheses are met by an installation that fails late, after shared memory was written. -/
example : Good exLib exState0 ∧ (exState0.conn 0).snap = some exState0.shm.mods ∧
    NoHole exState0.shm.mods [⟨1, 1, [], false⟩] ∧ Late (failing (.yang 1)) ∧
    UndoGoes (failing (.yang 1)) ∧ NoBack exLib exState0.shm.mods ∧
    (install exLib (failing (.yang 1)) 0 [⟨1, 1, [], false⟩] none exState0).2 = .err := by
  refine ⟨⟨rfl, exMods0_closed, by decide, ?_, ?_, fun _ _ _ => rfl, rfl, ?_⟩, rfl, ?_, ?_, ?_, ?_, by decide +kernel⟩
  · intro n i hi d
    simp only [exState0, exMods0] at hi ⊢
    split at hi
    · rename_i h; simp [h]
    · cases hi
  · intro n hi d
    simp only [exState0, exMods0] at hi ⊢
    split at hi
    · cases hi
    · rename_i h; simpa using h
  · intro c k hk
    simp only [exState0] at hk
    split at hk
    · cases hk; exact ⟨rfl, exMods0_closed⟩
    · cases hk
  · intro r hr i hi
    rw [List.mem_singleton] at hr
    subst hr
    cases hi
  · exact ⟨by simp [failing], by simp [failing], by simp [failing]⟩
  · exact ⟨by simp [failing], by simp [failing], by simp [failing], by simp [failing]⟩
  · intro l ctx n t _ hn ht
    have : n = 0 := by
      by_cases h0 : n = 0
      · exact h0
      · simp [exState0, exMods0, h0] at hn
    subst this
    simp [exLib] at ht

/-! ## Removing -/

/-- A removal that succeeds removes exactly the modules of the call (with force also those augmenting
or deviating them) from the internal data, shared memory and every datastore; all other modules keep
their revision, features and data, except nodes the smaller context does not know; the modules left
need none of the removed ones, and everything agrees afterwards. -/
theorem remove_success {lib : Lib} (laws : Laws lib) {call : Call} {c : Nat} {asked : List Name}
    {force : Bool} {s s' : State} (hg : Good lib s)
    (h : remove lib call c asked force s = (s', .ok)) :
    Good lib s' ∧ (s'.conn c).ctx = s'.shm.mods ∧
    (∀ n ∈ asked, (s.shm.mods n).isSome = true → s'.shm.mods n = none) ∧
    (force = false → ∀ n, n ∉ asked → s'.shm.mods n = s.shm.mods n) ∧
    (∀ n, s'.shm.mods n = none ∨ s'.shm.mods n = s.shm.mods n) ∧
    (∀ d k, s'.shm.mods (lib.home k) = none → s'.data d k = none) ∧
    (∀ d k, (s'.shm.mods (lib.home k)).isSome = true → lib.known s'.shm.mods k = true →
      s'.data d k = s.data d k) ∧
    (∀ d k, d = .startup ∨ d = .running ∨ d = .factory → lib.known s'.shm.mods k = false →
      s'.data d k = none) ∧
    (∀ n d, s'.inst n d = true ↔ (s'.shm.mods n).isSome = true) ∧
    lib.load s'.shm.mods = some s'.shm.mods := by
  rcases remove_cases laws (by simp) hg h (by simp) with ⟨_, hR⟩ | ⟨hx, _⟩
  · have hsub : ∀ n ∈ asked, n ∈ delOf lib s asked force := by
      intro n hn
      unfold delOf toRemove
      split
      · have : ∀ k l, n ∈ l → n ∈ closure lib s.shm.mods k l := by
          intro k
          induction k with
          | zero => intro l hl; exact hl
          | succ k ih => intro l hl; exact ih _ (by simp [hl])
        exact this _ _ hn
      · exact hn
    refine ⟨hR.good, hR.ctx, ?_, ?_, ?_, ?_, ?_, ?_, ?_, hR.good.closed⟩
    · intro n hn _
      rw [hR.mods n, if_pos (hsub n hn)]
    · rintro rfl n hn
      rw [hR.mods n, if_neg]
      simpa [delOf, toRemove] using hn
    · intro n
      rw [hR.mods n]
      split
      · exact Or.inl rfl
      · exact Or.inr rfl
    · exact hR.good.nodata
    · intro d k hs hk
      have hnd : lib.home k ∉ delOf lib s asked force := by
        intro hin
        rw [hR.mods, if_pos hin] at hs; cases hs
      rw [hR.data d k, if_neg hnd, if_neg]
      rintro ⟨_, hx⟩; rw [hk] at hx; cases hx
    · intro d k hd hk
      rw [hR.data d k]
      split
      · rfl
      · rw [if_pos ⟨mem_confDs.2 hd, hk⟩]
    · intro n d
      constructor
      · intro hi
        cases hx : s'.shm.mods n with
        | some i => rfl
        | none => rw [hR.good.clean n hx d] at hi; cases hi
      · intro hs
        obtain ⟨i, hi⟩ := Option.isSome_iff_exists.1 hs
        exact hR.good.inst n i hi d
  · cases hx

example : (remove exLib calm 0 [2] false exState).2 = .ok ∧
    seen (remove exLib calm 0 [2] false exState).1.shm.mods 2 = none ∧
    (remove exLib calm 0 [2] false exState).1.data .running 4 = none := by decide +kernel

/-- A removal that fails changes nothing but pushed operational data of the modules to be removed.
Partial: the steps after the internal data were stored do not fail; the code violates the property
otherwise, see `failed_remove_removes`. -/
theorem remove_failure_partial {lib : Lib} (laws : Laws lib) {call : Call} {c : Nat} {asked : List Name}
    {force : Bool} {s s' : State} (hg : Good lib s) (hlate : Late call)
    (h : remove lib call c asked force s = (s', .err)) :
    Good lib s' ∧ s'.lyd.mods = s.lyd.mods ∧ s'.shm.mods = s.shm.mods ∧ s'.inst = s.inst ∧
      s'.data = s.data ∧ s'.cid = s.cid ∧ ∀ x, x ≠ c → s'.conns x = s.conns x := by
  rcases remove_cases laws (fun _ => hlate) hg h (by simp) with ⟨hx, _⟩ | ⟨_, h1, h2, h3⟩
  · cases hx
  · exact ⟨h1, h2.lyd, h2.shm, h2.inst, h2.data, h2.cid, h3⟩

example : Late (failing .subs) ∧ (remove exLib (failing .subs) 0 [2] false exState).2 = .err :=
  ⟨⟨by simp [failing], by simp [failing], by simp [failing]⟩, by decide +kernel⟩

/-- A module another installed module needs is not removed: the call fails. -/
theorem remove_refused {lib : Lib} (laws : Laws lib) {call : Call} {c : Nat} {asked : List Name}
    {s s' : State} {r : Res} {new : Mods} {n : Name} (hg : Good lib s)
    (hload : lib.load (fun x => if x ∈ asked then none else s.shm.mods x) = some new)
    (hn : n ∈ asked) (hneed : (new n).isSome = true)
    (h : remove lib call c asked false s = (s', r)) : r ≠ .ok := by
  rintro rfl
  rcases remove_cases laws (by simp) hg h (by simp) with ⟨_, hR⟩ | ⟨hx, _⟩
  · have hm : s'.shm.mods = fun x => if x ∈ asked then none else s.shm.mods x := by
      funext x
      rw [hR.mods x]; rfl
    have hc := hR.good.closed
    rw [hm, hload] at hc
    have hc := Option.some.inj hc
    rw [hc] at hneed
    simp [hn] at hneed
  · cases hx

/-- Module 0 is needed by module 1. -/
example : (exLib.load (fun x => if x ∈ [0] then none else
      (install exLib calm 0 exReqs none exState).1.shm.mods x)).map (fun m => (m 0).isSome) = some true ∧
    (remove exLib calm 0 [0] false (install exLib calm 0 exReqs none exState).1).2 = .err := by decide +kernel

/-! ## Updating and changing features -/

/-- An update that succeeds gives exactly the listed modules their new, later revision; they keep their
features and all others stay as they are; data stay, except nodes the new schema does not know. -/
theorem update_success {lib : Lib} (laws : Laws lib) {call : Call} {c : Nat} {upd : List (Name × Nat)}
    {s s' : State} (hg : Good lib s) (hnd : (upd.map (·.1)).Nodup)
    (h : update lib call c upd s = (s', .ok)) :
    Good lib s' ∧ (s'.conn c).ctx = s'.shm.mods ∧
    (∀ n rev, (n, rev) ∈ upd → ∃ i, s.shm.mods n = some i ∧ (i.rev = 0 ∨ i.rev < rev) ∧
      s'.shm.mods n = some ⟨rev, i.feats⟩) ∧
    (∀ n, n ∉ upd.map (·.1) → s'.shm.mods n = s.shm.mods n) ∧
    (∀ d k, lib.known s'.shm.mods k = true → s'.data d k = s.data d k) ∧
    (∀ d k, d = .startup ∨ d = .running ∨ d = .factory → lib.known s'.shm.mods k = false →
      s'.data d k = none) ∧ s'.inst = s.inst := by
  rcases update_cases laws (by simp) (by simp) hg h (by simp) with ⟨_, hC, hrev⟩ | ⟨hx, _⟩
  · refine ⟨hC.good, by rw [hC.ctx, hC.mods], ?_, ?_, ?_, ?_, hC.inst⟩
    · intro n rev hm
      obtain ⟨i, hi, _, hlt⟩ := hrev (n, rev) hm
      refine ⟨i, hi, hlt, ?_⟩
      rw [hC.mods]
      unfold updatedMods
      have hfind : upd.find? (fun u => u.1 == n) = some (n, rev) := by
        clear hC hrev h
        induction upd with
        | nil => cases hm
        | cons a l ih =>
          rw [List.map_cons, List.nodup_cons] at hnd
          rcases List.mem_cons.1 hm with hm | hm
          · subst hm; simp
          · have hne : (a.1 == n) = false := by
              rw [beq_eq_false_iff_ne]
              intro he
              exact hnd.1 (List.mem_map.2 ⟨(n, rev), hm, he.symm⟩)
            rw [List.find?_cons, hne]
            exact ih hnd.2 hm
      rw [hfind, hi]
      rfl
    · intro n hn
      rw [hC.mods]
      unfold updatedMods
      have hfind : upd.find? (fun u => u.1 == n) = none := by
        rw [List.find?_eq_none]
        intro u hu
        simp only [beq_iff_eq]
        intro he
        exact hn (List.mem_map.2 ⟨u, hu, he⟩)
      rw [hfind]
    · intro d k hk
      rw [hC.mods] at hk
      rw [hC.data d k, if_neg]
      rintro ⟨_, hx⟩; rw [hk] at hx; cases hx
    · intro d k hd hk
      rw [hC.mods] at hk
      rw [hC.data d k, if_pos ⟨mem_confDs.2 hd, hk⟩]
  · cases hx

example : (update exLib calm 0 [(2, 2)] exState).2 = .ok ∧
    seen (update exLib calm 0 [(2, 2)] exState).1.shm.mods 2 = some (2, true, false, false) := by decide +kernel

/-- An update that fails changes nothing.
Partial: the steps after the internal data were stored do not fail; the code violates the property
otherwise, see `failed_update_breaks_connecting`. -/
theorem update_failure_partial {lib : Lib} (laws : Laws lib) {call : Call} {c : Nat}
    {upd : List (Name × Nat)} {s s' : State} (hg : Good lib s) (hlate : Late call)
    (hyang : ∀ n, call.fate (.yang n) ≠ .fail)
    (h : update lib call c upd s = (s', .err)) :
    Good lib s' ∧ s'.lyd.mods = s.lyd.mods ∧ s'.shm.mods = s.shm.mods ∧ s'.inst = s.inst ∧
      s'.data = s.data ∧ s'.cid = s.cid ∧ ∀ x, x ≠ c → s'.conns x = s.conns x := by
  rcases update_cases laws (fun _ => hlate) (fun _ => hyang) hg h (by simp) with ⟨hx, _⟩ | ⟨_, h1, h2, h3⟩
  · cases hx
  · exact ⟨h1, h2.lyd, h2.shm, h2.inst, h2.data, h2.cid, h3⟩

example : (∀ n, (failing .valid).fate (.yang n) ≠ .fail) ∧
    (update exLib (failing .valid) 0 [(2, 2)] exState).2 = .err ∧
    (update exLib calm 0 [(2, 1)] exState).2 = .err := ⟨by simp [failing], by decide +kernel, by decide +kernel⟩

/-- A change of a feature that succeeds changes exactly that feature: it was declared and in the other
state before; all other features and modules stay, and data except nodes the new schema does not
know. -/
theorem feature_success {lib : Lib} (laws : Laws lib) {call : Call} {c : Nat} {n : Name} {f : Feat}
    {en : Bool} {s s' : State} (hg : Good lib s)
    (h : feature lib call c n f en s = (s', .ok)) :
    Good lib s' ∧ (s'.conn c).ctx = s'.shm.mods ∧
    (∃ i j, s.shm.mods n = some i ∧ s'.shm.mods n = some j ∧ j.rev = i.rev ∧
      f ∈ lib.declared (n, i.rev) ∧ i.feats f = (!en) ∧ j.feats f = en ∧
      ∀ g, g ≠ f → j.feats g = i.feats g) ∧
    (∀ x, x ≠ n → s'.shm.mods x = s.shm.mods x) ∧
    (∀ d k, lib.known s'.shm.mods k = true → s'.data d k = s.data d k) ∧
    (∀ d k, d = .startup ∨ d = .running ∨ d = .factory → lib.known s'.shm.mods k = false →
      s'.data d k = none) ∧ s'.inst = s.inst := by
  rcases feature_cases laws (by simp) hg h (by simp) with ⟨_, hC, i, hi, hdecl, hoff⟩ | ⟨hx, _⟩
  · refine ⟨hC.good, by rw [hC.ctx, hC.mods], ?_, ?_, ?_, ?_, hC.inst⟩
    · refine ⟨i, { i with feats := fun y => if y = f then en else i.feats y }, hi, ?_, rfl, hdecl, hoff, ?_, ?_⟩
      · rw [hC.mods]; simp [featureMods, hi]
      · simp
      · intro g hg'; simp [hg']
    · intro x hx; rw [hC.mods]; simp [featureMods, hx]
    · intro d k hk
      rw [hC.mods] at hk
      rw [hC.data d k, if_neg]
      rintro ⟨_, hx⟩; rw [hk] at hx; cases hx
    · intro d k hd hk
      rw [hC.mods] at hk
      rw [hC.data d k, if_pos ⟨mem_confDs.2 hd, hk⟩]
  · cases hx

example : (feature exLib calm 0 2 1 true exState).2 = .ok ∧
    seen (feature exLib calm 0 2 1 true exState).1.shm.mods 2 = some (1, true, true, false) ∧
    (feature exLib calm 0 2 0 false exState).1.data .running 5 = none := by decide +kernel

/-- A change of a feature that fails changes nothing. Partial: the steps after the internal data were
stored do not fail. -/
theorem feature_failure_partial {lib : Lib} (laws : Laws lib) {call : Call} {c : Nat} {n : Name}
    {f : Feat} {en : Bool} {s s' : State} (hg : Good lib s) (hlate : Late call)
    (h : feature lib call c n f en s = (s', .err)) :
    Good lib s' ∧ s'.lyd.mods = s.lyd.mods ∧ s'.shm.mods = s.shm.mods ∧ s'.inst = s.inst ∧
      s'.data = s.data ∧ s'.cid = s.cid ∧ ∀ x, x ≠ c → s'.conns x = s.conns x := by
  rcases feature_cases laws (fun _ => hlate) hg h (by simp) with ⟨hx, _⟩ | ⟨_, h1, h2, h3⟩
  · cases hx
  · exact ⟨h1, h2.lyd, h2.shm, h2.inst, h2.data, h2.cid, h3⟩

example : (feature exLib calm 0 2 0 true exState).2 = .err ∧
    (feature exLib (failing .lydPrint) 0 2 1 true exState).2 = .err := by decide +kernel

/-! ## Histories -/

/-- What is asked of an operation of a history: it does not kill the process; an installation is not
overtaken between its two parts, lists no module twice and names all enabled features; an operation
that fails does so before it has written, or its undo works; the content ID kept for a restart is the
one of the modules. -/
def OpCalm (lib : Lib) (call : Call) (s : State) : Op → Prop
  | .restart => s.lyd.cid = lib.hash s.lyd.mods
  | .connect _ => True
  | .lock _ => True
  | .installRead _ => True
  | .install c reqs init => (install lib call c reqs init s).2 ≠ .dead ∧
      (s.conn c).snap = some s.shm.mods ∧ (reqs.map (·.name)).Nodup ∧
      (∀ r ∈ reqs, r.name ∈ lib.names) ∧ NoHole s.shm.mods reqs ∧
      ((install lib call c reqs init s).2 = .err → Late call ∧ UndoGoes call ∧ NoBack lib s.shm.mods)
  | .remove c asked force => (remove lib call c asked force s).2 ≠ .dead ∧
      ((remove lib call c asked force s).2 = .err → Late call)
  | .update c upd => (update lib call c upd s).2 ≠ .dead ∧
      ((update lib call c upd s).2 = .err → Late call ∧ ∀ n, call.fate (.yang n) ≠ .fail)
  | .feature c n f en => (feature lib call c n f en s).2 ≠ .dead ∧
      ((feature lib call c n f en s).2 = .err → Late call)

def Calm (lib : Lib) : List (Call × Op) → State → Prop
  | [], _ => True
  | (call, o) :: l, s => OpCalm lib call s o ∧ Calm lib l (o.run lib call s).1

theorem op_good {lib : Lib} (laws : Laws lib) {call : Call} {s : State} {o : Op} (hg : Good lib s)
    (ho : OpCalm lib call s o) : Good lib (o.run lib call s).1 := by
  cases o with
  | restart =>
    refine ⟨rfl, ?_, ?_, ?_, ?_, ?_, ?_, by intro c k hk; cases hk⟩
    all_goals simp only [Op.run, ModOps.restart]
    · rw [hg.same]; exact hg.closed
    · rw [hg.same]; exact hg.files
    · rw [hg.same]; exact hg.inst
    · rw [hg.same]; exact hg.clean
    · rw [hg.same]; exact hg.nodata
    · exact ho
  | connect c =>
    simp only [Op.run, ModOps.connect, hg.stored]
    exact hg.setConn c _ ⟨hg.cid, hg.closed⟩
  | lock c =>
    simp only [Op.run]
    rcases hl : ctxLock lib call c s with ⟨s1, r1⟩
    exact (ctxLock_good laws hg hl).1
  | installRead c =>
    simp only [Op.run, ModOps.installRead]
    split
    · rename_i k hk
      exact hg.setConn c _ (hg.conns c k hk)
    · exact hg
  | install c reqs init =>
    obtain ⟨h1, h2, h3, h4, h5, h6⟩ := ho
    rcases hr : install lib call c reqs init s with ⟨s', r⟩
    rw [hr] at h1 h6
    simp only [Op.run, hr]
    rcases install_cases laws (fun h => (h6 h).1) (fun h => (h6 h).2.1) hg h2 h3 h4 h5
      (fun h => (h6 h).2.2) hr h1 with ⟨_, hI | ⟨_, hx, _⟩⟩ | ⟨_, hx, _⟩
    · exact hI.good
    · exact hx
    · exact hx
  | remove c asked force =>
    obtain ⟨h1, h2⟩ := ho
    rcases hr : remove lib call c asked force s with ⟨s', r⟩
    rw [hr] at h1 h2
    simp only [Op.run, hr]
    rcases remove_cases laws h2 hg hr h1 with ⟨_, hI⟩ | ⟨_, hx, _⟩
    · exact hI.good
    · exact hx
  | update c upd =>
    obtain ⟨h1, h2⟩ := ho
    rcases hr : update lib call c upd s with ⟨s', r⟩
    rw [hr] at h1 h2
    simp only [Op.run, hr]
    rcases update_cases laws (fun h => (h2 h).1) (fun h => (h2 h).2) hg hr h1 with ⟨_, hI, _⟩ | ⟨_, hx, _⟩
    · exact hI.good
    · exact hx
  | feature c n f en =>
    obtain ⟨h1, h2⟩ := ho
    rcases hr : feature lib call c n f en s with ⟨s', r⟩
    rw [hr] at h1 h2
    simp only [Op.run, hr]
    rcases feature_cases laws h2 hg hr h1 with ⟨_, hI, _⟩ | ⟨_, hx, _⟩
    · exact hI.good
    · exact hx

/-- After any history of module operations of any number of connections, restarts included, the
internal data and shared memory name the same modules, a new connection can be made and has exactly
these, and so has every connection once it has taken the context lock.
Partial: `OpCalm` says what is asked of the operations; the code violates the property otherwise, see
the witnesses below. -/
theorem views_agree_partial {lib : Lib} (laws : Laws lib) {l : List (Call × Op)} {s : State}
    (hg : Good lib s) (hl : Calm lib l s) :
    (runAll lib l s).lyd.mods = (runAll lib l s).shm.mods ∧
    (∀ c, (connect lib c (runAll lib l s)).2 = .ok ∧
      ((connect lib c (runAll lib l s)).1.conn c).ctx = (runAll lib l s).shm.mods) ∧
    (∀ call c s', ctxLock lib call c (runAll lib l s) = (s', .ok) →
      (s'.conn c).ctx = (runAll lib l s).shm.mods) ∧
    (∀ n d, (runAll lib l s).inst n d = true ↔ ((runAll lib l s).shm.mods n).isSome = true) := by
  have hgood : Good lib (runAll lib l s) := by
    induction l generalizing s with
    | nil => exact hg
    | cons a l ih =>
      obtain ⟨call, o⟩ := a
      exact ih (op_good laws hg hl.1) hl.2
  generalize runAll lib l s = t at hgood
  refine ⟨hgood.same, ?_, ?_, ?_⟩
  · intro c
    simp only [connect, hgood.stored]
    exact ⟨trivial, by rw [conn_setConn]⟩
  · intro call c s' h
    exact ((ctxLock_good laws hgood h).2.2 rfl).1
  · intro n d
    constructor
    · intro hi
      cases hx : t.shm.mods n with
      | some i => rfl
      | none => rw [hgood.clean n hx d] at hi; cases hi
    · intro hs
      obtain ⟨i, hi⟩ := Option.isSome_iff_exists.1 hs
      exact hgood.inst n i hi d

/-- Installed modules, their features and their data survive a restart. -/
theorem restart_keeps {lib : Lib} {s : State} (hg : Good lib s) (c : Nat) :
    (restart s).shm.mods = s.shm.mods ∧ (restart s).data = s.data ∧
    (connect lib c (restart s)).2 = .ok ∧
    ((connect lib c (restart s)).1.conn c).ctx = s.shm.mods := by
  have h : loadStored lib (restart s).yang (restart s).shm.mods = some s.shm.mods := by
    simp only [restart]
    rw [hg.same]; exact hg.stored
  refine ⟨by simp only [restart]; exact hg.same, rfl, ?_, ?_⟩
  · simp only [connect, h]
  · simp only [connect, h]
    rw [conn_setConn]

/-- A history of two connections with an installation, a removal, a feature and a restart. -/
def exHist : List (Call × Op) :=
  [(calm, .installRead 0), (calm, .install 0 [⟨1, 1, [], false⟩] none), (calm, .restart),
    (calm, .connect 1), (calm, .feature 1 2 1 true), (calm, .update 1 [(2, 2)]), (calm, .remove 1 [1] false)]

example : Calm exLib exHist exState ∧
    seen (runAll exLib exHist exState).shm.mods 1 = none ∧
    seen (runAll exLib exHist exState).shm.mods 2 = some (2, true, true, false) := by
  refine ⟨⟨trivial, ⟨by decide +kernel, ?_, by decide, by decide, ?_, ?_⟩, (by show (_ : Nat) = _; decide +kernel), trivial,
    ⟨by decide +kernel, ?_⟩, ⟨by decide +kernel, ?_⟩, ⟨by decide +kernel, ?_⟩, trivial⟩, by decide +kernel, by decide +kernel⟩
  · show loadStored exLib exState.yang exState.shm.mods = some exState.shm.mods
    exact exGood.stored
  · intro r hr i hi
    rw [List.mem_singleton] at hr
    subst hr
    cases hi
  · intro h; exact absurd h (by decide +kernel)
  · intro h; exact absurd h (by decide +kernel)
  · intro h; exact absurd h (by decide +kernel)
  · intro h; exact absurd h (by decide +kernel)

/-! ## Where the code violates the properties -/

/-- Enabling feature 1 of a module whose feature 0 is enabled by installing the module again with
"feature 1" succeeds, and the caller's context then has neither feature: the array of features given
to libyang has an entry for feature 0, which is NULL and ends the array. The internal data and shared
memory have both features, so other connections see another schema; and data under feature 0 are
lost. -/
theorem hole_disables_features :
    (install exLib calm 0 [⟨2, 1, [1], false⟩] none exState).2 = .ok ∧
    seen ((install exLib calm 0 [⟨2, 1, [1], false⟩] none exState).1.conn 0).ctx 2
      = some (1, false, false, false) ∧
    seen (install exLib calm 0 [⟨2, 1, [1], false⟩] none exState).1.shm.mods 2
      = some (1, true, true, false) ∧
    exState.data .running 5 = some 8 ∧
    (install exLib calm 0 [⟨2, 1, [1], false⟩] none exState).1.data .running 5 = none := by
  decide +kernel

/-- Installing an installed module with all features ("*") succeeds and enables none. -/
theorem star_ignored :
    (install exLib calm 0 [⟨2, 1, [], true⟩] none exState).2 = .ok ∧
    seen (install exLib calm 0 [⟨2, 1, [], true⟩] none exState).1.shm.mods 2
      = some (1, true, false, false) := by decide +kernel

/-- Connection 0 reads the modules for an installation, connection 1 enables feature 1 of module 2,
then connection 0 goes on and installs module 1: the context of connection 0 does not have feature 1
of module 2, although it is enabled and nobody disabled it. -/
theorem install_race_loses_feature :
    (let s := runAll exLib [(calm, .installRead 0), (calm, .feature 1 2 1 true)] exState
     seen s.shm.mods 2 = some (1, true, true, false) ∧
     (install exLib calm 0 [⟨1, 1, [], false⟩] none s).2 = .ok ∧
     seen ((install exLib calm 0 [⟨1, 1, [], false⟩] none s).1.conn 0).ctx 2
       = some (1, true, false, false) ∧
     seen (install exLib calm 0 [⟨1, 1, [], false⟩] none s).1.shm.mods 2
       = some (1, true, true, false)) := by decide +kernel

/-- Connection 0 reads the modules for an installation, connection 1 removes module 2, then
connection 0 goes on: the process of connection 0 dies on a NULL pointer, after it has stored the
internal data. -/
theorem install_race_kills :
    (install exLib calm 0 [⟨1, 1, [], false⟩] none
      (runAll exLib [(calm, .installRead 0), (calm, .remove 1 [2] false)] exState)).2 = .dead := by
  decide +kernel

/-- A crash of an installation after the internal data were stored and before the YANG file was:
after a restart nobody can connect. -/
theorem install_crash_breaks_connecting :
    (install exLib (dying .shmStore) 0 [⟨1, 1, [], false⟩] none exState).2 = .dead ∧
    (connect exLib 5 (restart (install exLib (dying .shmStore) 0 [⟨1, 1, [], false⟩] none
      exState).1)).2 = .err := by decide +kernel

/-- An update whose new YANG file cannot be stored fails, but the new revision is in the internal data
and in shared memory: nobody can connect any more, nor after a restart. -/
theorem failed_update_breaks_connecting :
    (update exLib (failing (.yang 2)) 0 [(2, 2)] exState).2 = .err ∧
    (connect exLib 5 (update exLib (failing (.yang 2)) 0 [(2, 2)] exState).1).2 = .err ∧
    (connect exLib 5 (restart (update exLib (failing (.yang 2)) 0 [(2, 2)] exState).1)).2 = .err := by
  decide +kernel

/-- A removal that fails because a plugin could not uninstall the module: the module is gone from the
internal data and shared memory all the same, and part of its data too. -/
theorem failed_remove_removes :
    (remove exLib (failing (.uninstall 2 .candidate)) 0 [2] false exState).2 = .err ∧
    seen (remove exLib (failing (.uninstall 2 .candidate)) 0 [2] false exState).1.lyd.mods 2 = none ∧
    seen (remove exLib (failing (.uninstall 2 .candidate)) 0 [2] false exState).1.shm.mods 2 = none ∧
    (remove exLib (failing (.uninstall 2 .candidate)) 0 [2] false exState).1.data .running 4 = none ∧
    exState.data .running 4 ≠ none := by
  decide +kernel

/-- The content ID stored with the internal data by a removal is the one of the context before it: it
is in use after a restart. -/
theorem content_id_stale_after_restart :
    (remove exLib calm 0 [2] false exState).2 = .ok ∧
    (remove exLib calm 0 [2] false exState).1.cid
      = exLib.hash (remove exLib calm 0 [2] false exState).1.shm.mods ∧
    (restart (remove exLib calm 0 [2] false exState).1).cid
      ≠ exLib.hash (restart (remove exLib calm 0 [2] false exState).1).shm.mods := by decide +kernel

/-- An installation with initial data that cannot be stored for the new module fails, but initial data
for an installed module are stored already and stay. -/
theorem failed_store_changes_data :
    (install exLib (failing (.store 1 .running)) 0 [⟨1, 1, [], false⟩]
      (some fun k => if k = 0 then some 3 else if k = 2 then some 9 else none) exState).2 = .err ∧
    exState.data .running 0 ≠ some 3 ∧
    (install exLib (failing (.store 1 .running)) 0 [⟨1, 1, [], false⟩]
      (some fun k => if k = 0 then some 3 else if k = 2 then some 9 else none) exState).1.data
        .running 0 = some 3 := by decide +kernel

/-- An installation fails late and an installed module depends on the new one in the new context: the
undo of the internal data fails, so the module stays in them and in shared memory, without its YANG
file and plugins; nobody can connect any more. -/
theorem back_dependency_keeps_module :
    (install exLib (failing (.yang 1)) 0 [⟨1, 1, [], false⟩] none exState).2 = .err ∧
    seen (install exLib (failing (.yang 1)) 0 [⟨1, 1, [], false⟩] none exState).1.lyd.mods 1 ≠ none ∧
    seen (install exLib (failing (.yang 1)) 0 [⟨1, 1, [], false⟩] none exState).1.shm.mods 1 ≠ none ∧
    (connect exLib 5 (install exLib (failing (.yang 1)) 0 [⟨1, 1, [], false⟩] none exState).1).2
      = .err := by decide +kernel

/-- Enabling a feature with which the module needs one that is not implemented yet (a leafref, an
augment or a must in another module): the process dies on a NULL pointer. -/
theorem feature_kills :
    (feature exLib calm 0 2 2 true { exState with yang := fun f => exState.yang f || f == (1, 1) }).2
      = .dead := by decide +kernel

end Verif.ModOps
