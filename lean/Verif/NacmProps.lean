import Verif.NacmLemmas
/-!
# Properties of NACM decisions (C45, C46, C47, C57)
-/
namespace Verif.Nacm

open Verif.NacmPath (Res allowedPath)

/-! ## C45: the decision for a node -/

theorem first_unique {P : Rule → Prop} {l : List Rule} {r : Rule} (h : First P l r) :
    ¬ ∀ x ∈ l, ¬ P x := by
  obtain ⟨a, b, h1, h2, _⟩ := h
  intro h
  exact h r (by rw [h1]; simp) h2

theorem First.congr {P Q : Rule → Prop} (h : ∀ x, P x ↔ Q x) {l : List Rule} {r : Rule}
    (hf : First P l r) : First Q l r := by
  obtain ⟨a, b, h1, h2, h3⟩ := hf
  exact ⟨a, b, h1, (h r).1 h2, fun x hx hq => h3 x hx ((h x).2 hq)⟩

theorem First.inj {P : Rule → Prop} {l : List Rule} {r r' : Rule} (h : First P l r) (h' : First P l r') :
    r = r' := by
  obtain ⟨a, b, h1, h2, h3⟩ := h
  obtain ⟨a', b', h1', h2', h3'⟩ := h'
  induction l generalizing a a' with
  | nil => simp at h1
  | cons x l ih =>
    cases a with
    | nil =>
      cases a' with
      | nil => simp only [List.nil_append, List.cons.injEq] at h1 h1'; rw [← h1.1, ← h1'.1]
      | cons y a' =>
        simp only [List.nil_append, List.cons.injEq, List.cons_append] at h1 h1'
        exact absurd (by rw [← h1'.1, h1.1]; exact h2) (h3' y (by simp))
    | cons y a =>
      cases a' with
      | nil =>
        simp only [List.nil_append, List.cons.injEq, List.cons_append] at h1 h1'
        exact absurd (by rw [← h1.1, h1'.1]; exact h2') (h3 y (by simp))
      | cons z a' =>
        simp only [List.cons.injEq, List.cons_append] at h1 h1'
        exact ih a h1.2 (fun w hw => h3 w (List.mem_cons_of_mem _ hw)) a' h1'.2
          (fun w hw => h3' w (List.mem_cons_of_mem _ hw))

/-- **C45.** For every configuration, user, node and operation: access to the node is permitted
exactly if the first rule in the configured order that matches permits it, or no rule matches and
neither the schema nor the default denies it. If a rule decides, it is the one reported. -/
theorem decision_exact (c : Conf) (ug : List NacmGroup.Str) (user : Str) (op : Oper) (s : Schema)
    (path : Str) :
    ((allowedNode c ug user op s path).access.isPermit = true ↔ Permitted c ug user op s path) ∧
    (∀ r, First (Matches user path s op) (userRules ug c.lists) r →
      (allowedNode c ug user op s path).rule = some r.name) ∧
    ((∀ r ∈ userRules ug c.lists, ¬ Matches user path s op r) →
      (allowedNode c ug user op s path).rule = none) := by
  rw [allowedNode_eq]
  cases hl : rulesLoop (ruleCheck user path s op) (userRules ug c.lists) ⟨false, false⟩ with
  | mk p o =>
    cases o with
    | some r =>
      have hf : First (Matches user path s op) (userRules ug c.lists) r :=
        First.congr (fun x => ruleCheck_hit user path s op x)
          ((rulesLoop_some _ _ ⟨false, false⟩ r).1 (by rw [hl]))
      refine ⟨?_, fun r' hr' => by simp only; rw [hf.inj hr'], fun h => absurd h (first_unique hf)⟩
      simp only [adjust_permit]
      cases hd : r.deny with
      | false =>
        have hp : Permitted c ug user op s path := Or.inl ⟨r, hf, hd⟩
        simp [Access.isPermit, hp]
      | true =>
        simp only [if_true, Access.isPermit, Bool.false_eq_true, false_iff]
        rintro (⟨r', h1, h2⟩ | ⟨h1, _⟩)
        · rw [h1.inj hf, hd] at h2; cases h2
        · exact first_unique hf h1
    | none =>
      have hn : ∀ r ∈ userRules ug c.lists, ¬ Matches user path s op r := by
        have := (rulesLoop_none (ruleCheck user path s op) (userRules ug c.lists) ⟨false, false⟩).1
          (by rw [hl])
        intro r hr hm
        exact this r hr ((ruleCheck_hit user path s op r).2 hm)
      refine ⟨?_, fun r hr => absurd hn (first_unique hr), fun _ => rfl⟩
      simp only [adjust_permit]
      have hp : Permitted c ug user op s path ↔ ¬ schemaDenies s op ∧ ¬ defaultDenies c op := by
        constructor
        · rintro (⟨r, h, _⟩ | ⟨_, h⟩)
          · exact absurd hn (first_unique h)
          · exact h
        · intro h; exact Or.inr ⟨hn, h⟩
      rw [hp]
      rcases step10_permit c s op with ⟨h1, h2⟩ | ⟨h1, h2⟩
      · rw [h1]
        simp only [Access.isPermit, Bool.false_eq_true, false_iff]
        rintro ⟨h3, h4⟩
        exact h2.elim h3 h4
      · rw [h1]
        simpa [Access.isPermit] using h2

/-- Sample: a configuration with a user in a group; the first list denies one leaf, the second
permits the container. -/
def sampleConf : Conf :=
  { enabled := true, readDeny := true, writeDeny := true, execDeny := false,
    lists := [
      { groups := [[103]],
        rules := [⟨"r1".toList, fun _ => true, .data (some "/m:c/x".toList), none, true⟩] },
      { groups := [[104]],
        rules := [⟨"r2".toList, fun _ => true, .any none, none, true⟩] },
      { groups := [[42]],
        rules := [⟨"r3".toList, fun o => o == .read, .data (some "/m:c".toList), some "m".toList, false⟩] }] }

def leafSchema (mod name : String) : Schema := ⟨mod.toList, name.toList, .data, false, false, []⟩
def topSchema (mod name : String) : Schema := ⟨mod.toList, name.toList, .data, true, false, []⟩

theorem sample_rules : userRules [[103]] sampleConf.lists =
    [⟨"r1".toList, fun _ => true, .data (some "/m:c/x".toList), none, true⟩,
     ⟨"r3".toList, fun o => o == .read, .data (some "/m:c".toList), some "m".toList, false⟩] := by
  simp [userRules, sampleConf, NacmGroup.groupMatch, NacmGroup.strcmp, NacmGroup.star]

-- reading `/m:c/x` is denied by r1, reading `/m:c/y` is permitted by r3, reading `/m:c` as well but
-- its children must be checked, writing `/m:c/y` is denied by default
example :
    allowedNode sampleConf [[103]] "u".toList .read (leafSchema "m" "x") "/m:c/x".toList =
      ⟨.deny, some "r1".toList, none⟩ ∧
    allowedNode sampleConf [[103]] "u".toList .read (leafSchema "m" "y") "/m:c/y".toList =
      ⟨.permit, some "r3".toList, none⟩ ∧
    allowedNode sampleConf [[103]] "u".toList .read (topSchema "m" "c") "/m:c".toList =
      ⟨.partialPermit, some "r3".toList, none⟩ ∧
    allowedNode sampleConf [[103]] "u".toList .update (leafSchema "m" "y") "/m:c/y".toList =
      ⟨.deny, none, none⟩ := by
  refine ⟨?_, ?_, ?_, ?_⟩ <;> rw [allowedNode_eq, sample_rules] <;>
    simp [rulesLoop, ruleCheck, pathCheck, modCheck, leafSchema, topSchema, allowedPath, NacmPath.go,
      adjust, step10, extLoop, defaultAccess, sampleConf]

/-- Accesses that are never checked (RFC 8341, 3.4.4 steps 1 to 4): NACM is disabled, the user is the
recovery one, or the tree is `close-session`, a notification of `nc-notifications`, or one of the
operations that read data. -/
theorem not_checked_exact (c : Conf) (recovery user : Str) (root : Schema) :
    allowedTree c recovery user root = true ↔
      c.enabled = false ∨ user = recovery ∨
      (root.kind = .rpc ∧ root.mod = "ietf-netconf".toList ∧
        (root.name = "close-session".toList ∨ root.name = "get".toList ∨ root.name = "get-config".toList)) ∨
      (root.kind = .rpc ∧ root.mod = "ietf-netconf-nmda".toList ∧ root.name = "get-data".toList) ∨
      (root.kind = .notif ∧ root.mod = "nc-notifications".toList) := by
  unfold allowedTree
  cases c.enabled with
  | false => simp
  | true =>
    simp only [not_true_eq_false, if_false]
    by_cases hu : user = recovery
    · simp [hu]
    · simp only [if_neg hu, hu, false_or, reduceCtorEq]
      generalize "ietf-netconf".toList = m1
      generalize "close-session".toList = n1
      generalize "nc-notifications".toList = m2
      generalize "get".toList = n2
      generalize "get-config".toList = n3
      generalize "get-data".toList = n4
      generalize "ietf-netconf-nmda".toList = m3
      split
      · grind
      · split
        · grind
        · split <;> grind

/-! ## Nodes and their descendants -/

theorem mem_userRules {ug : List NacmGroup.Str} {ls : List RuleList} {r : Rule}
    (h : r ∈ userRules ug ls) : ∃ l ∈ ls, r ∈ l.rules := by
  unfold userRules at h
  rw [List.mem_flatMap] at h
  obtain ⟨l, h1, h2⟩ := h
  exact ⟨l, (List.mem_filter.1 h1).1, h2⟩

/-- Data nodes of one module, one below the other: matching rules. -/
theorem check_below (c : Conf) (ug : List NacmGroup.Str) (user : Str) (op : Oper) (s s' : Schema)
    (a m : Str) (hk : s.kind = .data) (hk' : s'.kind = .data) (hm : s'.mod = s.mod)
    (hs : Safe c user a) (r : Rule) (hr : r ∈ userRules ug c.lists) :
    (ruleCheck user a s op r = .hit → ruleCheck user (a ++ m) s' op r = .hit) ∧
    (ruleCheck user (a ++ m) s' op r = .hit → ruleCheck user a s op r ≠ .skip) := by
  obtain ⟨l, hl, hrl⟩ := mem_userRules hr
  have hsafe := hs l hl r hrl
  have pc1 : ∀ p, r.path? = p → pathCheck user a s r p = .hit → pathCheck user (a ++ m) s' r p = .hit := by
    intro p _ h
    rw [pathCheck_hit] at h ⊢
    exact ⟨fun x hx => by rw [hm]; exact h.1 x hx, fun t ht => allowedPath_yes_below t a m user (h.2 t ht)⟩
  have pc2 : ∀ p, r.path? = p → pathCheck user (a ++ m) s' r p = .hit → pathCheck user a s r p ≠ .skip := by
    intro p hp h
    rw [pathCheck_hit] at h
    have hmod : modCheck s r = .hit := (modCheck_hit s r).2 (fun x hx => by rw [← hm]; exact h.1 x hx)
    unfold pathCheck
    cases p with
    | none => simp only [hmod]; simp
    | some t =>
      rcases allowedPath_above t a m user (h.2 t rfl) (hsafe t hp) with h' | h'
      · simp [h', hmod]
      · simp [h']
  unfold ruleCheck
  split
  · simp
  · rw [hk, hk']
    cases ht : r.target with
    | any p => exact ⟨pc1 p (by simp [Rule.path?, ht]), pc2 p (by simp [Rule.path?, ht])⟩
    | data p =>
      have : ¬ (Kind.data = Kind.rpc ∨ Kind.data = Kind.notif) := by decide
      simp only [if_neg this]
      exact ⟨pc1 p (by simp [Rule.path?, ht]), pc2 p (by simp [Rule.path?, ht])⟩
    | rpc n => simp
    | notif n => simp

/-- Full permission of a node covers its descendants. -/
theorem permit_below (c : Conf) (ug : List NacmGroup.Str) (user : Str) (op : Oper) (s s' : Schema)
    (a m : Str) (hk : s.kind = .data) (hk' : s'.kind = .data) (hm : s'.mod = s.mod)
    (hs : Safe c user a) (h : (allowedNode c ug user op s a).access = .permit) :
    Permitted c ug user op s' (a ++ m) := by
  have hc := check_below c ug user op s s' a m hk hk' hm hs
  rw [allowedNode_eq] at h
  cases hl : rulesLoop (ruleCheck user a s op) (userRules ug c.lists) ⟨false, false⟩ with
  | mk p o =>
    rw [hl] at h
    cases o with
    | none =>
      simp only at h
      have := (adjust_eq_permit _ _ h).1
      rcases step10_permit c s op with ⟨h1, _⟩ | ⟨h1, _⟩ <;> rw [h1] at this <;> cases this
    | some r =>
      simp only at h
      obtain ⟨h1, h2⟩ := adjust_eq_permit _ _ h
      have hd : r.deny = false := by cases hd : r.deny <;> simp [hd] at h1 ⊢
      obtain ⟨R', h3, h4⟩ := loop_permit (ruleCheck user a s op) (ruleCheck user (a ++ m) s' op)
        (userRules ug c.lists) ⟨false, false⟩ ⟨false, false⟩ (fun r hr => (hc r hr).1)
        (fun r hr => (hc r hr).2) r (by rw [hl]) hd (by rw [hl]; exact h2)
      exact Or.inl ⟨R', First.congr (fun x => ruleCheck_hit user _ s' op x) ((rulesLoop_some _ _ _ _).1 h3), h4⟩

/-- Full denial of a node: no rule permits anything below. -/
theorem deny_below (c : Conf) (ug : List NacmGroup.Str) (user : Str) (op : Oper) (s s' : Schema)
    (a m : Str) (hk : s.kind = .data) (hk' : s'.kind = .data) (hm : s'.mod = s.mod)
    (hs : Safe c user a) (h : (allowedNode c ug user op s a).access = .deny) :
    ¬ RulePermits c ug user op s' (a ++ m) := by
  have hc := check_below c ug user op s s' a m hk hk' hm hs
  rintro ⟨R', hR, hd⟩
  have hR' := (rulesLoop_some (ruleCheck user (a ++ m) s' op) (userRules ug c.lists) ⟨false, false⟩ R').2
    (First.congr (fun x => (ruleCheck_hit user _ s' op x).symm) hR)
  rw [allowedNode_eq] at h
  have hgoal : R'.deny = true := by
    cases hl : rulesLoop (ruleCheck user a s op) (userRules ug c.lists) ⟨false, false⟩ with
    | mk p o =>
      rw [hl] at h
      refine loop_deny (ruleCheck user a s op) (ruleCheck user (a ++ m) s' op)
        (userRules ug c.lists) ⟨false, false⟩ ⟨false, false⟩ (fun r hr => (hc r hr).1)
        (fun r hr => (hc r hr).2) ?_ ?_ R' hR'
      · intro R h1
        rw [hl] at h1
        simp only at h1
        subst h1
        have := (adjust_eq_deny _ _ h).1
        cases hd : R.deny <;> simp [hd] at this ⊢
      · rw [hl]
        cases o <;> exact (adjust_eq_deny _ _ h).2
  rw [hd] at hgoal; cases hgoal

/-! ## C46: reading -/

theorem mem_filterRs (dec : Schema → Str → Access) (base : Str) (i : Nat) (ts : List Tree) (d : Pos) :
    d ∈ (filterRs dec base i ts).2 ↔
      ∃ (j : Nat) (t : Tree) (d' : Pos), ts[j]? = some t ∧ d = (i + j) :: d' ∧ d' ∈ (filterR dec base t).2 := by
  induction ts generalizing i with
  | nil => simp [filterRs]
  | cons t ts ih =>
    simp only [filterRs, List.mem_append, List.mem_map, ih]
    constructor
    · rintro (⟨d', h1, rfl⟩ | ⟨j, t', d', h1, rfl, h3⟩)
      · exact ⟨0, t, d', rfl, rfl, h1⟩
      · exact ⟨j + 1, t', d', by simpa using h1, by rw [Nat.add_right_comm, Nat.add_assoc], h3⟩
    · rintro ⟨j, t', d', h1, rfl, h3⟩
      cases j with
      | zero => simp only [List.getElem?_cons_zero, Option.some.injEq] at h1; subst h1; exact Or.inl ⟨d', h3, rfl⟩
      | succ j => exact Or.inr ⟨j, t', d', by simpa using h1, by rw [Nat.add_right_comm, Nat.add_assoc], h3⟩

theorem fst_filterRs (dec : Schema → Str → Access) (base : Str) (i : Nat) (ts : List Tree) :
    (filterRs dec base i ts).1 = true ↔ ∃ (j : Nat) (t : Tree), ts[j]? = some t ∧ (filterR dec base t).1 = true := by
  induction ts generalizing i with
  | nil => simp [filterRs]
  | cons t ts ih =>
    simp only [filterRs, Bool.or_eq_true, ih]
    constructor
    · rintro (h | ⟨j, t', h1, h2⟩)
      · exact ⟨0, t, rfl, h⟩
      · exact ⟨j + 1, t', by simpa using h1, h2⟩
    · rintro ⟨j, t', h1, h2⟩
      cases j with
      | zero => simp only [List.getElem?_cons_zero, Option.some.injEq] at h1; subst h1; exact Or.inl h2
      | succ j => exact Or.inr ⟨j, t', by simpa using h1, h2⟩

theorem nil_not_mem_filterRs (dec : Schema → Str → Access) (base : Str) (i : Nat) (ts : List Tree) :
    [] ∉ (filterRs dec base i ts).2 := by
  rw [mem_filterRs]
  rintro ⟨j, t, d', _, h, _⟩
  cases h

/-- What the filter needs of a decision `dec` for the nodes of a subtree; `P`: permitted, `E`:
permitted by a rule. -/
structure Ok (dec : Schema → Str → Access) (P E : Schema → Str → Prop) (base : Str) (t : Tree) : Prop where
  perm : ∀ p n, nodeAt base t p = some n → ((dec n.1 n.2).isPermit = true ↔ P n.1 n.2)
  expl : ∀ p n, nodeAt base t p = some n → E n.1 n.2 → P n.1 n.2
  full : ∀ p q n m, nodeAt base t p = some n → nodeAt base t (p ++ q) = some m →
    dec n.1 n.2 = .permit → P m.1 m.2
  none : ∀ p q n m, nodeAt base t p = some n → nodeAt base t (p ++ q) = some m →
    dec n.1 n.2 = .deny → ¬ E m.1 m.2
  keys : ∀ p n, nodeAt base t p = some n → n.1.key = true → ∀ i, nodeAt base t (p ++ [i]) = Option.none

theorem nodeAt_child {base : Str} {s : Schema} {step : Str} {ch : List Tree} {i : Nat} {t : Tree}
    (h : ch[i]? = some t) (p : Pos) : nodeAt base (.node s step ch) (i :: p) = nodeAt (base ++ step) t p := by
  simp [nodeAt, h]

theorem Ok.child {dec P E base s step} {ch : List Tree} (h : Ok dec P E base (.node s step ch)) {i : Nat} {t : Tree}
    (hi : ch[i]? = some t) : Ok dec P E (base ++ step) t where
  perm p n hn := h.perm (i :: p) n (by rw [nodeAt_child hi]; exact hn)
  expl p n hn := h.expl (i :: p) n (by rw [nodeAt_child hi]; exact hn)
  full p q n m hn hm := h.full (i :: p) q n m (by rw [nodeAt_child hi]; exact hn)
    (by rw [List.cons_append, nodeAt_child hi]; exact hm)
  none p q n m hn hm := h.none (i :: p) q n m (by rw [nodeAt_child hi]; exact hn)
    (by rw [List.cons_append, nodeAt_child hi]; exact hm)
  keys p n hn hk j := by
    have := h.keys (i :: p) n (by rw [nodeAt_child hi]; exact hn) hk j
    rwa [List.cons_append, nodeAt_child hi] at this

theorem nodeAt_root (base : Str) (s : Schema) (step : Str) (ch : List Tree) :
    nodeAt base (.node s step ch) [] = some (s, base ++ step) := rfl

/-- Positions below a child are freed exactly if freed for the child. -/
theorem remains_child {dec : Schema → Str → Access} {base : Str} {ch : List Tree} {i : Nat} {t : Tree}
    (hi : ch[i]? = some t) (p : Pos) :
    Remains (filterRs dec base 0 ch).2 (i :: p) ↔ Remains (filterR dec base t).2 p := by
  constructor
  · intro h d hd hp
    exact h (i :: d) ((mem_filterRs _ _ _ _ _).2 ⟨i, t, d, hi, by simp, hd⟩)
      (List.cons_prefix_cons.2 ⟨rfl, hp⟩)
  · intro h d hd hp
    obtain ⟨j, t', d', h1, h2, h3⟩ := (mem_filterRs _ _ _ _ _).1 hd
    subst h2
    rw [Nat.zero_add, List.cons_prefix_cons] at hp
    obtain ⟨rfl, hp⟩ := hp
    rw [hi] at h1; cases h1
    exact h d' h3 hp

theorem remains_root_children {dec : Schema → Str → Access} {base : Str} {ch : List Tree} :
    Remains (filterRs dec base 0 ch).2 [] := by
  intro d hd hp
  rw [List.prefix_nil] at hp
  subst hp
  exact nil_not_mem_filterRs _ _ _ _ hd

/-- A subtree reported as permitted has a remaining permitted node. -/
theorem filterR_true {dec : Schema → Str → Access} {P E : Schema → Str → Prop} (base : Str) (t : Tree)
    (ok : Ok dec P E base t) (h : (filterR dec base t).1 = true) :
    ∃ q n, nodeAt base t q = some n ∧ P n.1 n.2 ∧ Remains (filterR dec base t).2 q := by
  match t, ok, h with
  | .node s step ch, ok, h =>
    have hroot := ok.perm [] (s, base ++ step) rfl
    simp only [filterR] at h ⊢
    cases hd : dec s (base ++ step) with
    | deny => simp [hd] at h
    | permit =>
      refine ⟨[], (s, base ++ step), rfl, hroot.1 (by simp [hd, Access.isPermit]), ?_⟩
      simp [Remains]
    | partialPermit =>
      exact ⟨[], (s, base ++ step), rfl, hroot.1 (by simp [hd, Access.isPermit]), remains_root_children⟩
    | partialDeny =>
      simp only [hd] at h ⊢
      by_cases hc : (filterRs dec (base ++ step) 0 ch).1 = true
      · rw [if_pos hc]
        obtain ⟨j, t', hj, ht⟩ := (fst_filterRs _ _ _ _).1 hc
        have : sizeOf t' < sizeOf ch := List.sizeOf_lt_of_mem (List.mem_of_getElem? hj)
        obtain ⟨q, n, h1, h2, h3⟩ := filterR_true (base ++ step) t' (ok.child hj) ht
        exact ⟨j :: q, n, by rw [nodeAt_child hj]; exact h1, h2, (remains_child hj q).2 h3⟩
      · rw [if_neg hc] at h; cases h
  termination_by sizeOf t
  decreasing_by simp only [Tree.node.sizeOf_spec]; omega

/-- Every remaining node that is not a key is permitted or above a remaining permitted node. -/
theorem filterR_safe {dec : Schema → Str → Access} {P E : Schema → Str → Prop} (p : Pos) (base : Str) (t : Tree)
    (ok : Ok dec P E base t) (n : Schema × Str) (hn : nodeAt base t p = some n)
    (hr : Remains (filterR dec base t).2 p) (hk : n.1.key = false) :
    ∃ q m, nodeAt base t (p ++ q) = some m ∧ P m.1 m.2 ∧ Remains (filterR dec base t).2 (p ++ q) := by
  induction p generalizing base t with
  | nil =>
    refine filterR_true base t ok ?_
    cases t with
    | node s step ch =>
      rw [nodeAt_root] at hn; cases hn
      simp only at hk
      simp only [filterR] at hr ⊢
      cases hd : dec s (base ++ step) with
      | permit => rfl
      | partialPermit => rfl
      | deny =>
        simp only [hd, hk] at hr
        exact absurd (List.nil_prefix) (hr [] (by simp))
      | partialDeny =>
        simp only [hd, hk] at hr ⊢
        by_cases hc : (filterRs dec (base ++ step) 0 ch).1 = true
        · rw [if_pos hc]
        · rw [if_neg hc] at hr
          exact absurd (List.nil_prefix) (hr [] (by simp))
  | cons i p ih =>
    cases t with
    | node s step ch =>
      cases hi : ch[i]? with
      | none => simp [nodeAt, hi] at hn
      | some t =>
        have hn' := hn
        rw [nodeAt_child hi] at hn'
        have sub : Remains (filterRs dec (base ++ step) 0 ch).2 (i :: p) →
            ∃ q m, nodeAt base (.node s step ch) (i :: p ++ q) = some m ∧ P m.1 m.2 ∧
              Remains (filterRs dec (base ++ step) 0 ch).2 (i :: p ++ q) := by
          intro h
          obtain ⟨q, m, h1, h2, h3⟩ := ih (base ++ step) t (ok.child hi) hn' ((remains_child hi p).1 h)
          exact ⟨q, m, by rw [List.cons_append, nodeAt_child hi]; exact h1, h2,
            (remains_child hi (p ++ q)).2 h3⟩
        simp only [filterR] at hr ⊢
        cases hd : dec s (base ++ step) with
        | permit =>
          refine ⟨[], n, by rw [List.append_nil]; exact hn, ?_, by simp [Remains]⟩
          exact ok.full [] (i :: p) (s, base ++ step) n rfl (by simpa using hn) hd
        | partialPermit => simp only [hd] at hr ⊢; exact sub hr
        | deny =>
          simp only [hd] at hr
          cases hkey : s.key with
          | false => rw [hkey] at hr; exact absurd (List.nil_prefix) (hr [] (by simp))
          | true =>
            have := ok.keys [] (s, base ++ step) rfl hkey i
            rw [List.nil_append, nodeAt_child hi] at this
            cases t; simp [nodeAt] at this
        | partialDeny =>
          simp only [hd] at hr ⊢
          by_cases hc : (filterRs dec (base ++ step) 0 ch).1 = true
          · rw [if_pos hc] at hr ⊢; exact sub hr
          · rw [if_neg hc] at hr
            cases hkey : s.key with
            | false => rw [hkey] at hr; exact absurd (List.nil_prefix) (hr [] (by simp))
            | true =>
              have := ok.keys [] (s, base ++ step) rfl hkey i
              rw [List.nil_append, nodeAt_child hi] at this
              cases t; simp [nodeAt] at this

/-- A node permitted with all its ancestors in the subtree remains. -/
theorem filterR_keeps {dec : Schema → Str → Access} {P E : Schema → Str → Prop} (p : Pos) (base : Str) (t : Tree)
    (ok : Ok dec P E base t) (n : Schema × Str) (hn : nodeAt base t p = some n)
    (hall : ∀ k x, k ≤ p.length → nodeAt base t (p.take k) = some x → P x.1 x.2) :
    Remains (filterR dec base t).2 p := by
  induction p generalizing base t with
  | nil =>
    cases t with
    | node s step ch =>
      have hP := (ok.perm [] _ rfl).2 (hall 0 (s, base ++ step) (Nat.zero_le _) rfl)
      simp only [filterR]
      cases hd : dec s (base ++ step) with
      | permit => simp [Remains]
      | partialPermit => exact remains_root_children
      | deny => rw [hd] at hP; cases hP
      | partialDeny => rw [hd] at hP; cases hP
  | cons i p ih =>
    cases t with
    | node s step ch =>
      have hP := (ok.perm [] _ rfl).2 (hall 0 (s, base ++ step) (Nat.zero_le _) rfl)
      simp only at hP
      simp only [filterR]
      cases hd : dec s (base ++ step) with
      | permit => simp [Remains]
      | deny => rw [hd] at hP; cases hP
      | partialDeny => rw [hd] at hP; cases hP
      | partialPermit =>
        cases hi : ch[i]? with
        | none => simp [nodeAt, hi] at hn
        | some t =>
          rw [nodeAt_child hi] at hn
          refine (remains_child hi p).2 (ih (base ++ step) t (ok.child hi) hn ?_)
          intro k x hk hx
          refine hall (k + 1) x (by simpa using hk) ?_
          rw [List.take_succ_cons, nodeAt_child hi]
          exact hx

/-- A node permitted by a rule remains. -/
theorem filterR_explicit {dec : Schema → Str → Access} {P E : Schema → Str → Prop} (p : Pos) (base : Str) (t : Tree)
    (ok : Ok dec P E base t) (n : Schema × Str) (hn : nodeAt base t p = some n) (he : E n.1 n.2) :
    (filterR dec base t).1 = true ∧ Remains (filterR dec base t).2 p := by
  induction p generalizing base t with
  | nil =>
    cases t with
    | node s step ch =>
      rw [nodeAt_root] at hn; cases hn
      have hP := (ok.perm [] _ rfl).2 (ok.expl [] _ rfl he)
      simp only [filterR]
      cases hd : dec s (base ++ step) with
      | permit => simp [Remains]
      | partialPermit => exact ⟨rfl, remains_root_children⟩
      | deny => rw [hd] at hP; cases hP
      | partialDeny => rw [hd] at hP; cases hP
  | cons i p ih =>
    cases t with
    | node s step ch =>
      cases hi : ch[i]? with
      | none => simp [nodeAt, hi] at hn
      | some t =>
        have hn' := hn
        rw [nodeAt_child hi] at hn'
        obtain ⟨h1, h2⟩ := ih (base ++ step) t (ok.child hi) hn'
        have hc : (filterRs dec (base ++ step) 0 ch).1 = true := (fst_filterRs _ _ _ _).2 ⟨i, t, hi, h1⟩
        have hrem := (remains_child (dec := dec) (base := base ++ step) hi p).2 h2
        simp only [filterR]
        cases hd : dec s (base ++ step) with
        | permit => simp [Remains]
        | partialPermit => exact ⟨rfl, hrem⟩
        | deny => exact absurd he (ok.none [] (i :: p) _ n rfl (by simpa using hn) hd)
        | partialDeny => simp only [hc, if_true]; exact ⟨trivial, hrem⟩

/-- The subtree itself is denied only if its root is not permitted; then it is the last. -/
theorem filterR_nil {dec : Schema → Str → Access} (base : Str) (s : Schema) (step : Str) (ch : List Tree)
    (h : [] ∈ (filterR dec base (.node s step ch)).2) :
    (dec s (base ++ step)).isPermit = false ∧ (filterR dec base (.node s step ch)).2.getLast? = some [] := by
  simp only [filterR] at h ⊢
  cases hd : dec s (base ++ step) with
  | permit => simp [hd] at h
  | partialPermit => simp only [hd] at h; exact absurd h (nil_not_mem_filterRs _ _ _ _)
  | deny =>
    simp only [hd] at h ⊢
    cases hk : s.key <;> simp [hk, Access.isPermit] at h ⊢
  | partialDeny =>
    simp only [hd] at h ⊢
    by_cases hc : (filterRs dec (base ++ step) 0 ch).1 = true
    · rw [if_pos hc] at h; exact absurd h (nil_not_mem_filterRs _ _ _ _)
    · rw [if_neg hc] at h ⊢
      cases hk : s.key with
      | true => simp only [hk, if_true, List.append_nil] at h; exact absurd h (nil_not_mem_filterRs _ _ _ _)
      | false => simp [Access.isPermit]

theorem freeLoop_some (ds : List Pos) (freed : List Pos) (h : [] ∉ ds) :
    freeLoop (ds.map .sub) freed = some (freed ++ ds) := by
  induction ds generalizing freed with
  | nil => simp [freeLoop]
  | cons d ds ih =>
    cases d with
    | nil => simp at h
    | cons i d =>
      simp only [List.map_cons, freeLoop]
      rw [ih _ (fun hm => h (List.mem_cons_of_mem _ hm))]
      simp

theorem freeLoop_none (ds : List DNode) (freed : List Pos) (h : DNode.top ∈ ds ∨ DNode.sub [] ∈ ds) :
    freeLoop ds freed = none := by
  induction ds generalizing freed with
  | nil => simp at h
  | cons d ds ih =>
    cases d with
    | top => rfl
    | sub p =>
      cases p with
      | nil => rfl
      | cons i p =>
        simp only [freeLoop]
        refine ih _ ?_
        simpa using h

/-- The tree is made of data nodes of one module, keys have no children, no rule path reads out of
the strings. -/
structure Plain (c : Conf) (user base : Str) (t : Tree) (mod : Str) : Prop where
  nodes : ∀ p n, nodeAt base t p = some n → n.1.mod = mod ∧ n.1.kind = .data ∧ Safe c user n.2
  keys : ∀ p n, nodeAt base t p = some n → n.1.key = true → ∀ i, nodeAt base t (p ++ [i]) = none

theorem nodeAt_path (base : Str) (t : Tree) (p q : Pos) (n m : Schema × Str)
    (hn : nodeAt base t p = some n) (hm : nodeAt base t (p ++ q) = some m) : ∃ r, m.2 = n.2 ++ r := by
  induction p generalizing base t with
  | nil =>
    rw [List.nil_append] at hm
    cases t with
    | node s step ch =>
      rw [nodeAt_root] at hn; cases hn
      induction q generalizing base s step ch with
      | nil => rw [nodeAt_root] at hm; cases hm; exact ⟨[], by simp⟩
      | cons i q ih =>
        cases hi : ch[i]? with
        | none => simp [nodeAt, hi] at hm
        | some t =>
          rw [nodeAt_child hi] at hm
          cases t with
          | node s' step' ch' =>
            obtain ⟨r, hr⟩ := ih (base ++ step) s' step' ch' hm
            exact ⟨step' ++ r, by simpa using hr⟩
  | cons i p ih =>
    cases t with
    | node s step ch =>
      cases hi : ch[i]? with
      | none => simp [nodeAt, hi] at hn
      | some t =>
        rw [nodeAt_child hi] at hn
        rw [List.cons_append, nodeAt_child hi] at hm
        exact ih _ _ hn hm

theorem Plain.ok {c : Conf} {user base : Str} {t : Tree} {mod : Str} (h : Plain c user base t mod)
    (ug : List NacmGroup.Str) :
    Ok (readDec c ug user) (Permitted c ug user .read) (RulePermits c ug user .read) base t where
  perm p n hn := (decision_exact c ug user .read n.1 n.2).1
  expl p n hn he := Or.inl he
  full p q n m hn hm hd := by
    obtain ⟨r, hr⟩ := nodeAt_path base t p q n m hn hm
    obtain ⟨h1, h2, h3⟩ := h.nodes p n hn
    obtain ⟨h4, h5, _⟩ := h.nodes _ m hm
    rw [hr]
    exact permit_below c ug user .read n.1 m.1 n.2 r h2 h5 (by rw [h4, h1]) h3 hd
  none p q n m hn hm hd := by
    obtain ⟨r, hr⟩ := nodeAt_path base t p q n m hn hm
    obtain ⟨h1, h2, h3⟩ := h.nodes p n hn
    obtain ⟨h4, h5, _⟩ := h.nodes _ m hm
    rw [hr]
    exact deny_below c ug user .read n.1 m.1 n.2 r h2 h5 (by rw [h4, h1]) h3 hd
  keys := h.keys

/-- **C46** (partial). What `sr_get_data` returns of a selected subtree with ancestors `anc`, for
every configuration, user and tree of data nodes of one module:
* if nothing is returned, the root of the subtree or one of its ancestors may not be read;
* every returned node except for keys may be read or is above a returned node that may be read;
* every node that may be read together with its ancestors in the subtree is returned, and every node
  whose reading is explicitly permitted by a rule.
Missing: nodes of several modules in one tree, see `augment_leaks`; the other reading functions, see
`denied_item_returned`. -/
theorem get_data_filtered_partial (c : Conf) (ug : List NacmGroup.Str) (recovery user : Str)
    (anc : List (Schema × Str)) (base : Str) (t : Tree) (mod : Str)
    (hnot : allowedTree c recovery user ((anc.map Prod.fst).head?.getD t.schema) = false)
    (hp : Plain c user base t mod) :
    (subtreeFilter c ug recovery user anc base t = none →
      (∃ a ∈ anc, ¬ Permitted c ug user .read a.1 a.2) ∨
      (∃ n, nodeAt base t [] = some n ∧ ¬ Permitted c ug user .read n.1 n.2)) ∧
    (∀ freed, subtreeFilter c ug recovery user anc base t = some freed →
      (∀ p n, nodeAt base t p = some n → Remains freed p → n.1.key = false →
        ∃ q m, nodeAt base t (p ++ q) = some m ∧ Permitted c ug user .read m.1 m.2 ∧
          Remains freed (p ++ q)) ∧
      (∀ p n, nodeAt base t p = some n →
        (∀ k x, k ≤ p.length → nodeAt base t (p.take k) = some x → Permitted c ug user .read x.1 x.2) →
        Remains freed p) ∧
      (∀ p n, nodeAt base t p = some n → RulePermits c ug user .read n.1 n.2 → Remains freed p)) := by
  have ok := hp.ok ug
  unfold subtreeFilter readFilter
  rw [hnot]
  simp only [Bool.false_eq_true, if_false]
  unfold selectR
  by_cases ha : (anc.reverse.any fun a => readDec c ug user a.1 a.2 == .deny) = true
  · rw [if_pos ha]
    refine ⟨fun _ => Or.inl ?_, fun freed h => by simp [freeLoop] at h⟩
    rw [List.any_eq_true] at ha
    obtain ⟨a, h1, h2⟩ := ha
    refine ⟨a, by simpa using h1, fun h => ?_⟩
    have := (decision_exact c ug user .read a.1 a.2).1.2 h
    have h2 : (allowedNode c ug user .read a.1 a.2).access = .deny := by simpa [readDec] using h2
    rw [h2] at this; cases this
  · rw [if_neg ha]
    simp only
    by_cases hnil : [] ∈ (filterR (readDec c ug user) base t).2
    · cases t with
      | node s step ch =>
        obtain ⟨h1, h2⟩ := filterR_nil base s step ch hnil
        refine ⟨fun _ => Or.inr ⟨_, rfl, fun h => ?_⟩, fun freed h => ?_⟩
        · have := (decision_exact c ug user .read s (base ++ step)).1.2 h
          unfold readDec at h1
          rw [h1] at this; cases this
        · rw [freeLoop_none] at h
          · cases h
          · split
            · exact Or.inl (by simp)
            · exact Or.inr (List.mem_map.2 ⟨[], hnil, rfl⟩)
    · have hlast : ¬ (anc ≠ [] ∧ (filterR (readDec c ug user) base t).2.getLast? = some []) := by
        rintro ⟨_, h⟩
        exact hnil (List.mem_of_getLast? h)
      rw [if_neg hlast, freeLoop_some _ _ hnil, List.nil_append]
      refine ⟨fun h => (by cases h), fun freed h => ?_⟩
      cases h
      exact ⟨fun p n hn hr hk => filterR_safe p base t ok n hn hr hk,
        fun p n hn h => filterR_keeps p base t ok n hn h,
        fun p n hn h => (filterR_explicit p base t ok n hn h).2⟩

/-- Corollary: a returned leaf that is not a key may be read. -/
theorem returned_leaf_permitted (c : Conf) (ug : List NacmGroup.Str) (recovery user : Str)
    (anc : List (Schema × Str)) (base : Str) (t : Tree) (mod : Str)
    (hnot : allowedTree c recovery user ((anc.map Prod.fst).head?.getD t.schema) = false)
    (hp : Plain c user base t mod) (freed : List Pos)
    (hf : subtreeFilter c ug recovery user anc base t = some freed) (p : Pos) (n : Schema × Str)
    (hn : nodeAt base t p = some n) (hleaf : ∀ q, q ≠ [] → nodeAt base t (p ++ q) = none)
    (hr : Remains freed p) (hk : n.1.key = false) : Permitted c ug user .read n.1 n.2 := by
  obtain ⟨q, m, h1, h2, _⟩ :=
    ((get_data_filtered_partial c ug recovery user anc base t mod hnot hp).2 freed hf).1 p n hn hr hk
  by_cases hq : q = []
  · subst hq; rw [List.append_nil, hn] at h1; cases h1; exact h2
  · rw [hleaf q hq] at h1; cases h1

/-- Node-set functions (`sr_get_item`, `sr_get_items`, `sr_get_node`): a selected top-level node is
kept exactly if it is a key, may be read or is above a node that stays readable. -/
theorem top_level_item (c : Conf) (ug : List NacmGroup.Str) (recovery user : Str) (base : Str) (t : Tree)
    (hnot : allowedTree c recovery user t.schema = false) :
    nodeSetKeeps c ug recovery user [] base t = true ↔
      [] ∉ (filterR (readDec c ug user) base t).2 := by
  unfold nodeSetKeeps readFilter
  simp [hnot, selectR]

/-- A top-level leaf is returned by them exactly if it may be read. -/
theorem top_level_leaf_exact (c : Conf) (ug : List NacmGroup.Str) (recovery user : Str) (base : Str)
    (s : Schema) (step : Str) (hk : s.key = false) (hnot : allowedTree c recovery user s = false) :
    nodeSetKeeps c ug recovery user [] base (.node s step []) = true ↔
      Permitted c ug user .read s (base ++ step) := by
  rw [top_level_item c ug recovery user base (.node s step []) hnot, ← (decision_exact c ug user .read s (base ++ step)).1]
  simp only [filterR, filterRs, readDec]
  cases (allowedNode c ug user .read s (base ++ step)).access <;> simp [Access.isPermit, hk]

/-! ### What is missing in C46 -/

/-- A configuration denying one leaf in a container. -/
def leafDenied : Conf :=
  { enabled := true, readDeny := false, writeDeny := false, execDeny := false,
    lists := [⟨[[103]], [⟨"r1".toList, fun _ => true, .data (some "/m:c/x".toList), none, true⟩]⟩] }

theorem leafDenied_rules : userRules [[103]] leafDenied.lists =
    [⟨"r1".toList, fun _ => true, .data (some "/m:c/x".toList), none, true⟩] := by
  simp [userRules, leafDenied, NacmGroup.groupMatch, NacmGroup.strcmp, NacmGroup.star]

theorem dec_x : allowedNode leafDenied [[103]] "u".toList .read (leafSchema "m" "x") "/m:c/x".toList =
      ⟨.deny, some "r1".toList, none⟩ := by
  rw [allowedNode_eq, leafDenied_rules]
  simp [rulesLoop, ruleCheck, pathCheck, modCheck, leafSchema, allowedPath, NacmPath.go, adjust]

theorem dec_y : allowedNode leafDenied [[103]] "u".toList .read (leafSchema "m" "y") "/m:c/y".toList =
      ⟨.partialPermit, none, none⟩ := by
  rw [allowedNode_eq, leafDenied_rules]
  simp [rulesLoop, ruleCheck, pathCheck, modCheck, leafSchema, allowedPath, NacmPath.go, adjust,
    step10, extLoop, defaultAccess, leafDenied]

theorem dec_c : allowedNode leafDenied [[103]] "u".toList .read (topSchema "m" "c") "/m:c".toList =
      ⟨.partialPermit, none, none⟩ := by
  rw [allowedNode_eq, leafDenied_rules]
  simp [rulesLoop, ruleCheck, pathCheck, modCheck, topSchema, allowedPath, NacmPath.go, adjust,
    step10, extLoop, defaultAccess, leafDenied]

def sampleTree : Tree :=
  .node (topSchema "m" "c") "/m:c".toList
    [.node (leafSchema "m" "x") "/x".toList [], .node (leafSchema "m" "y") "/y".toList []]

-- a case of `get_data_filtered_partial`: the denied leaf is removed, the other one kept
example : allowedTree leafDenied "root".toList "u".toList (topSchema "m" "c") = false ∧
    subtreeFilter leafDenied [[103]] "root".toList "u".toList [] [] sampleTree = some [[0]] := by
  have h : allowedTree leafDenied "root".toList "u".toList (topSchema "m" "c") = false := by
    simp [allowedTree, leafDenied, topSchema]
  refine ⟨h, ?_⟩
  unfold subtreeFilter readFilter
  rw [show (([] : List (Schema × Str)).map Prod.fst).head?.getD sampleTree.schema = topSchema "m" "c" from rfl, h]
  simp [sampleTree, selectR, freeLoop, filterR, filterRs, readDec, allowedNode_eq, userRules, NacmGroup.groupMatch,
    NacmGroup.strcmp, NacmGroup.star, rulesLoop, ruleCheck,
    pathCheck, modCheck, topSchema, leafSchema, allowedPath, NacmPath.go, adjust, step10, extLoop,
    defaultAccess, leafDenied]

theorem sampleTree_nodes (p : Pos) (n : Schema × Str) (h : nodeAt [] sampleTree p = some n) :
    (p = [] ∧ n = (topSchema "m" "c", "/m:c".toList)) ∨
    (p = [0] ∧ n = (leafSchema "m" "x", "/m:c/x".toList)) ∨
    (p = [1] ∧ n = (leafSchema "m" "y", "/m:c/y".toList)) := by
  match p with
  | [] => cases h; exact Or.inl ⟨rfl, rfl⟩
  | [0] => cases h; exact Or.inr (Or.inl ⟨rfl, rfl⟩)
  | [1] => cases h; exact Or.inr (Or.inr ⟨rfl, rfl⟩)
  | (i + 2) :: p => simp [sampleTree, nodeAt] at h
  | 0 :: j :: p => simp [sampleTree, nodeAt] at h
  | 1 :: j :: p => simp [sampleTree, nodeAt] at h

-- the tree meets the hypotheses
example : Plain leafDenied "u".toList [] sampleTree "m".toList := by
  have safe : ∀ path : Str, path = "/m:c".toList ∨ path = "/m:c/x".toList ∨ path = "/m:c/y".toList →
      Safe leafDenied "u".toList path := by
    intro path hp l hl r hr t ht
    simp only [leafDenied, List.mem_singleton] at hl
    subst hl
    simp only [List.mem_singleton] at hr
    subst hr
    simp only [Rule.path?, Option.some.injEq] at ht
    subst ht
    rcases hp with rfl | rfl | rfl <;> simp [allowedPath, NacmPath.go]
  constructor
  · intro p n hn
    rcases sampleTree_nodes p n hn with ⟨_, rfl⟩ | ⟨_, rfl⟩ | ⟨_, rfl⟩
    · exact ⟨rfl, rfl, safe _ (by simp)⟩
    · exact ⟨rfl, rfl, safe _ (by simp)⟩
    · exact ⟨rfl, rfl, safe _ (by simp)⟩
  · intro p n hn hk
    rcases sampleTree_nodes p n hn with ⟨_, rfl⟩ | ⟨_, rfl⟩ | ⟨_, rfl⟩ <;> cases hk

/-- **C46 fails for node sets**: `sr_get_item("/m:c/x")` returns the leaf although a rule denies
reading it: the filter records the top-level node in place of the denied one. -/
theorem denied_item_returned :
    ¬ Permitted leafDenied [[103]] "u".toList .read (leafSchema "m" "x") "/m:c/x".toList ∧
    nodeSetKeeps leafDenied [[103]] "root".toList "u".toList [(topSchema "m" "c", "/m:c".toList)]
      "/m:c".toList (.node (leafSchema "m" "x") "/x".toList []) = true := by
  constructor
  · rw [← (decision_exact _ _ _ _ _ _).1, dec_x]; simp [Access.isPermit]
  · have h : allowedTree leafDenied "root".toList "u".toList (topSchema "m" "c") = false := by
      simp [allowedTree, leafDenied, topSchema]
    unfold nodeSetKeeps readFilter
    rw [show ([(topSchema "m" "c", "/m:c".toList)].map Prod.fst).head?.getD
      (Tree.schema (.node (leafSchema "m" "x") "/x".toList [])) = topSchema "m" "c" from rfl, h]
    simp [selectR, filterR, filterRs, readDec, allowedNode_eq, userRules, NacmGroup.groupMatch,
    NacmGroup.strcmp, NacmGroup.star, rulesLoop, ruleCheck,
    pathCheck, modCheck, topSchema, leafSchema, allowedPath, NacmPath.go, adjust, step10, extLoop,
    defaultAccess, leafDenied]

/-- And `sr_get_item`-like functions keep a nested node even if it is its ancestor that is denied. -/
theorem denied_ancestor_returned (c : Conf) (ug : List NacmGroup.Str) (recovery user : Str)
    (anc : List (Schema × Str)) (base : Str) (t : Tree) (a : Schema × Str) (ha : a ∈ anc)
    (hd : readDec c ug user a.1 a.2 = .deny) : nodeSetKeeps c ug recovery user anc base t = true := by
  unfold nodeSetKeeps readFilter
  split
  · simp
  · unfold selectR
    rw [if_pos (List.any_eq_true.2 ⟨a, by simpa using ha, by simp [hd]⟩)]
    simp

/-- A configuration that denies a module and permits a container. -/
def modDenied : Conf :=
  { enabled := true, readDeny := true, writeDeny := true, execDeny := true,
    lists := [⟨[[103]], [⟨"no-n".toList, fun _ => true, .any none, some "n".toList, true⟩,
                ⟨"yes-c".toList, fun _ => true, .data (some "/m:c".toList), none, false⟩]⟩] }

theorem modDenied_rules : userRules [[103]] modDenied.lists =
    [⟨"no-n".toList, fun _ => true, .any none, some "n".toList, true⟩,
     ⟨"yes-c".toList, fun _ => true, .data (some "/m:c".toList), none, false⟩] := by
  simp [userRules, modDenied, NacmGroup.groupMatch, NacmGroup.strcmp, NacmGroup.star]

theorem mod_dec_c (op : Oper) :
    allowedNode modDenied [[103]] "u".toList op (topSchema "m" "c") "/m:c".toList =
      ⟨.permit, some "yes-c".toList, none⟩ := by
  rw [allowedNode_eq, modDenied_rules]
  simp [rulesLoop, ruleCheck, pathCheck, modCheck, topSchema, allowedPath, NacmPath.go, adjust]

theorem mod_dec_x (op : Oper) :
    allowedNode modDenied [[103]] "u".toList op (leafSchema "n" "x") "/m:c/n:x".toList =
      ⟨.deny, some "no-n".toList, none⟩ := by
  rw [allowedNode_eq, modDenied_rules]
  simp [rulesLoop, ruleCheck, pathCheck, modCheck, leafSchema, adjust]

/-- **C46 fails for augments**: the first matching rule denies all nodes of module `n`, but a leaf of
`n` in a container of `m` is returned because a later rule permits the container. -/
theorem augment_leaks :
    ¬ Permitted modDenied [[103]] "u".toList .read (leafSchema "n" "x") "/m:c/n:x".toList ∧
    subtreeFilter modDenied [[103]] "root".toList "u".toList [] []
      (.node (topSchema "m" "c") "/m:c".toList [.node (leafSchema "n" "x") "/n:x".toList []]) = some [] := by
  constructor
  · rw [← (decision_exact _ _ _ _ _ _).1, mod_dec_x]; simp [Access.isPermit]
  · have h : allowedTree modDenied "root".toList "u".toList (topSchema "m" "c") = false := by
      simp [allowedTree, modDenied, topSchema]
    unfold subtreeFilter readFilter
    rw [show (([] : List (Schema × Str)).map Prod.fst).head?.getD (Tree.schema
      (.node (topSchema "m" "c") "/m:c".toList [.node (leafSchema "n" "x") "/n:x".toList []])) =
      topSchema "m" "c" from rfl, h]
    simp [selectR, freeLoop, filterR, filterRs, readDec, allowedNode_eq, userRules, NacmGroup.groupMatch,
    NacmGroup.strcmp, NacmGroup.star, rulesLoop, ruleCheck,
    pathCheck, modCheck, topSchema, leafSchema, allowedPath, NacmPath.go, adjust, step10, extLoop,
    defaultAccess, modDenied]

/-! ## C47: changes -/

theorem needs_iff (o : DOp) (op : Oper) : o.oper = some op ↔ Needs o op := by
  constructor
  · intro h; cases o <;> simp only [DOp.oper, Option.some.injEq, reduceCtorEq] at h
    · rw [← h]; exact .replaced
    · rw [← h]; exact .created
    · rw [← h]; exact .deleted
  · intro h; cases h <;> rfl

mutual
/-- A denial is caused by a node. -/
theorem checkDiffR_denied (dec : Oper → Schema → Str → Access) (base : Str) (pop : DOp) (t : DTree)
    (h : checkDiffR dec base pop t = true) :
    ∃ s p o op, DMem base pop [t] s p o ∧ o.oper = some op ∧ dec op s p = .deny := by
  match t, h with
  | .node s step op ch, h =>
    have lift : checkDiffRs dec (base ++ step) (op.getD pop) ch = true →
        ∃ s' p o op', DMem base pop [.node s step op ch] s' p o ∧ o.oper = some op' ∧ dec op' s' p = .deny := by
      intro h
      obtain ⟨s', p, o, op', h1, h2, h3⟩ := checkDiffRs_denied dec (base ++ step) (op.getD pop) ch h
      exact ⟨s', p, o, op', .under (s := s) (List.mem_singleton.2 rfl) h1, h2, h3⟩
    simp only [checkDiffR] at h
    cases ho : (op.getD pop).oper with
    | none => rw [ho] at h; exact lift h
    | some o =>
      rw [ho] at h
      simp only at h
      cases hd : dec o s (base ++ step) with
      | permit => simp [hd] at h
      | deny => exact ⟨s, base ++ step, op.getD pop, o, .this (ch := ch) (by simp), ho, hd⟩
      | partialDeny => rw [hd] at h; exact lift h
      | partialPermit => rw [hd] at h; exact lift h

theorem checkDiffRs_denied (dec : Oper → Schema → Str → Access) (base : Str) (pop : DOp) (ts : List DTree)
    (h : checkDiffRs dec base pop ts = true) :
    ∃ s p o op, DMem base pop ts s p o ∧ o.oper = some op ∧ dec op s p = .deny := by
  match ts, h with
  | t :: ts, h =>
    simp only [checkDiffRs, Bool.or_eq_true] at h
    have mono : ∀ (l : List DTree) s p o, (∀ x ∈ l, x ∈ t :: ts) → DMem base pop l s p o →
        DMem base pop (t :: ts) s p o := by
      intro l s p o hl hm
      cases hm with
      | this h => exact .this (hl _ h)
      | under h h' => exact .under (hl _ h) h'
    rcases h with h | h
    · obtain ⟨s, p, o, op, h1, h2, h3⟩ := checkDiffR_denied dec base pop t h
      exact ⟨s, p, o, op, mono [t] s p o (by simp) h1, h2, h3⟩
    · obtain ⟨s, p, o, op, h1, h2, h3⟩ := checkDiffRs_denied dec base pop ts h
      exact ⟨s, p, o, op, mono ts s p o (by intro x hx; simp [hx]) h1, h2, h3⟩
end

/-- **C47**, one half: a change refused by NACM creates, updates or deletes a node for which that
access is denied. -/
theorem refused_change_denied (c : Conf) (ug : List NacmGroup.Str) (recovery user : Str)
    (diff : List DTree) (h : checkDiff c ug recovery user diff = true) :
    ∃ s p o op, DMem [] .none diff s p o ∧ Needs o op ∧ ¬ Permitted c ug user op s p := by
  unfold checkDiff at h
  cases diff with
  | nil => cases h
  | cons t ts =>
    simp only at h
    split at h
    · cases h
    · obtain ⟨s, p, o, op, h1, h2, h3⟩ := checkDiffRs_denied _ _ _ _ h
      refine ⟨s, p, o, op, h1, (needs_iff o op).1 h2, fun hp => ?_⟩
      have := (decision_exact c ug user op s p).1.2 hp
      rw [h3] at this; cases this

/-- Below a node that is created, replaced or deleted, all nodes have the same operation. -/
inductive OneOp : DOp → List DTree → Prop
  | nil {pop} : OneOp pop []
  | cons {pop s step op ch ts} :
      (op.getD pop ≠ .none → ∀ b s' p' o', DMem b (op.getD pop) ch s' p' o' → o' = op.getD pop) →
      OneOp (op.getD pop) ch → OneOp pop ts → OneOp pop (.node s step op ch :: ts)

theorem OneOp.mem {pop : DOp} {ts : List DTree} (h : OneOp pop ts) {s step op ch}
    (hm : DTree.node s step op ch ∈ ts) :
    (op.getD pop ≠ .none → ∀ b s' p' o', DMem b (op.getD pop) ch s' p' o' → o' = op.getD pop) ∧
    OneOp (op.getD pop) ch := by
  induction ts with
  | nil => simp at hm
  | cons t ts ih =>
    cases h with
    | cons h1 h2 h3 =>
      rcases List.mem_cons.1 hm with h | h
      · cases h; exact ⟨h1, h2⟩
      · exact ih h3 h

theorem checkDiffRs_mem (dec : Oper → Schema → Str → Access) (base : Str) (pop : DOp) (ts : List DTree)
    (t : DTree) (ht : t ∈ ts) (h : checkDiffR dec base pop t = true) :
    checkDiffRs dec base pop ts = true := by
  induction ts with
  | nil => simp at ht
  | cons x ts ih =>
    simp only [checkDiffRs, Bool.or_eq_true]
    rcases List.mem_cons.1 ht with rfl | h'
    · exact Or.inl h
    · exact Or.inr (ih h')

theorem DMem.path {base pop ts s p o} (h : DMem base pop ts s p o) : ∃ r, p = base ++ r := by
  induction h with
  | this _ => exact ⟨_, rfl⟩
  | under _ _ ih => obtain ⟨r, rfl⟩ := ih; exact ⟨_, List.append_assoc _ _ _⟩

theorem oper_none {o : DOp} (h : o.oper = none) : o = .none := by cases o <;> simp [DOp.oper] at h ⊢

theorem checkDiffRs_complete (c : Conf) (ug : List NacmGroup.Str) (user mod : Str) {base pop ts s p o op}
    (h : DMem base pop ts s p o) (ho : o.oper = some op) (h1 : OneOp pop ts)
    (hn : ∀ s p o, DMem base pop ts s p o → s.mod = mod ∧ s.kind = .data ∧ Safe c user p)
    (hP : ¬ Permitted c ug user op s p) (hd : (allowedNode c ug user op s p).access = .deny) :
    checkDiffRs (fun o s p => (allowedNode c ug user o s p).access) base pop ts = true := by
  induction h with
  | @this base pop ts s step op' ch hm =>
    refine checkDiffRs_mem _ _ _ _ _ hm ?_
    simp only [checkDiffR, ho, hd]
  | @under base pop ts s step op' ch s' p' o' hm hb ih =>
    obtain ⟨h2, h3⟩ := h1.mem hm
    have hrec := ih ho h3 (fun s p o h => hn s p o (.under hm h)) hP hd
    refine checkDiffRs_mem _ _ _ _ _ hm ?_
    simp only [checkDiffR]
    cases hoo : (op'.getD pop).oper with
    | none => exact hrec
    | some o2 =>
      simp only
      have hne : op'.getD pop ≠ .none := by intro h; rw [h] at hoo; cases hoo
      have heq := h2 hne _ _ _ _ hb
      rw [← heq, ho] at hoo
      cases hoo
      obtain ⟨a1, a2, a3⟩ := hn _ _ _ (.this hm)
      obtain ⟨b1, b2, _⟩ := hn _ _ _ (.under hm hb)
      cases hacc : (allowedNode c ug user op s (base ++ step)).access with
      | deny => rfl
      | partialDeny => exact hrec
      | partialPermit => exact hrec
      | permit =>
        obtain ⟨r, hr⟩ := hb.path
        rw [hr] at hP
        exact absurd (permit_below c ug user op s s' (base ++ step) r a2 b2 (by rw [b1, a1]) a3 hacc) hP

/-- **C47** (partial), the other half: a change that creates, updates or deletes a node for which the
access is denied, and no rule for the operation permits something below that node, is refused.
Assumed: the changed nodes are data nodes of one module (see `augment_write_leaks`) and everything below
a created, replaced or deleted node has the same operation (see `move_leaks`). A denied node with a
permitting rule for something below it is not refused (see `partial_deny_leaks`). -/
theorem denied_change_refused_partial (c : Conf) (ug : List NacmGroup.Str) (recovery user mod : Str)
    (diff : List DTree) (hnot : ∀ t ∈ diff, allowedTree c recovery user t.schema = false)
    (h1 : OneOp .none diff)
    (hn : ∀ s p o, DMem [] .none diff s p o → s.mod = mod ∧ s.kind = .data ∧ Safe c user p)
    (s : Schema) (p : Str) (o : DOp) (op : Oper) (hm : DMem [] .none diff s p o) (ho : Needs o op)
    (hP : ¬ Permitted c ug user op s p)
    (hbelow : ∀ r ∈ userRules ug c.lists, r.ops op = true → r.deny = false →
      ∀ t, r.path? = some t → allowedPath t p user ≠ .partly) :
    checkDiff c ug recovery user diff = true := by
  replace ho := (needs_iff o op).2 ho
  have hd : (allowedNode c ug user op s p).access = .deny := by
    have hnp : (allowedNode c ug user op s p).access.isPermit = false := by
      cases h : (allowedNode c ug user op s p).access.isPermit with
      | false => rfl
      | true => exact absurd ((decision_exact c ug user op s p).1.1 h) hP
    have hpart : (rulesLoop (ruleCheck user p s op) (userRules ug c.lists) ⟨false, false⟩).1.permit = false := by
      refine rulesLoop_permit_of _ _ _ rfl (fun r hr hc => ?_)
      obtain ⟨g1, t, g2, g3⟩ := ruleCheck_part user p s op r hc
      cases hdn : r.deny with
      | true => rfl
      | false => exact absurd g3 (hbelow r hr g1 hdn t g2)
    rw [allowedNode_eq] at hnp ⊢
    cases hl : rulesLoop (ruleCheck user p s op) (userRules ug c.lists) ⟨false, false⟩ with
    | mk pp oo =>
      rw [hl] at hnp hpart
      cases oo with
      | some r =>
        simp only [adjust_permit] at hnp ⊢
        cases hr : r.deny with
        | false => rw [hr] at hnp; cases hnp
        | true => simp only [if_true]; exact adjust_deny _ hpart
      | none =>
        simp only [adjust_permit] at hnp ⊢
        rcases step10_permit c s op with ⟨h2, _⟩ | ⟨h2, _⟩
        · rw [h2]; exact adjust_deny _ hpart
        · rw [h2] at hnp; cases hnp
  have hall := checkDiffRs_complete c ug user mod hm ho h1 hn hP hd
  unfold checkDiff
  cases diff with
  | nil => simp [checkDiffRs] at hall
  | cons t ts =>
    simp only
    rw [hnot t (by simp)]
    exact hall

-- a case: deleting the denied leaf `x` of the container
example : checkDiff leafDenied [[103]] "root".toList "u".toList
    [.node (topSchema "m" "c") "/m:c".toList (some .none)
      [.node (leafSchema "m" "x") "/x".toList (some .delete) []]] = true := by
  have h : allowedTree leafDenied "root".toList "u".toList (topSchema "m" "c") = false := by
    simp [allowedTree, leafDenied, topSchema]
  have hx : allowedNode leafDenied [[103]] "u".toList .delete (leafSchema "m" "x") "/m:c/x".toList =
      ⟨.deny, some "r1".toList, none⟩ := by
    rw [allowedNode_eq, leafDenied_rules]
    simp [rulesLoop, ruleCheck, pathCheck, modCheck, leafSchema, allowedPath, NacmPath.go, adjust]
  simp only [checkDiff, DTree.schema, h, checkDiffRs, checkDiffR, Option.getD_some, DOp.oper, List.nil_append]
  rw [show "/m:c".toList ++ "/x".toList = "/m:c/x".toList by decide, hx]
  simp

/-- The same change meets the hypotheses of `denied_change_refused_partial`. -/
example : OneOp .none [.node (topSchema "m" "c") "/m:c".toList (some .none)
      [.node (leafSchema "m" "x") "/x".toList (some .delete) []]] := by
  refine .cons (by simp) (.cons ?_ .nil .nil) .nil
  intro _ b s' p' o' h
  cases h with
  | this h => simp at h
  | under h _ => simp at h

/-- **C47 fails**: all access is denied except for writing one leaf, yet creating the container with
the leaf is accepted. -/
theorem partial_deny_leaks :
    let c : Conf := ⟨true, true, true, true,
      [⟨[[103]], [⟨"r1".toList, fun _ => true, .data (some "/m:c/x".toList), none, false⟩]⟩]⟩
    ¬ Permitted c [[103]] "u".toList .create (topSchema "m" "c") "/m:c".toList ∧
    checkDiff c [[103]] "root".toList "u".toList
      [.node (topSchema "m" "c") "/m:c".toList (some .create) []] = false := by
  intro c
  have hr : userRules [[103]] c.lists =
      [⟨"r1".toList, fun _ => true, .data (some "/m:c/x".toList), none, false⟩] := by
    simp [c, userRules, NacmGroup.groupMatch, NacmGroup.strcmp, NacmGroup.star]
  have hc : allowedNode c [[103]] "u".toList .create (topSchema "m" "c") "/m:c".toList =
      ⟨.partialDeny, none, none⟩ := by
    rw [allowedNode_eq, hr]
    simp [rulesLoop, ruleCheck, pathCheck, topSchema, allowedPath, NacmPath.go, adjust, step10, extLoop,
      defaultAccess, c]
  have h : allowedTree c "root".toList "u".toList (topSchema "m" "c") = false := by
    simp [allowedTree, topSchema, c]
  constructor
  · rw [← (decision_exact _ _ _ _ _ _).1, hc]; simp [Access.isPermit]
  · simp only [checkDiff, DTree.schema, h, checkDiffRs, checkDiffR, Option.getD_some, DOp.oper, List.nil_append]
    rw [hc]
    simp

/-- **C47 fails for augments**: the rule denying all of module `n` comes first, but a leaf of `n`
created in a permitted container of `m` is accepted. -/
theorem augment_write_leaks :
    ¬ Permitted modDenied [[103]] "u".toList .create (leafSchema "n" "x") "/m:c/n:x".toList ∧
    checkDiff modDenied [[103]] "root".toList "u".toList
      [.node (topSchema "m" "c") "/m:c".toList (some .create)
        [.node (leafSchema "n" "x") "/n:x".toList none []]] = false := by
  constructor
  · rw [← (decision_exact _ _ _ _ _ _).1, mod_dec_x]; simp [Access.isPermit]
  · have h : allowedTree modDenied "root".toList "u".toList (topSchema "m" "c") = false := by
      simp [allowedTree, modDenied, topSchema]
    simp only [checkDiff, DTree.schema, h, checkDiffRs, checkDiffR, Option.getD_some, DOp.oper, List.nil_append]
    rw [mod_dec_c .create]
    simp

/-- **C47 fails for moved entries**: only updating is permitted, but a leaf is deleted from a list
entry that is moved by the same change. -/
theorem move_leaks :
    let c : Conf := ⟨true, true, true, true,
      [⟨[[103]], [⟨"r1".toList, fun o => o == .update, .data (some "/m:c".toList), none, false⟩]⟩]⟩
    ¬ Permitted c [[103]] "u".toList .delete (leafSchema "m" "x") "/m:c/x".toList ∧
    checkDiff c [[103]] "root".toList "u".toList
      [.node (topSchema "m" "c") "/m:c".toList (some .replace)
        [.node (leafSchema "m" "x") "/x".toList (some .delete) []]] = false := by
  intro c
  have hr : userRules [[103]] c.lists =
      [⟨"r1".toList, fun o => o == .update, .data (some "/m:c".toList), none, false⟩] := by
    simp [c, userRules, NacmGroup.groupMatch, NacmGroup.strcmp, NacmGroup.star]
  have hc : allowedNode c [[103]] "u".toList .update (topSchema "m" "c") "/m:c".toList =
      ⟨.permit, some "r1".toList, none⟩ := by
    rw [allowedNode_eq, hr]
    simp [rulesLoop, ruleCheck, pathCheck, modCheck, topSchema, allowedPath, NacmPath.go, adjust]
  have hx : allowedNode c [[103]] "u".toList .delete (leafSchema "m" "x") "/m:c/x".toList =
      ⟨.deny, none, none⟩ := by
    rw [allowedNode_eq, hr]
    simp [rulesLoop, ruleCheck, leafSchema, adjust, step10, extLoop, defaultAccess, c]
  have h : allowedTree c "root".toList "u".toList (topSchema "m" "c") = false := by
    simp [allowedTree, topSchema, c]
  constructor
  · rw [← (decision_exact _ _ _ _ _ _).1, hx]; simp [Access.isPermit]
  · simp only [checkDiff, DTree.schema, h, checkDiffRs, checkDiffR, Option.getD_some, DOp.oper, List.nil_append]
    rw [hc]
    simp

/-! ## C57: executing operations and delivering notifications -/

/-- What is checked before an operation is executed (a notification is delivered): execution of the
RPC or action (reading of the notification) and reading of the node it is in are permitted. -/
theorem operation_checked_partial (c : Conf) (ug : List NacmGroup.Str) (recovery user : Str)
    (anc : List (Schema × Str)) (op : Schema × Str)
    (hnot : allowedTree c recovery user ((anc ++ [op]).head?.getD op).1 = false) :
    checkOperation c ug recovery user anc op = false ↔
      Permitted c ug user (if op.1.kind = .notif then .read else .exec) op.1 op.2 ∧
      ∀ a, anc.getLast? = some a → Permitted c ug user .read a.1 a.2 := by
  unfold checkOperation
  rw [hnot]
  simp only [Bool.false_eq_true, if_false]
  rw [← (decision_exact _ _ _ _ _ _).1]
  cases hx : (allowedNode c ug user (if op.1.kind = .notif then .read else .exec) op.1 op.2).access.isPermit with
  | false => simp
  | true =>
    simp only [not_true_eq_false, if_false, true_and]
    cases ha : anc.getLast? with
    | none => simp
    | some a =>
      simp only [Option.some.injEq, forall_eq']
      rw [← (decision_exact _ _ _ _ _ _).1]
      simp

/-- RPCs are decided by execution alone. -/
theorem rpc_checked (c : Conf) (ug : List NacmGroup.Str) (recovery user : Str) (op : Schema × Str)
    (hk : op.1.kind = .rpc) (hnot : allowedTree c recovery user op.1 = false) :
    checkOperation c ug recovery user [] op = false ↔ Permitted c ug user .exec op.1 op.2 := by
  rw [operation_checked_partial c ug recovery user [] op (by simpa using hnot)]
  simp [hk]

/-- **C57 fails for nested actions**: only the direct parent of an action is checked; the action is
executed although its grandparent may not be read. -/
theorem grandparent_not_checked :
    let c : Conf := ⟨true, true, true, false,
      [⟨[[103]], [⟨"r1".toList, fun _ => true, .data (some "/m:c/d".toList), none, false⟩]⟩]⟩
    ¬ Permitted c [[103]] "u".toList .read (topSchema "m" "c") "/m:c".toList ∧
    checkOperation c [[103]] "root".toList "u".toList
      [(topSchema "m" "c", "/m:c".toList), (leafSchema "m" "d", "/m:c/d".toList)]
      (⟨"m".toList, "a".toList, .action, false, false, []⟩, "/m:c/d/a".toList) = false := by
  intro c
  have hr : userRules [[103]] c.lists =
      [⟨"r1".toList, fun _ => true, .data (some "/m:c/d".toList), none, false⟩] := by
    simp [c, userRules, NacmGroup.groupMatch, NacmGroup.strcmp, NacmGroup.star]
  have hc : allowedNode c [[103]] "u".toList .read (topSchema "m" "c") "/m:c".toList =
      ⟨.partialDeny, none, none⟩ := by
    rw [allowedNode_eq, hr]
    simp [rulesLoop, ruleCheck, pathCheck, topSchema, allowedPath, NacmPath.go, adjust, step10, extLoop,
      defaultAccess, c]
  have hd : allowedNode c [[103]] "u".toList .read (leafSchema "m" "d") "/m:c/d".toList =
      ⟨.permit, some "r1".toList, none⟩ := by
    rw [allowedNode_eq, hr]
    simp [rulesLoop, ruleCheck, pathCheck, modCheck, leafSchema, allowedPath, NacmPath.go, adjust]
  have ha : allowedNode c [[103]] "u".toList .exec ⟨"m".toList, "a".toList, .action, false, false, []⟩
      "/m:c/d/a".toList = ⟨.permit, some "r1".toList, none⟩ := by
    rw [allowedNode_eq, hr]
    simp [rulesLoop, ruleCheck, pathCheck, modCheck, allowedPath, NacmPath.go, adjust]
  have h : allowedTree c "root".toList "u".toList (topSchema "m" "c") = false := by
    simp [allowedTree, topSchema, c]
  constructor
  · rw [← (decision_exact _ _ _ _ _ _).1, hc]; simp [Access.isPermit]
  · refine (operation_checked_partial c _ _ _ _ _ h).2 ⟨?_, ?_⟩
    · refine (decision_exact _ _ _ _ _ _).1.1 ?_
      rw [if_neg (by decide), ha]; rfl
    · intro a h'
      cases h'
      refine (decision_exact _ _ _ _ _ _).1.1 ?_
      show (allowedNode c [[103]] "u".toList .read (leafSchema "m" "d") "/m:c/d".toList).access.isPermit = true
      rw [hd]; rfl

end Verif.Nacm
