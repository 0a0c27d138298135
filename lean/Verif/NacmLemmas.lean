import Verif.Nacm
/-!
# Lemmas about NACM decisions
-/
namespace Verif.Nacm

open Verif.NacmPath (Res allowedPath go upToQuote skipPred)

/-! ## Rule paths and longer node paths -/

theorem upToQuote_append (s m : Str) (p : Str × Str) (h : upToQuote s = some p) :
    upToQuote (s ++ m) = some (p.1, p.2 ++ m) := by
  induction s generalizing p with
  | nil => simp [upToQuote] at h
  | cons c s ih =>
    simp only [upToQuote, List.cons_append] at h ⊢
    split at h
    · rename_i hc; cases h; simp [hc]
    · rename_i hc
      rw [if_neg hc]
      cases hu : upToQuote s with
      | none => simp [hu] at h
      | some p' =>
        simp only [hu, Option.map_some, Option.some.injEq] at h
        subst h
        rw [ih p' hu]; rfl

theorem skipPred_append (q : Bool) (s m t : Str) (h : skipPred q s = some t) :
    skipPred q (s ++ m) = some (t ++ m) := by
  induction s generalizing q with
  | nil => cases q <;> simp [skipPred] at h
  | cons c s ih =>
    cases q with
    | true => simp only [skipPred, List.cons_append] at h ⊢; exact ih _ h
    | false =>
      simp only [skipPred, List.cons_append] at h ⊢
      split at h
      · rename_i hc; cases h; simp [hc]
      · rename_i hc; rw [if_neg hc]; exact ih _ h

theorem go_append (u : Str) (pr pn : Option Char) (r n m : Str) :
    (go u pr pn r n = .yes → go u pr pn r (n ++ m) = .yes) ∧
    (go u pr pn r n = .no → go u pr pn r (n ++ m) = .no) := by
  fun_induction go u pr pn r n with
  | case1 => refine ⟨fun _ => ?_, fun h => by cases h⟩; rw [go.eq_def]; cases m <;> rfl
  | case2 pr pn c t => refine ⟨fun _ => ?_, fun h => by cases h⟩; rw [go.eq_def]; rfl
  | case3 => constructor <;> intro h <;> cases h
  | case4 pr pn rs n ns ih =>
    rw [List.cons_append, go.eq_def (rule := n :: rs) (node := n :: (ns ++ m))]
    simpa using ih
  | case5 => constructor <;> intro h <;> cases h
  | case6 pr pn r rs n ns h1 h2 h3 h4 =>
    refine ⟨fun h => by (cases h), fun _ => ?_⟩
    rw [List.cons_append, go.eq_def]
    simp only [if_neg h1, if_neg h2, if_pos h3, if_pos h4]
  | case7 => constructor <;> intro h <;> cases h
  | case8 pr pn r rs n ns h1 h2 h3 h4 p hp hu =>
    refine ⟨fun h => by (cases h), fun _ => ?_⟩
    rw [List.cons_append, go.eq_def]
    simp only [if_neg h1, if_neg h2, if_pos h3, if_neg h4]
    have := upToQuote_append ns m p hp
    split
    · rename_i h; rw [this] at h; cases h
    · rename_i h; rw [this] at h; cases h; rw [if_pos hu]
  | case9 pr pn r rs n ns h1 h2 h3 h4 p hp hu ih =>
    have e : go u pr pn (r :: rs) (n :: ns ++ m) = go u (some 'R') (some '\'') (rs.drop 4) (p.2 ++ m) := by
      rw [List.cons_append, go.eq_def]
      simp only [if_neg h1, if_neg h2, if_pos h3, if_neg h4]
      have := upToQuote_append ns m p hp
      split
      · rename_i h; rw [this] at h; cases h
      · rename_i h; rw [this] at h; cases h; rw [if_neg hu]
    rw [e]; exact ih
  | case10 => constructor <;> intro h <;> cases h
  | case11 pr pn r rs n ns h1 h2 h3 h4 ns' hp ih =>
    have e : go u pr pn (r :: rs) (n :: ns ++ m) = go u pr (some ']') (r :: rs) (ns' ++ m) := by
      rw [List.cons_append, go.eq_def]
      simp only [if_neg h1, if_neg h2, if_neg h3, if_pos h4]
      have := skipPred_append false (n :: ns) m ns' hp
      rw [List.cons_append] at this
      split
      · rename_i h; rw [this] at h; cases h
      · rename_i h; rw [this] at h; cases h; rfl
    rw [e]; exact ih
  | case12 pr pn r rs n ns h1 h2 h3 h4 =>
    refine ⟨fun h => by (cases h), fun _ => ?_⟩
    rw [List.cons_append, go.eq_def]
    simp only [if_neg h1, if_neg h2, if_neg h3, if_neg h4]

/-- A rule that covers a node covers everything below it. -/
theorem allowedPath_yes_below (t a m user : Str) (h : allowedPath t a user = .yes) :
    allowedPath t (a ++ m) user = .yes := (go_append user none none t a m).1 h

/-- A rule that covers something below a node covers the node or matches it partially. -/
theorem allowedPath_above (t a m user : Str) (h : allowedPath t (a ++ m) user = .yes)
    (hs : allowedPath t a user ≠ .oob) : allowedPath t a user = .yes ∨ allowedPath t a user = .partly := by
  cases hc : allowedPath t a user with
  | yes => exact Or.inl rfl
  | partly => exact Or.inr rfl
  | oob => exact absurd hc hs
  | no =>
    have := (go_append user none none t a m).2 hc
    unfold allowedPath at h
    rw [this] at h; cases h

/-! ## Loops over rules -/

theorem rulesLoop_append (chk : Rule → Chk) (a b : List Rule) (p : Part) :
    rulesLoop chk (a ++ b) p =
      match rulesLoop chk a p with
      | (p', some r) => (p', some r)
      | (p', none) => rulesLoop chk b p' := by
  induction a generalizing p with
  | nil => rfl
  | cons r a ih =>
    simp only [List.cons_append, rulesLoop]
    cases chk r with
    | skip => exact ih p
    | part => exact ih _
    | hit => rfl

theorem listsLoop_eq (chk : Rule → Chk) (ug : List NacmGroup.Str) (ls : List RuleList) (p : Part) :
    listsLoop chk ug ls p = rulesLoop chk (userRules ug ls) p := by
  induction ls generalizing p with
  | nil => rfl
  | cons l ls ih =>
    simp only [listsLoop, userRules, List.filter_cons]
    split
    · rename_i h
      simp only [List.flatMap_cons]
      rw [rulesLoop_append]
      split <;> rename_i h' <;> rw [h']
      exact ih _
    · exact ih p

theorem rulesLoop_some (chk : Rule → Chk) (l : List Rule) (p : Part) (r : Rule) :
    (rulesLoop chk l p).2 = some r ↔ First (fun x => chk x = .hit) l r := by
  induction l generalizing p with
  | nil => simp [rulesLoop, First]
  | cons x l ih =>
    simp only [rulesLoop]
    have key : chk x ≠ .hit →
        (First (fun x => chk x = .hit) (x :: l) r ↔ First (fun x => chk x = .hit) l r) := by
      intro hx
      constructor
      · rintro ⟨a, b, h1, h2, h3⟩
        cases a with
        | nil => simp only [List.nil_append, List.cons.injEq] at h1; rw [h1.1] at hx; exact absurd h2 hx
        | cons y a =>
          simp only [List.cons_append, List.cons.injEq] at h1
          exact ⟨a, b, h1.2, h2, fun z hz => h3 z (List.mem_cons_of_mem _ hz)⟩
      · rintro ⟨a, b, h1, h2, h3⟩
        refine ⟨x :: a, b, by rw [h1]; rfl, h2, fun z hz => ?_⟩
        rcases List.mem_cons.1 hz with rfl | hz
        · exact hx
        · exact h3 z hz
    cases hc : chk x with
    | skip => simp only; rw [ih, key (by simp [hc])]
    | part => simp only; rw [ih, key (by simp [hc])]
    | hit =>
      simp only
      constructor
      · intro h; cases h; exact ⟨[], l, rfl, hc, by simp⟩
      · rintro ⟨a, b, h1, h2, h3⟩
        cases a with
        | nil => simp only [List.nil_append, List.cons.injEq] at h1; rw [h1.1]
        | cons y a =>
          simp only [List.cons_append, List.cons.injEq] at h1
          exact absurd hc (by rw [h1.1]; exact h3 y (by simp))

theorem rulesLoop_none (chk : Rule → Chk) (l : List Rule) (p : Part) :
    (rulesLoop chk l p).2 = none ↔ ∀ r ∈ l, chk r ≠ .hit := by
  induction l generalizing p with
  | nil => simp [rulesLoop]
  | cons x l ih =>
    simp only [rulesLoop]
    cases hc : chk x <;> simp [ih, hc]

theorem rulesLoop_deny_mono (chk : Rule → Chk) (l : List Rule) (p : Part) (h : p.deny = true) :
    (rulesLoop chk l p).1.deny = true := by
  induction l generalizing p with
  | nil => exact h
  | cons x l ih =>
    simp only [rulesLoop]
    cases chk x with
    | skip => exact ih p h
    | part => refine ih _ ?_; cases x.deny <;> simp [h]
    | hit => exact h

theorem rulesLoop_permit_mono (chk : Rule → Chk) (l : List Rule) (p : Part) (h : p.permit = true) :
    (rulesLoop chk l p).1.permit = true := by
  induction l generalizing p with
  | nil => exact h
  | cons x l ih =>
    simp only [rulesLoop]
    cases chk x with
    | skip => exact ih p h
    | part => refine ih _ ?_; cases x.deny <;> simp [h]
    | hit => exact h

/-- A permitted part is only recorded for a permitting rule with a partial match. -/
theorem rulesLoop_permit_of (chk : Rule → Chk) (l : List Rule) (p : Part) (hp : p.permit = false)
    (h : ∀ r ∈ l, chk r = .part → r.deny = true) : (rulesLoop chk l p).1.permit = false := by
  induction l generalizing p with
  | nil => exact hp
  | cons x l ih =>
    simp only [rulesLoop]
    have ht := fun r hr => h r (List.mem_cons_of_mem _ hr)
    cases hc : chk x with
    | skip => exact ih p hp ht
    | part =>
      have := h x (by simp) hc
      simp only [this, if_true]
      exact ih _ hp ht
    | hit => exact hp

/-- Node `A` above node `D`: permission of `A` without denied parts is permission of `D`. -/
theorem loop_permit (A D : Rule → Chk) (l : List Rule) (p q : Part)
    (h1 : ∀ r ∈ l, A r = .hit → D r = .hit) (h2 : ∀ r ∈ l, D r = .hit → A r ≠ .skip) (R : Rule)
    (hr : (rulesLoop A l p).2 = some R) (hR : R.deny = false) (hp : (rulesLoop A l p).1.deny = false) :
    ∃ R', (rulesLoop D l q).2 = some R' ∧ R'.deny = false := by
  induction l generalizing p q with
  | nil => simp [rulesLoop] at hr
  | cons x l ih =>
    have ht1 := fun r hr => h1 r (List.mem_cons_of_mem _ hr)
    have ht2 := fun r hr => h2 r (List.mem_cons_of_mem _ hr)
    simp only [rulesLoop] at hr hp ⊢
    cases hA : A x with
    | hit =>
      rw [h1 x (by simp) hA]
      simp only [hA] at hr
      cases hr
      exact ⟨_, rfl, hR⟩
    | skip =>
      simp only [hA] at hr hp
      cases hD : D x with
      | hit => exact absurd hA (h2 x (by simp) hD)
      | skip => exact ih p q ht1 ht2 hr hp
      | part => exact ih p _ ht1 ht2 hr hp
    | part =>
      simp only [hA] at hr hp
      have hx : x.deny = false := by
        cases hx : x.deny with
        | false => rfl
        | true =>
          rw [hx] at hp
          rw [rulesLoop_deny_mono A l _ rfl] at hp
          cases hp
      cases hD : D x with
      | hit => exact ⟨x, rfl, hx⟩
      | skip => exact ih _ q ht1 ht2 hr hp
      | part => exact ih _ _ ht1 ht2 hr hp

/-- Node `A` above node `D`: if `A` is not permitted by a rule and has no permitted part, no rule
permits `D`. -/
theorem loop_deny (A D : Rule → Chk) (l : List Rule) (p q : Part)
    (h1 : ∀ r ∈ l, A r = .hit → D r = .hit) (h2 : ∀ r ∈ l, D r = .hit → A r ≠ .skip)
    (hr : ∀ R, (rulesLoop A l p).2 = some R → R.deny = true)
    (hp : (rulesLoop A l p).1.permit = false) (R' : Rule) (hR : (rulesLoop D l q).2 = some R') :
    R'.deny = true := by
  induction l generalizing p q with
  | nil => simp [rulesLoop] at hR
  | cons x l ih =>
    have ht1 := fun r hr => h1 r (List.mem_cons_of_mem _ hr)
    have ht2 := fun r hr => h2 r (List.mem_cons_of_mem _ hr)
    simp only [rulesLoop] at hr hp hR
    cases hA : A x with
    | hit =>
      rw [h1 x (by simp) hA] at hR
      simp only [hA] at hr
      cases hR
      exact hr _ rfl
    | skip =>
      simp only [hA] at hr hp
      cases hD : D x with
      | hit => exact absurd hA (h2 x (by simp) hD)
      | skip => simp only [hD] at hR; exact ih p q ht1 ht2 hr hp hR
      | part => simp only [hD] at hR; exact ih p _ ht1 ht2 hr hp hR
    | part =>
      simp only [hA] at hr hp
      have hx : x.deny = true := by
        cases hx : x.deny with
        | true => rfl
        | false =>
          rw [hx] at hp
          rw [if_neg (by simp), rulesLoop_permit_mono A l _ rfl] at hp
          cases hp
      cases hD : D x with
      | hit => simp only [hD] at hR; cases hR; exact hx
      | skip => simp only [hD] at hR; exact ih _ q ht1 ht2 hr hp hR
      | part => simp only [hD] at hR; exact ih _ _ ht1 ht2 hr hp hR

/-! ## One rule -/

theorem modCheck_hit (s : Schema) (r : Rule) :
    modCheck s r = .hit ↔ ∀ m, r.mod = some m → m = s.mod := by
  unfold modCheck
  cases hm : r.mod with
  | none => simp
  | some m => by_cases h : m = s.mod <;> simp [h]

theorem modCheck_part (s : Schema) (r : Rule) : modCheck s r ≠ .part := by
  unfold modCheck
  cases r.mod with
  | none => simp
  | some m => by_cases h : m = s.mod <;> simp [h]

theorem pathCheck_hit (user path : Str) (s : Schema) (r : Rule) (p : Option Str) :
    pathCheck user path s r p = .hit ↔
      (∀ m, r.mod = some m → m = s.mod) ∧ ∀ t, p = some t → allowedPath t path user = .yes := by
  unfold pathCheck
  cases p with
  | none => simp [modCheck_hit]
  | some t => cases h : allowedPath t path user <;> simp [modCheck_hit, h]

theorem nameCheck (s : Schema) (n : Option Str) :
    ¬ (n.isSome = true ∧ n ≠ some s.name) ↔ ∀ x, n = some x → x = s.name := by
  cases n <;> simp

theorem ruleCheck_hit (user path : Str) (s : Schema) (op : Oper) (r : Rule) :
    ruleCheck user path s op r = .hit ↔ Matches user path s op r := by
  unfold ruleCheck Matches
  by_cases ho : r.ops op = true
  · rw [if_neg (by simp [ho])]
    simp only [ho, true_and]
    cases ht : r.target with
    | any p => simp only [pathCheck_hit]
    | data p =>
      simp only
      by_cases hk : s.kind = .rpc ∨ s.kind = .notif
      · rw [if_pos hk]
        rcases hk with hk | hk <;> simp [hk]
      · rw [if_neg hk, pathCheck_hit]
        simp only [not_or] at hk
        simp only [ne_eq, hk.1, hk.2, not_false_eq_true, true_and]
    | rpc n =>
      simp only
      by_cases hk : s.kind = .rpc
      · rw [if_neg (by simp [hk])]
        by_cases hn : n.isSome = true ∧ n ≠ some s.name
        · rw [if_pos hn]
          have := mt (nameCheck s n).2 (by simpa using hn)
          simp [this]
        · rw [if_neg hn, modCheck_hit]
          simp only [hk]
          simpa using fun _ => (nameCheck s n).1 hn
      · rw [if_pos hk]; simp [hk]
    | notif n =>
      simp only
      by_cases hk : ¬ s.top = true ∨ s.kind ≠ .notif
      · rw [if_pos hk]
        rcases hk with hk | hk <;> simp [hk]
      · rw [if_neg hk]
        simp only [not_or, Classical.not_not, ne_eq] at hk
        by_cases hn : n.isSome = true ∧ n ≠ some s.name
        · rw [if_pos hn]
          have := mt (nameCheck s n).2 (by simpa using hn)
          simp [this]
        · rw [if_neg hn, modCheck_hit]
          simp only [hk]
          simpa using fun _ => (nameCheck s n).1 hn
  · simp [ho]

theorem ruleCheck_part (user path : Str) (s : Schema) (op : Oper) (r : Rule)
    (h : ruleCheck user path s op r = .part) :
    r.ops op = true ∧ ∃ t, r.path? = some t ∧ allowedPath t path user = .partly := by
  unfold ruleCheck at h
  have pc : ∀ p, pathCheck user path s r p = .part →
      ∃ t, p = some t ∧ allowedPath t path user = .partly := by
    intro p hp
    unfold pathCheck at hp
    cases p with
    | none => exact absurd hp (modCheck_part s r)
    | some t =>
      simp only at hp
      cases ha : allowedPath t path user <;> rw [ha] at hp <;> simp only at hp
      · cases hp
      · exact absurd hp (modCheck_part s r)
      · exact ⟨t, rfl, ha⟩
      · cases hp
  split at h
  · cases h
  · rename_i ho
    refine ⟨by simpa using ho, ?_⟩
    unfold Rule.path?
    cases ht : r.target with
    | any p => rw [ht] at h; exact pc p h
    | data p =>
      rw [ht] at h
      simp only at h
      split at h
      · cases h
      · exact pc p h
    | rpc n =>
      rw [ht] at h
      simp only at h
      split at h
      · cases h
      · split at h
        · cases h
        · exact absurd h (modCheck_part s r)
    | notif n =>
      rw [ht] at h
      simp only at h
      split at h
      · cases h
      · split at h
        · cases h
        · exact absurd h (modCheck_part s r)

/-! ## The decision for a node -/

theorem extLoop_iff (op : Oper) (l : List (Str × Str)) :
    (extLoop op l).isSome = true ↔
      (acm, denyAll) ∈ l ∨ ((acm, denyWrite) ∈ l ∧ (op = .create ∨ op = .update ∨ op = .delete)) := by
  have hw : op.isWrite = true ↔ (op = .create ∨ op = .update ∨ op = .delete) := by
    cases op <;> simp [Oper.isWrite]
  have hne : denyAll ≠ denyWrite := by decide
  induction l with
  | nil => simp [extLoop]
  | cons e l ih =>
    obtain ⟨a, b⟩ := e
    simp only [extLoop, List.mem_cons, Prod.mk.injEq]
    by_cases ha : a = acm
    · subst ha
      by_cases hb : b = denyAll
      · subst hb; simp
      · by_cases hb' : op.isWrite = true ∧ b = denyWrite
        · rw [if_pos rfl, if_neg hb, if_pos hb']
          simp only [Option.isSome_some, true_iff]
          exact Or.inr ⟨Or.inl ⟨trivial, hb'.2.symm⟩, hw.1 hb'.1⟩
        · rw [if_pos rfl, if_neg hb, if_neg hb']
          refine Iff.trans ih ?_
          constructor
          · rintro (h | h)
            · exact Or.inl (Or.inr h)
            · exact Or.inr ⟨Or.inr h.1, h.2⟩
          · rintro ((h | h) | ⟨h | h, h'⟩)
            · exact absurd h.2.symm hb
            · exact Or.inl h
            · exact absurd ⟨hw.2 h', h.2.symm⟩ hb'
            · exact Or.inr ⟨h, h'⟩
    · rw [if_neg ha]
      refine Iff.trans ih ?_
      have : ¬ acm = a := fun h => ha h.symm
      simp [this]

theorem step10_permit (c : Conf) (s : Schema) (op : Oper) :
    ((step10 c s op).1 = .deny ∧ (schemaDenies s op ∨ defaultDenies c op)) ∨
    ((step10 c s op).1 = .partialPermit ∧ ¬ schemaDenies s op ∧ ¬ defaultDenies c op) := by
  have he := extLoop_iff op s.exts
  have hs : schemaDenies s op ↔ (extLoop op s.exts).isSome = true := by
    rw [he]; rfl
  unfold step10
  cases hx : extLoop op s.exts with
  | some e =>
    rw [hx] at hs
    exact Or.inl ⟨rfl, Or.inl (hs.2 rfl)⟩
  | none =>
    rw [hx] at hs
    have hs' : ¬ schemaDenies s op := fun h => by simpa using hs.1 h
    have hd : (defaultAccess c op = .deny ∧ defaultDenies c op) ∨
        (defaultAccess c op = .partialPermit ∧ ¬ defaultDenies c op) := by
      unfold defaultDenies defaultAccess
      cases op <;> cases c.readDeny <;> cases c.writeDeny <;> cases c.execDeny <;> simp
    rcases hd with ⟨h1, h2⟩ | ⟨h1, h2⟩
    · exact Or.inl ⟨h1, Or.inr h2⟩
    · exact Or.inr ⟨h1, hs', h2⟩

theorem userRules_nil (lists : List RuleList) : userRules [] lists = [] := by
  unfold userRules
  have : lists.filter (fun l => NacmGroup.groupMatch l.groups []) = [] := by
    rw [List.filter_eq_nil_iff]
    intro l _
    cases hg : l.groups <;> simp [NacmGroup.groupMatch]
  rw [this]; rfl

/-- The decision in terms of the loop over the user's rules. -/
theorem allowedNode_eq (c : Conf) (ug : List NacmGroup.Str) (user : Str) (op : Oper) (s : Schema)
    (path : Str) :
    allowedNode c ug user op s path =
      match rulesLoop (ruleCheck user path s op) (userRules ug c.lists) ⟨false, false⟩ with
      | (p, some r) => ⟨adjust (if r.deny then .deny else .permit) p, some r.name, none⟩
      | (p, none) => ⟨adjust (step10 c s op).1 p, none, (step10 c s op).2⟩ := by
  unfold allowedNode
  split
  · rename_i h
    rw [List.length_eq_zero_iff.1 h, userRules_nil]
    rfl
  · rw [listsLoop_eq]
    rfl

theorem adjust_permit (a : Access) (p : Part) : (adjust a p).isPermit = a.isPermit := by
  unfold adjust
  cases a <;> cases p.permit <;> cases p.deny <;> rfl

theorem adjust_eq_permit (a : Access) (p : Part) (h : adjust a p = .permit) : a = .permit ∧ p.deny = false := by
  unfold adjust at h
  cases a <;> cases hp : p.permit <;> cases hd : p.deny <;> simp [hp, hd] at h ⊢

theorem adjust_eq_deny (a : Access) (p : Part) (h : adjust a p = .deny) : a = .deny ∧ p.permit = false := by
  unfold adjust at h
  cases a <;> cases hp : p.permit <;> cases hd : p.deny <;> simp [hp, hd] at h ⊢

theorem adjust_deny (p : Part) (h : p.permit = false) : adjust .deny p = .deny := by
  unfold adjust; simp [h]

end Verif.Nacm
