import Verif.NacmPath

/-! Property C43: a NACM rule with a path applies exactly to its target and the nodes inside. -/
namespace Verif.NacmPath

/-! ## Steps of the loop -/

def lastOr : Option Char → Str → Option Char
  | p, [] => p
  | _, c :: t => lastOr (some c) t

theorem go_same (u : Str) (pr pn : Option Char) (c : Char) (r n : Str) :
    go u pr pn (c :: r) (c :: n) = go u (some c) (some c) r n := by
  rw [go.eq_def]; simp

theorem go_common (u : Str) (p : Str) (pr pn : Option Char) (r n : Str) :
    go u pr pn (p ++ r) (p ++ n) = go u (lastOr pr p) (lastOr pn p) r n := by
  induction p generalizing pr pn with
  | nil => rfl
  | cons c p ih => simp only [List.cons_append, go_same, ih, lastOr]

theorem go_diff (u : Str) (pr pn : Option Char) (c d : Char) (r n : Str) (h : c ≠ d) (h1 : c ≠ '$')
    (h2 : ¬(c = '/' ∧ d = '[')) : go u pr pn (c :: r) (d :: n) = .no := by
  rw [go.eq_def]; simp [h, h1, h2]

theorem go_rule_end (u : Str) (pr pn : Option Char) (n : Str) : go u pr pn [] n = .yes := by
  rw [go.eq_def]; cases n <;> rfl

theorem go_node_end (u : Str) (pr pn : Option Char) (c : Char) (r : Str) :
    go u pr pn (c :: r) [] = .partly := by
  rw [go.eq_def]

theorem go_skip (u : Str) (pr pn : Option Char) (r n n' : Str) (h : skipPred false ('[' :: n) = some n') :
    go u pr pn ('/' :: r) ('[' :: n) = go u pr (some ']') ('/' :: r) n' := by
  rw [go.eq_def]
  have h1 : ¬('/' = '[') := by decide
  have h2 : ¬('/' = '$') := by decide
  simp only [h1, h2, if_false, false_and, and_self, if_true]
  split
  · rename_i h3; rw [h] at h3; cases h3
  · rename_i h3; rw [h] at h3; cases h3; rfl

theorem go_user (u : Str) (r n v n' : Str) (h : upToQuote n = some (v, n')) :
    go u (some '=') (some '=') ('$' :: 'U' :: 'S' :: 'E' :: 'R' :: ']' :: r) ('\'' :: n) =
      if u = v then go u (some 'R') (some '\'') (']' :: r) n' else .no := by
  rw [go.eq_def]
  have h1 : ¬('$' = '\'') := by decide
  simp only [h1, if_false, and_self, if_true]
  simp only [reduceCtorEq, and_false, if_false, List.take_succ_cons, List.take_zero, ne_eq,
    not_true_eq_false, List.drop_succ_cons, List.drop_zero]
  split
  · rename_i h3; rw [h] at h3; cases h3
  · rename_i p h3
    rw [h] at h3; cases h3
    by_cases hu : u = v <;> simp [hu]

/-! ## Skipping a predicate -/

theorem skipPred_quoted (v t : Str) (h : ∀ c ∈ v, c ≠ '\'') :
    skipPred true (v ++ '\'' :: t) = skipPred false t := by
  induction v with
  | nil => simp [skipPred]
  | cons c v ih =>
    simp only [List.cons_append, skipPred]
    rw [show decide (c ≠ '\'') = true by simpa using h c (by simp)]
    exact ih (fun c hc => h c (List.mem_cons_of_mem _ hc))

theorem skipPred_plain (k t : Str) (h : nameOk k) :
    skipPred false (k ++ t) = skipPred false t := by
  induction k with
  | nil => rfl
  | cons c k ih =>
    have hc := h c (by simp)
    simp only [List.cons_append, skipPred]
    rw [if_neg hc.2.2.1, show decide (c = '\'') = false by simpa using hc.2.2.2.2.2]
    exact ih (fun c hc => h c (List.mem_cons_of_mem _ hc))

theorem skip_npred (p : Str × Str) (t : Str) (h1 : nameOk p.1) (h2 : ∀ c ∈ p.2, c ≠ '\'' ∧ c ≠ '[') :
    skipPred false (NPred.str p ++ t) = some t := by
  rw [show NPred.str p ++ t = '[' :: (p.1 ++ ('=' :: '\'' :: (p.2 ++ '\'' :: ']' :: t))) by
    simp [NPred.str]]
  rw [show skipPred false ('[' :: (p.1 ++ ('=' :: '\'' :: (p.2 ++ '\'' :: ']' :: t)))) =
    skipPred false (p.1 ++ ('=' :: '\'' :: (p.2 ++ '\'' :: ']' :: t))) from by simp [skipPred]]
  rw [skipPred_plain _ _ h1]
  rw [show skipPred false ('=' :: '\'' :: (p.2 ++ '\'' :: ']' :: t)) =
    skipPred true (p.2 ++ '\'' :: ']' :: t) from by simp [skipPred]]
  rw [skipPred_quoted _ _ (fun c hc => (h2 c hc).1)]
  simp [skipPred]

theorem go_skip_preds (u : Str) (pr : Option Char) (r N : Str) (ps : List (Str × Str))
    (h : ∀ p ∈ ps, nameOk p.1 ∧ ∀ c ∈ p.2, c ≠ '\'' ∧ c ≠ '[') (pn : Option Char) :
    ∃ pn', go u pr pn ('/' :: r) ((ps.map NPred.str).flatten ++ N) = go u pr pn' ('/' :: r) N := by
  induction ps generalizing pn with
  | nil => exact ⟨pn, rfl⟩
  | cons p ps ih =>
    have hp := h p (by simp)
    obtain ⟨pn', h'⟩ := ih (fun q hq => h q (List.mem_cons_of_mem _ hq)) (some ']')
    refine ⟨pn', ?_⟩
    rw [← h', List.map_cons, List.flatten_cons, List.append_assoc]
    have := skip_npred p ((ps.map NPred.str).flatten ++ N) hp.1 hp.2
    rw [show NPred.str p ++ ((ps.map NPred.str).flatten ++ N) =
      '[' :: (p.1 ++ '=' :: '\'' :: p.2 ++ ['\'', ']'] ++ ((ps.map NPred.str).flatten ++ N)) by
        simp [NPred.str]] at this ⊢
    exact go_skip u pr pn r _ _ this

theorem upToQuote_value (v t : Str) (h : ∀ c ∈ v, c ≠ '\'') :
    upToQuote (v ++ '\'' :: t) = some (v, t) := by
  induction v with
  | nil => simp [upToQuote]
  | cons c v ih =>
    simp only [List.cons_append, upToQuote]
    rw [if_neg (h c (by simp)), ih (fun c hc => h c (List.mem_cons_of_mem _ hc))]
    rfl

/-- Two strings are equal, one continues the other, or they differ at some character. -/
theorem split_common (a b : Str) :
    ∃ p x y, a = p ++ x ∧ b = p ++ y ∧ ∀ c d x' y', x = c :: x' → y = d :: y' → c ≠ d := by
  induction a generalizing b with
  | nil => exact ⟨[], [], b, rfl, rfl, by simp⟩
  | cons c a ih =>
    cases b with
    | nil => exact ⟨[], c :: a, [], rfl, rfl, by simp⟩
    | cons d b =>
      by_cases hcd : c = d
      · subst hcd
        obtain ⟨p, x, y, h1, h2, h3⟩ := ih b
        exact ⟨c :: p, x, y, by simp [h1], by simp [h2], h3⟩
      · exact ⟨[], c :: a, d :: b, rfl, rfl, by
          intro c' d' x' y' h1 h2
          cases h1; cases h2; exact hcd⟩

/-! ## Predicates -/

/-- How the predicates of a rule step compare. -/
inductive PR where
  | ok | short | bad

/-- Comparing predicates. -/
def predRes (u : Str) : List RPred → List (Str × Str) → PR
  | [], _ => .ok
  | _ :: _, [] => .short
  | .val k v :: rs, n :: ns => if k = n.1 ∧ v = n.2 then predRes u rs ns else .bad
  | .user k :: rs, n :: ns => if k = n.1 ∧ u = n.2 then predRes u rs ns else .bad

/-- Names followed by `=` that differ are noticed. -/
theorem go_key_diff (u k k' r n : Str) (hk : nameOk k) (hk' : nameOk k') (h : k ≠ k')
    (pr pn : Option Char) : go u pr pn (k ++ '=' :: r) (k' ++ '=' :: n) = .no := by
  obtain ⟨p, x, y, h1, h2, h3⟩ := split_common k k'
  subst h1; subst h2
  rw [List.append_assoc, List.append_assoc, go_common]
  cases x with
  | nil =>
    cases y with
    | nil => exact absurd rfl h
    | cons d y =>
      have hd := hk' d (by simp)
      exact go_diff u _ _ '=' d _ _ (Ne.symm hd.2.2.2.1) (by decide) (fun h => absurd h.1 (by decide))
  | cons c x =>
    have hc := hk c (by simp)
    cases y with
    | nil =>
      exact go_diff u _ _ c '=' _ _ hc.2.2.2.1 hc.2.2.2.2.1 (fun h => absurd h.2 (by decide))
    | cons d y =>
      exact go_diff u _ _ c d _ _ (h3 c d x y rfl rfl) hc.2.2.2.2.1 (fun h => hc.1 h.1)

theorem go_val_diff (u v v' r n : Str) (hv : ∀ c ∈ v, c ≠ '\'' ∧ c ≠ '$')
    (hv' : ∀ c ∈ v', c ≠ '\'' ∧ c ≠ '[') (h : v ≠ v') (pr pn : Option Char) :
    go u pr pn (v ++ '\'' :: r) (v' ++ '\'' :: n) = .no := by
  obtain ⟨p, x, y, h1, h2, h3⟩ := split_common v v'
  subst h1; subst h2
  rw [List.append_assoc, List.append_assoc, go_common]
  cases x with
  | nil =>
    cases y with
    | nil => exact absurd rfl h
    | cons d y =>
      have hd := hv' d (by simp)
      exact go_diff u _ _ '\'' d _ _ (Ne.symm hd.1) (by decide) (fun h => absurd h.1 (by decide))
  | cons c x =>
    have hc := hv c (by simp)
    cases y with
    | nil =>
      exact go_diff u _ _ c '\'' _ _ hc.1 hc.2 (fun h => absurd h.2 (by decide))
    | cons d y =>
      have hd := hv' d (by simp)
      exact go_diff u _ _ c d _ _ (h3 c d x y rfl rfl) hc.2 (fun h => hd.2 h.2)

/-- The part of the paths after equal names. -/
theorem go_preds (u : Str) (rs : List RPred) (ns : List (Str × Str)) (R N : Str)
    (hr : ∀ p ∈ rs, p.ok) (hn : ∀ p ∈ ns, nameOk p.1 ∧ ∀ c ∈ p.2, c ≠ '\'' ∧ c ≠ '[')
    (hR : R = [] ∨ ∃ t, R = '/' :: t) (hN : N = [] ∨ ∃ t, N = '/' :: t) (pr pn : Option Char) :
    match predRes u rs ns with
    | .ok => ∃ pr' pn', go u pr pn ((rs.map RPred.str).flatten ++ R) ((ns.map NPred.str).flatten ++ N)
        = go u pr' pn' R N
    | .short => go u pr pn ((rs.map RPred.str).flatten ++ R) ((ns.map NPred.str).flatten ++ N)
        = if N = [] then .partly else .no
    | .bad => go u pr pn ((rs.map RPred.str).flatten ++ R) ((ns.map NPred.str).flatten ++ N) = .no := by
  induction rs generalizing ns pr pn with
  | nil =>
    simp only [predRes, List.map_nil, List.flatten_nil, List.nil_append]
    rcases hR with rfl | ⟨t, rfl⟩
    · exact ⟨pr, pn, by simp only [go_rule_end]⟩
    · obtain ⟨pn', h⟩ := go_skip_preds u pr t N ns hn pn
      exact ⟨pr, pn', h⟩
  | cons r rs ih =>
    cases ns with
    | nil =>
      simp only [predRes, List.map_nil, List.flatten_nil, List.nil_append, List.map_cons, List.flatten_cons]
      have hhead : ∃ t, r.str = '[' :: t := by cases r <;> exact ⟨_, rfl⟩
      obtain ⟨t, ht⟩ := hhead
      rw [ht]
      rcases hN with rfl | ⟨t', rfl⟩
      · simp only [List.cons_append, go_node_end]; rfl
      · simp only [List.cons_append, reduceCtorEq, if_false]
        exact go_diff u pr pn '[' '/' _ _ (by decide) (by decide) (by decide)
    | cons n ns =>
      have hn0 := hn n (by simp)
      have hn' : ∀ p ∈ ns, nameOk p.1 ∧ ∀ c ∈ p.2, c ≠ '\'' ∧ c ≠ '[' :=
        fun p hp => hn p (List.mem_cons_of_mem _ hp)
      have hr' : ∀ p ∈ rs, p.ok := fun p hp => hr p (List.mem_cons_of_mem _ hp)
      have hr0 := hr r (by simp)
      cases r with
      | val k v =>
        simp only [RPred.ok] at hr0
        have e1 : ((RPred.val k v :: rs).map RPred.str).flatten ++ R
            = '[' :: (k ++ '=' :: ('\'' :: (v ++ '\'' :: (']' :: ((rs.map RPred.str).flatten ++ R))))) := by
          simp [RPred.str]
        have e2 : ((n :: ns).map NPred.str).flatten ++ N
            = '[' :: (n.1 ++ '=' :: ('\'' :: (n.2 ++ '\'' :: (']' :: ((ns.map NPred.str).flatten ++ N))))) := by
          simp [NPred.str]
        rw [e1, e2]
        simp only [predRes]
        by_cases hk : k = n.1
        · by_cases hv : v = n.2
          · rw [if_pos ⟨hk, hv⟩, go_same, hk, go_common, go_same, go_same, hv, go_common, go_same, go_same]
            exact ih ns hr' hn' _ _
          · rw [if_neg (fun h => hv h.2), go_same, hk, go_common, go_same, go_same]
            exact go_val_diff u v n.2 _ _ hr0.2 hn0.2 hv _ _
        · rw [if_neg (fun h => hk h.1), go_same]
          exact go_key_diff u k n.1 _ _ hr0.1 hn0.1 hk _ _
      | user k =>
        simp only [RPred.ok] at hr0
        have e1 : ((RPred.user k :: rs).map RPred.str).flatten ++ R
            = '[' :: (k ++ '=' :: ('$' :: 'U' :: 'S' :: 'E' :: 'R' :: ']' :: ((rs.map RPred.str).flatten ++ R))) := by
          simp [RPred.str]
        have e2 : ((n :: ns).map NPred.str).flatten ++ N
            = '[' :: (n.1 ++ '=' :: ('\'' :: (n.2 ++ '\'' :: (']' :: ((ns.map NPred.str).flatten ++ N))))) := by
          simp [NPred.str]
        rw [e1, e2]
        simp only [predRes]
        by_cases hk : k = n.1
        · rw [go_same, hk, go_common, go_same,
            go_user u _ _ n.2 _ (upToQuote_value n.2 _ (fun c hc => (hn0.2 c hc).1))]
          by_cases hu : u = n.2
          · rw [if_pos ⟨rfl, hu⟩, if_pos hu, go_same]
            exact ih ns hr' hn' _ _
          · rw [if_neg (fun h => hu h.2), if_neg hu]
        · rw [if_neg (fun h => hk h.1), go_same]
          exact go_key_diff u k n.1 _ _ hr0 hn0.1 hk _ _

/-! ## Whole paths -/

/-- What the code computes on canonical paths, step by step. -/
def code (u : Str) : List RSeg → List NSeg → Res
  | [], _ => .yes
  | _ :: _, [] => .partly
  | r :: rs, n :: ns =>
    if r.name = n.name then
      match predRes u r.preds n.preds with
      | .ok => code u rs ns
      | .short => if ns = [] then .partly else .no
      | .bad => .no
    else if r.name <+: n.name then (if r.preds = [] ∧ rs = [] then .yes else .no)
    else if n.name <+: r.name then (if n.preds = [] ∧ ns = [] then .partly else .no)
    else .no

theorem rest_head_r (rs : List RSeg) : (rs.map RSeg.str).flatten = [] ∧ rs = [] ∨
    (∃ t, (rs.map RSeg.str).flatten = '/' :: t) ∧ rs ≠ [] := by
  cases rs with
  | nil => exact Or.inl ⟨rfl, rfl⟩
  | cons r rs => exact Or.inr ⟨⟨_, rfl⟩, by simp⟩

theorem rest_head_n (ns : List NSeg) : (ns.map NSeg.str).flatten = [] ∧ ns = [] ∨
    (∃ t, (ns.map NSeg.str).flatten = '/' :: t) ∧ ns ≠ [] := by
  cases ns with
  | nil => exact Or.inl ⟨rfl, rfl⟩
  | cons r rs => exact Or.inr ⟨⟨_, rfl⟩, by simp⟩

/-- First character of what follows the name of a rule step. -/
theorem after_name_r (r : RSeg) (rs : List RSeg) :
    ((r.preds.map RPred.str).flatten ++ (rs.map RSeg.str).flatten = [] ∧ r.preds = [] ∧ rs = []) ∨
    ((∃ c t, (c = '/' ∨ c = '[') ∧
      (r.preds.map RPred.str).flatten ++ (rs.map RSeg.str).flatten = c :: t) ∧ ¬(r.preds = [] ∧ rs = [])) := by
  cases hp : r.preds with
  | nil =>
    rcases rest_head_r rs with ⟨h, h'⟩ | ⟨⟨t, h⟩, h'⟩
    · left; simp [h, h']
    · right; exact ⟨⟨'/', t, Or.inl rfl, by simpa using h⟩, by simp [h']⟩
  | cons p ps =>
    right
    refine ⟨?_, by simp⟩
    cases p <;> exact ⟨'[', _, Or.inr rfl, rfl⟩

theorem after_name_n (n : NSeg) (ns : List NSeg) :
    ((n.preds.map NPred.str).flatten ++ (ns.map NSeg.str).flatten = [] ∧ n.preds = [] ∧ ns = []) ∨
    ((∃ c t, (c = '/' ∨ c = '[') ∧
      (n.preds.map NPred.str).flatten ++ (ns.map NSeg.str).flatten = c :: t) ∧ ¬(n.preds = [] ∧ ns = [])) := by
  cases hp : n.preds with
  | nil =>
    rcases rest_head_n ns with ⟨h, h'⟩ | ⟨⟨t, h⟩, h'⟩
    · left; simp [h, h']
    · right; exact ⟨⟨'/', t, Or.inl rfl, by simpa using h⟩, by simp [h']⟩
  | cons p ps => exact Or.inr ⟨⟨'[', _, Or.inr rfl, rfl⟩, by simp⟩

theorem go_code (u : Str) (rs : List RSeg) (ns : List NSeg) (hr : ∀ r ∈ rs, r.ok) (hn : ∀ n ∈ ns, n.ok)
    (pr pn : Option Char) :
    go u pr pn ((rs.map RSeg.str).flatten) ((ns.map NSeg.str).flatten) = code u rs ns := by
  induction rs generalizing ns pr pn with
  | nil => simp [code, go_rule_end]
  | cons r rs ih =>
    have hr0 := hr r (by simp)
    have hr' : ∀ r ∈ rs, r.ok := fun x hx => hr x (List.mem_cons_of_mem _ hx)
    have e1 : ((r :: rs).map RSeg.str).flatten
        = '/' :: (r.name ++ ((r.preds.map RPred.str).flatten ++ (rs.map RSeg.str).flatten)) := by
      simp [RSeg.str]
    rw [e1]
    cases ns with
    | nil => simp only [code, List.map_nil, List.flatten_nil, go_node_end]
    | cons n ns =>
      have hn0 := hn n (by simp)
      have hn' : ∀ n ∈ ns, n.ok := fun x hx => hn x (List.mem_cons_of_mem _ hx)
      have e2 : ((n :: ns).map NSeg.str).flatten
          = '/' :: (n.name ++ ((n.preds.map NPred.str).flatten ++ (ns.map NSeg.str).flatten)) := by
        simp [NSeg.str]
      rw [e2, go_same]
      simp only [code]
      by_cases hname : r.name = n.name
      · rw [if_pos hname, hname, go_common]
        have hR : (rs.map RSeg.str).flatten = [] ∨ ∃ t, (rs.map RSeg.str).flatten = '/' :: t := by
          rcases rest_head_r rs with h | h
          · exact Or.inl h.1
          · exact Or.inr h.1
        have hN : (ns.map NSeg.str).flatten = [] ∨ ∃ t, (ns.map NSeg.str).flatten = '/' :: t := by
          rcases rest_head_n ns with h | h
          · exact Or.inl h.1
          · exact Or.inr h.1
        have hp := go_preds u r.preds n.preds _ _ hr0.2 hn0.2 hR hN (lastOr (some '/') n.name)
          (lastOr (some '/') n.name)
        cases hpr : predRes u r.preds n.preds with
        | ok =>
          rw [hpr] at hp
          obtain ⟨pr', pn', h⟩ := hp
          rw [h]
          exact ih ns hr' hn' pr' pn'
        | short =>
          rw [hpr] at hp
          rw [hp]
          rcases rest_head_n ns with ⟨h, h'⟩ | ⟨⟨t, h⟩, h'⟩
          · simp [h']
          · simp [h, h']
        | bad => rw [hpr] at hp; exact hp
      · rw [if_neg hname]
        obtain ⟨p, x, y, h1, h2, h3⟩ := split_common r.name n.name
        have hrn := hr0.1
        have hnn := hn0.1
        rw [h1] at hrn
        rw [h2] at hnn
        rw [h1, h2, List.append_assoc, List.append_assoc, go_common]
        cases x with
        | nil =>
          rw [if_pos (by simp)]
          cases y with
          | nil => exact absurd (by rw [h1, h2]) hname
          | cons d y =>
            have hd := hnn d (by simp)
            rcases after_name_r r rs with ⟨h, h'⟩ | ⟨⟨c, t, hc, h⟩, h'⟩
            · rw [List.nil_append, h, go_rule_end, if_pos h']
            · rw [List.nil_append, h, if_neg h']
              refine go_diff u _ _ c d _ _ ?_ ?_ (fun hh => hd.2.1 hh.2)
              · rintro rfl
                rcases hc with rfl | rfl
                · exact hd.1 rfl
                · exact hd.2.1 rfl
              · rcases hc with rfl | rfl <;> decide
        | cons c x =>
          have hc := hrn c (by simp)
          cases y with
          | nil =>
            rw [if_neg (by
              intro h
              have := h.length_le
              simp only [List.length_append, List.length_cons, List.length_nil] at this
              omega), if_pos (by simp)]
            rcases after_name_n n ns with ⟨h, h'⟩ | ⟨⟨d, t, hd, h⟩, h'⟩
            · rw [List.nil_append, h, List.cons_append, go_node_end, if_pos h']
            · rw [List.nil_append, h, if_neg h']
              refine go_diff u _ _ c d _ _ ?_ hc.2.2.2.2.1 (fun hh => hc.1 hh.1)
              rintro rfl
              rcases hd with rfl | rfl
              · exact hc.1 rfl
              · exact hc.2.1 rfl
          | cons d y =>
            have hcd := h3 c d x y rfl rfl
            rw [if_neg (by
              rw [List.prefix_append_right_inj]
              intro h
              exact hcd (List.cons_prefix_cons.mp h).1), if_neg (by
              rw [List.prefix_append_right_inj]
              intro h
              exact hcd (List.cons_prefix_cons.mp h).1.symm)]
            exact go_diff u _ _ c d _ _ hcd hc.2.2.2.2.1 (fun hh => hc.1 hh.1)

/-- The function on canonical paths. -/
theorem allowedPath_code (u : Str) (rs : List RSeg) (ns : List NSeg) (hr : ∀ r ∈ rs, r.ok)
    (hn : ∀ n ∈ ns, n.ok) (hne : ns ≠ []) :
    allowedPath (ruleStr rs) (nodeStr ns) u = code u rs ns := by
  cases rs with
  | nil =>
    cases ns with
    | nil => exact absurd rfl hne
    | cons n ns =>
      simp only [allowedPath, ruleStr, nodeStr, code, List.map_cons, List.flatten_cons, NSeg.str,
        List.cons_append, go_same, go_rule_end]
  | cons r rs => exact go_code u (r :: rs) ns hr hn none none

theorem predRes_ok (u : Str) (rs : List RPred) (ns : List (Str × Str)) :
    predRes u rs ns = .ok ↔ predsOk u rs ns := by
  induction rs generalizing ns with
  | nil => simp [predRes, predsOk]
  | cons r rs ih =>
    cases ns with
    | nil => simp [predRes, predsOk]
    | cons n ns =>
      cases r <;> simp only [predRes, predsOk, predOk] <;> split <;> simp_all

/-! ## C43 -/

/-- C43: a rule applies to its target and every descendant of it: for all canonical paths. -/
theorem covers_applies (u : Str) (rs : List RSeg) (ns : List NSeg) (hr : ∀ r ∈ rs, r.ok)
    (hn : ∀ n ∈ ns, n.ok) (hne : ns ≠ []) (h : Covers u rs ns) :
    allowedPath (ruleStr rs) (nodeStr ns) u = .yes := by
  rw [allowedPath_code u rs ns hr hn hne]
  clear hr hn hne
  induction rs generalizing ns with
  | nil => simp [code]
  | cons r rs ih =>
    cases ns with
    | nil => exact absurd h (by simp [Covers])
    | cons n ns =>
      simp only [Covers, segOk] at h
      simp only [code]
      rw [if_pos h.1.1, (predRes_ok u _ _).mpr h.1.2]
      exact ih ns h.2

/-- C43 (partial): a rule applies exactly to its target and the nodes inside, for all canonical
paths where the name of the target is not the beginning of another name at the same place.
Missing: such names (`name_prefix_matches`), rule values with `/` against node values with `[`
(`slash_in_value_matches`), values with single quotes (`quote_in_value_oob`). -/
theorem rule_applies_partial (u : Str) (rs : List RSeg) (ns : List NSeg) (hr : ∀ r ∈ rs, r.ok)
    (hn : ∀ n ∈ ns, n.ok) (hne : ns ≠ [])
    (hname : ∀ (i : Nat) (r : RSeg) (n : NSeg), rs[i]? = some r → ns[i]? = some n → i + 1 = rs.length →
      r.name <+: n.name → r.name = n.name) :
    allowedPath (ruleStr rs) (nodeStr ns) u = .yes ↔ Covers u rs ns := by
  refine ⟨?_, covers_applies u rs ns hr hn hne⟩
  rw [allowedPath_code u rs ns hr hn hne]
  clear hr hn hne
  intro h
  induction rs generalizing ns with
  | nil => simp [Covers]
  | cons r rs ih =>
    cases ns with
    | nil => simp [code] at h
    | cons n ns =>
      simp only [code] at h
      split at h
      · rename_i hnm
        split at h
        · rename_i hp
          refine ⟨⟨hnm, (predRes_ok u _ _).mp hp⟩, ih ns ?_ h⟩
          intro i r' n' h1 h2 h3
          exact hname (i + 1) r' n' (by simpa using h1) (by simpa using h2) (by simpa using h3)
        · split at h <;> cases h
        · cases h
      · rename_i hnm
        split at h
        · rename_i hpre
          split at h
          · rename_i hl
            exact absurd (hname 0 r n rfl rfl (by simp [hl.2]) hpre) hnm
          · cases h
        · split at h
          · split at h <;> cases h
          · cases h

/-- C43: for the ancestors of the target, the function reports a partial match. -/
theorem above_partly (u : Str) (rs : List RSeg) (ns : List NSeg) (hr : ∀ r ∈ rs, r.ok)
    (hn : ∀ n ∈ ns, n.ok) (hne : ns ≠ []) (h : Above u rs ns) :
    allowedPath (ruleStr rs) (nodeStr ns) u = .partly := by
  rw [allowedPath_code u rs ns hr hn hne]
  clear hr hn hne
  induction rs generalizing ns with
  | nil => exact absurd h (by simp [Above])
  | cons r rs ih =>
    cases ns with
    | nil => simp [code]
    | cons n ns =>
      simp only [Above, segOk] at h
      simp only [code]
      rw [if_pos h.1.1, (predRes_ok u _ _).mpr h.1.2]
      exact ih ns h.2

/-- C43: with canonical paths nothing is read outside of the strings. -/
theorem no_oob (u : Str) (rs : List RSeg) (ns : List NSeg) (hr : ∀ r ∈ rs, r.ok)
    (hn : ∀ n ∈ ns, n.ok) (hne : ns ≠ []) : allowedPath (ruleStr rs) (nodeStr ns) u ≠ .oob := by
  rw [allowedPath_code u rs ns hr hn hne]
  clear hr hn hne
  induction rs generalizing ns with
  | nil => simp [code]
  | cons r rs ih =>
    cases ns with
    | nil => simp [code]
    | cons n ns =>
      simp only [code]
      split
      · split
        · exact ih ns
        · split <;> simp
        · simp
      · split
        · split <;> simp
        · split
          · split <;> simp
          · simp

/-! ### Findings -/

/-- A rule for `/m:user` applies to the node `/m:username`. -/
theorem name_prefix_matches :
    allowedPath "/m:user".toList "/m:username".toList "joe".toList = .yes := by
  simp [allowedPath, go_same, go_rule_end]

/-- A rule for `/m:l[k='a/b']` applies to the entry with the key `a[x]/b`. -/
theorem slash_in_value_matches :
    allowedPath "/m:l[k='a/b']".toList "/m:l[k='a[x]/b']".toList "joe".toList = .yes := by
  rw [show "/m:l[k='a/b']".toList = "/m:l[k='a".toList ++ '/' :: "b']".toList by decide,
    show "/m:l[k='a[x]/b']".toList = "/m:l[k='a".toList ++ '[' :: "x]/b']".toList by decide]
  rw [allowedPath, go_common, go_skip (n' := "/b']".toList) (h := by decide)]
  simp [go_same, go_rule_end]

/-- A key value with a single quote makes the function read behind the path of the node. -/
theorem quote_in_value_oob :
    allowedPath "/m:l/x".toList "/m:l[k=\"it's\"]/x".toList "joe".toList = .oob := by
  rw [show "/m:l/x".toList = "/m:l".toList ++ '/' :: "x".toList by decide,
    show "/m:l[k=\"it's\"]/x".toList = "/m:l".toList ++ '[' :: "k=\"it's\"]/x".toList by decide]
  rw [allowedPath, go_common, go.eq_def]
  have h1 : ¬('/' = '[') := by decide
  have h2 : ¬('/' = '$') := by decide
  simp only [h1, h2, if_false, false_and, and_self, if_true]
  split
  · rfl
  · rename_i h3
    revert h3
    rw [show skipPred false ('[' :: "k=\"it's\"]/x".toList) = none by decide]
    simp

/-! ### The hypotheses are met -/

/-- `/m:l[k=$USER]/c` -/
def exRule : List RSeg := [⟨"m:l".toList, [.user "k".toList]⟩, ⟨"c".toList, []⟩]
/-- `/m:l[k='joe'][j='x/]']/c/d` -/
def exNode : List NSeg :=
  [⟨"m:l".toList, [("k".toList, "joe".toList), ("j".toList, "x/]".toList)]⟩, ⟨"c".toList, []⟩, ⟨"d".toList, []⟩]

example : ruleStr exRule = "/m:l[k=$USER]/c".toList := by decide
example : nodeStr exNode = "/m:l[k='joe'][j='x/]']/c/d".toList := by decide
theorem exRule_ok : ∀ r ∈ exRule, r.ok := by
  simp [exRule, RSeg.ok, RPred.ok, nameOk, nameChar]
theorem exNode_ok : ∀ n ∈ exNode, n.ok := by
  simp [exNode, NSeg.ok, nameOk, nameChar]
  rintro a b (⟨rfl, rfl⟩ | ⟨rfl, rfl⟩) <;> simp
example : allowedPath (ruleStr exRule) (nodeStr exNode) "joe".toList = .yes :=
  covers_applies _ _ _ exRule_ok exNode_ok (by simp [exNode])
    (by simp [exRule, exNode, Covers, segOk, predsOk, predOk])
example : allowedPath (ruleStr exRule) (nodeStr exNode) "jim".toList ≠ .yes := by
  rw [Ne, rule_applies_partial _ _ _ exRule_ok exNode_ok (by simp [exNode])]
  · simp [exRule, exNode, Covers, segOk, predsOk, predOk]
  · intro i r n h1 h2 h3
    have : i = 1 := by simp [exRule] at h3; omega
    subst this
    simp only [exRule, exNode] at h1 h2
    cases h1; cases h2
    intro _; rfl
example : allowedPath (ruleStr exRule) (nodeStr (exNode.take 1)) "joe".toList = .partly :=
  above_partly _ _ _ exRule_ok (fun n hn => exNode_ok n (List.mem_of_mem_take hn)) (by simp [exNode])
    (by simp [exRule, exNode, Above, segOk, predsOk, predOk])

end Verif.NacmPath
