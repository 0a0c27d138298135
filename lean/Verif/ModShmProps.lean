import Verif.ModShm

/-! # Properties of the shared memory of modules (C139) -/

namespace Verif.ModShm

theorem find_upd (n k : Nat) (f : Mod → Mod) (hf : ∀ m, (f m).name = m.name) (l : List Mod) :
    find k (upd n f l) = if k = n then (find k l).map f else find k l := by
  induction l with
  | nil => simp [upd, find]
  | cons m l ih =>
    by_cases h1 : m.name = n
    · by_cases h2 : k = n
      · subst h2; simp [upd, find, h1, hf]
      · have : m.name ≠ k := fun h => h2 (by omega)
        have h3 : ¬ n = k := fun e => h2 e.symm
        simp [upd, find, h1, hf, h2, h3]
    · by_cases h2 : m.name = k
      · have : k ≠ n := by omega
        simp [upd, find, h1, h2, this]
      · simp [upd, find, h1, h2, ih]

theorem find_map (k : Nat) (f : Mod → Mod) (hf : ∀ m, (f m).name = m.name) (l : List Mod) :
    find k (l.map f) = (find k l).map f := by
  induction l with
  | nil => rfl
  | cons m l ih => by_cases h : m.name = k <;> simp [find, hf, h, ih]

theorem find_store (old : List Mod) (k : Nat) (ns : List Nat) :
    find k (store old ns) = if k ∈ ns then some (fill (find k old) k) else none := by
  induction ns with
  | nil => rfl
  | cons n ns ih =>
    by_cases h : n = k
    · subst h; simp [store, find, fill]
    · have h' : ¬ k = n := fun e => h e.symm
      simp [store, find, fill, h, h', ih]

theorem names_upd (n : Nat) (f : Mod → Mod) (hf : ∀ m, (f m).name = m.name) (l : List Mod) :
    names (upd n f l) = names l := by
  induction l with
  | nil => rfl
  | cons m l ih => by_cases h : m.name = n <;> simp [upd, names, h, hf, ih]

theorem names_map (f : Mod → Mod) (hf : ∀ m, (f m).name = m.name) (l : List Mod) :
    names (l.map f) = names l := by
  induction l with
  | nil => rfl
  | cons m l ih => simp [names, hf, ih]

theorem names_store (old : List Mod) (ns : List Nat) : names (store old ns) = ns := by
  induction ns with
  | nil => rfl
  | cons n ns ih => simp [store, names, fill, ih]

theorem find_names (n : Nat) (l : List Mod) : (find n l).isSome ↔ n ∈ names l := by
  induction l with
  | nil => simp [find, names]
  | cons m l ih =>
    by_cases h : m.name = n
    · simp [find, names, h]
    · have h' : ¬ n = m.name := fun e => h e.symm
      simp [find, names, h, h', ih]

theorem names_step (st : List Mod) (c : Call) :
    names (step st c).1 = match c with | .modules l => l | _ => names st := by
  cases c <;> simp only [step]
  case setOrder n ds p perm =>
    split
    · rfl
    · split
      · rfl
      · (refine names_upd _ _ ?_ _; intros; rfl)
  case lock s n ds =>
    split
    · rfl
    · split
      · rfl
      · (refine names_upd _ _ ?_ _; intros; rfl)
  case unlock s n ds =>
    split
    · rfl
    · split
      · rfl
      · split
        · rfl
        · (refine names_upd _ _ ?_ _; intros; rfl)
  case stop s => (refine names_map _ ?_ _; intros; rfl)
  case change s n ds =>
    split
    · rfl
    · split
      · rfl
      · split <;> rfl
  case subscribe n id =>
    split
    · rfl
    · (refine names_upd _ _ ?_ _; intros; rfl)
  case unsubscribe n id =>
    split
    · rfl
    · (refine names_upd _ _ ?_ _; intros; rfl)
  case modules l => exact names_store _ _
  case restart => exact names_store _ _

theorem names_run (ns : List Nat) (h : List Call) : names (run ns h) = installed ns h := by
  induction h with
  | nil => exact names_store _ _
  | cons c h ih =>
    show names (step (run ns h) c).1 = _
    rw [names_step]
    cases c <;> simp [installed, ih]

/-- The priority of a module after one call, for every module there. -/
theorem prio_step (st : List Mod) (c : Call) (n ds : Nat) (hin : n ∈ names (step st c).1) :
    getOrder (step st c).1 n ds = match c with
      | .modules _ => some 0
      | .restart => some 0
      | .setOrder n' ds' p true => if n' = n ∧ ds' = ds then some p else getOrder st n ds
      | _ => getOrder st n ds := by
  have hs := (find_names n _).2 hin
  cases c <;> simp only [step] at hs ⊢
  case setOrder n' ds' p perm =>
    cases hf : find n' st with
    | none =>
      simp only [hf] at hs ⊢
      cases perm
      · simp
      · by_cases e : n' = n
        · subst e; simp [hf] at hs
        · simp [e]
    | some m =>
      cases perm
      · simp
      · simp only [Bool.not_true, Bool.false_eq_true, if_false]
        unfold getOrder
        rw [find_upd _ _ _ (fun m => by rfl)]
        by_cases e : n = n'
        · subst e
          simp only [hf, if_true, Option.map_some, true_and, setAt]
          by_cases e2 : ds' = ds
          · subst e2; simp
          · have : ¬ ds = ds' := fun x => e2 x.symm
            simp [e2, this]
        · have : ¬ n' = n := fun x => e x.symm
          simp [e, this]
  case lock s n' ds' =>
    split
    · rfl
    · split
      · rfl
      · unfold getOrder
        rw [find_upd _ _ _ (fun m => by rfl)]
        by_cases e : n = n' <;> simp only [e, if_true, if_false]
        cases find n' st <;> rfl
  case unlock s n' ds' =>
    split
    · rfl
    · split
      · rfl
      · split
        · rfl
        · unfold getOrder
          rw [find_upd _ _ _ (fun m => by rfl)]
          by_cases e : n = n' <;> simp only [e, if_true, if_false]
          cases find n' st <;> rfl
  case stop s =>
    unfold getOrder
    rw [find_map _ _ (fun m => by rfl)]
    cases find n st <;> rfl
  case change s n' ds' =>
    split
    · rfl
    · split
      · rfl
      · split <;> rfl
  case subscribe n' id =>
    split
    · rfl
    · unfold getOrder
      rw [find_upd _ _ _ (fun m => by rfl)]
      by_cases e : n = n' <;> simp only [e, if_true, if_false]
      cases find n' st <;> rfl
  case unsubscribe n' id =>
    split
    · rfl
    · unfold getOrder
      rw [find_upd _ _ _ (fun m => by rfl)]
      by_cases e : n = n' <;> simp only [e, if_true, if_false]
      cases find n' st <;> rfl
  case modules l =>
    unfold getOrder
    rw [find_store] at hs ⊢
    split at hs
    · rename_i h; simp only [h, if_true]; rfl
    · simp at hs
  case restart =>
    unfold getOrder
    rw [find_store] at hs ⊢
    split at hs
    · rename_i h; simp only [h, if_true]; rfl
    · simp at hs

theorem asked_cons (n ds : Nat) (c : Call) (h : List Call) :
    asked n ds (c :: h) = match c with
      | .setOrder n' ds' p true => if n' = n ∧ ds' = ds then p else asked n ds h
      | _ => asked n ds h := by
  cases c <;> first | rfl | (rename_i b; cases b <;> rfl)

/-- **C139, what holds in all histories.** The priority read is the one last set since modules were
changed or sysrepo was restarted. -/
theorem order_exact (ns : List Nat) (h : List Call) (n ds : Nat) (hin : n ∈ installed ns h) :
    getOrder (run ns h) n ds = some (asked n ds (recent h)) := by
  induction h with
  | nil =>
    show getOrder (store [] ns) n ds = _
    have : n ∈ ns := hin
    simp [getOrder, find_store, this, fill, asked, recent]
  | cons c h ih =>
    have hn : n ∈ names (step (run ns h) c).1 := by
      have := names_run ns (c :: h); rw [show (step (run ns h) c).1 = run ns (c :: h) from rfl, this]; exact hin
    show getOrder (step (run ns h) c).1 n ds = _
    rw [prio_step _ _ _ _ hn]
    cases c
    case modules l => rfl
    case restart => rfl
    case setOrder n' ds' p perm =>
      cases perm
      · simpa [recent, asked] using ih hin
      · simp only [recent, asked]
        split
        · rfl
        · exact ih hin
    all_goals (simpa [recent, asked] using ih hin)

theorem recent_quiet (h : List Call) (q : quiet h = true) : recent h = h := by
  induction h with
  | nil => rfl
  | cons c h ih => cases c <;> simp_all [recent, quiet]

/-- **C139, the priority (partial).** Without calls that change modules, `sr_module_change_get_order` returns the
priority last set with `sr_module_change_set_order` for the module and datastore, 0 if there is none.
Missing: after such calls; it is false (`order_lost`). -/
theorem order_kept_partial (ns : List Nat) (h : List Call) (n ds : Nat) (hin : n ∈ ns) (q : quiet h = true) :
    getOrder (run ns h) n ds = some (asked n ds h) := by
  have hi : installed ns h = ns := by
    clear hin
    induction h with
    | nil => rfl
    | cons c h ih => cases c <;> simp_all [installed, quiet]
  have := order_exact ns h n ds (by rw [hi]; exact hin)
  rwa [recent_quiet h q] at this

example : (2 ∈ [1, 2]) ∧ quiet [.setOrder 1 0 5 true, .setOrder 2 1 3 false, .lock 7 2 1, .setOrder 2 1 9 true] = true ∧
    asked 2 1 [.setOrder 1 0 5 true, .setOrder 2 1 3 false, .lock 7 2 1, .setOrder 2 1 9 true] = 9 := by decide

/-- **C139 is false of the code: priorities are lost** by every call changing modules, of all modules, even if
none of them is changed. -/
theorem order_lost (ns : List Nat) (h : List Call) (l : List Nat) (n ds : Nat) (hin : n ∈ l) :
    getOrder (run ns (.modules l :: h)) n ds = some 0 :=
  order_exact ns (.modules l :: h) n ds hin

example : asked 2 1 [.modules [1, 2, 3], .setOrder 2 1 9 true] = 9 ∧
    getOrder (run [1, 2] [.modules [1, 2, 3], .setOrder 2 1 9 true]) 2 1 = some 0 := by decide

theorem sort_zero (l : List Mod) (hz : ∀ m ∈ l, m.prio running = 0) : sort l = l := by
  induction l with
  | nil => rfl
  | cons m l ih =>
    have h2 := ih (fun x hx => hz x (List.mem_cons_of_mem _ hx))
    show insert m (sort l) = _
    rw [h2]
    cases l with
    | nil => rfl
    | cons x l =>
      have : cmpLe m x = true := by simp [cmpLe, hz m (by simp)]
      simp [insert, this]

theorem store_zero (ns : List Nat) (old : List Mod) : ∀ m ∈ store old ns, m.prio running = 0 := by
  induction ns with
  | nil => intro m hm; cases hm
  | cons n ns ih =>
    intro m hm
    rcases List.mem_cons.1 hm with rfl | hm
    · rfl
    · exact ih m hm

/-- **C139, the order of copying.** On a restart `startup` is copied to `running` in the order in which the modules are
stored, whatever the priorities set before. -/
theorem start_order (ns : List Nat) (h : List Call) :
    (step (run ns h) .restart).2 = .copied (installed ns h) := by
  simp only [step]
  rw [sort_zero _ (store_zero _ _), names_store, names_run]

/-- **C139 is false of the code: priorities are not used on a restart**, although documented: a module of a higher
priority is copied after one of a lower. -/
theorem start_ignores_order :
    ∃ ns h, asked 2 running h > asked 1 running h ∧ (step (run ns h) .restart).2 = .copied [1, 2] :=
  ⟨[1, 2], [.setOrder 2 running 9 true], by decide, by rw [start_order]; rfl⟩

theorem insert_mem (m x : Mod) (l : List Mod) (h : x ∈ insert m l) : x = m ∨ x ∈ l := by
  induction l with
  | nil => simpa [insert] using h
  | cons y l ih =>
    simp only [insert] at h
    split at h
    · simpa using h
    · rcases List.mem_cons.1 h with h | h
      · exact .inr (by simp [h])
      · rcases ih h with h | h
        · exact .inl h
        · exact .inr (by simp [h])

/-- **C139, the direction.** Had modules different priorities on a restart, those of a lower one would come first, the
reverse of what is documented. -/
theorem start_lower_first (l : List Mod) : (sort l).Pairwise fun a b => a.prio running ≤ b.prio running := by
  induction l with
  | nil => exact List.Pairwise.nil
  | cons m l ih =>
    show (insert m (sort l)).Pairwise _
    generalize sort l = s at ih
    induction s with
    | nil => simp [insert]
    | cons x s ih2 =>
      have hx := List.pairwise_cons.1 ih
      simp only [insert]
      split
      · rename_i hc
        have hm : m.prio running ≤ x.prio running := by simpa [cmpLe] using hc
        refine List.pairwise_cons.2 ⟨fun y hy => ?_, ih⟩
        rcases List.mem_cons.1 hy with rfl | hy
        · exact hm
        · exact Nat.le_trans hm (hx.1 y hy)
      · rename_i hc
        have hm : x.prio running < m.prio running := by simpa [cmpLe] using hc
        refine List.pairwise_cons.2 ⟨fun y hy => ?_, ih2 hx.2⟩
        rcases insert_mem _ _ _ hy with rfl | hy
        · exact Nat.le_of_lt hm
        · exact hx.1 y hy

/-! ## Locks -/

def holder (st : List Mod) (n ds : Nat) : Option Nat := (find n st).bind (·.lock ds)

/-- The calls by which a session gives up a lock. -/
def gives (s n ds : Nat) : Call → Bool
  | .unlock s' n' ds' => s' == s && n' == n && ds' == ds
  | .stop s' => s' == s
  | _ => false

theorem holder_step (st : List Mod) (c : Call) (s n ds : Nat) (hh : holder st n ds = some s)
    (hg : gives s n ds c = false) (q : quiet [c] = true) : holder (step st c).1 n ds = some s := by
  obtain ⟨m, hm, hl⟩ : ∃ m, find n st = some m ∧ m.lock ds = some s := by
    unfold holder at hh
    cases e : find n st with
    | none => simp [e] at hh
    | some m => exact ⟨m, rfl, by simpa [e] using hh⟩
  cases c <;> simp only [step]
  case setOrder n' ds' p perm =>
    split
    · exact hh
    · split
      · exact hh
      · unfold holder
        rw [find_upd _ _ _ (fun m => by rfl)]
        split <;> simp [hm, hl]
  case lock s' n' ds' =>
    split
    · exact hh
    · rename_i m' hm'
      split
      · exact hh
      · rename_i hn
        unfold holder
        rw [find_upd _ _ _ (fun m => by rfl)]
        split
        · rename_i e
          subst e
          rw [hm] at hm'; cases hm'
          have : ds ≠ ds' := fun e => by subst e; simp [hl] at hn
          simp [hm, setAt, this, hl]
        · simp [hm, hl]
  case unlock s' n' ds' =>
    split
    · exact hh
    · rename_i m' hm'
      split
      · exact hh
      · rename_i x hx
        split
        · exact hh
        · rename_i e
          have e : x = s' := by simpa using e
          unfold holder
          rw [find_upd _ _ _ (fun m => by rfl)]
          split
          · rename_i e2
            subst e2
            rw [hm] at hm'; cases hm'
            have : ds ≠ ds' := by
              intro e3; subst e3
              rw [hl] at hx; cases hx; subst e
              simp [gives] at hg
            simp [hm, setAt, this, hl]
          · simp [hm, hl]
  case stop s' =>
    unfold holder
    rw [find_map _ _ (fun m => by rfl)]
    have : s ≠ s' := by
      intro e; subst e; simp [gives] at hg
    simp [hm, hl, this]
  case change s' n' ds' =>
    split
    · exact hh
    · split
      · exact hh
      · split <;> exact hh
  case subscribe n' id =>
    split
    · exact hh
    · unfold holder
      rw [find_upd _ _ _ (fun m => by rfl)]
      split <;> simp [hm, hl]
  case unsubscribe n' id =>
    split
    · exact hh
    · unfold holder
      rw [find_upd _ _ _ (fun m => by rfl)]
      split <;> simp [hm, hl]
  case modules l => simp [quiet] at q
  case restart => simp [quiet] at q

/-- **C139, locks (partial).** After `sr_lock` of a session succeeded, until it unlocks or is stopped, no other session
can lock or change the data of the module in the datastore, and the session can change them and unlock them.
Missing: when modules are changed meanwhile; it is false (`lock_lost`). -/
theorem lock_kept_partial (ns : List Nat) (before after : List Call) (s n ds : Nat)
    (hok : (step (run ns before) (.lock s n ds)).2 = .ok)
    (hg : ∀ c ∈ after, gives s n ds c = false) (q : quiet after = true) :
    let st := run ns (after ++ .lock s n ds :: before)
    (∀ s', (step st (.lock s' n ds)).2 = .locked) ∧
    (∀ s', s' ≠ s → (step st (.change s' n ds)).2 = .locked ∧ (step st (.unlock s' n ds)).2 = .locked) ∧
    (step st (.change s n ds)).2 = .ok ∧ (step st (.unlock s n ds)).2 = .ok := by
  have hh : holder (run ns (after ++ .lock s n ds :: before)) n ds = some s := by
    induction after with
    | nil =>
      show holder (step (run ns before) (.lock s n ds)).1 n ds = some s
      simp only [step] at hok ⊢
      cases e : find n (run ns before) with
      | none => simp [e] at hok
      | some m =>
        cases e2 : m.lock ds with
        | some x => simp [e, e2] at hok
        | none =>
          simp only [e2]
          unfold holder
          rw [find_upd _ _ _ (fun m => by rfl)]
          simp [e, setAt]
    | cons c h ih =>
      have q1 : quiet [c] = true ∧ quiet h = true := by cases c <;> simp_all [quiet]
      exact holder_step _ _ _ _ _ (ih (fun x hx => hg x (List.mem_cons_of_mem _ hx)) q1.2)
        (hg c (by simp)) q1.1
  intro st
  obtain ⟨m, hm, hl⟩ : ∃ m, find n st = some m ∧ m.lock ds = some s := by
    unfold holder at hh
    cases e : find n st with
    | none => simp [show run ns (after ++ .lock s n ds :: before) = st from rfl, e] at hh
    | some m => exact ⟨m, rfl, by simpa [show run ns (after ++ .lock s n ds :: before) = st from rfl, e] using hh⟩
  refine ⟨fun s' => by simp [step, hm, hl], fun s' hs => ?_, by simp [step, hm, hl], by simp [step, hm, hl]⟩
  have : s ≠ s' := fun e => hs e.symm
  simp [step, hm, hl, this]

example : (step (run [1, 2] [.unlock 5 2 1, .lock 5 2 1]) (.lock 7 2 1)).2 = .ok ∧
    (∀ c ∈ [Call.unlock 8 2 1, .stop 8, .change 7 2 1, .unlock 7 2 0, .lock 8 1 1], gives 7 2 1 c = false) ∧
    quiet [.unlock 8 2 1, .stop 8, .change 7 2 1, .unlock 7 2 0, .lock 8 1 1] = true := by decide

/-- **C139 is false of the code: locks are lost** by every call changing modules: any session can lock any module and
change its data then, and unlocking by the session with the lock fails. -/
theorem lock_lost (ns : List Nat) (h : List Call) (l : List Nat) (s n ds : Nat) (hin : n ∈ l) :
    let st := run ns (.modules l :: h)
    (step st (.lock s n ds)).2 = .ok ∧ (step st (.change s n ds)).2 = .ok ∧ (step st (.unlock s n ds)).2 = .failed := by
  intro st
  have hf : find n st = some (fill (find n (run ns h)) n) := by
    show find n (store _ l) = _
    rw [find_store]; simp [hin]
  have hl : (fill (find n (run ns h)) n).lock ds = none := rfl
  simp [step, hf, hl]

example : (step (run [1, 2] []) (.lock 7 2 1)).2 = .ok ∧
    (step (run [1, 2] [.lock 7 2 1]) (.change 8 2 1)).2 = .locked ∧
    (step (run [1, 2] [.modules [1, 2, 3], .lock 7 2 1]) (.change 8 2 1)).2 = .ok := by decide

/-! ## Subscriptions -/

theorem subs_step (st : List Mod) (c : Call) (n : Nat) (hin : n ∈ names (step st c).1) :
    subsOf (step st c).1 n = match c with
      | .modules _ => if n ∈ names st then subsOf st n else some []
      | .restart => some []
      | .subscribe n' id => if n' = n then (subsOf st n).map (· ++ [id]) else subsOf st n
      | .unsubscribe n' id =>
        if n' = n then (subsOf st n).map (fun l => l.filter (fun x => decide (x ≠ id))) else subsOf st n
      | _ => subsOf st n := by
  have hs := (find_names n _).2 hin
  cases c <;> simp only [step] at hs ⊢
  case setOrder n' ds' p perm =>
    split
    · rfl
    · split
      · rfl
      · unfold subsOf
        rw [find_upd _ _ _ (fun m => by rfl)]
        by_cases e : n = n' <;> simp only [e, if_true, if_false]
        cases find n' st <;> rfl
  case lock s n' ds' =>
    split
    · rfl
    · split
      · rfl
      · unfold subsOf
        rw [find_upd _ _ _ (fun m => by rfl)]
        by_cases e : n = n' <;> simp only [e, if_true, if_false]
        cases find n' st <;> rfl
  case unlock s n' ds' =>
    split
    · rfl
    · split
      · rfl
      · split
        · rfl
        · unfold subsOf
          rw [find_upd _ _ _ (fun m => by rfl)]
          by_cases e : n = n' <;> simp only [e, if_true, if_false]
          cases find n' st <;> rfl
  case stop s =>
    unfold subsOf
    rw [find_map _ _ (fun m => by rfl)]
    cases find n st <;> rfl
  case change s n' ds' =>
    split
    · rfl
    · split
      · rfl
      · split <;> rfl
  case subscribe n' id =>
    cases hf : find n' st with
    | none =>
      by_cases e : n' = n
      · subst e; simp [hf] at hs
      · simp [e]
    | some m =>
      unfold subsOf
      rw [find_upd _ _ _ (fun m => by rfl)]
      by_cases e : n = n'
      · subst e; simp [hf]
      · have : ¬ n' = n := fun x => e x.symm
        simp [e, this]
  case unsubscribe n' id =>
    cases hf : find n' st with
    | none =>
      by_cases e : n' = n
      · subst e; simp [hf] at hs
      · simp [e]
    | some m =>
      unfold subsOf
      rw [find_upd _ _ _ (fun m => by rfl)]
      by_cases e : n = n'
      · subst e; simp [hf]
      · have : ¬ n' = n := fun x => e x.symm
        simp [e, this]
  case modules l =>
    unfold subsOf
    rw [find_store] at hs ⊢
    split at hs
    · rename_i h
      simp only [h, if_true]
      cases hf : find n st with
      | none =>
        have : n ∉ names st := fun h => by have := (find_names n st).2 h; simp [hf] at this
        simp [this, fill]
      | some m =>
        have : n ∈ names st := (find_names n st).1 (by simp [hf])
        simp [this, fill]
    · simp at hs
  case restart =>
    unfold subsOf
    rw [find_store] at hs ⊢
    split at hs
    · rename_i h; simp only [h, if_true]; rfl
    · simp at hs

/-- **C139, subscriptions.** After any history, also of changes of modules, a module installed has exactly the
subscriptions made and not removed since it was installed or sysrepo was restarted; a module not installed has none. -/
theorem subs_exact (ns : List Nat) (h : List Call) (n : Nat) :
    subsOf (run ns h) n = if n ∈ installed ns h then some (wanted ns n h) else none := by
  split
  · rename_i hin
    induction h with
    | nil =>
      have : n ∈ ns := hin
      show subsOf (store [] ns) n = _
      simp [subsOf, find_store, this, fill, find, wanted]
    | cons c h ih =>
      have hn : n ∈ names (step (run ns h) c).1 := by
        have := names_run ns (c :: h); rw [show (step (run ns h) c).1 = run ns (c :: h) from rfl, this]; exact hin
      show subsOf (step (run ns h) c).1 n = _
      rw [subs_step _ _ _ hn]
      cases c
      case modules l =>
        simp only [wanted, names_run]
        split
        · rename_i h2; exact ih h2
        · rfl
      case restart => rfl
      case subscribe n' id =>
        simp only [wanted]
        split
        · rw [ih hin]; rfl
        · exact ih hin
      case unsubscribe n' id =>
        simp only [wanted]
        split
        · rw [ih hin]; rfl
        · exact ih hin
      all_goals (simpa [wanted] using ih hin)
  · rename_i hin
    unfold subsOf
    cases e : find n (run ns h) with
    | none => rfl
    | some m =>
      have := (find_names n (run ns h)).1 (by simp [e])
      rw [names_run] at this
      exact absurd this hin

example : wanted [1, 2] 2 [.unsubscribe 2 10, .modules [2, 3], .subscribe 2 11, .subscribe 1 9, .subscribe 2 10] = [11] ∧
    wanted [1, 2] 1 [.modules [1], .modules [2, 3], .subscribe 1 9] = [] ∧
    2 ∈ installed [1, 2] [.unsubscribe 2 10, .modules [2, 3], .subscribe 2 11] := by decide

/-- Setting a priority succeeds for a module installed with the access needed, and nothing but the priority of the
module in the datastore changes. -/
theorem set_exact (ns : List Nat) (h : List Call) (n ds p : Nat) (perm : Bool) :
    (step (run ns h) (.setOrder n ds p perm)).2 =
      if n ∈ installed ns h then (if perm then .ok else .denied) else .notFound := by
  have hi := find_names n (run ns h)
  rw [names_run] at hi
  simp only [step]
  cases e : find n (run ns h) with
  | none =>
    have : n ∉ installed ns h := fun x => by have := hi.2 x; simp [e] at this
    simp [this]
  | some m =>
    have : n ∈ installed ns h := hi.1 (by simp [e])
    cases perm <;> simp [this]

example : (step (run [1, 2] [.modules [2]]) (.setOrder 1 1 5 true)).2 = .notFound ∧
    (step (run [1, 2] [.modules [2]]) (.setOrder 2 1 5 true)).2 = .ok := by decide

end Verif.ModShm
