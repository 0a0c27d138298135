import Verif.NacmConf
/-!
# Properties of the NACM rules in memory (C56)
-/
namespace Verif.NacmConf

theorem strncmpEq_iff (a b : Str) : strncmpEq a b = true ↔ b <+: a := by
  induction b generalizing a with
  | nil => cases a <;> simp [strncmpEq]
  | cons y b ih =>
    cases a with
    | nil => simp [strncmpEq]
    | cons x a =>
      simp only [strncmpEq, List.cons_prefix_cons]
      split
      · rename_i h; subst h; simp [ih]
      · rename_i h; simpa using fun h' : y = x => absurd h'.symm h

theorem insertAfter_eq (e : Entry α) (prev : Str) (l : List (Entry α))
    (h : ∀ x ∈ l, prev <+: x.name → x.name = prev) : insertAfter e prev l = insertBehind e prev l := by
  induction l with
  | nil => simp [insertAfter, insertBehind]
  | cons x l ih =>
    have ih := ih (fun y hy => h y (List.mem_cons_of_mem _ hy))
    simp only [insertAfter]
    by_cases hx : x.name = prev
    · rw [if_pos ((strncmpEq_iff _ _).2 (hx ▸ List.prefix_refl _))]
      simp [insertBehind, hx]
    · have hn : ¬ strncmpEq x.name prev = true := fun h' => hx (h x (by simp) ((strncmpEq_iff _ _).1 h'))
      rw [if_neg hn, ih]
      have hx' : ¬ prev = x.name := fun h => hx h.symm
      unfold insertBehind
      by_cases hm : prev ∈ l.map Entry.name
      · rw [if_pos hm, if_pos (by simp only [List.map_cons, List.mem_cons]; exact Or.inr hm)]
        simp [List.takeWhile_cons, List.dropWhile_cons, hx]
      · rw [if_neg hm, if_neg (by
          simp only [List.map_cons, List.mem_cons, not_or]; exact ⟨hx', hm⟩)]
        rfl

theorem filter_ne_id (n : Str) (l : List (Entry α)) (h : n ∉ l.map Entry.name) :
    l.filter (fun x => decide (x.name ≠ n)) = l := by
  rw [List.filter_eq_self]
  intro x hx
  simp only [decide_eq_true_eq]
  intro he
  exact h (List.mem_map.2 ⟨x, hx, he⟩)

theorem unlink_eq (n : Str) (l : List (Entry α)) (hnd : (l.map Entry.name).Nodup) :
    unlink n l = (l.find? (fun x => decide (x.name = n))).map
      (fun e => (e, l.filter (fun x => decide (x.name ≠ n)))) := by
  induction l with
  | nil => rfl
  | cons x l ih =>
    simp only [List.map_cons, List.nodup_cons] at hnd
    simp only [unlink]
    by_cases hx : x.name = n
    · rw [if_pos hx]
      simp only [List.find?_cons, hx, decide_true, Option.map_some, List.filter_cons,
        ne_eq, not_true_eq_false, decide_false]
      rw [show l.filter (fun x => decide (¬x.name = n)) = l from
        filter_ne_id n l (by rw [← hx]; exact hnd.1)]
      simp
    · rw [if_neg hx, ih hnd.2]
      simp only [List.find?_cons, hx, decide_false, List.filter_cons, ne_eq, not_false_eq_true,
        decide_true, if_true, Option.map_map]
      rfl

theorem find_none_iff (n : Str) (l : List (Entry α)) :
    l.find? (fun x => decide (x.name = n)) = none ↔ n ∉ l.map Entry.name := by
  rw [List.find?_eq_none]
  constructor
  · rintro h hm
    obtain ⟨x, hx, hn⟩ := List.mem_map.1 hm
    exact h x hx (by simp [hn])
  · intro h x hx hn
    exact h (List.mem_map.2 ⟨x, hx, by simpa using hn⟩)

/-- No name is a proper prefix of another one. -/
def PrefixFree (S : Str → Prop) : Prop := ∀ a b, S a → S b → a <+: b → b = a

/-- One change. -/
theorem apply_eq (l l' : List (Entry α)) (c : Change α) (S : Str → Prop) (hS : PrefixFree S)
    (hnd : (l.map Entry.name).Nodup) (hl : ∀ x ∈ l, S x.name) (hc : ∀ n ∈ c.names, S n)
    (h : configure l c = some l') : apply l c = some l' := by
  cases c with
  | created n b prev =>
    simp only [configure] at h
    split at h
    · cases h
    · cases prev with
      | none => exact h
      | some p =>
        simp only at h
        simp only [apply, place]
        rw [insertAfter_eq _ _ _ (fun x hx hp => hS p x.name (hc p (by simp [Change.names])) (hl x hx) hp)]
        exact h
  | moved n prev =>
    simp only [configure] at h
    simp only [apply]
    rw [unlink_eq n l hnd]
    cases hf : l.find? (fun x => decide (x.name = n)) with
    | none => rw [hf] at h; cases h
    | some e =>
      rw [hf] at h
      simp only [Option.map_some, Option.bind_some] at h ⊢
      cases prev with
      | none => exact h
      | some p =>
        simp only at h
        simp only [place]
        rw [insertAfter_eq _ _ _ (fun x hx hp =>
          hS p x.name (hc p (by simp [Change.names])) (hl x (List.mem_filter.1 hx).1) hp)]
        exact h
  | deleted n =>
    simp only [configure] at h
    simp only [apply]
    rw [unlink_eq n l hnd]
    split at h
    · rename_i hm
      cases hf : l.find? (fun x => decide (x.name = n)) with
      | none => exact absurd hm ((find_none_iff n l).1 hf)
      | some e => simpa using h
    · cases h

theorem insertBehind_perm (e : Entry α) (prev : Str) (l l' : List (Entry α))
    (h : insertBehind e prev l = some l') : l'.Perm (e :: l) := by
  unfold insertBehind at h
  split at h
  · cases h
    generalize hp : (fun x : Entry α => decide (x.name ≠ prev)) = q
    have h1 : l = l.takeWhile q ++ l.dropWhile q := (List.takeWhile_append_dropWhile).symm
    have h2 : l.dropWhile q = (l.dropWhile q).take 1 ++ (l.dropWhile q).drop 1 := (List.take_append_drop 1 _).symm
    rw [List.append_assoc]
    refine List.Perm.trans ?_ (List.Perm.cons e (by rw [← h2, ← h1] :
      (l.takeWhile q ++ ((l.dropWhile q).take 1 ++ (l.dropWhile q).drop 1)).Perm l))
    rw [← List.append_assoc, ← List.append_assoc]
    exact List.perm_middle
  · cases h

theorem filter_split (n : Str) (l : List (Entry α)) (e : Entry α) (hnd : (l.map Entry.name).Nodup)
    (hf : l.find? (fun x => decide (x.name = n)) = some e) :
    l.Perm (e :: l.filter (fun x => decide (x.name ≠ n))) := by
  induction l with
  | nil => simp at hf
  | cons x l ih =>
    simp only [List.map_cons, List.nodup_cons] at hnd
    by_cases hx : x.name = n
    · simp only [List.find?_cons, hx, decide_true] at hf
      cases hf
      simp only [List.filter_cons, hx, ne_eq, not_true_eq_false, decide_false]
      rw [show l.filter (fun x => decide (¬x.name = n)) = l from
        filter_ne_id n l (by rw [← hx]; exact hnd.1)]
      simp
    · simp only [List.find?_cons, hx, decide_false] at hf
      simp only [List.filter_cons, hx, ne_eq, not_false_eq_true, decide_true, if_true]
      exact (List.Perm.cons x (ih hnd.2 hf)).trans (List.Perm.swap e x _)

/-- The configured list keeps unique names. -/
theorem configure_names (l l' : List (Entry α)) (c : Change α) (h : configure l c = some l')
    (hnd : (l.map Entry.name).Nodup) :
    (l'.map Entry.name).Nodup ∧ ∀ x ∈ l', x.name ∈ l.map Entry.name ∨ x.name ∈ c.names := by
  have hp : ∀ (e : Entry α) (l'' : List (Entry α)), l''.Perm (e :: l) → e.name ∉ l.map Entry.name →
      (l''.map Entry.name).Nodup ∧ ∀ x ∈ l'', x.name ∈ l.map Entry.name ∨ x.name = e.name := by
    intro e l'' hp hn
    refine ⟨((hp.map Entry.name).nodup_iff).2 (by simpa using ⟨by simpa using hn, hnd⟩), fun x hx => ?_⟩
    rcases List.mem_cons.1 (hp.mem_iff.1 hx) with rfl | hx
    · exact Or.inr rfl
    · exact Or.inl (List.mem_map.2 ⟨x, hx, rfl⟩)
  cases c with
  | created n b prev =>
    simp only [configure] at h
    split at h
    · cases h
    · rename_i hn
      have key : l'.Perm (⟨n, b⟩ :: l) := by
        cases prev with
        | none => simp only [Option.some.injEq] at h; rw [← h]
        | some p => exact insertBehind_perm _ _ _ _ h
      obtain ⟨h1, h2⟩ := hp _ _ key hn
      refine ⟨h1, fun x hx => ?_⟩
      rcases h2 x hx with h | h
      · exact Or.inl h
      · exact Or.inr (by simp [Change.names, h])
  | moved n prev =>
    simp only [configure] at h
    cases hf : l.find? (fun x => decide (x.name = n)) with
    | none => rw [hf] at h; cases h
    | some e =>
      rw [hf] at h
      simp only at h
      have key : l'.Perm (e :: l.filter (fun x => decide (x.name ≠ n))) := by
        cases prev with
        | none => simp only [Option.some.injEq] at h; rw [← h]
        | some p => exact insertBehind_perm _ _ _ _ h
      have key2 := key.trans (filter_split n l e hnd hf).symm
      exact ⟨((key2.map Entry.name).nodup_iff).2 hnd, fun x hx =>
        Or.inl (List.mem_map.2 ⟨x, key2.mem_iff.1 hx, rfl⟩)⟩
  | deleted n =>
    simp only [configure] at h
    split at h
    · cases h
      exact ⟨(List.filter_sublist.map Entry.name).nodup hnd, fun x hx =>
        Or.inl (List.mem_map.2 ⟨x, (List.mem_filter.1 hx).1, rfl⟩)⟩
    · cases h

/-- **C56** (partial). For every history of changes of the configuration, the rule lists (the rules of
a list) in memory are the configured ones in the configured order, if no name is a proper prefix of
another one. Missing: names that are prefixes of others, see `prefix_misplaces`. -/
theorem rules_mirror_partial (cs : List (Change α)) (l l' : List (Entry α)) (S : Str → Prop)
    (hS : PrefixFree S) (hnd : (l.map Entry.name).Nodup) (hl : ∀ x ∈ l, S x.name)
    (hc : ∀ c ∈ cs, ∀ n ∈ c.names, S n) (h : configured l cs = some l') : run l cs = some l' := by
  induction cs generalizing l with
  | nil => exact h
  | cons c cs ih =>
    simp only [configured] at h
    simp only [run]
    cases hcf : configure l c with
    | none => rw [hcf] at h; cases h
    | some l1 =>
      rw [hcf] at h
      have hcn := hc c (by simp)
      rw [apply_eq l l1 c S hS hnd hl hcn hcf]
      obtain ⟨h1, h2⟩ := configure_names l l1 c hcf hnd
      refine ih l1 h1 (fun x hx => ?_) (fun c' hc' => hc c' (List.mem_cons_of_mem _ hc')) h
      rcases h2 x hx with h3 | h3
      · obtain ⟨y, hy, he⟩ := List.mem_map.1 h3
        rw [← he]; exact hl y hy
      · exact hcn _ h3

/-- From an empty configuration, as after the initialization. -/
theorem rules_mirror_from_empty (cs : List (Change α)) (l' : List (Entry α))
    (hS : PrefixFree (fun n => ∃ c ∈ cs, n ∈ c.names)) (h : configured [] cs = some l') :
    run [] cs = some l' :=
  rules_mirror_partial cs [] l' (fun n => ∃ c ∈ cs, n ∈ c.names) hS (by simp) (by simp)
    (fun c hc n hn => ⟨c, hc, hn⟩) h

/-- A sample history. -/
def sampleHistory : List (Change Nat) :=
  [.created "a".toList 1 none, .created "b".toList 2 (some "a".toList), .created "c".toList 3 none,
   .moved "a".toList (some "b".toList), .deleted "c".toList]

example : configured [] sampleHistory = some [⟨"b".toList, 2⟩, ⟨"a".toList, 1⟩] ∧
    run [] sampleHistory = some [⟨"b".toList, 2⟩, ⟨"a".toList, 1⟩] := by decide

example : PrefixFree (fun n => ∃ c ∈ sampleHistory, n ∈ c.names) := by
  have key : ∀ n, (∃ c ∈ sampleHistory, n ∈ c.names) → n = ['a'] ∨ n = ['b'] ∨ n = ['c'] := by
    rintro n ⟨c, hc, hn⟩
    simp only [sampleHistory, List.mem_cons, List.not_mem_nil, or_false] at hc
    rcases hc with rfl | rfl | rfl | rfl | rfl <;> simp [Change.names] at hn <;> grind
  intro a b ha hb hp
  rcases key a ha with rfl | rfl | rfl <;> rcases key b hb with rfl | rfl | rfl <;> simp_all

/-- **C56 fails**: a rule list placed after `admin` ends up after `admin2`, if that one comes first. -/
theorem prefix_misplaces :
    configured ([⟨"admin2".toList, 0⟩, ⟨"admin".toList, 1⟩] : List (Entry Nat))
      [.created "ops".toList 2 (some "admin".toList)] =
      some [⟨"admin2".toList, 0⟩, ⟨"admin".toList, 1⟩, ⟨"ops".toList, 2⟩] ∧
    run ([⟨"admin2".toList, 0⟩, ⟨"admin".toList, 1⟩] : List (Entry Nat))
      [.created "ops".toList 2 (some "admin".toList)] =
      some [⟨"admin2".toList, 0⟩, ⟨"ops".toList, 2⟩, ⟨"admin".toList, 1⟩] := by decide

/-! ## Target of a rule -/

theorem runTarget_append (t : Nacm.Target) (a b : List TChange) :
    runTarget t (a ++ b) = runTarget (runTarget t a) b := by
  induction a generalizing t with
  | nil => rfl
  | cons c a ih => exact ih _

/-- The target in memory is that of the last changed leaf, or any node if the last change is a
removal. -/
theorem target_last (t : Nacm.Target) (cs : List TChange) (c : TChange) :
    runTarget t (cs ++ [c]) =
      match c with
      | .set l v => targetOf (some (l, v))
      | .del _ => targetOf none := by
  rw [runTarget_append]
  cases c with
  | set l v => cases l <;> rfl
  | del l => rfl

/-- The target is the configured one after every change that does not remove a leaf last while
another one is configured. -/
theorem target_mirrors_partial (t : Nacm.Target) (dels : List Leaf) (l : Leaf) (v : Str) :
    runTarget t (dels.map .del ++ [.set l v]) = targetOf (some (l, v)) := target_last t _ _

/-- **C56 fails for the target**: if a rule is changed from a path to an RPC name and the new leaf is
reported before the removal of the old one, the rule matches every node. -/
theorem retarget_loses :
    runTarget (targetOf (some (.path, "/m:c".toList))) [.set .rpc "reboot".toList, .del .path] = .any none ∧
    targetOf (some (.rpc, "reboot".toList)) ≠ .any none := by decide

end Verif.NacmConf
