import Verif.Names

/-! # Properties of the names -/

namespace Verif.Names

/-! ## Lists with a separator -/

theorem split_last {x : Char} {a a' b b' : Str} (hb : x ∉ b) (hb' : x ∉ b') (h : a ++ x :: b = a' ++ x :: b') : a = a' ∧ b = b' := by
  rw [List.append_eq_append_iff] at h
  rcases h with ⟨c, h1, h2⟩ | ⟨c, h1, h2⟩
  · cases c with
    | nil => simp at h1 h2; exact ⟨h1.symm, h2⟩
    | cons y c => simp at h2; exact absurd (by rw [h2.2]; simp) hb
  · cases c with
    | nil => simp at h1 h2; exact ⟨h1, h2.symm⟩
    | cons y c => simp at h2; exact absurd (by rw [h2.2]; simp) hb'

/-! ## Digits -/

theorem digitChar_inj {a b : Nat} (ha : a < 16) (hb : b < 16) (h : Nat.digitChar a = Nat.digitChar b) : a = b := by
  have : ∀ a : Fin 16, ∀ b : Fin 16, Nat.digitChar a.1 = Nat.digitChar b.1 → a = b := by decide +kernel
  exact congrArg Fin.val (this ⟨a, ha⟩ ⟨b, hb⟩ h)

theorem digitChar_hex {a : Nat} (ha : a < 16) : Nat.digitChar a ∈ "0123456789abcdef".toList := by
  have : ∀ a : Fin 16, Nat.digitChar a.1 ∈ "0123456789abcdef".toList := by decide +kernel
  exact this ⟨a, ha⟩

theorem hex8_mem {h : BitVec 32} {c : Char} (hc : c ∈ hex8 h) : c ∈ "0123456789abcdef".toList := by
  simp only [hex8, List.mem_map] at hc
  obtain ⟨k, -, rfl⟩ := hc
  exact digitChar_hex (Nat.mod_lt _ (by decide))

theorem hex8_length (h : BitVec 32) : (hex8 h).length = 8 := rfl

theorem hex8_inj {g h : BitVec 32} (e : hex8 g = hex8 h) : g = h := by
  simp only [hex8, List.map_cons, List.map_nil, List.cons.injEq, and_true] at e
  obtain ⟨e7, e6, e5, e4, e3, e2, e1, e0⟩ := e
  have t (n : Nat) : n % 16 < 16 := Nat.mod_lt _ (by decide)
  have f7 := digitChar_inj (t _) (t _) e7
  have f6 := digitChar_inj (t _) (t _) e6
  have f5 := digitChar_inj (t _) (t _) e5
  have f4 := digitChar_inj (t _) (t _) e4
  have f3 := digitChar_inj (t _) (t _) e3
  have f2 := digitChar_inj (t _) (t _) e2
  have f1 := digitChar_inj (t _) (t _) e1
  have f0 := digitChar_inj (t _) (t _) e0
  apply BitVec.eq_of_toNat_eq
  have := g.isLt
  have := h.isLt
  omega

theorem dec_inj {a b : Nat} (h : dec a = dec b) : a = b := by
  have := congrArg (fun l => Nat.ofDigitChars 10 l 0) h
  simpa [dec, Nat.ofDigitChars_ten_toDigits] using this

theorem dec_digit {a : Nat} {c : Char} (h : c ∈ dec a) : c.isDigit = true := Nat.isDigit_of_mem_toDigits (by decide) (by decide) h

/-! ## Suffixes -/

theorem hex8_last (h : BitVec 32) : '.' ∉ hex8 h := fun e => absurd (hex8_mem e) (by decide)

theorem Ds.str_dot (d : Ds) : '.' ∉ d.str := by cases d <;> decide

theorem Ds.str_length (d : Ds) : d.str.length ≠ 8 := by cases d <;> decide

theorem Ds.str_inj {d e : Ds} (h : d.str = e.str) : d = e := by cases d <;> cases e <;> first | rfl | exact absurd h (by decide)

/-- A kind as the part before the last dot and the part after it. -/
def Kind.parts : Kind → Str × Str
  | .change ds => ([], ds.str)
  | .notif => ([], "notif".toList)
  | .oper h => (".oper".toList, hex8 h)
  | .rpc h => (".rpc".toList, hex8 h)

theorem Kind.suffix_parts (m : Str) (k : Kind) : m ++ ['.'] ++ k.suffix = (m ++ k.parts.1) ++ '.' :: k.parts.2 := by
  cases k <;> simp [Kind.suffix, Kind.parts, List.append_assoc]

theorem Kind.parts_dot (k : Kind) : '.' ∉ k.parts.2 := by
  cases k with
  | change d => exact Ds.str_dot d
  | notif => decide
  | oper h => exact hex8_last h
  | rpc h => exact hex8_last h

theorem Kind.suffix_inj {m m' : Str} {k k' : Kind} (h : m ++ ['.'] ++ k.suffix = m' ++ ['.'] ++ k'.suffix) : m = m' ∧ k = k' := by
  rw [Kind.suffix_parts, Kind.suffix_parts] at h
  obtain ⟨h1, h2⟩ := split_last k.parts_dot k'.parts_dot h
  have hl := congrArg List.length h2
  cases k with
  | change d =>
    cases k' with
    | change d' => simp [Kind.parts] at h1 h2; exact ⟨h1, by rw [Ds.str_inj h2]⟩
    | notif => cases d <;> exact absurd h2 (by decide)
    | oper h => exact absurd hl (by simp only [Kind.parts, hex8_length]; exact Ds.str_length d)
    | rpc h => exact absurd hl (by simp only [Kind.parts, hex8_length]; exact Ds.str_length d)
  | notif =>
    cases k' with
    | change d => cases d <;> exact absurd h2 (by decide)
    | notif => simp [Kind.parts] at h1; exact ⟨h1, rfl⟩
    | oper h => exact absurd hl (by simp only [Kind.parts, hex8_length]; decide)
    | rpc h => exact absurd hl (by simp only [Kind.parts, hex8_length]; decide)
  | oper g =>
    cases k' with
    | change d => exact absurd hl (by simp only [Kind.parts, hex8_length]; exact fun e => Ds.str_length d e.symm)
    | notif => exact absurd hl (by simp only [Kind.parts, hex8_length]; decide)
    | oper h =>
      have := (split_last (x := '.') (b := "oper".toList) (b' := "oper".toList) (by decide) (by decide) h1).1
      exact ⟨this, by rw [hex8_inj h2]⟩
    | rpc h =>
      have := (split_last (x := '.') (b := "oper".toList) (b' := "rpc".toList) (by decide) (by decide) h1).2
      exact absurd this (by decide)
  | rpc g =>
    cases k' with
    | change d => exact absurd hl (by simp only [Kind.parts, hex8_length]; exact fun e => Ds.str_length d e.symm)
    | notif => exact absurd hl (by simp only [Kind.parts, hex8_length]; decide)
    | oper h =>
      have := (split_last (x := '.') (b := "rpc".toList) (b' := "oper".toList) (by decide) (by decide) h1).2
      exact absurd this (by decide)
    | rpc h =>
      have := (split_last (x := '.') (b := "rpc".toList) (b' := "rpc".toList) (by decide) (by decide) h1).1
      exact ⟨this, by rw [hex8_inj h2]⟩

/-! ## Names in the SHM directory -/

/-- The part of the name after the prefix. -/
def rest : File → Str
  | .main => "_main".toList
  | .mod => "_mod".toList
  | .ext => "_ext".toList
  | .sub m k => "sub_".toList ++ (m ++ ['.'] ++ k.suffix)
  | .subData m k => "sub_".toList ++ (("data_".toList ++ m) ++ ['.'] ++ k.suffix)
  | .running m => '_' :: (m ++ '.' :: Ds.running.str)
  | .candidate m => '_' :: (m ++ '.' :: Ds.candidate.str)
  | .oper m cid sid => '_' :: ((m ++ ".operational".toList) ++ '.' :: (dec cid ++ '-' :: dec sid))

theorem shmName_rest (p : Str) (f : File) : shmName p f = p ++ rest f := by
  cases f <;> simp [shmName, rest, List.append_assoc]

theorem digits_dot (a b : Nat) : '.' ∉ dec a ++ '-' :: dec b := by
  intro h
  simp only [List.mem_append, List.mem_cons] at h
  rcases h with h | h | h
  · exact absurd (dec_digit h) (by decide)
  · exact absurd h (by decide)
  · exact absurd (dec_digit h) (by decide)

theorem digits_inj {a b a' b' : Nat} (h : dec a ++ '-' :: dec b = dec a' ++ '-' :: dec b') : a = a' ∧ b = b' := by
  have t (n : Nat) : '-' ∉ dec n := fun h => absurd (dec_digit h) (by decide)
  obtain ⟨h1, h2⟩ := split_last (t _) (t _) h
  exact ⟨dec_inj h1, dec_inj h2⟩

theorem digits_ds (a b : Nat) (d : Ds) (hd : d = .running ∨ d = .candidate) : d.str ≠ dec a ++ '-' :: dec b := by
  intro h
  have : '-' ∈ d.str := by rw [h]; simp
  rcases hd with rfl | rfl <;> exact absurd this (by decide)

theorem nodot {s t a b : Str} (hs : '.' ∉ s) (h : s = t ++ (a ++ '.' :: b)) : False := hs (by rw [h]; simp)

theorem nodot' {s a b : Str} (hs : '.' ∉ s) (h : s = a ++ '.' :: b) : False := hs (by rw [h]; simp)

/-- C67: two segments or files of one SHM directory have the same name only if they are the same, except for one clash: the events of a
subscription of the module `data_X` and the data of the events of the same subscription of the module `X` (`data_module_clash`). -/
theorem shm_names_partial (p : Str) (a b : File) :
    shmName p a = shmName p b ↔
      a = b ∨ ∃ m k, (a = .sub ("data_".toList ++ m) k ∧ b = .subData m k) ∨ (a = .subData m k ∧ b = .sub ("data_".toList ++ m) k) := by
  constructor
  · intro h
    rw [shmName_rest, shmName_rest] at h
    have h := List.append_cancel_left h
    have kd (m : Str) (k : Kind) : ∃ x y, m ++ ['.'] ++ k.suffix = x ++ '.' :: y := ⟨m, k.suffix, by simp⟩
    cases a with
    | main | mod | ext =>
      cases b with
      | main | mod | ext => first | exact .inl rfl | exact absurd h (by decide)
      | sub m k | subData m k => simp [rest] at h
      | running m | candidate m | oper m c s =>
        simp only [rest] at h
        have h := congrArg List.tail h
        exact (nodot' (by decide) h).elim
    | sub m k =>
      cases b with
      | main | mod | ext | running m' | candidate m' | oper m' c s => simp [rest] at h
      | sub m' k' =>
        obtain ⟨rfl, rfl⟩ := Kind.suffix_inj (List.append_cancel_left h)
        exact .inl rfl
      | subData m' k' =>
        obtain ⟨rfl, rfl⟩ := Kind.suffix_inj (List.append_cancel_left h)
        exact .inr ⟨m', k, .inl ⟨rfl, rfl⟩⟩
    | subData m k =>
      cases b with
      | main | mod | ext | running m' | candidate m' | oper m' c s => simp [rest] at h
      | sub m' k' =>
        obtain ⟨rfl, rfl⟩ := Kind.suffix_inj (List.append_cancel_left h)
        exact .inr ⟨m, k, .inr ⟨rfl, rfl⟩⟩
      | subData m' k' =>
        obtain ⟨h1, rfl⟩ := Kind.suffix_inj (List.append_cancel_left h)
        have := List.append_cancel_left h1
        subst this
        exact .inl rfl
    | running m =>
      cases b with
      | main | mod | ext => simp only [rest] at h; exact (nodot' (by decide) (congrArg List.tail h).symm).elim
      | sub m' k' | subData m' k' => simp [rest] at h
      | running m' =>
        have := (split_last (by decide) (by decide) (List.cons.inj h).2).1
        subst this; exact .inl rfl
      | candidate m' => exact absurd (split_last (by decide) (by decide) (List.cons.inj h).2).2 (by decide)
      | oper m' c s => exact absurd (split_last (by decide) (digits_dot _ _) (List.cons.inj h).2).2 (digits_ds _ _ _ (.inl rfl))
    | candidate m =>
      cases b with
      | main | mod | ext => simp only [rest] at h; exact (nodot' (by decide) (congrArg List.tail h).symm).elim
      | sub m' k' | subData m' k' => simp [rest] at h
      | running m' => exact absurd (split_last (by decide) (by decide) (List.cons.inj h).2).2 (by decide)
      | candidate m' =>
        have := (split_last (by decide) (by decide) (List.cons.inj h).2).1
        subst this; exact .inl rfl
      | oper m' c s => exact absurd (split_last (by decide) (digits_dot _ _) (List.cons.inj h).2).2 (digits_ds _ _ _ (.inr rfl))
    | oper m c s =>
      cases b with
      | main | mod | ext => simp only [rest] at h; exact (nodot' (by decide) (congrArg List.tail h).symm).elim
      | sub m' k' | subData m' k' => simp [rest] at h
      | running m' => exact absurd (split_last (digits_dot _ _) (by decide) (List.cons.inj h).2).2.symm (digits_ds _ _ _ (.inl rfl))
      | candidate m' => exact absurd (split_last (digits_dot _ _) (by decide) (List.cons.inj h).2).2.symm (digits_ds _ _ _ (.inr rfl))
      | oper m' c' s' =>
        obtain ⟨h1, h2⟩ := split_last (digits_dot _ _) (digits_dot _ _) (List.cons.inj h).2
        obtain ⟨rfl, rfl⟩ := digits_inj h2
        have := List.append_cancel_right h1
        subst this; exact .inl rfl
  · rintro (rfl | ⟨m, k, ⟨rfl, rfl⟩ | ⟨rfl, rfl⟩⟩)
    · rfl
    · simp [shmName, List.append_assoc]
    · simp [shmName, List.append_assoc]

example : shmName "sr".toList (.oper "m".toList 12 345) = "sr_m.operational.12-345".toList ∧
    shmName "sr".toList (.sub "m".toList (.rpc 0x0ab)) = "srsub_m.rpc.000000ab".toList := by decide +kernel

/-- C67 is false: with the modules `x` and `data_x`, the segment with the events of changes of `data_x` is the segment with the data of the
events of `x`, so only one of them can be subscribed. -/
theorem data_module_clash : shmName "sr".toList (.sub "data_x".toList (.change .running)) = shmName "sr".toList (.subData "x".toList (.change .running)) ∧
    (create "sr".toList "x".toList (.change .running) []).isSome = true ∧
    (create "sr".toList "x".toList (.change .running) []).bind (create "sr".toList "data_x".toList (.change .running)) = none ∧
    (create "sr".toList "data_x".toList (.change .running) []).isSome = true := by decide +kernel

/-- C67: two instances share a name only if the prefix of one is a prefix of the prefix of the other. -/
theorem prefixes_partial {p q : Str} {a b : File} (h : shmName p a = shmName q b) : p <+: q ∨ q <+: p := by
  rw [shmName_rest, shmName_rest] at h
  have h1 : p <+: q ++ rest b := ⟨rest a, h⟩
  exact List.prefix_or_prefix_of_prefix h1 (List.prefix_append _ _)

/-- C67 is false for two instances: with the prefixes `sr` and `sr_test`, the running data of the module `test_m` of the first one are the
running data of the module `m` of the second one; and with the prefixes `sr` and `srsub`, the events of the module `m` of the first one
are the running data of the module `m` of the second one. -/
theorem prefixes_clash : shmName "sr".toList (.running "test_m".toList) = shmName "sr_test".toList (.running "m".toList) ∧
    shmName "sr".toList (.sub "m".toList (.change .running)) = shmName "srsub".toList (.running "m".toList) := by decide +kernel

/-! ## Names of the files with data -/

/-- C67: two files in the directory with data have the same name only if they are the same. -/
theorem data_names (a b : DataFile) : dataName a = dataName b ↔ a = b := by
  constructor
  · intro h
    have n (m : Str) (t : Str) : m ++ ['.'] ++ t = m ++ '.' :: t := by simp
    have n2 (m : Str) (t u : Str) : m ++ ['.'] ++ t ++ '.' :: u = (m ++ '.' :: t) ++ '.' :: u := by simp
    have e1 : ".perm".toList = '.' :: "perm".toList := rfl
    have e2 : ".bck".toList = '.' :: "bck".toList := rfl
    cases a <;> cases b <;> simp only [dataName, e1, e2, n2] at h <;> (try simp only [n] at h)
    case startup.startup | factory.factory =>
      have := (split_last (by decide) (by decide) h).1; subst this; rfl
    case backup.backup =>
      have := (split_last (by decide) (by decide) (split_last (by decide) (by decide) h).1).1; subst this; rfl
    case perm.perm m d m' d' =>
      have h := (split_last (by decide) (by decide) h).1
      obtain ⟨h1, h2⟩ := split_last (Ds.str_dot _) (Ds.str_dot _) h
      subst h1
      cases d <;> cases d' <;> first | rfl | exact absurd (Ds.str_inj h2) (by decide)
    all_goals exact absurd (split_last (by decide) (by decide) h).2 (by decide)
  · rintro rfl; rfl

/-! ## Operational data of a module -/

/-- C67: among all the segments of the instance, those found as the operational data of `m` are these data, and data of modules whose name
begins with `m.operational` (`other_module_found`). -/
theorem oper_files_partial (p m : Str) (f : File) :
    operFiles p m [shmName p f] = [shmName p f] ↔
      (∃ c s, f = .oper m c s) ∨
      ∃ m', (f = .running m' ∨ f = .candidate m' ∨ ∃ c s, f = .oper m' c s) ∧ (m ++ ".operational.".toList) <+: (m' ++ ['.']) := by
  have key : operFiles p m [shmName p f] = [shmName p f] ↔ ('_' :: (m ++ ".operational.".toList)) <+: rest f := by
    rw [shmName_rest]
    simp only [operFiles, List.filter_cons, List.filter_nil]
    have : (p ++ ['_'] ++ m ++ ".operational.".toList).isPrefixOf (p ++ rest f) = true ↔ ('_' :: (m ++ ".operational.".toList)) <+: rest f := by
      rw [List.isPrefixOf_iff_prefix, List.append_assoc, List.append_assoc, List.prefix_append_right_inj]
      rfl
    split
    · rename_i h; simp only [true_iff]; exact this.mp h
    · rename_i h; simp only [List.nil_eq, reduceCtorEq, false_iff]; exact fun e => h (this.mpr e)
  rw [key]
  have main (s : Str) (hs : '.' ∉ s) : ¬ (m ++ ".operational.".toList) <+: s := by
    rintro ⟨t, rfl⟩; exact hs (by simp)
  -- data of a module: the last dot of the name is not before the end of the prefix
  have data (m' t : Str) (ht : '.' ∉ t) : (m ++ ".operational.".toList) <+: (m' ++ '.' :: t) ↔ (m ++ ".operational.".toList) <+: (m' ++ ['.']) := by
    constructor
    · intro h
      have h2 : (m' ++ ['.']) <+: (m' ++ '.' :: t) := ⟨t, by simp⟩
      rcases List.prefix_or_prefix_of_prefix h h2 with h3 | h3
      · exact h3
      · obtain ⟨u, hu⟩ := h3
        obtain ⟨v, hv⟩ := h
        rw [← hu] at hv
        have : u ++ v = t := by simpa using hv
        cases u.eq_nil_or_concat with
        | inl e => subst e; simp at hu; rw [hu]; exact List.prefix_refl _
        | inr e =>
          obtain ⟨u', c, rfl⟩ := e
          have hc : c = '.' := by
            have e1 : m ++ ".operational.".toList = (m ++ ".operational".toList) ++ ['.'] := by simp
            rw [e1, List.concat_eq_append, ← List.append_assoc] at hu
            have := (List.append_inj' hu rfl).2
            simpa using this
          subst hc
          exact absurd (by rw [← this]; simp) ht
    · exact fun h => h.trans ⟨t, by simp⟩
  cases f with
  | main => exact iff_of_false (fun h => main _ (by decide) (List.cons_prefix_cons.mp h).2) (by simp)
  | mod => exact iff_of_false (fun h => main _ (by decide) (List.cons_prefix_cons.mp h).2) (by simp)
  | ext => exact iff_of_false (fun h => main _ (by decide) (List.cons_prefix_cons.mp h).2) (by simp)
  | sub m' k => exact iff_of_false (fun h => absurd (List.cons_prefix_cons.mp h).1 (by decide)) (by simp)
  | subData m' k => exact iff_of_false (fun h => absurd (List.cons_prefix_cons.mp h).1 (by decide)) (by simp)
  | running m' =>
    simp only [rest, List.cons_prefix_cons, true_and, data _ _ (Ds.str_dot _)]
    simp
  | candidate m' =>
    simp only [rest, List.cons_prefix_cons, true_and, data _ _ (Ds.str_dot _)]
    simp
  | oper m' c s =>
    simp only [rest, List.cons_prefix_cons, true_and, data _ _ (digits_dot _ _)]
    have e : m' ++ ".operational".toList ++ ['.'] = m' ++ ".operational.".toList := by simp
    rw [e]
    constructor
    · intro h
      have h2 : (m' ++ ['.']) <+: (m' ++ ".operational.".toList) := ⟨"operational.".toList, by simp⟩
      rcases List.prefix_or_prefix_of_prefix h h2 with h3 | h3
      · exact .inr ⟨m', by simp, h3⟩
      · have hl := h3.length_le
        have hm : m <+: m' := by
          have g1 : m <+: m ++ ".operational.".toList := List.prefix_append _ _
          have g2 : m' <+: m ++ ".operational.".toList := (List.prefix_append _ _).trans h3
          have hle := h.length_le
          simp only [List.length_append] at hle
          exact List.prefix_of_prefix_length_le g1 g2 (by omega)
        obtain ⟨d, rfl⟩ := hm
        rw [List.append_assoc, List.prefix_append_right_inj] at h3
        have hd : d <+: ".operational.".toList := (List.prefix_append _ _).trans h3
        have ht := List.prefix_iff_eq_take.mp hd
        have hn : d.length < 13 := by have := h3.length_le; simp at this; omega
        have all : ∀ n, n < 13 → (".operational.".toList.take n ++ ['.']) <+: ".operational.".toList → n = 0 ∨ n = 12 := by decide
        have := all d.length hn (by rw [← ht]; exact h3)
        rcases this with h0 | h0
        · left
          have : d = [] := List.length_eq_zero_iff.mp h0
          subst this
          exact ⟨c, s, by simp⟩
        · right
          rw [h0] at ht
          refine ⟨m ++ d, .inr (.inr ⟨c, s, rfl⟩), ?_⟩
          rw [ht]
          exact ⟨[], by simp⟩
    · rintro (⟨c', s', e⟩ | ⟨m'', h1, h2⟩)
      · cases e; exact List.prefix_refl _
      · simp at h1; subst h1; exact h2.trans ⟨"operational.".toList, by simp⟩

/-- C67 is false: the running data of a module called `m.operational` are found as operational data of the module `m`, so setting the
permissions of operational data of `m` sets the permissions of the running data of the other module (ds_json.c 698–704). -/
theorem other_module_found : operFiles "sr".toList "m".toList [shmName "sr".toList (.oper "m".toList 3 4), shmName "sr".toList (.running "m.operational".toList),
      shmName "sr".toList (.running "m".toList)] = ["sr_m.operational.3-4".toList, "sr_m.operational.running".toList] := by decide +kernel

/-! ## The hash -/

theorem xor_shift_inj (k : Nat) (hk : 0 < k) {x y : BitVec 32} (h : x ^^^ (x >>> k) = y ^^^ (y >>> k)) : x = y := by
  have bit (i : Nat) : (x.getLsbD i ^^ x.getLsbD (k + i)) = (y.getLsbD i ^^ y.getLsbD (k + i)) := by
    have := congrArg (fun z => z.getLsbD i) h
    simpa using this
  have down : ∀ n i, 32 ≤ i + n → x.getLsbD i = y.getLsbD i := by
    intro n
    induction n with
    | zero =>
      intro i hi
      rw [BitVec.getLsbD_of_ge x i (by omega), BitVec.getLsbD_of_ge y i (by omega)]
    | succ n ih =>
      intro i hi
      have h1 := bit i
      rw [ih (k + i) (by omega)] at h1
      exact (Bool.xor_left_inj).mp h1
  exact BitVec.eq_of_getLsbD_eq fun i hi => down 32 i (by omega)

theorem add_shift_inj (k : Nat) (hk : k = 3 ∨ k = 10 ∨ k = 15) {x y : BitVec 32} (h : x + (x <<< k) = y + (y <<< k)) : x = y := by
  have e (z : BitVec 32) : z + (z <<< k) = z * (1#32 + BitVec.twoPow 32 k) := by
    rw [BitVec.mul_add, BitVec.mul_one, BitVec.shiftLeft_eq_mul_twoPow]
  rw [e, e] at h
  have inv : ∃ c : BitVec 32, (1#32 + BitVec.twoPow 32 k) * c = 1#32 := by
    rcases hk with rfl | rfl | rfl
    · exact ⟨0x38e38e39#32, by decide +kernel⟩
    · exact ⟨0xc00ffc01#32, by decide +kernel⟩
    · exact ⟨0x3fff8001#32, by decide +kernel⟩
  obtain ⟨c, hc⟩ := inv
  have := congrArg (· * c) h
  simpa only [BitVec.mul_assoc, hc, BitVec.mul_one] using this

theorem mix_inj {g h c : BitVec 32} (e : mix g c = mix h c) : g = h := by
  have h1 := add_shift_inj 10 (by decide) (xor_shift_inj 6 (by decide) e)
  exact (BitVec.add_left_inj c).mp h1

theorem mix_inj_right {h c d : BitVec 32} (e : mix h c = mix h d) : c = d := by
  have h1 := add_shift_inj 10 (by decide) (xor_shift_inj 6 (by decide) e)
  exact (BitVec.add_right_inj h).mp h1

theorem finish_inj {g h : BitVec 32} (e : finish g = finish h) : g = h :=
  add_shift_inj 3 (by decide) (xor_shift_inj 11 (by decide) (add_shift_inj 15 (by decide) e))

/-- The hash of a path as a fold. -/
def absorb (h : BitVec 32) (s : List (BitVec 8)) : BitVec 32 := s.foldl (fun h c => mix h (c.signExtend 32)) h

theorem absorb_inj {s : List (BitVec 8)} : ∀ {g h : BitVec 32}, absorb g s = absorb h s → g = h := by
  induction s with
  | nil => exact fun e => e
  | cons c s ih => exact fun e => mix_inj (ih e)

theorem signExtend_inj {a b : BitVec 8} (h : a.signExtend 32 = b.signExtend 32) : a = b := by
  apply BitVec.eq_of_getLsbD_eq
  intro i hi
  have := congrArg (fun z : BitVec 32 => z.getLsbD i) h
  simp only [BitVec.getLsbD_signExtend, hi, if_true, Nat.lt_of_lt_of_le hi (by decide : 8 ≤ 32), decide_true, Bool.true_and] at this
  exact this

theorem setWidth_inj {a b : BitVec 8} (h : a.setWidth 32 = b.setWidth 32) : a = b := by
  have := congrArg (fun z : BitVec 32 => z.setWidth 8) h
  simpa using this

/-- C67: paths that differ in one character (for example `/m:set-a` and `/m:set-b`) always have different segments. -/
theorem hash_one_char (u v : List (BitVec 8)) (a b : BitVec 8) (p : BitVec 32) :
    strHash (u ++ a :: v) p = strHash (u ++ b :: v) p ↔ a = b := by
  constructor
  · intro h
    have h1 := finish_inj h
    have h2 := mix_inj (mix_inj (mix_inj (mix_inj h1)))
    rw [List.foldl_append, List.foldl_append] at h2
    exact signExtend_inj (mix_inj_right (absorb_inj (s := v) h2))
  · rintro rfl; rfl

example : strHash (bytes "/m:set-a".toList) 0 = 0x69313604 := by decide +kernel

/-- C67: providers of one operational path, whose priorities are 1, 2, … (C28), always have different segments if they are less than 256. -/
theorem hash_prio (s : List (BitVec 8)) (p q : BitVec 32) (hp : p.toNat < 256) (hq : q.toNat < 256) : strHash s p = strHash s q ↔ p = q := by
  constructor
  · intro h
    have z (r : BitVec 32) (hr : r.toNat < 256) : bytesOf r = [r.extractLsb' 0 8, 0, 0, 0] := by
      have e (k : Nat) (hk : 8 ≤ k) : r.extractLsb' k 8 = 0 := by
        apply BitVec.eq_of_toNat_eq
        rw [BitVec.extractLsb'_toNat, Nat.shiftRight_eq_div_pow]
        have : r.toNat / 2 ^ k = 0 := Nat.div_eq_of_lt (Nat.lt_of_lt_of_le hr (by have := Nat.pow_le_pow_right (n := 2) (by decide) hk; simpa using this))
        simp [this]
      simp [bytesOf, e]
    have h1 := finish_inj h
    rw [z p hp, z q hq] at h1
    have h2 := mix_inj_right (mix_inj (mix_inj (mix_inj h1)))
    have h3 := congrArg BitVec.toNat (setWidth_inj h2)
    simp only [BitVec.extractLsb'_toNat, Nat.shiftRight_zero] at h3
    apply BitVec.eq_of_toNat_eq
    omega
  · rintro rfl; rfl

/-- The RPCs used in the witness. -/
def rpcA : Kind := .rpc (strHash (bytes "/ex:add-router-stats".toList) 0)
def rpcB : Kind := .rpc (strHash (bytes "/ex:test-switch-status-later".toList) 0)

/-- C67 is false: the RPCs `/ex:add-router-stats` and `/ex:test-switch-status-later` have the same segment. As long as the first one has a
subscriber the second one cannot be subscribed; the subscription that failed stays registered (`SubTables.failed_create_unserved`), and
when it is removed with its connection, the segment of the first one is removed. -/
theorem paths_collide : strHash (bytes "/ex:add-router-stats".toList) 0 = strHash (bytes "/ex:test-switch-status-later".toList) 0 ∧
    (create "sr".toList "ex".toList rpcA []).isSome = true ∧
    (create "sr".toList "ex".toList rpcA []).bind (create "sr".toList "ex".toList rpcB) = none ∧
    (create "sr".toList "ex".toList rpcA []).map (unlinkBoth "sr".toList "ex".toList rpcB) = some [] := by decide +kernel

/-! ## Creating segments -/

/-- C67: for modules whose names do not begin with `data_` and different subscriptions (module and kind), creating the segments of one of
them does not prevent creating those of the other, and removing them does not remove those of the other. -/
theorem segments_independent_partial (p m n : Str) (k l : Kind) (dir d1 : List Str) (hm : ¬ "data_".toList <+: m) (hn : ¬ "data_".toList <+: n)
    (hne : ¬ (m = n ∧ k = l)) (h1 : create p m k dir = some d1) :
    ((create p n l d1).isSome = (create p n l dir).isSome) ∧
    ∀ f, (f = shmName p (.sub m k) ∨ f = shmName p (.subData m k)) → f ∈ unlinkBoth p n l d1 := by
  have c (a b : File) := shm_names_partial p a b
  have nd (x y : Str) (h : x = "data_".toList ++ y) : "data_".toList <+: x := ⟨y, h.symm⟩
  have e1 : shmName p (.sub m k) ≠ shmName p (.sub n l) := fun h => by
    rcases (c _ _).mp h with h | ⟨_, _, ⟨_, h⟩ | ⟨h, _⟩⟩
    · cases h; exact hne ⟨rfl, rfl⟩
    · cases h
    · cases h
  have e2 : shmName p (.subData m k) ≠ shmName p (.subData n l) := fun h => by
    rcases (c _ _).mp h with h | ⟨_, _, ⟨h, _⟩ | ⟨_, h⟩⟩
    · cases h; exact hne ⟨rfl, rfl⟩
    · cases h
    · cases h
  have e3 : shmName p (.sub m k) ≠ shmName p (.subData n l) := fun h => by
    rcases (c _ _).mp h with h | ⟨_, _, ⟨h, _⟩ | ⟨h, _⟩⟩
    · cases h
    · cases h; exact hm (nd _ _ rfl)
    · cases h
  have e4 : shmName p (.subData m k) ≠ shmName p (.sub n l) := fun h => by
    rcases (c _ _).mp h with h | ⟨_, _, ⟨h, _⟩ | ⟨_, h⟩⟩
    · cases h
    · cases h
    · cases h; exact hn (nd _ _ rfl)
  unfold create at h1
  split at h1
  · cases h1
  split at h1
  · cases h1
  cases h1
  constructor
  · unfold create
    simp only [List.mem_cons, Ne.symm e1, Ne.symm e2, Ne.symm e3, Ne.symm e4, false_or]
    split
    · rfl
    · split <;> rfl
  · intro f hf
    simp only [unlinkBoth, List.mem_filter, List.mem_cons, Bool.and_eq_true, bne_iff_ne, ne_eq]
    rcases hf with rfl | rfl
    · exact ⟨.inr (.inl rfl), e1, e3⟩
    · exact ⟨.inl rfl, e4, e2⟩

example : ∃ d, create "sr".toList "m".toList (.change .running) [] = some d ∧ (create "sr".toList "m".toList .notif d).isSome = true := by decide +kernel

end Verif.Names
