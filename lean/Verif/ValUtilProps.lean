import Verif.ValUtil
import Verif.ValuesLemmas
/-!
# Properties of the functions on values (C106, C107)
-/
namespace Verif.ValUtil

@[simp] theorem bind_ok {α β : Type} (a : α) (f : α → Res β) : (Res.ok a).bind f = f a := rfl

theorem cmpStr_iff {a b : Option Values.Str} : cmpStr a b = true ↔ a = b := by
  cases a <;> cases b <;> simp [cmpStr]

theorem cmpStr_false {a b : Option Values.Str} : cmpStr a b = false ↔ a ≠ b := by
  rw [← Bool.not_eq_true, cmpStr_iff]

theorem width_bool : T.width .bool = 32 := rfl
theorem width_i8 : T.width .i8 = 8 := rfl
theorem width_i16 : T.width .i16 = 16 := rfl
theorem width_i32 : T.width .i32 = 32 := rfl
theorem width_i64 : T.width .i64 = 64 := rfl
theorem width_u8 : T.width .u8 = 8 := rfl
theorem width_u16 : T.width .u16 = 16 := rfl
theorem width_u32 : T.width .u32 = 32 := rfl
theorem width_u64 : T.width .u64 = 64 := rfl

theorem equalData_iff {t : T} {a b : Raw} (ha : DataOk t a) (hb : DataOk t b) :
    ∃ r, equalData t a b = .ok r ∧ (r = true ↔ meaning t a = meaning t b) := by
  cases t <;> simp only [DataOk] at ha hb <;>
    first
    | (obtain ⟨p, rfl, -⟩ := ha; obtain ⟨q, rfl, -⟩ := hb
       refine ⟨_, rfl, ?_⟩
       simp [meaning, cmpStr_iff]; done)
    | (obtain ⟨p, rfl⟩ := ha; obtain ⟨q, rfl⟩ := hb
       refine ⟨_, rfl, ?_⟩
       rw [decide_eq_true_iff]
       simp [meaning, width_bool, width_i8, width_i16, width_i32, width_i64, width_u8, width_u16, width_u32, width_u64])
    | (refine ⟨true, rfl, ?_⟩
       cases a <;> cases b <;> simp [meaning])

/-- **C106** (comparison). `sr_equal_val()` says whether two values look the same: path, origin,
    default flag, type and data. -/
theorem equal_iff {a b : Val} (ha : Ok a) (hb : Ok b) : ∃ r, equalVal a b = .ok r ∧ (r = true ↔ view a = view b) := by
  obtain ⟨-, -, ha⟩ := ha
  obtain ⟨-, -, hb⟩ := hb
  unfold equalVal
  split
  · rename_i h
    refine ⟨false, rfl, ?_⟩
    simp only [cmpStr_false] at h
    simp only [view, Prod.mk.injEq, Bool.false_eq_true, false_iff]
    rintro ⟨h1, h2, h3, h4, -⟩
    simp [h1, h2, h3, h4] at h
  · rename_i h
    simp only [cmpStr_false, not_or, ne_eq, Classical.not_not] at h
    obtain ⟨h1, h2, h3, h4⟩ := h
    rw [← h1] at hb
    obtain ⟨r, e1, e2⟩ := equalData_iff ha hb
    refine ⟨r, e1, ?_⟩
    rw [e2]
    simp only [view, h2, h3, h4, Prod.mk.injEq, true_and]
    rw [h1]; simp

example : ∃ r, equalVal { type := .u8, data := .word 7 } { type := .u8, data := .word 263 } = .ok r ∧ r = true := ⟨_, rfl, by decide⟩

/-- Setting a string never writes behind the memory of the old one, and the result is the string. -/
theorem editString_ok {p : Option Buf} (hp : BufOk p) (n : Values.Str) :
    ∃ b, editString p (some n) = .ok (some b) ∧ b.s = n ∧ BufOk (some b) := by
  unfold editString
  cases p with
  | none => exact ⟨_, rfl, rfl, by intro b h; cases h; simp [strdup]⟩
  | some b =>
    have hb := hp b rfl
    dsimp only
    split
    · rw [if_pos (by omega)]
      refine ⟨_, rfl, rfl, ?_⟩
      intro b' h; cases h; dsimp only; omega
    · exact ⟨_, rfl, rfl, by intro b h; cases h; simp [strdup]⟩

/-- **C106** (setting a string). `sr_val_set_str_data()` on a value that is new or holds a string
    gives the value that string and type, in memory of sufficient size, and changes nothing else.
    Missing: values that hold a number. -/
theorem set_string_partial {v : Val} {t : T} {p : Option Buf} (ht : t.isStr = true) (hv : v.data = .ptr p) (hp : BufOk p) (s : Values.Str) :
    ∃ w b, setStrData v t (some s) = .ok w ∧ w = { v with type := t, data := .ptr (some b) } ∧ b.s = s ∧ BufOk (some b) := by
  obtain ⟨b, h1, h2, h3⟩ := editString_ok hp s
  refine ⟨_, b, ?_, rfl, h2, h3⟩
  simp [setStrData, ht, hv, asPtr, h1]

example : ∃ w b, setStrData { type := .string, data := .ptr (some ⟨4, "abc".toList⟩) } .enum (some "x".toList) = .ok w ∧
    w = { type := .enum, data := .ptr (some b) } ∧ b.s = "x".toList ∧ BufOk (some b) :=
  set_string_partial rfl rfl (by intro b h; cases h; decide) _

/-- **C106 violated** (setting a string over a number). If the value held a number other than zero,
    the number is used as the address of a string: for every such value. -/
theorem set_string_over_number {v : Val} {t : T} {w : Nat} (ht : t.isStr = true) (hv : v.data = .word w) (hw : w ≠ 0) (s : Option Values.Str) :
    setStrData v t s = .badPtr := by
  simp [setStrData, ht, hv, asPtr, hw, Res.bind]

example : setStrData { type := .u8, data := .word 5 } .string (some "x".toList) = .badPtr := set_string_over_number rfl rfl (by decide) _

/-- The copy of the data of a value, to a new one. -/
theorem dupData_new {d v : Val} (hd : d.data = .ptr none) (hv : Ok v) (ha : v.type ≠ .anyxml ∧ v.type ≠ .anydata) :
    ∃ w, dupData d v = .ok w ∧ w.xpath = d.xpath ∧ w.origin = d.origin ∧ w.dflt = v.dflt ∧ w.type = v.type ∧
      meaning w.type w.data = meaning v.type v.data ∧ DataOk w.type w.data := by
  obtain ⟨-, -, hv⟩ := hv
  obtain ⟨vx, vo, vd, vt, vdata⟩ := v
  dsimp only at hv ha ⊢
  by_cases hs : vt.isStr = true
  · have : ∃ b, vdata = .ptr (some b) ∧ BufOk (some b) := by cases vt <;> first | exact hv | simp [T.isStr] at hs
    obtain ⟨b, rfl, -⟩ := this
    obtain ⟨w, b', h1, hw, h3, h4⟩ := set_string_partial (v := { d with dflt := vd }) (t := vt) (p := none) hs hd (by intro b h; cases h) b.s
    subst hw
    refine ⟨{ d with dflt := vd, type := vt, data := .ptr (some b') }, ?_, rfl, rfl, rfl, rfl, ?_, ?_⟩
    · simp only [dupData, hs, if_true, asPtr, bind_ok, Option.map_some]; exact h1
    · cases vt <;> first | simp [meaning, h3] | simp [T.isStr] at hs
    · cases vt <;> first | exact ⟨b', rfl, h4⟩ | simp [T.isStr] at hs
  · by_cases hn : vt.isNum = true
    · exact ⟨{ d with dflt := vd, data := vdata, type := vt }, by simp [dupData, hs, hn], rfl, rfl, rfl, rfl, rfl, hv⟩
    · refine ⟨{ d with dflt := vd, type := vt }, by simp [dupData, hs, hn], rfl, rfl, rfl, rfl, ?_, ?_⟩
      · dsimp only
        cases vt <;> simp [T.isStr, T.isNum] at hs hn ha <;> cases vdata <;> simp [meaning]
      · dsimp only
        cases vt <;> simp [T.isStr, T.isNum] at hs hn ha <;> trivial

/-- **C106** (copies), for values without origin that are no anyxml or anydata. `sr_dup_val()` gives
    a value that looks the same, and `sr_equal_val()` says so. -/
theorem dup_equal_partial {v : Val} (hv : Ok v) (ho : v.origin = none) (ha : v.type ≠ .anyxml ∧ v.type ≠ .anydata) :
    ∃ d, dupVal v = .ok d ∧ view d = view v ∧ Ok d ∧ equalVal v d = .ok true := by
  have key : ∃ d, dupVal v = .ok d ∧ view d = view v ∧ Ok d := by
    unfold dupVal
    cases hx : v.xpath with
    | none =>
      obtain ⟨w, h1, h2, h3, h4, h5, h6, h7⟩ := dupData_new (d := {}) rfl hv ha
      exact ⟨w, h1, by rw [view, view, h2, h3, h4, h6, h5, hx, ho], (by rw [h2]; intro b h; cases h), (by rw [h3]; intro b h; cases h), h7⟩
    | some b =>
      obtain ⟨c, e1, e2, e3⟩ := editString_ok (p := none) (by intro b h; cases h) b.s
      have hs : setXpath {} (some b.s) = .ok { xpath := some c } := by simp [setXpath, e1]
      obtain ⟨w, h1, h2, h3, h4, h5, h6, h7⟩ := dupData_new (d := { xpath := some c }) rfl hv ha
      exact ⟨w, by simp only [hs, bind_ok]; exact h1, by rw [view, view, h2, h3, h4, h6, h5, hx, ho]; simp [e2], (by rw [h2]; exact e3), (by rw [h3]; intro b h; cases h), h7⟩
  obtain ⟨d, h1, h2, h3⟩ := key
  obtain ⟨r, e1, e2⟩ := equal_iff hv h3
  refine ⟨d, h1, h2, h3, ?_⟩
  rw [e1, e2.2 h2.symm]

/-- A list key. -/
def sample : Val := { xpath := some (strdup "/m:l".toList), type := .string, data := .ptr (some (strdup "k".toList)), dflt := true }

theorem sample_ok : Ok sample := by
  refine ⟨?_, ?_, _, rfl, ?_⟩ <;> intro b h <;> cases h <;> simp [strdup]

example : ∃ d, dupVal sample = .ok d ∧ view d = view sample ∧ Ok d ∧ equalVal sample d = .ok true :=
  dup_equal_partial sample_ok rfl ⟨by decide, by decide⟩

/-- **C106** (copies of arrays). `sr_dup_values()` copies such values with paths one by one. -/
theorem dup_values_partial {vs : List Val} (h : ∀ v ∈ vs, Ok v ∧ v.origin = none ∧ v.type ≠ .anyxml ∧ v.type ≠ .anydata ∧ v.xpath ≠ none) :
    ∃ ds, dupValues vs = .ok ds ∧ ds.map view = vs.map view := by
  induction vs with
  | nil => exact ⟨[], rfl, rfl⟩
  | cons v vs ih =>
    obtain ⟨ds, i1, i2⟩ := ih (fun v hv => h v (by simp [hv]))
    obtain ⟨a1, a2, a3, a4, a5⟩ := h v (by simp)
    cases hx : v.xpath with
    | none => exact absurd hx a5
    | some b =>
      obtain ⟨c, e1, e2, e3⟩ := editString_ok (p := none) (by intro b h; cases h) b.s
      obtain ⟨w, h1, h2, h3, h4, h5, h6, -⟩ := dupData_new (d := { xpath := some c }) rfl a1 ⟨a3, a4⟩
      refine ⟨w :: ds, ?_, ?_⟩
      · simp only [dupValues, hx, setXpath, Option.map_some, e1, bind_ok, h1, i1]
      · rw [List.map_cons, List.map_cons, i2, view, view, h2, h3, h4, h6, h5, hx, a2]; simp [e2]

example : ∃ ds, dupValues [sample, sample] = .ok ds ∧ ds.map view = [sample, sample].map view :=
  dup_values_partial (by
    intro v hv
    have : v = sample := by simpa using hv
    subst this; exact ⟨sample_ok, rfl, by decide, by decide, by decide⟩)

/-- **C106 violated** (origin). The copy of a value with an origin, as `sr_get_items()` of the
    operational datastore returns them, has none and is not equal to it: for every such value. -/
theorem dup_loses_origin {v : Val} (ho : v.origin ≠ none) {d : Val} (h : dupVal v = .ok d) : d.origin = none ∧ equalVal v d = .ok false := by
  have h1 : ∀ a s t w, setStrData a s t = .ok w → w.origin = a.origin := by
    intro a s t w h
    unfold setStrData at h
    split at h
    · cases hp : asPtr a.data <;> simp [hp, Res.bind] at h
      rename_i p
      cases he : editString p t <;> simp [he] at h
      rw [← h]
    · cases h
  have h2 : ∀ a w, dupData a v = .ok w → w.origin = a.origin := by
    intro a w h
    unfold dupData at h
    dsimp only at h
    split at h
    · cases hp : asPtr v.data <;> simp [hp, Res.bind] at h
      exact h1 { a with dflt := v.dflt } _ _ _ h
    · split at h <;> cases h <;> rfl
  have h3 : d.origin = none := by
    unfold dupVal at h
    split at h
    · rename_i b hb
      have : setXpath {} (some b.s) = .ok { xpath := some (strdup b.s) } := rfl
      rw [this, bind_ok] at h
      exact h2 _ _ h
    · exact h2 _ _ h
  refine ⟨h3, ?_⟩
  unfold equalVal
  rw [if_pos]
  right; left
  rw [h3, cmpStr_false]
  cases hv : v.origin with
  | none => exact absurd hv ho
  | some b => simp

example : ∃ d, dupVal { sample with origin := some (strdup "intended".toList) } = .ok d ∧ d.origin = none := ⟨_, rfl, rfl⟩

/-- **C106 violated** (anydata). The copy of an anyxml or anydata value has no content. -/
theorem dup_loses_any {v : Val} (ha : v.type = .anyxml ∨ v.type = .anydata) :
    ∃ d, dupVal v = .ok d ∧ d.type = v.type ∧ d.data = .ptr none := by
  have : ∀ d : Val, d.data = .ptr none → ∃ w, dupData d v = .ok w ∧ w.type = v.type ∧ w.data = .ptr none := by
    intro d hd
    refine ⟨{ d with dflt := v.dflt, type := v.type }, ?_, rfl, hd⟩
    unfold dupData
    rcases ha with h | h <;> simp [h, T.isStr, T.isNum]
  unfold dupVal
  split
  · rename_i b hb
    have e : setXpath {} (some b.s) = .ok { xpath := some (strdup b.s) } := rfl
    rw [e, bind_ok]; exact this _ rfl
  · exact this _ rfl

/-- **C106 violated** (values without a path). A value without a path is copied by `sr_dup_val()`,
    but an array that begins with it by `sr_dup_values()` with the address 0 taken for a string. -/
theorem dup_values_no_path {v : Val} (h : v.xpath = none) (vs : List Val) : dupValues (v :: vs) = .badPtr := by
  simp [dupValues, h, setXpath, editString, Res.bind]

/-! ## Printing -/

theorem print_ok {m : Mem} (h : m.s.length = m.len) (p : Values.Str) :
    ∃ m', print m p = .ok m' ∧ m'.s = m.s ++ p ∧ m'.s.length = m'.len ∧ m'.len + 1 ≤ m'.size := by
  unfold print
  dsimp only
  have ht : List.take m.len m.s = m.s := by rw [← h]; exact List.take_length
  have hz : m.len + p.length + 1 ≤ (if m.size < m.len + p.length + 1 then max (2 * m.size) (m.len + p.length + 1) else m.size) := by
    split
    · exact Nat.le_max_right _ _
    · omega
  rw [if_pos hz, ht]
  exact ⟨_, rfl, rfl, by simp [h], hz⟩

/-- Printing to memory: whatever is printed is there, one after another, within the memory. -/
theorem printAll_ok {m : Mem} (h : m.s.length = m.len) (ps : List Values.Str) :
    ∃ m', printAll m ps = .ok m' ∧ m'.s = m.s ++ ps.flatten ∧ m'.s.length = m'.len ∧ (ps ≠ [] → m'.len + 1 ≤ m'.size) := by
  induction ps generalizing m with
  | nil => exact ⟨m, rfl, by simp, h, by simp⟩
  | cons p ps ih =>
    obtain ⟨m1, h1, h2, h3, h4⟩ := print_ok h p
    obtain ⟨m2, e1, e2, e3, e4⟩ := ih h3
    refine ⟨m2, by simp [printAll, h1, e1], by simp [e2, h2], e3, fun _ => ?_⟩
    cases ps with
    | nil => simp [printAll] at e1; subst e1; exact h4
    | cons q qs => exact e4 (by simp)

/-- A text of a value that is no number or text. -/
def named : T → Option Values.Str
  | .container | .presence => some "(container)".toList
  | .list => some "(list instance)".toList
  | .emptyLeaf => some "(empty leaf)".toList
  | .unknown | .notification | .anyxml | .anydata => some "(unprintable)".toList
  | _ => none

theorem toStr_ok {v : Val} (hv : Ok v) : ∃ s, toStr v = .ok s := by
  obtain ⟨-, -, hv⟩ := hv
  unfold toStr
  obtain ⟨vx, vo, vd, vt, vdata⟩ := v
  cases vt <;> simp only [DataOk] at hv ⊢ <;>
    first
    | (obtain ⟨b, rfl, -⟩ := hv; exact ⟨_, rfl⟩)
    | (obtain ⟨x, rfl⟩ := hv; exact ⟨_, rfl⟩)
    | exact ⟨_, rfl⟩

/-- **C107** (printing). `sr_print_val_mem()` prints the path, the value and the default flag of any
    value, completely and without writing behind its buffer. -/
theorem print_val {v : Val} (hv : Ok v) : ∃ s mid tail, toStr v = .ok s ∧ printVal v = .ok (percentS (v.xpath.map (·.s)) ++ [' '] ++ mid ++ tail) ∧
    mid = (match named v.type with | some n => n | none => "= ".toList ++ percentS s) ∧
    (tail = ['\n'] ∨ v.dflt = true ∧ tail = " [default]\n".toList) := by
  obtain ⟨s, hs⟩ := toStr_ok hv
  have key : ∃ mid tail, pieces v = .ok [percentS (v.xpath.map (·.s)) ++ [' '], mid, tail] ∧
      mid = (match named v.type with | some n => n | none => "= ".toList ++ percentS s) ∧
      (tail = ['\n'] ∨ v.dflt = true ∧ tail = " [default]\n".toList) := by
    have hd : ((if v.dflt then " [default]".toList else []) ++ ['\n'] : Values.Str) = ['\n'] ∨
        v.dflt = true ∧ ((if v.dflt then " [default]".toList else []) ++ ['\n'] : Values.Str) = " [default]\n".toList := by
      cases v.dflt
      · left; rfl
      · right; exact ⟨rfl, rfl⟩
    unfold pieces
    cases ht : v.type <;> simp only [named, hs, bind_ok] <;>
      first
      | exact ⟨_, _, rfl, rfl, .inl rfl⟩
      | exact ⟨_, _, rfl, rfl, hd⟩
  obtain ⟨mid, tail, h1, h2, h3⟩ := key
  obtain ⟨m, e1, e2, -, -⟩ := printAll_ok (m := {}) rfl [percentS (v.xpath.map (·.s)) ++ [' '], mid, tail]
  refine ⟨s, mid, tail, hs, ?_, h2, h3⟩
  simp [printVal, h1, e1, e2]

example : printVal sample = .ok "/m:l = k [default]\n".toList := by decide +kernel

/-- **C107** (to a buffer). `sr_val_to_buff()` writes as much as fits of the text `sr_val_to_str()`
    returns and returns the length of the whole text. -/
theorem to_buff_same {v : Val} (hv : Ok v) {size : Nat} (hsz : 0 < size) : ∃ t b n, toStr v = .ok t ∧ toBuff v size = .ok (b, n) ∧
    match t with
    | some s => n = s.length ∧ b = some (s.take (size - 1)) ∧ (s.take (size - 1)).length + 1 ≤ size
    | none => n = 0 ∧ b = none := by
  obtain ⟨t, ht⟩ := toStr_ok hv
  cases t with
  | none => exact ⟨none, none, 0, ht, by simp [toBuff, ht], rfl, rfl⟩
  | some s =>
    refine ⟨some s, _, _, ht, by simp only [toBuff, ht, bind_ok]; rfl, rfl, ?_, ?_⟩
    · simp only [snprintf]; rw [if_neg (by omega)]
    · rw [List.length_take]; omega

/-- **C107** (integers). The text of a signed integer value is the number whose two's complement
    representation is stored in the bytes of its type. -/
theorem to_str_signed {v : Val} {w b : Nat} (ht : (v.type, b) ∈ [(T.i8, 8), (T.i16, 16), (T.i32, 32), (T.i64, 64)]) (hw : v.data = .word w) :
    ∃ s n, toStr v = .ok (some s) ∧ Values.parseInt s = some n ∧ -(2 ^ (b - 1) : Int) ≤ n ∧ n < 2 ^ (b - 1) ∧ n % 2 ^ b = (w : Int) % 2 ^ b := by
  simp only [List.mem_cons, Prod.mk.injEq, List.not_mem_nil, or_false] at ht
  rcases ht with ⟨ht, rfl⟩ | ⟨ht, rfl⟩ | ⟨ht, rfl⟩ | ⟨ht, rfl⟩ <;>
  · refine ⟨_, signed w _, by simp only [toStr, ht, hw]; rfl, Values.parseInt_fmt _, ?_⟩
    unfold signed
    split <;> rename_i hs <;> simp only [Nat.reducePow, Nat.reduceSub, Int.reducePow] at hs ⊢ <;> omega

/-- **C107** (integers). The text of an unsigned integer value is the number stored in the bytes of
    its type. -/
theorem to_str_unsigned {v : Val} {w b : Nat} (ht : (v.type, b) ∈ [(T.u8, 8), (T.u16, 16), (T.u32, 32), (T.u64, 64)]) (hw : v.data = .word w) :
    ∃ s, toStr v = .ok (some s) ∧ Values.natOf s = some (w % 2 ^ b) := by
  simp only [List.mem_cons, Prod.mk.injEq, List.not_mem_nil, or_false] at ht
  rcases ht with ⟨ht, rfl⟩ | ⟨ht, rfl⟩ | ⟨ht, rfl⟩ | ⟨ht, rfl⟩ <;>
    exact ⟨_, by simp only [toStr, ht, hw], Values.natOf_digits _⟩

example : toStr { type := .i64, data := .word 18446744073709551615 } = .ok (some "-1".toList) := by decide +kernel

/-- **C107 violated** (decimal numbers). `sr_val_to_str()` keeps six digits of a decimal64, so
    different values have the same text: 1000000.1 and 1000000.4 are both "1e+06"; this is no text
    `sr_set_item_str()` accepts for a decimal64. -/
theorem to_str_decimal (fd : Nat) :
    toStr { type := .dec, data := .dbl (Values.strtod 1 10000001) } = .ok (some "1e+06".toList) ∧
    toStr { type := .dec, data := .dbl (Values.strtod 1 10000004) } = .ok (some "1e+06".toList) ∧
    Values.strtod 1 10000001 ≠ Values.strtod 1 10000004 ∧
    Values.parseDec fd "1e+06".toList = none := by
  refine ⟨by decide +kernel, by decide +kernel, by decide +kernel, ?_⟩
  have h1 : Values.natOf "1e+06".toList = none := by decide +kernel
  have h2 : "1e+06".toList.dropWhile (fun c => c ≠ '.') = [] := by decide +kernel
  have h3 : Values.parseDecAbs fd "1e+06".toList = none := by unfold Values.parseDecAbs; rw [h2, h1]; rfl
  have h4 : Values.parseSign fd "1e+06".toList = none := by
    unfold Values.parseSign
    split
    · rename_i h; simp at h
    · rw [h3]; rfl
  simp only [Values.parseDec, h4]

example : toStr { type := .dec, data := .dbl (Values.strtod 2 (-125)) } = .ok (some "-1.25".toList) := by decide +kernel

end Verif.ValUtil
