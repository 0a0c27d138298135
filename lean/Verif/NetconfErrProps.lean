import Verif.NetconfErr
import Verif.ErrInfoProps
/-!
Property C123: NETCONF errors set by a callback are read by the client. Specification (`Valid`, `norm`, `size`) in
`Verif/NetconfErr.lean`.
-/
namespace Verif.NetconfErr
open Verif.Bytes Verif.EvData Verif.ErrInfo

/-! ### Lemmas -/

theorem types_rfc : types = rfcTypes.map str := rfl

theorem tags_rfc : tags = rfcTags.map str := rfl

theorem failing_err {ev : Ev} (h : ev ∈ failing) : ev.err = true := by
  simp only [failing, List.mem_cons, List.not_mem_nil, or_false] at h
  rcases h with rfl | rfl | rfl | rfl <;> rfl

/-- Data of an error. -/
def blobs (e : NErr) : List Buf :=
  [e.type ++ [0], e.tag ++ [0], e.appTag.getD [] ++ [0], e.path.getD [] ++ [0], le32 (u32 e.info.length)] ++ infoData e.info

/-- Calls made for an error. -/
def ops (e : NErr) : List ErrInfo.Op := .setError (some netconf) opFailed e.msg :: (blobs e).map .pushData

/-- The error. -/
def view (e : NErr) : ErrV := ⟨opFailed, e.msg, some netconf, blobs e⟩

theorem runOps_append (junk : Nat → Nat) (a b : List ErrInfo.Op) (l : List Err) :
    ErrInfo.runOps junk l (a ++ b) = (ErrInfo.runOps junk l a).bind (fun l' => ErrInfo.runOps junk l' b) := by
  induction a generalizing l with
  | nil => rfl
  | cons o a ih =>
    simp only [List.cons_append, ErrInfo.runOps]
    cases ErrInfo.opStep junk l o with
    | none => rfl
    | some l' => exact ih l'

theorem pushes_eq (junk : Nat → Nat) {ev : Ev} (hev : ev.err = true) (ds : List Buf) (l : List Err) :
    pushes junk ev l ds = ErrInfo.runOps junk l (ds.map .pushData) := by
  induction ds generalizing l with
  | nil => rfl
  | cons d ds ih =>
    simp only [pushes, push, hev, if_true, List.map_cons, ErrInfo.runOps]
    cases ErrInfo.opStep junk l (.pushData d) with
    | none => rfl
    | some l' => exact ih l'

theorem set_eq (junk : Nat → Nat) {ev : Ev} (hev : ev.err = true) {e : NErr} (hv : Valid e) (l : List Err) :
    set junk ev l e = (ErrInfo.runOps junk l (ops e)).map (fun l' => (0, l')) := by
  have h0 : ev ≠ .none := by rintro rfl; cases hev
  have h1 : ErrInfo.runOps junk l (ops e) = ErrInfo.runOps junk (l ++ [⟨opFailed, some e.msg, some netconf, none⟩]) ((blobs e).map .pushData) := by
    simp only [ops, ErrInfo.runOps, ErrInfo.opStep, if_neg (show ¬ opFailed = 0 by decide)]
  simp only [set, if_neg h0, types_rfc, tags_rfc, hv.1, hv.2.1, not_true_eq_false, if_false]
  rw [pushes_eq junk hev, h1]
  unfold blobs
  cases ErrInfo.runOps junk (l ++ [⟨opFailed, some e.msg, some netconf, none⟩]) _ <;> rfl

theorem sets_eq (junk : Nat → Nat) {ev : Ev} (hev : ev.err = true) {es : List NErr} (hv : ∀ e ∈ es, Valid e) (l : List Err) :
    sets junk ev l es = ErrInfo.runOps junk l (es.flatMap ops) := by
  induction es generalizing l with
  | nil => rfl
  | cons e es ih =>
    rw [List.flatMap_cons, runOps_append]
    simp only [sets, set_eq junk hev (hv e List.mem_cons_self)]
    cases ErrInfo.runOps junk l (ops e) with
    | none => rfl
    | some l' => exact ih (fun e he => hv e (List.mem_cons_of_mem _ he)) l'

theorem onLast_append {α : Type} (f : α → α) (l : List α) (x : α) : onLast f (l ++ [x]) = l ++ [f x] := by
  induction l with
  | nil => rfl
  | cons a l ih =>
    cases l with
    | nil => rfl
    | cons b l => simp only [List.cons_append, onLast] at ih ⊢; rw [ih]

theorem spec_pushes {ds : List Buf} (hd : ∀ d ∈ ds, d ≠ []) (l : List ErrV) (c : Nat) (m f : Buf) (bs : List Buf) :
    (ds.map ErrInfo.Op.pushData).foldl ErrInfo.specStep (l ++ [⟨c, m, some f, bs⟩]) = l ++ [⟨c, m, some f, bs ++ ds⟩] := by
  induction ds generalizing bs with
  | nil => simp
  | cons d ds ih =>
    have hne : d ≠ [] := hd d List.mem_cons_self
    simp only [List.map_cons, List.foldl_cons, ErrInfo.specStep, onLast_append]
    rw [if_neg (by rintro (h | h); cases h; exact hne h), ih (fun d h => hd d (List.mem_cons_of_mem _ h))]
    simp

theorem infoData_ne (l : List (Buf × Buf)) : ∀ d ∈ infoData l, d ≠ [] := by
  induction l with
  | nil => intro d hd; cases hd
  | cons i l ih =>
    intro d hd
    rcases List.mem_cons.1 hd with rfl | hd
    · simp
    · rcases List.mem_cons.1 hd with rfl | hd
      · simp
      · exact ih d hd

theorem blobs_ne (e : NErr) : ∀ d ∈ blobs e, d ≠ [] := by
  intro d hd
  simp only [blobs, List.cons_append, List.nil_append, List.mem_cons] at hd
  rcases hd with rfl | rfl | rfl | rfl | rfl | hd
  · simp
  · simp
  · simp
  · simp
  · simp [le32]
  · exact infoData_ne _ d hd

theorem spec_ops (e : NErr) (l : List ErrV) : (ops e).foldl ErrInfo.specStep l = l ++ [view e] := by
  simp only [ops, List.foldl_cons, ErrInfo.specStep, if_neg (show ¬ opFailed = 0 by decide)]
  rw [spec_pushes (blobs_ne e)]
  rfl

theorem spec_all (es : List NErr) (l : List ErrV) : (es.flatMap ops).foldl ErrInfo.specStep l = l ++ es.map view := by
  induction es generalizing l with
  | nil => simp
  | cons e es ih => rw [List.flatMap_cons, List.foldl_append, spec_ops, ih]; simp

theorem align8_mono {a b : Nat} (h : a ≤ b) : align8 a ≤ align8 b := by unfold align8; omega

theorem totalLen_append (a b : List ErrV) : totalLen (a ++ b) = totalLen a + (b.map errLen).sum := by
  simp [totalLen]; omega

/-- Calls that do not make the errors shorter. -/
def Grow (o : ErrInfo.Op) : Prop := (∃ f c m, o = .setError f c m) ∨ ∃ d, o = .pushData d

theorem grow_step {o : ErrInfo.Op} (h : Grow o) (l : List ErrV) : totalLen l ≤ totalLen (ErrInfo.specStep l o) := by
  rcases h with ⟨f, c, m, rfl⟩ | ⟨d, rfl⟩
  · simp only [ErrInfo.specStep]
    split
    · exact Nat.le_refl _
    · rw [totalLen_append]; omega
  · simp only [ErrInfo.specStep]
    rcases List.eq_nil_or_concat l with rfl | ⟨l', x, rfl⟩
    · exact Nat.le_refl _
    · rw [List.concat_eq_append, onLast_append, totalLen_append, totalLen_append]
      split
      · exact Nat.le_refl _
      · have : blobsLen x.blobs ≤ blobsLen (x.blobs ++ [d]) := by rw [blobsLen_append]; omega
        have := align8_mono this
        simp only [List.map_cons, List.map_nil, List.sum_cons, List.sum_nil, errLen]
        omega

theorem grow_all {os : List ErrInfo.Op} (h : ∀ o ∈ os, Grow o) (l : List ErrV) : totalLen l ≤ totalLen (os.foldl ErrInfo.specStep l) := by
  induction os generalizing l with
  | nil => exact Nat.le_refl _
  | cons o os ih =>
    exact Nat.le_trans (grow_step (h o List.mem_cons_self) l) (ih (fun o ho => h o (List.mem_cons_of_mem _ ho)) _)

theorem ops_grow (es : List NErr) : ∀ o ∈ es.flatMap ops, Grow o := by
  intro o ho
  obtain ⟨e, _, ho⟩ := List.mem_flatMap.1 ho
  rcases List.mem_cons.1 ho with rfl | ho
  · exact Or.inl ⟨_, _, _, rfl⟩
  · obtain ⟨d, _, rfl⟩ := List.mem_map.1 ho
    exact Or.inr ⟨d, rfl⟩

theorem infoLen (l : List (Buf × Buf)) :
    ((infoData l).map fun b => 4 + b.length).sum = (l.map (fun i => i.1.length + i.2.length + 10)).sum := by
  induction l with
  | nil => rfl
  | cons i l ih => simp only [infoData, List.map_cons, List.sum_cons, ih, List.length_append, List.length_cons, List.length_nil]; omega

theorem errLen_le (e : NErr) : errLen (view e) ≤ size e := by
  have h1 := align8_lt (e.msg.length + 1)
  have h2 := align8_lt (blobsLen (blobs e))
  have h3 : strshmlen netconf = 8 := by decide
  have h4 : blobsLen (blobs e) = 32 + e.type.length + e.tag.length + (e.appTag.getD []).length + (e.path.getD []).length +
      (e.info.map (fun i => i.1.length + i.2.length + 10)).sum := by
    simp only [blobsLen, blobs, List.map_append, List.sum_append, infoLen, List.map_cons, List.map_nil, List.sum_cons, List.sum_nil,
      List.length_append, List.length_cons, List.length_nil, le32_length]
    omega
  have h5 : strshmlen e.msg = align8 (e.msg.length + 1) := rfl
  simp only [errLen, view, Option.getD_some, h3, h5]
  unfold size
  omega

theorem sum_le (es : List NErr) : ((es.map view).map errLen).sum ≤ sizes es := by
  induction es with
  | nil => exact Nat.le_refl _
  | cons e es ih =>
    have := errLen_le e
    simp only [sizes, List.map_cons, List.sum_cons] at ih ⊢
    omega

theorem cstrL_str {s : Buf} (h : IsStr s) : cstrL (s ++ [0]) = some s := by
  induction s with
  | nil => rfl
  | cons c s ih =>
    have hc : c ≠ 0 := h c List.mem_cons_self
    simp only [List.cons_append, cstrL, if_neg hc, ih (fun c hc => h c (List.mem_cons_of_mem _ hc)), Option.map_some]

theorem getStr_ok {data : Option Buf} {B : List Buf} (h : ∀ idx, evGet data idx = wanted B idx) {i : Nat} {s : Buf}
    (hs : IsStr s) (hi : B[i]? = some (s ++ [0])) : getStr data i = some (some s) := by
  simp only [getStr, h, wanted, hi, cstrL_str hs]

theorem getInfo_ok {data : Option Buf} {B : List Buf} (h : ∀ idx, evGet data idx = wanted B idx) {info : List (Buf × Buf)}
    (hs : ∀ i ∈ info, IsStr i.1 ∧ IsStr i.2) {pre : List Buf} (hB : B = pre ++ infoData info) :
    getInfo data info.length pre.length = some (some info) := by
  induction info generalizing pre with
  | nil => rfl
  | cons i info ih =>
    have h0 := hs i List.mem_cons_self
    have e1 : B[pre.length]? = some (i.1 ++ [0]) := by rw [hB]; simp [infoData]
    have e2 : B[pre.length + 1]? = some (i.2 ++ [0]) := by
      rw [hB, List.getElem?_append_right (by omega)]; simp [infoData]
    have e3 := ih (fun i hi => hs i (List.mem_cons_of_mem _ hi)) (pre := pre ++ [i.1 ++ [0], i.2 ++ [0]])
      (by rw [hB]; simp [infoData])
    rw [List.length_append] at e3
    simp only [List.length_cons, getInfo, getStr_ok h h0.1 e1, getStr_ok h h0.2 e2]
    simp only [List.length_cons, List.length_nil, Nat.zero_add, Nat.reduceAdd] at e3
    rw [e3]

theorem optStr_getD (o : Option Buf) : optStr (o.getD []) = o.bind optStr := by
  cases o with
  | none => rfl
  | some s => rfl

theorem info_le (l : List (Buf × Buf)) : l.length ≤ (l.map (fun i => i.1.length + i.2.length + 10)).sum := by
  induction l with
  | nil => exact Nat.le_refl _
  | cons i l ih => simp only [List.length_cons, List.map_cons, List.sum_cons]; omega

theorem get_ok {x : Err} {e : NErr} (hv : Valid e) (hs : size e < 4294967296) (h : Same x (view e)) : get x = .ok (norm e) := by
  obtain ⟨-, hm, hf, hd⟩ := h
  have hf' : x.fmt = some netconf := by
    rw [hf]; simp only [view]; exact if_neg (by decide)
  have hlen : e.info.length < 4294967296 := by
    have := info_le e.info
    unfold size at hs; omega
  have hd' : ∀ idx, evGet x.data idx = wanted (blobs e) idx := hd
  obtain ⟨_, _, h3, h4, h5, h6, h7, h8⟩ := hv
  have e0 := getStr_ok hd' (i := 0) h3 rfl
  have e1 := getStr_ok hd' (i := 1) h4 rfl
  have e2 := getStr_ok hd' (i := 2) h5 rfl
  have e3 := getStr_ok hd' (i := 3) h6 rfl
  have e4 : evGet x.data 4 = .ok (le32 (u32 e.info.length)) := by rw [hd' 4]; rfl
  have e5 : rd32 (le32 (u32 e.info.length)) 0 = some e.info.length := by
    rw [show u32 e.info.length = e.info.length from Nat.mod_eq_of_lt hlen]
    exact At.rd32 (fun i hi => by rw [Nat.zero_add]) hlen
  have e6 : getInfo x.data e.info.length 5 = some (some e.info) :=
    getInfo_ok hd' h8 (pre := [e.type ++ [0], e.tag ++ [0], e.appTag.getD [] ++ [0], e.path.getD [] ++ [0], le32 (u32 e.info.length)]) rfl
  have hm' : x.msg = some e.msg := hm
  unfold get
  rw [hf', hm']
  simp only [ne_eq, not_true_eq_false, if_false, e0, e1, e2, e3, e4, e5, e6, optStr_getD]
  rfl

theorem size_le {e : NErr} {es : List NErr} (h : e ∈ es) : size e ≤ sizes es := by
  induction es with
  | nil => cases h
  | cons a es ih =>
    simp only [sizes, List.map_cons, List.sum_cons] at ih ⊢
    rcases List.mem_cons.1 h with rfl | h
    · omega
    · have := ih h; omega

/-! ### The property -/

/-- C123 for errors of less than 2 GiB in an event that can fail: the client reads exactly the NETCONF errors the callback has
set, in their order, whatever else was in the memory. -/
theorem netconf_delivered_partial (junk : Nat → Nat) (strerror : Nat → Buf) (rc : Nat) (ev : Ev) (es : List NErr)
    (hev : ev ∈ failing) (hne : es ≠ []) (hv : ∀ e ∈ es, Valid e) (hrc : rc < 4294967296) (hstr : IsStr (strerror rc))
    (hsl : (strerror rc).length < 1000) (hsz : sizes es < 2147483640) :
    ∃ errs data, sets junk ev [] es = some errs ∧ prepareError junk strerror rc errs = some data ∧
      ∀ shm, data.length ≤ shm.length → ∃ shm' out, write shm 0 data = some shm' ∧ readErrors shm' = some out ∧
        out.map get = es.map (fun e => .ok (norm e)) := by
  have hspec : ErrInfo.spec (es.flatMap ops) = es.map view := by
    have := spec_all es []
    simpa [ErrInfo.spec] using this
  have hexp : expected strerror rc (ErrInfo.spec (es.flatMap ops)) = es.map view := by
    rw [hspec]; unfold expected; rw [if_neg (by simpa using hne)]
  have hop : ∀ o ∈ es.flatMap ops, ErrInfo.OpOk o := by
    intro o ho
    obtain ⟨e, he, ho⟩ := List.mem_flatMap.1 ho
    rcases List.mem_cons.1 ho with rfl | ho
    · refine ⟨?_, by decide, (hv e he).2.2.2.2.2.2.1⟩
      rintro f ⟨⟩
      show IsStr netconf
      unfold IsStr; decide
    · obtain ⟨d, _, rfl⟩ := List.mem_map.1 ho
      exact trivial
  have hlen : ∀ k, totalLen (expected strerror rc (ErrInfo.spec ((es.flatMap ops).take k))) < 2147483648 := by
    intro k
    unfold expected
    split
    · have h1 := align8_lt ((strerror rc).length + 1)
      have h2 : strshmlen (strerror rc) = align8 ((strerror rc).length + 1) := rfl
      have h3 : strshmlen [] = 8 := by decide
      have h4 : align8 (blobsLen []) = 8 := by decide
      simp only [totalLen, List.map_cons, List.map_nil, List.sum_cons, List.sum_nil, errLen, Option.getD_none, h2, h3, h4]
      omega
    · have h1 : totalLen (ErrInfo.spec ((es.flatMap ops).take k)) ≤ totalLen (ErrInfo.spec (es.flatMap ops)) := by
        have := grow_all (os := (es.flatMap ops).drop k) (fun o ho => ops_grow es o (List.mem_of_mem_drop ho))
          (ErrInfo.spec ((es.flatMap ops).take k))
        unfold ErrInfo.spec at this ⊢
        rwa [← List.foldl_append, List.take_append_drop] at this
      rw [hspec] at h1
      have h2 := sum_le es
      have h3 : totalLen (es.map view) = 8 + ((es.map view).map errLen).sum := rfl
      omega
  have hfmt : ∀ v ∈ ErrInfo.spec (es.flatMap ops), (v.fmt = none ∨ v.fmt = some []) → v.blobs = [] := by
    rw [hspec]
    intro v hv h
    obtain ⟨e, _, rfl⟩ := List.mem_map.1 hv
    exact absurd h (by simp only [view]; decide)
  obtain ⟨errs, data, h1, h2, h3⟩ := errors_delivered_partial junk strerror rc (es.flatMap ops) hop hrc hstr hlen hfmt
  refine ⟨errs, data, by rw [sets_eq junk (failing_err hev) hv]; exact h1, h2, fun shm hl => ?_⟩
  obtain ⟨shm', out, h4, h5, h6, h7⟩ := h3 shm hl
  refine ⟨shm', out, h4, h5, ?_⟩
  rw [hexp] at h6 h7
  apply List.ext_getElem?
  intro i
  simp only [List.getElem?_map]
  simp only [List.length_map] at h6
  rcases Nat.lt_or_ge i es.length with hi | hi
  · have ho : out[i]? = some (out[i]'(by omega)) := List.getElem?_eq_getElem _
    have he : es[i]? = some es[i] := List.getElem?_eq_getElem _
    have := h7 i _ (view es[i]) ho (by rw [List.getElem?_map, he]; rfl)
    rw [ho, he]
    simp only [Option.map_some]
    have hm : es[i] ∈ es := List.getElem_mem _
    rw [get_ok (hv _ hm) (by have := size_le hm; omega) this]
  · rw [List.getElem?_eq_none (by omega), List.getElem?_eq_none hi]; rfl

/-- Two errors, one with everything. -/
def demo : List NErr :=
  [⟨str "application", str "data-missing", some (str "instance-required"), some (str "/a:b/c"), str "No.", [(str "x", str "1"), (str "y", [])]⟩,
   ⟨str "rpc", str "in-use", none, none, [], []⟩]

/-- They meet the hypotheses. -/
example : (∀ e ∈ demo, Valid e) ∧ sizes demo < 2147483640 := by
  refine ⟨?_, by decide +kernel⟩
  unfold Valid IsStr
  decide +kernel

/-- And are read as they were set. -/
example : (((sets (fun i => i) .change [] demo).bind (prepareError (fun i => i) (fun _ => [120]) 9)).bind readErrors).map
    (fun out => out.map get) = some (demo.map .ok) := by decide +kernel

/-- C123, arguments: an error without an event, of another type or with another tag is refused, and changes nothing. -/
theorem refused (junk : Nat → Nat) (ev : Ev) (errs : List Err) (e : NErr) (h : ev = .none ∨ e.type ∉ rfcTypes.map str ∨ e.tag ∉ rfcTags.map str) :
    set junk ev errs e = some (1, errs) := by
  rw [← types_rfc, ← tags_rfc] at h
  unfold set
  by_cases h0 : ev = .none
  · rw [if_pos h0]
  · rw [if_neg h0]
    by_cases h1 : e.type ∉ types
    · rw [if_pos h1]
    · rw [if_neg h1, if_pos]
      rcases h with h | h | h
      · exact absurd h h0
      · exact absurd h h1
      · exact h

/-- There are such errors. -/
example : (⟨str "app", str "in-use", none, none, [], []⟩ : NErr).type ∉ rfcTypes.map str ∧
    (⟨str "rpc", str "missing", none, none, [], []⟩ : NErr).tag ∉ rfcTags.map str := by decide +kernel

/-- C123 fails in other events: when a callback fails in the event of an enabled subscription its NETCONF error is set
successfully, but without any data, and cannot be read. -/
theorem enabled_error_lost (junk : Nat → Nat) (e : NErr) (hv : Valid e) :
    ∃ x, set junk .enabled [] e = some (0, [x]) ∧ get x = .inval := by
  have hp : ∀ (ds : List Buf) (l : List Err), pushes junk .enabled l ds = some l := by
    intro ds
    induction ds with
    | nil => intro l; rfl
    | cons d ds ih => intro l; simp only [pushes, push, Ev.err, Bool.false_eq_true, if_false]; exact ih l
  refine ⟨⟨opFailed, some e.msg, some netconf, none⟩, ?_, ?_⟩
  · simp only [set, reduceCtorEq, if_false, types_rfc, tags_rfc, hv.1, hv.2.1, not_true_eq_false, hp, List.nil_append]
  · simp [get, getStr, evGet]

/-- C123 fails for other errors: an error without a format cannot be tried to be read. -/
theorem no_format_crash (c : Nat) (msg : Option Buf) : get ⟨c, msg, none, none⟩ = .ub := by
  cases msg <;> rfl

end Verif.NetconfErr
