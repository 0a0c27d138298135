import Verif.EvData
/-!
Model of the errors set by a subscriber callback (sysrepo.c), their serialisation by the subscriber
(`sr_shmsub_prepare_error`, shm_sub.c) and their deserialisation by the originator
(`_sr_shmsub_notify_wait_wr`, shm_sub.c).

Memory allocation succeeds.
-/
namespace Verif.ErrInfo
open Verif.Bytes Verif.EvData

/-- `sr_error_info_err_t`, sysrepo_types.h. -/
structure Err where
  code : Nat
  msg : Option Buf
  fmt : Option Buf
  data : Option Buf
deriving DecidableEq

/-- API calls a callback uses to set its errors. Messages are already formatted. -/
inductive Op where
  | setError (fmt : Option Buf) (code : Nat) (msg : Buf)
  | setMessage (msg : Buf)
  | setFormat (fmt : Option Buf)
  | pushData (data : Buf)

/-- `SR_ERR_OPERATION_FAILED`, sysrepo_types.h. -/
def opFailed : Nat := 10

/-- Change of the last error. -/
def modLast {α : Type} (f : α → Option α) : List α → Option (List α)
  | [] => some []
  | [e] => (f e).map fun e => [e]
  | e :: t => (modLast f t).map (e :: ·)

/-- `sr_session_set_error`, `sr_session_set_error_message`, `sr_session_set_error_format`,
`sr_session_push_error_data`, sysrepo.c 952-1021, with `sr_errinfo_add`, log.c 150-215. A refused call changes
nothing. -/
def opStep (junk : Nat → Nat) (errs : List Err) : Op → Option (List Err)
  | .setError fmt code msg => if code = 0 then some errs else some (errs ++ [⟨code, some msg, fmt, none⟩])
  | .setMessage msg => some (errs ++ [⟨opFailed, some msg, none, none⟩])
  | .setFormat fmt => modLast (fun e => some { e with fmt := fmt }) errs
  | .pushData d =>
    modLast (fun e =>
      if e.fmt = none ∨ d = [] then some e
      else (evPush junk e.data d).map fun b => { e with data := some b }) errs

/-- A sequence of calls. -/
def runOps (junk : Nat → Nat) : List Err → List Op → Option (List Err)
  | l, [] => some l
  | l, o :: os =>
    match opStep junk l o with
    | none => none
    | some l' => runOps junk l' os

/-! ## Serialisation -/

/-- The buffer being built in `sr_shmsub_prepare_error`: `data`, `cur_data_len`, `data_len`. -/
structure Enc where
  data : Buf
  cur : Nat
  len : Nat

/-- Reallocate the buffer for `sz` more bytes and store `bs`: shm_sub.c 3272-3277, 3283-3288, 3296-3301, 3309-3314,
3322-3327. -/
def put (junk : Nat → Nat) (e : Enc) (bs : Buf) (sz : Nat) : Option Enc :=
  match write (resize junk e.data (u32 (e.len + sz))) e.cur bs with
  | none => none
  | some b => some ⟨b, e.cur + sz, u32 (e.len + sz)⟩

/-- One error, shm_sub.c 3280-3328; `rc` is the code returned by the callback. -/
def encErr (junk : Nat → Nat) (strerror : Nat → Buf) (rc : Nat) (e : Enc) (x : Err) : Option Enc :=
  let msg := x.msg.getD (strerror rc)
  let fmt := x.fmt.getD []
  let d := x.data.getD emptyData
  match put junk e (le32 x.code) 8 with
  | none => none
  | some e =>
    match put junk e (msg ++ [0]) (strshmlen msg) with
    | none => none
    | some e =>
      match put junk e (fmt ++ [0]) (strshmlen fmt) with
      | none => none
      | some e =>
        match evSize d 0 with
        | none => none
        | some ds =>
          match slice d 0 ds with
          | none => none
          | some dd => put junk e dd (align8 ds)

/-- The loop over the errors, shm_sub.c 3279-3329. -/
def encErrs (junk : Nat → Nat) (strerror : Nat → Buf) (rc : Nat) : Enc → List Err → Option Enc
  | e, [] => some e
  | e, x :: t =>
    match encErr junk strerror rc e x with
    | none => none
    | some e => encErrs junk strerror rc e t

/-- `sr_shmsub_prepare_error`, shm_sub.c 3253-3335. -/
def prepareError (junk : Nat → Nat) (strerror : Nat → Buf) (rc : Nat) (errs : List Err) : Option Buf :=
  let errs := if errs = [] then [⟨rc, none, none, none⟩] else errs
  match put junk ⟨[], 0, 0⟩ (le32 (u32 errs.length)) 8 with
  | none => none
  | some e => (encErrs junk strerror rc e errs).map (·.data)

/-! ## Deserialisation -/

/-- One error, shm_sub.c 586-612 and `sr_errinfo_add`, log.c 150-215: the error and the following pointer. -/
def decErr (shm : Buf) (ptr : Nat) : Option (Err × Nat) :=
  match rd32 shm ptr with
  | none => none
  | some code =>
    match cstr shm (ptr + 8) with
    | none => none
    | some msg =>
      let p1 := ptr + 8 + strshmlen msg
      match cstr shm p1 with
      | none => none
      | some fmt =>
        let p2 := p1 + strshmlen fmt
        match evSize shm p2 with
        | none => none
        | some ds =>
          match slice shm p2 ds with
          | none => none
          | some d =>
            some (⟨code, some msg, if fmt = [] then none else some fmt, if fmt = [] then none else some d⟩, p2 + align8 ds)

/-- The loop, shm_sub.c 585-612. -/
def decErrs (shm : Buf) : Nat → Nat → Option (List Err)
  | 0, _ => some []
  | n + 1, ptr =>
    match decErr shm ptr with
    | none => none
    | some (e, ptr) => (decErrs shm n ptr).map (e :: ·)

/-- Errors read by the originator, shm_sub.c 577-612. -/
def readErrors (shm : Buf) : Option (List Err) :=
  match rd32 shm 0 with
  | none => none
  | some n => decErrs shm n 8

/-! ## Specification -/

/-- An error as the callback and the originator see it. -/
structure ErrV where
  code : Nat
  msg : Buf
  fmt : Option Buf
  blobs : List Buf
deriving DecidableEq

/-- Change of the last element. -/
def onLast {α : Type} (f : α → α) : List α → List α
  | [] => []
  | [e] => [f e]
  | e :: t => e :: onLast f t

/-- Meaning of the API calls. -/
def specStep (l : List ErrV) : Op → List ErrV
  | .setError fmt code msg => if code = 0 then l else l ++ [⟨code, msg, fmt, []⟩]
  | .setMessage msg => l ++ [⟨opFailed, msg, none, []⟩]
  | .setFormat fmt => onLast (fun e => { e with fmt := fmt }) l
  | .pushData d => onLast (fun e => if e.fmt = none ∨ d = [] then e else { e with blobs := e.blobs ++ [d] }) l

/-- Errors set by a callback. -/
def spec (ops : List Op) : List ErrV := ops.foldl specStep []

/-- Errors that have to arrive when the callback returned `rc`: without any set error, one with the code and its
standard text. -/
def expected (strerror : Nat → Buf) (rc : Nat) (l : List ErrV) : List ErrV :=
  if l = [] then [⟨rc, strerror rc, none, []⟩] else l

/-- An arrived error is the expected one (an empty format is the same as none). -/
def Same (e : Err) (v : ErrV) : Prop :=
  e.code = v.code ∧ e.msg = some v.msg ∧ e.fmt = (if v.fmt = some [] then none else v.fmt) ∧
    ∀ idx, evGet e.data idx = wanted v.blobs idx

/-- Memory needed for an error. -/
def errLen (v : ErrV) : Nat :=
  8 + strshmlen v.msg + strshmlen (v.fmt.getD []) + align8 (blobsLen v.blobs)

/-- Memory needed for all the errors. -/
def totalLen (l : List ErrV) : Nat := 8 + (l.map errLen).sum

/-- The strings of a call are C strings, the code is a 32-bit number. -/
def OpOk : Op → Prop
  | .setError fmt code msg => (∀ f, fmt = some f → IsStr f) ∧ code < 4294967296 ∧ IsStr msg
  | .setMessage msg => IsStr msg
  | .setFormat fmt => ∀ f, fmt = some f → IsStr f
  | .pushData _ => True

/-! ## Lemmas -/

/-- Representation of the errors in the session. -/
def Rep (e : Err) (v : ErrV) : Prop :=
  e.code = v.code ∧ e.msg = some v.msg ∧ e.fmt = v.fmt ∧ encOpt v.blobs e.data

/-- The strings of an error are C strings. -/
def VOk (v : ErrV) : Prop := v.code < 4294967296 ∧ IsStr v.msg ∧ ∀ f, v.fmt = some f → IsStr f

theorem specStep_ok {l : List ErrV} {o : Op} (hl : ∀ v ∈ l, VOk v) (ho : OpOk o) : ∀ v ∈ specStep l o, VOk v := by
  have key : ∀ (f : ErrV → ErrV) (l : List ErrV), (∀ v ∈ l, VOk v) → (∀ v, VOk v → VOk (f v)) →
      ∀ v ∈ onLast f l, VOk v := by
    intro f l
    fun_induction onLast f l with
    | case1 => intro h _ v hv; simp at hv
    | case2 e => intro h hf v hv; simp at hv; subst hv; exact hf _ (h _ (by simp))
    | case3 e t ht ih =>
      intro h hf v hv
      rcases List.mem_cons.1 hv with rfl | hv
      · exact h _ (by simp)
      · exact ih (fun v hv => h v (by simp [hv])) hf v hv
  cases o with
  | setError fmt code msg =>
    intro v hv
    simp only [specStep] at hv
    split at hv
    · exact hl v hv
    · rcases List.mem_append.1 hv with hv | hv
      · exact hl v hv
      · simp at hv; subst hv; exact ⟨ho.2.1, ho.2.2, ho.1⟩
  | setMessage msg =>
    intro v hv
    simp only [specStep] at hv
    rcases List.mem_append.1 hv with hv | hv
    · exact hl v hv
    · simp at hv; subst hv; exact ⟨(by decide : opFailed < 4294967296), ho, by simp⟩
  | setFormat fmt => exact key _ l hl (fun v hv => ⟨hv.1, hv.2.1, ho⟩)
  | pushData d =>
    refine key _ l hl (fun v hv => ?_)
    split
    · exact hv
    · exact hv

theorem spec_ok {ops : List Op} (h : ∀ o ∈ ops, OpOk o) : ∀ v ∈ spec ops, VOk v := by
  have key : ∀ (ops : List Op) (l : List ErrV), (∀ o ∈ ops, OpOk o) → (∀ v ∈ l, VOk v) →
      ∀ v ∈ ops.foldl specStep l, VOk v := by
    intro ops
    induction ops with
    | nil => intro l _ h; exact h
    | cons o t ih =>
      intro l h1 h2
      exact ih _ (fun o ho => h1 o (by simp [ho])) (specStep_ok h2 (h1 o (by simp)))
  exact key ops [] h (by simp)

/-- Pointwise relation of lists. -/
def Reps : List Err → List ErrV → Prop
  | [], [] => True
  | e :: t, v :: u => Rep e v ∧ Reps t u
  | _, _ => False

theorem Reps.append : ∀ {a : List Err} {b : List ErrV} {e : Err} {v : ErrV}, Reps a b → Rep e v → Reps (a ++ [e]) (b ++ [v])
  | [], [], _, _, _, h => ⟨h, trivial⟩
  | _ :: _, _ :: _, _, _, h1, h2 => ⟨h1.1, Reps.append h1.2 h2⟩

theorem Reps.length : ∀ {a : List Err} {b : List ErrV}, Reps a b → a.length = b.length
  | [], [], _ => rfl
  | _ :: _, _ :: _, h => by simp [Reps.length h.2]

theorem Reps.last {f : Err → Option Err} {g : ErrV → ErrV} :
    ∀ {a : List Err} {b : List ErrV}, Reps a b →
      (∀ e v, v ∈ b → Rep e v → g v ∈ onLast g b → ∃ e', f e = some e' ∧ Rep e' (g v)) →
      ∃ a', modLast f a = some a' ∧ Reps a' (onLast g b)
  | [], [], _, _ => ⟨[], rfl, trivial⟩
  | [e], [v], h, hf => by
    obtain ⟨e', h1, h2⟩ := hf e v (by simp) h.1 (by simp [onLast])
    exact ⟨[e'], by simp [modLast, h1], h2, trivial⟩
  | e :: e2 :: t, v :: v2 :: u, h, hf => by
    obtain ⟨a', h1, h2⟩ := Reps.last (f := f) (g := g) (a := e2 :: t) (b := v2 :: u) h.2
      (fun e' v' hv hr hm => hf e' v' (by simp at hv ⊢; exact Or.inr hv) hr (by simp only [onLast]; exact List.mem_cons_of_mem _ hm))
    exact ⟨e :: a', by simp only [modLast, h1, Option.map_some], h.1, h2⟩
  | [_], _ :: _ :: _, h, _ => absurd h.2 (by simp [Reps])
  | _ :: _ :: _, [_], h, _ => absurd h.2 (by simp [Reps])

theorem mem_totalLen {l : List ErrV} {v : ErrV} (h : v ∈ l) : errLen v ≤ totalLen l := by
  unfold totalLen
  induction l with
  | nil => simp at h
  | cons a t ih =>
    rcases List.mem_cons.1 h with rfl | h
    · simp; omega
    · have := ih h; simp at this ⊢; omega

theorem blobsLen_le_errLen (v : ErrV) : blobsLen v.blobs + 8 ≤ errLen v := by
  have := align8_ge (blobsLen v.blobs)
  unfold errLen; omega

theorem opStep_rep (junk : Nat → Nat) {l : List Err} {s : List ErrV} {o : Op} (h : Reps l s)
    (hl : totalLen (specStep s o) < 2147483648) : ∃ l', opStep junk l o = some l' ∧ Reps l' (specStep s o) := by
  cases o with
  | setError fmt code msg =>
    simp only [opStep, specStep]
    split
    · exact ⟨l, rfl, h⟩
    · exact ⟨_, rfl, h.append ⟨rfl, rfl, rfl, Or.inl ⟨rfl, rfl⟩⟩⟩
  | setMessage msg => exact ⟨_, rfl, h.append ⟨rfl, rfl, rfl, Or.inl ⟨rfl, rfl⟩⟩⟩
  | setFormat fmt => exact h.last (fun e v _ hr _ => ⟨_, rfl, hr.1, hr.2.1, rfl, hr.2.2.2⟩)
  | pushData d =>
    refine h.last (fun e v _ hr hm => ?_)
    have hlen := Nat.le_trans (blobsLen_le_errLen _) (mem_totalLen hm)
    have hl' : totalLen (onLast (fun e => if e.fmt = none ∨ d = [] then e else { e with blobs := e.blobs ++ [d] }) s) < 2147483648 := hl
    rw [hr.2.2.1]
    split
    · rename_i hc
      exact ⟨e, rfl, hr⟩
    · rename_i hc
      rw [if_neg hc] at hlen
      simp only at hlen
      rcases hr.2.2.2 with ⟨h1, h2⟩ | ⟨h1, h2⟩
      · rw [h2] at hlen
        rw [h1, evPush_none junk (by simpa using (by omega : blobsLen ([] ++ [d]) < 4294967296))]
        exact ⟨_, rfl, hr.1, hr.2.1, rfl, by rw [h2]; exact Or.inr ⟨rfl, by simp⟩⟩
      · rw [h1, evPush_enc junk (by omega)]
        exact ⟨_, rfl, hr.1, hr.2.1, rfl, Or.inr ⟨rfl, by simp⟩⟩

theorem runOps_rep (junk : Nat → Nat) {ops : List Op} {l : List Err} {s : List ErrV} (h : Reps l s)
    (hl : ∀ k, totalLen ((ops.take k).foldl specStep s) < 2147483648) :
    ∃ l', runOps junk l ops = some l' ∧ Reps l' (ops.foldl specStep s) := by
  induction ops generalizing l s with
  | nil => exact ⟨l, rfl, h⟩
  | cons o t ih =>
    obtain ⟨l1, e1, h1⟩ := opStep_rep junk (o := o) h (by simpa using hl 1)
    simp only [runOps, e1]
    exact ih h1 (fun k => by simpa using hl (k + 1))

/-- Layout of one error. -/
def ErrAt (b : Buf) (off : Nat) (v : ErrV) : Prop :=
  At b off (le32 v.code) ∧ At b (off + 8) (v.msg ++ [0]) ∧
  At b (off + 8 + strshmlen v.msg) (v.fmt.getD [] ++ [0]) ∧
  At b (off + 8 + strshmlen v.msg + strshmlen (v.fmt.getD [])) (enc v.blobs)

/-- Layout of more errors. -/
def ErrsAt (b : Buf) : Nat → List ErrV → Prop
  | _, [] => True
  | off, v :: t => ErrAt b off v ∧ ErrsAt b (off + errLen v) t

theorem ErrAt.ext {b : Buf} {off : Nat} {v : ErrV} (h : ErrAt b off v) (c : Buf) : ErrAt (b ++ c) off v :=
  ⟨h.1.ext c, h.2.1.ext c, h.2.2.1.ext c, h.2.2.2.ext c⟩

theorem ErrsAt.trans {b c : Buf} {l : List ErrV} : ∀ {off : Nat}, ErrsAt b off l → At c 0 b → ErrsAt c off l := by
  induction l with
  | nil => intro off _ _; trivial
  | cons v t ih =>
    intro off h h2
    have z : ∀ o x, At b o x → At c o x := fun o x hx => by have := hx.trans h2; rwa [Nat.zero_add] at this
    exact ⟨⟨z _ _ h.1.1, z _ _ h.1.2.1, z _ _ h.1.2.2.1, z _ _ h.1.2.2.2⟩, ih h.2 h2⟩

theorem put_ok (junk : Nat → Nat) {e : Enc} {bs : Buf} {sz : Nat} (h1 : e.data.length = e.cur) (h2 : e.len = e.cur)
    (h3 : bs.length ≤ sz) (h4 : e.cur + sz < 4294967296) :
    ∃ t, put junk e bs sz = some ⟨e.data ++ bs ++ t, e.cur + sz, e.cur + sz⟩ ∧ (e.data ++ bs ++ t).length = e.cur + sz := by
  have hu : u32 (e.len + sz) = e.cur + sz := by rw [h2]; exact Nat.mod_eq_of_lt h4
  obtain ⟨t, hw, ht⟩ := write_resize junk e.data bs (n := e.cur + sz) (by omega)
  refine ⟨t, ?_, by simp; omega⟩
  rw [h1] at hw
  simp only [put, hu, hw]

theorem encErr_ok (junk : Nat → Nat) (strerror : Nat → Buf) (rc : Nat) {e : Enc} {x : Err} {v : ErrV}
    (h1 : e.data.length = e.cur) (h2 : e.len = e.cur) (hc : x.code = v.code) (hm : x.msg.getD (strerror rc) = v.msg)
    (hf : x.fmt = v.fmt) (hd : encOpt v.blobs x.data) (hl : e.cur + errLen v < 2147483648) :
    ∃ t, encErr junk strerror rc e x = some ⟨e.data ++ t, e.cur + errLen v, e.cur + errLen v⟩ ∧
      t.length = errLen v ∧ ErrAt (e.data ++ t) e.cur v := by
  have hd' : x.data.getD emptyData = enc v.blobs := by
    rcases hd with ⟨h1, h2⟩ | ⟨h1, -⟩
    · rw [h1, h2]; rfl
    · rw [h1]; rfl
  have hb := blobsLen_le_errLen v
  have hel := enc_length v.blobs
  have hAt0 : At (enc v.blobs) 0 (enc v.blobs) := by have := EvData.At.of_append_left (enc v.blobs) []; simpa using this
  have hsize : evSize (enc v.blobs) 0 = some (blobsLen v.blobs) := evSize_at hAt0 (by omega)
  have hslice : slice (enc v.blobs) 0 (blobsLen v.blobs) = some (enc v.blobs) := by
    rw [← hel]; exact slice_at hAt0 (by omega)
  have hs1 : v.msg.length + 1 ≤ strshmlen v.msg := align8_ge _
  have hs2 : (v.fmt.getD []).length + 1 ≤ strshmlen (v.fmt.getD []) := align8_ge _
  have hs3 := align8_ge (blobsLen v.blobs)
  have hdef : errLen v = 8 + strshmlen v.msg + strshmlen (v.fmt.getD []) + align8 (blobsLen v.blobs) := rfl
  simp only [encErr, hc, hm, hf, hd', hsize, hslice]
  obtain ⟨t1, e1, l1⟩ := put_ok junk (bs := le32 v.code) (sz := 8) h1 h2 (by simp [le32_length]) (by omega)
  rw [e1]
  simp only
  obtain ⟨t2, e2, l2⟩ := put_ok junk (e := ⟨e.data ++ le32 v.code ++ t1, e.cur + 8, e.cur + 8⟩) (bs := v.msg ++ [0])
    (sz := strshmlen v.msg) l1 rfl (by simp; omega) (by simp only; omega)
  simp only at e2 l2
  rw [e2]
  simp only
  obtain ⟨t3, e3, l3⟩ := put_ok junk (e := ⟨_, e.cur + 8 + strshmlen v.msg, e.cur + 8 + strshmlen v.msg⟩)
    (bs := v.fmt.getD [] ++ [0]) (sz := strshmlen (v.fmt.getD [])) l2 rfl (by simp; omega) (by simp only; omega)
  simp only at e3 l3
  rw [e3]
  simp only
  obtain ⟨t4, e4, l4⟩ := put_ok junk
    (e := ⟨_, e.cur + 8 + strshmlen v.msg + strshmlen (v.fmt.getD []), e.cur + 8 + strshmlen v.msg + strshmlen (v.fmt.getD [])⟩)
    (bs := enc v.blobs) (sz := align8 (blobsLen v.blobs)) l3 rfl (by omega) (by simp only; omega)
  simp only at e4 l4
  rw [e4]
  have a1 := At.mid e.data (le32 v.code) (t1 ++ (v.msg ++ [0]) ++ t2 ++ (v.fmt.getD [] ++ [0]) ++ t3 ++ enc v.blobs ++ t4)
  have a2 := At.mid (e.data ++ le32 v.code ++ t1) (v.msg ++ [0]) (t2 ++ (v.fmt.getD [] ++ [0]) ++ t3 ++ enc v.blobs ++ t4)
  have a3 := At.mid (e.data ++ le32 v.code ++ t1 ++ (v.msg ++ [0]) ++ t2) (v.fmt.getD [] ++ [0]) (t3 ++ enc v.blobs ++ t4)
  have a4 := At.mid (e.data ++ le32 v.code ++ t1 ++ (v.msg ++ [0]) ++ t2 ++ (v.fmt.getD [] ++ [0]) ++ t3) (enc v.blobs) t4
  rw [h1] at a1
  rw [l1] at a2
  rw [l2] at a3
  rw [l3] at a4
  refine ⟨le32 v.code ++ t1 ++ (v.msg ++ [0]) ++ t2 ++ (v.fmt.getD [] ++ [0]) ++ t3 ++ enc v.blobs ++ t4, ?_, ?_, ?_⟩
  · congr 2
    · simp only [List.append_assoc]
    · omega
    · omega
  · simp only [List.length_append] at l4 ⊢; omega
  · simp only [List.append_assoc] at a1 a2 a3 a4 ⊢
    exact ⟨a1, a2, a3, a4⟩

theorem encErrs_ok (junk : Nat → Nat) (strerror : Nat → Buf) (rc : Nat) {l : List Err} {s : List ErrV}
    (h : Reps l s) {e : Enc} (h1 : e.data.length = e.cur) (h2 : e.len = e.cur)
    (hl : e.cur + (s.map errLen).sum < 2147483648) :
    ∃ t cur, encErrs junk strerror rc e l = some ⟨e.data ++ t, cur, cur⟩ ∧
      ErrsAt (e.data ++ t) e.cur s := by
  induction l generalizing s e with
  | nil =>
    cases s with
    | nil => obtain ⟨d, c, n⟩ := e; simp only at h2; subst h2; exact ⟨[], n, by simp [encErrs], trivial⟩
    | cons => simp [Reps] at h
  | cons x u ih =>
    cases s with
    | nil => simp [Reps] at h
    | cons v s =>
      simp only [List.map_cons, List.sum_cons] at hl
      obtain ⟨t, e1, ht, hat⟩ := encErr_ok junk strerror rc h1 h2 h.1.1 (by rw [h.1.2.1]; rfl) h.1.2.2.1 h.1.2.2.2 (by omega)
      simp only [encErrs, e1]
      obtain ⟨t2, c2, e2, h5⟩ := ih h.2 (e := ⟨e.data ++ t, e.cur + errLen v, e.cur + errLen v⟩) (by simp; omega) rfl
        (by simp only; omega)
      refine ⟨t ++ t2, c2, ?_, ?_⟩
      · rw [e2, List.append_assoc]
      · rw [← List.append_assoc]
        exact ⟨hat.ext t2, h5⟩

theorem decErr_ok {shm : Buf} {ptr : Nat} {v : ErrV} (h : ErrAt shm ptr v) (hv : VOk v) (hl : errLen v < 2147483648) :
    ∃ e, decErr shm ptr = some (e, ptr + errLen v) ∧
      (((v.fmt = none ∨ v.fmt = some []) → v.blobs = []) → Same e v) := by
  have hb := blobsLen_le_errLen v
  have hel := enc_length v.blobs
  have hf : IsStr (v.fmt.getD []) := EvData.IsStr.name hv.2.2
  have hsl : slice shm (ptr + 8 + strshmlen v.msg + strshmlen (v.fmt.getD [])) (blobsLen v.blobs) = some (enc v.blobs) := by
    rw [← hel]; exact h.2.2.2.slice (by simp [enc, le32])
  simp only [decErr, h.1.rd32 hv.1, h.2.1.cstr hv.2.1, h.2.2.1.cstr hf, evSize_at h.2.2.2 (by omega), hsl]
  have hdef : errLen v = 8 + strshmlen v.msg + strshmlen (v.fmt.getD []) + align8 (blobsLen v.blobs) := rfl
  rw [show ptr + 8 + strshmlen v.msg + strshmlen (v.fmt.getD []) + align8 (blobsLen v.blobs) = ptr + errLen v by omega]
  refine ⟨_, rfl, ?_⟩
  intro hne
  have hg : ∀ idx, evGet (some (enc v.blobs)) idx = wanted v.blobs idx := fun idx =>
    evGet_at (by have := EvData.At.of_append_left (enc v.blobs) []; simpa using this) (by omega) idx
  refine ⟨rfl, rfl, ?_, ?_⟩
  · cases hfm : v.fmt with
    | none => simp
    | some f => by_cases hf0 : f = [] <;> simp [hf0]
  · intro idx
    cases hfm : v.fmt with
    | none => simp [hne (Or.inl hfm), evGet, wanted]
    | some f =>
      by_cases hf0 : f = []
      · subst hf0; simp [hne (Or.inr hfm), evGet, wanted]
      · simpa [hf0] using hg idx

/-- Arrived errors, one by one. -/
def Sames : List Err → List ErrV → Prop
  | [], [] => True
  | e :: t, v :: u => Same e v ∧ Sames t u
  | _, _ => False

theorem decErrs_ok {shm : Buf} {s : List ErrV} (hv : ∀ v ∈ s, VOk v)
    (hne : ∀ v ∈ s, (v.fmt = none ∨ v.fmt = some []) → v.blobs = []) (hl : (s.map errLen).sum < 2147483648) :
    ∀ {ptr : Nat}, ErrsAt shm ptr s → ∃ out, decErrs shm s.length ptr = some out ∧ Sames out s := by
  induction s with
  | nil => intro ptr _; exact ⟨[], rfl, trivial⟩
  | cons v t ih =>
    intro ptr h
    simp only [List.map_cons, List.sum_cons] at hl
    obtain ⟨e, e1, h1⟩ := decErr_ok h.1 (hv v (by simp)) (by omega)
    obtain ⟨out, e2, h2⟩ := ih (fun v hm => hv v (by simp [hm])) (fun v hm => hne v (by simp [hm])) (by omega) h.2
    exact ⟨e :: out, by simp only [List.length_cons, decErrs, e1, e2, Option.map_some], h1 (hne v (by simp)), h2⟩

theorem Sames.get : ∀ {a : List Err} {b : List ErrV}, Sames a b → a.length = b.length ∧
    ∀ (i : Nat) (e : Err) (v : ErrV), a[i]? = some e → b[i]? = some v → Same e v
  | [], [], _ => ⟨rfl, by simp⟩
  | e :: t, v :: u, h => by
    obtain ⟨h1, h2⟩ := Sames.get h.2
    refine ⟨by simp [h1], ?_⟩
    intro i e' v' he hv
    cases i with
    | zero => simp at he hv; subst he hv; exact h.1
    | succ i => exact h2 i e' v' (by simpa using he) (by simpa using hv)

end Verif.ErrInfo
