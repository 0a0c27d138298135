/-!
# Writing and copying files (JSON plugins)

Models `srpjson_writev` (src/plugins/common_json.c:39-75), `srpjson_read`
(src/plugins/common_json.c:77-101) and `srpjson_cp_path`
(src/plugins/common_json.c:457-505).

The kernel is an adversary: it is the list (or function) of outcomes of the successive system
calls. A file is the list of the bytes in it. Not modelled: logging, the text of error messages,
opening and closing of the descriptors (done by the callers of the model).
-/
namespace Verif.Writev

/-- A byte string. -/
abbrev Bytes := List UInt8

/-! ## `srpjson_writev` -/

/-- Outcome of one `writev(2)`/`write(2)` call chosen by the kernel: at most `n` bytes written
(never more than requested), interrupted by a signal before anything was written, or failed. -/
inductive KWrite where
  | wrote (n : Nat)
  | eintr
  | fail
  deriving Repr, DecidableEq

/-- What the caller of `srpjson_writev` observes: the content of the file and
* `ok`: the function returned NULL,
* `err`: it returned an error,
* `abort`: an assertion failed (src/plugins/common_json.c:67-68) and the process was killed,
* `smash`: (only with `NDEBUG`) the memory behind the vector array was modified
  (src/plugins/common_json.c:70-71) and the function returned NULL. -/
inductive WRes where
  | ok (file : Bytes)
  | err (file : Bytes)
  | abort (file : Bytes)
  | smash (file : Bytes)
  deriving Repr, DecidableEq

/-- The file content in an outcome. -/
def WRes.file : WRes → Bytes
  | .ok f | .err f | .abort f | .smash f => f

/-- `written -= iov[0].iov_len` on `size_t` (src/plugins/common_json.c:60). -/
def subSize (a b : Nat) : Nat := (a + (2 ^ 64 - b % 2 ^ 64)) % 2 ^ 64

/-- The loop skipping what was written (src/plugins/common_json.c:59-63). The first vector is
always skipped. Returns the rest of `written` and the remaining vectors. -/
def skip : List Bytes → Nat → Nat × List Bytes
  | [], w => (w, [])
  | v :: rest, w =>
    let w' := subSize w v.length
    match rest with
    | [] => (w', [])
    | v2 :: rest' => if w' ≥ v2.length then skip (v2 :: rest') w' else (w', v2 :: rest')

/-- Every iteration drops at least one vector. -/
theorem skip_shorter (iov : List Bytes) (w : Nat) (h : iov ≠ []) :
    (skip iov w).2.length < iov.length := by
  induction iov generalizing w with
  | nil => exact absurd rfl h
  | cons v rest ih =>
    cases rest with
    | nil => simp [skip]
    | cons v2 rest' =>
      simp only [skip]
      split
      · have := ih (subSize w v.length) (by simp)
        simp only [List.length_cons] at this ⊢
        omega
      · simp

/-- The adjustment of the partially written vector (src/plugins/common_json.c:70-71). -/
def advance (w : Nat) : List Bytes → List Bytes
  | [] => []
  | v :: rest => v.drop w :: rest

theorem advance_length (w : Nat) (iov : List Bytes) : (advance w iov).length = iov.length := by
  cases iov <;> rfl

/-- `srpjson_writev` (src/plugins/common_json.c:39-75). `k` are the outcomes of the successive
`writev` calls, `file` is the current content (the descriptor is at its end), `ndebug` whether
assertions are compiled out. The second assertion (line 68) follows from the loop condition
unless no vector is left, see `skip`. A call with no vectors at all is not modelled (no caller
makes it); the model returns success. -/
def writev (ndebug : Bool) (k : Nat → KWrite) (iov : List Bytes) (file : Bytes) : WRes :=
  match iov with
  | [] => .ok file
  | v :: rest =>
    match k 0 with
    | .fail => .err file
    | o =>
      let ret := match o with
        | .wrote n => min n (v :: rest).flatten.length
        | _ => 0
      let file' := file ++ (v :: rest).flatten.take ret
      let s := skip (v :: rest) ret
      if s.1 ≠ 0 then
        if s.2 = [] then
          (if ndebug then .smash file' else .abort file')
        else writev ndebug (fun i => k (i + 1)) (advance s.1 s.2) file'
      else writev ndebug (fun i => k (i + 1)) s.2 file'
  termination_by iov.length
  decreasing_by
    · have := skip_shorter (v :: rest) ret (by simp)
      rw [advance_length]
      exact this
    · exact skip_shorter (v :: rest) ret (by simp)

/-! ## `srpjson_read` -/

/-- Outcome of one `read(2)` call: at most `n + 1` bytes (fewer when the file is shorter), or an
error. -/
inductive KRead where
  | got (n : Nat)
  | fail
  deriving Repr, DecidableEq

/-- What the caller of `srpjson_read` observes: the bytes stored into the buffer so far and the
rest of the file, and whether an error was returned. `more` = the call has not finished within
the given kernel outcomes. -/
inductive RRes where
  | ok (buf rest : Bytes)
  | err
  | more
  deriving Repr, DecidableEq

/-- `srpjson_read` (src/plugins/common_json.c:77-101): `have` bytes are in `buf`, `count` are
wanted. Reading at the end of the file returns success (line 88). A short read with `errno` set
does not happen on Linux, `ret == -1` is the only error. -/
def readAll (count : Nat) : List KRead → Bytes → Bytes → RRes
  | [], _, _ => .more
  | .fail :: _, _, _ => .err
  | .got n :: ks, buf, rest =>
    let got := rest.take (min (n + 1) (count - buf.length))
    if got = [] then .ok buf rest
    else
      let buf' := buf ++ got
      let rest' := rest.drop got.length
      if buf'.length < count then readAll count ks buf' rest' else .ok buf' rest'

/-! ## `srpjson_cp_path` -/

/-- Outcome of one system call of the copy loop. Which one is used depends on whether the loop
reads or writes: `amount n` = at most `n + 1` bytes read (at least one unless at the end of the
file), or at most `n` bytes written; `eintr` = interrupted; `fail` = another error. -/
inductive KCall where
  | amount (n : Nat)
  | eintr
  | fail
  deriving Repr, DecidableEq

/-- State of the copy: not yet read bytes of the source, content of the target, the buffer
(`buf`), the offset of `out_ptr` in it and `nread`. -/
structure Cp where
  src : Bytes
  tgt : Bytes
  buf : Bytes
  out : Nat
  nread : Nat
  deriving Repr, DecidableEq

/-- What the copy has come to: returned NULL, returned an error, still running. -/
inductive CpRes where
  | ok (tgt : Bytes)
  | err (tgt : Bytes)
  | running (s : Cp)
  deriving Repr, DecidableEq

/-- Content of the target file. -/
def CpRes.tgt : CpRes → Bytes
  | .ok t | .err t => t
  | .running s => s.tgt

/-- Size of the buffer (src/plugins/common_json.c:462). -/
def bufSize : Nat := 4096

/-- One system call of the copy loop (src/plugins/common_json.c:478-494). `nread = 0` means that
the loop is at its `read` (line 478), otherwise at its `write` (line 481). -/
def cpStep (s : Cp) (c : KCall) : CpRes :=
  if s.nread = 0 then
    match c with
    | .eintr | .fail => .err s.tgt
    | .amount n =>
      let got := s.src.take (min (n + 1) bufSize)
      if got = [] then .ok s.tgt
      else .running { src := s.src.drop got.length, tgt := s.tgt, buf := got, out := 0, nread := got.length }
  else
    match c with
    | .eintr => .running s
    | .fail => .err s.tgt
    | .amount n =>
      let nwritten := min n s.nread
      .running { s with
        tgt := s.tgt ++ (s.buf.drop s.out).take nwritten
        nread := s.nread - nwritten
        out := s.out + nwritten }

/-- The loop over the outcomes of the system calls. -/
def cpLoop (s : Cp) : List KCall → CpRes
  | [] => .running s
  | c :: cs =>
    match cpStep s c with
    | .running s' => cpLoop s' cs
    | r => r

/-- `srpjson_cp_path` (src/plugins/common_json.c:457-505) once both files are open: the target
was truncated when opened (line 473). -/
def copy (src : Bytes) (ks : List KCall) : CpRes :=
  cpLoop { src := src, tgt := [], buf := [], out := 0, nread := 0 } ks

end Verif.Writev
