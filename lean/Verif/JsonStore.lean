import Verif.Writev

/-!
# Storing and loading startup data (JSON datastore plugin)

Models `srpds_json_store_` (src/plugins/ds_json.c:49-159) and `srpds_json_load`
(src/plugins/ds_json.c:463-570) for the startup datastore: `make_backup = 1`, `perm = 0` (the file
was created when the module was installed), so the branches creating the file
(src/plugins/ds_json.c:97-103, 112-118, 154-156) are not taken.

Every system call is one step whose outcome is chosen by the kernel, so a crash is possible
between any two calls and in the middle of every write. What a call has done is on the disk as
soon as it returned (no `fsync` model; a power failure is out of scope, a killed process is not).
The data are the printed bytes; printing is one sequence of writes from the beginning of the file
(libyang writes every piece at once, any split is covered). Failures of memory allocation are
merged with those of the neighbouring system call.
-/
namespace Verif.JsonStore

open Verif.Writev

/-- The two files: the startup data and its backup (`SRPJSON_FILE_BACKUP_SUFFIX`). -/
structure FS where
  main : Option Bytes
  bck : Option Bytes
  deriving Repr, DecidableEq

/-- The calls of the store that may fail. -/
inductive Call where
  | stat | openBck | copy | openMain | newOut | print | trunc
  deriving Repr, DecidableEq

/-- Where a store is. `clean e b`: at the `cleanup` label with the error of call `e` and the flag
`backup = b`; `done e u`: returned, `u` tells whether removing the backup failed (the function
returns an error unless `e = none` and `u = false`). -/
inductive SPc where
  | stat | openBck | cpFrom | cpTo
  | cp (s : Cp)
  | openMain | newOut
  | print (p : Nat)
  | trunc
  | clean (e : Option Call) (b : Bool)
  | done (e : Option Call) (u : Bool)
  deriving Repr, DecidableEq

/-- A store in progress. -/
structure Store where
  fs : FS
  pc : SPc
  deriving Repr, DecidableEq

/-- Whether the call succeeded. -/
def good : KCall → Bool
  | .amount _ => true
  | _ => false

/-- Overwriting `chunk` at offset `p`. -/
def overwrite (f : Bytes) (p : Nat) (chunk : Bytes) : Bytes :=
  f.take p ++ chunk ++ f.drop (p + chunk.length)

/-- One system call of `srpds_json_store_` (src/plugins/ds_json.c:49-159) storing `new`. -/
def storeStep (new : Bytes) (st : Store) (k : KCall) : Store :=
  let fs := st.fs
  match st.pc with
  | .stat => -- ds_json.c:62, 75
    match fs.main, good k with
    | some _, true => { st with pc := .openBck }
    | _, _ => { st with pc := .clean (some .stat) false }
  | .openBck => -- ds_json.c:82-91, O_CREAT without O_TRUNC
    if good k then { fs := { fs with bck := some (fs.bck.getD []) }, pc := .cpFrom }
    else { st with pc := .clean (some .openBck) false }
  | .cpFrom => -- common_json.c:466
    if good k then { st with pc := .cpTo } else { st with pc := .clean (some .copy) true }
  | .cpTo => -- common_json.c:473, O_TRUNC
    if good k then
      { fs := { fs with bck := some [] },
        pc := .cp { src := fs.main.getD [], tgt := [], buf := [], out := 0, nread := 0 } }
    else { st with pc := .clean (some .copy) true }
  | .cp s => -- common_json.c:478-494
    match cpStep s k with
    | .running s' => { fs := { fs with bck := some s'.tgt }, pc := .cp s' }
    | .ok _ => { st with pc := .openMain }
    | .err _ => { st with pc := .clean (some .copy) true }
  | .openMain => -- ds_json.c:105-111, no O_TRUNC
    if good k then { st with pc := .newOut } else { st with pc := .clean (some .openMain) true }
  | .newOut => -- ds_json.c:121
    if good k then { st with pc := .print 0 } else { st with pc := .clean (some .newOut) true }
  | .print p => -- ds_json.c:129
    match k with
    | .amount n =>
      let chunk := (new.drop p).take n
      let p' := p + chunk.length
      { fs := { fs with main := fs.main.map (overwrite · p chunk) },
        pc := if p' = new.length then .trunc else .print p' }
    | _ => { st with pc := .clean (some .print) true }
  | .trunc => -- ds_json.c:136
    if good k then
      { fs := { fs with main := fs.main.map (·.take new.length) }, pc := .clean none true }
    else { st with pc := .clean (some .trunc) true }
  | .clean e b => -- ds_json.c:143-147
    if b then
      if good k then { fs := { fs with bck := none }, pc := .done e false }
      else { st with pc := .done e true }
    else { st with pc := .done e false }
  | .done _ _ => st

/-- A store executing the calls with outcomes `ks` (and killed after them unless it has returned). -/
def storeRun (new : Bytes) (st : Store) : List KCall → Store
  | [] => st
  | k :: ks => storeRun new (storeStep new st k) ks

/-- Starting `srpds_json_store_`. -/
def store (new : Bytes) (fs : FS) (ks : List KCall) : Store :=
  storeRun new { fs := fs, pc := .stat } ks

/-- Where a load is. -/
inductive LPc where
  | check | cpFrom | cpTo
  | cp (s : Cp)
  | unlink | read
  | done (content : Bytes)
  | failed
  deriving Repr, DecidableEq

structure Load where
  fs : FS
  pc : LPc
  deriving Repr, DecidableEq

/-- One system call of `srpds_json_load` for startup (src/plugins/ds_json.c:486-546). The parser
gets the bytes of the file. -/
def loadStep (l : Load) (k : KCall) : Load :=
  let fs := l.fs
  match l.pc with
  | .check => -- ds_json.c:493
    { l with pc := if fs.bck.isSome then .cpFrom else .read }
  | .cpFrom => if good k then { l with pc := .cpTo } else { l with pc := .failed }
  | .cpTo =>
    if good k then
      { fs := { fs with main := fs.main.map (fun _ => []) },
        pc := .cp { src := fs.bck.getD [], tgt := [], buf := [], out := 0, nread := 0 } }
    else { l with pc := .failed }
  | .cp s => -- ds_json.c:497
    match cpStep s k with
    | .running s' => { fs := { fs with main := fs.main.map (fun _ => s'.tgt) }, pc := .cp s' }
    | .ok _ => { l with pc := .unlink }
    | .err _ => { l with pc := .failed }
  | .unlink => -- ds_json.c:502
    if good k then { fs := { fs with bck := none }, pc := .read } else { l with pc := .failed }
  | .read => -- ds_json.c:512-546
    match fs.main, good k with
    | some c, true => { l with pc := .done c }
    | _, _ => { l with pc := .failed }
  | .done _ => l
  | .failed => l

def loadRun (l : Load) : List KCall → Load
  | [] => l
  | k :: ks => loadRun (loadStep l k) ks

/-- Starting `srpds_json_load`. -/
def load (fs : FS) (ks : List KCall) : Load := loadRun { fs := fs, pc := .check } ks

/-- The files after several loads, each interrupted or finished anywhere. -/
def loads (fs : FS) : List (List KCall) → FS
  | [] => fs
  | ks :: kss => loads (load fs ks).fs kss

end Verif.JsonStore
