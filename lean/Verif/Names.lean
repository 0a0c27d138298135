/-!
# Names of files and shared memory segments

Model of the functions that compute the names of the shared memory segments and of the files with data, and of the hash in the names of the
segments of RPC/action and operational subscriptions.

Code modelled (/repo/src):
* `common.c` 1048–1121 `sr_path_main_shm`, `sr_path_mod_shm`, `sr_path_ext_shm`, `sr_path_sub_shm`, `sr_path_sub_data_shm`
* `common.c` 3722–3739 `sr_ds2str`, `plugins/common_json.c` 126–142 `srpjson_ds2str`
* `common.c` 4621–4648 `sr_str_hash`
* `plugins/common_json.c` 619–711 `srpjson_get_path`, `srpjson_get_oper_path`, `srpjson_get_perm_path`
* `plugins/common_json.c` 766–805 `srpjson_dir_oper_file_iter`
* `plugins/ds_json.c` 74, 486: the name of the backup
* `shm_sub.c` 100–137, 180–237, 275–299: creating and unlinking the two segments of a subscription

Simplifications:
* only the name inside a directory; the directories are the default ones (SHM path, repository path + `/data`);
* names of modules, prefixes and paths are lists of characters, paths for the hash lists of bytes;
* `char` is signed, as on x86; `uint32_t` is little endian.
-/

namespace Verif.Names

abbrev Str := List Char

/-- `sr_datastore_t` -/
inductive Ds where
  | startup | running | candidate | operational | factory
deriving DecidableEq, Repr

/-- common.c 3722–3739, plugins/common_json.c 126–142 -/
def Ds.str : Ds → Str
  | .startup => "startup".toList
  | .running => "running".toList
  | .candidate => "candidate".toList
  | .operational => "operational".toList
  | .factory => "factory-default".toList

/-! ## The hash -/

/-- common.c 4633–4637: one character (`hash += c; hash += hash << 10; hash ^= hash >> 6`). -/
def mix (h c : BitVec 32) : BitVec 32 :=
  let h := h + c
  let h := h + (h <<< 10)
  h ^^^ (h >>> 6)

/-- common.c 4643–4645 -/
def finish (h : BitVec 32) : BitVec 32 :=
  let h := h + (h <<< 3)
  let h := h ^^^ (h >>> 11)
  h + (h <<< 15)

/-- The bytes of a `uint32_t` in memory (common.c 4631). -/
def bytesOf (p : BitVec 32) : List (BitVec 8) :=
  [p.extractLsb' 0 8, p.extractLsb' 8 8, p.extractLsb' 16 8, p.extractLsb' 24 8]

/-- common.c 4626–4647 `sr_str_hash`. -/
def strHash (s : List (BitVec 8)) (prio : BitVec 32) : BitVec 32 :=
  let h := s.foldl (fun h c => mix h (c.signExtend 32)) 0
  let h := (bytesOf prio).foldl (fun h c => mix h (c.setWidth 32)) h
  finish h

/-- The bytes of a path of ASCII characters. -/
def bytes (s : Str) : List (BitVec 8) := s.map fun c => BitVec.ofNat 8 c.toNat

/-! ## Names in the SHM directory -/

/-- Digits of `%08x`. -/
def hex8 (h : BitVec 32) : Str :=
  [28, 24, 20, 16, 12, 8, 4, 0].map fun k => Nat.digitChar (h.toNat / 2 ^ k % 16)

/-- `%u` -/
def dec (n : Nat) : Str := Nat.toDigits 10 n

/-- The subscriptions of a module with a segment of their own: changes of a datastore, notifications, an operational path (with priority), an
RPC/action. The arguments `suffix1` and `suffix2` of `sr_shmsub_create` (shm_ext.c 596, 1340, 933, 1580). -/
inductive Kind where
  | change (ds : Ds)
  | notif
  | oper (hash : BitVec 32)
  | rpc (hash : BitVec 32)
deriving DecidableEq, Repr

/-- The end of the name (common.c 1092–1097, 1111–1116). -/
def Kind.suffix : Kind → Str
  | .change ds => ds.str
  | .notif => "notif".toList
  | .oper h => "oper.".toList ++ hex8 h
  | .rpc h => "rpc.".toList ++ hex8 h

/-- What is stored in the SHM directory. -/
inductive File where
  | main
  | mod
  | ext
  /-- events of a subscription -/
  | sub (m : Str) (k : Kind)
  /-- data of the events -/
  | subData (m : Str) (k : Kind)
  /-- running data of a module -/
  | running (m : Str)
  | candidate (m : Str)
  /-- operational data stored by a session -/
  | oper (m : Str) (cid sid : Nat)
deriving DecidableEq, Repr

/-- The name, `p` is the prefix (`sr_get_shm_prefix`): common.c 1052, 1065, 1078, 1093–1096, 1112–1115, plugins/common_json.c 644, 667. -/
def shmName (p : Str) : File → Str
  | .main => p ++ "_main".toList
  | .mod => p ++ "_mod".toList
  | .ext => p ++ "_ext".toList
  | .sub m k => p ++ "sub_".toList ++ m ++ ['.'] ++ k.suffix
  | .subData m k => p ++ "sub_data_".toList ++ m ++ ['.'] ++ k.suffix
  | .running m => p ++ ['_'] ++ m ++ ['.'] ++ Ds.running.str
  | .candidate m => p ++ ['_'] ++ m ++ ['.'] ++ Ds.candidate.str
  | .oper m cid sid => p ++ ['_'] ++ m ++ ".operational.".toList ++ dec cid ++ ['-'] ++ dec sid

/-! ## Names in the directory of the repository with data -/

/-- Running, candidate and operational have a file with permissions. -/
inductive PermDs where
  | running | candidate | operational
deriving DecidableEq, Repr

def PermDs.ds : PermDs → Ds
  | .running => .running
  | .candidate => .candidate
  | .operational => .operational

inductive DataFile where
  | startup (m : Str)
  | factory (m : Str)
  | perm (m : Str) (ds : PermDs)
  /-- backup of startup -/
  | backup (m : Str)
deriving DecidableEq, Repr

/-- plugins/common_json.c 632, 639, 696, plugins/ds_json.c 74 -/
def dataName : DataFile → Str
  | .startup m => m ++ ['.'] ++ Ds.startup.str
  | .factory m => m ++ ['.'] ++ Ds.factory.str
  | .perm m ds => m ++ ['.'] ++ ds.ds.str ++ ".perm".toList
  | .backup m => m ++ ['.'] ++ Ds.startup.str ++ ".bck".toList

/-! ## Files of a directory -/

/-- plugins/common_json.c 777–803 `srpjson_dir_oper_file_iter`, all the calls: the files that begin with the prefix. -/
def operFiles (p m : Str) (dir : List Str) : List Str :=
  dir.filter fun f => (p ++ ['_'] ++ m ++ ".operational.".toList).isPrefixOf f

/-- shm_sub.c 100–137, 205–237: create both segments of a subscription (`O_EXCL`); the first one is removed again if the second cannot be
created (shm_ext.c 940, 1586). `none` is an error. -/
def create (p m : Str) (k : Kind) (dir : List Str) : Option (List Str) :=
  if shmName p (.sub m k) ∈ dir then none
  else if shmName p (.subData m k) ∈ shmName p (.sub m k) :: dir then none
  else some (shmName p (.subData m k) :: shmName p (.sub m k) :: dir)

/-- shm_sub.c 180–203, 275–299: unlink both. -/
def unlinkBoth (p m : Str) (k : Kind) (dir : List Str) : List Str :=
  dir.filter fun f => f != shmName p (.sub m k) && f != shmName p (.subData m k)

end Verif.Names
