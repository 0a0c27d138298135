/-
Component: installing, removing and updating modules and changing their features.

Models sr_install_module* (sysrepo.c 1241-1730), sr_remove_module* (sysrepo.c 1732-1874),
sr_update_module* (sysrepo.c 1929-2119), sr_enable/disable_module_feature (sysrepo.c 2445-2644),
the context lock and the context change functions (context_change.c) and the changes of the
internal module data (lyd_mods.c 78-265, 760-862, 1140-1421), the copy in shared memory
(shm_mod.c 775-852) and the YANG files (common.c 546-603, 760-855).

What libyang does is a parameter: which modules become implemented when a list of modules is
loaded, what each file imports, which features it declares, which nodes a context knows.
Every step that can fail (memory, files, plugins, subscriptions, validation) asks a `Call` whether
it goes on, fails, or whether the process dies there, so that a theorem about all calls is one
about all failures and all crash points.

Simplified: all modules have a "running" plugin; default nodes and automatic deletion by
validation are left out of the data; candidate data are not migrated by the code and not modelled;
replay support is not modelled.
-/

namespace Verif.ModOps

abbrev Name := Nat
abbrev Feat := Nat
abbrev Key := Nat
abbrev Val := Nat

/-- A YANG file: module name and revision (0 is a module without a revision). -/
abbrev File := Name × Nat

/-- An implemented module: its revision and its enabled features. -/
structure Info where
  rev : Nat
  feats : Feat → Bool

/-- A set of implemented modules: of a context, of the internal data or of shared memory. -/
abbrev Mods := Name → Option Info

def Mods.empty : Mods := fun _ => none

def Mods.set (m : Mods) (n : Name) (i : Info) : Mods := fun x => if x = n then some i else m x

/-- Drops the modules of a list. -/
def Mods.drop (m : Mods) (l : List Name) : Mods := fun x => if x ∈ l then none else m x

/-- The five datastores with plugins, sysrepo_types.h 121-137. -/
inductive Ds where
  | startup | running | candidate | operational | factory
  deriving DecidableEq, Repr

/-- All of them, SR_DS_READ_COUNT. -/
def allDs : List Ds := [.startup, .running, .candidate, .operational, .factory]

/-- Those whose data are carried to a new context, context_change.c 603-655. -/
def confDs : List Ds := [.startup, .running, .factory]

/-- Internal module data: the modules, the dependencies computed for them and the content ID. -/
structure Rec where
  mods : Mods
  deps : Name → List Name
  cid : Nat

/-- What libyang and the schemas decide. -/
structure Lib where
  /-- all module names in play -/
  names : List Name
  /-- the implemented modules of the context made by loading a set of modules; none: it fails -/
  load : Mods → Option Mods
  /-- direct imports of a file -/
  imports : File → List File
  /-- bound on the depth of imports -/
  depth : Nat
  /-- features declared in a file, in order -/
  declared : File → List Feat
  /-- modules the data of a module depend on, as computed in a context -/
  deps : Mods → Name → List Name
  /-- modules augmenting or deviating a module in a context -/
  changedBy : Mods → Name → List Name
  /-- ly_ctx_get_modules_hash -/
  hash : Mods → Nat
  /-- whose data file a node is in -/
  home : Key → Name
  /-- all nodes in play -/
  keys : List Key
  /-- whether a context has the schema of a node -/
  known : Mods → Key → Bool

/-- Files met when following imports from a file without entering those of `cut`,
sr_store_module_yang_r common.c 817-855, sr_lydmods_add_module_with_imps_r lyd_mods.c 137-213. -/
def walk (lib : Lib) (cut : File → Bool) : Nat → File → List File
  | 0, f => if cut f then [] else [f]
  | k + 1, f => if cut f then [] else f :: (lib.imports f).flatMap (walk lib cut k)

/-- A file and all its imports. -/
def reach (lib : Lib) (f : File) : List File := walk lib (fun _ => false) lib.depth f

/-- ly_ctx_get_module(ctx, name, revision) finds it: implemented or imported. -/
def inCtx (lib : Lib) (c : Mods) (f : File) : Bool :=
  lib.names.any fun n => match c n with
    | some i => (reach lib (n, i.rev)).contains f
    | none => false

/-- Whether every file a context is made of is stored. -/
def haveFiles (lib : Lib) (yang : File → Bool) (c : Mods) : Bool :=
  lib.names.all fun n => match c n with
    | some i => (reach lib (n, i.rev)).all yang
    | none => true

/-- Loads modules from the stored YANG files, sr_shmmod_ctx_load_modules shm_mod.c 1035-1082. -/
def loadStored (lib : Lib) (yang : File → Bool) (l : Mods) : Option Mods :=
  match lib.load l with
  | some c => if haveFiles lib yang c then some c else none
  | none => none

/-- A connection: its context, the content ID it was made for, and the modules an installation
read before it took the context lock (sysrepo.c 1423-1431). -/
structure Conn where
  ctx : Mods
  cid : Nat
  snap : Option Mods

/-- Everything module operations change. -/
structure State where
  /-- internal module data in the "sysrepo" startup file -/
  lyd : Rec
  /-- modules in shared memory -/
  shm : Rec
  /-- stored YANG files -/
  yang : File → Bool
  /-- which modules the datastore plugins have installed -/
  inst : Name → Ds → Bool
  /-- stored data -/
  data : Ds → Key → Option Val
  /-- whether a module has pushed operational data -/
  oper : Name → Bool
  /-- content ID in main shared memory -/
  cid : Nat
  /-- the connections there are -/
  conns : Nat → Option Conn

inductive Fate where
  | go | fail | die
  deriving DecidableEq, Repr

/-- Steps that can fail or during which the process can die; those of an undo have a `u`. -/
inductive Pt where
  | lock | parse (n : Name) | perm (n : Name) | subs | relock | lydParse | lydPrint | loadData
  | valid | shmStore | dsInstall (n : Name) (d : Ds) | dsInit (n : Name) (d : Ds) | yang (n : Name)
  | store (n : Name) (d : Ds) | operDel (n : Name) | uninstall (n : Name) (d : Ds)
  | uFeat (n : Name) (f : Feat) | uDel | uShm | uUninstall (n : Name) (d : Ds)
  deriving DecidableEq, Repr

/-- The circumstances of a call: the fate of each step, what is left in shared memory when storing
the modules there fails half way, and which files a failed store of YANG files leaves. -/
structure Call where
  fate : Pt → Fate
  torn : Rec
  part : File → Bool

inductive Res where
  | ok | err | dead
  deriving DecidableEq, Repr

/-- State during an operation. -/
structure Work where
  s : State
  /-- sr_int_install_mod_t.installed -/
  flagI : List (Name × Ds)
  /-- sr_int_install_mod_t.yangs_stored -/
  flagY : List Name
  /-- mod_shm_changed -/
  shmCh : Bool

abbrev Step := Work → Work × Res

def andThen (a b : Step) : Step := fun w => match a w with
  | (w', .ok) => b w'
  | r => r

def act (f : State → State) : Step := fun w => ({ w with s := f w.s }, .ok)

/-- A step that only can fail. -/
def gate (call : Call) (p : Pt) : Step := fun w => (w, match call.fate p with
  | .go => .ok
  | .fail => .err
  | .die => .dead)

def check (b : State → Bool) (r : Res) : Step := fun w => if b w.s then (w, .ok) else (w, r)

def each (l : List α) (f : α → Step) : Step := match l with
  | [] => act id
  | a :: l => andThen (f a) (each l f)

def State.setConn (s : State) (c : Nat) (k : Conn) : State :=
  { s with conns := fun x => if x = c then some k else s.conns x }

/-- A connection (an operation of one that does not exist is refused by `ctxLock`). -/
def State.conn (s : State) (c : Nat) : Conn := (s.conns c).getD ⟨Mods.empty, 0, none⟩

/-! ## The context lock -/

/-- sr_lycc_lock context_change.c 42-132: with another content ID than the connection has, the
context is made anew from the modules in shared memory. -/
def ctxLock (lib : Lib) (call : Call) (c : Nat) (s : State) : State × Res :=
  match call.fate .lock with
  | .fail => (s, .err)
  | .die => (s, .dead)
  | .go =>
    if (s.conns c).isNone then (s, .err)
    else if s.cid = (s.conn c).cid then (s, .ok)
    else match loadStored lib s.yang s.shm.mods with
      | some x => (s.setConn c { (s.conn c) with ctx := x, cid := s.cid }, .ok)
      | none => (s, .err)

/-! ## Internal module data -/

/-- sr_lydmods_del_deps_all and sr_lydmods_add_deps_all lyd_mods.c 760-862: every listed module must
be implemented in the context (814-815) and every module depended on must be listed
(844-853: the inverse dependency has no parent otherwise). The content ID is the hash of the context
the internal data were parsed in (sr_lydmods_print 880-893). -/
def withDeps (lib : Lib) (parsedIn ctx : Mods) (m : Mods) : Option Rec :=
  if lib.names.all fun n => match m n with
    | some _ => (ctx n).isSome && (lib.deps ctx n).all fun t => (m t).isSome
    | none => true
  then some ⟨m, fun n => match m n with
    | some _ => lib.deps ctx n
    | none => [], lib.hash parsedIn⟩
  else none

/-- Stores the internal data, sr_lydmods_print lyd_mods.c 870-901. -/
def lydWrite (call : Call) (p : Pt) (r : Rec) : Step :=
  andThen (gate call p) (act fun s => { s with lyd := r })

/-- Adds features that are not there yet, lyd_mods.c 1172-1179 (a second instance of a feature does
not pass the validation in sr_lydmods_print). -/
def addFeats (i : Info) (fs : List Feat) : Option Info :=
  if fs.any i.feats then none else some { i with feats := fun f => i.feats f || fs.contains f }

/-- Modules to install after the preparation: the modules of the new context before compilation,
the new ones, and those that only get features. -/
structure Prep where
  mods : Mods
  adds : List Name
  ens : List (Name × List Feat)

/-- Enables features of the installed modules, first part of lyd_mods.c 1158-1188. -/
def lydEnable (m : Mods) : List (Name × List Feat) → Option Mods
  | [] => some m
  | (n, fs) :: l => match m n with
    | none => none
    | some i => match addFeats i fs with
      | none => none
      | some j => lydEnable (m.set n j) l

/-- Adds the new modules, lyd_mods.c 78-121 and 1180-1187; a second entry of a module does not pass
the validation in sr_lydmods_print. -/
def lydAdd (ctx : Mods) (m : Mods) : List Name → Option Mods
  | [] => some m
  | n :: l => match m n, ctx n with
    | none, some i => lydAdd ctx (m.set n i) l
    | _, _ => none

/-- Modules newly implemented because a new module imports them, lyd_mods.c 137-213: the imports of
the new modules are followed, those of modules that only get features are not (152-158). -/
def implied (lib : Lib) (ctx : Mods) (m : Mods) (p : Prep) : List Name :=
  lib.names.filter fun n => match ctx n, m n with
    | some i, none => p.adds.any fun a => match ctx a with
      | some j => (walk lib (fun f => (p.ens.map (·.1)).contains f.1) lib.depth (a, j.rev)).contains (n, i.rev)
      | none => false
    | _, _ => false

/-- sr_lydmods_change_add_modules lyd_mods.c 1140-1216 without the store: the new internal data and
all new modules. The internal data are parsed in the new context (sysrepo.c 1513). -/
def lydInstall (lib : Lib) (ctx : Mods) (m : Mods) (p : Prep) : Option (Rec × List Name) :=
  match lydEnable m p.ens with
  | none => none
  | some m1 => match lydAdd ctx m1 p.adds with
    | none => none
    | some m2 =>
      let imp := implied lib ctx m2 p
      match lydAdd ctx m2 imp with
      | none => none
      | some m3 => match withDeps lib ctx ctx m3 with
        | none => none
        | some r => some (r, p.adds ++ imp)

/-- sr_lydmods_change_del_module lyd_mods.c 1218-1283 without the store. The internal data are parsed
in the old context (sysrepo.c 1562, 1839). -/
def lydRemove (lib : Lib) (old ctx : Mods) (m : Mods) (del : List Name) : Option Rec :=
  if del.all fun n => (m n).isSome then withDeps lib old ctx (m.drop del) else none

/-- sr_lydmods_change_upd_modules lyd_mods.c 1285-1349 without the store. The internal data are parsed
in the old context (sysrepo.c 2084). -/
def lydUpdate (lib : Lib) (old ctx : Mods) (m : Mods) (upd : List (Name × Nat)) : Option Rec :=
  if upd.all fun u => (m u.1).isSome then
    withDeps lib old ctx fun n => match m n, upd.find? (fun u => u.1 == n) with
      | some i, some u => some { i with rev := u.2 }
      | x, _ => x
  else none

/-- sr_lydmods_change_chng_feature lyd_mods.c 1351-1421 without the store. The internal data are
parsed in the old context (sysrepo.c 1552, 2591). -/
def lydFeature (lib : Lib) (old ctx : Mods) (m : Mods) (n : Name) (f : Feat) (enable : Bool) :
    Option Rec :=
  match m n with
  | none => none
  | some i =>
    if enable then match addFeats i [f] with
      | none => none
      | some j => withDeps lib old ctx (m.set n j)
    else if i.feats f then
      withDeps lib old ctx (m.set n { i with feats := fun x => i.feats x && x != f })
    else none

/-! ## Data -/

/-- sr_lycc_append_data and sr_lycc_update_data_tree context_change.c 603-699: the data of the
modules of the old context, without the nodes the new context does not know, overlaid with the
initial data. -/
def migrate (lib : Lib) (old new : Mods) (init : Key → Option Val) (data : Ds → Key → Option Val) :
    Ds → Key → Option Val :=
  fun d k => match init k with
    | some v => some v
    | none => if (old (lib.home k)).isSome && lib.known new k then data d k else none

/-- Whether the data of a module differ, context_change.c 974-986. -/
def differs (lib : Lib) (n : Name) (d : Ds) (a b : Ds → Key → Option Val) : Bool :=
  lib.keys.any fun k => lib.home k == n && a d k != b d k

/-- Replaces the stored data of a module in a datastore. -/
def writeData (lib : Lib) (n : Name) (d : Ds) (new : Ds → Key → Option Val) (s : State) : State :=
  { s with data := fun e k => if e = d ∧ lib.home k = n then new e k else s.data e k }

/-- sr_lycc_store_data_if_differ context_change.c 917-1027. -/
def storeData (lib : Lib) (call : Call) (ctx : Mods) (old new : Ds → Key → Option Val) : Step :=
  each confDs fun d => each lib.names fun n =>
    if (ctx n).isSome && differs lib n d old new then
      andThen (gate call (.store n d)) (act (writeData lib n d new))
    else act id

/-- Loading the data of the old context: every module of it must be in shared memory,
context_change.c 613-621. -/
def loadOld (lib : Lib) (call : Call) (c : Nat) : Step :=
  andThen (gate call .loadData) (check (fun s =>
    lib.names.all fun n => ((s.conn c).ctx n).isNone || (s.shm.mods n).isSome) .err)

/-- Validation; every implemented module of the new context that is not being installed is looked up
in shared memory and not finding it is a NULL dereference, context_change.c 799-806. -/
def validate (lib : Lib) (call : Call) (ctx : Mods) (newM : List Name) : Step :=
  andThen (check (fun s =>
    lib.names.all fun n => (ctx n).isNone || newM.contains n || (s.shm.mods n).isSome) .dead)
    (gate call .valid)

/-! ## Shared memory, plugins and YANG files -/

/-- sr_shmmod_store_modules shm_mod.c 775-852: the memory is rewritten in place and the copy taken
before is not put back on an error. -/
def shmWrite (call : Call) (p : Pt) (r : Rec) : Step := fun w => match call.fate p with
  | .go => ({ w with s := { w.s with shm := r }, shmCh := true }, .ok)
  | .fail => ({ w with s := { w.s with shm := call.torn } }, .err)
  | .die => (w, .dead)

/-- sr_lycc_add_module_cb_install context_change.c 214-260. -/
def installCb (call : Call) (n : Name) (d : Ds) : Step := fun w =>
  if w.flagI.contains (n, d) then (w, .ok)
  else andThen (andThen (gate call (.dsInstall n d))
    (fun w => ({ w with
      s := { w.s with inst := fun x e => if x = n ∧ e = d then true else w.s.inst x e }
      flagI := (n, d) :: w.flagI }, .ok)))
    (gate call (.dsInit n d)) w

/-- sr_store_module_yang_r common.c 817-855. -/
def yangStore (lib : Lib) (call : Call) (f : File) : Step := fun w => match call.fate (.yang f.1) with
  | .go => ({ w with
      s := { w.s with yang := fun g => w.s.yang g || (reach lib f).contains g }
      flagY := f.1 :: w.flagY }, .ok)
  | .fail => ({ w with
      s := { w.s with yang := fun g => w.s.yang g || ((reach lib f).contains g && call.part g) } }, .err)
  | .die => ({ w with
      s := { w.s with yang := fun g => w.s.yang g || ((reach lib f).contains g && call.part g) } }, .dead)

/-- sr_remove_module_yang_r common.c 546-603: the file and its imports unless a context still has
them. A file that cannot be removed is not an error. -/
def yangRemove (lib : Lib) (ctx : Mods) (f : File) (s : State) : State :=
  { s with yang := fun g => s.yang g && !((reach lib f).contains g && !inCtx lib ctx g) }

/-- The uninstall callback of a plugin deletes the data, plugins/ds_json.c. -/
def uninstall (lib : Lib) (n : Name) (d : Ds) (s : State) : State :=
  { s with
    inst := fun x e => if x = n ∧ e = d then false else s.inst x e
    data := fun e k => if e = d ∧ lib.home k = n then none else s.data e k }

/-! ## Installing -/

/-- A module to install: name and revision of the schema given, requested features, and whether
they are just "*". -/
structure Req where
  name : Name
  rev : Nat
  feats : List Feat
  star : Bool

/-- The array sr_install_modules_check_features builds for lys_set_implemented, sysrepo.c
1268-1295: an entry for every feature that is enabled or requested, but the entry is the requested
name, which is NULL for a feature that is enabled and was not requested. -/
def featArray (declared : List Feat) (en : Feat → Bool) (req : List Feat) : List (Option Feat) :=
  (declared.filter fun f => en f || req.contains f).map fun f =>
    if req.contains f then some f else none

/-- What libyang reads of it: the names before the first NULL. -/
def readArray : List (Option Feat) → List Feat
  | some f :: l => f :: readArray l
  | _ => []

/-- Features to be enabled, sysrepo.c 1287-1294. -/
def toEnable (declared : List Feat) (en : Feat → Bool) (req : List Feat) : List Feat :=
  declared.filter fun f => !en f && req.contains f

/-- sr_install_modules_prepare_mod sysrepo.c 1321-1392 with sr_install_modules_check_features
1240-1310. The installed modules are looked up before any is added (sysrepo.c 1448-1461). No
feature is called "*", so requesting all features of an installed module requests none. -/
def prepare1 (lib : Lib) (call : Call) (l0 : Mods) (p : Prep) (r : Req) : Option Prep :=
  match l0 r.name with
  | some i =>
    let decl := lib.declared (r.name, i.rev)
    let req := if r.star then [] else r.feats
    if !req.all decl.contains then none
    else
      let en := toEnable decl i.feats req
      if en.isEmpty then some p
      else if call.fate (.parse r.name) ≠ .go then none
      else some { p with
        mods := p.mods.set r.name
          { i with feats := fun f => (readArray (featArray decl i.feats req)).contains f }
        ens := p.ens ++ [(r.name, en)] }
  | none =>
    let decl := lib.declared (r.name, r.rev)
    if call.fate (.parse r.name) ≠ .go then none
    else if !r.star && !r.feats.all decl.contains then none
    else some { p with
      mods := p.mods.set r.name ⟨r.rev, fun f => if r.star then decl.contains f else r.feats.contains f⟩
      adds := p.adds ++ [r.name] }

def prepare (lib : Lib) (call : Call) (l0 : Mods) (p : Prep) : List Req → Option Prep
  | [] => some p
  | r :: l => match prepare1 lib call l0 p r with
    | none => none
    | some p' => prepare lib call l0 p' l

/-- sr_lycc_check_add_modules context_change.c 170-195: a module implemented in both contexts has
the same revision. -/
def sameRevs (lib : Lib) (ctx old : Mods) : Bool :=
  lib.names.all fun n => match ctx n, old n with
    | some i, some j => i.rev == j.rev
    | _, _ => true

/-- Updating the data, sr_lycc_update_data context_change.c 809-903: without initial data the
plugins install the new modules here, for the data they come with. -/
def updateData (lib : Lib) (call : Call) (c : Nat) (ctx : Mods) (newM : List Name) (given : Bool) :
    Step :=
  andThen (loadOld lib call c) (andThen
    (if given then act id else each confDs fun d => each newM fun n => installCb call n d)
    (validate lib call ctx newM))

/-- The revision a module has in a context. -/
def revOf (ctx : Mods) (n : Name) : Nat := match ctx n with
  | some i => i.rev
  | none => 0

/-- sr_lycc_add_modules context_change.c 262-293. -/
def addModules (lib : Lib) (call : Call) (ctx : Mods) (newM : List Name) : Step :=
  each newM fun n => andThen (each allDs fun d => installCb call n d)
    (yangStore lib call (n, revOf ctx n))

/-- The new content ID and context, sysrepo.c 1540-1542. -/
def switchCtx (lib : Lib) (c : Nat) (ctx : Mods) : Step :=
  act fun s => { s with cid := lib.hash ctx }.setConn c ⟨ctx, lib.hash ctx, none⟩

/-- After the internal data were stored, sysrepo.c 1517-1542. -/
def installBody (lib : Lib) (call : Call) (c : Nat) (ctx : Mods) (r : Rec) (newM : List Name)
    (init : Option (Key → Option Val)) (old new : Ds → Key → Option Val) : Step :=
  andThen (updateData lib call c ctx newM init.isSome) (andThen (shmWrite call .shmStore r)
    (andThen (addModules lib call ctx newM) (andThen (storeData lib call ctx old new)
      (switchCtx lib c ctx))))

/-- A step of an undo whose error is only reported: what follows is done anyway. -/
def orGo (a : Step) (b : Step) : Step := fun w => match a w with
  | (w', .dead) => (w', .dead)
  | (w', _) => b w'

/-- Takes a feature back, sysrepo.c 1551-1556. -/
def undoFeat (lib : Lib) (call : Call) (old ctx : Mods) (n : Name) (f : Feat) : Step := fun w =>
  match lydFeature lib old ctx w.s.lyd.mods n f false with
  | some r => lydWrite call (.uFeat n f) r w
  | none => (w, .err)

/-- Takes the features back, sysrepo.c 1549-1558. -/
def undoFeats (lib : Lib) (call : Call) (old ctx : Mods) : List (Name × Feat) → Step
  | [] => act id
  | (n, f) :: l => orGo (undoFeat lib call old ctx n f) (undoFeats lib call old ctx l)

/-- Takes the modules back and stores the modules in shared memory again, sysrepo.c 1562-1571. The
dependencies are computed in the new context. -/
def undoMods (lib : Lib) (call : Call) (old ctx : Mods) (newM : List Name) : Step := fun w =>
  match lydRemove lib old ctx w.s.lyd.mods newM with
  | none => (w, .ok)
  | some r => match lydWrite call .uDel r w with
    | (w', .ok) => if w'.shmCh then (match shmWrite call .uShm r w' with
        | (w2, .dead) => (w2, .dead)
        | (w2, _) => (w2, .ok)) else (w', .ok)
    | (w', .dead) => (w', .dead)
    | (w', .err) => (w', .ok)

/-- Uninstalls a module from a datastore if it was installed there, context_change.c 318-330. -/
def revertDs (lib : Lib) (call : Call) (n : Name) (d : Ds) : Step := fun w =>
  if w.flagI.contains (n, d)
  then andThen (gate call (.uUninstall n d)) (act (uninstall lib n d)) w else (w, .ok)

/-- Removes the YANG files of a module if they were stored, context_change.c 332-338. -/
def revertYang (lib : Lib) (old : Mods) (n : Name) (rev : Nat) : Step := fun w =>
  if w.flagY.contains n then act (yangRemove lib old (n, rev)) w else (w, .ok)

/-- sr_lycc_add_modules_revert context_change.c 302-347. It is called twice after an error of
sr_lycc_add_modules, the second time with nothing left to do or with the same error. -/
def revert (lib : Lib) (call : Call) (old ctx : Mods) (newM : List Name) : Step :=
  each newM fun n => andThen (each allDs fun d => revertDs lib call n d)
    (revertYang lib old n (revOf ctx n))

/-- The features to take back, one by one. -/
def undoList (p : Prep) : List (Name × Feat) := p.ens.flatMap fun e => e.2.map fun f => (e.1, f)

/-- Error path of the installation, sysrepo.c 1546-1577. -/
def installUndo (lib : Lib) (call : Call) (old ctx : Mods) (p : Prep) (newM : List Name) : Step :=
  andThen (undoFeats lib call old ctx (undoList p)) (andThen (undoMods lib call old ctx newM)
    (revert lib call old ctx newM))

/-- Runs the body and on an error the undo. -/
def withUndo (body undo : Step) : Step := fun w => match body w with
  | (w', .err) => match undo w' with
    | (w2, .dead) => (w2, .dead)
    | (w2, _) => (w2, .err)
  | r => r

def startWork (s : State) : Work := ⟨s, [], [], false⟩

def fin (x : Work × Res) : State × Res := (x.1.s, x.2)

/-- The first part of an installation: the modules in shared memory are read without a lock,
sysrepo.c 1423-1431. -/
def installRead (lib : Lib) (c : Nat) (s : State) : State :=
  match s.conns c with
  | some k => s.setConn c { k with snap := loadStored lib s.yang s.shm.mods }
  | none => s

/-- The second part, under the context lock, sysrepo.c 1442-1589. -/
def install (lib : Lib) (call : Call) (c : Nat) (reqs : List Req) (init : Option (Key → Option Val))
    (s : State) : State × Res :=
  match (s.conn c).snap with
  | none => (s, .err)
  | some l0 => match ctxLock lib call c s with
    | (s1, .ok) => match prepare lib call l0 ⟨l0, [], []⟩ reqs with
      | none => (s1, .err)
      | some p =>
        if p.adds.isEmpty && p.ens.isEmpty then (s1, .ok)
        else match lib.load p.mods with
          | none => (s1, .err)
          | some ctx =>
            if !sameRevs lib ctx (s1.conn c).ctx then (s1, .err)
            else match gate call .subs (startWork s1) with
              | (_, .ok) => match lydInstall lib ctx s1.lyd.mods p with
                | none => (s1, .err)
                | some (r, newM) =>
                  let old := s1.data
                  let new := migrate lib (s1.conn c).ctx ctx (init.getD fun _ => none) s1.data
                  fin (andThen (andThen (gate call .relock) (lydWrite call .lydPrint r))
                    (withUndo (installBody lib call c ctx r newM init old new)
                      (installUndo lib call (s1.conn c).ctx ctx p newM)) (startWork s1))
              | (_, e) => (s1, e)
    | x => x

/-! ## Removing -/

/-- Modules augmenting or deviating those of a list, step by step. -/
def closure (lib : Lib) (ctx : Mods) : Nat → List Name → List Name
  | 0, l => l
  | k + 1, l => closure lib ctx k (l ++ (lib.names.filter fun n =>
      !l.contains n && l.any fun m => (lib.changedBy ctx m).contains n))

/-- sr_collect_module_impl_deps common.c 857-960: augmenting and deviating modules; the XPath used
to find modules with other dependencies (903-904) selects children of "deps" that the schema of the
internal data does not have, so it adds none. -/
def toRemove (lib : Lib) (ctx : Mods) (force : Bool) (asked : List Name) : List Name :=
  if force then closure lib ctx lib.names.length asked else asked

/-- sr_lycc_del_module context_change.c 376-463. -/
def delModules (lib : Lib) (call : Call) (old new : Mods) (del : List Name) : Step :=
  each del fun n => andThen
    (each allDs fun d => andThen (gate call (.uninstall n d)) (act (uninstall lib n d)))
    (act (yangRemove lib new (n, revOf old n)))

/-- A module to remove is still implemented in the new context, sr_lycc_check_del_module
context_change.c 349-374. -/
def stays (old new : Mods) (n : Name) : Bool := match old n, new n with
  | some i, some j => i.rev == j.rev
  | _, _ => false

/-- Goes on with the new internal data if they could be made. -/
def withRec (o : Option Rec) (k : Rec → Step) : Step := match o with
  | none => check (fun _ => false) .err
  | some r => k r

/-- sr_remove_modules sysrepo.c 1754-1874. -/
def remove (lib : Lib) (call : Call) (c : Nat) (asked : List Name) (force : Bool) (s : State) :
    State × Res :=
  match ctxLock lib call c s with
  | (s1, .ok) =>
    let old := (s1.conn c).ctx
    if !asked.all (fun n => (old n).isSome && call.fate (.perm n) == .go) then (s1, .err)
    else
      let del := toRemove lib old force asked
      match loadStored lib s1.yang (s1.shm.mods.drop del) with
      | none => (s1, .err)
      | some new =>
        if del.any (stays old new) then (s1, .err)
        else
          let data := migrate lib old new (fun _ => none) s1.data
          fin (andThen (gate call .subs) (andThen
            (each del fun n => andThen (gate call (.operDel n)) (act fun s =>
              { s with oper := fun x => if x = n then false else s.oper x }))
            (andThen (gate call .relock) (andThen (updateData lib call c new [] true)
            (withRec (lydRemove lib old new s1.lyd.mods del) fun r => andThen (lydWrite call .lydPrint r) (andThen (shmWrite call .shmStore r)
                (andThen (delModules lib call old new del)
                (andThen (storeData lib call new s1.data data) (switchCtx lib c new)))))))) (startWork s1))
  | x => x

/-! ## Updating -/

/-- The revisions of the modules to update must be later ones, context_change.c 465-495. -/
def laterRevs (old : Mods) (upd : List (Name × Nat)) : Bool :=
  upd.all fun u => u.2 != 0 && match old u.1 with
    | some i => i.rev == 0 || i.rev < u.2
    | none => false

/-- The updated modules keep the features that are enabled, sysrepo.c 1984-2014. -/
def updMods (lib : Lib) (old shm : Mods) (upd : List (Name × Nat)) : Mods := fun n =>
  match upd.find? (fun u => u.1 == n), old n with
  | some u, some i => some ⟨u.2, fun f => i.feats f && (lib.declared (n, i.rev)).contains f⟩
  | some _, none => none
  | none, _ => shm n

/-- libyang refuses a new revision that does not have a feature it is told to enable. -/
def featsKept (lib : Lib) (old : Mods) (upd : List (Name × Nat)) : Bool :=
  upd.all fun u => match old u.1 with
    | some i => (lib.declared (u.1, i.rev)).all fun f => !i.feats f || (lib.declared u).contains f
    | none => true

/-- sr_lycc_upd_modules context_change.c 507-533. -/
def updFiles (lib : Lib) (call : Call) (old new : Mods) (upd : List (Name × Nat)) : Step :=
  each upd fun u => andThen
    (act (yangRemove lib new (u.1, revOf old u.1)))
    (yangStore lib call u)

/-- sr_update_modules sysrepo.c 1929-2119. The new context has the other modules and the new
revisions; the files of the others must be stored. -/
def update (lib : Lib) (call : Call) (c : Nat) (upd : List (Name × Nat)) (s : State) : State × Res :=
  match ctxLock lib call c s with
  | (s1, .ok) =>
    let old := (s1.conn c).ctx
    if !upd.all (fun u => (old u.1).isSome && call.fate (.perm u.1) == .go &&
        call.fate (.parse u.1) == .go) || !featsKept lib old upd then (s1, .err)
    else match lib.load (updMods lib old s1.shm.mods upd) with
      | none => (s1, .err)
      | some new =>
        if !laterRevs old upd then (s1, .err)
        else
          let data := migrate lib old new (fun _ => none) s1.data
          fin (andThen (gate call .subs) (andThen (gate call .relock)
            (andThen (updateData lib call c new [] true)
            (withRec (lydUpdate lib old new s1.lyd.mods upd) fun r => andThen (lydWrite call .lydPrint r) (andThen (shmWrite call .shmStore r)
                (andThen (updFiles lib call old new upd)
                (andThen (storeData lib call new s1.data data) (switchCtx lib c new))))))) (startWork s1))
  | x => x

/-! ## Changing a feature -/

/-- The module with the changed feature, sr_load_module sysrepo.c 2445-2498. -/
def chngFeats (lib : Lib) (n : Name) (i : Info) (f : Feat) (enable : Bool) : Info :=
  { i with feats := fun x => (lib.declared (n, i.rev)).contains x &&
      if i.feats x then (enable || x != f) else (enable && x == f) }

/-- sr_change_module_feature sysrepo.c 2509-2620. -/
def feature (lib : Lib) (call : Call) (c : Nat) (n : Name) (f : Feat) (enable : Bool) (s : State) :
    State × Res :=
  match ctxLock lib call c s with
  | (s1, .ok) =>
    let old := (s1.conn c).ctx
    match old n with
    | none => (s1, .err)
    | some i =>
      if call.fate (.perm n) ≠ .go then (s1, .err)
      else if !(lib.declared (n, i.rev)).contains f then (s1, .err)
      else if i.feats f == enable then (s1, .err)
      else match loadStored lib s1.yang
          ((s1.shm.mods.drop [n]).set n (chngFeats lib n i f enable)) with
        | none => (s1, .err)
        | some new =>
          let data := migrate lib old new (fun _ => none) s1.data
          fin (andThen (gate call .subs) (andThen (gate call .relock)
            (andThen (updateData lib call c new [] true)
            (withRec (lydFeature lib old new s1.lyd.mods n f enable) fun r => andThen (lydWrite call .lydPrint r) (andThen (shmWrite call .shmStore r)
                (andThen (storeData lib call new s1.data data) (switchCtx lib c new)))))) (startWork s1))
  | x => x

/-! ## Histories -/

/-- What connections do. -/
inductive Op where
  | restart
  | connect (c : Nat)
  | lock (c : Nat)
  | installRead (c : Nat)
  | install (c : Nat) (reqs : List Req) (init : Option (Key → Option Val))
  | remove (c : Nat) (asked : List Name) (force : Bool)
  | update (c : Nat) (upd : List (Name × Nat))
  | feature (c : Nat) (n : Name) (f : Feat) (enable : Bool)

/-- A new connection makes its context from shared memory, sysrepo.c 306-314. -/
def connect (lib : Lib) (c : Nat) (s : State) : State × Res :=
  match loadStored lib s.yang s.shm.mods with
  | some x => (s.setConn c ⟨x, s.cid, none⟩, .ok)
  | none => (s, .err)

/-- A restart of the system: shared memory is gone and with it all connections; the first connection
fills it from the internal data, sysrepo.c 247-264. -/
def restart (s : State) : State :=
  { s with shm := s.lyd, cid := s.lyd.cid, conns := fun _ => none }

/-- One operation. -/
def Op.run (lib : Lib) (call : Call) (s : State) : Op → State × Res
  | .restart => (ModOps.restart s, .ok)
  | .connect c => ModOps.connect lib c s
  | .lock c => ctxLock lib call c s
  | .installRead c => (ModOps.installRead lib c s, .ok)
  | .install c reqs init => ModOps.install lib call c reqs init s
  | .remove c asked force => ModOps.remove lib call c asked force s
  | .update c upd => ModOps.update lib call c upd s
  | .feature c n f e => ModOps.feature lib call c n f e s

/-- A sequence of operations, each in its own circumstances. -/
def runAll (lib : Lib) : List (Call × Op) → State → State
  | [], s => s
  | (call, o) :: l, s => runAll lib l (o.run lib call s).1

end Verif.ModOps
