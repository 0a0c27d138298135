/-!
# The plugin daemon (model and specification)

`sysrepo-plugind` sorts its plugins by the configured order, initializes them
and cleans them up when it ends.

Names are lists of characters.  Simplified: an array is a list; loading of the
plugins and the connection succeed.
-/

namespace Verif.Plugind

/-- Length of a name without its extension.
Models `srpd_path_len_no_ext()`, src/executables/srpd_common.c lines 69–76:
everything before the last dot, or the whole name. -/
def lenNoExt (s : List Char) : Nat :=
  match s.reverse.idxOf? '.' with
  | some i => s.length - 1 - i
  | none => s.length

/-- The name of a plugin loaded from a file, `load_plugins()`,
src/executables/sysrepo-plugind.c lines 362–375. -/
def pluginName (file : List Char) : List Char := file.take (lenNoExt file)

/-- Whether a configured name means a plugin.
Models `srpd_plugin_names_cmp()`, src/executables/srpd_common.c lines 148–161. -/
def matches? (plugin conf : List Char) : Bool :=
  plugin.length == lenNoExt conf && plugin == conf.take (lenNoExt conf)

/-- Models `srpd_swap()`, src/executables/srpd_common.c lines 134–145. -/
def swap (l : List (List Char)) (a b : Nat) : List (List Char) :=
  match l[a]?, l[b]? with
  | some x, some y => (l.set a y).set b x
  | _, _ => l

/-- The inner loop for one configured name, `n` plugins from the index `j`; `ord` is
`ordered_part`.  Models src/executables/srpd_common.c lines 178–183. -/
def pass (conf : List Char) : Nat → List (List Char) → Nat → Nat → List (List Char) × Nat
  | 0, l, _, ord => (l, ord)
  | n + 1, l, j, ord =>
    match l[j]? with
    | none => (l, ord)
    | some p =>
      if matches? p conf then pass conf n (swap l ord j) (j + 1) (ord + 1)
      else pass conf n l (j + 1) ord

/-- The outer loop.  Models `srpd_sort_plugins()`, src/executables/srpd_common.c
lines 164–189. -/
def sortFrom : List (List Char) → List (List Char) → Nat → List (List Char)
  | [], l, _ => l
  | c :: cs, l, ord =>
    let r := pass c (l.length - ord) l ord ord
    sortFrom cs r.1 r.2

/-- Sorting of plugins by the configured names. -/
def sort (confs plugins : List (List Char)) : List (List Char) := sortFrom confs plugins 0

/-- Calls of plugins. -/
inductive Ev where
  | init (p : List Char)
  | cleanup (p : List Char)
deriving DecidableEq, Repr

/-- Initialization: the calls and the plugins initialized; whether all were tried.
Models src/executables/sysrepo-plugind.c lines 584–598. -/
def initAll (ok : List Char → Bool) (fatal : Bool) : List (List Char) → List Ev × List (List Char)
  | [] => ([], [])
  | p :: ps =>
    if ok p then
      let r := initAll ok fatal ps
      (.init p :: r.1, p :: r.2)
    else if fatal then ([.init p], [])
    else
      let r := initAll ok fatal ps
      (.init p :: r.1, r.2)

/-- A run of the daemon: all the calls.
Models `main()`, src/executables/sysrepo-plugind.c lines 578–651. -/
def daemon (ok : List Char → Bool) (fatal : Bool) (confs plugins : List (List Char)) : List Ev :=
  let r := initAll ok fatal (sort confs plugins)
  r.1 ++ r.2.map .cleanup

/-! ## Specification -/

/-- Position of the first configured name that means a plugin, according to a relation;
the number of names if there is none. -/
def rank (means : List Char → List Char → Bool) (confs : List (List Char)) (p : List Char) : Nat :=
  confs.findIdx (means p)

/-- A name means a file: it is the file name or the file name without its extension `.e`. -/
def Means (stem ext : List Char) (conf : List Char) : Prop :=
  conf = stem ++ '.' :: ext ∨ conf = stem

end Verif.Plugind
