/-!
# NACM groups

Models the sorted string arrays of src/utils/nacm.c (`sr_nacm_strarr_sort_find` 451-466,
`sr_nacm_strarr_sort_add` 479-524, `sr_nacm_strarr_sort_del` 536-554), `sr_nacm_collect_groups`
(1256-1340) and `sr_nacm_rule_group_match` (1427-1453).

Strings are lists of bytes without the terminating zero. The order of the system groups and their
lookup (`getpwnam_r`, `getgrouplist`, `getgrgid_r`) are inputs. Failing memory allocation is not
modelled.
-/
namespace Verif.NacmGroup

abbrev Str := List Nat

/-- `strcmp(3)`. -/
def strcmp : Str → Str → Ordering
  | [], [] => .eq
  | [], _ :: _ => .lt
  | _ :: _, [] => .gt
  | a :: s, b :: t => if a < b then .lt else if b < a then .gt else strcmp s t

/-- `bsearch(3)` as in glibc: the middle of `[lo, hi)` is compared. `n` bounds the iterations, the
number of items is enough. -/
def bsearch (item : Str) (items : List Str) : Nat → Nat → Nat → Option Nat
  | 0, _, _ => none
  | n + 1, lo, hi =>
    if lo < hi then
      match strcmp item (items.getD ((lo + hi) / 2) []) with
      | .lt => bsearch item items n lo ((lo + hi) / 2)
      | .gt => bsearch item items n ((lo + hi) / 2 + 1) hi
      | .eq => some ((lo + hi) / 2)
    else none

/-- `sr_nacm_strarr_sort_find` (src/utils/nacm.c:451-466). -/
def sortFind (item : Str) (items : List Str) : Option Nat :=
  bsearch item items items.length 0 items.length

/-- The index the search for the place starts at (src/utils/nacm.c:489-496). `char` is signed, so
bytes from 128 are less than `a`. The product is computed with `double` in the code; the theorems
about `insertAt` hold for every starting index in the array. -/
def startIdx (item : Str) (count : Nat) : Nat :=
  let c := item.headD 0
  if c < 97 ∨ 128 ≤ c then 0
  else if c > 122 then count - 1
  else (c - 97) * count / 26

/-- Moving to the front while the previous item is greater (src/utils/nacm.c:500-502). -/
def down (item : Str) (items : List Str) : Nat → Nat
  | 0 => 0
  | i + 1 => if strcmp (items.getD i []) item = .gt then down item items i else i + 1

/-- Moving to the end while the item is less (src/utils/nacm.c:504-506), at most `n` steps. -/
def up (item : Str) (items : List Str) : Nat → Nat → Nat
  | 0, i => i
  | n + 1, i =>
    if i < items.length ∧ strcmp (items.getD i []) item = .lt then up item items n (i + 1) else i

/-- The place to insert (src/utils/nacm.c:498-507). -/
def place (item : Str) (items : List Str) (i : Nat) : Nat :=
  if items.length ≠ 0 ∧ strcmp (items.getD i []) item = .gt then down item items i
  else if items.length ≠ 0 ∧ strcmp (items.getD i []) item = .lt then up item items items.length i
  else i

/-- Insertion (src/utils/nacm.c:509-523) with the search starting at `i`. -/
def insertAt (item : Str) (items : List Str) (i : Nat) : List Str :=
  let j := place item items i
  items.take j ++ item :: items.drop j

/-- `sr_nacm_strarr_sort_add` (src/utils/nacm.c:479-524). -/
def sortAdd (checkDup : Bool) (item : Str) (items : List Str) : List Str :=
  if checkDup ∧ (sortFind item items).isSome then items
  else insertAt item items (startIdx item items.length)

/-- `sr_nacm_strarr_sort_del` (src/utils/nacm.c:536-554); `none` = the assertion fails. -/
def sortDel (item : Str) (items : List Str) : Option (List Str) :=
  (sortFind item items).map (fun i => items.take i ++ items.drop (i + 1))

/-- A configured group: name and users. -/
structure Group where
  name : Str
  users : List Str
  deriving Repr, DecidableEq

/-- `sr_nacm_collect_groups` (src/utils/nacm.c:1256-1340): the NACM groups, then the system groups
(`none`: external groups are disabled or the user is unknown). -/
def collect (groups : List Group) (sys : Option (List Str)) (user : Str) : List Str :=
  let nacm := groups.foldl (fun acc g =>
    g.users.foldl (fun acc u => if u = user then sortAdd false g.name acc else acc) acc) []
  (sys.getD []).foldl (fun acc g => sortAdd true g acc) nacm

/-- The wildcard group `*`. -/
def star : Str := [42]

/-- `sr_nacm_rule_group_match` (src/utils/nacm.c:1427-1453) on the remaining groups of the rule
list and of the user. -/
def groupMatch : List Str → List Str → Bool
  | [], _ => false
  | _ :: _, [] => false
  | g :: gs, u :: us =>
    if strcmp g star = .eq then true
    else
      match strcmp g u with
      | .gt => groupMatch (g :: gs) us
      | .lt => groupMatch gs (u :: us)
      | .eq => true
  termination_by a b => a.length + b.length

/-- A change of the groups of a rule list in the configuration. -/
inductive Op where
  | add (g : Str)
  | del (g : Str)
  deriving Repr, DecidableEq

/-- Processing of one change by `sr_nacm_rule_list_cb` (src/utils/nacm.c:687-698). -/
def applyOp (l : List Str) : Op → Option (List Str)
  | .add g => some (sortAdd false g l)
  | .del g => sortDel g l

def run : List Str → List Op → Option (List Str)
  | l, [] => some l
  | l, o :: os => (applyOp l o).bind (fun l' => run l' os)

/-! ## Specification -/

/-- The configured groups of a rule list after changes (a leaf-list). -/
def configured : List Str → List Op → List Str
  | l, [] => l
  | l, .add g :: os => configured (g :: l) os
  | l, .del g :: os => configured (l.filter (· ≠ g)) os

/-- The changes make sense: only absent groups are created, only present ones deleted. -/
def validOps : List Str → List Op → Prop
  | _, [] => True
  | l, .add g :: os => g ∉ l ∧ validOps (g :: l) os
  | l, .del g :: os => g ∈ l ∧ validOps (l.filter (· ≠ g)) os

/-- `user` is a member of the group `g`. -/
def memberOf (groups : List Group) (sys : Option (List Str)) (user g : Str) : Prop :=
  (∃ gr ∈ groups, gr.name = g ∧ user ∈ gr.users) ∨ (∃ l, sys = some l ∧ g ∈ l)

end Verif.NacmGroup
