/-!
Model of the XPath iterator, utils/xpath.c 27-593.

The string is a buffer of characters that ends with a NUL; pointers into it are offsets. All calls work with the same string: the
argument `xpath` is its beginning or `NULL`. Reading or writing outside of the buffer, or using a `NULL` pointer, is
the outcome `oob`. Loops over the functions have a limit of steps; `hang` is running out of it.
-/
namespace Verif.XPathUtil

def nul : Char := '\x00'

def isQuote (c : Char) : Bool := c = '\'' || c = '"'

/-- The string and `sr_xpath_ctx_t` (xpath.h 45-50). -/
structure St where
  buf : List Char
  begining : Option Nat
  cur : Option Nat
  pos : Option Nat
  ch : Char
deriving DecidableEq

/-- Outcome of a call that returns a pointer. -/
inductive Res where
  | ok (ptr : Option Nat) (st : St)
  | oob
  | hang
deriving DecidableEq

/-- Go on with the pointer and the state. -/
def Res.bind (r : Res) (f : Option Nat → St → Res) : Res :=
  match r with
  | .ok p st => f p st
  | .oob => .oob
  | .hang => .hang

/-- A loop that moves over quoted text: xpath.c 49-58 and 125-134. The list is the buffer from the index. -/
def scanQ (stop : Char → Bool) (quot : Option Char) : List Char → Nat → Option Nat
  | [], _ => none
  | c :: cs, i =>
    if c = nul ∨ (quot = none ∧ stop c = true) then some i
    else if quot = some c then scanQ stop none cs (i + 1)
    else if quot = none ∧ isQuote c then scanQ stop (some c) cs (i + 1)
    else scanQ stop quot cs (i + 1)

/-- A loop that moves up to a character: xpath.c 68-70, 79-81, 143-145, 180-182, 192-194. -/
def scan (stop : Char → Bool) : List Char → Nat → Option Nat
  | [], _ => none
  | c :: cs, i => if c = nul ∨ stop c = true then some i else scan stop cs (i + 1)

/-- `sr_xpath_recover`, xpath.c 585-593. -/
def recover (st : St) : Option St :=
  match st.pos with
  | none => some st
  | some p => if p < st.buf.length then some { st with buf := st.buf.set p st.ch } else none

/-- The beginning of all the functions, xpath.c 36-43. -/
def start (xp : Bool) (st : St) : Option St :=
  if xp then st.buf[0]?.map fun c => { st with begining := some 0, cur := none, pos := some 0, ch := c }
  else recover st

/-- The index the search starts from, xpath.c 45-48. -/
def from_ (st : St) (p : Nat) : Nat := if isQuote st.ch then p + 1 else p

/-- Terminate the string at the index and remember the character, xpath.c 84-86. -/
def cut (st : St) (j : Nat) (c : Char) : St := { st with pos := some j, ch := c, buf := st.buf.set j nul }

/-- `sr_get_next_node_internal`, xpath.c 27-90. -/
def nextNode (skipNs xp : Bool) (st0 : St) : Res :=
  match start xp st0 with
  | none => .oob
  | some st =>
  match st.pos with
  | none => .oob
  | some p =>
  match scanQ (fun c => c = '/') none (st.buf.drop (from_ st p)) (from_ st p) with
  | none => .oob
  | some i =>
  match st.buf[i]? with
  | none => .oob
  | some c =>
  if c = nul then .ok none st
  else
    match scan (fun c => c = '/' || c = ':' || c = '[') (st.buf.drop (i + 1)) (i + 1) with
    | none => .oob
    | some j =>
    match st.buf[j]? with
    | none => .oob
    | some d =>
    if d = ':' then
      let k := if skipNs then j + 1 else j
      let cur := if skipNs then j + 1 else i + 1
      match scan (fun c => c = '/' || c = '[') (st.buf.drop k) k with
      | none => .oob
      | some l =>
      match st.buf[l]? with
      | none => .oob
      | some e => .ok (some cur) (cut { st with cur := some cur } l e)
    else .ok (some (i + 1)) (cut { st with cur := some (i + 1) } j d)

/-- `sr_xpath_next_key_name`, xpath.c 104-154. -/
def nextKeyName (xp : Bool) (st0 : St) : Res :=
  match start xp st0 with
  | none => .oob
  | some st =>
  match st.pos with
  | none => .oob
  | some p =>
  match scanQ (fun c => c = '[' || c = '/') none (st.buf.drop (from_ st p)) (from_ st p) with
  | none => .oob
  | some i =>
  match st.buf[i]? with
  | none => .oob
  | some c =>
  if c = nul ∨ c = '/' then .ok none st
  else
    match scan (fun c => c = '=') (st.buf.drop (i + 1)) (i + 1) with
    | none => .oob
    | some j =>
    match st.buf[j]? with
    | none => .oob
    | some d => if d = '=' then .ok (some (i + 1)) (cut st j d) else .ok (some (i + 1)) st

/-- `sr_xpath_next_key_value`, xpath.c 156-204. -/
def nextKeyValue (xp : Bool) (st0 : St) : Res :=
  match start xp st0 with
  | none => .oob
  | some st =>
  match st.pos with
  | none => .oob
  | some p =>
  match scan (fun c => isQuote c || c = '/') (st.buf.drop (from_ st p)) (from_ st p) with
  | none => .oob
  | some i =>
  match st.buf[i]? with
  | none => .oob
  | some c =>
  if c = nul ∨ c = '/' then .ok none st
  else
    match scan (fun d => d = c) (st.buf.drop (i + 1)) (i + 1) with
    | none => .oob
    | some j =>
    match st.buf[j]? with
    | none => .oob
    | some d => if d = c then .ok (some (i + 1)) (cut st j d) else .ok (some (i + 1)) st

/-- The C string at the beginning of the list, `none` without a terminating NUL. -/
def cstr : List Char → Option (List Char)
  | [] => none
  | c :: cs => if c = nul then some [] else (cstr cs).map (c :: ·)

/-- Search for a name with one of the functions, xpath.c 232-236, 272-276, 381-385. -/
def search (next : St → Res) (name : List Char) : Nat → St → Res
  | 0, _ => .hang
  | f + 1, st => (next st).bind fun p st =>
    match p with
    | none => .ok none st
    | some i =>
      match cstr (st.buf.drop i) with
      | none => .oob
      | some t => if t = name then .ok (some i) st else search next name f st

/-- `while (NULL != (node = next()) && cnt++ < index) {}`, xpath.c 313, 345, 425. -/
def searchIdx (next : St → Res) : Nat → St → Res
  | 0, st => next st
  | n + 1, st => (next st).bind fun p st =>
    match p with
    | none => .ok none st
    | some _ => searchIdx next n st

/-- Put back the remembered position after an unsuccessful search. -/
def putBack (old : St) (st : St) : St := { st with pos := old.pos, ch := old.ch }

/-- The end of a search, xpath.c 238-244, 315-321, 347-354. -/
def orPutBack (old : St) (p : Option Nat) (st : St) : Res :=
  match p with
  | none => .ok none (putBack old st)
  | some i => .ok (some i) st

/-- Search from the beginning, xpath.c 227-230, 308-311. -/
def toBegin (st : St) : Option St :=
  match st.begining with
  | none => none
  | some b => st.buf[b]?.map fun c => { st with cur := none, pos := some b, ch := c }

/-- `sr_xpath_node`, xpath.c 206-246; the names have no NUL. -/
def node (fuel : Nat) (xp : Bool) (name : List Char) (st0 : St) : Res :=
  if st0.begining = none ∧ xp = false then .ok none st0
  else
    match start xp st0 with
    | none => .oob
    | some st =>
    match toBegin st with
    | none => .oob
    | some st1 => (search (nextNode true false) name fuel st1).bind (orPutBack st)

/-- `sr_xpath_node_rel`, xpath.c 248-286. -/
def nodeRel (fuel : Nat) (xp : Bool) (name : List Char) (st0 : St) : Res :=
  match start xp st0 with
  | none => .oob
  | some st => (search (nextNode true false) name fuel st).bind fun _ st2 =>
      match st2.cur with
      | none => .ok none (putBack st st2)
      | some i => .ok (some i) st2

/-- `sr_xpath_node_idx`, xpath.c 288-322. -/
def nodeIdx (xp : Bool) (n : Nat) (st0 : St) : Res :=
  if st0.begining = none ∧ xp = false then .ok none st0
  else
    match start xp st0 with
    | none => .oob
    | some st =>
    match toBegin st with
    | none => .oob
    | some st1 => (searchIdx (nextNode true false) n st1).bind (orPutBack st)

/-- `sr_xpath_node_idx_rel`, xpath.c 324-355. -/
def nodeIdxRel (xp : Bool) (n : Nat) (st0 : St) : Res :=
  match start xp st0 with
  | none => .oob
  | some st => (searchIdx (nextNode true false) n st).bind (orPutBack st)

/-- Go on at the current node, xpath.c 378-379, 422-423. -/
def atCurrent (f : St → Res) (st : St) : Res :=
  match st.cur with
  | none => .oob
  | some c =>
    match st.buf[c]? with
    | none => .oob
    | some ch => f { st with pos := some c, ch := ch }

/-- Move to the current node, or to the first one if there is none, xpath.c 371-379, 415-423. -/
def toCurrent (st : St) (f : St → Res) : Res :=
  match st.cur with
  | some _ => atCurrent f st
  | none => (nextNode true false st).bind fun p st2 =>
      match recover st2 with
      | none => .oob
      | some st3 =>
        match p with
        | none => .ok none st3
        | some _ => atCurrent f st3

/-- The value of the key that was found, xpath.c 387-397, 427-435. -/
def thenValue (old : St) (p : Option Nat) (st : St) : Res :=
  match p with
  | none => .ok none (putBack old st)
  | some _ => nextKeyValue false st

/-- `sr_xpath_node_key_value`, xpath.c 357-398. -/
def nodeKeyValue (fuel : Nat) (xp : Bool) (key : List Char) (st0 : St) : Res :=
  match start xp st0 with
  | none => .oob
  | some st => toCurrent st fun st1 => (search (nextKeyName false) key fuel st1).bind (thenValue st)

/-- `sr_xpath_node_key_value_idx`, xpath.c 400-436. -/
def nodeKeyValueIdx (xp : Bool) (n : Nat) (st0 : St) : Res :=
  match start xp st0 with
  | none => .oob
  | some st => toCurrent st fun st1 => (searchIdx (nextKeyName false) n st1).bind (thenValue st)

/-- `sr_xpath_key_value`, xpath.c 438-473. -/
def keyValue (fuel : Nat) (xp : Bool) (name key : List Char) (st0 : St) : Res :=
  match start xp st0 with
  | none => .oob
  | some st => (node fuel false name st).bind fun p st1 =>
      match p with
      | none => .ok none st1
      | some _ => (nodeKeyValue fuel false key st1).bind (orPutBack st)

/-- `sr_xpath_key_value_idx`, xpath.c 475-509. -/
def keyValueIdx (xp : Bool) (n k : Nat) (st0 : St) : Res :=
  match start xp st0 with
  | none => .oob
  | some st => (nodeIdx false n st).bind fun p st1 =>
      match p with
      | none => .ok none st1
      | some _ => (nodeKeyValueIdx false k st1).bind (orPutBack st)

/-- Repeat until there is no node, xpath.c 530. -/
def toLast : Nat → St → Res
  | 0, _ => .hang
  | f + 1, st => (nextNode true false st).bind fun p st =>
    match p with
    | none => .ok st.cur st
    | some _ => toLast f st

/-- `sr_xpath_last_node`, xpath.c 511-533. -/
def lastNode (fuel : Nat) (xp : Bool) (st0 : St) : Res :=
  match start xp st0 with
  | none => .oob
  | some st => toLast fuel st

/-- The loop of `sr_xpath_node_name`, xpath.c 542-550, over the characters in front of the index, the nearest first; the list ends with the
first character of the string. The result is the number of characters in front of the place where it stops. -/
def backLoop (quot : Option Char) : List Char → Nat
  | [] => 0
  | [_] => 0
  | c :: d :: cs =>
    if quot = none ∧ c = '/' then (d :: cs).length
    else if quot = some c then backLoop none (d :: cs)
    else if quot = none ∧ isQuote c then backLoop (some c) (d :: cs)
    else backLoop quot (d :: cs)

/-- `sr_xpath_node_name`, xpath.c 535-560: `none` is out of bounds (the empty string), `some none` is `NULL`. -/
def nodeName (s : List Char) : Option (Option Nat) :=
  if s = [] then none
  else
    let i := backLoop none s.reverse
    if i = 0 then some none else some (some (i + 1))

/-- A call of the API. -/
inductive Op where
  | nextNode | nextNodeWithNs | nextKeyName | nextKeyValue
  | node (name : List Char) | nodeRel (name : List Char) | nodeIdx (n : Nat) | nodeIdxRel (n : Nat)
  | nodeKeyValue (key : List Char) | nodeKeyValueIdx (n : Nat)
  | keyValue (name key : List Char) | keyValueIdx (n k : Nat) | lastNode | recover

/-- Execute a call; `xp` is whether the string is passed. -/
def Op.exec (fuel : Nat) (op : Op) (xp : Bool) (st : St) : Res :=
  match op with
  | .nextNode => XPathUtil.nextNode true xp st
  | .nextNodeWithNs => XPathUtil.nextNode false xp st
  | .nextKeyName => XPathUtil.nextKeyName xp st
  | .nextKeyValue => XPathUtil.nextKeyValue xp st
  | .node n => XPathUtil.node fuel xp n st
  | .nodeRel n => XPathUtil.nodeRel fuel xp n st
  | .nodeIdx n => XPathUtil.nodeIdx xp n st
  | .nodeIdxRel n => XPathUtil.nodeIdxRel xp n st
  | .nodeKeyValue k => XPathUtil.nodeKeyValue fuel xp k st
  | .nodeKeyValueIdx n => XPathUtil.nodeKeyValueIdx xp n st
  | .keyValue n k => XPathUtil.keyValue fuel xp n k st
  | .keyValueIdx n k => XPathUtil.keyValueIdx xp n k st
  | .lastNode => XPathUtil.lastNode fuel xp st
  | .recover => match XPathUtil.recover st with | none => .oob | some st => .ok none st

end Verif.XPathUtil
