/-!
Model of the functions that cut XPaths: `sr_get_trim_predicates` (common.c 3583-3632), `sr_xpath_trim_last_node`
(common.c 4650-4690) and `sr_xpath_len_no_predicates` (common.c 4717-4752).

A C string is the list of its characters. Memory allocation does not fail.
-/
namespace Verif.XPathTrim

/-- The loop of `sr_get_trim_predicates`, common.c 3597-3621, and its end 3623-3631. `str` is the output string, `chunk` the characters
from `start` to `ptr`. `none` is an error. `pred` is never negative: the code fails when it would become so. -/
def trimLoop (quot : Option Char) (pred : Nat) (str chunk : List Char) : List Char → Option (List Char)
  | [] => if quot.isSome || pred ≠ 0 then none else some (str ++ chunk)
  | c :: cs =>
    match quot with
    | some q => trimLoop (if c = q then none else some q) pred str (chunk ++ [c]) cs
    | none =>
      if c = '\'' ∨ c = '"' then trimLoop (some c) pred str (chunk ++ [c]) cs
      else if c = '[' then
        trimLoop none (pred + 1) (if pred + 1 = 1 then str ++ chunk else str) (chunk ++ [c]) cs
      else if c = ']' then
        if pred = 0 then none
        else trimLoop none (pred - 1) str (if pred - 1 = 0 then [] else chunk ++ [c]) cs
      else trimLoop none pred str (chunk ++ [c]) cs

/-- `sr_get_trim_predicates`. -/
def trimPredicates (expr : List Char) : Option (List Char) := trimLoop none 0 [] [] expr

/-- The loop of `sr_xpath_trim_last_node`, common.c 4661-4670, over the reversed string; the result begins with the slash it stopped
at. `none` is reading in front of the string. -/
def lastSlash (skipping : Bool) : List Char → Option (List Char)
  | [] => none
  | c :: cs =>
    if skipping = false ∧ c = '/' then some (c :: cs)
    else if skipping = true ∧ c = '[' then lastSlash false cs
    else if c = ']' then lastSlash true cs
    else lastSlash skipping cs

/-- Result of `sr_xpath_trim_last_node`. -/
inductive Last where
  | crash
  | whole
  | parent (xpath : List Char)
deriving DecidableEq

/-- `sr_xpath_trim_last_node`, common.c 4650-4690. -/
def trimLast (xpath : List Char) : Last :=
  match lastSlash false xpath.reverse with
  | none => .crash
  | some [] => .crash
  | some (_ :: before) =>
    if before = [] then .whole
    else if before.head? = some '/' then .parent before.tail.reverse
    else .parent before.reverse

/-- The loop of `sr_xpath_len_no_predicates`, common.c 4724-4751. -/
def lenLoop (quoted : Option Char) (predicate : Int) (len : Nat) : List Char → Nat
  | [] => if quoted.isSome || predicate ≠ 0 then 0 else len
  | c :: cs =>
    match quoted with
    | some q => lenLoop (if c = q then none else some q) predicate len cs
    | none =>
      if c = '[' then lenLoop none (predicate + 1) len cs
      else if c = ']' then lenLoop none (predicate - 1) len cs
      else if c = '\'' ∨ c = '"' then lenLoop (some c) predicate len cs
      else lenLoop none predicate (len + 1) cs

/-- `sr_xpath_len_no_predicates`. -/
def lenNoPredicates (xpath : List Char) : Nat := lenLoop none 0 0 xpath

/-! ## Specification: the syntax of the expressions -/

/-- A piece of an expression: a character, a literal in single or double quotes, a predicate. -/
inductive Item where
  | ch (c : Char)
  | lit (double : Bool) (text : List Char)
  | pred (content : List Item)

/-- The quote of a literal. -/
def quote (double : Bool) : Char := if double then '"' else '\''

mutual
/-- The text of a piece. -/
def Item.text : Item → List Char
  | .ch c => [c]
  | .lit d t => quote d :: (t ++ [quote d])
  | .pred is => '[' :: (itemsText is ++ [']'])
/-- The text of an expression. -/
def itemsText : List Item → List Char
  | [] => []
  | i :: is => i.text ++ itemsText is
end

mutual
/-- Single characters are not quotes or brackets, a literal has not its quote inside. -/
def Item.Valid : Item → Prop
  | .ch c => c ≠ '\'' ∧ c ≠ '"' ∧ c ≠ '[' ∧ c ≠ ']'
  | .lit d t => quote d ∉ t
  | .pred is => itemsValid is
def itemsValid : List Item → Prop
  | [] => True
  | i :: is => i.Valid ∧ itemsValid is
end

/-- The expression without its predicates. -/
def withoutPreds (is : List Item) : List Item := is.filter fun i => match i with | .pred _ => false | _ => true

/-- The text of a predicate that has no brackets inside. -/
def IsSimplePred (t : List Char) : Prop := ∃ x, t = '[' :: (x ++ [']']) ∧ '[' ∉ x ∧ ']' ∉ x

end Verif.XPathTrim
