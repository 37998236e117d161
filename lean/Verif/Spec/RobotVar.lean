import Verif.Compiler

/-! Specification: what Robot Framework sees in an argument (robot/variables/search.py `_search_variable`, robot/utils/escaping.py `split_from_equals`;
Robot Framework 4–7; not part of /repo). Of the models only the data type of pickle arguments is used. -/

namespace Gherkin.Robot

/-- Reads on inside a variable with `n` open braces; `esc`: after a backslash that is not itself escaped. Gives what follows the brace that closes
the variable. -/
def closeVar : Nat → Bool → Str → Option Str
  | _, _, [] => none
  | n, esc, c :: s =>
    if c = '}' ∧ esc = false then (if n ≤ 1 then some s else closeVar (n - 1) false s)
    else if c = '{' ∧ esc = false then closeVar (n + 1) false s
    else closeVar n (c == '\\' && !esc) s

/-- The whole argument is one dictionary variable. -/
def DictVariable (a : Str) : Prop := ∃ s, a = '&' :: '{' :: s ∧ closeVar 1 false s = some []

/-- The character after `pre` is escaped: an odd number of backslashes stands before it. -/
def EscapedAfter (pre : Str) : Prop := (pre.reverse.takeWhile (· == '\\')).length % 2 = 1

/-- A brace. -/
def isBrace (c : Char) : Bool := c == '{' || c == '}'

/-- The braces in the dictionary for an argument, in order: those of the dictionaries and those in the texts. -/
def bracesOf : PArg → Str
  | .table rows => ['{'] ++ rows.flatMap (fun cells => ['{'] ++ cells.flatMap (fun v => ['{'] ++ v.filter isBrace ++ ['}']) ++ ['}']) ++ ['}']
  | .doc content mediaType => ['{'] ++ content.filter isBrace ++ (mediaType.getD []).filter isBrace ++ ['}']

/-- As many closing as opening braces, and nowhere two more closing braces than opening ones before. -/
def BracesClose (bs : Str) : Prop := (∀ p, p <+: bs → p.count '}' < p.count '{' + 2) ∧ bs.count '}' = bs.count '{'

/-- Every brace has its partner. -/
def BalancedBraces (s : Str) : Prop := (∀ p, p <+: s → p.count '}' ≤ p.count '{') ∧ s.count '}' = s.count '{'

/-- The texts of an argument. -/
def textsOf : PArg → List Str
  | .table rows => rows.flatten
  | .doc content mediaType => content :: mediaType.toList

end Gherkin.Robot
