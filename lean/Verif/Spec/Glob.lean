import Verif.Py

/-! Specification of glob patterns, independent of regular expressions. -/

namespace Gherkin.Glob

/-- What can stand in a character class: a character or a range. -/
inductive ClassItem
  | char (c : Char) | range (a b : Char)
  deriving DecidableEq, Repr

def ClassItem.Has : ClassItem → Char → Prop
  | .char a, c => c = a
  | .range a b, c => a ≤ c ∧ c ≤ b

/-- What can stand inside a path component or an alternative. -/
inductive Simple
  | char (c : Char) | any | many | cls (items : List ClassItem)
  deriving DecidableEq, Repr

/-- The items of a pattern: simple ones, `{a,b,…}` and `**` as a whole component. -/
inductive Item
  | one (s : Simple) | oneOf (alts : List (List Simple)) | dirs
  deriving DecidableEq, Repr

/-- `?` is any character, `*` any text without `/`, `[...]` one of the characters. -/
inductive SimpleFits : List Simple → Str → Prop
  | nil : SimpleFits [] []
  | char (c : Char) {ss : List Simple} {w : Str} : SimpleFits ss w → SimpleFits (.char c :: ss) (c :: w)
  | any (c : Char) {ss : List Simple} {w : Str} : SimpleFits ss w → SimpleFits (.any :: ss) (c :: w)
  | cls (c : Char) {is : List ClassItem} {ss : List Simple} {w : Str} : (∃ i ∈ is, i.Has c) → SimpleFits ss w → SimpleFits (.cls is :: ss) (c :: w)
  | many (v : Str) {ss : List Simple} {w : Str} : '/' ∉ v → SimpleFits ss w → SimpleFits (.many :: ss) (v ++ w)

/-- A path fits a pattern. `**` stands for any number of whole components with their `/` or, at the end, for anything (a line end
counts as an end). -/
inductive Fits : List Item → Str → Prop
  | nil : Fits [] []
  | one {s : Simple} {v : Str} {g : List Item} {w : Str} : SimpleFits [s] v → Fits g w → Fits (.one s :: g) (v ++ w)
  | oneOf {alts : List (List Simple)} {a : List Simple} {v : Str} {g : List Item} {w : Str} :
      a ∈ alts → SimpleFits a v → Fits g w → Fits (.oneOf alts :: g) (v ++ w)
  | dirs {v : Str} {g : List Item} {w : Str} :
      (v = [] ∨ v.getLast? = some '/' ∨ w = [] ∨ w.head? = some '\n') → Fits g w → Fits (.dirs :: g) (v ++ w)

/-- How a class is written. -/
def ClassItem.write : ClassItem → Str
  | .char c => [c]
  | .range a b => [a, '-', b]

/-- How a simple item is written. -/
def Simple.write : Simple → Str
  | .char c => [c]
  | .any => ['?']
  | .many => ['*']
  | .cls items => '[' :: (items.flatMap ClassItem.write ++ [']'])

/-- How a pattern is written. -/
def write : List Item → Str
  | [] => []
  | .one s :: g => s.write ++ write g
  | .oneOf alts :: g => '{' :: (joinStr [','] (alts.map fun a => a.flatMap Simple.write) ++ '}' :: write g)
  | [.dirs] => ['*', '*']
  | .dirs :: g => '*' :: '*' :: '/' :: write g

/-- A character that stands for itself. -/
def plain (c : Char) : Bool := c ∉ py"?*[]{}"

/-- A class: not empty, plain characters other than `,` and `-`, ranges in order. -/
def ClassItem.Ok : ClassItem → Prop
  | .char c => plain c ∧ c ≠ ',' ∧ c ≠ '-'
  | .range a b => (plain a ∧ a ≠ ',' ∧ a ≠ '-') ∧ (plain b ∧ b ≠ ',' ∧ b ≠ '-') ∧ a ≤ b

def ClassOk (items : List ClassItem) : Prop := items ≠ [] ∧ ∀ i ∈ items, i.Ok

/-- No `*` beside another, only plain characters, no comma. -/
def SimpleOk : List Simple → Prop
  | [] => True
  | .char c :: ss => plain c ∧ c ≠ ',' ∧ SimpleOk ss
  | .any :: ss => SimpleOk ss
  | .cls items :: ss => ClassOk items ∧ SimpleOk ss
  | .many :: ss => ss.head? ≠ some .many ∧ SimpleOk ss

/-- Which patterns are written unambiguously: plain characters, no `*` beside another star, `**` only at the start and after `/`
(`atStart`), alternatives not empty. -/
def Ok (atStart : Bool) : List Item → Prop
  | [] => True
  | .one (.char c) :: g => plain c ∧ Ok (c == '/') g
  | .one .any :: g => Ok false g
  | .one (.cls items) :: g => ClassOk items ∧ Ok false g
  | .one .many :: g => g.head? ≠ some (.one .many) ∧ g.head? ≠ some .dirs ∧ Ok false g
  | .oneOf alts :: g => alts ≠ [] ∧ (∀ a ∈ alts, SimpleOk a) ∧ Ok false g
  | .dirs :: g => atStart = true ∧ Ok true g

end Gherkin.Glob
