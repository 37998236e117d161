import Verif.Line

/-! Specification: how tag lines are written. -/

namespace Gherkin

/-- A tag as written: `@`, white space (usually none), the name, white space (possibly none). -/
structure SrcTag where
  gap : Str
  name : Str
  ws : Str

/-- The source of a tag. -/
def SrcTag.src (t : SrcTag) : Str := '@' :: (t.gap ++ t.name ++ t.ws)

/-- Tag names contain neither white space nor `@`. -/
def TagName (s : Str) : Prop := ∀ c ∈ s, isSpace c = false ∧ c ≠ '@'

/-- White space. -/
def White (s : Str) : Prop := ∀ c ∈ s, isSpace c = true

/-- The end of a tag line: nothing, or a comment (`#` after white space). -/
inductive TagEnd : Str → Prop
  | nil : TagEnd []
  | comment {c rest} : isSpace c = true → TagEnd (c :: '#' :: rest)

end Gherkin
