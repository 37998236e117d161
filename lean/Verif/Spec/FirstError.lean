import Verif.Spec.Source
import Verif.Spec.LineKind
import Verif.Parser

/-! Specification: what the place of the first syntax error means. Nothing here depends on the parser's tables. -/

namespace Gherkin

/-- A syntax error: a line that may not stand where it stands, or a text that ends too early. -/
def Err.Unexpected (e : Err) : Prop :=
  (∃ expected got, e.kind = .unexpectedToken expected got) ∨ ∃ expected, e.kind = .unexpectedEof expected

/-- The text of the lines before line `n` (the first line is line 1). -/
def textBefore (text : Str) (n : Nat) : Str := ((splitLines text).take (n - 1)).flatten

/-- Two texts that agree in their first `n` lines, and both have so many. -/
def SameUpTo (n : Nat) (s t : Str) : Prop :=
  n ≤ (splitLines s).length ∧ (splitLines s).take n = (splitLines t).take n

/-- Among these lines two rows follow each other, with nothing but blank lines and comments between them, that have different numbers of
cells. -/
def UnevenRows (ls : List Line) : Prop :=
  ∃ a r b r' c cells cells', ls = a ++ r :: b ++ r' :: c ∧ (∀ x ∈ b, isBlankLine x = true ∨ firstIs '#' x = true) ∧
    firstIs '|' r = true ∧ firstIs '|' r' = true ∧ r.tableCells = .ok cells ∧ r'.tableCells = .ok cells' ∧ cells.length ≠ cells'.length

end Gherkin
