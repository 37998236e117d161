import Verif.Spec.LineKind
import Verif.Spec.Language
import Verif.Spec.Tags

/-! Specification: which errors a text can cause, and where. Nothing here depends on the parser, matcher or builder model. -/

namespace Gherkin

/-- The beginning of an error message: `(line:column): `. -/
def posText (line column : Nat) : Str := py"(" ++ natStr line ++ py":" ++ natStr column ++ py"): "

/-- A list of token types in an error message: `#EOF, #Language`. -/
def kindsText (ks : List Kind) : Str := joinStr py", " (ks.map fun k => py"#" ++ k.name)

/-- The column of the first character of a line that is not white space (1 = first column). -/
def firstColumn (l : Line) : Nat := (l.text.takeWhile isSpace).length + 1

/-- A dialect that can be in force in a text: the default one or one that a language header in the text names. -/
def InForce (default text : Str) (d : Dialect) : Prop :=
  dialectFor default = some d ∨ ∃ l ∈ sourceLines text, ∃ name, IsHeader name l.text ∧ dialectFor name = some d

/-- The error is about the text, at the place where it says. -/
def ErrorAt (default text : Str) (e : Err) : Prop :=
  match e.kind with
  | .unexpectedToken expected got =>
      -- a line that is none of what was expected there
      ∃ l ∈ sourceLines text, e.loc = ⟨l.number, some (firstColumn l)⟩ ∧ got = strip l.text ∧ expected ≠ [] ∧
        (∃ d, InForce default text d ∧ lineKind d l ∉ expected) ∧
        e.msg = posText l.number (firstColumn l) ++ py"expected: " ++ kindsText expected ++ py", got '" ++ strip l.text ++ py"'"
  | .unexpectedEof expected =>
      -- the text ends too early
      e.loc = ⟨(sourceLines text).length + 1, none⟩ ∧ expected ≠ [] ∧ .eof ∉ expected ∧
        e.msg = posText ((sourceLines text).length + 1) 0 ++ py"unexpected end of file, expected: " ++ kindsText expected
  | .noSuchLanguage name =>
      -- a language header with an unknown name
      ∃ l ∈ sourceLines text, e.loc.line = l.number ∧ (e.loc.column = some 1 ∨ e.loc.column = some (firstColumn l)) ∧
        IsHeader name l.text ∧ dialectFor name = none ∧
        e.msg = posText l.number (firstColumn l) ++ py"Language not supported: " ++ name
  | .astBuilder =>
      -- a table row with another number of cells than some other row
      ∃ l ∈ sourceLines text, e.loc = ⟨l.number, some (firstColumn l)⟩ ∧ firstIs '|' l = true ∧
        (∃ l0 ∈ sourceLines text, firstIs '|' l0 = true ∧
          ∃ cells cells0, l.tableCells = .ok cells ∧ l0.tableCells = .ok cells0 ∧ cells.length ≠ cells0.length) ∧
        e.msg = posText l.number (firstColumn l) ++ py"inconsistent cell count within the table"

/-- A tag line with white space inside a tag: between two characters that are neither white space nor `@`, before any comment. -/
def BadTags (s : Str) : Prop :=
  ∃ ws a x w y b r, White ws ∧ White w ∧ w ≠ [] ∧ isSpace x = false ∧ x ≠ '@' ∧ isSpace y = false ∧ y ≠ '@' ∧
    s = ws ++ (a ++ x :: w ++ y :: b) ++ r ∧ (a ++ [x]).head? = some '@' ∧
    (∀ p c q, a ++ x :: w ++ y :: b = p ++ c :: '#' :: q → isSpace c = false)

/-- A table row that ends with an odd number of backslashes, that is, in the middle of an escape sequence. -/
def BadRow (s : Str) : Prop :=
  ∃ ws a n w, White ws ∧ White w ∧ a.head? = some '|' ∧ a.getLast? ≠ some '\\' ∧
    s = ws ++ a ++ List.replicate (2 * n + 1) '\\' ++ w

end Gherkin
