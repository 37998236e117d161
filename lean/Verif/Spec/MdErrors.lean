import Verif.Spec.Errors
import Verif.Spec.Markdown

/-! Specification: which errors a Markdown text can cause, and where. Nothing here depends on the parser, matcher or builder model. -/

namespace Gherkin

open Markdown

/-- How error messages call lines of this form. -/
def Markdown.Form.called : Form → Kind
  | .tags => .tagLine
  | .rule => .ruleLine
  | .background => .backgroundLine
  | .scenario => .scenarioLine
  | .examples => .examplesLine
  | .step => .stepLine
  | .row => .tableRow

/-- The line is part of the Gherkin in the Markdown text: it has the form of a Gherkin line, or is a separator row of a table, or begins with a
doc string delimiter. -/
def GherkinLine (d : Dialect) (s : Str) : Prop := (∃ f, HasForm d s f) ∨ SeparatorRow s ∨ fenceOf s ≠ none

/-- The error is about the Markdown text (in the dialect `d`), in the line that it names. -/
def MdErrorAt (d : Dialect) (text : Str) (e : Err) : Prop :=
  match e.kind with
  | .unexpectedToken expected got =>
      -- a Gherkin line that is quoted in the message and has none of the expected forms
      ∃ l ∈ sourceLines text, ∃ c, e.loc = ⟨l.number, some c⟩ ∧ 1 ≤ c ∧ got = strip l.text ∧ got ≠ [] ∧ expected ≠ [] ∧
        GherkinLine d l.text ∧ (∀ f, HasForm d l.text f → f.called ∉ expected) ∧ .featureLine ∉ expected ∧
        e.msg = posText l.number c ++ py"expected: " ++ kindsText expected ++ py", got '" ++ strip l.text ++ py"'"
  | .unexpectedEof expected =>
      -- the text ends too early
      e.loc.line = (sourceLines text).length + 1 ∧ expected ≠ [] ∧ .eof ∉ expected ∧
        e.msg = posText ((sourceLines text).length + 1) (e.loc.column.getD 0) ++ py"unexpected end of file, expected: " ++ kindsText expected
  | .noSuchLanguage _ => False
  | .astBuilder =>
      -- a table row with another number of cells than some other row
      ∃ l ∈ sourceLines text, e.loc = ⟨l.number, some (firstColumn l)⟩ ∧ firstIs '|' l = true ∧
        (∃ l0 ∈ sourceLines text, firstIs '|' l0 = true ∧
          ∃ cells cells0, l.tableCells = .ok cells ∧ l0.tableCells = .ok cells0 ∧ cells.length ≠ cells0.length) ∧
        e.msg = posText l.number (firstColumn l) ++ py"inconsistent cell count within the table"

end Gherkin
