import Verif.Spec.Markdown
import Verif.Spec.Noise
import Verif.Spec.Errors
import Verif.Spec.Bare

/-! Specification for C77: prose in Markdown. Nothing here depends on the parser, matcher or builder model. -/

namespace Gherkin.Markdown

/-- A whole line, with its line end, of prose: no heading, list item, tag line, table row or separator row of Gherkin, no fence, and no line in
which `|` comes first and an odd number of backslashes last. -/
def ProseLine (d : Dialect) (line : Str) : Prop :=
  (∃ body, line = body ++ ['\n'] ∧ '\n' ∉ body) ∧ (∀ f, ¬ HasForm d line f) ∧ fenceOf line = none ∧ ¬ SeparatorRow line ∧ ¬ BadRow line

/-- The text `pre`, which begins the text of the document, has the feature's line in it. -/
def AfterFeature (d : Document) (pre : Str) : Prop := ∃ ft, d.feature = some ft ∧ ft.loc.line ≤ (splitLines pre).length

end Gherkin.Markdown
