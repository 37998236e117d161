import Verif.Spec.LineEnds
import Verif.Spec.Tags

/-! Specification for C86: Markdown texts that do not begin with a blank line. -/

namespace Gherkin.Markdown

/-- The line has a tag in back quotes: `` `@name` ``. -/
def HasTag (s : Str) : Prop := ∃ a n b, n ≠ [] ∧ '`' ∉ n ∧ s = a ++ py"`@" ++ n ++ py"`" ++ b

/-- Apart from lines with tags in back quotes, the text does not begin with a blank line. -/
def FirstNotBlank (text : Str) : Prop :=
  ∀ pre s post, splitLines text = pre ++ s :: post → (∀ x ∈ pre, HasTag x) → ¬ White s

end Gherkin.Markdown
