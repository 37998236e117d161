import Verif.Spec.Language

/-! Specification for C46: blank lines and comments. Nothing here depends on the parser, matcher or builder model. -/

namespace Gherkin

/-- A whole line, with its line end, that is blank or a comment, but not a language header. -/
def IgnorableLine (line : Str) : Prop :=
  (∃ body, line = body ++ ['\n'] ∧ '\n' ∉ body) ∧ (BlankText line ∨ CommentText line) ∧ ∀ name, ¬ IsHeader name line

/-- The text that follows `pre` begins a new line. -/
def AtLineStart (pre : Str) : Prop := pre = [] ∨ ∃ p, pre = p ++ ['\n']

/-- Line `n` belongs to the description of a part of the document. -/
def Document.describes (text : Str) (d : Document) (n : Nat) : Prop :=
  ∃ f name dialect, d.feature = some f ∧ f.language = some name ∧ dialects.lookup name = some dialect ∧
    ∃ p loc s, (p, loc, s) ∈ d.parts ∧ ∃ l ∈ descriptionLines dialect text p loc.line, l.number = n

/-- Line `n` is the first line after line `k` that is not blank. -/
def NextLine (text : Str) (k n : Nat) : Prop :=
  k < n ∧ (∃ s, LineIs text n s ∧ ¬ BlankText s) ∧ ∀ j, k < j → j < n → ∀ s, LineIs text j s → BlankText s

end Gherkin
