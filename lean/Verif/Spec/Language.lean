import Verif.Spec.Blocks

/-! Specification: language headers and comments. Nothing here depends on the parser, matcher or builder model. -/

namespace Gherkin

/-- Letters (ASCII), `-` and `_`. -/
def langChar (c : Char) : Prop := ('a' ≤ c ∧ c ≤ 'z') ∨ ('A' ≤ c ∧ c ≤ 'Z') ∨ c = '-' ∨ c = '_'

/-- The line is the header `# language: name`, with any white space between the parts and around them. -/
def IsHeader (name s : Str) : Prop :=
  name ≠ [] ∧ (∀ c ∈ name, langChar c) ∧
  ∃ a b c d e : Str, White a ∧ White b ∧ White c ∧ White d ∧ White e ∧
    s = a ++ ['#'] ++ b ++ py"language" ++ c ++ [':'] ++ d ++ name ++ e

/-- A line of nothing but white space. -/
def BlankText (s : Str) : Prop := White s
/-- A line whose first character that is not white space is `#`. -/
def CommentText (s : Str) : Prop := ∃ a b, White a ∧ s = a ++ '#' :: b

/-- Line `n` is the language header of the text: it has the form of one, and before it there are only blank lines and comments that do
not have this form. -/
def HeaderAt (text : Str) (n : Nat) (name : Str) : Prop :=
  (∃ s, LineIs text n s ∧ IsHeader name s) ∧
  ∀ k, k < n → ∀ s, LineIs text k s → BlankText s ∨ (CommentText s ∧ ∀ nm, ¬ IsHeader nm s)

end Gherkin
