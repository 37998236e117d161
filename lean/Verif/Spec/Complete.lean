import Verif.Spec.Doc

/-! Specification for C96: the fields that Cucumber messages require. -/

namespace Gherkin

/-- Title and keyword, type and text, and the language, are there. -/
def Entry.Complete : Entry → Prop
  | .feature _ keyword name language => keyword.isSome ∧ name.isSome ∧ language.isSome
  | .rule _ keyword name | .background _ keyword name | .scenario _ keyword name | .examples _ keyword name => keyword.isSome ∧ name.isSome
  | .step _ keyword type text => keyword.isSome ∧ type.isSome ∧ text.isSome
  | .tag _ _ | .row _ _ => True

/-- The same, but the feature may be without keyword. -/
def Entry.CompleteButFeature : Entry → Prop
  | .feature _ _ name language => name.isSome ∧ language.isSome
  | e => e.Complete

end Gherkin
