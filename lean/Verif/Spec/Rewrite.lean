import Verif.Spec.Print
import Verif.Spec.Doc

/-! Specification: steps that stay the same when they are written again from what was read. Nothing here depends on the parser, matcher or builder
model. -/

namespace Gherkin

/-- A step that can be written from what was read, with a keyword of the dialect: keyword and text, put together, do not begin with a longer keyword.
(White space between keyword and text is not in the document; it can have kept the two apart.) -/
def Rewritable (d : Dialect) (s : Step) : Prop :=
  ∀ kw ∈ d.stepKeywords, s.keyword = some kw → ∀ k ∈ d.stepKeywords, k <+: kw ++ s.text.getD [] → k <+: kw

/-- All steps of the document can be written again in the language of its feature. -/
def Document.Rewritable (e : Document) : Prop :=
  ∀ f ∈ e.feature, ∀ name ∈ f.language, ∀ d ∈ dialectFor name, ∀ s ∈ e.steps, Gherkin.Rewritable d s

/-- No step keyword begins another one. This is so in 74 of the 79 dialects. -/
def Dialect.Apart (d : Dialect) : Prop := ∀ k ∈ d.stepKeywords, ∀ k' ∈ d.stepKeywords, k <+: k' → k = k'

end Gherkin
