import Verif.Spec.MdPrint

/-! Specification: features of classic texts that can be written in Markdown. -/

namespace Gherkin

/-- What a feature of a classic text must have, to be written in Markdown: no descriptions, nothing that looks like a tag in back quotes in names, step texts and cells, no back
quotes in tags, no row of dashes, no step with the keyword `* ` (`Spec/MdPrint.lean`). -/
def MdPrintable.Beyond (f : Gherkin.Feature) : Prop := Tags f.tags ∧ Title f.name f.description ∧ ∀ x ∈ f.children, FeatureChild x

/-- Both file names end with `.md`, or none of them. -/
def SameKind (suffix : Str → Str) (name name' : Str) : Prop := suffix name = py".md" ↔ suffix name' = py".md"

end Gherkin
