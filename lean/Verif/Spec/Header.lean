import Verif.Spec.Layout

/-! Specification: the language of a text. -/

namespace Gherkin.Layout

/-- The language of a text: the one its header names, or the default one. -/
def File.Speaks (default name : Str) (F : File) : Prop :=
  match F.language with
  | none => name = default
  | some l => IsHeader name l.text

end Gherkin.Layout
