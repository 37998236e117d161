import Verif.Spec.Errors
import Verif.Parser

/-! Specification: what parsing a text into a document and parsing it into a token listing have in common. -/

namespace Gherkin

/-- The error is a complaint about a table whose rows have different numbers of cells (`AstBuilderException`; `ErrorAt` says more). -/
def Err.Ragged (e : Err) : Prop := e.kind = .astBuilder

instance (e : Err) : Decidable e.Ragged := inferInstanceAs (Decidable (e.kind = .astBuilder))

/-- The outcomes of parsing a text into a document (first) and into a token listing (second). -/
inductive DocumentAndListing {α β : Type} : Except Exc α → Except Exc β → Prop
  /-- there are both -/
  | both {d l} : DocumentAndListing (.ok d) (.ok l)
  /-- at most ten errors, all of them about tables: there is a listing -/
  | tables {es l} : es ≠ [] → es.length ≤ 10 → (∀ e ∈ es, e.Ragged) → DocumentAndListing (.error (.composite es)) (.ok l)
  /-- at most ten errors, not all of them about tables: the listing fails with the other ones, in the same order -/
  | others {es} : es.length ≤ 10 → (∃ e ∈ es, ¬ e.Ragged) →
      DocumentAndListing (.error (.composite es)) (.error (.composite (es.filter fun e => ¬ e.Ragged)))
  /-- eleven errors, where parsing into a document ends: all of them about tables, or there is no listing -/
  | eleven {es r} : es.length = 11 → (∀ e ∈ es, e.Ragged) ∨ (∃ x, r = .error x) → DocumentAndListing (.error (.composite es)) r
  /-- neither: a table row that ends inside an escape sequence -/
  | row : DocumentAndListing (.error (.crash .runtimeError)) (.error (.crash .runtimeError))

end Gherkin
