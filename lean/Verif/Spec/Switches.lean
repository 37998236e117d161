import Verif.Spec.Stream

/-! Specification: switching kinds of events off. -/

namespace Gherkin

/-- The event belongs to a kind that is switched on; errors always are. -/
def Event.wanted (opt : StreamOptions) : Event → Bool
  | .source _ => opt.printSource
  | .document .. => opt.printAst
  | .pickle _ => opt.printPickles
  | .parseError .. => true

/-- The same event, but a document may have its ids raised. -/
inductive SameButIds : Event → Event → Prop
  | refl (e : Event) : SameButIds e e
  | document (uri : Str) (d : Document) (k k' : Nat) : SameButIds (.document uri (d.shift k)) (.document uri (d.shift k'))

end Gherkin
