import Verif.Spec.Bare
import Verif.Spec.Runs
import Verif.Spec.Pickles
import Verif.Spec.Independent

/-! Specification for C92: the keyword calls of a test, and what the call for a step may depend on. -/

namespace Gherkin

/-- The keyword calls of a test, without positions. -/
def Robot.Test.bareCalls (t : Robot.Test) : List (List Robot.Tok) := t.calls.map fun toks => toks.map Robot.Tok.unplaced

/-- A step without id and position. -/
def Step.bare (s : Step) : Step := s.change ⟨fun _ => .zero, fun _ => 0, fun s => s⟩

/-- What is written in a step: keyword, text and argument. -/
def Step.written (s : Step) : Option Str × Option Str × StepArg := (s.keyword, s.text, s.bare.arg)

/-- The headers and values that are filled into a step: those of the case's row, if the step is one of the scenario's own. -/
def Case.filledAt (c : Case) (i : Nat) : Option (List Str × List Str) :=
  if i < c.background.length then none else c.row.map fun x => (x.2.1.cells.map (·.value), x.2.2.cells.map (·.value))

end Gherkin
