import Verif.Compiler
import Verif.Spec.Shift

/-! Specification: a pickle with all ids raised by `k`. -/

namespace Gherkin

def PTag.shift (k : Nat) (t : PTag) : PTag := { t with astNodeId := t.astNodeId + k }
def PStep.shift (k : Nat) (s : PStep) : PStep := { s with astNodeIds := s.astNodeIds.map (· + k), id := s.id + k }
/-- The pickle with all ids raised by `k` and nothing else changed. -/
def Pickle.shift (k : Nat) (p : Pickle) : Pickle :=
  { p with astNodeIds := p.astNodeIds.map (· + k), id := p.id + k, tags := p.tags.map (PTag.shift k), steps := p.steps.map (PStep.shift k) }

end Gherkin
