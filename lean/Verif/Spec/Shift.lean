import Verif.Ast

/-! Specification: a document with all ids raised by `k`. -/

namespace Gherkin

def Tag.shift (k : Nat) (t : Tag) : Tag := { t with id := t.id + k }
def Row.shift (k : Nat) (r : Row) : Row := { r with id := r.id + k }
def DataTable.shift (k : Nat) (t : DataTable) : DataTable := { t with rows := t.rows.map (Row.shift k) }
def StepArg.shift (k : Nat) : StepArg → StepArg
  | .table t => .table (t.shift k)
  | a => a
def Step.shift (k : Nat) (s : Step) : Step := { s with id := s.id + k, arg := s.arg.shift k }
def Background.shift (k : Nat) (b : Background) : Background := { b with id := b.id + k, steps := b.steps.map (Step.shift k) }
def Examples.shift (k : Nat) (e : Examples) : Examples :=
  { e with id := e.id + k, tags := e.tags.map (Tag.shift k), header := e.header.map (Row.shift k), body := e.body.map (Row.shift k) }
def Scenario.shift (k : Nat) (s : Scenario) : Scenario :=
  { s with id := s.id + k, tags := s.tags.map (Tag.shift k), steps := s.steps.map (Step.shift k), examples := s.examples.map (Examples.shift k) }
def RuleChild.shift (k : Nat) : RuleChild → RuleChild
  | .background b => .background (b.shift k)
  | .scenario s => .scenario (s.shift k)
def RuleNode.shift (k : Nat) (r : RuleNode) : RuleNode :=
  { r with id := r.id + k, tags := r.tags.map (Tag.shift k), children := r.children.map (RuleChild.shift k) }
def FeatureChild.shift (k : Nat) : FeatureChild → FeatureChild
  | .background b => .background (b.shift k)
  | .scenario s => .scenario (s.shift k)
  | .rule r => .rule (r.shift k)
def Feature.shift (k : Nat) (f : Feature) : Feature :=
  { f with tags := f.tags.map (Tag.shift k), children := f.children.map (FeatureChild.shift k) }
/-- The document with all ids raised by `k` and nothing else changed. -/
def Document.shift (k : Nat) (d : Document) : Document := { d with feature := d.feature.map (Feature.shift k) }

end Gherkin
