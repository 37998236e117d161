import Verif.Spec.Doc

/-! Specification: the test cases a document describes. Nothing here depends on the compiler model. -/

namespace Gherkin

/-- One test case of a document: the tags and background steps in force, the scenario, and for an outline the examples block with
the header row and the row of values. -/
structure Case where
  /-- tags of the feature and of the enclosing rule -/
  outerTags : List Tag
  background : List Step
  scenario : Scenario
  row : Option (Examples × Row × Row)

/-- The rows of a scenario: none at all counts as one case without row. -/
def Scenario.rows (s : Scenario) : List (Option (Examples × Row × Row)) :=
  match s.examples with
  | [] => [none]
  | _ :: _ => s.examples.flatMap fun e => e.header.toList.flatMap fun h => e.body.map fun r => some (e, h, r)

def Scenario.cases (tags : List Tag) (bg : List Step) (s : Scenario) : List Case := s.rows.map fun r => ⟨tags, bg, s, r⟩

def RuleNode.backgroundSteps (r : RuleNode) : List Step :=
  r.children.flatMap fun c => match c with | .background b => b.steps | .scenario _ => []
def RuleNode.scenarios (r : RuleNode) : List Scenario :=
  r.children.flatMap fun c => match c with | .background _ => [] | .scenario s => [s]
def FeatureChild.backgroundSteps : FeatureChild → List Step
  | .background b => b.steps
  | _ => []
def Feature.backgroundSteps (f : Feature) : List Step := f.children.flatMap FeatureChild.backgroundSteps

def RuleNode.cases (tags : List Tag) (bg : List Step) (r : RuleNode) : List Case :=
  r.scenarios.flatMap (Scenario.cases (tags ++ r.tags) (bg ++ r.backgroundSteps))

def FeatureChild.cases (tags : List Tag) (bg : List Step) : FeatureChild → List Case
  | .background _ => []
  | .scenario s => s.cases tags bg
  | .rule r => r.cases tags bg

/-- All test cases of a feature in document order. -/
def Feature.cases (f : Feature) : List Case := f.children.flatMap (FeatureChild.cases f.tags f.backgroundSteps)

def Document.cases (d : Document) : List Case := d.feature.toList.flatMap Feature.cases

/-- Backgrounds come before scenarios and rules, as the grammar demands. -/
def RuleNode.BackgroundFirst (r : RuleNode) : Prop :=
  ∃ (bs : List Background) (ss : List Scenario), r.children = bs.map .background ++ ss.map .scenario
def Feature.BackgroundFirst (f : Feature) : Prop :=
  (∃ (bs : List Background) (cs : List FeatureChild), f.children = bs.map .background ++ cs ∧ ∀ c ∈ cs, ∀ b, c ≠ .background b) ∧
  ∀ r, .rule r ∈ f.children → r.BackgroundFirst
def Document.BackgroundFirst (d : Document) : Prop := ∀ f ∈ d.feature, f.BackgroundFirst

namespace Case

/-- The steps a case runs: background and scenario; nothing if the scenario has no step of its own. -/
def steps (c : Case) : List Step := if c.scenario.steps = [] then [] else c.background ++ c.scenario.steps

/-- The tags of a case: feature, rule, scenario, examples block. -/
def tags (c : Case) : List Tag := c.outerTags ++ c.scenario.tags ++ (c.row.elim [] fun (e, _, _) => e.tags)

/-- The ids of the nodes a case comes from. -/
def nodeIds (c : Case) : List Nat := c.scenario.id :: (c.row.elim [] fun (_, _, r) => [r.id])

/-- The ids of the nodes each step of a case comes from: the step, and for a step of the scenario itself the row. -/
def stepIds (c : Case) : List (List Nat) :=
  if c.scenario.steps = [] then []
  else (c.background.map fun s => [s.id]) ++ c.scenario.steps.map fun s => s.id :: (c.row.elim [] fun (_, _, r) => [r.id])

/-- The type of the `i`-th step: that of the nearest step at or before it that is not a conjunction. -/
def typeAt (c : Case) (i : Nat) : Option KType :=
  match ((c.steps.take (i + 1)).filterMap (·.keywordType)).reverse.find? (· ≠ .conjunction) with
  | some t => some t
  | none => if c.row.isSome then none else some .unknown

end Case

end Gherkin
