import Verif.Spec.Layout

/-! Specification: the outline of a document and the outline of a layout: what stands where, and what belongs to what. -/

namespace Gherkin

/-- Something in a line, and its parts. -/
inductive Sketch
  | node (what : Kind) (line : Nat) (parts : List Sketch)

/-! ### Documents -/

def Tag.tree (t : Tag) : Sketch := .node .tagLine t.loc.line []
def Row.tree (r : Row) : Sketch := .node .tableRow r.loc.line []
def StepArg.trees : StepArg → List Sketch
  | .none => []
  | .table t => t.rows.map Row.tree
  | .doc d => [.node .docStringSeparator d.loc.line []]
def Step.tree (s : Step) : Sketch := .node .stepLine s.loc.line s.arg.trees
def Background.tree (b : Background) : Sketch := .node .backgroundLine b.loc.line (b.steps.map Step.tree)
def Examples.tree (e : Examples) : Sketch := .node .examplesLine e.loc.line (e.tags.map Tag.tree ++ (e.header.toList ++ e.body).map Row.tree)
def Scenario.tree (s : Scenario) : Sketch :=
  .node .scenarioLine s.loc.line (s.tags.map Tag.tree ++ s.steps.map Step.tree ++ s.examples.map Examples.tree)
def RuleChild.tree : RuleChild → Sketch
  | .background b => b.tree
  | .scenario s => s.tree
def RuleNode.tree (r : RuleNode) : Sketch := .node .ruleLine r.loc.line (r.tags.map Tag.tree ++ r.children.map RuleChild.tree)
def FeatureChild.tree : FeatureChild → Sketch
  | .background b => b.tree
  | .scenario s => s.tree
  | .rule r => r.tree
def Feature.tree (f : Feature) : Sketch := .node .featureLine f.loc.line (f.tags.map Tag.tree ++ f.children.map FeatureChild.tree)

/-! ### Layouts; `n` is the number of the first line -/

namespace Layout

/-- How many tags stand in a line. -/
def tagCount (s : Str) : Nat := match Line.tags ⟨s, 0⟩ with | .ok ts => ts.length | .error _ => 0

/-- The number of lines. -/
def size (ls : List Ln) : Nat := (ls.flatMap Ln.texts).length

def tagTrees (n : Nat) (ts : List Ln) : List Sketch :=
  (place (fun l => l.texts.length) (fun n l => List.replicate (tagCount l.text) (Sketch.node .tagLine n [])) n ts).flatten
def rowTrees (n : Nat) (rs : List Ln) : List Sketch := place (fun l => l.texts.length) (fun n _ => Sketch.node .tableRow n []) n rs
def Arg.trees (n : Nat) : Arg → List Sketch
  | .none => []
  | .table r rs => rowTrees n (r :: rs)
  | .doc _ _ _ => [.node .docStringSeparator n []]
def Step.tree (n : Nat) (s : Step) : Sketch := .node .stepLine n (s.arg.trees (n + s.line.texts.length))
def stepTrees (n : Nat) (ss : List Step) : List Sketch := place (fun s => s.texts.length) Step.tree n ss
def Background.tree (n : Nat) (b : Background) : Sketch := .node .backgroundLine n (stepTrees (n + b.head.texts.length) b.steps)
def Examples.tree (n : Nat) (e : Examples) : Sketch :=
  .node .examplesLine (n + size e.tags) (tagTrees n e.tags ++ rowTrees (n + size e.tags + e.head.texts.length) e.table)
def Scenario.tree (n : Nat) (s : Scenario) : Sketch :=
  let n1 := n + size s.tags
  let n2 := n1 + s.head.texts.length
  let n3 := n2 + (s.steps.flatMap Step.texts).length
  .node .scenarioLine n1 (tagTrees n s.tags ++ stepTrees n2 s.steps ++ place (fun e => e.texts.length) Examples.tree n3 s.examples)
def backgroundTrees (n : Nat) (b : Option Background) : List Sketch := place (fun x => x.texts.length) Background.tree n b.toList
def scenarioTrees (n : Nat) (ss : List Scenario) : List Sketch := place (fun s => s.texts.length) Scenario.tree n ss
def Rule.tree (n : Nat) (r : Rule) : Sketch :=
  let n1 := n + size r.tags
  let n2 := n1 + r.head.texts.length
  let n3 := n2 + (r.background.toList.flatMap Background.texts).length
  .node .ruleLine n1 (tagTrees n r.tags ++ (backgroundTrees n2 r.background ++ scenarioTrees n3 r.scenarios))
def Feature.tree (n : Nat) (f : Feature) : Sketch :=
  let n1 := n + size f.tags
  let n2 := n1 + f.head.texts.length
  let n3 := n2 + (f.background.toList.flatMap Background.texts).length
  let n4 := n3 + (f.scenarios.flatMap Scenario.texts).length
  .node .featureLine n1 (tagTrees n f.tags ++ (backgroundTrees n2 f.background ++ scenarioTrees n3 f.scenarios ++
    place (fun r => r.texts.length) Rule.tree n4 f.rules))
def File.tree (f : File) : Sketch := f.feature.tree (1 + f.before.length + size f.language.toList)

end Layout

end Gherkin
