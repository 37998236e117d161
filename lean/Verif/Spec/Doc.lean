import Verif.Ast
import Verif.Spec.Cst

/-! Specification: reading a document from front to back, and the ids and tables in it. Nothing here depends on the parser or
builder model. -/

namespace Gherkin

/-- What a document says in one place, in the order of the text. -/
inductive Entry
  | feature (loc : Location) (keyword name language : Option Str)
  | rule (loc : Location) (keyword name : Option Str)
  | background (loc : Location) (keyword name : Option Str)
  | scenario (loc : Location) (keyword name : Option Str)
  | examples (loc : Location) (keyword name : Option Str)
  | step (loc : Location) (keyword : Option Str) (type : Option KType) (text : Option Str)
  | tag (loc : Location) (name : Str)
  | row (loc : Location) (cells : List Cell)
  deriving DecidableEq, Repr

def Tag.entry (t : Tag) : Entry := .tag t.loc t.name
def Row.entry (r : Row) : Entry := .row r.loc r.cells

def Step.entries (s : Step) : List Entry :=
  .step s.loc s.keyword s.keywordType s.text :: match s.arg with | .table t => t.rows.map Row.entry | _ => []

def Background.entries (b : Background) : List Entry := .background b.loc b.keyword b.name :: b.steps.flatMap Step.entries

def Examples.entries (e : Examples) : List Entry :=
  e.tags.map Tag.entry ++ .examples e.loc e.keyword e.name :: (e.header.toList ++ e.body).map Row.entry

def Scenario.entries (s : Scenario) : List Entry :=
  s.tags.map Tag.entry ++ .scenario s.loc s.keyword s.name :: (s.steps.flatMap Step.entries ++ s.examples.flatMap Examples.entries)

def RuleChild.entries : RuleChild → List Entry
  | .background b => b.entries
  | .scenario s => s.entries

def RuleNode.entries (r : RuleNode) : List Entry :=
  r.tags.map Tag.entry ++ .rule r.loc r.keyword r.name :: r.children.flatMap RuleChild.entries

def FeatureChild.entries : FeatureChild → List Entry
  | .background b => b.entries
  | .scenario s => s.entries
  | .rule r => r.entries

def Feature.entries (f : Feature) : List Entry :=
  f.tags.map Tag.entry ++ .feature f.loc f.keyword f.name f.language :: f.children.flatMap FeatureChild.entries

/-- Everything in a document but comments, descriptions and doc strings, in document order. -/
def Document.entries (d : Document) : List Entry := d.feature.toList.flatMap Feature.entries

/-- What a recognised line says. -/
def Token.entries (t : Token) : List Entry :=
  match t.type with
  | some .featureLine => [.feature t.loc t.keyword t.text t.dialect]
  | some .ruleLine => [.rule t.loc t.keyword t.text]
  | some .backgroundLine => [.background t.loc t.keyword t.text]
  | some .scenarioLine => [.scenario t.loc t.keyword t.text]
  | some .examplesLine => [.examples t.loc t.keyword t.text]
  | some .stepLine => [.step t.loc t.keyword t.keywordType t.text]
  | some .tagLine => t.items.map fun i => .tag (Cst.itemLoc t i.column) i.text
  | some .tableRow => [.row t.loc (t.items.map fun i => { loc := Cst.itemLoc t i.column, value := i.text })]
  | _ => []

/-! ### Ids -/

def Step.ids (s : Step) : List Nat := s.id :: match s.arg with | .table t => t.rows.map (·.id) | _ => []
def Background.ids (b : Background) : List Nat := b.id :: b.steps.flatMap Step.ids
def Examples.ids (e : Examples) : List Nat := e.id :: (e.tags.map (·.id) ++ (e.header.toList ++ e.body).map (·.id))
def Scenario.ids (s : Scenario) : List Nat :=
  s.id :: (s.tags.map (·.id) ++ s.steps.flatMap Step.ids ++ s.examples.flatMap Examples.ids)
def RuleChild.ids : RuleChild → List Nat
  | .background b => b.ids
  | .scenario s => s.ids
def RuleNode.ids (r : RuleNode) : List Nat := r.id :: (r.tags.map (·.id) ++ r.children.flatMap RuleChild.ids)
def FeatureChild.ids : FeatureChild → List Nat
  | .background b => b.ids
  | .scenario s => s.ids
  | .rule r => r.ids
def Feature.ids (f : Feature) : List Nat := f.tags.map (·.id) ++ f.children.flatMap FeatureChild.ids
/-- All ids in a document: tags, rows, steps, backgrounds, scenarios, examples, rules. -/
def Document.ids (d : Document) : List Nat := d.feature.toList.flatMap Feature.ids

/-! ### Steps, examples, tables -/

def FeatureChild.backgrounds : FeatureChild → List Background
  | .background b => [b]
  | .scenario _ => []
  | .rule r => r.children.flatMap fun c => match c with | .background b => [b] | .scenario _ => []
def FeatureChild.scenarios : FeatureChild → List Scenario
  | .background _ => []
  | .scenario s => [s]
  | .rule r => r.children.flatMap fun c => match c with | .background _ => [] | .scenario s => [s]
/-- The backgrounds of feature and rules. -/
def Document.backgrounds (d : Document) : List Background := d.feature.toList.flatMap fun f => f.children.flatMap FeatureChild.backgrounds
/-- All scenarios. -/
def Document.scenarios (d : Document) : List Scenario := d.feature.toList.flatMap fun f => f.children.flatMap FeatureChild.scenarios
/-- All steps, those of the backgrounds first. -/
def Document.steps (d : Document) : List Step := d.backgrounds.flatMap (·.steps) ++ d.scenarios.flatMap (·.steps)
/-- All examples blocks. -/
def Document.examples (d : Document) : List Examples := d.scenarios.flatMap (·.examples)

end Gherkin
