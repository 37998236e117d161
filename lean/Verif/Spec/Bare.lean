import Verif.Ast

/-! Specification: a document with its locations, ids and descriptions changed and everything else kept. -/

namespace Gherkin

/-- What to do with locations, ids and descriptions. -/
structure Change where
  loc : Location → Location
  id : Nat → Nat
  description : Str → Str

def Tag.change (g : Change) (t : Tag) : Tag := { id := g.id t.id, loc := g.loc t.loc, name := t.name }
def Cell.change (g : Change) (c : Cell) : Cell := { loc := g.loc c.loc, value := c.value }
def Row.change (g : Change) (r : Row) : Row := { id := g.id r.id, loc := g.loc r.loc, cells := r.cells.map (Cell.change g) }
def DataTable.change (g : Change) (t : DataTable) : DataTable := { loc := g.loc t.loc, rows := t.rows.map (Row.change g) }
def DocString.change (g : Change) (d : DocString) : DocString :=
  { loc := g.loc d.loc, content := d.content, delimiter := d.delimiter, mediaType := d.mediaType }
def StepArg.change (g : Change) : StepArg → StepArg
  | .none => .none
  | .table t => .table (t.change g)
  | .doc d => .doc (d.change g)
def Step.change (g : Change) (s : Step) : Step :=
  { id := g.id s.id, loc := g.loc s.loc, keyword := s.keyword, keywordType := s.keywordType, text := s.text, arg := s.arg.change g }
def Background.change (g : Change) (b : Background) : Background :=
  { id := g.id b.id, loc := g.loc b.loc, keyword := b.keyword, name := b.name, description := g.description b.description,
    steps := b.steps.map (Step.change g) }
def Examples.change (g : Change) (e : Examples) : Examples :=
  { id := g.id e.id, tags := e.tags.map (Tag.change g), loc := g.loc e.loc, keyword := e.keyword, name := e.name,
    description := g.description e.description, header := e.header.map (Row.change g), body := e.body.map (Row.change g) }
def Scenario.change (g : Change) (s : Scenario) : Scenario :=
  { id := g.id s.id, tags := s.tags.map (Tag.change g), loc := g.loc s.loc, keyword := s.keyword, name := s.name,
    description := g.description s.description, steps := s.steps.map (Step.change g), examples := s.examples.map (Examples.change g) }
def RuleChild.change (g : Change) : RuleChild → RuleChild
  | .background b => .background (b.change g)
  | .scenario s => .scenario (s.change g)
def RuleNode.change (g : Change) (r : RuleNode) : RuleNode :=
  { id := g.id r.id, tags := r.tags.map (Tag.change g), loc := g.loc r.loc, keyword := r.keyword, name := r.name,
    description := g.description r.description, children := r.children.map (RuleChild.change g) }
def FeatureChild.change (g : Change) : FeatureChild → FeatureChild
  | .background b => .background (b.change g)
  | .scenario s => .scenario (s.change g)
  | .rule r => .rule (r.change g)
def Feature.change (g : Change) (f : Feature) : Feature :=
  { tags := f.tags.map (Tag.change g), loc := g.loc f.loc, language := f.language, keyword := f.keyword, name := f.name,
    description := g.description f.description, children := f.children.map (FeatureChild.change g) }

/-- Nowhere. -/
def Location.zero : Location := ⟨0, none⟩

/-- The feature without locations and descriptions. -/
def Feature.bare (f : Feature) : Feature := f.change ⟨fun _ => .zero, fun i => i, fun _ => []⟩

/-- The feature without locations and ids. -/
def Feature.unplaced (f : Feature) : Feature := f.change ⟨fun _ => .zero, fun _ => 0, fun s => s⟩

end Gherkin
