import Verif.Spec.Bare
import Verif.Spec.Pickles
import Verif.Robot

/-! Specification: what the test of a case may depend on, and tests without their positions. -/

namespace Gherkin

/-- The content of a case, without ids and positions. -/
structure Case.Content where
  name : Option Str
  description : Str
  tags : List Str
  background : List Step
  steps : List Step
  row : Option (Option Str × List Str × List Str)
  deriving DecidableEq

/-- Of a row: the keyword of its examples block, the headers and the values. -/
def rowContent (x : Examples × Row × Row) : Option Str × List Str × List Str := (x.1.keyword, x.2.1.cells.map (·.value), x.2.2.cells.map (·.value))

/-- The scenario's name, description and steps, the names of all its tags (with those inherited and those of the examples block), the background steps, and
of the row the keyword of its examples block, the headers and the values. In particular: nothing of other scenarios, other rows or
other examples blocks. -/
def Case.content (c : Case) : Case.Content where
  name := c.scenario.name
  description := c.scenario.description
  tags := c.tags.map Tag.name
  background := c.background.map (Step.change ⟨fun _ => .zero, fun _ => 0, fun s => s⟩)
  steps := c.scenario.steps.map (Step.change ⟨fun _ => .zero, fun _ => 0, fun s => s⟩)
  row := c.row.map rowContent

/-- A token without its position. -/
def Robot.Tok.unplaced (t : Tok) : Tok := { t with lineno := -1, col := -1 }
def Robot.Item.unplaced : Item → Item
  | .call toks => .call (toks.map Tok.unplaced)
  | i => i

/-- A test without positions. -/
def Robot.Test.unplaced (t : Test) : Test := { t with pos := none, body := t.body.map Item.unplaced }

end Gherkin
