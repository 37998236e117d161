import Verif.Spec.Parts

/-! Specification: the texts that have just one example row of a text. -/

namespace Gherkin.Layout

/-- An outline with only one of its examples, and only one row of it. -/
def Scenario.onlyRow (s : Scenario) (e : Examples) (header row : Ln) : Scenario := { s with examples := [{ e with table := [header, row] }] }

/-- The outlines with one row each, in the order of the rows; the first row of a table is its header. A scenario without examples stays as it is. -/
def Scenario.rows (s : Scenario) : List Scenario :=
  if s.examples.isEmpty then [s]
  else s.examples.flatMap fun e => e.table.head?.toList.flatMap fun header => e.table.tail.map fun row => s.onlyRow e header row

/-- The texts with one scenario each, and one row if the scenario has examples, in the order in which they stand in the text: everything above the first scenario or rule, if
the scenario is in a rule the lines of the rule up to its first scenario, and the lines of the scenario, without the other rows and examples. -/
def File.rowPieces (F : File) : List File :=
  F.feature.scenarios.flatMap (fun s => s.rows.map F.only) ++ F.feature.rules.flatMap fun r => r.scenarios.flatMap fun s => s.rows.map (F.onlyIn r)

/-- Each row of each outline is written as an outline of its own. -/
def File.unrolled (F : File) : File :=
  { F with feature := { F.feature with scenarios := F.feature.scenarios.flatMap Scenario.rows,
                                       rules := F.feature.rules.map fun r => { r with scenarios := r.scenarios.flatMap Scenario.rows } } }

end Gherkin.Layout
