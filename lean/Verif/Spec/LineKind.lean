import Verif.Spec.Blocks

/-! Specification: what a line outside doc strings is. -/

namespace Gherkin

/-- What a line (not the end of the file, not inside a doc string) is, in a dialect. -/
def lineKind (d : Dialect) (l : Line) : Kind :=
  if isBlankLine l then .empty
  else if firstIs '#' l then .comment
  else if firstIs '@' l then .tagLine
  else if firstIs '|' l then .tableRow
  else if docDelimiters.any (isDelim · l) then .docStringSeparator
  else if isTitle d.feature l then .featureLine
  else if isTitle d.rule l then .ruleLine
  else if isTitle d.background l then .backgroundLine
  else if isTitle (d.scenario ++ d.scenarioOutline) l then .scenarioLine
  else if isTitle d.examples l then .examplesLine
  else if isStep d l then .stepLine
  else .other

end Gherkin
