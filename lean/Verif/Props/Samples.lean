import Verif.TokenFormatter

/-! Objects and texts used by the examples that show that the theorems' hypotheses can be met. -/

namespace Gherkin.Sample

open Gherkin

/-- `TokenMatcher()` -/
def en : CState :=
  { defaultName := py"en", dialectName := py"en", dialect := (dialectFor py"en").getD default, indentToRemove := 0, active := none }

/-- `AstBuilder()`, before its first parse. -/
def fresh : BState := { stack := [(.none, [])], comments := [], nextId := 0 }

/-- A feature with tags, description, background, outline, tables, doc string, comment and rule. -/
def text : Str := py"# language: en
@web @slow
Feature: Shop
  A description.

  Background:
    Given a user
      | name | age |
      | Ann  | 7   |

  # a comment
  @x
  Scenario Outline: buy <what>
    When the user buys <what>
      \"\"\"json
      { \"a\": 1 }
      \"\"\"
    Then the price is <price>

    @cheap
    Examples:
      | what | price |
      | egg  | 1     |
      | milk | 2     |

  Rule: second
    Example: other
      * a step
"

/-- A text with errors: a step before any scenario, a ragged table. -/
def bad : Str := py"Feature: x
  Given nothing
  Scenario: y
    Given a table
      | a | b |
      | c |
"

end Gherkin.Sample
