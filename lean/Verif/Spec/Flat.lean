import Verif.Spec.Parts
import Verif.Spec.Pickles
import Verif.Spec.Robot
import Verif.Spec.Independent

/-! Specification: texts without rules and backgrounds. -/

namespace Gherkin

namespace Layout

/-- A scenario with tag lines above its own and steps before its own; one that has no steps gets none. -/
def Scenario.under (tags : List Ln) (steps : List Step) (s : Scenario) : Scenario :=
  { s with tags := tags ++ s.tags, steps := if s.steps.isEmpty then [] else steps ++ s.steps }

/-- The steps of a background, if there is one. -/
def stepsOf (b : Option Background) : List Step := b.toList.flatMap Background.steps

/-- The text without rules and backgrounds: every scenario gets the tag lines of its rule above its own, and the steps of the backgrounds before its own (the feature's before those of
the rule) - if it has any. -/
def File.flat (F : File) : File :=
  { F with feature := { F.feature with
      background := none
      scenarios := F.feature.scenarios.map (Scenario.under [] (stepsOf F.feature.background)) ++
        F.feature.rules.flatMap fun r => r.scenarios.map (Scenario.under r.tags (stepsOf F.feature.background ++ stepsOf r.background))
      rules := [] } }

end Layout

/-- The texts of an argument: the cells of a table; content and media type of a doc string. -/
def StepArg.texts : StepArg → List Str
  | .none => []
  | .table t => t.rows.flatMap fun r => r.cells.map (·.value)
  | .doc d => d.content :: d.mediaType.toList

/-- The texts of a step in which placeholders would be filled. -/
def Step.texts (s : Step) : List Str := s.text.toList ++ s.arg.texts

/-- What a test takes from the case: the description, the suffix of the name, the names of the tags, and the keywords of the steps. -/
structure Case.Face where
  description : Str
  suffix : Str
  tags : List Str
  keywords : List (Option Str)

def Case.face (c : Case) : Case.Face := ⟨c.scenario.description, c.suffix, c.tags.map Tag.name, c.steps.map Step.keyword⟩

/-- The rows leave the background as it is: no placeholder of a row is in a text of a background step. (The code does not fill placeholders in background steps; it does in the steps of the
outline.) -/
def Document.BackgroundPlain (eng : Engine) (d : Document) : Prop :=
  ∀ c ∈ d.cases, c.scenario.steps ≠ [] → ∀ e h r, c.row = some (e, h, r) → ∀ s ∈ c.background, ∀ x ∈ s.texts, Pickles.interpolate eng h.cells r.cells x = .ok x

end Gherkin
