import Verif.Spec.Layout
import Verif.Spec.Pickles
import Verif.Spec.Robot
import Verif.Spec.Independent

/-! Specification: tags written where they belong to one test only. -/

namespace Gherkin

namespace Layout

/-- A scenario with more tag lines, placed before its own; if it has examples, each examples block has all of these tag lines instead. -/
def Scenario.tagged (tags : List Ln) (s : Scenario) : Scenario :=
  if s.examples.isEmpty then { s with tags := tags ++ s.tags }
  else { s with tags := [], examples := s.examples.map fun e => { e with tags := tags ++ s.tags ++ e.tags } }

/-- The text without tags on the feature, on rules and on outlines: their tag lines stand above every scenario and every examples block below them. -/
def File.tagsDown (F : File) : File :=
  { F with feature := { F.feature with
      tags := []
      scenarios := F.feature.scenarios.map (Scenario.tagged F.feature.tags)
      rules := F.feature.rules.map fun r => { r with tags := [], scenarios := r.scenarios.map (Scenario.tagged (F.feature.tags ++ r.tags)) } } }

end Layout

namespace Robot

/-- The setting is about tags: `Test Tags`, or the metadata entry with their names. -/
def Setting.OnTags : Setting → Bool
  | .testTags _ => true
  | .metadata name _ => name = py"Tags"
  | _ => false

/-- The tags a setting gives to every test. -/
def Setting.given : Setting → List Str
  | .testTags names => names
  | _ => []

/-- The tags a test has of its own. -/
def Item.given : Item → List Str
  | .tags names => names
  | _ => []

def Item.isTags : Item → Bool
  | .tags _ => true
  | _ => false

/-- All tags a test has in a suite: those of the settings, and its own. -/
def Test.given (sets : List Setting) (t : Test) : List Str := sets.flatMap Setting.given ++ t.body.flatMap Item.given

/-- The body of a test without its own tags. -/
def Test.untagged (t : Test) : List Item := t.body.filter fun i => !i.isTags

/-- Two suites that differ only in where the tags are given: the other settings are the same; and so are the tests, one by one, in name, documentation, calls (positions apart), and in
the tags they have altogether. The second suite gives no tags to every test. -/
structure TagsMoved (sets : List Setting) (tests : List Test) (sets' : List Setting) (tests' : List Test) : Prop where
  settings : sets'.filter (fun s => !s.OnTags) = sets.filter fun s => !s.OnTags
  none : ∀ s ∈ sets', s.OnTags = false
  tests : List.Forall₂ (fun t t' => t'.name = t.name ∧ t'.unplaced.untagged = t.unplaced.untagged ∧ t'.given sets' = t.given sets) tests tests'

end Robot

end Gherkin
