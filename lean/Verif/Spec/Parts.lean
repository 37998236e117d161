import Verif.Spec.Layout
import Verif.Compiler

/-! Specification: the texts that have just one of the scenarios of a text, and pickles without ids. -/

namespace Gherkin

namespace Layout

/-- The text with one scenario of the feature, and without the rules: everything above the first scenario or rule, and the lines of the scenario. -/
def File.only (F : File) (s : Scenario) : File := { F with feature := { F.feature with scenarios := [s], rules := [] } }

/-- The text with one scenario of one of the rules: everything above the first scenario or rule, the lines of the rule up to its first scenario, and the lines of
the scenario. -/
def File.onlyIn (F : File) (r : Rule) (s : Scenario) : File :=
  { F with feature := { F.feature with scenarios := [], rules := [{ r with scenarios := [s] }] } }

/-- The texts with one scenario each, in the order in which the scenarios stand in the text. -/
def File.pieces (F : File) : List File :=
  F.feature.scenarios.map F.only ++ F.feature.rules.flatMap fun r => r.scenarios.map (F.onlyIn r)

end Layout

/-- A pickle without ids: name, language, place, the names of the tags, and of each step the type, text and argument. -/
structure Pickle.Content where
  name : Str
  language : Str
  uri : Str
  tags : List Str
  steps : List (Option KType × Str × Option PArg)
  deriving DecidableEq

def Pickle.content (p : Pickle) : Pickle.Content :=
  ⟨p.name, p.language, p.uri, p.tags.map PTag.name, p.steps.map fun s => (s.type, s.text, s.arg)⟩

/-- One result and then another: an exception ends it. -/
def follow {ε α : Type} : Except ε (List α) → Except ε (List α) → Except ε (List α)
  | .ok xs, .ok ys => .ok (xs ++ ys)
  | .ok _, .error e => .error e
  | .error e, _ => .error e

/-- Results one after the other: the first exception, if there is one; otherwise all of them put together. -/
def gather {ε α : Type} : List (Except ε (List α)) → Except ε (List α)
  | [] => .ok []
  | x :: rest => follow x (gather rest)

end Gherkin
