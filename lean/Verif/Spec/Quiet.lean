import Verif.Spec.Independent

/-! Specification: suites without their positions and documentation. -/

namespace Gherkin

/-- An item of a test other than its documentation. -/
def Robot.Item.Runs : Item → Bool
  | .documentation _ => false
  | _ => true

/-- A test without positions and documentation: its name, its tags and its keyword calls with their arguments. -/
def Robot.Test.quiet (t : Test) : Test := { t.unplaced with body := t.unplaced.body.filter Item.Runs }

/-- A setting other than the documentation. -/
def Robot.Setting.Works : Setting → Bool
  | .documentation _ => false
  | _ => true

/-- What a run of a suite depends on: its name, and of its settings and tests all but documentation and positions. -/
structure Robot.SameRun (sets sets' : List Robot.Setting) (tests tests' : List Robot.Test) : Prop where
  settings : sets'.filter Robot.Setting.Works = sets.filter Robot.Setting.Works
  tests : tests'.map Robot.Test.quiet = tests.map Robot.Test.quiet

end Gherkin
