import Verif.Dialect

/-! Specification: the types of step keywords. -/

namespace Gherkin

/-- The keyword list a step type stands for. -/
def Dialect.ofType (d : Dialect) : KType → List Str
  | .context => d.given
  | .action => d.when_
  | .outcome => d.then_
  | .conjunction => d.and_ ++ d.but_
  | .unknown => []

/-- The bullet keyword. -/
def bullet : Str := py"* "

end Gherkin
