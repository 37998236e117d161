import Mathlib.Data.List.Forall2
import Verif.Spec.Pickles
import Verif.Spec.PyLit
import Verif.Spec.RobotVar
import Verif.Robot

/-! Specification: the Robot Framework test of a pickle. Only the data types of the models are used. -/

namespace Gherkin

open Robot

/-- The values of the tokens of one type. -/
def values (ty : TokType) (toks : List Tok) : List Str := (toks.filter fun t => t.type = ty).map (·.value)

/-- The keyword call for the pickle step `q` made from the step `s`: one keyword token, named by the step's keyword followed by the
pickle step's text, or by the text alone if the type is Unknown; the argument if there is one (PyLit.Passed), which is one
variable for Robot Framework iff its braces are closed; all on the step's line; the keyword at the
step's column, what is before it at the start of the line and what follows it where it ends. -/
structure CallOf (s : Step) (q : PStep) (toks : List Tok) : Prop where
  name : values .keyword toks = [(if q.type = some .unknown then [] else s.keyword.getD []) ++ q.text]
  args : PyLit.Passed q.arg (values .argument toks)
  line : ∀ t ∈ toks, t.lineno = s.loc.line
  column : ∀ t ∈ toks, t.type = .keyword → ∃ c, s.loc.column = some c ∧ t.col = c - 1
  around : ∀ (before after : List Tok) (k : Tok), toks = before ++ k :: after → k.type = .keyword → 0 ≤ k.col →
    (∀ t ∈ before, t.col = 0) ∧ ∀ t ∈ after, t.col = k.col + k.value.length
  oneVar : ∀ a, q.arg = some a → ∃ v, values .argument toks = [v] ∧ (DictVariable v ↔ BracesClose (bracesOf a))

/-- The part of a test's name that shows an example row: ` header = value` for each column. -/
def rowSuffix (header row : Row) : Str :=
  (header.cells.zip row.cells).flatMap fun (h, v) => py" " ++ h.value ++ py" = " ++ v.value

/-- The suffix that the code adds: only below the keyword `Examples`. -/
def Case.suffix (c : Case) : Str :=
  match c.row with
  | some (e, h, r) => if e.keyword = some py"Examples" then rowSuffix h r else []
  | none => []

/-- The test for the pickle `p` made from the case `c`: the documentation is the scenario's description, the tags are those in `own`
without their first character, then come the calls. -/
structure TestOf (own : List Tag) (c : Case) (p : Pickle) (t : Test) : Prop where
  body : ∃ calls, List.Forall₂ (fun (x : Step × PStep) toks => CallOf x.1 x.2 toks) (c.steps.zip p.steps) calls ∧
    t.body = (if c.scenario.description = [] then [] else [.documentation (strip c.scenario.description)]) ++
      (if own = [] then [] else [.tags (own.map fun t => t.name.drop 1)]) ++ calls.map .call
  name : t.name = p.name ++ c.suffix
  pos : ∃ col, c.scenario.loc.column = some col ∧ t.pos = some (c.scenario.loc.line, (col : Int) - 1)

end Gherkin
