import Mathlib.Data.List.Forall2
import Verif.Spec.Interpolate
import Verif.Spec.Pickles
import Verif.Compiler

/-! Specification: the texts in a pickle compared with those of the document. Only the data types of the compiler model are used. -/

namespace Gherkin

/-- The columns of a row: header and value. -/
def columns (header row : Row) : List (Str × Str) := (header.cells.map (·.value)).zip (row.cells.map (·.value))

/-- `p` is the argument `a` with every text changed by `R`. -/
def ArgRel (R : Str → Str → Prop) : StepArg → Option PArg → Prop
  | .none, none => True
  | .table t, some (.table rows) => List.Forall₂ (fun (r : Row) cells => List.Forall₂ (fun (c : Cell) v => R c.value v) r.cells cells) t.rows rows
  | .doc d, some (.doc content mt) => R d.content content ∧ Option.Rel R d.mediaType mt
  | _, _ => False

/-- `q` is the step `s` with every text changed by `R`. -/
def StepRel (R : Str → Str → Prop) (s : Step) (q : PStep) : Prop :=
  (∃ t, s.text = some t ∧ R t q.text) ∧ ArgRel R s.arg q.arg

/-- The texts of the pickle `p` of the case `c`: background steps are copied, and so is everything else if there is no row; with a
row the texts in name and steps are changed by `R` of its columns. -/
def Case.Texts (R : List (Str × Str) → Str → Str → Prop) (c : Case) (p : Pickle) : Prop :=
  match c.row with
  | none => c.scenario.name = some p.name ∧ List.Forall₂ (StepRel Eq) c.steps p.steps
  | some (_, h, r) =>
    (∃ n, c.scenario.name = some n ∧ R (columns h r) n p.name) ∧
    (c.scenario.steps ≠ [] → ∃ ps qs, p.steps = ps ++ qs ∧ List.Forall₂ (StepRel Eq) c.background ps ∧
      List.Forall₂ (StepRel (R (columns h r))) c.scenario.steps qs)

end Gherkin
