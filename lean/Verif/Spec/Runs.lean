import Verif.Spec.Robot
import Verif.Spec.PickleText

/-! Specification: the Robot Framework test of a case, told in terms of the document alone (no pickle in between). -/

namespace Gherkin

open Robot

/-- How the texts of the scenario are filled: not at all without a row; with a row every `<header>` is replaced by the row's value, one column after the
other. (By `C28_filled_at_once` this is filling all placeholders at once, if no value contains a `<`.) -/
def Case.Fill (c : Case) (s s' : Str) : Prop :=
  match c.row with
  | none => s = s'
  | some (_, h, r) => ReplacedAll (columns h r) s s'

/-- How the texts of the `i`-th step are filled: background steps are copied. -/
def Case.FillAt (c : Case) (i : Nat) (s s' : Str) : Prop := if i < c.background.length then s = s' else c.Fill s s'

@[simp] def Robot.Item.toks? : Item → Option (List Tok)
  | .call toks => some toks
  | _ => none
@[simp] def Robot.Item.tagList : Item → List Str
  | .tags ts => ts
  | _ => []
@[simp] def Robot.Item.doc? : Item → Option Str
  | .documentation s => some s
  | _ => none

/-- The keyword calls of a test. -/
def Robot.Test.calls (t : Test) : List (List Tok) := t.body.filterMap Item.toks?

/-- The tags of a test. -/
def Robot.Test.tagNames (t : Test) : List Str := t.body.flatMap Item.tagList

/-- The documentation of a test. -/
def Robot.Test.docs (t : Test) : List Str := t.body.filterMap Item.doc?

/-- The description without white space around it, unless there is none. -/
def docOf (description : Str) : List Str := if description = [] then [] else [strip description]

/-- The call of the `i`-th step of a case: the keyword is named by the step as written, its placeholders filled (without the step's keyword if its
type is Unknown), and its arguments stand for the step's table or doc string, filled likewise. -/
def Case.CallAt (c : Case) (i : Nat) (s : Step) (toks : List Tok) : Prop :=
  ∃ kw x x' a, s.keyword = some kw ∧ s.text = some x ∧ c.FillAt i x x' ∧ ArgRel (c.FillAt i) s.arg a ∧
    values .keyword toks = [(if c.typeAt i = some .unknown then [] else kw) ++ x'] ∧ PyLit.Passed a (values .argument toks)

/-- `t` is the test of the case `c` of the feature `f`: named by the scenario, filled, and the row; documented by its description; tagged with the tags
of the rule, the scenario and the examples block, without their first character; and calling the steps of the case, in order. -/
structure TestFor (f : Feature) (c : Case) (t : Test) : Prop where
  name : ∃ n n', c.scenario.name = some n ∧ c.Fill n n' ∧ t.name = n' ++ c.suffix
  docs : t.docs = docOf c.scenario.description
  tags : ∃ own, c.tags.map Tag.name = f.tags.map Tag.name ++ own ∧ t.tagNames = own.map (List.drop 1)
  count : t.calls.length = c.steps.length
  calls : ∀ (i : Nat) (s : Step) (toks : List Tok), c.steps[i]? = some s → t.calls[i]? = some toks → c.CallAt i s toks

/-- The suite's settings say what the feature says: its description and, without their first character, its tags. -/
def SettingsFor (f : Feature) (sets : List Setting) : Prop :=
  (∀ s, .documentation s ∈ sets ↔ strip f.description ≠ [] ∧ s = strip f.description) ∧
  (∀ ts, .testTags ts ∈ sets ↔ f.tags ≠ [] ∧ ts = f.tags.map fun t => t.name.drop 1)

/-- No header cell of the examples has a character that is special in regular expressions. -/
def Document.PlainExamples (d : Document) : Prop :=
  ∀ e ∈ d.examples, ∀ h ∈ e.header, ∀ c ∈ h.cells, ∀ x ∈ c.value, Pickles.isMeta x = false

end Gherkin
