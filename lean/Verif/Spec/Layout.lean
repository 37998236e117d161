import Verif.Spec.Errors

/-! Specification: how the lines of a Gherkin text may be arranged. A layout is a text cut into the parts it is made of; every line is kept as it
stands, with its indentation and line end. `texts` glues the parts together again. `Ok` says that each line is of the kind its place asks for.
Nothing here depends on the parser, matcher or builder model. -/

namespace Gherkin.Layout

open Gherkin

/-- Elements placed one after the other, from line `n` on. -/
def place {α β : Type} (len : α → Nat) (f : Nat → α → β) : Nat → List α → List β
  | _, [] => []
  | n, a :: as => f n a :: place len f (n + len a) as

/-- What the line is, in a dialect. -/
def kind (d : Dialect) (s : Str) : Kind := lineKind d ⟨s, 0⟩

/-- A blank line. -/
def Blank (s : Str) : Prop := isBlankLine ⟨s, 0⟩ = true
/-- A comment. -/
def Hash (s : Str) : Prop := firstIs '#' ⟨s, 0⟩ = true
/-- Blank lines and comments. -/
def Noise (ls : List Str) : Prop := ∀ s ∈ ls, Blank s ∨ Hash s

/-- A line and the blank lines and comments after it. -/
structure Ln where
  text : Str
  after : List Str

def Ln.texts (l : Ln) : List Str := l.text :: l.after
/-- The line is of a kind, what follows is blank or comment. -/
def Ln.Ok (d : Dialect) (k : Kind) (l : Ln) : Prop := kind d l.text = k ∧ Noise l.after

/-- Tag lines; none of them has white space inside a tag. -/
def TagsOk (d : Dialect) (ts : List Ln) : Prop := ∀ t ∈ ts, t.Ok d .tagLine ∧ ¬ BadTags t.text

/-- Table rows, all with the same number of cells; none of them ends with half an escape sequence. -/
def RowsOk (d : Dialect) (rs : List Ln) : Prop :=
  (∀ r ∈ rs, r.Ok d .tableRow ∧ ¬ BadRow r.text) ∧
  ∃ n, ∀ r ∈ rs, ∀ cells, Line.tableCells ⟨r.text, 0⟩ = .ok cells → cells.length = n

/-- The argument of a step: nothing, a table of at least one row, or a doc string. -/
inductive Arg
  | none
  | table (first : Ln) (more : List Ln)
  | doc (opening : Str) (content : List Str) (closing : Ln)

def Arg.texts : Arg → List Str
  | .none => []
  | .table r rs => (r :: rs).flatMap Ln.texts
  | .doc o ls c => o :: (ls ++ c.texts)

/-- A doc string is closed by the first line that begins with the delimiter that opened it. -/
def Arg.Ok (d : Dialect) : Arg → Prop
  | .none => True
  | .table r rs => RowsOk d (r :: rs)
  | .doc o ls c => ∃ delim ∈ docDelimiters, isDelim delim ⟨o, 0⟩ = true ∧ (∀ s ∈ ls, isDelim delim ⟨s, 0⟩ = false) ∧
      isDelim delim ⟨c.text, 0⟩ = true ∧ Noise c.after

structure Step where
  line : Ln
  arg : Arg

namespace Step
def texts (s : Step) : List Str := s.line.texts ++ s.arg.texts
def Ok (d : Dialect) (s : Step) : Prop := s.line.Ok d .stepLine ∧ s.arg.Ok d
end Step

/-- A title line with its description: the title, lines before the description, the description, blank lines and comments after it. -/
structure Head where
  line : Str
  gap : List Str
  prose : List Str
  after : List Str

namespace Head
def texts (h : Head) : List Str := h.line :: (h.gap ++ h.prose ++ h.after)
/-- Without description blank lines and comments may follow in any order. Otherwise only blank lines come before the description; it begins with a
line that is not blank and has no line that would end it; if anything follows, the first thing is a comment (blank lines would still belong to the
description). -/
def Ok (d : Dialect) (k : Kind) (p : Part) (h : Head) : Prop :=
  kind d h.line = k ∧
  if h.prose = [] then Noise h.gap ∧ h.after = []
  else (∀ s ∈ h.gap, Blank s) ∧ (∀ s ∈ h.prose.head?, ¬ Blank s) ∧ (∀ s ∈ h.prose, ends d p ⟨s, 0⟩ = false) ∧
    Noise h.after ∧ ∀ s ∈ h.after.head?, Hash s
end Head

structure Background where
  head : Head
  steps : List Step

namespace Background
def texts (b : Background) : List Str := b.head.texts ++ b.steps.flatMap Step.texts
def Ok (d : Dialect) (b : Background) : Prop := b.head.Ok d .backgroundLine .background ∧ ∀ s ∈ b.steps, s.Ok d
end Background

structure Examples where
  tags : List Ln
  head : Head
  table : List Ln

namespace Examples
def texts (e : Examples) : List Str := e.tags.flatMap Ln.texts ++ (e.head.texts ++ e.table.flatMap Ln.texts)
def Ok (d : Dialect) (e : Examples) : Prop := TagsOk d e.tags ∧ e.head.Ok d .examplesLine .examples ∧ RowsOk d e.table
end Examples

structure Scenario where
  tags : List Ln
  head : Head
  steps : List Step
  examples : List Examples

namespace Scenario
def texts (s : Scenario) : List Str :=
  s.tags.flatMap Ln.texts ++ (s.head.texts ++ (s.steps.flatMap Step.texts ++ s.examples.flatMap Examples.texts))
def Ok (d : Dialect) (s : Scenario) : Prop :=
  TagsOk d s.tags ∧ s.head.Ok d .scenarioLine .scenario ∧ (∀ x ∈ s.steps, x.Ok d) ∧ ∀ x ∈ s.examples, x.Ok d
end Scenario

structure Rule where
  tags : List Ln
  head : Head
  background : Option Background
  scenarios : List Scenario

namespace Rule
def texts (r : Rule) : List Str :=
  r.tags.flatMap Ln.texts ++ (r.head.texts ++ (r.background.toList.flatMap Background.texts ++ r.scenarios.flatMap Scenario.texts))
def Ok (d : Dialect) (r : Rule) : Prop :=
  TagsOk d r.tags ∧ r.head.Ok d .ruleLine .rule ∧ (∀ x ∈ r.background, x.Ok d) ∧ ∀ x ∈ r.scenarios, x.Ok d
end Rule

structure Feature where
  tags : List Ln
  head : Head
  background : Option Background
  scenarios : List Scenario
  rules : List Rule

namespace Feature
def texts (f : Feature) : List Str :=
  f.tags.flatMap Ln.texts ++ (f.head.texts ++ (f.background.toList.flatMap Background.texts ++
    (f.scenarios.flatMap Scenario.texts ++ f.rules.flatMap Rule.texts)))
def Ok (d : Dialect) (f : Feature) : Prop :=
  TagsOk d f.tags ∧ f.head.Ok d .featureLine .feature ∧ (∀ x ∈ f.background, x.Ok d) ∧ (∀ x ∈ f.scenarios, x.Ok d) ∧
  ∀ x ∈ f.rules, x.Ok d
end Feature

/-- A text: blank lines and comments, possibly a language header, and the feature. -/
structure File where
  before : List Str
  language : Option Ln
  feature : Feature

namespace File
def texts (f : File) : List Str := f.before ++ (f.language.toList.flatMap Ln.texts ++ f.feature.texts)
/-- The lines are as they should be; `default` is the language of the parser. The comments before the header or the feature do not look like
language headers; the header names a known language. -/
def Ok (default : Str) (f : File) : Prop :=
  Noise f.before ∧ (∀ s ∈ f.before, ∀ name, ¬ IsHeader name s) ∧
  match f.language with
  | none => ∃ d, dialectFor default = some d ∧ f.feature.Ok d
  | some l => Noise l.after ∧ ∃ name d, IsHeader name l.text ∧ dialectFor name = some d ∧ f.feature.Ok d
end File

end Gherkin.Layout
