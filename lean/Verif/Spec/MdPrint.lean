import Verif.Spec.Print
import Verif.Spec.Markdown
import Verif.Spec.Steps

/-! Specification for C87: writing a feature as a Markdown text, and which features can be written so. Nothing here depends on the parser, matcher or
builder model. -/

namespace Gherkin

/-- How a feature is written in Markdown: the numbers of `#` before the titles, the character that begins list items, the numbers of blanks before
list items and before rows and doc strings. -/
structure MdStyle where
  feature : Nat
  rule : Nat
  scenario : Nat
  examples : Nat
  bullet : Char
  step : Nat
  arg : Nat

/-- Headings have one to six `#`; list items begin with `*`, `+` or `-`; rows are not indented by more than five blanks. -/
def MdStyle.Ok (y : MdStyle) : Prop :=
  (1 ≤ y.feature ∧ y.feature ≤ 6) ∧ (1 ≤ y.rule ∧ y.rule ≤ 6) ∧ (1 ≤ y.scenario ∧ y.scenario ≤ 6) ∧ (1 ≤ y.examples ∧ y.examples ≤ 6) ∧
  (y.bullet = '*' ∨ y.bullet = '+' ∨ y.bullet = '-') ∧ y.arg ≤ 5

namespace MdPrint

open Print (line linesOf)

/-- All tags stand in one line, each in back quotes, with blanks between them; without tags there is no line. -/
def tags (ts : List Tag) : List Str := if ts = [] then [] else [line 0 (joinStr [' '] (ts.map fun t => '`' :: (t.name ++ ['`'])))]

/-- A heading `## Keyword: name`. -/
def head (n : Nat) (keyword name : Option Str) : Str := line 0 (List.replicate n '#' ++ ' ' :: (keyword.getD [] ++ [':', ' '] ++ name.getD []))

/-- A table row `| cell | cell |`, cells escaped. -/
def row (y : MdStyle) (r : Row) : Str := line y.arg (writeRow (r.cells.map fun c => ⟨[' '], c.value, [' ']⟩))

/-- A table, or a doc string: the delimiter with the media type, the content (the delimiter in it escaped), the delimiter. -/
def arg (y : MdStyle) : StepArg → List Str
  | .none => []
  | .table t => t.rows.map (row y)
  | .doc d =>
    let delim := d.delimiter.getD []
    line y.arg (delim ++ d.mediaType.getD []) :: ((linesOf d.content).map fun s => line y.arg (writeDoc delim s)) ++ [line y.arg delim]

/-- A list item `- Keyword text`. -/
def step (y : MdStyle) (s : Step) : List Str := line y.step (y.bullet :: ' ' :: (s.keyword.getD [] ++ s.text.getD [])) :: arg y s.arg

def background (y : MdStyle) (b : Background) : List Str := head y.scenario b.keyword b.name :: b.steps.flatMap (step y)

def examples (y : MdStyle) (e : Examples) : List Str := tags e.tags ++ head y.examples e.keyword e.name :: (e.header.toList ++ e.body).map (row y)

def scenario (y : MdStyle) (s : Scenario) : List Str :=
  tags s.tags ++ head y.scenario s.keyword s.name :: (s.steps.flatMap (step y) ++ s.examples.flatMap (examples y))

def ruleChild (y : MdStyle) : RuleChild → List Str
  | .background b => background y b
  | .scenario s => scenario y s

def rule (y : MdStyle) (r : RuleNode) : List Str := tags r.tags ++ head y.rule r.keyword r.name :: r.children.flatMap (ruleChild y)

def featureChild (y : MdStyle) : FeatureChild → List Str
  | .background b => background y b
  | .scenario s => scenario y s
  | .rule r => rule y r

def feature (y : MdStyle) (f : Feature) : List Str :=
  tags f.tags ++ head y.feature f.keyword f.name :: f.children.flatMap (featureChild y)

/-- The Markdown text of a feature. -/
def text (y : MdStyle) (f : Feature) : Str := (feature y f).flatten

end MdPrint

/-! ### What can be written, beyond what classic texts need -/

namespace MdPrintable

/-- Nothing in the text looks like the beginning of a tag in back quotes. -/
def NoTag (s : Str) : Prop := ¬ py"`@" <:+: s

/-- No description (Markdown takes it for prose), and no tag in the name. -/
def Title (name : Option Str) (description : Str) : Prop := (∀ s ∈ name, NoTag s) ∧ description = []

/-- Tags have names, without back quotes. -/
def Tags (ts : List Tag) : Prop := ∀ t ∈ ts, t.name ≠ ['@'] ∧ '`' ∉ t.name

/-- No cell of a row is what a separator row has: dashes, perhaps with colons (and a newline). -/
def Rows (rs : List Row) : Prop :=
  ∀ r ∈ rs, ∀ c ∈ r.cells, NoTag c.value ∧ ∀ v e, c.value = v ++ e → (e = [] ∨ e = ['\n']) → ¬ Markdown.Dashes v

/-- Three back quotes are not followed by a fourth one. -/
def Arg : StepArg → Prop
  | .none => True
  | .table t => Rows t.rows
  | .doc d => d.delimiter = some py"```" → ∀ s ∈ d.mediaType, s.head? ≠ some '`'

/-- The step has a keyword other than `* `. -/
def Step (s : Gherkin.Step) : Prop := s.keyword ≠ some bullet ∧ (∀ x ∈ s.text, NoTag x) ∧ Arg s.arg

def Background (b : Gherkin.Background) : Prop := Title b.name b.description ∧ ∀ s ∈ b.steps, Step s

def Examples (e : Gherkin.Examples) : Prop := Tags e.tags ∧ Title e.name e.description ∧ Rows (e.header.toList ++ e.body)

def Scenario (s : Gherkin.Scenario) : Prop :=
  Tags s.tags ∧ Title s.name s.description ∧ (∀ x ∈ s.steps, Step x) ∧ ∀ x ∈ s.examples, Examples x

def RuleChild : Gherkin.RuleChild → Prop
  | .background b => Background b
  | .scenario s => Scenario s

def Rule (r : RuleNode) : Prop := Tags r.tags ∧ Title r.name r.description ∧ ∀ x ∈ r.children, RuleChild x

def FeatureChild : Gherkin.FeatureChild → Prop
  | .background b => Background b
  | .scenario s => Scenario s
  | .rule r => Rule r

/-- The feature can be written as a Markdown text. -/
def Feature (f : Gherkin.Feature) : Prop :=
  Printable.Feature f ∧ Tags f.tags ∧ Title f.name f.description ∧ ∀ x ∈ f.children, FeatureChild x

end MdPrintable

end Gherkin
