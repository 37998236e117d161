import Verif.Spec.Bare
import Verif.Spec.Blocks

/-! Specification: writing a feature as Gherkin text, and which features can be written. Nothing here depends on the parser, matcher or builder
model. -/

namespace Gherkin

/-- How many blanks stand before the lines. -/
structure Style where
  tags : Nat
  title : Nat
  step : Nat
  arg : Nat

namespace Print

/-- A printed line: blanks, the text, a newline. -/
def line (n : Nat) (s : Str) : Str := List.replicate n ' ' ++ s ++ ['\n']

/-- The lines of a string. -/
def linesOf (s : Str) : List Str := if s = [] then [] else splitChar '\n' s

/-- All tags stand in one line, with blanks between them; without tags there is no line. -/
def tags (y : Style) (ts : List Tag) : List Str := if ts = [] then [] else [line y.tags (joinStr [' '] (ts.map Tag.name))]

/-- A title `Keyword: name` and the description below it, as it is. -/
def head (y : Style) (keyword name : Option Str) (description : Str) : List Str :=
  line y.title (keyword.getD [] ++ [':', ' '] ++ name.getD []) :: (linesOf description).map (· ++ ['\n'])

/-- A table row `| cell | cell |`, cells escaped. -/
def row (y : Style) (r : Row) : Str := line y.arg (writeRow (r.cells.map fun c => ⟨[' '], c.value, [' ']⟩))

/-- A table, or a doc string: the delimiter with the media type, the content (the delimiter in it escaped), the delimiter. -/
def arg (y : Style) : StepArg → List Str
  | .none => []
  | .table t => t.rows.map (row y)
  | .doc d =>
    let delim := d.delimiter.getD []
    line y.arg (delim ++ d.mediaType.getD []) :: ((linesOf d.content).map fun s => line y.arg (writeDoc delim s)) ++ [line y.arg delim]

def step (y : Style) (s : Step) : List Str := line y.step (s.keyword.getD [] ++ s.text.getD []) :: arg y s.arg

def background (y : Style) (b : Background) : List Str := head y b.keyword b.name b.description ++ b.steps.flatMap (step y)

def examples (y : Style) (e : Examples) : List Str :=
  tags y e.tags ++ head y e.keyword e.name e.description ++ (e.header.toList ++ e.body).map (row y)

def scenario (y : Style) (s : Scenario) : List Str :=
  tags y s.tags ++ head y s.keyword s.name s.description ++ s.steps.flatMap (step y) ++ s.examples.flatMap (examples y)

def ruleChild (y : Style) : RuleChild → List Str
  | .background b => background y b
  | .scenario s => scenario y s

def rule (y : Style) (r : RuleNode) : List Str :=
  tags y r.tags ++ head y r.keyword r.name r.description ++ r.children.flatMap (ruleChild y)

def featureChild (y : Style) : FeatureChild → List Str
  | .background b => background y b
  | .scenario s => scenario y s
  | .rule r => rule y r

/-- The lines of a feature; the first one is the language header. -/
def feature (y : Style) (f : Feature) : List Str :=
  line 0 (py"# language: " ++ f.language.getD []) :: (tags y f.tags ++ head y f.keyword f.name f.description ++ f.children.flatMap (featureChild y))

/-- The text of a feature. -/
def text (y : Style) (f : Feature) : Str := (feature y f).flatten

end Print

/-! ### What can be written -/

namespace Printable

/-- A text that fits in the rest of a line: no newline, no white space at its ends. -/
def OneLine (s : Str) : Prop := '\n' ∉ s ∧ strip s = s

/-- A title: one of the keywords, and a name that fits in the line. -/
def Title (keywords : List Str) (keyword name : Option Str) : Prop :=
  (∃ kw ∈ keywords, keyword = some kw) ∧ ∃ s, name = some s ∧ OneLine s

/-- A description: it begins with a line that is not blank, does not end with an empty line, and none of its lines would end it. (Carriage returns
at the end of a line would be taken for a part of the line end.) -/
def Description (d : Dialect) (p : Part) (s : Str) : Prop :=
  s = [] ∨ (∀ l ∈ (splitChar '\n' s).head?, l.any (fun c => !isSpace c) = true) ∧ (splitChar '\n' s).getLast? ≠ some [] ∧
    ∀ l ∈ splitChar '\n' s, l.getLast? ≠ some '\r' ∧ ends d p ⟨l, 0⟩ = false

/-- Tags `@name`; names without white space and `@`. -/
def Tags (ts : List Tag) : Prop := ∀ t ∈ ts, ∃ n, t.name = '@' :: n ∧ TagName n

/-- Rows of the same number of cells. -/
def Rows (rs : List Row) : Prop := (∀ r ∈ rs, ∀ c ∈ r.cells, CellValue c.value) ∧ ∃ n, ∀ r ∈ rs, r.cells.length = n

/-- A table has a row. A doc string has one of the delimiters; if it has a media type, this is not empty and fits in the line; no line of its
content ends with a carriage return; they can be written. -/
def Arg : StepArg → Prop
  | .none => True
  | .table t => t.rows ≠ [] ∧ Rows t.rows
  | .doc d => ∃ delim ∈ docDelimiters, d.delimiter = some delim ∧ (∀ s ∈ d.mediaType, s ≠ [] ∧ OneLine s) ∧
      ∀ l ∈ splitChar '\n' d.content, l.getLast? ≠ some '\r' ∧ Escapable delim l

/-- The keyword of a step: the first one in the dialect with which the line begins; it determines the type of the step: the part of the dialect in
which it is the only time. -/
def Step (d : Dialect) (s : Gherkin.Step) : Prop :=
  (∃ kw x, s.keyword = some kw ∧ s.text = some x ∧ OneLine x ∧ d.stepKeywords.find? (fun k => k.isPrefixOf (kw ++ x)) = some kw ∧
    s.keywordType = some (match d.keywordTypes kw with | [t] => t | _ => .unknown)) ∧
  Arg s.arg

def Background (d : Dialect) (b : Gherkin.Background) : Prop :=
  Title d.background b.keyword b.name ∧ Description d .background b.description ∧ ∀ s ∈ b.steps, Step d s

/-- Without header row there are no other rows. -/
def Examples (d : Dialect) (e : Gherkin.Examples) : Prop :=
  Tags e.tags ∧ Title d.examples e.keyword e.name ∧ Description d .examples e.description ∧ (e.header = none → e.body = []) ∧
  Rows (e.header.toList ++ e.body)

def Scenario (d : Dialect) (s : Gherkin.Scenario) : Prop :=
  Tags s.tags ∧ Title (d.scenario ++ d.scenarioOutline) s.keyword s.name ∧ Description d .scenario s.description ∧
  (∀ x ∈ s.steps, Step d x) ∧ ∀ x ∈ s.examples, Examples d x

/-- The children of a rule: possibly a background, then scenarios. -/
def Rule (d : Dialect) (r : RuleNode) : Prop :=
  Tags r.tags ∧ Title d.rule r.keyword r.name ∧ Description d .rule r.description ∧
  ∃ (b : Option Gherkin.Background) (ss : List Gherkin.Scenario), r.children = b.toList.map .background ++ ss.map .scenario ∧
    (∀ x ∈ b, Background d x) ∧ ∀ x ∈ ss, Scenario d x

/-- The children of a feature: possibly a background, then scenarios, then rules. The language is one that is known. -/
def Feature (f : Gherkin.Feature) : Prop :=
  ∃ name d, f.language = some name ∧ dialectFor name = some d ∧
  Tags f.tags ∧ Title d.feature f.keyword f.name ∧ Description d .feature f.description ∧
  ∃ (b : Option Gherkin.Background) (ss : List Gherkin.Scenario) (rs : List RuleNode),
    f.children = b.toList.map .background ++ ss.map .scenario ++ rs.map .rule ∧
    (∀ x ∈ b, Background d x) ∧ (∀ x ∈ ss, Scenario d x) ∧ ∀ x ∈ rs, Rule d x

end Printable

end Gherkin
