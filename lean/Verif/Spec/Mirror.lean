import Verif.Spec.Markdown
import Verif.Spec.Bare
import Verif.Spec.Steps

/-! Specification for C63: when a Markdown text says, line by line, what a classic text says. Nothing here depends on the parser, matcher or
builder model. -/

namespace Gherkin.Markdown

/-- A tag in a classic line (`@name` and white space) and in a Markdown line (`` `@name` `` and any text without back quotes). -/
structure TagPair where
  name : Str
  space : Str
  gap : Str

/-- The name has a character, and neither white space, `@` nor back quote in it. -/
def TagPair.Ok (t : TagPair) : Prop := t.name ≠ [] ∧ TagName t.name ∧ '`' ∉ t.name ∧ White t.space ∧ '`' ∉ t.gap

def TagPair.classic (t : TagPair) : Str := '@' :: (t.name ++ t.space)
def TagPair.markdown (t : TagPair) : Str := '`' :: '@' :: (t.name ++ '`' :: t.gap)

/-- `s` is a classic line with tags, `s'` a Markdown line with the same tags. -/
def TagLines (s s' : Str) : Prop :=
  ∃ (w w' : Str) (tags : List TagPair), White w ∧ White w' ∧ tags ≠ [] ∧ (∀ t ∈ tags, t.Ok) ∧
    s = w ++ tags.flatMap TagPair.classic ∧ s' = w' ++ tags.flatMap TagPair.markdown

/-- `s` is a classic line with one of the keywords, `:` and a rest, `s'` a Markdown heading, without tags in it, with the same keyword and
rest. -/
def TitleLines (d : Dialect) (keywords : List Str) (s s' : Str) : Prop :=
  ∃ (w w' kw rest : Str) (n : Nat) (sp : Char), White w ∧ White w' ∧ kw ∈ keywords ∧ 1 ≤ n ∧ n ≤ 6 ∧ isSpace sp = true ∧
    s = w ++ (kw ++ ':' :: rest) ∧ s' = w' ++ (List.replicate n '#' ++ sp :: (kw ++ ':' :: rest)) ∧ ¬ HasForm d s' .tags

/-- `s` is a classic step, but not one with the keyword `* `; `s'` is a Markdown list item, without tags in it, with the same step. -/
def StepLines (d : Dialect) (s s' : Str) : Prop :=
  ∃ (w w' kw rest : Str) (b : Char) (gap : Str), White w ∧ White w' ∧ kw ∈ d.given ++ d.when_ ++ d.then_ ++ d.and_ ++ d.but_ ∧ kw ≠ bullet ∧
    (b = '*' ∨ b = '+' ∨ b = '-') ∧ White gap ∧ s = w ++ (kw ++ rest) ∧ s' = w' ++ b :: (gap ++ (kw ++ rest)) ∧ ¬ HasForm d s' .tags

/-- Both lines are the same table row, without tags and without a cell of dashes; in Markdown there are at most five white space characters
before it. -/
def RowLines (d : Dialect) (s s' : Str) : Prop :=
  ∃ w w' rest : Str, White w ∧ White w' ∧ w'.length ≤ 5 ∧ ¬ DashCell rest ∧ s = w ++ '|' :: rest ∧ s' = w' ++ '|' :: rest ∧ ¬ HasForm d s' .tags

/-- `s` is a classic comment, `s'` a Markdown row that separates the header of a table from its body: cells of dashes. -/
def SeparatorLines (s s' : Str) : Prop :=
  (∃ w rest : Str, White w ∧ s = w ++ '#' :: rest) ∧
  ∃ (w' : Str) (cells : List WCell) (e : Str), White w' ∧ White e ∧ cells ≠ [] ∧ (∀ c ∈ cells, Pad c.left ∧ Dashes c.value ∧ Pad c.right) ∧
    s' = w' ++ writeRow cells ++ e

/-- `s` is a blank classic line, `s'` a Markdown line that is not Gherkin: blank or prose. -/
def ProseLines (d : Dialect) (s s' : Str) : Prop :=
  White s ∧ (∀ f, ¬ HasForm d s' f) ∧ fenceOf s' = none ∧ (lstrip s').head? ≠ some '|'

/-- The lines say the same (outside doc strings, after the title of the feature). -/
inductive SaysSame (d : Dialect) (s s' : Str) : Prop
  | title : TitleLines d (d.rule ++ d.background ++ d.scenario ++ d.scenarioOutline ++ d.examples) s s' → SaysSame d s s'
  | step : StepLines d s s' → SaysSame d s s'
  | row : RowLines d s s' → SaysSame d s s'
  | tags : TagLines s s' → SaysSame d s s'
  | separator : SeparatorLines s s' → SaysSame d s s'
  | prose : ProseLines d s s' → SaysSame d s s'

/-- Places in a text: before the title of the feature, after it, in a doc string with the given delimiter. -/
inductive Place
  | start | body | doc (delim : Str)

/-- The lines of a Markdown text say, one by one, what the lines of a classic text say. Doc strings are the same, with their delimiters and
indentation, but are not delimited by four back quotes. -/
inductive Mirrors (d : Dialect) : Place → List Str → List Str → Prop
  | done : Mirrors d .body [] []
  | tags {s s' ls ls'} : TagLines s s' → Mirrors d .start ls ls' → Mirrors d .start (s :: ls) (s' :: ls')
  | feature {s s' ls ls'} : TitleLines d d.feature s s' → Mirrors d .body ls ls' → Mirrors d .start (s :: ls) (s' :: ls')
  | line {s s' ls ls'} : SaysSame d s s' → Mirrors d .body ls ls' → Mirrors d .body (s :: ls) (s' :: ls')
  | opening {s ls ls' delim} : delim ∈ docDelimiters → fenceOf s = some delim → Mirrors d (.doc delim) ls ls' →
      Mirrors d .body (s :: ls) (s :: ls')
  | content {s ls ls' delim} : ¬ delim <+: lstrip s → Mirrors d (.doc delim) ls ls' → Mirrors d (.doc delim) (s :: ls) (s :: ls')
  | closing {s ls ls' delim} : delim <+: lstrip s → Mirrors d .body ls ls' → Mirrors d (.doc delim) (s :: ls) (s :: ls')

end Gherkin.Markdown

namespace Gherkin

/-- The feature with the lines, but without the columns, of its locations. -/
def Feature.uncolumned (f : Feature) : Feature := f.change ⟨fun l => ⟨l.line, none⟩, fun i => i, fun s => s⟩

end Gherkin
