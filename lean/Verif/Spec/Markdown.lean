import Verif.Spec.Source
import Verif.Spec.Quotes
import Verif.Dialect
import Verif.Spec.Blocks

/-! Specification for the Markdown claims. Nothing here depends on the parser, matcher or builder model. -/

namespace Gherkin.Markdown

/-- The doc string delimiter a line begins with, after white space. -/
def fenceOf (s : Str) : Option Str := [py"\"\"\"", py"````", py"```"].find? fun f => (lstrip s).take f.length = f

/-- All lines of the text that begin with a doc string delimiter begin with the same one. -/
def OneFence (text : Str) : Prop := ∃ f, ∀ s ∈ splitLines text, fenceOf s = none ∨ fenceOf s = some f

/-- No heading, that is line that begins with `#` after white space, has a tag in back quotes in it. -/
def PlainHeadings (text : Str) : Prop :=
  ∀ s ∈ splitLines text, (lstrip s).head? = some '#' → ¬ ∃ a b, s = a ++ py"`@" ++ b

/-! ### What Markdown lines say -/

/-- The line of `loc` is a heading (one to six `#` and a white space character) with one of the keywords, `:` and a rest that is, stripped, the
name; the column is that of the keyword. -/
def Heading (text : Str) (keywords : List Str) (loc : Location) (keyword name : Option Str) : Prop :=
  ∃ kw pre n sp rest, keyword = some kw ∧ kw ∈ keywords ∧ White pre ∧ 1 ≤ n ∧ n ≤ 6 ∧ isSpace sp = true ∧
    LineIs text loc.line (pre ++ List.replicate n '#' ++ sp :: (kw ++ ':' :: rest)) ∧ loc.column = some (pre.length + n + 2) ∧
    name = some (strip rest)

/-- The line of `loc` is a list item (`*`, `+` or `-`) with one of the step keywords and a rest that is, stripped, the step's text. -/
def Bullet (text : Str) (keywords : List Str) (loc : Location) (keyword name : Option Str) : Prop :=
  ∃ kw pre b gap rest, keyword = some kw ∧ kw ∈ keywords ∧ White pre ∧ (b = '*' ∨ b = '+' ∨ b = '-') ∧ White gap ∧
    LineIs text loc.line (pre ++ b :: (gap ++ kw ++ rest)) ∧ loc.column = some (pre.length + gap.length + 2) ∧ name = some (strip rest)

/-- A feature without heading: the whole line, without white space before it and line end, is the name. -/
def PlainFeature (text : Str) (loc : Location) (keyword name : Option Str) : Prop :=
  keyword = none ∧ ∃ pre rest, White pre ∧ (∀ c, rest.head? = some c → isSpace c = false) ∧ LineIs text loc.line (pre ++ rest) ∧
    loc.column = some (pre.length + 1) ∧ name = some (rstripEol rest)

/-- A tag stands between back quotes in its line; the column is that of the `@`. -/
def QuotedTag (text : Str) (loc : Location) (name : Str) : Prop :=
  ∃ pre n rest, name = '@' :: n ∧ n ≠ [] ∧ '`' ∉ n ∧ LineIs text loc.line (pre ++ '`' :: (name ++ '`' :: rest)) ∧ loc.column = some (pre.length + 2)

/-- A cell of a separator row: dashes, with an optional colon on each side. -/
def Dashes (s : Str) : Prop := ∃ a n b, (a = [] ∨ a = [':']) ∧ (b = [] ∨ b = [':']) ∧ s = a ++ List.replicate (n + 1) '-' ++ b

/-- A table row stands in its line, at most five white space characters before the `|`; it is no separator row. -/
def QuotedRow (text : Str) (loc : Location) (cells : List Cell) : Prop :=
  QuotesRow text loc cells ∧ (∃ c, loc.column = some c ∧ c ≤ 6) ∧ ∀ c ∈ cells, ¬ Dashes c.value

/-- The first step type, in the order Given, When, Then, And/But, to which the keyword belongs. -/
def FirstType (d : Dialect) (kw : Str) (t : KType) : Prop :=
  (t = .context ∧ kw ∈ d.given) ∨ (t = .action ∧ kw ∉ d.given ∧ kw ∈ d.when_) ∨ (t = .outcome ∧ kw ∉ d.given ++ d.when_ ∧ kw ∈ d.then_) ∨
    (t = .conjunction ∧ kw ∉ d.given ++ d.when_ ++ d.then_ ∧ kw ∈ d.and_ ++ d.but_)

/-- An entry of a document quotes a Markdown text in the language `lang` with dialect `d`. -/
def Quoted (text lang : Str) (d : Dialect) : Entry → Prop
  | .feature loc kw name l => l = some lang ∧ (Heading text d.feature loc kw name ∨ PlainFeature text loc kw name)
  | .rule loc kw name => Heading text d.rule loc kw name
  | .background loc kw name => Heading text d.background loc kw name
  | .scenario loc kw name => Heading text (d.scenario ++ d.scenarioOutline) loc kw name
  | .examples loc kw name => Heading text d.examples loc kw name
  | .step loc kw ty name => Bullet text (d.given ++ d.when_ ++ d.then_ ++ d.and_ ++ d.but_) loc kw name ∧ ∃ k t, kw = some k ∧ ty = some t ∧ FirstType d k t
  | .tag loc name => QuotedTag text loc name
  | .row loc cells => QuotedRow text loc cells

/-- The text begins with a tag in back quotes, with this name. -/
def StartsWithTag (s name : Str) : Prop := ∃ n rest, name = '@' :: n ∧ n ≠ [] ∧ '`' ∉ n ∧ s = '`' :: (name ++ '`' :: rest)

/-- The tags in back quotes in a text whose first character has position `pos`, from left to right; after a tag the search goes on behind its
closing back quote. -/
inductive TagsIn : Nat → Str → List (Nat × Str) → Prop
  | done {pos} : TagsIn pos [] []
  | tag {pos name rest tags} : StartsWithTag ('`' :: (name ++ '`' :: rest)) name → TagsIn (pos + name.length + 2) rest tags →
      TagsIn pos ('`' :: (name ++ '`' :: rest)) ((pos, name) :: tags)
  | other {pos c s tags} : (∀ name, ¬ StartsWithTag (c :: s) name) → TagsIn (pos + 1) s tags → TagsIn pos (c :: s) tags

/-! ### The form of a line -/

/-- What a cell of a separator row stands for, before it is stripped: dashes with white space around them, perhaps with a written newline at the
end. -/
def Dashy (v : Str) : Prop := ∃ p c q e, Pad p ∧ Pad q ∧ Dashes c ∧ (v = p ++ c ++ q ++ e ∨ v = p ++ c ++ e ++ q) ∧ (e = [] ∨ e = ['\n'])

/-- The text behind the `|` that begins a row has a cell of dashes in it. -/
inductive DashCell : Str → Prop
  | here {raw v rest} : Reads raw v → Dashy v → DashCell (raw ++ '|' :: rest)
  | later {raw v rest} : Reads raw v → DashCell rest → DashCell (raw ++ '|' :: rest)

/-- The line is a separator row: a table row with a cell of dashes. -/
def SeparatorRow (s : Str) : Prop := ∃ pre rest, White pre ∧ s = pre ++ '|' :: rest ∧ DashCell rest

/-- The line is a heading with one of the keywords. -/
def HeadingLine (keywords : List Str) (s : Str) : Prop :=
  ∃ kw pre n sp rest, kw ∈ keywords ∧ White pre ∧ 1 ≤ n ∧ n ≤ 6 ∧ isSpace sp = true ∧ s = pre ++ List.replicate n '#' ++ sp :: (kw ++ ':' :: rest)

/-- The line is a list item with one of the keywords. -/
def ItemLine (keywords : List Str) (s : Str) : Prop :=
  ∃ kw pre b gap rest, kw ∈ keywords ∧ White pre ∧ (b = '*' ∨ b = '+' ∨ b = '-') ∧ White gap ∧ s = pre ++ b :: (gap ++ kw ++ rest)

/-- The forms a Gherkin line can have in Markdown. -/
inductive Form
  | tags | rule | background | scenario | examples | step | row
  deriving DecidableEq, Repr

/-- The line has the form. -/
def HasForm (d : Dialect) (s : Str) : Form → Prop
  | .tags => ∃ pre n rest, n ≠ [] ∧ '`' ∉ n ∧ s = pre ++ py"`@" ++ n ++ '`' :: rest
  | .rule => HeadingLine d.rule s
  | .background => HeadingLine d.background s
  | .scenario => HeadingLine (d.scenario ++ d.scenarioOutline) s
  | .examples => HeadingLine d.examples s
  | .step => ItemLine (d.given ++ d.when_ ++ d.then_ ++ d.and_ ++ d.but_) s
  | .row => ∃ pre rest, White pre ∧ pre.length ≤ 5 ∧ s = pre ++ '|' :: rest ∧ ¬ DashCell rest

/-- The form of the line an element stands in; a feature may stand in any line. -/
def formOf : Entry → Option Form
  | .feature .. => none
  | .rule .. => some .rule
  | .background .. => some .background
  | .scenario .. => some .scenario
  | .examples .. => some .examples
  | .step .. => some .step
  | .tag .. => some .tags
  | .row .. => some .row

/-! ### Doc strings -/

/-- The delimiters of Markdown doc strings. -/
def fences : List Str := [py"\"\"\"", py"````", py"```"]

/-- What a line of a Markdown doc string stands for: as in a classic doc string, but between four back quotes nothing is escaped. -/
def fencedLine (delim : Str) (indent : Nat) (s : Str) : Str := if delim = py"````" then chomp (outdent indent s) else docLine delim indent s

/-- The doc string is what stands in the text: its line is white space, the delimiter at the doc string's column, and a rest that is,
stripped, the media type; its content is the lines that follow up to the first one that begins with the delimiter, and there is such a
line. -/
def DocQuoted (text : Str) (d : DocString) : Prop :=
  ∃ delim ∈ fences, d.delimiter = some delim ∧
  ∃ ws rest : Str, White ws ∧ LineIs text d.loc.line (ws ++ delim ++ rest) ∧ d.loc.column = some (ws.length + 1) ∧
    d.mediaType = (if strip rest = [] then none else some (strip rest)) ∧
    d.content = joinStr ['\n'] ((docBody text d.loc.line delim).map fun l => fencedLine delim ws.length l.text) ∧
    ∃ closing, (linesAfter text d.loc.line)[(docBody text d.loc.line delim).length]? = some closing ∧ isDelim delim closing = true

/-- No line of a description begins with a doc string delimiter. -/
def NoFenceInText (d : Document) : Prop := ∀ p ∈ d.parts, ∀ s ∈ splitChar '\n' p.2.2, fenceOf s = none

/-- What a line of a description or a doc string stands for: the line without line end and without some of the white space before it, in a doc
string with its delimiter unescaped. -/
def ProseOf (s x : Str) : Prop := ∃ n, x = chomp (outdent n s) ∨ ∃ delim ∈ docDelimiters, x = docLine delim n s

/-- The line stands in a description or a doc string of the document. -/
def InProse (d : Document) (s : Str) : Prop :=
  ∃ x, ProseOf s x ∧ ((∃ p ∈ d.parts, x ∈ splitChar '\n' p.2.2) ∨ ∃ y ∈ d.docStrings, x ∈ splitChar '\n' y.content)

end Gherkin.Markdown
