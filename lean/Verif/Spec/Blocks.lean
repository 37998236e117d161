import Verif.Spec.Source
import Verif.Spec.Doc
import Verif.Spec.Quotes
import Verif.Gen.Dialects

/-! Specification: doc strings, descriptions and comments as blocks of source lines. Nothing here depends on the parser, matcher or
builder model. -/

namespace Gherkin

/-- The line without its line end. -/
def chomp (s : Str) : Str := rstripEol s

/-- The lines after line number `n`. -/
def linesAfter (text : Str) (n : Nat) : List Line := (sourceLines text).drop n

/-- Takes away up to `n` leading white space characters. -/
def outdent : Nat → Str → Str
  | n + 1, c :: cs => if isSpace c then outdent n cs else c :: cs
  | _, s => s

/-- The delimiters of doc strings. -/
def docDelimiters : List Str := [py"\"\"\"", py"```"]

/-- The delimiter with a backslash before each character: how a delimiter is written inside a doc string. -/
def escaped (delim : Str) : Str := delim.flatMap fun c => ['\\', c]

/-- What a line of a doc string stands for. -/
def docLine (delim : Str) (indent : Nat) (s : Str) : Str := chomp (replaceAll (escaped delim) delim (outdent indent s))

/-- How a line of content is written in a doc string: delimiters escaped. -/
def writeDoc (delim : Str) (s : Str) : Str := replaceAll delim (escaped delim) s

/-- A line of content that can be written in a doc string: an escaped delimiter in it would be read as a delimiter, unless two more delimiter characters
follow (then its last character is the first one of a delimiter and is written escaped itself). -/
def Escapable (delim : Str) (s : Str) : Prop := ∀ a b, s = a ++ escaped delim ++ b → delim.drop 1 <+: b

/-- `line` writes the content line `s` of a doc string indented by `n`: indentation, content, line end. If the content does not begin
with white space, the indentation may be smaller. The content is one line that can be written. -/
def WritesDoc (delim : Str) (n : Nat) (s : Str) (line : Str) : Prop :=
  ∃ pad eol : Str, (∀ c ∈ pad, isSpace c = true) ∧ eol ∈ [py"\n", py"\r\n", []] ∧ line = pad ++ writeDoc delim s ++ eol ∧
    (pad.length = n ∨ pad.length < n ∧ ∀ c ∈ s.head?, isSpace c = false) ∧
    '\n' ∉ s ∧ s.getLast? ≠ some '\r' ∧ Escapable delim s

/-- The line, apart from leading white space, begins with the delimiter. -/
def isDelim (delim : Str) (l : Line) : Bool := delim.isPrefixOf (lstrip l.text)

/-- The content lines of the doc string that opens in line `n`. -/
def docBody (text : Str) (n : Nat) (delim : Str) : List Line := (linesAfter text n).takeWhile fun l => !isDelim delim l

/-- The doc string is what stands in the text: its line is white space, the delimiter at the doc string's column, and a rest that is,
stripped, the media type; its content is the lines that follow up to the first one that begins with the delimiter, and there is such a
line. -/
def DocString.Quoted (text : Str) (d : DocString) : Prop :=
  ∃ delim ∈ docDelimiters, d.delimiter = some delim ∧
  ∃ ws rest : Str, (∀ c ∈ ws, isSpace c = true) ∧
    LineIs text d.loc.line (ws ++ delim ++ rest) ∧
    d.loc.column = some (ws.length + 1) ∧
    d.mediaType = (if strip rest = [] then none else some (strip rest)) ∧
    d.content = joinStr ['\n'] ((docBody text d.loc.line delim).map fun l => docLine delim ws.length l.text) ∧
    ∃ closing, (linesAfter text d.loc.line)[(docBody text d.loc.line delim).length]? = some closing ∧ isDelim delim closing = true

/-- The doc strings of a document, those of the backgrounds first. -/
def Document.docStrings (d : Document) : List DocString :=
  d.steps.filterMap fun s => match s.arg with | .doc x => some x | _ => none

/-- The numbers of the lines inside a doc string: content and closing delimiter. -/
def DocString.lines (text : Str) (d : DocString) : List Nat :=
  List.range' (d.loc.line + 1) ((docBody text d.loc.line (d.delimiter.getD [])).length + 1)

/-- The line is inside a doc string of the document. -/
def Document.inDocString (text : Str) (d : Document) (n : Nat) : Prop := ∃ x ∈ d.docStrings, n ∈ x.lines text

/-- Where an entry of a document stands. -/
def Entry.loc : Entry → Location
  | .feature l _ _ _ | .rule l _ _ | .background l _ _ | .scenario l _ _ | .examples l _ _ | .step l _ _ _ | .tag l _ | .row l _ => l

/-! ### Kinds of lines -/

/-- A title line: white space, the keyword, a colon. -/
def isTitle (keywords : List Str) (l : Line) : Bool := keywords.any fun k => (k ++ [':']).isPrefixOf (lstrip l.text)
/-- A step line: white space, a step keyword. -/
def isStep (d : Dialect) (l : Line) : Bool := d.stepKeywords.any fun k => k.isPrefixOf (lstrip l.text)
/-- The first character of the line that is not white space. -/
def firstIs (c : Char) (l : Line) : Bool := (lstrip l.text).head? == some c
/-- Nothing but white space. -/
def isBlankLine (l : Line) : Bool := l.text.all isSpace

/-! ### Descriptions -/

/-- The parts of a feature file that have a description. -/
inductive Part
  | feature | rule | background | scenario | examples
  deriving DecidableEq, Repr

/-- The lines that end the description of a part: comments, tags, the titles that can follow the part, and in parts that have them
steps or table rows. -/
def ends (d : Dialect) (p : Part) (l : Line) : Bool :=
  firstIs '#' l || firstIs '@' l || isTitle (d.scenario ++ d.scenarioOutline) l || isTitle d.rule l ||
  match p with
  | .feature | .rule => isTitle d.background l
  | .background => isStep d l
  | .scenario => isStep d l || isTitle d.examples l
  | .examples => firstIs '|' l || isTitle d.examples l

/-- The lines of the description of a part whose title stands in line `n`: after blank lines, the lines up to one that ends it. -/
def descriptionLines (d : Dialect) (text : Str) (p : Part) (n : Nat) : List Line :=
  ((linesAfter text n).dropWhile isBlankLine).takeWhile fun l => !ends d p l

/-- The description of a part whose title stands in line `n`: its lines without line ends and without empty lines at the end. -/
def descriptionAt (d : Dialect) (text : Str) (p : Part) (n : Nat) : Str :=
  joinStr ['\n'] (Cst.trimEnd ((descriptionLines d text p n).map fun l => chomp l.text))

def Examples.parts (e : Examples) : List (Part × Location × Str) := [(.examples, e.loc, e.description)]
def Scenario.parts (s : Scenario) : List (Part × Location × Str) := (.scenario, s.loc, s.description) :: s.examples.flatMap Examples.parts
def Background.parts (b : Background) : List (Part × Location × Str) := [(.background, b.loc, b.description)]
def RuleChild.parts : RuleChild → List (Part × Location × Str)
  | .background b => b.parts
  | .scenario s => s.parts
def RuleNode.parts (r : RuleNode) : List (Part × Location × Str) := (.rule, r.loc, r.description) :: r.children.flatMap RuleChild.parts
def FeatureChild.parts : FeatureChild → List (Part × Location × Str)
  | .background b => b.parts
  | .scenario s => s.parts
  | .rule r => r.parts
def Feature.parts (f : Feature) : List (Part × Location × Str) :=
  (.feature, f.loc, f.description) :: f.children.flatMap FeatureChild.parts
/-- The parts of a document that have a description, with the place of their title. -/
def Document.parts (d : Document) : List (Part × Location × Str) := d.feature.toList.flatMap Feature.parts

end Gherkin
