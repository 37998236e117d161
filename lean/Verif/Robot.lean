import Verif.Json
import Verif.Escape
import Verif.Events
import Verif.Files
import Verif.MatcherMd

/-! Model of `build_gherkin_model` in src/GherkinParser/gherkin_builder.py. The classes of Robot Framework's parsing model become plain
data that keep the arguments given to them. -/

namespace Gherkin

namespace Robot

/-- The token types in a `KeywordCall` (robot.parsing.lexer.Token). -/
inductive TokType
  | separator | keyword | argument | eol
  deriving DecidableEq, Repr

/-- A token of Robot Framework's model; `lineno` and `col_offset` are -1 at first. -/
structure Tok where
  type : TokType
  value : Str
  lineno : Int := -1
  col : Int := -1
  deriving DecidableEq, Repr

/-- `Token.end_col_offset` of Robot Framework. -/
def Tok.endCol (t : Tok) : Int := if t.col = -1 then -1 else t.col + t.value.length

/-- An item of a test case body. Simplification: `Documentation.from_params` and `Tags.from_params` keep their argument and are not
broken into tokens. -/
inductive Item
  | documentation (text : Str) | tags (names : List Str) | call (tokens : List Tok)
  deriving DecidableEq, Repr

/-- A `TestCase` with its `KeywordName` header; `pos` is line and column offset of the header's token if they were set. -/
structure Test where
  name : Str
  pos : Option (Nat × Int)
  body : List Item
  deriving DecidableEq, Repr

/-- An item of the settings section. -/
inductive Setting
  | documentation (text : Str) | library (name : Str) | resource (name : Str) | metadata (name value : Str) | testTags (names : List Str)
  deriving DecidableEq, Repr

/-- An `Error` statement with its token: line, column offset and message. -/
structure Entry where
  line : Nat
  col : Int
  message : Str
  deriving DecidableEq, Repr

/-- The `File` returned: a settings and a test case section, or a comment section with errors. -/
inductive File
  | suite (settings : List Setting) (tests : List Test)
  | errors (entries : List Entry)
  deriving DecidableEq, Repr

/-- What can be raised in the `try` block (src/GherkinParser/gherkin_builder.py:75-200). -/
inductive Exc
  | composite (errors : List Err) | other (c : Crash)
  deriving DecidableEq, Repr

/-- Results of the `try` block. -/
abbrev R (α : Type) := Except Exc α

def crash {α : Type} (c : Crash) : R α := .error (.other c)

/-- A loop that appends one result per element. -/
def each {α β : Type} (f : α → R β) : List α → R (List β)
  | [] => .ok []
  | a :: as =>
    match f a with
    | .error e => .error e
    | .ok b =>
      match each f as with
      | .error e => .error e
      | .ok bs => .ok (b :: bs)

/-- `d[key]`. -/
def item (j : J) (key : Str) : R J :=
  match j.get? key with
  | some v => .ok v
  | none => crash .keyError

/-- The elements of a list value (others do not occur here). -/
def elements : J → List J
  | .list l => l
  | _ => []

/-- A string value in an f-string (others do not occur here). -/
def text : J → Str
  | .str s => s
  | _ => []

/-- Python's `repr` of the dictionaries of packages/gurke/src/gurke/pickles/compiler.py:124-139. -/
def argRepr (printable : Char → Bool) : PArg → Str
  | .table rows =>
    py"{'rows': [" ++ joinStr py", " (rows.map fun cells =>
      py"{'cells': [" ++ joinStr py", " (cells.map fun v => py"{'value': " ++ Escape.repr printable v ++ py"}") ++ py"]}") ++ py"]}"
  | .doc content none => py"{'content': " ++ Escape.repr printable content ++ py"}"
  | .doc content (some mt) => py"{'content': " ++ Escape.repr printable content ++ py", 'mediaType': " ++ Escape.repr printable mt ++ py"}"

/-- src/GherkinParser/gherkin_builder.py:114-124: the arguments of the keyword call. -/
def callArgs (printable : Char → Bool) : Option PArg → List Str
  | none => []
  | some a => [py"&{{" ++ Escape.escape printable (argRepr printable a) ++ py"}}"]

/-- Robot Framework's `KeywordCall.from_params(name, args=args)`. -/
def callTokens (name : Str) (args : List Str) : List Tok :=
  { type := .separator, value := py"    " } :: { type := .keyword, value := name } ::
    (args.flatMap fun a => [{ type := .separator, value := py"    " }, { type := .argument, value := a }]) ++
    [{ type := .eol, value := py"\n" }]

/-- src/GherkinParser/gherkin_builder.py:134-142: the loop over the tokens; `column` is the variable of that name.
`location.column - 1` raises `TypeError` if there is no column. -/
def place (loc : Location) : Int → List Tok → R (List Tok)
  | _, [] => .ok []
  | column, t :: ts =>
    if t.type = .keyword then
      match loc.column with
      | none => crash .typeError
      | some c =>
        match place loc ({ t with lineno := loc.line, col := c - 1 } : Tok).endCol ts with
        | .ok ts => .ok ({ t with lineno := loc.line, col := c - 1 } :: ts)
        | .error e => .error e
    else
      match place loc column ts with
      | .ok ts => .ok ({ t with lineno := loc.line, col := column } :: ts)
      | .error e => .error e

/-- src/GherkinParser/gherkin_builder.py:127: `node['keyword'] if step['type'] != 'Unknown' else ''`. -/
def keywordPart (node : J) (step : PStep) : R Str :=
  if step.type = some .unknown then .ok []
  else match item node py"keyword" with
    | .ok k => .ok (text k)
    | .error e => .error e

/-- src/GherkinParser/gherkin_builder.py:109-144: one round of the loop over steps; nothing for a step whose node is not found. -/
def stepCall (printable : Char → Bool) (root : J) (step : PStep) : R (Option Item) :=
  match step.astNodeIds with
  | [] => crash .indexError
  | i :: _ =>
    match J.find i none root with
    | none => .ok none
    | some (node, _) =>
      match keywordPart node step with
      | .error e => .error e
      | .ok kw =>
        let toks := callTokens (kw ++ step.text) (callArgs printable step.arg)
        match node.get? py"location" with
        | some (.loc l) =>
          match place l 0 toks with
          | .ok toks => .ok (some (.call toks))
          | .error e => .error e
        | _ => .ok (some (.call toks))

/-- src/GherkinParser/gherkin_builder.py:152-153: the loop over the cells; `i` is the index of the next one. -/
def nameParts (header : J) : Nat → List J → R Str
  | _, [] => .ok []
  | i, s :: ss =>
    match item header py"tableHeader" with
    | .error e => .error e
    | .ok th =>
      match item th py"cells" with
      | .error e => .error e
      | .ok cells =>
        match (elements cells)[i]? with
        | none => crash .indexError
        | some c =>
          match item c py"value", item s py"value", nameParts header (i + 1) ss with
          | .ok h, .ok v, .ok rest => .ok (py" " ++ text h ++ py" = " ++ text v ++ rest)
          | .error e, _, _ => .error e
          | _, .error e, _ => .error e
          | _, _, .error e => .error e

/-- src/GherkinParser/gherkin_builder.py:148-153: the test case name. -/
def testName (root : J) (p : Pickle) : R Str :=
  match p.astNodeIds with
  | _ :: i :: _ =>
    match J.find i none root with
    | some (node, some par) =>
      match node.get? py"cells" with
      | none => .ok p.name
      | some cells =>
        match item par py"keyword" with
        | .error e => .error e
        | .ok k =>
          if text k = py"Examples" then
            match nameParts par 0 (elements cells) with
            | .ok s => .ok (p.name ++ s)
            | .error e => .error e
          else .ok p.name
    | _ => .ok p.name
  | _ => .ok p.name

/-- src/GherkinParser/gherkin_builder.py:99-102: the documentation of a test case. -/
def testDoc (node : Option J) : List Item :=
  match node.bind (J.get? py"description") with
  | some (.str (c :: cs)) => [.documentation (strip (c :: cs))]
  | _ => []

/-- src/GherkinParser/gherkin_builder.py:104-107: the tags of a test case; `ids` are the ids of the feature's tags. -/
def testTags (ids : List Nat) (p : Pickle) : List Item :=
  match (p.tags.filter fun t => !ids.contains t.astNodeId).map fun t => t.name.drop 1 with
  | [] => []
  | t :: ts => [.tags (t :: ts)]

/-- src/GherkinParser/gherkin_builder.py:157-161: the position of the header. -/
def headerPos (node : Option J) : R (Option (Nat × Int)) :=
  match node.bind (J.get? py"location") with
  | some (.loc l) =>
    match l.column with
    | some c => .ok (some (l.line, c - 1))
    | none => crash .typeError
  | _ => .ok none

/-- src/GherkinParser/gherkin_builder.py:96-162: one round of the loop over pickles. -/
def testCase (printable : Char → Bool) (root : J) (featureTagIds : List Nat) (p : Pickle) : R Test :=
  match p.astNodeIds with
  | [] => crash .indexError
  | i :: _ =>
    let node := (J.find i none root).map (·.1)
    match each (stepCall printable root) p.steps with
    | .error e => .error e
    | .ok calls =>
      match testName root p with
      | .error e => .error e
      | .ok name =>
        match headerPos node with
        | .error e => .error e
        | .ok pos =>
          .ok { name := name, pos := pos, body := testDoc node ++ testTags featureTagIds p ++ calls.filterMap fun c => c }

/-- src/GherkinParser/gherkin_builder.py:166-182: the settings; `es` are the entries of the feature file's directory. -/
def settings (es : List DirEntry) (f : Feature) : List Setting :=
  (if strip f.description = [] then [] else [.documentation (strip f.description)]) ++
  [.library py"GherkinParser.Library"] ++
  (Files.resourceImports es).map .resource ++
  (if f.tags = [] then []
   else [.metadata py"Tags" (joinStr py", " (f.tags.map fun t => t.name.drop 1)), .testTags (f.tags.map fun t => t.name.drop 1)])

/-- `PurePath.suffix` of a name (Python up to 3.13). -/
def suffix (name : Str) : Str := name.drop (Files.stem name).length

/-- packages/gurke/src/gurke/token_matcher_markdown.py:17-20: `GherkinInMarkdownTokenMatcher()`. -/
def defaultMarkdown : MdState := (MdState.new py"en").getD default

/-- src/GherkinParser/gherkin_builder.py:82-87: a new parser and a new matcher, chosen by the file name. -/
def parseFile (name content : Str) : Except Gherkin.Exc (Option Document) :=
  if suffix name = py".md" then (parse ⟨markdown, astBuilder, false⟩ content defaultMarkdown newBuilder).1
  else (parse ⟨classic, astBuilder, false⟩ content defaultMatcher newBuilder).1

/-- src/GherkinParser/gherkin_builder.py:89-200: the `try` block after parsing. `Compiler()` has an id generator of its own. The uri is
taken to be the path's text. -/
def convert (eng : Engine) (printable : Char → Bool) (es : List DirEntry) (uri : Str) (d : Document) : R (File × Option Str) :=
  match Pickles.compile eng uri d 0 with
  | .error c => crash c
  | .ok (ps, _) =>
    match d.feature with
    | none => crash .keyError
    | some f =>
      match each (testCase printable (d.withUri uri) (f.tags.map (·.id))) ps with
      | .error e => .error e
      | .ok tests =>
        match f.name with
        | none => crash .keyError
        | some name => .ok (.suite (settings es f) tests, some name)

/-- src/GherkinParser/gherkin_builder.py:75-200: the `try` block. (`single` needs `stop_at_first_error`, which is off here.) -/
def tryBuild (eng : Engine) (printable : Char → Bool) (es : List DirEntry) (uri name content : Str) : R (File × Option Str) :=
  match parseFile name content with
  | .error (.composite errs) => .error (.composite errs)
  | .error (.single _) => crash .runtimeError
  | .error (.crash c) => crash c
  | .error .outOfFuel => crash .runtimeError
  | .ok none => crash .typeError
  | .ok (some d) => convert eng printable es uri d

/-- src/GherkinParser/gherkin_builder.py:207-215: the error entries; `e.location.column - 1` raises `TypeError` if there is no column. -/
def errorEntries : List Err → Except Crash (List Entry)
  | [] => .ok []
  | e :: es =>
    match e.loc.column with
    | none => .error .typeError
    | some c =>
      match errorEntries es with
      | .ok rest => .ok ({ line := e.loc.line, col := c - 1, message := e.msg } :: rest)
      | .error x => .error x

/-- The class name of a Python exception. -/
def crashName : Crash → Str
  | .attributeError => py"AttributeError" | .indexError => py"IndexError" | .keyError => py"KeyError" | .typeError => py"TypeError"
  | .stopIteration => py"StopIteration" | .runtimeError => py"RuntimeError" | .reError => py"error"

/-- src/GherkinParser/gherkin_builder.py:74-231 `build_gherkin_model(source, content)`: `name` is the file's name, `uri` its path, `es` the
entries of its directory. The exceptions that leave it are those raised in the `except` clause. Simplifications: the file has been read (`FileText.lean`);
of the message of an exception that is no parse error only the class name is kept. -/
def build (eng : Engine) (printable : Char → Bool) (es : List DirEntry) (uri name content : Str) : Except Crash (File × Option Str) :=
  match tryBuild eng printable es uri name content with
  | .ok r => .ok r
  | .error (.composite errs) =>
    match errorEntries errs with
    | .ok entries => .ok (.errors entries, none)
    | .error c => .error c
  | .error (.other c) => .ok (.errors [{ line := 1, col := 0, message := crashName c ++ py": " }], none)

end Robot

end Gherkin
