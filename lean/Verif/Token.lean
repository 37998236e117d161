import Verif.Kinds
import Verif.Line
import Verif.Gen.Dialects

/-! Model of packages/gurke/src/gurke/token.py, errors.py and of the interface between parser, matcher and builder. -/

namespace Gherkin

/-- packages/gurke/src/gurke/dialect.py:15-17 `Dialect.for_name`. -/
def dialectFor (name : Str) : Option Dialect := dialects.lookup name

/-- packages/gurke/src/gurke/token.py:7-19 `Token`. `type = none` stands both for the initial `""` and for the `None` that
the Markdown matcher assigns. -/
structure Token where
  line : Line
  loc : Location
  text : Option Str
  type : Option Kind
  items : List MItem
  keyword : Option Str
  keywordType : Option KType
  indent : Int
  dialect : Option Str
  deriving DecidableEq, Repr, Inhabited

/-- packages/gurke/src/gurke/token_scanner.py:21 and token.py:8-19: a fresh token for a line. -/
def Token.fresh (l : Line) : Token :=
  { line := l, loc := ⟨l.number, none⟩, text := some [], type := none, items := [], keyword := none,
    keywordType := none, indent := -1, dialect := none }

/-- packages/gurke/src/gurke/token.py:21-22 `eof`. -/
def Token.eof (t : Token) : Bool := t.line.isEof

/-- packages/gurke/src/gurke/token.py:27-28 `token_value`. -/
def Token.value (t : Token) : Str := if t.eof then py"EOF" else t.line.lineText

/-- The subclass of `ParserException` (packages/gurke/src/gurke/errors.py:19-45) with its arguments. -/
inductive ErrKind
  | noSuchLanguage (name : Str)
  | astBuilder
  | unexpectedEof (expected : List Kind)
  | unexpectedToken (expected : List Kind) (received : Str)
  deriving DecidableEq, Repr, Inhabited

/-- packages/gurke/src/gurke/errors.py:11-16 `ParserException`: `str(e)`, `e.location`. `e.location` may be the very
`Location` object of a token that is matched again later (`NoSuchLanguageException`, token_matcher.py:98); then
`aliasOf` is that token's line number and `syncErrors` below copies later changes of its column. -/
structure Err where
  kind : ErrKind
  msg : Str
  loc : Location
  aliasOf : Option Nat
  deriving DecidableEq, Repr, Inhabited

/-- The names used in `expected_tokens` lists. -/
def Kind.name : Kind → Str
  | .eof => py"EOF" | .empty => py"Empty" | .comment => py"Comment" | .tagLine => py"TagLine"
  | .featureLine => py"FeatureLine" | .ruleLine => py"RuleLine" | .backgroundLine => py"BackgroundLine"
  | .scenarioLine => py"ScenarioLine" | .examplesLine => py"ExamplesLine" | .stepLine => py"StepLine"
  | .docStringSeparator => py"DocStringSeparator" | .tableRow => py"TableRow" | .language => py"Language"
  | .other => py"Other"

/-- packages/gurke/src/gurke/errors.py:15: the prefix `(line:column): `, with `column or 0`. -/
def Location.pre (l : Location) : Str :=
  py"(" ++ natStr l.line ++ py":" ++ natStr (l.column.getD 0) ++ py"): "

/-- packages/gurke/src/gurke/errors.py:19-21 `NoSuchLanguageException`. -/
def Err.mkNoSuchLanguage (name : Str) (loc : Location) (aliasOf : Option Nat) : Err :=
  { kind := .noSuchLanguage name, msg := loc.pre ++ (py"Language not supported: " ++ name), loc := loc, aliasOf := aliasOf }

/-- packages/gurke/src/gurke/errors.py:24-25 `AstBuilderException`. -/
def Err.mkAst (msg : Str) (loc : Location) : Err :=
  { kind := .astBuilder, msg := loc.pre ++ msg, loc := loc, aliasOf := none }

/-- `", ".join(expected_token_types)` with the `#` prefixes of the generated lists. -/
def expectedStr (ks : List Kind) : Str := joinStr py", " (ks.map fun k => '#' :: k.name)

/-- packages/gurke/src/gurke/errors.py:28-31 `UnexpectedEOFException`. -/
def Err.mkUnexpectedEof (t : Token) (expected : List Kind) : Err :=
  { kind := .unexpectedEof expected,
    msg := t.loc.pre ++ (py"unexpected end of file, expected: " ++ expectedStr expected), loc := t.loc, aliasOf := none }

/-- packages/gurke/src/gurke/errors.py:34-45 `UnexpectedTokenException`: the token's own location if its column is set
(and not 0), else the line's indentation + 1. -/
def Err.mkUnexpectedToken (t : Token) (expected : List Kind) : Err :=
  let loc : Location := match t.loc.column with
    | some (c + 1) => ⟨t.loc.line, some (c + 1)⟩
    | _ => ⟨t.loc.line, some (t.line.indent + 1)⟩
  { kind := .unexpectedToken expected (strip t.value),
    msg := loc.pre ++ (py"expected: " ++ expectedStr expected ++ py", got '" ++ strip t.value ++ py"'"),
    loc := loc, aliasOf := none }

/-- What a matcher or builder method can raise: a `ParserException` or another Python exception. -/
inductive MExc
  | parser (e : Err) | crash (c : Crash)
  deriving DecidableEq, Repr, Inhabited

/-- The duck-typed matcher interface the parser uses: `match_K(token)` for each kind `K`, and `reset()`.
`match` returns the Boolean or exception, the mutated token and the mutated matcher. -/
structure Matcher (μ : Type) where
  match_ : Kind → Token → μ → Except MExc Bool × Token × μ
  reset : μ → μ

/-- The duck-typed builder interface the parser uses: packages/gurke/src/gurke/ast_builder.py:21-40 and
token_formatter_builder.py:8-21. -/
structure Builder (σ ρ : Type) where
  reset : σ → σ
  start : Rule → σ → Except MExc Unit × σ
  stop : Rule → σ → Except MExc Unit × σ
  build : Token → σ → Except MExc Unit × σ
  result : σ → Except MExc ρ

end Gherkin
