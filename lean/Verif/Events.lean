import Verif.Compiler
import Verif.Parser

/-! Model of packages/gurke/src/gurke/stream/gherkin_events.py (`GherkinEvents`), source_events.py and the loop of __main__.py. -/

namespace Gherkin

/-- The options of packages/gurke/src/gurke/__main__.py:8-15. -/
structure StreamOptions where
  printSource : Bool
  printAst : Bool
  printPickles : Bool
  deriving DecidableEq, Repr, Inhabited

/-- packages/gurke/src/gurke/stream/source_events.py:4-11: what is used of a source event. -/
structure SourceFile where
  uri : Str
  data : Str
  deriving DecidableEq, Repr, Inhabited

/-- The dictionaries that `enum` yields. -/
inductive Event
  | source (s : SourceFile)
  | document (uri : Str) (d : Document)
  | pickle (p : Pickle)
  | parseError (uri : Str) (loc : Location) (message : Str)
  deriving DecidableEq, Repr

/-- packages/gurke/src/gurke/stream/gherkin_events.py:8-15 `create_errors`. -/
def createErrors (uri : Str) (es : List Err) : List Event := es.map fun e => .parseError uri e.loc e.msg

/-- packages/gurke/src/gurke/token_matcher.py:21 `TokenMatcher()`: the default dialect is "en". -/
def defaultMatcher : CState := (CState.new py"en").getD default

/-- packages/gurke/src/gurke/ast_builder.py:11-19 `AstBuilder(id_generator)` of a new `GherkinEvents` object. -/
def newBuilder : BState := { stack := [(.none, [])], comments := [], nextId := 0 }

/-- packages/gurke/src/gurke/parser.py:62-66, 75-76: `parser.parse(source)` with a new `TokenMatcher()`. -/
def parseDefault (b : BState) (text : Str) : Except Exc (Option Document) × BState :=
  match parse ⟨classic, astBuilder, false⟩ text defaultMatcher b with
  | (r, c) => (r, c.builder)

/-- packages/gurke/src/gurke/stream/gherkin_events.py:25-48 `enum`, consumed to its end: the events yielded, the exception that
leaves it (if any), and the parser's builder. Builder and compiler share one `IdGenerator`, whose counter is the builder's `nextId`
(18-22). `get_result` returning `None` would make line 30 raise `TypeError`. The ids used by a compilation that raises are not
recorded; the exception ends the stream. -/
def enumEvents (eng : Engine) (opt : StreamOptions) (s : SourceFile) (b : BState) : List Event × Option Crash × BState :=
  match parseDefault b s.data with
  | (.error (.composite es), b') => (createErrors s.uri es, none, b')
  | (.error (.single e), b') => (createErrors s.uri [e], none, b')
  | (.error (.crash c), b') => ([], some c, b')
  | (.error .outOfFuel, b') => ([], some .runtimeError, b')
  | (.ok none, b') => ([], some .typeError, b')
  | (.ok (some d), b') =>
    let evs := (if opt.printSource then [Event.source s] else []) ++ (if opt.printAst then [.document s.uri d] else [])
    if opt.printPickles then
      match Pickles.compile eng s.uri d b'.nextId with
      | .ok (ps, n) => (evs ++ ps.map .pickle, none, { b' with nextId := n })
      | .error c => (evs, some c, b')
    else (evs, none, b')

/-- packages/gurke/src/gurke/__main__.py:19-24: the events of all sources, one after the other; an exception ends the loop. -/
def streamFrom (eng : Engine) (opt : StreamOptions) : List SourceFile → BState → List Event × Option Crash × BState
  | [], b => ([], none, b)
  | s :: ss, b =>
    match enumEvents eng opt s b with
    | (evs, some c, b') => (evs, some c, b')
    | (evs, none, b') =>
      match streamFrom eng opt ss b' with
      | (evs', c, b'') => (evs ++ evs', c, b'')

/-- A new `GherkinEvents` object asked for all sources in turn. -/
def stream (eng : Engine) (opt : StreamOptions) (ss : List SourceFile) : List Event × Option Crash × BState :=
  streamFrom eng opt ss newBuilder

end Gherkin
