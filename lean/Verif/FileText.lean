import Verif.Main
import Verif.Robot

/-! Model of how the three readers of the code turn the bytes of a file into text. What is not in /repo: Python's UTF-8 codec (strict; modelled by
Lean's `ByteArray.utf8Decode?`, which accepts exactly the encodings of texts), Python's `io.open`, and Robot Framework's `FileReader`. -/

namespace Gherkin

/-- U+FEFF, the byte order mark. -/
def bom : Char := Char.ofNat 0xFEFF

/-- `bytes.decode('utf-8')`; `none` is `UnicodeDecodeError`. -/
def decodeUtf8 (bytes : ByteArray) : Option Str := bytes.utf8Decode?.map Array.toList

/-- Universal newlines, as of `io.open(path, "r", encoding="utf8")` without `newline`: `\r\n` and `\r` become `\n`. -/
def universal : Str → Str
  | [] => []
  | '\r' :: '\n' :: s => '\n' :: universal s
  | '\r' :: s => '\n' :: universal s
  | c :: s => c :: universal s

/-- packages/gurke/src/gurke/token_scanner.py:12-13: the text whose lines `TokenScanner(path)` hands out one by one. Simplification: the code decodes
the file in chunks while it reads, so that lines before a wrong byte can be handed out before the exception; here the exception comes first. -/
def scannerText (bytes : ByteArray) : Option Str := (decodeUtf8 bytes).map universal

/-- packages/gurke/src/gurke/stream/source_events.py:4-11 `source_event(path)`: the text as it is, line ends and byte order mark included. -/
def sourceEvent (uri : Str) (bytes : ByteArray) : Option SourceFile := (decodeUtf8 bytes).map fun t => ⟨uri, t⟩

/-- src/GherkinParser/gherkin_builder.py:79-80: `FileReader(path).read()` of Robot Framework (robot/utils/filereader.py): the bytes are decoded, a byte
order mark at the start is dropped, and `\r\n` is replaced by `\n`. -/
def robotText (bytes : ByteArray) : Option Str :=
  (decodeUtf8 bytes).map fun t =>
    let t := if startsWith t [bom] then t.drop 1 else t
    replaceAll ['\r', '\n'] ['\n'] t

/-- packages/gurke/src/gurke/parser.py:68-93 `parser.parse(TokenScanner(path), token_matcher)`; `none` is `UnicodeDecodeError`. -/
def parsePath {μ σ ρ : Type} (cfg : Config μ σ ρ) (bytes : ByteArray) (m : μ) (b : σ) : Option (Except Exc ρ × Ctx μ σ) :=
  (scannerText bytes).map fun t => parse cfg t m b

/-- What a run of the command can end with. -/
inductive Failure
  | crash (c : Crash) | undecodable
  deriving DecidableEq, Repr

/-- packages/gurke/src/gurke/__main__.py:18-23 for files given as bytes: `map` is lazy, so that a file is read after the events of the files before it
have been printed. -/
def mainFiles (eng : Engine) (opt : StreamOptions) (files : List (Str × ByteArray)) : List Str × Option Failure :=
  go files [] where
  /-- The files that can be decoded, up to the first that cannot. -/
  go : List (Str × ByteArray) → List SourceFile → List Str × Option Failure
    | [], done => match mainProgram eng opt done.reverse with
      | (out, c) => (out, c.map .crash)
    | (uri, bytes) :: rest, done =>
      match sourceEvent uri bytes with
      | some s => go rest (s :: done)
      | none => match mainProgram eng opt done.reverse with
        | (out, c) => (out, some ((c.map .crash).getD .undecodable))

/-- src/GherkinParser/gherkin_builder.py:74-231 `build_gherkin_model(source)` for a file of these bytes: `UnicodeDecodeError` is caught like every other
exception (202-217). Simplification: of its message only the class name is kept. -/
def Robot.buildFile (eng : Engine) (printable : Char → Bool) (es : List DirEntry) (uri name : Str) (bytes : ByteArray) :
    Except Crash (Robot.File × Option Str) :=
  match robotText bytes with
  | some content => Robot.build eng printable es uri name content
  | none => .ok (.errors [{ line := 1, col := 0, message := py"UnicodeDecodeError: " }], none)

end Gherkin
