import Verif.FileText

/-! Model of src/GherkinParser/gherkin_builder.py 234-250 and of src/GherkinParser/gherkin_parser.py: whole directories, and what Robot calls. -/

namespace Gherkin

namespace Files

/-- The entry is a directory of this name. -/
def isDirNamed (n : Str) : DirEntry → Bool
  | .dir m _ => m == n
  | _ => false

/-- The entries of the directory at this path below a directory. `[]` if there is none. -/
def entriesAt (es : List DirEntry) : List Str → List DirEntry
  | [] => es
  | n :: p => match es.find? (isDirNamed n) with
    | some (.dir _ sub) => entriesAt sub p
    | _ => []

end Files

namespace Robot

/-- What `build_gherkin_model` returns: a file model and the suite's name. -/
abbrev BuiltFile := File × Option Str

/-- A directory in the file system: its path, its entries and the contents of the files below it. -/
structure Folder where
  path : Str
  entries : List DirEntry
  read : List Str → ByteArray

/-- src/GherkinParser/gherkin_builder.py:237 `build_gherkin_model(f)` for the file at this path below the directory. -/
def Folder.build (eng : Engine) (printable : Char → Bool) (d : Folder) (p : List Str) : Except Crash BuiltFile :=
  buildFile eng printable (Files.entriesAt d.entries p.dropLast) (d.path ++ '/' :: Files.relPath p) (p.getLastD []) (d.read p)

/-- The list comprehension of src/GherkinParser/gherkin_builder.py:237: the first exception leaves it. -/
def buildEach (eng : Engine) (printable : Char → Bool) (d : Folder) : List (List Str) → Except Crash (List BuiltFile)
  | [] => .ok []
  | p :: ps => match d.build eng printable p with
    | .error c => .error c
    | .ok r => match buildEach eng printable d ps with
      | .error c => .error c
      | .ok rs => .ok (r :: rs)

/-- src/GherkinParser/gherkin_builder.py:234-237 `collect_gherkin_suites(path)`. -/
def collectGherkinSuites (eng : Engine) (printable : Char → Bool) (d : Folder) : Except Crash (List BuiltFile) :=
  buildEach eng printable d (Files.featureFiles d.entries)

/-- A `robot.running.TestSuite` as far as the runner uses it: its source (`none`, a file, or a directory) and its child suites. The children are
whatever was there before or what `collect_gherkin_suites` returns. -/
structure RunSuite where
  source : Option (Str ⊕ Folder)
  suites : List (Str ⊕ BuiltFile)

/-- src/GherkinParser/gherkin_builder.py:245-247 `GherkinRunner.start_suite`. -/
def runnerStartSuite (eng : Engine) (printable : Char → Bool) (s : RunSuite) : Except Crash RunSuite :=
  match s.source with
  | some (.inr d) => match collectGherkinSuites eng printable d with
    | .ok rs => .ok { s with suites := s.suites ++ rs.map .inr }
    | .error c => .error c
  | _ => .ok s

/-- src/GherkinParser/gherkin_parser.py:19-24 `GherkinParser.parse`: the name of the suite and the model that Robot's `SuiteBuilder` visits. `es` are the
entries of the file's directory. -/
def gherkinParse (eng : Engine) (printable : Char → Bool) (es : List DirEntry) (uri name : Str) (bytes : ByteArray) : Except Crash (Str × File) :=
  match buildFile eng printable es uri name bytes with
  | .ok (model, fn) => .ok (fn.getD [], model)
  | .error c => .error c

end Robot

end Gherkin
