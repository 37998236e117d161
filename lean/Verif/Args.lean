import Verif.FileText

/-! Model of the command line of `python -m gurke`: packages/gurke/src/gurke/__main__.py. `optparse` is Python's; its part that occurs here (options without
a value, abbreviations, `--`, arguments between options) follows CPython's Lib/optparse.py. -/

namespace Gherkin

/-- packages/gurke/src/gurke/__main__.py:7-15: the long options; `--help` is added by `OptionParser`. -/
inductive LongOpt
  | help | noSource | noAst | noPickles
  deriving DecidableEq, Repr

/-- packages/gurke/src/gurke/__main__.py:7-15: how they are written. -/
def LongOpt.word : LongOpt → Str
  | .help => py"--help"
  | .noSource => py"--no-source"
  | .noAst => py"--no-ast"
  | .noPickles => py"--no-pickles"

/-- packages/gurke/src/gurke/__main__.py:7-15, in the order in which they are added. -/
def longOpts : List LongOpt := [.help, .noSource, .noAst, .noPickles]

/-- Lib/optparse.py `_match_abbrev`: the option itself, or the only one that begins with `s`; none is `BadOptionError`. -/
def matchAbbrev (s : Str) : Option LongOpt :=
  match longOpts.find? fun o => o.word == s with
  | some o => some o
  | none => match longOpts.filter fun o => startsWith o.word s with
    | [o] => some o
    | _ => none

/-- What the command line leads to: a run, the help text (exit code 0), or a message about wrong usage (exit code 2). -/
inductive Invocation
  | run (opt : StreamOptions) (paths : List Str)
  | help
  | usage
  deriving DecidableEq, Repr

/-- packages/gurke/src/gurke/__main__.py:9-15: `action="store_false"`. -/
def StreamOptions.switchOff (opt : StreamOptions) : LongOpt → StreamOptions
  | .help => opt
  | .noSource => { opt with printSource := false }
  | .noAst => { opt with printAst := false }
  | .noPickles => { opt with printPickles := false }

/-- Lib/optparse.py `_process_args`, `_process_long_opt`, `_process_short_opts`: `opt` are the values so far, `largs` the arguments so far. A long
option with `=` and a value is an error, since no option takes one (the option is looked up first, but an unknown one is an error too). The only
short option is `-h`. -/
def processArgs (opt : StreamOptions) (largs : List Str) : List Str → Invocation
  | [] => .run opt largs
  | arg :: rargs =>
    if arg = py"--" then .run opt (largs ++ rargs)
    else if arg.take 2 = py"--" then
      if '=' ∈ arg then .usage
      else match matchAbbrev arg with
        | none => .usage
        | some .help => .help
        | some o => processArgs (opt.switchOff o) largs rargs
    else if arg.take 1 = py"-" ∧ 1 < arg.length then
      if arg[1]? = some 'h' then .help else .usage
    else processArgs opt (largs ++ [arg]) rargs

/-- packages/gurke/src/gurke/__main__.py:17 `parser.parse_args()`; the defaults are in lines 9-15. -/
def parseArgs (args : List Str) : Invocation := processArgs ⟨true, true, true⟩ [] args

/-- How the program ends. -/
inductive Exit
  | finished | failed (f : Failure) | unreadable (path : Str) | help | usage
  deriving DecidableEq, Repr

/-- packages/gurke/src/gurke/__main__.py:17-24: the lines on the standard output and the end, given what the paths can be read as (none: `OSError`).
Simplification: the help text is left out. -/
def commandLine (eng : Engine) (disk : Str → Option ByteArray) (args : List Str) : List Str × Exit :=
  match parseArgs args with
  | .help => ([], .help)
  | .usage => ([], .usage)
  | .run opt paths =>
    let files := (paths.takeWhile fun p => (disk p).isSome).filterMap fun p => (disk p).map fun bytes => (p, bytes)
    match mainFiles eng opt files with
    | (out, some f) => (out, .failed f)
    | (out, none) => match paths.find? fun p => (disk p).isNone with
      | some p => (out, .unreadable p)
      | none => (out, .finished)

end Gherkin
