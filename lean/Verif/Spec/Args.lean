import Mathlib.Data.List.Forall2
import Verif.Events

/-! Specification: the command line of `python -m gurke`. Nothing here depends on the model of `optparse`. -/

namespace Gherkin.CommandLine

/-- An argument that is a path: it does not begin with `-`, or it is `-` alone. -/
def IsPath (a : Str) : Prop := a.head? ≠ some '-' ∨ a = py"-"

/-- The option, in full or cut short, but not so short that it could be another one. -/
def NoSource (a : Str) : Prop := py"--no-s" <+: a ∧ a <+: py"--no-source"
def NoAst (a : Str) : Prop := py"--no-a" <+: a ∧ a <+: py"--no-ast"
def NoPickles (a : Str) : Prop := py"--no-p" <+: a ∧ a <+: py"--no-pickles"
def Switch (a : Str) : Prop := NoSource a ∨ NoAst a ∨ NoPickles a

/-- Asks for help: `-h` with anything behind it, `--help` in full or cut short. -/
def AsksHelp (a : Str) : Prop := py"-h" <+: a ∨ (py"--h" <+: a ∧ a <+: py"--help")

/-- The arguments before `--`, all of them if there is none, and the paths: those among them, then everything after `--`. -/
def Splits (args before after : List Str) : Prop :=
  py"--" ∉ before ∧ ((args = before ∧ after = []) ∨ args = before ++ py"--" :: after)

/-- The paths are files with these texts. -/
def DiskHolds (disk : Str → Option ByteArray) (paths : List Str) (files : List SourceFile) : Prop :=
  List.Forall₂ (fun p s => s.uri = p ∧ disk p = some s.data.utf8Encode) paths files

end Gherkin.CommandLine
