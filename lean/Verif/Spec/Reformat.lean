import Verif.Spec.Layout
import Verif.Spec.Tags
import Verif.Spec.Cells
import Verif.Spec.Indent
import Mathlib.Data.List.Defs
import Mathlib.Data.Option.Defs
import Mathlib.Data.List.Forall2

/-! Specification for C91: texts that differ in their formatting only. Two layouts are compared part by part; what a line says is read off its characters. Nothing here depends on
the parser, matcher or builder model. -/

namespace Gherkin

namespace Layout

open Gherkin

/-- The lines are the same but for white space at the beginning and at the end. -/
def SameWords (s s' : Str) : Prop := ∃ a x b a' b', White a ∧ White b ∧ White a' ∧ White b' ∧ s = a ++ x ++ b ∧ s' = a' ++ x ++ b'

/-- The line consists of a step keyword of some language, and nothing else. -/
def BareKeyword (s : Str) : Prop := ∃ name d, dialectFor name = some d ∧ ∃ kw ∈ d.given ++ d.when_ ++ d.then_ ++ d.and_ ++ d.but_, SameWords s kw

/-- The same keyword with other white space around the text after it. No other step keyword of any language begins one of the lines (as in French `Et que x`, which begins with `Et ` and
with `Et que `). -/
def SameAfterKeyword (s s' : Str) : Prop :=
  ∃ a kw w x b a' w' b', White a ∧ White w ∧ White b ∧ White a' ∧ White w' ∧ White b' ∧ (∃ c ∈ kw.head?, isSpace c = false) ∧
    s = a ++ (kw ++ w ++ x ++ b) ∧ s' = a' ++ (kw ++ w' ++ x ++ b') ∧
    ∀ name d, dialectFor name = some d → ∀ kw' ∈ d.given ++ d.when_ ++ d.then_ ++ d.and_ ++ d.but_, kw' <+: kw ++ w ++ x ++ b ∨ kw' <+: kw ++ w' ++ x ++ b' → kw' = kw

/-- Step lines: white space at the end (and at the beginning) does not matter if there is something after the keyword; else only that at the beginning. White space between keyword and text
does not matter if the keyword is the only one. -/
def SameStepLine (s s' : Str) : Prop :=
  (SameWords s s' ∧ ¬ BareKeyword s) ∨ (∃ a a' x, White a ∧ White a' ∧ s = a ++ x ∧ s' = a' ++ x) ∨ SameAfterKeyword s s'

/-- A tag line: tags, each with white space (possibly none) after it, and possibly a comment. -/
def TagLineSays (s : Str) (names : List Str) : Prop :=
  ∃ (indent : Str) (tags : List SrcTag) (rest : Str), White indent ∧ tags ≠ [] ∧ (∀ t ∈ tags, t.gap = [] ∧ TagName t.name ∧ White t.ws) ∧ TagEnd rest ∧
    s = indent ++ tags.flatMap SrcTag.src ++ rest ∧ names = tags.map SrcTag.name

/-- Tag lines, one after the other, give these tags. -/
inductive TagsSay : List Ln → List Str → Prop
  | nil : TagsSay [] []
  | cons {l ls ns nss} : TagLineSays l.text ns → TagsSay ls nss → TagsSay (l :: ls) (ns ++ nss)

/-- The same tags, in the same order, however they are put on lines. -/
def SameTags (ts ts' : List Ln) : Prop := ∃ ns, TagsSay ts ns ∧ TagsSay ts' ns

/-- A cell between two bars: padding, source of the value, padding. -/
structure RCell where
  left : Str
  raw : Str
  value : Str
  right : Str

/-- White space that begins or ends the value cannot be told from padding. -/
def RCell.Ok (c : RCell) : Prop := Pad c.left ∧ Pad c.right ∧ Reads c.raw c.value ∧ CellValue c.value ∧ (c.right = [] → Tight c.value)

/-- A table row with these values. -/
def RowSays (s : Str) (values : List Str) : Prop :=
  ∃ (indent : Str) (cells : List RCell) (trail : Str), White indent ∧ White trail ∧ (∀ c ∈ cells, RCell.Ok c) ∧
    s = indent ++ '|' :: (cells.flatMap fun c => c.left ++ c.raw ++ c.right ++ ['|']) ++ trail ∧ values = cells.map RCell.value

/-- Rows with the same values, however the cells are padded and escaped. -/
def SameRow (r r' : Ln) : Prop := SameWords r.text r'.text ∨ ∃ values, RowSays r.text values ∧ RowSays r'.text values

/-- Title lines with the same keyword and name: white space around them does not matter. -/
def SameTitle (s s' : Str) : Prop :=
  ∃ a kw w name b a' w' b', White a ∧ White w ∧ White b ∧ White a' ∧ White w' ∧ White b' ∧ ':' ∉ kw ∧
    s = a ++ kw ++ ':' :: w ++ name ++ b ∧ s' = a' ++ kw ++ ':' :: w' ++ name ++ b'

/-- Titles with the same keyword and name and the same description lines (line ends apart). -/
def SameHead (h h' : Head) : Prop := SameTitle h.line h'.line ∧ h'.prose.map chomp = h.prose.map chomp

/-- The same argument: rows with the same values; or a doc string with the same delimiter and media type, whose content lines stand for the same when the indentation of the first line is
taken away. -/
inductive SameArg : Arg → Arg → Prop
  | none : SameArg .none .none
  | table {r rs r' rs'} : List.Forall₂ SameRow (r :: rs) (r' :: rs') → SameArg (.table r rs) (.table r' rs')
  | doc {o ls c o' ls' c' delim} : SameWords o o' → delim ∈ docDelimiters → isDelim delim ⟨o, 0⟩ = true →
      ls'.map (docLine delim (indentation o')) = ls.map (docLine delim (indentation o)) → SameArg (.doc o ls c) (.doc o' ls' c')

def SameStep (s s' : Step) : Prop := SameStepLine s.line.text s'.line.text ∧ SameArg s.arg s'.arg

def SameBackground (b b' : Background) : Prop := SameHead b.head b'.head ∧ List.Forall₂ SameStep b.steps b'.steps

def SameExamples (e e' : Examples) : Prop := SameTags e.tags e'.tags ∧ SameHead e.head e'.head ∧ List.Forall₂ SameRow e.table e'.table

def SameScenario (s s' : Scenario) : Prop :=
  SameTags s.tags s'.tags ∧ SameHead s.head s'.head ∧ List.Forall₂ SameStep s.steps s'.steps ∧ List.Forall₂ SameExamples s.examples s'.examples

def SameRule (r r' : Rule) : Prop :=
  SameTags r.tags r'.tags ∧ SameHead r.head r'.head ∧ Option.Rel SameBackground r.background r'.background ∧ List.Forall₂ SameScenario r.scenarios r'.scenarios

/-- The same file formatted in another way. Nothing is said about blank lines and comments. -/
structure SameFile (F F' : File) : Prop where
  language : Option.Rel (fun l l' : Ln => ∃ name, IsHeader name l.text ∧ IsHeader name l'.text) F.language F'.language
  tags : SameTags F.feature.tags F'.feature.tags
  head : SameHead F.feature.head F'.feature.head
  background : Option.Rel SameBackground F.feature.background F'.feature.background
  scenarios : List.Forall₂ SameScenario F.feature.scenarios F'.feature.scenarios
  rules : List.Forall₂ SameRule F.feature.rules F'.feature.rules

end Layout

end Gherkin
