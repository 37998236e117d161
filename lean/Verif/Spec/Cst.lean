import Verif.Ast

/-! Specification: typed syntax trees of Gherkin documents and the abstract syntax they stand for. Ids are handed out in the order in
which the parts of a document are completed: a part's sub-parts, then its tags, then the part itself. Nothing here depends on the
parser or builder model. -/

namespace Gherkin.Cst

open Gherkin

/-- Numbers a list from left to right: each element uses some ids and hands the next free one on. -/
def thread {α β : Type} (f : α → Nat → β × Nat) : List α → Nat → List β × Nat
  | [], n => ([], n)
  | a :: as, n => ((f a n).1 :: (thread f as (f a n).2).1, (thread f as (f a n).2).2)

/-- The same for an optional element. -/
def threadOpt {α β : Type} (f : α → Nat → β × Nat) : Option α → Nat → Option β × Nat
  | none, n => (none, n)
  | some a, n => (some (f a n).1, (f a n).2)

/-- The location of a tag or cell: the line of its token and its own column. -/
def itemLoc (t : Token) (column : Nat) : Location := if column = 0 then t.loc else ⟨t.loc.line, some column⟩

/-- The tags of one tag line. -/
def lineTags (t : Token) (n : Nat) : List Tag × Nat :=
  thread (fun (i : MItem) n => ({ id := n, loc := itemLoc t i.column, name := i.text }, n + 1)) t.items n

/-- The tags of consecutive tag lines. -/
def tags (lines : List Token) (n : Nat) : List Tag × Nat :=
  ((thread lineTags lines n).1.flatten, (thread lineTags lines n).2)

/-- A table row. -/
def row (t : Token) (n : Nat) : Row × Nat :=
  ({ id := n, loc := t.loc, cells := t.items.map fun i => { loc := itemLoc t i.column, value := i.text } }, n + 1)

/-- All rows of a table have as many cells as its first row. -/
def Rect : List Token → Prop
  | [] => True
  | r :: rs => ∀ x ∈ rs, x.items.length = r.items.length

/-- The text of a token. -/
def textOf (t : Token) : Str := t.text.getD []

/-- The lines of a description without empty lines at its end. -/
def trimEnd (ls : List Str) : List Str := (ls.reverse.dropWhile (· = [])).reverse

/-- A description: its lines joined by newlines. -/
def description (lines : List Token) : Str := joinStr ['\n'] (trimEnd (lines.map textOf))

/-- The argument of a step. -/
inductive Arg
  | none
  | table (first : Token) (more : List Token)
  | doc (opening : Token) (lines : List Token) (closing : Token)

def Arg.toks : Arg → List Token
  | .none => []
  | .table r rs => r :: rs
  | .doc o ls c => o :: (ls ++ [c])

def Arg.ast : Arg → Nat → StepArg × Nat
  | .none, n => (.none, n)
  | .table r rs, n => (.table { loc := r.loc, rows := (thread row (r :: rs) n).1 }, (thread row (r :: rs) n).2)
  | .doc o ls _, n =>
    (.doc { loc := o.loc, content := joinStr ['\n'] (ls.map textOf), delimiter := o.keyword,
            mediaType := if textOf o = [] then Option.none else some (textOf o) }, n)

/-- Kinds of the tokens, and tables are rectangular. -/
def Arg.Ok : Arg → Prop
  | .none => True
  | .table r rs => (∀ t ∈ r :: rs, t.type = some .tableRow) ∧ Rect (r :: rs)
  | .doc o ls c => o.type = some .docStringSeparator ∧ o.text.isSome = true ∧ (∀ t ∈ ls, t.type = some .other) ∧
      c.type = some .docStringSeparator

structure CStep where
  line : Token
  arg : Arg

namespace CStep
def toks (s : CStep) : List Token := s.line :: s.arg.toks
def ast (s : CStep) (n : Nat) : Step × Nat :=
  let a := s.arg.ast n
  ({ id := a.2, loc := s.line.loc, keyword := s.line.keyword, keywordType := s.line.keywordType, text := s.line.text, arg := a.1 },
    a.2 + 1)
def Ok (s : CStep) : Prop := s.line.type = some .stepLine ∧ s.arg.Ok
end CStep

/-- A description is a list of `Other` lines; it is only there if not empty. -/
def DescOk (d : List Token) : Prop := ∀ t ∈ d, t.type = some .other
/-- Tag lines. -/
def TagsOk (d : List Token) : Prop := ∀ t ∈ d, t.type = some .tagLine

structure CBackground where
  line : Token
  desc : List Token
  steps : List CStep

namespace CBackground
def toks (b : CBackground) : List Token := b.line :: (b.desc ++ b.steps.flatMap CStep.toks)
def ast (b : CBackground) (n : Nat) : Background × Nat :=
  let ss := thread CStep.ast b.steps n
  ({ id := ss.2, loc := b.line.loc, keyword := b.line.keyword, name := b.line.text, description := description b.desc,
     steps := ss.1 }, ss.2 + 1)
def Ok (b : CBackground) : Prop := b.line.type = some .backgroundLine ∧ DescOk b.desc ∧ ∀ s ∈ b.steps, s.Ok
end CBackground

structure CExamples where
  tags : List Token
  line : Token
  desc : List Token
  /-- header and body rows -/
  table : List Token

namespace CExamples
def toks (e : CExamples) : List Token := e.tags ++ e.line :: (e.desc ++ e.table)
def ast (e : CExamples) (n : Nat) : Examples × Nat :=
  let rows := thread row e.table n
  let ts := Cst.tags e.tags rows.2
  ({ id := ts.2, tags := ts.1, loc := e.line.loc, keyword := e.line.keyword, name := e.line.text,
     description := description e.desc, header := rows.1.head?, body := rows.1.tail }, ts.2 + 1)
def Ok (e : CExamples) : Prop :=
  TagsOk e.tags ∧ e.line.type = some .examplesLine ∧ DescOk e.desc ∧ (∀ t ∈ e.table, t.type = some .tableRow) ∧ Rect e.table
end CExamples

structure CScenario where
  tags : List Token
  line : Token
  desc : List Token
  steps : List CStep
  examples : List CExamples

namespace CScenario
def toks (s : CScenario) : List Token :=
  s.tags ++ s.line :: (s.desc ++ s.steps.flatMap CStep.toks ++ s.examples.flatMap CExamples.toks)
def ast (s : CScenario) (n : Nat) : Scenario × Nat :=
  let ss := thread CStep.ast s.steps n
  let es := thread CExamples.ast s.examples ss.2
  let ts := Cst.tags s.tags es.2
  ({ id := ts.2, tags := ts.1, loc := s.line.loc, keyword := s.line.keyword, name := s.line.text,
     description := description s.desc, steps := ss.1, examples := es.1 }, ts.2 + 1)
def Ok (s : CScenario) : Prop :=
  TagsOk s.tags ∧ s.line.type = some .scenarioLine ∧ DescOk s.desc ∧ (∀ x ∈ s.steps, x.Ok) ∧ ∀ x ∈ s.examples, x.Ok
end CScenario

structure CRule where
  tags : List Token
  line : Token
  desc : List Token
  background : Option CBackground
  scenarios : List CScenario

namespace CRule
def toks (r : CRule) : List Token :=
  r.tags ++ r.line :: (r.desc ++ r.background.toList.flatMap CBackground.toks ++ r.scenarios.flatMap CScenario.toks)
def ast (r : CRule) (n : Nat) : RuleNode × Nat :=
  let bg := threadOpt CBackground.ast r.background n
  let ss := thread CScenario.ast r.scenarios bg.2
  let ts := Cst.tags r.tags ss.2
  ({ id := ts.2, tags := ts.1, loc := r.line.loc, keyword := r.line.keyword, name := r.line.text,
     description := description r.desc,
     children := bg.1.toList.map RuleChild.background ++ ss.1.map RuleChild.scenario }, ts.2 + 1)
def Ok (r : CRule) : Prop :=
  TagsOk r.tags ∧ r.line.type = some .ruleLine ∧ DescOk r.desc ∧ (∀ x ∈ r.background, x.Ok) ∧ ∀ x ∈ r.scenarios, x.Ok
end CRule

structure CFeature where
  language : Option Token
  tags : List Token
  line : Token
  desc : List Token
  background : Option CBackground
  scenarios : List CScenario
  rules : List CRule

namespace CFeature
def toks (f : CFeature) : List Token :=
  f.language.toList ++ f.tags ++ f.line :: (f.desc ++ f.background.toList.flatMap CBackground.toks ++
    f.scenarios.flatMap CScenario.toks ++ f.rules.flatMap CRule.toks)
/-- A feature has no id of its own. -/
def ast (f : CFeature) (n : Nat) : Feature × Nat :=
  let bg := threadOpt CBackground.ast f.background n
  let ss := thread CScenario.ast f.scenarios bg.2
  let rs := thread CRule.ast f.rules ss.2
  let ts := Cst.tags f.tags rs.2
  ({ tags := ts.1, loc := f.line.loc, language := f.line.dialect, keyword := f.line.keyword, name := f.line.text,
     description := description f.desc,
     children := bg.1.toList.map FeatureChild.background ++ ss.1.map FeatureChild.scenario ++ rs.1.map FeatureChild.rule }, ts.2)
def Ok (f : CFeature) : Prop :=
  (∀ t ∈ f.language, t.type = some .language) ∧ TagsOk f.tags ∧ f.line.type = some .featureLine ∧ DescOk f.desc ∧
  (∀ x ∈ f.background, x.Ok) ∧ (∀ x ∈ f.scenarios, x.Ok) ∧ ∀ x ∈ f.rules, x.Ok
end CFeature

/-- A document: possibly a feature; then the end of the file. -/
structure CDoc where
  feature : Option CFeature
  eof : Token

namespace CDoc
def toks (d : CDoc) : List Token := d.feature.toList.flatMap CFeature.toks ++ [d.eof]
def Ok (d : CDoc) : Prop := (∀ f ∈ d.feature, f.Ok) ∧ d.eof.type = some .eof
/-- The document with the comments of the text. -/
def ast (d : CDoc) (comments : List Comment) (n : Nat) : Document × Nat :=
  ({ feature := (threadOpt CFeature.ast d.feature n).1, comments := comments }, (threadOpt CFeature.ast d.feature n).2)
end CDoc

end Gherkin.Cst
