import Verif.Spec.Language
import Verif.Spec.Steps
import Verif.Token

/-! Specification: token listings. A listing has one line per source line; this file says what it shows for each kind of source line.
Nothing here depends on the parser, the matcher or the token formatter. -/

namespace Gherkin

/-- The form of a line in a listing: `(line:column)Type:keyword/text/items`, each item `column:text`. -/
def listLine (line column : Nat) (type : Str) (keyword text : Str) (items : List (Nat × Str)) : Str :=
  py"(" ++ natStr line ++ py":" ++ natStr column ++ py")" ++ type ++ py":" ++ keyword ++ py"/" ++ text ++ py"/" ++
    joinStr py"," (items.map fun i => natStr i.1 ++ py":" ++ i.2)

/-- The keywords of title lines, by type. -/
def titleWords (d : Dialect) : List (Str × List Str) :=
  [(py"FeatureLine", d.feature), (py"RuleLine", d.rule), (py"BackgroundLine", d.background),
   (py"ScenarioLine", d.scenario ++ d.scenarioOutline), (py"ExamplesLine", d.examples)]

/-- How step types are shown. -/
def stepTypeText : KType → Str
  | .context => py"Context" | .action => py"Action" | .outcome => py"Outcome" | .conjunction => py"Conjunction" | .unknown => py"Unknown"

/-- The type of a step keyword: `Unknown` for the bullet, else the one whose keyword list it is in. -/
def StepType (d : Dialect) (kw : Str) (ty : KType) : Prop :=
  (ty = .unknown ↔ kw = bullet) ∧ (kw ≠ bullet → kw ∈ d.ofType ty ∧ ∀ ty', kw ∈ d.ofType ty' → ty' = ty)

/-- A cell as it stands in a row, without the bars: white space and escaped content; and the text shown for it. -/
structure ListedCell where
  ws : Str
  raw : Str
  text : Str

/-- `ws` is all the white space before the content, `text` is what the content stands for, without white space (other than newline) at
its end. -/
def ListedCell.Ok (c : ListedCell) : Prop :=
  Pad c.ws ∧ (∀ x, c.raw.head? = some x → ¬ (isSpace x = true ∧ x ≠ '\n')) ∧
  ∃ value pad, Reads c.raw value ∧ Pad pad ∧ (value = c.text ++ pad ∨ ∃ v, c.text = v ++ ['\n'] ∧ value = v ++ pad ++ ['\n']) ∧
    ∀ x, c.text.getLast? = some x → isSpace x = false ∨ x = '\n'

def ListedCell.src (c : ListedCell) : Str := '|' :: (c.ws ++ c.raw)

/-- What is to be known about the lines before: the dialect in force and, inside a doc string, its delimiter and indentation. -/
structure ListAt where
  dialect : Dialect
  doc : Option (Str × Nat)

/-- `Listed p l s p'`: a source line `l` is shown as `s`, where `p` and `p'` are the situations before and after it. -/
inductive Listed : ListAt → Line → Str → ListAt → Prop
  | blank {p l} : p.doc = none → White l.text → Listed p l (listLine l.number 1 py"Empty" [] [] []) p
  | comment {p l} : p.doc = none → CommentText l.text → Listed p l (listLine l.number 1 py"Comment" [] (chomp l.text) []) p
  | language {p l ws rest name d} : p.doc = none → IsHeader name l.text → White ws → l.text = ws ++ '#' :: rest → dialectFor name = some d →
      Listed p l (listLine l.number (ws.length + 1) py"Language" [] name []) ⟨d, none⟩
  | tags {p l ws} {tags : List SrcTag} {rest} : p.doc = none → White ws → tags ≠ [] → (∀ t ∈ tags, White t.gap ∧ TagName t.name ∧ White t.ws) → TagEnd rest →
      l.text = ws ++ tags.flatMap SrcTag.src ++ rest →
      Listed p l (listLine l.number (ws.length + 1) py"TagLine" [] [] (tags.mapIdx fun i t =>
        ((ws ++ (tags.take i).flatMap SrcTag.src).length + 1, '@' :: t.name))) p
  | title {p l type kws kw ws rest} : p.doc = none → (type, kws) ∈ titleWords p.dialect → kw ∈ kws → White ws → l.text = ws ++ kw ++ [':'] ++ rest →
      Listed p l (listLine l.number (ws.length + 1) type (py"()" ++ kw) (strip rest) []) p
  | step {p l kw ty ws rest} : p.doc = none → p.dialect.stepKeywords.find? (fun k => k.isPrefixOf (lstrip l.text)) = some kw → StepType p.dialect kw ty →
      White ws → l.text = ws ++ kw ++ rest →
      Listed p l (listLine l.number (ws.length + 1) py"StepLine" (py"(" ++ stepTypeText ty ++ py")" ++ kw) (strip rest) []) p
  | row {p l ws} {cells : List ListedCell} {rest} : p.doc = none → White ws → (∀ c ∈ cells, c.Ok) → (∃ v, Reads rest v) →
      l.text = ws ++ cells.flatMap ListedCell.src ++ '|' :: rest →
      Listed p l (listLine l.number (ws.length + 1) py"TableRow" [] [] (cells.mapIdx fun i c =>
        ((ws ++ (cells.take i).flatMap ListedCell.src ++ '|' :: c.ws).length + 1, c.text))) p
  /-- The line that opens a doc string, with its media type. -/
  | opening {p l delim ws rest} : p.doc = none → delim ∈ docDelimiters → White ws → l.text = ws ++ delim ++ rest →
      Listed p l (listLine l.number (ws.length + 1) py"DocStringSeparator" (py"()" ++ delim) (strip rest) []) ⟨p.dialect, some (delim, ws.length)⟩
  /-- A line inside a doc string. -/
  | content {p l delim n} : p.doc = some (delim, n) → isDelim delim l = false →
      Listed p l (listLine l.number 1 py"Other" [] (docLine delim n l.text) []) p
  | closing {p l delim n ws rest} : p.doc = some (delim, n) → White ws → l.text = ws ++ delim ++ rest →
      Listed p l (listLine l.number (ws.length + 1) py"DocStringSeparator" (py"()" ++ delim) [] []) ⟨p.dialect, none⟩
  /-- A line of a description. -/
  | text {p l} : p.doc = none → firstIs '#' l = false → firstIs '@' l = false → isTitle (p.dialect.scenario ++ p.dialect.scenarioOutline) l = false →
      isTitle p.dialect.rule l = false → Listed p l (listLine l.number 1 py"Other" [] (chomp l.text) []) p

/-- A listing of source lines. -/
inductive Listing : ListAt → List Line → List Str → Prop
  | nil {p} : p.doc = none → Listing p [] []
  | cons {p l s p' ls ss} : Listed p l s p' → Listing p' ls ss → Listing p (l :: ls) (s :: ss)

end Gherkin
