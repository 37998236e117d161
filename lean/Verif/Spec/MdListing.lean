import Verif.Spec.Listing
import Verif.Spec.Markdown

/-! Specification: token listings of Markdown texts. What is shown for each line. Nothing here depends on the parser, the matcher or the token formatter. -/

namespace Gherkin

open Markdown

/-- `MdListed d l s`: a line `l` of a Markdown text, with keywords from `d`, is shown as `s`. -/
inductive MdListed (d : Dialect) : Line → Str → Prop
  /-- A line that has no form. -/
  | nothing {l} : (∀ f, ¬ HasForm d l.text f) → MdListed d l (listLine l.number 1 py"Empty" [] [] [])
  /-- A separator row. -/
  | separator {l ws rest} : White ws → l.text = ws ++ '|' :: rest → DashCell rest → MdListed d l (listLine l.number (ws.length + 1) py"Comment" [] [] [])
  /-- A heading with a keyword: its column is that of the keyword. -/
  | title {l type kws kw ws n sp rest} : (type, kws) ∈ titleWords d → kw ∈ kws → White ws → 1 ≤ n → n ≤ 6 → isSpace sp = true →
      l.text = ws ++ List.replicate n '#' ++ sp :: (kw ++ ':' :: rest) →
      MdListed d l (listLine l.number (ws.length + n + 2) type (py"()" ++ kw) (strip rest) [])
  /-- A line that stands for the feature without being its heading. -/
  | feature {l ws rest} : White ws → (∀ c, rest.head? = some c → isSpace c = false) → l.text = ws ++ rest →
      MdListed d l (listLine l.number (ws.length + 1) py"FeatureLine" [] (rstripEol rest) [])
  /-- A list item with a step keyword, and the first type this belongs to. -/
  | step {l kw ty ws b gap rest} : kw ∈ d.given ++ d.when_ ++ d.then_ ++ d.and_ ++ d.but_ → FirstType d kw ty → White ws → (b = '*' ∨ b = '+' ∨ b = '-') → White gap →
      l.text = ws ++ b :: (gap ++ kw ++ rest) →
      MdListed d l (listLine l.number (ws.length + gap.length + 2) py"StepLine" (py"(" ++ stepTypeText ty ++ py")" ++ kw) (strip rest) [])
  /-- All tags in back quotes of the line. -/
  | tags {l ws rest} {tags : List (Nat × Str)} : White ws → (∀ c, rest.head? = some c → isSpace c = false) → l.text = ws ++ rest → TagsIn 0 rest tags → tags ≠ [] →
      MdListed d l (listLine l.number (ws.length + 1) py"TagLine" [] [] (tags.map fun t => (ws.length + t.1 + 2, t.2)))
  /-- A table row that is no separator row. -/
  | row {l ws} {cells : List ListedCell} {rest} : White ws → ws.length ≤ 5 → (∀ c ∈ cells, c.Ok ∧ ¬ Dashes c.text) → (∃ v, Reads rest v) →
      l.text = ws ++ cells.flatMap ListedCell.src ++ '|' :: rest →
      MdListed d l (listLine l.number (ws.length + 1) py"TableRow" py"()|" [] (cells.mapIdx fun i c =>
        ((ws ++ (cells.take i).flatMap ListedCell.src ++ '|' :: c.ws).length + 1, c.text)))
  /-- The beginning of a doc string, with its media type. -/
  | opening {l delim ws rest} : delim ∈ fences → White ws → l.text = ws ++ delim ++ rest →
      MdListed d l (listLine l.number (ws.length + 1) py"DocStringSeparator" (py"()" ++ delim) (strip rest) [])
  /-- The end of a doc string. -/
  | closing {l delim ws rest} : delim ∈ fences → White ws → l.text = ws ++ delim ++ rest →
      MdListed d l (listLine l.number (ws.length + 1) py"DocStringSeparator" (py"()" ++ delim) [] [])
  /-- A line of a description or a doc string. -/
  | text {l x} : ProseOf l.text x → MdListed d l (listLine l.number 1 py"Other" [] x [])

end Gherkin
