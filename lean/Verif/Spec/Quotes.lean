import Verif.Spec.Doc
import Verif.Spec.Source
import Verif.Spec.Tags
import Verif.Spec.Cells

/-! Specification: what it means that a part of a document quotes the text. Nothing here depends on the parser. -/

namespace Gherkin

/-- Line number `n` (from 1) of the text, with its line end. -/
def LineIs (text : Str) (n : Nat) (s : Str) : Prop := 1 ≤ n ∧ (splitLines text)[n - 1]? = some s

/-- The line of `loc` is: white space, the keyword at the column of `loc`, `mark` (`:` for titles), and a rest that is, stripped,
the name. -/
def Quotes (text : Str) (loc : Location) (keyword : Option Str) (mark : Str) (name : Option Str) : Prop :=
  ∃ kw pre rest, keyword = some kw ∧ White pre ∧ LineIs text loc.line (pre ++ kw ++ mark ++ rest) ∧
    loc.column = some (pre.length + 1) ∧ name = some (strip rest)

/-- A tag stands in its line at its column, `@` first; white space between `@` and the name is skipped. -/
def QuotesTag (text : Str) (loc : Location) (name : Str) : Prop :=
  ∃ pre gap n rest, name = '@' :: n ∧ White gap ∧ LineIs text loc.line (pre ++ '@' :: (gap ++ n) ++ rest) ∧
    loc.column = some (pre.length + 1)

/-- A cell stands, escaped, in its line at its column. The value is what the escaped source stands for, without the padding at its
end. -/
def QuotesCell (text : Str) (line : Nat) (c : Cell) : Prop :=
  ∃ pre raw value rest pad, LineIs text line (pre ++ raw ++ '|' :: rest) ∧ c.loc = ⟨line, some (pre.length + 1)⟩ ∧ Reads raw value ∧
    (value = c.value ++ pad ∨ ∃ v, c.value = v ++ ['\n'] ∧ value = v ++ pad ++ ['\n']) ∧ Pad pad

/-- A row stands in its line at its column, `|` first, and so do its cells. -/
def QuotesRow (text : Str) (loc : Location) (cells : List Cell) : Prop :=
  (∃ pre rest, White pre ∧ LineIs text loc.line (pre ++ '|' :: rest) ∧ loc.column = some (pre.length + 1)) ∧
  ∀ c ∈ cells, QuotesCell text loc.line c

/-- An entry of a document quotes the text. -/
def Entry.Quoted (text : Str) : Entry → Prop
  | .feature loc kw name _ => Quotes text loc kw [':'] name
  | .rule loc kw name => Quotes text loc kw [':'] name
  | .background loc kw name => Quotes text loc kw [':'] name
  | .scenario loc kw name => Quotes text loc kw [':'] name
  | .examples loc kw name => Quotes text loc kw [':'] name
  | .step loc kw _ name => Quotes text loc kw [] name
  | .tag loc name => QuotesTag text loc name
  | .row loc cells => QuotesRow text loc cells

end Gherkin
