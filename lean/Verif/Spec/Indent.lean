import Verif.Spec.Noise

/-! Specification for C72: texts that differ in their indentation only. Nothing here depends on the parser, matcher or builder model. -/

namespace Gherkin

/-- The number of white space characters at the beginning of a line. -/
def indentation (s : Str) : Nat := (s.takeWhile isSpace).length

/-- `text'` is `text` with other white space at the beginning of its lines. The lines of the descriptions of the document `d` (which belongs to `text`)
are kept as they are. The content lines of a doc string are the same when the indentation of its first line is taken away; the first line, the closing
line and all lines outside doc strings may be moved freely. -/
structure Reindented (text : Str) (d : Document) (text' : Str) : Prop where
  lines : (splitLines text').map lstrip = (splitLines text).map lstrip
  descriptions : ∀ n, d.describes text n → ∀ s, LineIs text n s → LineIs text' n s
  docStrings : ∀ x ∈ d.docStrings, ∀ delim, x.delimiter = some delim → ∀ l ∈ docBody text x.loc.line delim,
    ∀ o o' s', LineIs text x.loc.line o → LineIs text' x.loc.line o' → LineIs text' l.number s' →
      outdent (indentation o') s' = outdent (indentation o) l.text

end Gherkin
