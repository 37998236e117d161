import Verif.Line

/-! Specification: how table rows are written. Nothing here depends on the reader in `Verif/Line.lean` except the notion of a
line. -/

namespace Gherkin

/-- `Reads raw v`: the source piece `raw` (between two bars) stands for the value `v`: `\n` is a newline, `\|` a bar, `\\` a
backslash, a backslash before any other character stands for itself; `raw` contains no other bar. -/
inductive Reads : Str → Str → Prop
  | nil : Reads [] []
  | plain {c r v} : c ≠ '|' → c ≠ '\\' → Reads r v → Reads (c :: r) (c :: v)
  | newline {r v} : Reads r v → Reads ('\\' :: 'n' :: r) ('\n' :: v)
  | escaped {d r v} : d = '|' ∨ d = '\\' → Reads r v → Reads ('\\' :: d :: r) (d :: v)
  | other {d r v} : d ≠ 'n' → d ≠ '|' → d ≠ '\\' → Reads r v → Reads ('\\' :: d :: r) ('\\' :: d :: v)

/-- How a writer escapes a cell value. -/
def escapeCell : Str → Str
  | [] => []
  | c :: cs =>
    (if c = '\n' then ['\\', 'n'] else if c = '|' then ['\\', '|'] else if c = '\\' then ['\\', '\\'] else [c]) ++ escapeCell cs

/-- White space that a reader strips from cells (newlines, which can only come from `\n`, are kept). -/
def Pad (s : Str) : Prop := ∀ c ∈ s, isSpace c = true ∧ c ≠ '\n'

/-- A value that survives the stripping of cells: it does not begin or end with white space other than newline. -/
structure CellValue (v : Str) : Prop where
  first : ∀ c, v.head? = some c → isSpace c = false ∨ c = '\n'
  last : ∀ c, v.getLast? = some c → isSpace c = false ∨ c = '\n'

/-- A value that survives also if the bar follows directly: there is no white space other than newline directly before a final newline. -/
def Tight (v : Str) : Prop := ∀ c, v.getLast? = some '\n' → v.dropLast.getLast? = some c → isSpace c = false ∨ c = '\n'

/-- One written cell: padding, value, padding. -/
structure WCell where
  left : Str
  value : Str
  right : Str

/-- The source of a row: `|`, then each cell followed by `|`. -/
def writeRow (cells : List WCell) : Str :=
  '|' :: cells.flatMap fun c => c.left ++ escapeCell c.value ++ c.right ++ ['|']

end Gherkin
