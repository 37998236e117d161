import Verif.Py

/-! Model of packages/gurke/src/gurke/gherkin_line.py, token_scanner.py, location.py. -/

namespace Gherkin

/-- Python exceptions that are not `ParserError`s, by class. -/
inductive Crash
  | attributeError | indexError | keyError | typeError | stopIteration
  /-- `RuntimeError: generator raised StopIteration` (PEP 479) or `RuntimeError("Unknown state: ...")`. -/
  | runtimeError
  /-- `re.error` from a regular expression built from user text. -/
  | reError
  deriving DecidableEq, Repr, Inhabited

/-- packages/gurke/src/gurke/location.py:5-8 `Location`. -/
structure Location where
  line : Nat
  column : Option Nat
  deriving DecidableEq, Repr, Inhabited

/-- packages/gurke/src/gurke/gherkin_line.py:10-15 `GherkinLine` (`_line_text`, `_line_number`). -/
structure Line where
  text : Str
  number : Nat
  deriving DecidableEq, Repr, Inhabited

/-- A matched item `{"column": ..., "text": ...}`; packages/gurke/src/gurke/gherkin_line.py:5-7 `Cell`. -/
structure MItem where
  column : Nat
  text : Str
  deriving DecidableEq, Repr, Inhabited

namespace Line

/-- packages/gurke/src/gurke/gherkin_line.py:14 `_trimmed_line_text`. -/
def trimmed (l : Line) : Str := lstrip l.text

/-- packages/gurke/src/gurke/gherkin_line.py:15 `indent`. -/
def indent (l : Line) : Nat := l.text.length - l.trimmed.length

/-- packages/gurke/src/gurke/gherkin_line.py:17-18 `__bool__`, negated: the end-of-file line is the empty string. -/
def isEof (l : Line) : Bool := l.text.isEmpty

/-- packages/gurke/src/gurke/gherkin_line.py:20-21 `get_rest_trimmed`. -/
def restTrimmed (l : Line) (n : Nat) : Str := strip (l.trimmed.drop n)

/-- packages/gurke/src/gurke/gherkin_line.py:23-27 `get_line_text` with the default argument `-1`. -/
def lineText (l : Line) : Str := l.trimmed

/-- packages/gurke/src/gurke/gherkin_line.py:23-27 `get_line_text(indent_to_remove)` for a non-negative argument. -/
def lineTextFrom (l : Line) (n : Nat) : Str :=
  if n > l.indent then l.trimmed else l.text.drop n

/-- packages/gurke/src/gurke/gherkin_line.py:29-30 `is_empty`. -/
def isBlank (l : Line) : Bool := l.trimmed.isEmpty

/-- packages/gurke/src/gurke/gherkin_line.py:32-33 `startswith`. -/
def startsWith (l : Line) (p : Str) : Bool := Gherkin.startsWith l.trimmed p

/-- packages/gurke/src/gurke/gherkin_line.py:35-36 `startswith_title_keyword`. -/
def startsWithTitle (l : Line) (kw : Str) : Bool := Gherkin.startsWith l.trimmed (kw ++ [':'])

end Line

/-- packages/gurke/src/gurke/gherkin_line.py:52-87 `split_table_cells`, with the local variables `col`, `start_col`,
`cell`, `first_cell` as arguments (`col` is the value *before* the next character is read). The generator's
results are collected in a list; an exception discards them, because the only consumer (`table_cells`) stops too.
Line 75 calls `next(row)` without default inside a generator: at the end of the row this is
`RuntimeError: generator raised StopIteration`. -/
def splitCells : Str → (col startCol : Nat) → (cell : Str) → (first : Bool) → Except Crash (List (Str × Nat))
  | [], _, _, _, _ => .ok []
  | c :: rest, col, startCol, cell, first =>
    if c == '|' then
      if first then splitCells rest (col + 1) (col + 2) [] false
      else match splitCells rest (col + 1) (col + 2) [] false with
        | .ok cells => .ok ((cell, startCol) :: cells)
        | .error e => .error e
    else if c == '\\' then
      match rest with
      | [] => .error .runtimeError
      | d :: rest' =>
        if d == 'n' then splitCells rest' (col + 2) startCol (cell ++ ['\n']) first
        else if d == '|' || d == '\\' then splitCells rest' (col + 2) startCol (cell ++ [d]) first
        else splitCells rest' (col + 2) startCol (cell ++ ['\\', d]) first
    else splitCells rest (col + 1) startCol (cell ++ [c]) first

/-- The class `[^\S\n]` of packages/gurke/src/gurke/gherkin_line.py:42,47: white space other than newline. -/
def isCellSpace (c : Char) : Bool := isSpace c && c != '\n'

/-- packages/gurke/src/gurke/gherkin_line.py:42 `re.sub(r"^[^\S\n]*", "", cell)`. -/
def cellLstrip (s : Str) : Str := lstripBy isCellSpace s

/-- packages/gurke/src/gurke/gherkin_line.py:47 `re.sub(r"[^\S\n]*$", "", s)`. `$` also matches just before a newline
that ends the string, so white space before a final newline is removed and the newline kept. -/
def cellRstrip (s : Str) : Str :=
  if s.getLast? = some '\n' then rstripBy isCellSpace s.dropLast ++ ['\n'] else rstripBy isCellSpace s

namespace Line

/-- packages/gurke/src/gurke/gherkin_line.py:38-50 `table_cells`. -/
def tableCells (l : Line) : Except Crash (List MItem) :=
  match splitCells (strip l.trimmed) 0 1 [] true with
  | .error e => .error e
  | .ok cells => .ok (cells.map fun (cell, col) =>
      let ls := cellLstrip cell
      { column := col + l.indent + (cell.length - ls.length), text := cellRstrip ls })

end Line

/-- packages/gurke/src/gurke/gherkin_line.py:92 `re.split(r"\s#", s, 2)[0]`: the part before the first white space
character that is followed by `#`. -/
def uncomment : Str → Str
  | [] => []
  | [c] => [c]
  | c :: d :: rest => if isSpace c && d == '#' then [] else c :: uncomment (d :: rest)

/-- packages/gurke/src/gurke/gherkin_line.py:95-104: the loop over the `@`-separated items. A tag containing white space
(`[^\S+]` is "white space") should raise `ParserException`, but line 100 passes a `dict` as location and
`ParserException.__init__` (errors.py:15) reads `location.line`, so the exception is `AttributeError`. -/
def tagLoop : List Str → Nat → Except Crash (List MItem)
  | [], _ => .ok []
  | item :: items, column =>
    let value := '@' :: strip item
    if value.any isSpace then .error .attributeError
    else match tagLoop items (column + item.length + 1) with
      | .ok tags => .ok ({ column := column, text := value } :: tags)
      | .error e => .error e

namespace Line

/-- packages/gurke/src/gurke/gherkin_line.py:89-105 `tags`. -/
def tags (l : Line) : Except Crash (List MItem) :=
  tagLoop ((splitChar '@' (strip (uncomment (strip l.trimmed)))).drop 1) (l.indent + 1)

end Line

/-- The lines that successive `readline()` calls on `io.StringIO(text)` return (default `newline="\n"`: a line ends at
`\n`, which is kept, and at nothing else); packages/gurke/src/gurke/token_scanner.py:15,20. -/
def splitLines : Str → List Str
  | [] => []
  | c :: cs =>
    if c == '\n' then ['\n'] :: splitLines cs
    else match splitLines cs with
      | [] => [[c]]
      | l :: ls => (c :: l) :: ls

/-- packages/gurke/src/gurke/token_scanner.py:10-16 `TokenScanner`: the lines not yet read and `line_number`. -/
structure Scanner where
  lines : List Str
  lineNumber : Nat
  deriving DecidableEq, Repr, Inhabited

/-- packages/gurke/src/gurke/token_scanner.py:11-16 `TokenScanner.__init__` for a `str` argument. -/
def Scanner.ofStr (text : Str) : Scanner := { lines := splitLines text, lineNumber := 0 }

/-- packages/gurke/src/gurke/token_scanner.py:18-21 `TokenScanner.read`; at the end of the text `readline` returns `""`
again and again, while `line_number` keeps growing. -/
def Scanner.read (s : Scanner) : Line × Scanner :=
  match s.lines with
  | [] => ({ text := [], number := s.lineNumber + 1 }, { s with lineNumber := s.lineNumber + 1 })
  | l :: ls => ({ text := l, number := s.lineNumber + 1 }, { lines := ls, lineNumber := s.lineNumber + 1 })

end Gherkin
