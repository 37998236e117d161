import Verif.Py

/-! Model of `escape` in src/GherkinParser/gherkin_builder.py, with Python's `repr` of strings. -/

namespace Gherkin.Escape

/-- A lower-case hexadecimal digit. -/
def hexDigit (n : Nat) : Char := if n < 10 then Char.ofNat (48 + n) else Char.ofNat (87 + n)

/-- `n` with `w` hexadecimal digits. -/
def hex : Nat → Nat → Str
  | 0, _ => []
  | w + 1, n => hex w (n / 16) ++ [hexDigit (n % 16)]

/-- One character in Python's `repr` of a string with this quote (CPython `unicode_repr`). `printable` is `str.isprintable` on one
character; every theorem holds for all predicates. -/
def reprChar (printable : Char → Bool) (quote c : Char) : Str :=
  if c = quote ∨ c = '\\' then ['\\', c]
  else if c = '\t' then py"\\t"
  else if c = '\n' then py"\\n"
  else if c = '\r' then py"\\r"
  else if c.toNat < 32 ∨ c.toNat = 127 then '\\' :: 'x' :: hex 2 c.toNat
  else if c.toNat < 127 then [c]
  else if printable c then [c]
  else if c.toNat ≤ 0xff then '\\' :: 'x' :: hex 2 c.toNat
  else if c.toNat ≤ 0xffff then '\\' :: 'u' :: hex 4 c.toNat
  else '\\' :: 'U' :: hex 8 c.toNat

/-- The quote that `repr` chooses. -/
def quoteOf (s : Str) : Char := if '\'' ∈ s ∧ '"' ∉ s then '"' else '\''

/-- Python `repr(s)[1:-1]`. -/
def reprBody (printable : Char → Bool) (s : Str) : Str := s.flatMap (reprChar printable (quoteOf s))

/-- Python `repr(s)`. -/
def repr (printable : Char → Bool) (s : Str) : Str := quoteOf s :: (reprBody printable s ++ [quoteOf s])

/-- src/GherkinParser/gherkin_builder.py:36-37, 50 `re.sub(r"\s+", escape_whitespace, item)`: a backslash between the characters of
each run of white space, that is before every white-space character that follows one. -/
def escapeWhitespace (afterSpace : Bool) : Str → Str
  | [] => []
  | c :: cs =>
    if isSpace c then (if afterSpace then '\\' :: c :: escapeWhitespace true cs else c :: escapeWhitespace true cs)
    else c :: escapeWhitespace false cs

/-- src/GherkinParser/gherkin_builder.py:32-33. -/
def controlWords : List Str := [py"ELSE", py"ELSE IF", py"AND"]

/-- src/GherkinParser/gherkin_builder.py:40-50 `escape`. -/
def escape (printable : Char → Bool) (item : Str) : Str :=
  if item ∈ controlWords then '\\' :: item
  else escapeWhitespace false (replaceAll ['='] ['\\', '='] (reprBody printable item))

end Gherkin.Escape
