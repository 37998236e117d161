/-! Python strings and the string operations the code uses. A Python `str` is a list of code points. -/

namespace Gherkin

/-- Python `str`. Simplification: Lean's `Char` excludes surrogates (U+D800–U+DFFF). -/
abbrev Str := List Char

/-- `py"abc"` is the character list `['a', 'b', 'c']`. -/
syntax:max "py" noWs str : term
macro_rules
  | `(py$s:str) => do
    let cs := s.getString.toList.map fun c => (⟨Lean.Syntax.mkCharLit c⟩ : Lean.TSyntax `term)
    `(([$(cs.toArray),*] : List Char))

/-- `str.isspace` on one character; the same set as `re`'s `\s` on `str` and as what `str.strip()` removes
(29 code points of the Unicode database used by CPython 3.8–3.12). -/
def isSpace (c : Char) : Bool :=
  let n := c.toNat
  (9 ≤ n && n ≤ 13) || (28 ≤ n && n ≤ 32) || n == 0x85 || n == 0xA0 || n == 0x1680 ||
  (0x2000 ≤ n && n ≤ 0x200A) || n == 0x2028 || n == 0x2029 || n == 0x202F || n == 0x205F || n == 0x3000

/-- `s.lstrip()` restricted to characters satisfying `p`. -/
def lstripBy (p : Char → Bool) (s : Str) : Str := s.dropWhile p

/-- `s.rstrip()` restricted to characters satisfying `p`. -/
def rstripBy (p : Char → Bool) (s : Str) : Str := (s.reverse.dropWhile p).reverse

/-- Python `s.lstrip()`. -/
def lstrip (s : Str) : Str := lstripBy isSpace s
/-- Python `s.rstrip()`. -/
def rstrip (s : Str) : Str := rstripBy isSpace s
/-- Python `s.strip()`. -/
def strip (s : Str) : Str := rstrip (lstrip s)

/-- The characters removed by `s.rstrip("\r\n")`. -/
def isEol (c : Char) : Bool := c == '\r' || c == '\n'

/-- Python `s.rstrip("\r\n")`. -/
def rstripEol (s : Str) : Str := rstripBy isEol s

/-- Python `s.startswith(p)`. -/
def startsWith (s p : Str) : Bool := p.isPrefixOf s

/-- Worker of `replaceAll`; `skip` counts the characters of the current occurrence still to be dropped. -/
def replaceGo (old new : Str) : Nat → Str → Str
  | _, [] => []
  | k + 1, _ :: cs => replaceGo old new k cs
  | 0, c :: cs =>
    if old.isPrefixOf (c :: cs) then new ++ replaceGo old new (old.length - 1) cs
    else c :: replaceGo old new 0 cs

/-- Python `s.replace(old, new)` for non-empty `old`: leftmost, non-overlapping occurrences. -/
def replaceAll (old new s : Str) : Str := replaceGo old new 0 s

/-- Python `sep.join(parts)`. -/
def joinStr (sep : Str) : List Str → Str
  | [] => []
  | [x] => x
  | x :: y :: rest => x ++ sep ++ joinStr sep (y :: rest)

/-- Python `s.split(c)` for a one-character separator: always at least one piece. -/
def splitChar (sep : Char) : Str → List Str
  | [] => [[]]
  | c :: cs =>
    if c == sep then [] :: splitChar sep cs
    else match splitChar sep cs with
      | [] => [[c]]
      | p :: ps => (c :: p) :: ps

/-- Python `str(n)` for a natural number. -/
def natStr (n : Nat) : Str := Nat.toDigits 10 n

end Gherkin
