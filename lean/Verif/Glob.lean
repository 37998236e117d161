import Verif.Regex

/-! Model of src/GherkinParser/glob_path.py `_glob_pattern_to_re` and `Pattern`. -/

namespace Gherkin.Glob

/-- One addition `result += ...` to the regular expression in src/GherkinParser/glob_path.py:9-61. -/
inductive Piece
  | esc (c : Char)      -- line 19: "\\" + c
  | lit (c : Char)      -- line 55: c
  | any                 -- line 21: "."
  | cls (c : Char)      -- line 23: "[" or "]"
  | opn                 -- line 26: "("
  | shut                 -- line 29: ")"
  | bar                 -- line 32: "|"
  | deep                -- line 50: "((?:[^/]*(?:/|$))*)"
  | seg                 -- line 53: "([^/]*)"
  deriving DecidableEq, Repr

/-- The text of a piece, as in the Python source. -/
def Piece.text : Piece → Str
  | .esc c => ['\\', c]
  | .lit c => [c]
  | .any => py"."
  | .cls c => [c]
  | .opn => py"("
  | .shut => py")"
  | .bar => py"|"
  | .deep => py"((?:[^/]*(?:/|$))*)"
  | .seg => py"([^/]*)"

/-- src/GherkinParser/glob_path.py:18-34, 54-55: the branch taken for a character other than `*`, and the new `in_group`. -/
def piece (grp : Bool) (c : Char) : Piece × Bool :=
  if c ∈ py"\\/$^+.()=!|" then (.esc c, grp)
  else if c = '?' then (.any, grp)
  else if c ∈ py"[]" then (.cls c, grp)
  else if c = '{' then (.opn, true)
  else if c = '}' then (.shut, false)
  else if c = ',' then (if grp then .bar else .esc c, grp)
  else (.lit c, grp)

/-- src/GherkinParser/glob_path.py:45-47 `is_globstar`. -/
def isGlobstar (prev : Option Char) (count : Nat) (next : Option Char) : Bool :=
  count > 1 && (prev = none || prev = some '/') && (next = none || next = some '/')

/-- src/GherkinParser/glob_path.py:14-57: the loop over the pattern. `prev` is `pattern[i - 1]` (the character before the stars while
stars are being read), `count` is `star_count` (0 when no star is pending). After a globstar the next character, if there is one, is
skipped (51 with 57). -/
def pieces (prev : Option Char) (grp : Bool) (count : Nat) : Str → List Piece
  | [] =>
    if count = 0 then [] else if isGlobstar prev count none then [.deep] else [.seg]
  | c :: cs =>
    if c = '*' then pieces prev grp (count + 1) cs
    else if count = 0 then (piece grp c).1 :: pieces (some c) (piece grp c).2 0 cs
    else if isGlobstar prev count (some c) then .deep :: pieces (some c) grp 0 cs
    else .seg :: (piece grp c).1 :: pieces (some c) (piece grp c).2 0 cs

/-- src/GherkinParser/glob_path.py:9-61 `_glob_pattern_to_re`. -/
def patternToRe (pattern : Str) : Str :=
  py"(?ms)^" ++ (pieces none false 0 pattern).flatMap Piece.text ++ py"$"

/-- src/GherkinParser/glob_path.py:67-72 `Pattern(pattern).matches(path)`; `path` is the string of the `Path` with `/` as separator. The expression is
read as Python's `re` reads its text (`Regex.lean`). none: `re.compile` raises (or the text uses something that `Regex.lean` does not model). -/
def «matches» (pattern path : Str) : Option Bool := (Regex.read (patternToRe pattern)).map fun r => r.fullmatch path

end Gherkin.Glob
