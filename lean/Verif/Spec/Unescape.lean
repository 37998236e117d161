import Verif.Py

/-! Specification: how Robot Framework unescapes an argument (robot/utils/escaping.py `Unescaper`, Robot Framework 4–7; not part of
/repo): `\n`, `\r`, `\t`, `\xHH`, `\uHHHH`, `\UHHHHHHHH` are characters, `\` before anything else is dropped, `\\` is a backslash. -/

namespace Gherkin.Escape

/-- The value of a hexadecimal digit. -/
def hexVal (c : Char) : Option Nat :=
  let n := c.toNat
  if 48 ≤ n ∧ n ≤ 57 then some (n - 48)
  else if 97 ≤ n ∧ n ≤ 102 then some (n - 87)
  else if 65 ≤ n ∧ n ≤ 70 then some (n - 55)
  else none

/-- The value of a hexadecimal number. -/
def hexNum (ds : Str) : Option Nat := ds.foldlM (fun a d => (hexVal d).map fun v => a * 16 + v) 0

/-- Read `w` hexadecimal digits. -/
def readHex (w : Nat) (s : Str) : Option Char :=
  if (s.take w).length = w then (hexNum (s.take w)).map Char.ofNat else none

/-- Read an escape sequence (after the backslash): the character it stands for and the number of characters read. A character without
a special meaning stands for itself. -/
def readEscape : Str → Char × Nat
  | [] => ('\\', 0)
  | c :: s =>
    if c = 'n' then ('\n', 1)
    else if c = 'r' then ('\r', 1)
    else if c = 't' then ('\t', 1)
    else if c = 'x' then ((readHex 2 s).getD c, if (readHex 2 s).isSome then 3 else 1)
    else if c = 'u' then ((readHex 4 s).getD c, if (readHex 4 s).isSome then 5 else 1)
    else if c = 'U' then ((readHex 8 s).getD c, if (readHex 8 s).isSome then 9 else 1)
    else (c, 1)

/-- Worker: `skip` characters belong to the sequence just read. -/
def unescapeGo : Nat → Str → Str
  | _, [] => []
  | k + 1, _ :: s => unescapeGo k s
  | 0, c :: s =>
    if c = '\\' then
      if s = [] then [] else (readEscape s).1 :: unescapeGo (readEscape s).2 s
    else c :: unescapeGo 0 s

/-- Robot Framework's `unescape`. -/
def unescape (s : Str) : Str := unescapeGo 0 s

end Gherkin.Escape
