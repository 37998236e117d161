import Mathlib.Data.List.Forall2
import Verif.Spec.Unescape
import Verif.Compiler

/-! Specification: the Python literals that stand for step arguments (strings, lists and dictionaries; Python language reference, "Lexical
analysis" and "Atoms"; not part of /repo). Of the models only the data type of pickle arguments is used. -/

namespace Gherkin.PyLit

/-- Python values. -/
inductive Value
  | str (s : Str) | list (vs : List Value) | dict (items : List (Str × Value))

/-- The one-character escapes of Python strings. -/
def escapes : List (Char × Char) := [('n', '\n'), ('r', '\r'), ('t', '\t'), ('\\', '\\'), ('\'', '\''), ('"', '"')]

/-- `Chars q s v`: between quotes `q`, the characters `s` of a string literal stand for the text `v`. -/
inductive Chars (q : Char) : Str → Str → Prop
  | nil : Chars q [] []
  | plain {c s v} : c ≠ q → c ≠ '\\' → c ≠ '\n' → c ≠ '\r' → Chars q s v → Chars q (c :: s) (c :: v)
  | escape {c d s v} : (c, d) ∈ escapes → Chars q s v → Chars q ('\\' :: c :: s) (d :: v)
  | hex {k w ds c s v} : (k, w) ∈ [('x', 2), ('u', 4), ('U', 8)] → ds.length = w → Escape.hexNum ds = some c.toNat → Chars q s v →
      Chars q ('\\' :: k :: (ds ++ s)) (c :: v)

/-- A string literal. -/
def StrLit (src s : Str) : Prop := ∃ q b, (q = '\'' ∨ q = '"') ∧ src = q :: (b ++ [q]) ∧ Chars q b s

/-- `Denotes src v`: the Python expression `src` has the value `v`. -/
inductive Denotes : Str → Value → Prop
  | str {src s} : StrLit src s → Denotes src (.str s)
  | list {srcs vs} : List.Forall₂ Denotes srcs vs → Denotes (py"[" ++ joinStr py", " srcs ++ py"]") (.list vs)
  | dict {keys names srcs vs} : keys.length = srcs.length → List.Forall₂ StrLit keys names → List.Forall₂ Denotes srcs vs →
      Denotes (py"{" ++ joinStr py", " (List.zipWith (fun k e => k ++ py": " ++ e) keys srcs) ++ py"}") (.dict (names.zip vs))

/-- The dictionary a step's argument is handed over as. -/
def ofArg : PArg → Value
  | .table rows => .dict [(py"rows", .list (rows.map fun cells => .dict [(py"cells", .list (cells.map fun v => .dict [(py"value", .str v)]))]))]
  | .doc content none => .dict [(py"content", .str content)]
  | .doc content (some mt) => .dict [(py"content", .str content), (py"mediaType", .str mt)]

/-- The arguments of the keyword call for a step with this argument: none, or one text `&{{…}}` whose inner part, with Robot Framework's
escapes undone, is a Python expression for the dictionary. -/
def Passed : Option PArg → List Str → Prop
  | none, args => args = []
  | some a, args => ∃ inner, args = [py"&{{" ++ inner ++ py"}}"] ∧ Denotes (Escape.unescape inner) (ofArg a)

end Gherkin.PyLit
