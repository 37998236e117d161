import Verif.Py

/-! Specification: outline texts as pieces, and filling their placeholders. -/

namespace Gherkin

/-- A piece of an outline text: other text, or a placeholder `<name>`. -/
inductive Piece
  | plain (s : Str)
  | hole (name : Str)
  deriving DecidableEq, Repr

/-- Other text contains no `<`; a placeholder's name contains neither `<` nor `>`. -/
def Piece.Ok : Piece → Prop
  | .plain s => '<' ∉ s
  | .hole n => '<' ∉ n ∧ '>' ∉ n

/-- A piece as written. -/
def Piece.src : Piece → Str
  | .plain s => s
  | .hole n => '<' :: (n ++ ['>'])

/-- A piece with the value of its column (the first one, if several have the same header); unknown placeholders stay. -/
def Piece.fill (columns : List (Str × Str)) : Piece → Str
  | .plain s => s
  | .hole n =>
    match columns.find? (fun c => c.1 = n) with
    | some c => c.2
    | none => '<' :: (n ++ ['>'])

/-- `s'` is `s` with all placeholders filled at once. -/
def Fills (columns : List (Str × Str)) (s s' : Str) : Prop :=
  ∃ ps : List Piece, (∀ p ∈ ps, p.Ok) ∧ s = ps.flatMap Piece.src ∧ s' = ps.flatMap (Piece.fill columns)

/-- The text can be read as pieces (no `<` without a `>` before the next `<`). -/
def Pieced (s : Str) : Prop := ∃ ps : List Piece, (∀ p ∈ ps, p.Ok) ∧ s = ps.flatMap Piece.src

/-- `s'` is `s` with `new` for every occurrence of `old`, from left to right: either there is none, or `old` is replaced after the shortest possible
beginning `p`, and then in what follows. What has been put in is not looked at again. -/
inductive Replaced (old new : Str) : Str → Str → Prop
  | none {s : Str} : ¬ old <:+: s → Replaced old new s s
  | some {p s s' : Str} : ¬ old <:+: p ++ old.dropLast → Replaced old new s s' → Replaced old new (p ++ old ++ s) (p ++ new ++ s')

/-- One column after the other, `<header>` is replaced by the value. -/
def ReplacedAll : List (Str × Str) → Str → Str → Prop
  | [], s, s' => s' = s
  | (h, v) :: columns, s, s' => ∃ t, Replaced ('<' :: (h ++ ['>'])) v s t ∧ ReplacedAll columns t s'

end Gherkin
