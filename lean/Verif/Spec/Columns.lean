import Verif.Spec.Bare
import Verif.Spec.Calls
import Verif.Spec.Interpolate
import Verif.Spec.PickleText

/-! Specification for C93: other names for the columns of the examples, and another order of them. -/

namespace Gherkin

/-- The piece with its placeholder renamed. -/
def Piece.rename (f : Str → Str) : Piece → Piece
  | .plain s => .plain s
  | .hole n => .hole (f n)

/-- A placeholder for one of these columns occurs in the text. -/
def Mentions (cols : List (Str × Str)) (s : Str) : Prop := ∃ c ∈ cols, ('<' :: (c.1 ++ ['>'])) <:+: s

/-- `cols'` are the columns `cols` under their new names, which are all different, in any order. -/
structure Renaming (f : Str → Str) (cols cols' : List (Str × Str)) : Prop where
  perm : (cols.map fun c => (f c.1, c.2)).Perm cols'
  names : (cols'.map (·.1)).Nodup

/-- `s'` is `s` with the new names in its placeholders; placeholders that are not of a column stay, and must not be those of a column by accident. Or there
are no placeholders in `s`, and `s'` is the same. -/
def RenamedText (f : Str → Str) (cols cols' : List (Str × Str)) (s s' : Str) : Prop :=
  (∃ ps : List Piece, (∀ p ∈ ps, p.Ok) ∧ s = ps.flatMap Piece.src ∧ s' = (ps.map (Piece.rename f)).flatMap Piece.src ∧
    ∀ n, .hole n ∈ ps → n ∈ cols.map (·.1) ∨ (f n = n ∧ n ∉ cols'.map (·.1))) ∨
  (s' = s ∧ ¬ Mentions cols s ∧ ¬ Mentions cols' s)

/-- Two step arguments of the same shape, with texts in the relation `R`. -/
def SameArg (R : Str → Str → Prop) : StepArg → StepArg → Prop
  | .none, .none => True
  | .table t, .table t' => List.Forall₂ (fun (r r' : Row) => List.Forall₂ (fun (c c' : Cell) => R c.value c'.value) r.cells r'.cells) t.rows t'.rows
  | .doc d, .doc d' => R d.content d'.content ∧ Option.Rel R d.mediaType d'.mediaType
  | _, _ => False

/-- Two steps with the same keyword, and texts in the relation `R`. -/
structure SameStep (R : Str → Str → Prop) (s s' : Step) : Prop where
  keyword : s.keyword = s'.keyword
  type : s.keywordType = s'.keywordType
  text : Option.Rel R s.text s'.text
  arg : SameArg R s.arg s'.arg

/-- No header has a character that is special in regular expressions, `<` or `>`, and no value has a `<`. -/
def PlainTexts (cols : List (Str × Str)) : Prop :=
  ∀ c ∈ cols, (∀ x ∈ c.1, Pickles.isMeta x = false ∧ x ≠ '<' ∧ x ≠ '>') ∧ '<' ∉ c.2

end Gherkin
