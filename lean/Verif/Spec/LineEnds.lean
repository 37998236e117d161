import Verif.Py

/-! Specification for C45: texts that differ in their line ends only. -/

namespace Gherkin

/-- A Unix or a Windows line end. -/
def IsLineEnd (e : Str) : Prop := e = ['\n'] ∨ e = ['\r', '\n']

/-- The two texts have the same lines; each line may end in another way, and the last line may lack its end if it is not empty. -/
inductive SameLines : Str → Str → Prop
  | nil : SameLines [] []
  | line {body e e' s t : Str} : '\n' ∉ body → IsLineEnd e → IsLineEnd e' → SameLines s t → SameLines (body ++ e ++ s) (body ++ e' ++ t)
  | last {body e e' : Str} : '\n' ∉ body → body ≠ [] → (e = [] ∨ IsLineEnd e) → (e' = [] ∨ IsLineEnd e') → SameLines (body ++ e) (body ++ e')

/-- The text with Windows line ends (for a text with Unix line ends). -/
def toCrlf (text : Str) : Str := text.flatMap fun c => if c = '\n' then ['\r', '\n'] else [c]

end Gherkin
