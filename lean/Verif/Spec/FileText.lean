import Verif.Py

/-! Specification for C65-C68: how a text can be saved in a file. Nothing here depends on the model. -/

namespace Gherkin

/-- The second text is the first with some of the line ends `\n` written as `\r\n`. -/
inductive EndsAs : Str → Str → Prop
  | nil : EndsAs [] []
  | char {c : Char} {s t : Str} : c ≠ '\n' → EndsAs s t → EndsAs (c :: s) (c :: t)
  | unix {s t : Str} : EndsAs s t → EndsAs ('\n' :: s) ('\n' :: t)
  | windows {s t : Str} : EndsAs s t → EndsAs ('\n' :: s) ('\r' :: '\n' :: t)

/-- A text that does not begin with a byte order mark itself and has no `\r\n`. -/
def PlainText (t : Str) : Prop := ¬ ['\r', '\n'] <:+: t ∧ t.head? ≠ some '\uFEFF'

/-- The bytes are a UTF-8 file of the text, with Unix or Windows line ends (or a mixture), without or with a byte order mark. -/
def SavedAs (t : Str) (bytes : ByteArray) : Prop :=
  ∃ body, EndsAs t body ∧ (bytes = body.utf8Encode ∨ bytes = ('\uFEFF' :: body).utf8Encode)

/-- The bytes are no UTF-8 text. -/
def NotUtf8 (bytes : ByteArray) : Prop := ∀ t : Str, bytes ≠ t.utf8Encode

/-- Each `\r` is followed by `\n`. -/
def NoLoneCr (t : Str) : Prop := ∀ a b, t = a ++ '\r' :: b → b.head? = some '\n'

end Gherkin
