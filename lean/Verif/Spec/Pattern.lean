import Verif.Py

/-! Specification for C80: which texts a regular expression in Python's notation stands for. Nothing here depends on the models of `re` or of the compiler. -/

namespace Gherkin.Pattern

/-- A set of texts. -/
abbrev Texts := Str → Prop

def cat (K L : Texts) : Texts := fun s => ∃ a b, s = a ++ b ∧ K a ∧ L b

/-- `n` texts of the set, one after the other. -/
def pow (L : Texts) : Nat → Texts
  | 0 => fun s => s = []
  | n + 1 => cat L (pow L n)

/-- As many texts of the set as allowed. -/
def times (L : Texts) (allowed : Nat → Prop) : Texts := fun s => ∃ n, allowed n ∧ pow L n s

def one (P : Char → Prop) : Texts := fun s => ∃ c, s = [c] ∧ P c

/-- The characters with a special meaning. -/
def special : Str := py".^$*+?{}[]\\|()"

/-- The characters that are special in a class. -/
def classSpecial : Str := py"[]^\\-"

/-- ASCII letters and digits: with a backslash they have, or may get, a special meaning. -/
def word (c : Char) : Prop := ('a' ≤ c ∧ c ≤ 'z') ∨ ('A' ≤ c ∧ c ≤ 'Z') ∨ ('0' ≤ c ∧ c ≤ '9')

/-- The value of a decimal number. -/
def number (ds : Str) : Nat := ds.foldl (fun n c => n * 10 + (c.toNat - '0'.toNat)) 0

def Digits (ds : Str) : Prop := ds ≠ [] ∧ ∀ c ∈ ds, '0' ≤ c ∧ c ≤ '9'

/-- What stands between `[` or `[^` and `]`, and the characters it lists. -/
inductive Class : Str → (Char → Prop) → Prop
  | char {c} : c ∉ classSpecial → Class [c] (· = c)
  | range {a b} : a ∉ classSpecial → b ∉ classSpecial → a ≤ b → Class [a, '-', b] (fun c => a ≤ c ∧ c ≤ b)
  | space : Class py"\\s" (fun c => isSpace c = true)
  | nonSpace : Class py"\\S" (fun c => isSpace c = false)
  | newline : Class py"\\n" (· = '\n')
  | escaped {c} : ¬ word c → Class ['\\', c] (· = c)
  | more {v w P Q} : Class v P → Class w Q → Class (v ++ w) (fun c => P c ∨ Q c)

/-- An atom; an atom with or without a quantifier; a sequence of these; alternatives. -/
inductive Level | atom | piece | seq | alt

/-- The notation and the texts it stands for. -/
inductive Means : Level → Str → Texts → Prop
  | char {c} : c ∉ special → Means .atom [c] (· = [c])
  | escaped {c} : ¬ word c → Means .atom ['\\', c] (· = [c])
  | newline : Means .atom py"\\n" (· = ['\n'])
  | space : Means .atom py"\\s" (one fun c => isSpace c = true)
  | nonSpace : Means .atom py"\\S" (one fun c => isSpace c = false)
  | dot : Means .atom py"." (one (· ≠ '\n'))
  | cls {w P} : Class w P → Means .atom ('[' :: w ++ [']']) (one P)
  | notCls {w P} : Class w P → Means .atom ('[' :: '^' :: w ++ [']']) (one fun c => ¬ P c)
  | group {w L} : Means .alt w L → Means .atom ('(' :: w ++ [')']) L
  | plainGroup {w L} : Means .alt w L → Means .atom (py"(?:" ++ w ++ [')']) L
  | once {w L} : Means .atom w L → Means .piece w L
  | star {w L} : Means .atom w L → Means .piece (w ++ ['*']) (times L fun _ => True)
  | plus {w L} : Means .atom w L → Means .piece (w ++ ['+']) (times L fun n => 1 ≤ n)
  | opt {w L} : Means .atom w L → Means .piece (w ++ ['?']) (times L fun n => n ≤ 1)
  | counted {w L ds es} : Means .atom w L → Digits ds → Digits es → number ds ≤ number es →
      Means .piece (w ++ '{' :: ds ++ ',' :: es ++ ['}']) (times L fun n => number ds ≤ n ∧ n ≤ number es)
  | nothing : Means .seq [] (· = [])
  | next {v w K L} : Means .seq v K → Means .piece w L → Means .seq (v ++ w) (cat K L)
  | only {w L} : Means .seq w L → Means .alt w L
  | either {v w K L} : Means .alt v K → Means .seq w L → Means .alt (v ++ '|' :: w) (fun s => K s ∨ L s)

/-- From left to right: where a text of the set begins, such a text is replaced; where none begins, the character is kept. -/
inductive Replaced (L : Texts) (new : Str) : Str → Str → Prop
  | nil : Replaced L new [] []
  | found {m s t} : L m → Replaced L new s t → Replaced L new (m ++ s) (new ++ t)
  | keep {c s t} : (∀ m s', c :: s = m ++ s' → ¬ L m) → Replaced L new s t → Replaced L new (c :: s) (c :: t)

/-- One column after the other: what matches the pattern `<header>` is replaced by the value. -/
inductive AllReplaced : List (Str × Str) → Str → Str → Prop
  | nil {s} : AllReplaced [] s s
  | column {h v cols L s t u} : Means .alt ('<' :: h ++ ['>']) L → Replaced L v s t → AllReplaced cols t u → AllReplaced ((h, v) :: cols) s u

end Gherkin.Pattern
