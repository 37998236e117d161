import Verif.Files

/-! Specification of file searches. -/

namespace Gherkin.Files

/-- There is a file at this path, and the directories on the way can be read. -/
inductive FileAt : List DirEntry → List Str → Prop
  | here {es : List DirEntry} {n : Str} : .file n ∈ es → FileAt es [n]
  | deeper {es sub : List DirEntry} {n : Str} {p : List Str} : .dir n sub ∈ es → FileAt sub p → FileAt es (n :: p)

def _root_.Gherkin.DirEntry.name : DirEntry → Str
  | .file n => n
  | .dir n _ => n
  | .locked n => n

/-- In every directory the names are distinct. -/
inductive Tidy : List DirEntry → Prop
  | mk {es : List DirEntry} : (es.map DirEntry.name).Nodup → (∀ n sub, DirEntry.dir n sub ∈ es → Tidy sub) → Tidy es

end Gherkin.Files
