import Verif.Spec.Files

/-! Specification for C69 and C70. -/

namespace Gherkin.Files

/-- There is a directory with these entries at this path, and the directories on the way can be read. -/
inductive DirAt : List DirEntry → List Str → List DirEntry → Prop
  | here {es : List DirEntry} : DirAt es [] es
  | deeper {es sub ent : List DirEntry} {n : Str} {p : List Str} : .dir n sub ∈ es → DirAt sub p ent → DirAt es (n :: p) ent

/-- A feature file: where it is, its name, and the entries of its directory. -/
structure Found where
  dir : List Str
  name : Str
  entries : List DirEntry

/-- The file is in the tree and has the extension of a feature file. -/
def Found.In (f : Found) (es : List DirEntry) : Prop :=
  DirAt es f.dir f.entries ∧ .file f.name ∈ f.entries ∧ (py".feature" <:+ f.name ∨ py".feature.md" <:+ f.name)

end Gherkin.Files
