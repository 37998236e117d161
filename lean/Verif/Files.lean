import Verif.Glob

/-! Model of src/GherkinParser/glob_path.py `iter_files` on a directory tree, and of the resource search and the feature file search of
src/GherkinParser/gherkin_builder.py. -/

namespace Gherkin

/-- A directory entry. `locked` is a directory that may not be read (`PermissionError`). Simplification: the tree is finite and does not
change during the search; a link counts as what it points to. -/
inductive DirEntry
  | file (name : Str) | dir (name : Str) (entries : List DirEntry) | locked (name : Str)

namespace Files

/-- A compiled `Pattern` as a predicate on relative paths. -/
abbrev Pat := Str → Bool

/-- `str(f.relative_to(_base_path))` with `/` as separator. -/
def relPath (p : List Str) : Str := joinStr ['/'] p

/-- src/GherkinParser/glob_path.py:114-116: an ignore pattern matches. -/
def ignored (ign : Option (List Pat)) (p : List Str) : Bool :=
  match ign with
  | none => false
  | some l => l.any fun m => m (relPath p)

/-- src/GherkinParser/glob_path.py:120-122: no patterns are given or one matches. -/
def wanted (pats : Option (List Pat)) (p : List Str) : Bool :=
  match pats with
  | none => true
  | some l => l.any fun m => m (relPath p)

mutual
/-- src/GherkinParser/glob_path.py:113-123: one round of the loop; `pre` is the directory relative to `_base_path`. The paths yielded
are given relative to `_base_path`, as lists of names. -/
def walk (pats ign : Option (List Pat)) (pre : List Str) : DirEntry → List (List Str)
  | .file n => if ignored ign (pre ++ [n]) then [] else if wanted pats (pre ++ [n]) then [pre ++ [n]] else []
  | .dir n es => if ignored ign (pre ++ [n]) then [] else walkAll pats ign (pre ++ [n]) es
  | .locked _ => []
/-- src/GherkinParser/glob_path.py:112-125: the loop over `path.iterdir()`. -/
def walkAll (pats ign : Option (List Pat)) (pre : List Str) : List DirEntry → List (List Str)
  | [] => []
  | e :: es => walk pats ign pre e ++ walkAll pats ign pre es
end

/-- src/GherkinParser/glob_path.py:85-125 `iter_files(path, patterns, ignore_patterns)` where `path` is a readable directory with these
entries. -/
def iterFiles (pats ign : Option (List Pat)) (es : List DirEntry) : List (List Str) := walkAll pats ign [] es

/-- `Pattern(pattern)`: a pattern that does not compile raises; here it is only used for the patterns in the code. -/
def pattern (p : Str) : Pat := fun path => (Glob.matches p path).getD false

/-- `PurePath.stem` of a name (Python up to 3.13). -/
def stem (name : Str) : Str :=
  match name.reverse.dropWhile (· != '.') with
  | [] => name
  | _ :: front => if front = [] ∨ name.reverse.takeWhile (· != '.') = [] then name else front.reverse

/-- Python's `<=` on `str`: by code points. -/
def strLe (a b : Str) : Bool := decide (a ≤ b)

/-- Insertion into a sorted list. -/
def insertStr (x : Str) : List Str → List Str
  | [] => [x]
  | y :: ys => if strLe x y then x :: y :: ys else y :: insertStr x ys

/-- Python's `sorted` on strings. Simplification: by insertion; equal strings cannot be told apart, so every sorting method gives the
same list. -/
def sorted : List Str → List Str
  | [] => []
  | x :: xs => insertStr x (sorted xs)

/-- src/GherkinParser/gherkin_builder.py:164-173: the arguments of the resource imports; `es` are the entries of `path.parent`. -/
def resourceImports (es : List DirEntry) : List Str :=
  let resources := (iterFiles (some [pattern py"**/*.resource"]) none es).filter fun p =>
    !(startsWith (stem (p.getLastD [])) ['_'] || startsWith (stem (p.getLastD [])) ['.'])
  sorted (resources.map relPath)

/-- src/GherkinParser/gherkin_builder.py:234-235: the feature files of `collect_gherkin_suites`. -/
def featureFiles (es : List DirEntry) : List (List Str) := iterFiles (some [pattern py"**/*.{feature,feature.md}"]) none es

end Files

end Gherkin
