import Verif.Line

/-! Specification: the numbered lines of a source text. -/

namespace Gherkin

/-- The lines of a text, numbered from 1; each keeps its line end. -/
def sourceLines (text : Str) : List Line := ((splitLines text).zipIdx 1).map fun (s, n) => ⟨s, n⟩

/-- The pseudo line after the last line. -/
def eofLine (text : Str) : Line := ⟨[], (splitLines text).length + 1⟩

/-- What a parser has to process: all lines, then the end of the file. -/
def tokenLines (text : Str) : List Line := sourceLines text ++ [eofLine text]

end Gherkin
