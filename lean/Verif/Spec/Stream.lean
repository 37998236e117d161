import Verif.Events
import Verif.Spec.Doc
import Verif.Spec.ShiftPickle

/-! Specification of event streams. -/

namespace Gherkin

/-- All ids that an event brings into the world: those of a document's nodes, or those of a pickle and its steps. -/
def Event.ids : Event → List Nat
  | .document _ d => d.ids
  | .pickle p => p.id :: p.steps.map (·.id)
  | _ => []

/-- What parsing a text alone, with new objects, gives. -/
def aloneOutcome (text : Str) : Except Exc (Option Document) := (parseDefault newBuilder text).1
/-- What the id counter then stands at. -/
def aloneNext (text : Str) : Nat := (parseDefault newBuilder text).2.nextId

/-- The events that a source has to give, all or nothing: for a text that parses (alone, with new objects) to `d`, the source, its
document and its pickles in the compiler's order, as far as enabled, with all ids raised by some number; for a text that does not
parse, its errors one by one and nothing else. -/
def IsBlock (eng : Engine) (opt : StreamOptions) (s : SourceFile) (evs : List Event) : Prop :=
  (∃ d k, aloneOutcome s.data = .ok (some d) ∧
    ∃ ps : List Pickle, (opt.printPickles = true → ∃ n, Pickles.compile eng s.uri d (aloneNext s.data) = .ok (ps, n)) ∧
      evs = (if opt.printSource then [.source s] else []) ++ (if opt.printAst then [.document s.uri (d.shift k)] else []) ++
        (if opt.printPickles then ps.map fun p => .pickle (p.shift k) else [])) ∨
  (∃ es, aloneOutcome s.data = .error (.composite es) ∧ evs = es.map fun e => .parseError s.uri e.loc e.msg)

/-- The text makes the parser (or, if pickles are wanted, the compiler) raise an exception that is no parse error. -/
def Crashes (eng : Engine) (opt : StreamOptions) (s : SourceFile) : Prop :=
  (∃ c, aloneOutcome s.data = .error (.crash c)) ∨
  (opt.printPickles = true ∧ ∃ d c, aloneOutcome s.data = .ok (some d) ∧ Pickles.compile eng s.uri d (aloneNext s.data) = .error c)

end Gherkin
