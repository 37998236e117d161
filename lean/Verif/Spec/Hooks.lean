import Verif.Hooks

/-! Specification of hooks, independent of the loops of the model. -/

namespace Gherkin.Hooks

/-- A tag asks for one of the events: it is `hook:` followed by the event. -/
def Asks (events : List Str) (tag : Str) : Prop := ∃ e ∈ events, tag = py"hook:" ++ e

instance (events : List Str) (tag : Str) : Decidable (Asks events tag) := by unfold Asks; infer_instance

/-- All keywords with the name of their resource file or library, the resources' first. -/
def allKeywords (s : Store) : List (Str × Keyword) :=
  (s.resources ++ s.libraries).flatMap fun v => v.2.map fun k => (v.1, k)

/-- The keyword can be called by its full name. -/
def Callable (s : Store) (ok : Str × Keyword) : Prop := s.runner (ok.1 ++ py"." ++ ok.2.name) = ok.2.ident

instance (s : Store) (ok : Str × Keyword) : Decidable (Callable s ok) := by unfold Callable; infer_instance

/-- The full names of the hook keywords for some events, in order; a keyword counts once for every tag that asks for an event. -/
def hooksFor (s : Store) (events : List Str) : List Str :=
  ((allKeywords s).filter fun ok => Callable s ok).flatMap fun ok =>
    List.replicate (ok.2.tags.countP fun t => Asks events t) (ok.1 ++ py"." ++ ok.2.name)

/-- The full names of the hook keywords for some events, in order, each once. -/
def hooksOnce (s : Store) (events : List Str) : List Str :=
  ((allKeywords s).filter fun ok => Callable s ok ∧ ∃ t ∈ ok.2.tags, Asks events t).map fun ok => ok.1 ++ py"." ++ ok.2.name

/-- How `BuiltIn.Run Keywords` reads its arguments when `AND` occurs: calls separated by `AND`. -/
def calls : List Str → List (List Str)
  | [] => [[]]
  | a :: as =>
    if a = py"AND" then [] :: calls as
    else match calls as with
      | [] => [[a]]
      | c :: cs => (a :: c) :: cs

/-- Run keywords one after the other up to and including the first that fails with an exception: the names run and the final state. -/
def runUntil {σ : Type} (run : Str → σ → Outcome × σ) : List Str → σ → List Str × σ
  | [], w => ([], w)
  | n :: ns, w =>
    match run n w with
    | (.exception, w') => ([n], w')
    | (_, w') => (n :: (runUntil run ns w').1, (runUntil run ns w').2)

end Gherkin.Hooks
