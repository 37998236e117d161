import Verif.Py

/-! Model of src/GherkinParser/Library.py over an abstract keyword store. -/

namespace Gherkin.Hooks

/-- What is used of a Robot keyword object; `ident` is the object's identity (`is`). -/
structure Keyword where
  ident : Nat
  name : Str
  tags : List Str
  deriving DecidableEq, Repr, Inhabited

/-- What is used of `EXECUTION_CONTEXTS.current`: the resource files and libraries with their keywords, in the order of the keyword
store's dictionaries, and the keyword (by identity) that `get_runner` finds for a full name. Not modelled: `get_runner` raising. -/
structure Store where
  resources : List (Str × List Keyword)
  libraries : List (Str × List Keyword)
  runner : Str → Nat

/-- src/GherkinParser/Library.py:68 `prefix`. -/
def pre : Str := py"hook:"

/-- src/GherkinParser/Library.py:30-33, 56-59: `chain` of the keywords of the resources and of the libraries, with their owner's name. -/
def Store.keywords (s : Store) : List (Str × Keyword) :=
  (s.resources.flatMap fun v => v.2.map fun l => (v.1, l)) ++ (s.libraries.flatMap fun v => v.2.map fun l => (v.1, l))

/-- `name + "." + kw.name`. -/
def fullName (owner : Str) (k : Keyword) : Str := owner ++ '.' :: k.name

/-- src/GherkinParser/Library.py:34, 60 `hook_tags`. -/
def hookTags (k : Keyword) : List Str := k.tags.filter fun tag => startsWith tag pre

/-- src/GherkinParser/Library.py:36, 62: a hook tag names one of the events. -/
def isFor (events : List Str) (tag : Str) : Bool := events.contains (tag.drop pre.length)

/-- src/GherkinParser/Library.py:52-66 `yield_hooks`. -/
def yieldHooks (s : Store) (events : List Str) : List Str :=
  s.keywords.flatMap fun (owner, k) => (hookTags k).flatMap fun tag =>
    if isFor events tag then (if s.runner (fullName owner k) = k.ident then [fullName owner k] else []) else []

/-- A setup or teardown (`running.Keyword`); an empty name is a missing one. -/
structure Fixture where
  name : Str
  args : List Str
  lineno : Nat
  deriving DecidableEq, Repr, Inhabited

/-- What is used of a test suite or test case; for a suite `lineno` is not used. -/
structure Data where
  isTest : Bool
  lineno : Nat
  setup : Fixture
  teardown : Fixture
  deriving DecidableEq, Repr, Inhabited

/-- src/GherkinParser/Library.py:76-81, 100-105: names joined with `AND`. -/
def joinAnd : List Str → List Str → List Str
  | kws, [] => kws
  | kws, n :: ns => joinAnd (if kws.isEmpty then kws ++ [n] else kws ++ [py"AND", n]) ns

/-- src/GherkinParser/Library.py:70-120 `_create_setup_and_teardown`. Lines 108-113 configure `data.setup` where a teardown exists. -/
def createSetupAndTeardown (s : Store) (d : Data) (events : List Str) : Data :=
  let kws := joinAnd [] (yieldHooks s events)
  let lineno := if d.isTest then d.lineno else 1
  let run (f : Fixture) : Fixture :=
    if f.name ≠ [] then { name := py"BuiltIn.Run Keywords", args := kws ++ [py"AND", f.name] ++ f.args, lineno := lineno }
    else { name := py"BuiltIn.Run Keywords", args := kws, lineno := lineno }
  let d := if kws ≠ [] then { d with setup := run d.setup } else d
  let kws := joinAnd [] (yieldHooks s events)
  if kws ≠ [] then
    if d.teardown.name ≠ [] then { d with setup := run d.teardown }
    else { d with teardown := run d.teardown }
  else d

/-- src/GherkinParser/Library.py:122-123 `start_suite`. -/
def startSuite (s : Store) (d : Data) : Data := createSetupAndTeardown s d [py"before-suite", py"before-feature"]

/-- src/GherkinParser/Library.py:125-126 `start_test`. -/
def startTest (s : Store) (d : Data) : Data := createSetupAndTeardown s d [py"before-test", py"before-test"]

/-- How `BuiltIn().run_keyword` ends. -/
inductive Outcome
  | ok | exception | other   -- other: a `BaseException` that is no `Exception`
  deriving DecidableEq, Repr

/-- The state of `call_hooks`: the keywords run, the state of the world, `errored`, and the exception on its way to the caller. -/
structure CallState (σ : Type) where
  ran : List Str
  world : σ
  errored : Bool
  raised : Option Outcome

/-- What a statement leaves behind that is under way to the caller when a `finally` clause executes `break`: nothing. -/
def finallyBreak (_ : Option Outcome) : Option Outcome := none

/-- src/GherkinParser/Library.py:39-46: run one keyword. `raise e` (44) and exceptions not caught by `except` meet the `break` of the
`finally` clause. -/
def callOne {σ : Type} (run : Str → σ → Outcome × σ) (name : Str) (c : CallState σ) : CallState σ :=
  match run name c.world with
  | (.ok, w) => { ran := c.ran ++ [name], world := w, errored := c.errored, raised := finallyBreak none }
  | (.exception, w) => { ran := c.ran ++ [name], world := w, errored := true, raised := finallyBreak (some .exception) }
  | (.other, w) => { ran := c.ran ++ [name], world := w, errored := c.errored, raised := finallyBreak (some .other) }

/-- src/GherkinParser/Library.py:35-46: the loop over the hook tags of one keyword; it ends after the keyword has been run. -/
def callTags {σ : Type} (s : Store) (run : Str → σ → Outcome × σ) (events : List Str) (owner : Str) (k : Keyword) :
    List Str → CallState σ → CallState σ
  | [], c => c
  | tag :: tags, c =>
    if isFor events tag then
      if s.runner (fullName owner k) = k.ident then callOne run (fullName owner k) c
      else callTags s run events owner k tags c
    else callTags s run events owner k tags c

/-- src/GherkinParser/Library.py:30-48: the loop over the keywords. -/
def callKeywords {σ : Type} (s : Store) (run : Str → σ → Outcome × σ) (events : List Str) : List (Str × Keyword) → CallState σ → CallState σ
  | [], c => c
  | (owner, k) :: ks, c =>
    let c := callTags s run events owner k (hookTags k) c
    if c.raised.isSome then c
    else if c.errored then c
    else callKeywords s run events ks c

/-- src/GherkinParser/Library.py:20-50 `call_hooks`: the keywords run, the state of the world, and the exception that leaves the call.
`_in_call_hooks` is never true. -/
def callHooks {σ : Type} (s : Store) (run : Str → σ → Outcome × σ) (events : List Str) (world : σ) : List Str × σ × Option Outcome :=
  let c := callKeywords s run events s.keywords { ran := [], world := world, errored := false, raised := none }
  (c.ran, c.world, c.raised)

end Gherkin.Hooks
