import Verif.Ast
import Verif.Regex

/-! Model of packages/gurke/src/gurke/pickles/compiler.py. -/

namespace Gherkin

/-- packages/gurke/src/gurke/pickles/compiler.py:167-168 `_pickle_tag`. -/
structure PTag where
  astNodeId : Nat
  name : Str
  deriving DecidableEq, Repr, Inhabited

/-- packages/gurke/src/gurke/pickles/compiler.py:124-139: the argument of a pickle step. -/
inductive PArg
  | table (rows : List (List Str)) | doc (content : Str) (mediaType : Option Str)
  deriving DecidableEq, Repr, Inhabited

/-- packages/gurke/src/gurke/pickles/compiler.py:102-109, 152-162. `type = none` is Python's `None`, `arg = none` a missing key. -/
structure PStep where
  astNodeIds : List Nat
  id : Nat
  type : Option KType
  text : Str
  arg : Option PArg
  deriving DecidableEq, Repr, Inhabited

/-- packages/gurke/src/gurke/pickles/compiler.py:66-74, 113-121. -/
structure Pickle where
  astNodeIds : List Nat
  id : Nat
  tags : List PTag
  name : Str
  language : Str
  steps : List PStep
  uri : Str
  deriving DecidableEq, Repr, Inhabited

/-- The part of Python's `re` that is not modelled: `re.sub(pattern, template, s)` for the patterns that `Regex.read` refuses. The
compiler model takes it as a parameter and every theorem holds for all of them. -/
abbrev Engine := (pattern template s : Str) → Except Crash Str

namespace Pickles

/-- The compiler's methods: the id counter is threaded through; a Python exception ends the compilation. -/
abbrev M (α : Type) := Nat → Except Crash (α × Nat)

def pure {α : Type} (a : α) : M α := fun n => .ok (a, n)
def bind {α β : Type} (x : M α) (f : α → M β) : M β := fun n =>
  match x n with
  | .ok (a, n') => f a n'
  | .error e => .error e

instance : Monad M where
  pure := pure
  bind := bind

/-- packages/gurke/src/gurke/stream/id_generator.py:5-8 `get_next_id`. -/
def nextId : M Nat := fun n => .ok (n, n + 1)

/-- `d["key"]` for a key that `reject_nones` may have dropped. -/
def key {α : Type} (o : Option α) : M α := fun n =>
  match o with
  | some a => .ok (a, n)
  | none => .error .keyError

def lift {α : Type} (x : Except Crash α) : M α := fun n =>
  match x with
  | .ok a => .ok (a, n)
  | .error e => .error e

/-- A loop that appends one result per element. -/
def each {α β : Type} (f : α → M β) : List α → M (List β)
  | [] => pure []
  | a :: as => bind (f a) fun b => bind (each f as) fun bs => pure (b :: bs)

/-- The characters with a special meaning in a pattern of Python's `re`. -/
def isMeta (c : Char) : Bool := c ∈ py".^$*+?{}[]\\|()"

/-- packages/gurke/src/gurke/pickles/compiler.py:148 `re.sub(r"\\", r"\\\\", value)`: every backslash is doubled. -/
def reescape (v : Str) : Str := v.flatMap fun c => if c = '\\' then ['\\', '\\'] else [c]

/-- How `re.sub` reads its replacement template: `\\` is a backslash. Other escapes (groups, `\n`, ...) are not modelled (`none`);
by `template_reescape` the compiler never passes one. -/
def template : Str → Option Str
  | [] => some []
  | '\\' :: '\\' :: s => (template s).map ('\\' :: ·)
  | '\\' :: _ => none
  | c :: s => (template s).map (c :: ·)

/-- packages/gurke/src/gurke/pickles/compiler.py:149 `re.sub("<{0[value]}>".format(variable_cell), template, s)`: the header is part of
a pattern. `eng` stands for `re.sub` on patterns that `Regex.read` does not read (wrong ones and those with features that are not
modelled). -/
def reSub (eng : Engine) (header tmpl s : Str) : Except Crash Str :=
  let pattern := '<' :: (header ++ ['>'])
  match Regex.read pattern, template tmpl with
  | some r, some v => .ok (r.sub (fun _ => v) s)
  | _, _ => eng pattern tmpl s

/-- packages/gurke/src/gurke/pickles/compiler.py:141-150 `_interpolate` for a text that is not `None`; `i` is the loop's `n`. -/
def interpolateFrom (eng : Engine) (values : List Cell) : Nat → List Cell → Str → Except Crash Str
  | _, [], s => .ok s
  | i, h :: hs, s =>
    match values[i]? with
    | none => .error .indexError
    | some v =>
      match reSub eng h.value (reescape v.value) s with
      | .ok s' => interpolateFrom eng values (i + 1) hs s'
      | .error e => .error e

/-- packages/gurke/src/gurke/pickles/compiler.py:141-150 `_interpolate`. -/
def interpolate (eng : Engine) (headers values : List Cell) (s : Str) : Except Crash Str := interpolateFrom eng values 0 headers s

/-- packages/gurke/src/gurke/pickles/compiler.py:124-139 `_create_pickle_arguments`. -/
def pickleArg (eng : Engine) (arg : StepArg) (headers values : List Cell) : M (Option PArg) :=
  match arg with
  | .none => pure none
  | .table t => do
    let rows ← each (fun (r : Row) => each (fun (c : Cell) => lift (interpolate eng headers values c.value)) r.cells) t.rows
    return some (.table rows)
  | .doc d => do
    let content ← lift (interpolate eng headers values d.content)
    match d.mediaType with
    | none => return some (.doc content none)
    | some mt =>
      let mt ← lift (interpolate eng headers values mt)
      return some (.doc content (some mt))

/-- packages/gurke/src/gurke/pickles/compiler.py:152-162 `_pickle_step`. -/
def pickleStep (eng : Engine) (s : Step) (type : Option KType) : M PStep := do
  let id ← nextId
  let text ← key s.text
  let arg ← pickleArg eng s.arg [] []
  return { astNodeIds := [s.id], id := id, type := type, text := text, arg := arg }

/-- packages/gurke/src/gurke/pickles/compiler.py:94-111: a step of an outline for one row. -/
def outlineStep (eng : Engine) (headers : List Cell) (row : Row) (s : Step) (type : Option KType) : M PStep := do
  let t ← key s.text
  let text ← lift (interpolate eng headers row.cells t)
  let arg ← pickleArg eng s.arg headers row.cells
  let id ← nextId
  return { astNodeIds := [s.id, row.id], id := id, type := type, text := text, arg := arg }

/-- The variable `last_keyword_type` (packages/gurke/src/gurke/pickles/compiler.py:59, 63, 84, 88-90, 95-99). -/
def nextType (last : Option KType) (t : KType) : Option KType := if t = .conjunction then last else some t

/-- The loops over steps (packages/gurke/src/gurke/pickles/compiler.py:62-64, 87-91, 94-111). -/
def stepLoop (f : Step → Option KType → M PStep) : Option KType → List Step → M (List PStep × Option KType)
  | last, [] => pure ([], last)
  | last, s :: ss => do
    let kt ← key s.keywordType
    let p ← f s (nextType last kt)
    let (ps, last') ← stepLoop f (nextType last kt) ss
    return (p :: ps, last')

/-- packages/gurke/src/gurke/pickles/compiler.py:164-168 `_pickle_tags`. -/
def pickleTags (ts : List Tag) : List PTag := ts.map fun t => { astNodeId := t.id, name := t.name }

/-- packages/gurke/src/gurke/pickles/compiler.py:59-64: the steps of a scenario's pickle. -/
def scenarioSteps (eng : Engine) (bg : List Step) (s : Scenario) : M (List PStep) :=
  if s.steps.isEmpty then pure []
  else do
    let r ← stepLoop (pickleStep eng) (some .unknown) (bg ++ s.steps)
    return r.1

/-- packages/gurke/src/gurke/pickles/compiler.py:84-111: the steps of an outline row's pickle. -/
def rowSteps (eng : Engine) (bg : List Step) (s : Scenario) (header row : Row) : M (List PStep) :=
  if s.steps.isEmpty then pure []
  else do
    let r ← stepLoop (pickleStep eng) none bg
    let q ← stepLoop (outlineStep eng header.cells row) r.2 s.steps
    return r.1 ++ q.1

/-- packages/gurke/src/gurke/pickles/compiler.py:57-75 `_compile_scenario`. -/
def compileScenario (eng : Engine) (uri : Str) (tags : List Tag) (bg : List Step) (s : Scenario) (language : Str) : M (List Pickle) := do
  let steps ← scenarioSteps eng bg s
  let id ← nextId
  let name ← key s.name
  return [{ astNodeIds := [s.id], id := id, tags := pickleTags (tags ++ s.tags), name := name, language := language, steps := steps,
            uri := uri }]

/-- packages/gurke/src/gurke/pickles/compiler.py:81-122: the pickle of one row of an examples block. -/
def compileRow (eng : Engine) (uri : Str) (tags : List Tag) (bg : List Step) (s : Scenario) (language : Str) (e : Examples) (header row : Row) :
    M Pickle := do
  let steps ← rowSteps eng bg s header row
  let id ← nextId
  let n ← key s.name
  let name ← lift (interpolate eng header.cells row.cells n)
  return { astNodeIds := [s.id, row.id], id := id, tags := pickleTags (tags ++ s.tags ++ e.tags), name := name, language := language,
           steps := steps, uri := uri }

/-- packages/gurke/src/gurke/pickles/compiler.py:77-122 `_compile_scenario_outline`. -/
def compileOutline (eng : Engine) (uri : Str) (tags : List Tag) (bg : List Step) (s : Scenario) (language : Str) : M (List Pickle) := do
  let pss ← each (fun (e : Examples) =>
    match e.header with
    | none => pure []
    | some header => each (fun row => compileRow eng uri tags bg s language e header row) e.body) s.examples
  return pss.flatten

/-- packages/gurke/src/gurke/pickles/compiler.py:32-37, 49-54. -/
def compileAny (eng : Engine) (uri : Str) (tags : List Tag) (bg : List Step) (s : Scenario) (language : Str) : M (List Pickle) :=
  if s.examples.isEmpty then compileScenario eng uri tags bg s language else compileOutline eng uri tags bg s language

/-- packages/gurke/src/gurke/pickles/compiler.py:44-54: the loop over the children of a rule; `bg` is `background_steps`. -/
def compileRuleChildren (eng : Engine) (uri : Str) (tags : List Tag) (language : Str) : List Step → List RuleChild → M (List Pickle)
  | _, [] => pure []
  | bg, .background b :: cs => compileRuleChildren eng uri tags language (bg ++ b.steps) cs
  | bg, .scenario s :: cs => do
    let ps ← compileAny eng uri tags bg s language
    let qs ← compileRuleChildren eng uri tags language bg cs
    return ps ++ qs

/-- packages/gurke/src/gurke/pickles/compiler.py:40-55 `_compile_rule`. -/
def compileRule (eng : Engine) (uri : Str) (tags : List Tag) (bg : List Step) (r : RuleNode) (language : Str) : M (List Pickle) :=
  compileRuleChildren eng uri (tags ++ r.tags) language bg r.children

/-- packages/gurke/src/gurke/pickles/compiler.py:24-37: the loop over the children of the feature. -/
def compileChildren (eng : Engine) (uri : Str) (tags : List Tag) (language : Str) : List Step → List FeatureChild → M (List Pickle)
  | _, [] => pure []
  | bg, .background b :: cs => compileChildren eng uri tags language (bg ++ b.steps) cs
  | bg, .rule r :: cs => do
    let ps ← compileRule eng uri tags bg r language
    let qs ← compileChildren eng uri tags language bg cs
    return ps ++ qs
  | bg, .scenario s :: cs => do
    let ps ← compileAny eng uri tags bg s language
    let qs ← compileChildren eng uri tags language bg cs
    return ps ++ qs

/-- packages/gurke/src/gurke/pickles/compiler.py:12-38 `compile` for a document with key `uri`. -/
def compile (eng : Engine) (uri : Str) (d : Document) : M (List Pickle) :=
  match d.feature with
  | none => pure []
  | some f =>
    if f.children.isEmpty then pure []
    else do
      let language ← key f.language
      compileChildren eng uri f.tags language [] f.children

end Pickles

end Gherkin
