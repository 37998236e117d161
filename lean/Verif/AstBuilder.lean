import Verif.Ast

/-! Model of packages/gurke/src/gurke/ast_builder.py `AstBuilder` and ast_node.py `AstNode`. -/

namespace Gherkin

/-- What an `AstNode` can hold (`AstNode.add`, packages/gurke/src/gurke/ast_node.py:14-15): tokens, nodes that
`transform_node` returned unchanged, and the values it made of the others. -/
inductive Item
  | tok (t : Token)
  | node (r : Rule) (items : List Item)
  | step (s : Step)
  | table (t : DataTable)
  | docString (d : DocString)
  | rows (rs : List Row)
  | background (b : Background)
  | scenario (s : Scenario)
  | examples (e : Examples)
  | description (s : Str)
  | rule (r : Option RuleNode)
  | feature (f : Option Feature)
  | document (d : Document)
  deriving Inhabited

/-- The keys of `AstNode._sub_items`: token types, rule names, and `None`. -/
inductive Key
  | t (k : Kind) | r (r : Rule) | none
  deriving DecidableEq, Repr, Inhabited

/-- The key under which an item is stored (packages/gurke/src/gurke/ast_builder.py:31,37). -/
def Item.key : Item → Key
  | .tok t => match t.type with | some k => .t k | none => .none
  | .node r _ => .r r
  | .step _ => .r .step
  | .table _ => .r .dataTable
  | .docString _ => .r .docString
  | .rows _ => .r .examplesTable
  | .background _ => .r .background
  | .scenario _ => .r .scenarioDefinition
  | .examples _ => .r .examplesDefinition
  | .description _ => .r .description
  | .rule _ => .r .rule
  | .feature _ => .r .feature
  | .document _ => .r .gherkinDocument

namespace AstNode

/-- packages/gurke/src/gurke/ast_node.py:20-21 `get_items`. -/
def getItems (items : List Item) (k : Key) : List Item := items.filter fun i => i.key = k

/-- packages/gurke/src/gurke/ast_node.py:17-18 `get_single` (`none` = the default value). -/
def getSingle (items : List Item) (k : Key) : Option Item := (getItems items k).head?

/-- packages/gurke/src/gurke/ast_node.py:26-27 `get_tokens`. -/
def getTokens (items : List Item) (k : Kind) : List Token :=
  (getItems items (.t k)).filterMap fun i => match i with | .tok t => some t | _ => none

/-- packages/gurke/src/gurke/ast_node.py:23-24 `get_token`. -/
def getToken (items : List Item) (k : Kind) : Option Token := (getTokens items k).head?

end AstNode

open AstNode

namespace AstB

/-- packages/gurke/src/gurke/ast_builder.py:46-47 `get_location` with a column. -/
def locAt (t : Token) (column : Nat) : Location :=
  if column = 0 then t.loc else ⟨t.loc.line, some column⟩

/-- packages/gurke/src/gurke/ast_builder.py:49-65 `get_tags`: one id per tag, in order. -/
def getTags (items : List Item) (n : Nat) : List Tag × Nat :=
  match getSingle items (.r .tags) with
  | some (.node _ sub) =>
    let pairs := (getTokens sub .tagLine).flatMap fun t => t.items.map fun i => (t, i)
    ((pairs.zipIdx n).map fun ((t, i), id) => { id := id, loc := locAt t i.column, name := i.text }, n + pairs.length)
  | _ => ([], n)

/-- packages/gurke/src/gurke/ast_builder.py:88-94 `get_cells`. -/
def getCells (t : Token) : List Cell := t.items.map fun i => { loc := locAt t i.column, value := i.text }

/-- packages/gurke/src/gurke/ast_builder.py:68-75: the rows, one id each, before `ensure_cell_count`. -/
def makeRows (tokens : List Token) (n : Nat) : List Row :=
  (tokens.zipIdx n).map fun (t, id) => { id := id, loc := t.loc, cells := getCells t }

/-- packages/gurke/src/gurke/ast_builder.py:79-86 `ensure_cell_count`: the first row whose cell count differs from the
first row's. -/
def raggedRow : List Row → Option Row
  | [] => none
  | r :: rs => (r :: rs).find? fun x => x.cells.length ≠ r.cells.length

/-- packages/gurke/src/gurke/ast_builder.py:67-77 `get_table_rows`. The ids are used up even if the table is rejected. -/
def getTableRows (items : List Item) (n : Nat) : Except MExc (List Row) × Nat :=
  let tokens := getTokens items .tableRow
  let rows := makeRows tokens n
  match raggedRow rows with
  | some r => (.error (.parser (Err.mkAst py"inconsistent cell count within the table" r.loc)), n + tokens.length)
  | none => (.ok rows, n + tokens.length)

/-- packages/gurke/src/gurke/ast_builder.py:96-97 `get_description`. -/
def getDescription (items : List Item) : Str :=
  match getSingle items (.r .description) with
  | some (.description s) => s
  | _ => []

/-- packages/gurke/src/gurke/ast_builder.py:99-100 `get_steps`. -/
def getSteps (items : List Item) : List Step :=
  (getItems items (.r .step)).filterMap fun i => match i with | .step s => some s | _ => none

/-- `node.get_items("ScenarioDefinition")`. -/
def getScenarios (items : List Item) : List Scenario :=
  (getItems items (.r .scenarioDefinition)).filterMap fun i => match i with | .scenario s => some s | _ => none

/-- `scenario_node.get_items("ExamplesDefinition")`. -/
def getExamples (items : List Item) : List Examples :=
  (getItems items (.r .examplesDefinition)).filterMap fun i => match i with | .examples e => some e | _ => none

/-- `node.get_single("Background")`. -/
def getBackground (items : List Item) : Option Background :=
  match getSingle items (.r .background) with | some (.background b) => some b | _ => none

/-- `node.get_items("Rule")`; `none` if one of them is `None`. -/
def getRules (items : List Item) : Option (List RuleNode) :=
  (getItems items (.r .rule)).mapM fun i => match i with | .rule (some r) => some r | _ => none

/-- The sub-items of `node.get_single(r)` for a rule whose node is kept untransformed. -/
def getNode (items : List Item) (r : Rule) : Option (List Item) :=
  match getSingle items (.r r) with | some (.node _ sub) => some sub | _ => none

/-- packages/gurke/src/gurke/ast_builder.py:186-188: the rows under the optional `ExamplesTable`; the header is the first of
them and the body the rest (`[]` and `None` if there is no table). -/
def getRows (items : List Item) : List Row :=
  match getSingle items (.r .examplesTable) with | some (.rows rs) => rs | _ => []

/-- packages/gurke/src/gurke/ast_builder.py:103-123: rule `Step`. -/
def mkStep (items : List Item) (n : Nat) : Except MExc Item × Nat :=
  match getToken items .stepLine with
  | none => (.error (.crash .attributeError), n + 1)
  | some l =>
    let arg : StepArg :=
      match getSingle items (.r .dataTable) with
      | some (.table t) => .table t
      | _ => match getSingle items (.r .docString) with
        | some (.docString d) => .doc d
        | _ => .none
    (.ok (.step { id := n, loc := l.loc, keyword := l.keyword, keywordType := l.keywordType, text := l.text, arg := arg }),
      n + 1)

/-- packages/gurke/src/gurke/ast_builder.py:124-137: rule `DocString`. -/
def mkDocString (items : List Item) (n : Nat) : Except MExc Item × Nat :=
  match getToken items .docStringSeparator with
  | none => (.error (.crash .indexError), n)
  | some sep =>
    match sep.text with
    | none => (.error (.crash .typeError), n)
    | some media =>
      match (getTokens items .other).mapM (·.text) with
      | none => (.error (.crash .typeError), n)
      | some texts =>
        (.ok (.docString { loc := sep.loc, content := joinStr ['\n'] texts, delimiter := sep.keyword,
                           mediaType := if media.isEmpty then none else some media }), n)

/-- packages/gurke/src/gurke/ast_builder.py:138-145: rule `DataTable`. -/
def mkDataTable (items : List Item) (n : Nat) : Except MExc Item × Nat :=
  match getTableRows items n with
  | (.error e, n') => (.error e, n')
  | (.ok [], n') => (.error (.crash .indexError), n')
  | (.ok (r :: rs), n') => (.ok (.table { loc := r.loc, rows := r :: rs }), n')

/-- packages/gurke/src/gurke/ast_builder.py:146-160: rule `Background`. -/
def mkBackground (items : List Item) (n : Nat) : Except MExc Item × Nat :=
  match getToken items .backgroundLine with
  | none => (.error (.crash .attributeError), n + 1)
  | some l =>
    (.ok (.background { id := n, loc := l.loc, keyword := l.keyword, name := l.text, description := getDescription items,
                        steps := getSteps items }), n + 1)

/-- packages/gurke/src/gurke/ast_builder.py:161-180: rule `ScenarioDefinition`. -/
def mkScenario (items : List Item) (n : Nat) : Except MExc Item × Nat :=
  let (tags, n1) := getTags items n
  match getNode items .scenario with
  | none => (.error (.crash .attributeError), n1)
  | some sub =>
    match getToken sub .scenarioLine with
    | none => (.error (.crash .attributeError), n1 + 1)
    | some l =>
      (.ok (.scenario { id := n1, tags := tags, loc := l.loc, keyword := l.keyword, name := l.text,
                        description := getDescription sub, steps := getSteps sub, examples := getExamples sub }), n1 + 1)

/-- packages/gurke/src/gurke/ast_builder.py:181-201: rule `ExamplesDefinition`. -/
def mkExamples (items : List Item) (n : Nat) : Except MExc Item × Nat :=
  let (tags, n1) := getTags items n
  match getNode items .examples with
  | none => (.error (.crash .attributeError), n1)
  | some sub =>
    match getToken sub .examplesLine with
    | none => (.error (.crash .attributeError), n1 + 1)
    | some l =>
      (.ok (.examples { id := n1, tags := tags, loc := l.loc, keyword := l.keyword, name := l.text,
                        description := getDescription sub, header := (getRows sub).head?, body := (getRows sub).tail }), n1 + 1)

/-- packages/gurke/src/gurke/ast_builder.py:202-203: rule `ExamplesTable`. -/
def mkExamplesTable (items : List Item) (n : Nat) : Except MExc Item × Nat :=
  match getTableRows items n with
  | (.error e, n') => (.error e, n')
  | (.ok rows, n') => (.ok (.rows rows), n')

/-- packages/gurke/src/gurke/ast_builder.py:207: the tokens up to the last one with a non-empty text. -/
def trimTexts (texts : List (Option Str)) : List (Option Str) :=
  (texts.reverse.dropWhile fun t => t = none || t = some []).reverse

/-- packages/gurke/src/gurke/ast_builder.py:204-208: rule `Description`. `next` on an exhausted generator raises
`StopIteration`. -/
def mkDescription (items : List Item) (n : Nat) : Except MExc Item × Nat :=
  match trimTexts ((getTokens items .other).map (·.text)) with
  | [] => (.error (.crash .stopIteration), n)
  | ts =>
    match ts.mapM id with
    | none => (.error (.crash .typeError), n)
    | some texts => (.ok (.description (joinStr ['\n'] texts)), n)

/-- packages/gurke/src/gurke/ast_builder.py:210-237: rule `Rule`. -/
def mkRule (items : List Item) (n : Nat) : Except MExc Item × Nat :=
  match getNode items .ruleHeader with
  | none => (.ok (.rule none), n)
  | some header =>
    let (tags, n1) := getTags header n
    match getToken header .ruleLine with
    | none => (.ok (.rule none), n1)
    | some l =>
      (.ok (.rule (some {
        id := n1, tags := tags, loc := l.loc, keyword := l.keyword, name := l.text, description := getDescription header,
        children := (getBackground items).toList.map .background ++ (getScenarios items).map .scenario })), n1 + 1)

/-- packages/gurke/src/gurke/ast_builder.py:238-267: rule `Feature`. A rule without header line would become the child
`{"rule": None}`, which `Feature` cannot express; the model reports it as a crash (never reached, see C04). -/
def mkFeature (items : List Item) (n : Nat) : Except MExc Item × Nat :=
  match getNode items .featureHeader with
  | none => (.ok (.feature none), n)
  | some header =>
    let (tags, n1) := getTags header n
    match getToken header .featureLine with
    | none => (.ok (.feature none), n1)
    | some l =>
      match getRules items with
      | none => (.error (.crash .typeError), n1)
      | some rules =>
        (.ok (.feature (some {
          tags := tags, loc := l.loc, language := l.dialect, keyword := l.keyword, name := l.text,
          description := getDescription header,
          children := (getBackground items).toList.map .background ++ (getScenarios items).map .scenario ++
            rules.map .rule })), n1)

/-- packages/gurke/src/gurke/ast_builder.py:268-271: rule `GherkinDocument`. -/
def mkDocument (items : List Item) (comments : List Comment) : Item :=
  .document {
    feature := match getSingle items (.r .feature) with | some (.feature f) => f | _ => none
    comments := comments }

/-- packages/gurke/src/gurke/ast_builder.py:102-273 `transform_node`. -/
def transform (r : Rule) (items : List Item) (comments : List Comment) (n : Nat) : Except MExc Item × Nat :=
  match r with
  | .step => mkStep items n
  | .docString => mkDocString items n
  | .dataTable => mkDataTable items n
  | .background => mkBackground items n
  | .scenarioDefinition => mkScenario items n
  | .examplesDefinition => mkExamples items n
  | .examplesTable => mkExamplesTable items n
  | .description => mkDescription items n
  | .rule => mkRule items n
  | .feature => mkFeature items n
  | .gherkinDocument => (.ok (mkDocument items comments), n)
  | .none | .featureHeader | .ruleHeader | .scenario | .examples | .tags => (.ok (.node r items), n)

end AstB

/-- packages/gurke/src/gurke/ast_builder.py:10-24 `AstBuilder`: `stack` (last element first), `comments` and the counter of
the id generator (packages/gurke/src/gurke/stream/id_generator.py). -/
structure BState where
  stack : List (Rule × List Item)
  comments : List Comment
  nextId : Nat
  deriving Inhabited

namespace AstB

/-- packages/gurke/src/gurke/ast_builder.py:21-24 `reset`: the id generator is not reset. -/
def reset (b : BState) : BState := { stack := [(.none, [])], comments := [], nextId := b.nextId }

/-- packages/gurke/src/gurke/ast_builder.py:26-27 `start_rule`. -/
def startRule (r : Rule) (b : BState) : Except MExc Unit × BState :=
  (.ok (), { b with stack := (r, []) :: b.stack })

/-- packages/gurke/src/gurke/ast_builder.py:29-31 `end_rule`: pops whatever node is on top (the argument is not used),
then fails with `IndexError` if no node is left to add to. -/
def endRule (_ : Rule) (b : BState) : Except MExc Unit × BState :=
  match b.stack with
  | [] => (.error (.crash .indexError), b)
  | [_] => (.error (.crash .indexError), { b with stack := [] })
  | (r, items) :: (pr, pitems) :: rest =>
    match transform r items b.comments b.nextId with
    | (.ok item, n) => (.ok (), { b with stack := (pr, pitems ++ [item]) :: rest, nextId := n })
    | (.error e, n) => (.error e, { b with stack := (pr, pitems) :: rest, nextId := n })

/-- packages/gurke/src/gurke/ast_builder.py:33-37 `build`. -/
def build (t : Token) (b : BState) : Except MExc Unit × BState :=
  if t.type = some .comment then
    (.ok (), { b with comments := b.comments ++ [{ loc := t.loc, text := t.text }] })
  else
    match b.stack with
    | [] => (.error (.crash .indexError), b)
    | (r, items) :: rest => (.ok (), { b with stack := (r, items ++ [.tok t]) :: rest })

/-- packages/gurke/src/gurke/ast_builder.py:39-44 `get_result`; `none` is Python's `None`. -/
def result (b : BState) : Except MExc (Option Document) :=
  match b.stack with
  | [] => .error (.crash .indexError)
  | (_, items) :: _ =>
    match getSingle items (.r .gherkinDocument) with
    | some (.document d) => .ok (some d)
    | _ => .ok none

end AstB

/-- The AST builder as the parser sees it. -/
def astBuilder : Builder BState (Option Document) :=
  { reset := AstB.reset, start := AstB.startRule, stop := AstB.endRule, build := AstB.build, result := AstB.result }

end Gherkin
