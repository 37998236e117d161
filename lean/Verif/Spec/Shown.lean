import Verif.Spec.JsonText
import Verif.Events

/-! Specification: the JSON value that a reader of the output of `python -m gurke` finds for an event. -/

namespace Gherkin

open JsonText

namespace Shown

/-- A number, written as a string. -/
def number (n : Nat) : Value := .str (natStr n)

/-- An object without the members that are missing. -/
def object (l : List (Str × Option Value)) : Value := .obj (l.filterMap fun m => m.2.map (m.1, ·))

/-- Tag of a pickle. -/
def tag (t : PTag) : Value := .obj [(py"astNodeId", number t.astNodeId), (py"name", .str t.name)]

/-- Argument of a step. -/
def arg : PArg → Value
  | .table rows => .obj [(py"dataTable", .obj [(py"rows",
      .list (rows.map fun cells => .obj [(py"cells", .list (cells.map fun v => .obj [(py"value", .str v)]))]))])]
  | .doc content mt => .obj [(py"docString", object [(py"content", some (.str content)), (py"mediaType", mt.map .str)])]

/-- Step of a pickle. -/
def step (s : PStep) : Value :=
  object [(py"astNodeIds", some (.list (s.astNodeIds.map number))), (py"id", some (number s.id)),
    (py"type", some (match s.type with | some t => .str t.name | none => .null)), (py"text", some (.str s.text)), (py"argument", s.arg.map arg)]

/-- The members of a pickle; those of an outline's row come in another order. -/
def pickle (p : Pickle) : Value :=
  let ids := (py"astNodeIds", Value.list (p.astNodeIds.map number))
  let id := (py"id", number p.id)
  let tags := (py"tags", Value.list (p.tags.map tag))
  let name := (py"name", Value.str p.name)
  let language := (py"language", Value.str p.language)
  let steps := (py"steps", Value.list (p.steps.map step))
  let uri := (py"uri", Value.str p.uri)
  if p.astNodeIds.length = 1 then .obj [ids, id, tags, name, language, steps, uri] else .obj [ids, id, name, language, steps, tags, uri]

end Shown

/-- The value for an event; there is none for an event with a place in a text in it: a document with a feature or a comment, and a parse
error. -/
def Event.shown : Event → Option Value
  | .source s => some (.obj [(py"source", .obj [(py"uri", .str s.uri), (py"data", .str s.data), (py"mediaType", .str py"text/x.cucumber.gherkin+plain")])])
  | .pickle p => some (.obj [(py"pickle", Shown.pickle p)])
  | .document uri d =>
    if d.feature = none ∧ d.comments = [] then some (.obj [(py"gherkinDocument", .obj [(py"comments", .list []), (py"uri", .str uri)])]) else none
  | .parseError .. => none

end Gherkin
