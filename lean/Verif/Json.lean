import Verif.Ast
import Verif.TokenFormatter

/-! The dictionaries of a parsed document as such (packages/gurke/src/gurke/ast_builder.py), and `find_ast_node_id` of
src/GherkinParser/gherkin_builder.py. -/

namespace Gherkin

/-- The Python values in a document: `str`, ids (strings of decimal digits), `Location` objects, `None`, lists and dictionaries (in
insertion order). -/
inductive J
  | str (s : Str) | id (n : Nat) | loc (l : Location) | null | list (l : List J) | dict (l : List (Str × J))

namespace J

/-- `d.get(key)`: `none` also stands for a value that is no dictionary. -/
def get? (key : Str) : J → Option J
  | .dict l => l.lookup key
  | _ => none

/-- packages/gurke/src/gurke/ast_builder.py:275-276 `reject_nones`. -/
def rejectNones : List (Str × Option J) → J := fun l => .dict (l.filterMap fun (k, v) => v.map (k, ·))

/-- src/GherkinParser/gherkin_builder.py:56: `isinstance(node, dict) and "id" in node and node["id"] == id`. -/
def hasId (id : Nat) (j : J) : Bool := match j.get? py"id" with | some (.id n) => n == id | _ => false

mutual
/-- src/GherkinParser/gherkin_builder.py:53-71 `find_ast_node_id(node, id, parent)`; `None, None` is `none`. -/
def find (id : Nat) (parent : Option J) : J → Option (J × Option J)
  | .dict l => if hasId id (.dict l) then some (.dict l, parent) else findValues id (some (.dict l)) l
  | .list l => findItems id parent l
  | _ => none
/-- src/GherkinParser/gherkin_builder.py:66-69. -/
def findItems (id : Nat) (parent : Option J) : List J → Option (J × Option J)
  | [] => none
  | v :: vs => match find id parent v with
    | some r => some r
    | .none => findItems id parent vs
/-- src/GherkinParser/gherkin_builder.py:60-63. -/
def findValues (id : Nat) (parent : Option J) : List (Str × J) → Option (J × Option J)
  | [] => none
  | v :: vs => match findPair id parent v with
    | some r => some r
    | .none => findValues id parent vs
/-- src/GherkinParser/gherkin_builder.py:61: the search in one value. -/
def findPair (id : Nat) (parent : Option J) : Str × J → Option (J × Option J)
  | (_, v) => find id parent v
end

end J

/-- packages/gurke/src/gurke/ast_builder.py:56-60. -/
def Tag.toJson (t : Tag) : J := .dict [(py"id", .id t.id), (py"location", .loc t.loc), (py"name", .str t.name)]

/-- packages/gurke/src/gurke/ast_builder.py:90-92. -/
def Cell.toJson (c : Cell) : J := .rejectNones [(py"location", some (.loc c.loc)), (py"value", some (.str c.value))]

/-- packages/gurke/src/gurke/ast_builder.py:69-73. -/
def Row.toJson (r : Row) : J := .dict [(py"id", .id r.id), (py"location", .loc r.loc), (py"cells", .list (r.cells.map Cell.toJson))]

/-- packages/gurke/src/gurke/ast_builder.py:140-145. -/
def DataTable.toJson (t : DataTable) : J :=
  .rejectNones [(py"location", some (.loc t.loc)), (py"rows", some (.list (t.rows.map Row.toJson)))]

/-- packages/gurke/src/gurke/ast_builder.py:130-137. -/
def DocString.toJson (d : DocString) : J :=
  .rejectNones [(py"location", some (.loc d.loc)), (py"content", some (.str d.content)), (py"delimiter", d.delimiter.map .str),
    (py"mediaType", d.mediaType.map .str)]

/-- packages/gurke/src/gurke/ast_builder.py:105-112: key and value of the step argument. -/
def StepArg.pair : StepArg → Str × Option J
  | .none => (py"dummy_type", Option.none)
  | .table t => (py"dataTable", some t.toJson)
  | .doc d => (py"docString", some d.toJson)

/-- packages/gurke/src/gurke/ast_builder.py:114-123. -/
def Step.toJson (s : Step) : J :=
  .rejectNones [(py"id", some (.id s.id)), (py"location", some (.loc s.loc)), (py"keyword", s.keyword.map .str),
    (py"keywordType", s.keywordType.map fun t => .str t.name), (py"text", s.text.map .str), s.arg.pair]

/-- packages/gurke/src/gurke/ast_builder.py:151-160. -/
def Background.toJson (b : Background) : J :=
  .rejectNones [(py"id", some (.id b.id)), (py"location", some (.loc b.loc)), (py"keyword", b.keyword.map .str),
    (py"name", b.name.map .str), (py"description", some (.str b.description)), (py"steps", some (.list (b.steps.map Step.toJson)))]

/-- packages/gurke/src/gurke/ast_builder.py:190-201. -/
def Examples.toJson (e : Examples) : J :=
  .rejectNones [(py"id", some (.id e.id)), (py"tags", some (.list (e.tags.map Tag.toJson))), (py"location", some (.loc e.loc)),
    (py"keyword", e.keyword.map .str), (py"name", e.name.map .str), (py"description", some (.str e.description)),
    (py"tableHeader", e.header.map Row.toJson), (py"tableBody", some (.list (e.body.map Row.toJson)))]

/-- packages/gurke/src/gurke/ast_builder.py:169-180. -/
def Scenario.toJson (s : Scenario) : J :=
  .rejectNones [(py"id", some (.id s.id)), (py"tags", some (.list (s.tags.map Tag.toJson))), (py"location", some (.loc s.loc)),
    (py"keyword", s.keyword.map .str), (py"name", s.name.map .str), (py"description", some (.str s.description)),
    (py"steps", some (.list (s.steps.map Step.toJson))), (py"examples", some (.list (s.examples.map Examples.toJson)))]

/-- packages/gurke/src/gurke/ast_builder.py:220-224. -/
def RuleChild.toJson : RuleChild → J
  | .background b => .dict [(py"background", b.toJson)]
  | .scenario s => .dict [(py"scenario", s.toJson)]

/-- packages/gurke/src/gurke/ast_builder.py:227-237. -/
def RuleNode.toJson (r : RuleNode) : J :=
  .rejectNones [(py"id", some (.id r.id)), (py"tags", some (.list (r.tags.map Tag.toJson))), (py"location", some (.loc r.loc)),
    (py"keyword", r.keyword.map .str), (py"name", r.name.map .str), (py"description", some (.str r.description)),
    (py"children", some (.list (r.children.map RuleChild.toJson)))]

/-- packages/gurke/src/gurke/ast_builder.py:248-253. -/
def FeatureChild.toJson : FeatureChild → J
  | .background b => .dict [(py"background", b.toJson)]
  | .scenario s => .dict [(py"scenario", s.toJson)]
  | .rule r => .dict [(py"rule", r.toJson)]

/-- packages/gurke/src/gurke/ast_builder.py:257-267. -/
def Feature.toJson (f : Feature) : J :=
  .rejectNones [(py"tags", some (.list (f.tags.map Tag.toJson))), (py"location", some (.loc f.loc)), (py"language", f.language.map .str),
    (py"keyword", f.keyword.map .str), (py"name", f.name.map .str), (py"description", some (.str f.description)),
    (py"children", some (.list (f.children.map FeatureChild.toJson)))]

/-- packages/gurke/src/gurke/ast_builder.py:35. -/
def Comment.toJson (c : Comment) : J := .dict [(py"location", .loc c.loc), (py"text", (c.text.map .str).getD .null)]

/-- packages/gurke/src/gurke/ast_builder.py:268-271. -/
def Document.fields (d : Document) : List (Str × Option J) :=
  [(py"feature", d.feature.map Feature.toJson), (py"comments", some (.list (d.comments.map Comment.toJson)))]

/-- The document that the parser returns. -/
def Document.toJson (d : Document) : J := .rejectNones d.fields

/-- src/GherkinParser/gherkin_builder.py:89: the same with the key `uri` added. -/
def Document.withUri (d : Document) (uri : Str) : J := .rejectNones (d.fields ++ [(py"uri", some (.str uri))])

end Gherkin
