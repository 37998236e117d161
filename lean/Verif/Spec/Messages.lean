import Verif.Json
import Verif.Main

/-! Specification: Cucumber messages (https://github.com/cucumber/messages, `GherkinDocument`, `Pickle`, `Source`, `ParseError`; not part of /repo), as a reader of
dictionaries. Every message has the fields that are listed and no others; their order does not matter. What Cucumber requires but the parser can leave out is optional here. -/

namespace Gherkin.Message

/-- The fields of a dictionary whose keys are all different and all listed. -/
def fields (names : List Str) : J → Option (Str → Option J)
  | .dict l => if (l.map (·.1)).all (names.contains ·) && decide (l.map (·.1)).Nodup then some fun k => l.lookup k else none
  | _ => none

def string : J → Option Str
  | .str s => some s
  | _ => none
def ident : J → Option Nat
  | .id n => some n
  | _ => none
def location : J → Option Location
  | .loc l => some l
  | _ => none
/-- A list of messages. -/
def items {α : Type} (read : J → Option α) : List J → Option (List α)
  | [] => some []
  | j :: js => (read j).bind fun a => (items read js).bind fun as => some (a :: as)
def list {α : Type} (read : J → Option α) : J → Option (List α)
  | .list l => items read l
  | _ => none

/-- A field that must be there. -/
def need {α : Type} (read : J → Option α) (field : Option J) : Option α := field.bind read
/-- A field that may be missing. -/
def may {α : Type} (read : J → Option α) : Option J → Option (Option α)
  | none => some none
  | some j => (read j).map some
/-- A field that may be `null`. -/
def orNull {α : Type} (read : J → Option α) : J → Option (Option α)
  | .null => some none
  | j => (read j).map some

def keywordType : J → Option KType
  | .str s => [(py"Context", KType.context), (py"Action", .action), (py"Outcome", .outcome), (py"Conjunction", .conjunction), (py"Unknown", .unknown)].lookup s
  | _ => none

/-! ### GherkinDocument -/

def tag (j : J) : Option Tag :=
  (fields [py"location", py"name", py"id"] j).bind fun g =>
  (need ident (g py"id")).bind fun id => (need location (g py"location")).bind fun loc => (need string (g py"name")).bind fun name => some { id, loc, name }

def cell (j : J) : Option Cell :=
  (fields [py"location", py"value"] j).bind fun g =>
  (need location (g py"location")).bind fun loc => (need string (g py"value")).bind fun value => some { loc, value }

def row (j : J) : Option Row :=
  (fields [py"location", py"cells", py"id"] j).bind fun g =>
  (need ident (g py"id")).bind fun id => (need location (g py"location")).bind fun loc => (need (list cell) (g py"cells")).bind fun cells => some { id, loc, cells }

def dataTable (j : J) : Option DataTable :=
  (fields [py"location", py"rows"] j).bind fun g =>
  (need location (g py"location")).bind fun loc => (need (list row) (g py"rows")).bind fun rows => some { loc, rows }

def docString (j : J) : Option DocString :=
  (fields [py"location", py"mediaType", py"content", py"delimiter"] j).bind fun g =>
  (need location (g py"location")).bind fun loc => (need string (g py"content")).bind fun content => (may string (g py"delimiter")).bind fun delimiter =>
  (may string (g py"mediaType")).bind fun mediaType => some { loc, content, delimiter, mediaType }

/-- A step has at most one of `docString` and `dataTable`. -/
def stepArg : Option J → Option J → Option StepArg
  | none, none => some .none
  | some j, none => (docString j).map .doc
  | none, some j => (dataTable j).map .table
  | some _, some _ => none

def step (j : J) : Option Step :=
  (fields [py"location", py"keyword", py"keywordType", py"text", py"docString", py"dataTable", py"id"] j).bind fun g =>
  (need ident (g py"id")).bind fun id => (need location (g py"location")).bind fun loc => (may string (g py"keyword")).bind fun keyword =>
  (may Message.keywordType (g py"keywordType")).bind fun keywordType => (may string (g py"text")).bind fun text =>
  (stepArg (g py"docString") (g py"dataTable")).bind fun arg => some { id, loc, keyword, keywordType, text, arg }

def background (j : J) : Option Background :=
  (fields [py"location", py"keyword", py"name", py"description", py"steps", py"id"] j).bind fun g =>
  (need ident (g py"id")).bind fun id => (need location (g py"location")).bind fun loc => (may string (g py"keyword")).bind fun keyword =>
  (may string (g py"name")).bind fun name => (need string (g py"description")).bind fun description => (need (list step) (g py"steps")).bind fun steps =>
  some { id, loc, keyword, name, description, steps }

def examples (j : J) : Option Examples :=
  (fields [py"location", py"tags", py"keyword", py"name", py"description", py"tableHeader", py"tableBody", py"id"] j).bind fun g =>
  (need ident (g py"id")).bind fun id => (need (list tag) (g py"tags")).bind fun tags => (need location (g py"location")).bind fun loc =>
  (may string (g py"keyword")).bind fun keyword => (may string (g py"name")).bind fun name => (need string (g py"description")).bind fun description =>
  (may row (g py"tableHeader")).bind fun header => (need (list row) (g py"tableBody")).bind fun body => some { id, tags, loc, keyword, name, description, header, body }

def scenario (j : J) : Option Scenario :=
  (fields [py"location", py"tags", py"keyword", py"name", py"description", py"steps", py"examples", py"id"] j).bind fun g =>
  (need ident (g py"id")).bind fun id => (need (list tag) (g py"tags")).bind fun tags => (need location (g py"location")).bind fun loc =>
  (may string (g py"keyword")).bind fun keyword => (may string (g py"name")).bind fun name => (need string (g py"description")).bind fun description =>
  (need (list step) (g py"steps")).bind fun steps => (need (list Message.examples) (g py"examples")).bind fun examples =>
  some { id, tags, loc, keyword, name, description, steps, examples }

/-- Either a background or a scenario. -/
def ruleChild (j : J) : Option RuleChild :=
  (fields [py"background", py"scenario"] j).bind fun g =>
  match g py"background", g py"scenario" with
  | some b, none => (background b).map .background
  | none, some s => (scenario s).map .scenario
  | _, _ => none

def rule (j : J) : Option RuleNode :=
  (fields [py"location", py"tags", py"keyword", py"name", py"description", py"children", py"id"] j).bind fun g =>
  (need ident (g py"id")).bind fun id => (need (list tag) (g py"tags")).bind fun tags => (need location (g py"location")).bind fun loc =>
  (may string (g py"keyword")).bind fun keyword => (may string (g py"name")).bind fun name => (need string (g py"description")).bind fun description =>
  (need (list ruleChild) (g py"children")).bind fun children => some { id, tags, loc, keyword, name, description, children }

/-- Either a background, a scenario or a rule. -/
def featureChild (j : J) : Option FeatureChild :=
  (fields [py"rule", py"background", py"scenario"] j).bind fun g =>
  match g py"background", g py"scenario", g py"rule" with
  | some b, none, none => (background b).map .background
  | none, some s, none => (scenario s).map .scenario
  | none, none, some r => (rule r).map .rule
  | _, _, _ => none

def feature (j : J) : Option Feature :=
  (fields [py"location", py"tags", py"language", py"keyword", py"name", py"description", py"children"] j).bind fun g =>
  (need (list tag) (g py"tags")).bind fun tags => (need location (g py"location")).bind fun loc => (may string (g py"language")).bind fun language =>
  (may string (g py"keyword")).bind fun keyword => (may string (g py"name")).bind fun name => (need string (g py"description")).bind fun description =>
  (need (list featureChild) (g py"children")).bind fun children => some { tags, loc, language, keyword, name, description, children }

def comment (j : J) : Option Comment :=
  (fields [py"location", py"text"] j).bind fun g =>
  (need location (g py"location")).bind fun loc => (need (orNull string) (g py"text")).bind fun text => some { loc, text }

/-- A `GherkinDocument`, with its uri if it has one. -/
def document (j : J) : Option (Option Str × Document) :=
  (fields [py"uri", py"feature", py"comments"] j).bind fun g =>
  (may string (g py"uri")).bind fun uri => (may Message.feature (g py"feature")).bind fun feature => (need (list comment) (g py"comments")).bind fun comments =>
  some (uri, { feature, comments })

/-! ### Pickle -/

def pickleTag (j : J) : Option PTag :=
  (fields [py"name", py"astNodeId"] j).bind fun g =>
  (need ident (g py"astNodeId")).bind fun astNodeId => (need string (g py"name")).bind fun name => some { astNodeId, name }

def pickleCell (j : J) : Option Str := (fields [py"value"] j).bind fun g => need string (g py"value")

def pickleRow (j : J) : Option (List Str) := (fields [py"cells"] j).bind fun g => need (list pickleCell) (g py"cells")

def pickleTable (j : J) : Option PArg :=
  (fields [py"rows"] j).bind fun g => (need (list pickleRow) (g py"rows")).bind fun rows => some (.table rows)

def pickleDocString (j : J) : Option PArg :=
  (fields [py"mediaType", py"content"] j).bind fun g =>
  (need string (g py"content")).bind fun content => (may string (g py"mediaType")).bind fun mediaType => some (.doc content mediaType)

/-- Either a doc string or a table. -/
def pickleArg (j : J) : Option PArg :=
  (fields [py"docString", py"dataTable"] j).bind fun g =>
  match g py"docString", g py"dataTable" with
  | some d, none => pickleDocString d
  | none, some t => pickleTable t
  | _, _ => none

def pickleStep (j : J) : Option PStep :=
  (fields [py"argument", py"astNodeIds", py"id", py"type", py"text"] j).bind fun g =>
  (need (list ident) (g py"astNodeIds")).bind fun astNodeIds => (need ident (g py"id")).bind fun id => (need (orNull keywordType) (g py"type")).bind fun type =>
  (need string (g py"text")).bind fun text => (may pickleArg (g py"argument")).bind fun arg => some { astNodeIds, id, type, text, arg }

def pickle (j : J) : Option Pickle :=
  (fields [py"id", py"uri", py"name", py"language", py"steps", py"tags", py"astNodeIds"] j).bind fun g =>
  (need (list ident) (g py"astNodeIds")).bind fun astNodeIds => (need ident (g py"id")).bind fun id => (need (list pickleTag) (g py"tags")).bind fun tags =>
  (need string (g py"name")).bind fun name => (need string (g py"language")).bind fun language => (need (list pickleStep) (g py"steps")).bind fun steps =>
  (need string (g py"uri")).bind fun uri => some { astNodeIds, id, tags, name, language, steps, uri }

/-! ### Envelope -/

/-- A `Source`: the media type is that of Gherkin. -/
def source (j : J) : Option Event :=
  (fields [py"uri", py"data", py"mediaType"] j).bind fun g =>
  (need string (g py"uri")).bind fun uri => (need string (g py"data")).bind fun data => (need string (g py"mediaType")).bind fun mediaType =>
  if mediaType = py"text/x.cucumber.gherkin+plain" then some (.source { uri, data }) else none

def sourceReference (j : J) : Option (Str × Location) :=
  (fields [py"uri", py"location"] j).bind fun g =>
  (need string (g py"uri")).bind fun uri => (need location (g py"location")).bind fun loc => some (uri, loc)

def parseError (j : J) : Option Event :=
  (fields [py"source", py"message"] j).bind fun g =>
  (need sourceReference (g py"source")).bind fun ref => (need string (g py"message")).bind fun message => some (.parseError ref.1 ref.2 message)

/-- Exactly one of the kinds of messages; a document has a uri. -/
def envelope (j : J) : Option Event :=
  (fields [py"source", py"gherkinDocument", py"pickle", py"parseError"] j).bind fun g =>
  match g py"source", g py"gherkinDocument", g py"pickle", g py"parseError" with
  | some s, none, none, none => source s
  | none, some d, none, none => (document d).bind fun x => x.1.map fun uri => .document uri x.2
  | none, none, some p, none => (pickle p).map .pickle
  | none, none, none, some e => parseError e
  | _, _, _, _ => none

end Gherkin.Message
