import Verif.Events
import Verif.Json
import Verif.Escape

/-! Model of packages/gurke/src/gurke/__main__.py: the events of the files on the command line, printed as JSON. -/

namespace Gherkin

/-! ### The dictionaries of the events -/

/-- packages/gurke/src/gurke/pickles/compiler.py:167-168 `_pickle_tag`. -/
def PTag.toJson (t : PTag) : J := .dict [(py"astNodeId", .id t.astNodeId), (py"name", .str t.name)]

/-- packages/gurke/src/gurke/pickles/compiler.py:124-139 `_create_pickle_arguments`. -/
def PArg.toJson : PArg → J
  | .table rows => .dict [(py"dataTable", .dict [(py"rows", .list (rows.map fun cells =>
      .dict [(py"cells", .list (cells.map fun v => .dict [(py"value", .str v)]))]))])]
  | .doc content none => .dict [(py"docString", .dict [(py"content", .str content)])]
  | .doc content (some mt) => .dict [(py"docString", .dict [(py"content", .str content), (py"mediaType", .str mt)])]

/-- packages/gurke/src/gurke/pickles/compiler.py:102-109, 152-162. -/
def PStep.toJson (s : PStep) : J :=
  .dict ([(py"astNodeIds", .list (s.astNodeIds.map .id)), (py"id", .id s.id), (py"type", (s.type.map fun t => J.str t.name).getD .null),
    (py"text", .str s.text)] ++ (match s.arg with | none => [] | some a => [(py"argument", a.toJson)]))

/-- packages/gurke/src/gurke/pickles/compiler.py:66-74 for a scenario, 113-121 for a row of an outline, whose pickle has two ids in
`astNodeIds` and its keys in another order. -/
def Pickle.toJson (p : Pickle) : J :=
  if p.astNodeIds.length = 1 then
    .dict [(py"astNodeIds", .list (p.astNodeIds.map .id)), (py"id", .id p.id), (py"tags", .list (p.tags.map PTag.toJson)), (py"name", .str p.name),
      (py"language", .str p.language), (py"steps", .list (p.steps.map PStep.toJson)), (py"uri", .str p.uri)]
  else
    .dict [(py"astNodeIds", .list (p.astNodeIds.map .id)), (py"id", .id p.id), (py"name", .str p.name), (py"language", .str p.language),
      (py"steps", .list (p.steps.map PStep.toJson)), (py"tags", .list (p.tags.map PTag.toJson)), (py"uri", .str p.uri)]

/-- packages/gurke/src/gurke/stream/source_events.py:5-11 and stream/gherkin_events.py:10-15, 30, 36, 41: the dictionaries that are yielded. -/
def Event.toJson : Event → J
  | .source s => .dict [(py"source", .dict [(py"uri", .str s.uri), (py"data", .str s.data), (py"mediaType", .str py"text/x.cucumber.gherkin+plain")])]
  | .document uri d => .dict [(py"gherkinDocument", d.withUri uri)]
  | .pickle p => .dict [(py"pickle", p.toJson)]
  | .parseError uri loc msg => .dict [(py"parseError", .dict [(py"source", .dict [(py"uri", .str uri), (py"location", .loc loc)]), (py"message", .str msg)])]

/-! ### `json.dumps` (Python standard library, default arguments) -/

/-- One character of a string: CPython `json.encoder.py_encode_basestring_ascii`. -/
def jsonChar (c : Char) : Str :=
  if c = '"' ∨ c = '\\' then ['\\', c]
  else if c = '\n' then py"\\n"
  else if c = '\r' then py"\\r"
  else if c = '\t' then py"\\t"
  else if c = Char.ofNat 12 then py"\\f"
  else if c = Char.ofNat 8 then py"\\b"
  else if 32 ≤ c.toNat ∧ c.toNat < 127 then [c]
  else if c.toNat < 0x10000 then '\\' :: 'u' :: Escape.hex 4 c.toNat
  else '\\' :: 'u' :: (Escape.hex 4 (0xd800 + (c.toNat - 0x10000) / 0x400) ++ '\\' :: 'u' :: Escape.hex 4 (0xdc00 + (c.toNat - 0x10000) % 0x400))

/-- A string in quotes. -/
def jsonStr (s : Str) : Str := '"' :: (s.flatMap jsonChar ++ ['"'])

mutual
/-- `json.dumps`: a `Location` is a dataclass and no JSON type, which raises `TypeError`; ids are strings. -/
def dumps : J → Except Crash Str
  | .str s => .ok (jsonStr s)
  | .id n => .ok (jsonStr (natStr n))
  | .loc _ => .error .typeError
  | .null => .ok py"null"
  | .list l => match dumpItems l with
    | .error c => .error c
    | .ok ss => .ok ('[' :: (joinStr py", " ss ++ [']']))
  | .dict l => match dumpPairs l with
    | .error c => .error c
    | .ok ss => .ok ('{' :: (joinStr py", " ss ++ ['}']))
/-- The items of a list. -/
def dumpItems : List J → Except Crash (List Str)
  | [] => .ok []
  | j :: js => match dumps j with
    | .error c => .error c
    | .ok s => match dumpItems js with
      | .error c => .error c
      | .ok ss => .ok (s :: ss)
/-- The items of a dictionary. -/
def dumpPairs : List (Str × J) → Except Crash (List Str)
  | [] => .ok []
  | p :: ps => match dumpPair p with
    | .error c => .error c
    | .ok s => match dumpPairs ps with
      | .error c => .error c
      | .ok ss => .ok (s :: ss)
/-- Key and value. -/
def dumpPair : Str × J → Except Crash Str
  | (k, v) => match dumps v with
    | .error c => .error c
    | .ok s => .ok (jsonStr k ++ py": " ++ s)
end

/-! ### The loop -/

/-- packages/gurke/src/gurke/__main__.py:23 `print(json.dumps(event))` for one event after the other: the lines printed and the exception that ends
the program. -/
def printAll : List Event → List Str × Option Crash
  | [] => ([], none)
  | e :: es => match dumps e.toJson with
    | .error c => ([], some c)
    | .ok s => (s :: (printAll es).1, (printAll es).2)

/-- packages/gurke/src/gurke/__main__.py:18-23. The events come from generators, so that those before an exception of parser or compiler are
printed. `files` is what `SourceEvents` reads; options are taken as given, reading is in `FileText.lean`. -/
def mainProgram (eng : Engine) (opt : StreamOptions) (files : List SourceFile) : List Str × Option Crash :=
  match stream eng opt files with
  | (evs, crash, _) => match printAll evs with
    | (out, some c) => (out, some c)
    | (out, none) => (out, crash)

end Gherkin
