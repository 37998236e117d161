import Verif.Parser

/-! Model of packages/gurke/src/gurke/token_formatter_builder.py `TokenFormatterBuilder`. -/

namespace Gherkin

/-- The string values of keyword types (packages/gurke/src/gurke/token_matcher.py:70,189-196). -/
def KType.name : KType → Str
  | .context => py"Context" | .action => py"Action" | .outcome => py"Outcome" | .conjunction => py"Conjunction"
  | .unknown => py"Unknown"

namespace Fmt

/-- packages/gurke/src/gurke/token_formatter_builder.py:36-40: the keyword with its type, nothing for a missing or empty
keyword. -/
def keywordPart (t : Token) : Str :=
  match t.keyword with
  | none | some [] => []
  | some kw => py"(" ++ (match t.keywordType with | some k => k.name | none => []) ++ py")" ++ kw

/-- packages/gurke/src/gurke/token_formatter_builder.py:44. -/
def itemsPart (items : List MItem) : Str :=
  joinStr py"," (items.map fun i => natStr i.column ++ py":" ++ i.text)

/-- packages/gurke/src/gurke/token_formatter_builder.py:23-46 `_format_token`. Tokens are formatted after they were matched, so
column and type are set; `None` would print as `None` / raise `TypeError` (second component). -/
def formatToken (t : Token) : Except MExc Str :=
  if t.eof then .ok py"EOF"
  else match t.type with
    | none => .error (.crash .typeError)
    | some k => .ok (
        py"(" ++ natStr t.loc.line ++ py":" ++ (match t.loc.column with | some c => natStr c | none => py"None") ++ py")" ++
        k.name ++ py":" ++ keywordPart t ++ py"/" ++ t.text.getD [] ++ py"/" ++ itemsPart t.items)

/-- packages/gurke/src/gurke/token_formatter_builder.py:20-21 `get_result`. -/
def result (ts : List Token) : Except MExc Str :=
  match ts.mapM formatToken with
  | .ok ls => .ok (joinStr py"\n" ls)
  | .error e => .error e

end Fmt

/-- packages/gurke/src/gurke/token_formatter_builder.py:4-21: the state is the token list `_tokens`. -/
def formatter : Builder (List Token) Str :=
  { reset := fun _ => []
    start := fun _ ts => (.ok (), ts)
    stop := fun _ ts => (.ok (), ts)
    build := fun t ts => (.ok (), ts ++ [t])
    result := Fmt.result }

end Gherkin
