import Verif.Py

/-! Model of packages/gurke/src/gurke/dialect.py. -/

namespace Gherkin

/-- packages/gurke/src/gurke/dialect.py:14-64 `Dialect`: the keyword lists of one language. -/
structure Dialect where
  feature : List Str
  rule : List Str
  scenario : List Str
  scenarioOutline : List Str
  background : List Str
  examples : List Str
  given : List Str
  when_ : List Str
  then_ : List Str
  and_ : List Str
  but_ : List Str
  deriving DecidableEq, Repr, Inhabited

/-- The values put into `keyword_types` (packages/gurke/src/gurke/token_matcher.py:189-196) and `"Unknown"` (line 70). -/
inductive KType | context | action | outcome | conjunction | unknown
  deriving DecidableEq, Repr, Inhabited

/-- packages/gurke/src/gurke/token_matcher.py:57-63: step keywords in search order. -/
def Dialect.stepKeywords (d : Dialect) : List Str := d.given ++ d.when_ ++ d.then_ ++ d.and_ ++ d.but_

/-- packages/gurke/src/gurke/token_matcher.py:188-196 (and token_matcher_markdown.py:259-267): the list
`self.keyword_types[keyword]` after `_change_dialect`. The code fills a dictionary when the dialect changes; the
model computes the entry on demand from the same dialect. -/
def Dialect.keywordTypes (d : Dialect) (kw : Str) : List KType :=
  (d.given.filter (· == kw)).map (fun _ => .context) ++
  (d.when_.filter (· == kw)).map (fun _ => .action) ++
  (d.then_.filter (· == kw)).map (fun _ => .outcome) ++
  ((d.and_ ++ d.but_).filter (· == kw)).map (fun _ => .conjunction)

end Gherkin
