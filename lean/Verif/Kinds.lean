/-! Token kinds, grammar rules and the shape of the generated transition table.
Models the vocabulary of packages/gurke/src/gurke/parser.py. -/

namespace Gherkin

/-- Token kinds: packages/gurke/src/gurke/parser.py:11-26 (`RULE_TYPE`, the entries starting with `_`). -/
inductive Kind
  | eof | empty | comment | tagLine | featureLine | ruleLine | backgroundLine | scenarioLine
  | examplesLine | stepLine | docStringSeparator | tableRow | language | other
  deriving DecidableEq, Repr, Inhabited

/-- Grammar rules: packages/gurke/src/gurke/parser.py:27-45 (`RULE_TYPE`), without the rules that never reach
the builder (`StepArg`, `DescriptionHelper`), plus `none` for the root node `AstNode("None")`
of packages/gurke/src/gurke/ast_builder.py:22. -/
inductive Rule
  | none | gherkinDocument | feature | featureHeader | rule | ruleHeader | background | scenarioDefinition
  | scenario | examplesDefinition | examples | examplesTable | step | dataTable | docString | tags | description
  deriving DecidableEq, Repr, Inhabited

/-- The two look-ahead functions, packages/gurke/src/gurke/parser.py:3774-3824. -/
inductive LA | la0 | la1
  deriving DecidableEq, Repr, Inhabited

/-- One production of a transition: `self.start_rule(context, "X")`, `self.end_rule(context, "X")`,
`self.build(context, token)`. -/
inductive Prod
  | start (r : Rule) | stop (r : Rule) | build
  deriving DecidableEq, Repr, Inhabited

/-- One `if self.match_K(context, token) [and self.lookahead_N(context, token)]: ...; return target` block. -/
structure Trans where
  kind : Kind
  la : Option LA
  prods : List Prod
  target : Nat
  deriving DecidableEq, Repr, Inhabited

/-- One `match_token_at_N` method: transitions in source order, the `expected_tokens` list of the error branch and
the state the error branch returns. -/
structure StateRow where
  trans : List Trans
  expected : List Kind
  stay : Nat
  deriving DecidableEq, Repr, Inhabited

end Gherkin
