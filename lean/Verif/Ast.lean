import Verif.Token

/-! The dictionaries built by packages/gurke/src/gurke/ast_builder.py as typed records. An `Option` field stands for a key that
`reject_nones` (275-276) drops when its value is `None`. Ids are the counter values whose decimal strings the code stores. -/

namespace Gherkin

/-- packages/gurke/src/gurke/ast_builder.py:56-60. -/
structure Tag where
  id : Nat
  loc : Location
  name : Str
  deriving DecidableEq, Repr, Inhabited

/-- packages/gurke/src/gurke/ast_builder.py:90-92. -/
structure Cell where
  loc : Location
  value : Str
  deriving DecidableEq, Repr, Inhabited

/-- packages/gurke/src/gurke/ast_builder.py:69-73. -/
structure Row where
  id : Nat
  loc : Location
  cells : List Cell
  deriving DecidableEq, Repr, Inhabited

/-- packages/gurke/src/gurke/ast_builder.py:140-145. -/
structure DataTable where
  loc : Location
  rows : List Row
  deriving DecidableEq, Repr, Inhabited

/-- packages/gurke/src/gurke/ast_builder.py:130-137. -/
structure DocString where
  loc : Location
  content : Str
  delimiter : Option Str
  mediaType : Option Str
  deriving DecidableEq, Repr, Inhabited

/-- packages/gurke/src/gurke/ast_builder.py:107-112: the step argument. -/
inductive StepArg
  | none | table (t : DataTable) | doc (d : DocString)
  deriving DecidableEq, Repr, Inhabited

/-- packages/gurke/src/gurke/ast_builder.py:114-123. -/
structure Step where
  id : Nat
  loc : Location
  keyword : Option Str
  keywordType : Option KType
  text : Option Str
  arg : StepArg
  deriving DecidableEq, Repr, Inhabited

/-- packages/gurke/src/gurke/ast_builder.py:151-160. -/
structure Background where
  id : Nat
  loc : Location
  keyword : Option Str
  name : Option Str
  description : Str
  steps : List Step
  deriving DecidableEq, Repr, Inhabited

/-- packages/gurke/src/gurke/ast_builder.py:190-201. -/
structure Examples where
  id : Nat
  tags : List Tag
  loc : Location
  keyword : Option Str
  name : Option Str
  description : Str
  header : Option Row
  body : List Row
  deriving DecidableEq, Repr, Inhabited

/-- packages/gurke/src/gurke/ast_builder.py:169-180. -/
structure Scenario where
  id : Nat
  tags : List Tag
  loc : Location
  keyword : Option Str
  name : Option Str
  description : Str
  steps : List Step
  examples : List Examples
  deriving DecidableEq, Repr, Inhabited

/-- The children of a rule, packages/gurke/src/gurke/ast_builder.py:220-224. -/
inductive RuleChild
  | background (b : Background) | scenario (s : Scenario)
  deriving DecidableEq, Repr, Inhabited

/-- packages/gurke/src/gurke/ast_builder.py:227-237. -/
structure RuleNode where
  id : Nat
  tags : List Tag
  loc : Location
  keyword : Option Str
  name : Option Str
  description : Str
  children : List RuleChild
  deriving DecidableEq, Repr, Inhabited

/-- The children of a feature, packages/gurke/src/gurke/ast_builder.py:248-253. -/
inductive FeatureChild
  | background (b : Background) | scenario (s : Scenario) | rule (r : RuleNode)
  deriving DecidableEq, Repr, Inhabited

/-- packages/gurke/src/gurke/ast_builder.py:257-267. -/
structure Feature where
  tags : List Tag
  loc : Location
  language : Option Str
  keyword : Option Str
  name : Option Str
  description : Str
  children : List FeatureChild
  deriving DecidableEq, Repr, Inhabited

/-- packages/gurke/src/gurke/ast_builder.py:35. -/
structure Comment where
  loc : Location
  text : Option Str
  deriving DecidableEq, Repr, Inhabited

/-- packages/gurke/src/gurke/ast_builder.py:268-271. -/
structure Document where
  feature : Option Feature
  comments : List Comment
  deriving DecidableEq, Repr, Inhabited

end Gherkin
