import Verif.Token

/-! Specification: the Gherkin grammar of packages/gurke/gherkin.berp, its language and its derivation trees.
Nothing in this file depends on the parser model. -/

namespace Gherkin

/-- Grammar symbols: token kinds and rules. -/
inductive Sym
  | t (k : Kind) | r (r : Rule)
  deriving DecidableEq, Repr, Inhabited

/-- Right-hand sides. -/
inductive Re
  | empty | eps | sym (s : Sym) | alt (a b : Re) | seq (a b : Re) | star (a : Re)
  deriving DecidableEq, Repr, Inhabited

/-- The words of a right-hand side. -/
inductive Lang : Re → List Sym → Prop
  | eps : Lang .eps []
  | sym (s) : Lang (.sym s) [s]
  | altL {a b w} : Lang a w → Lang (.alt a b) w
  | altR {a b w} : Lang b w → Lang (.alt a b) w
  | seq {a b u v} : Lang a u → Lang b v → Lang (.seq a b) (u ++ v)
  | starNil {a} : Lang (.star a) []
  | starCons {a u v} : Lang a u → Lang (.star a) v → Lang (.star a) (u ++ v)

namespace Re
/-- `x?` -/
def opt (a : Re) : Re := .alt a .eps
/-- `#Kind` -/
def tk (k : Kind) : Re := .sym (.t k)
/-- `Rule` -/
def ru (r : Rule) : Re := .sym (.r r)
/-- juxtaposition -/
def cat : List Re → Re
  | [] => .eps
  | [a] => a
  | a :: b :: rest => .seq a (cat (b :: rest))
/-- `x+` -/
def plus (a : Re) : Re := .seq a (.star a)
end Re

open Re in
/-- `DescriptionHelper := #Empty* Description? #Comment*` (gherkin.berp), spliced into the rules that use it, followed by
`tail`. -/
def descriptionHelper (tail : List Re) : List Re :=
  [.star (tk .empty), opt (ru .description), .star (tk .comment)] ++ tail

open Re in
/-- The rules of packages/gurke/gherkin.berp. `StepArg` is spliced in; the start rule is followed by the implicit `#EOF`;
`none` is the root that holds the start rule. -/
def grammar : Rule → Re
  | .none => ru .gherkinDocument
  | .gherkinDocument => cat [opt (ru .feature), tk .eof]
  | .feature => cat [ru .featureHeader, opt (ru .background), .star (ru .scenarioDefinition), .star (ru .rule)]
  | .featureHeader => cat ([opt (tk .language), opt (ru .tags), tk .featureLine] ++ descriptionHelper [])
  | .rule => cat [ru .ruleHeader, opt (ru .background), .star (ru .scenarioDefinition)]
  | .ruleHeader => cat ([opt (ru .tags), tk .ruleLine] ++ descriptionHelper [])
  | .background => cat ([tk .backgroundLine] ++ descriptionHelper [.star (ru .step)])
  | .scenarioDefinition => cat [opt (ru .tags), ru .scenario]
  | .scenario => cat ([tk .scenarioLine] ++ descriptionHelper [.star (ru .step), .star (ru .examplesDefinition)])
  | .examplesDefinition => cat [opt (ru .tags), ru .examples]
  | .examples => cat ([tk .examplesLine] ++ descriptionHelper [opt (ru .examplesTable)])
  | .examplesTable => cat [tk .tableRow, .star (tk .tableRow)]
  | .step => cat [tk .stepLine, opt (.alt (ru .dataTable) (ru .docString))]
  | .dataTable => plus (tk .tableRow)
  | .docString => cat [tk .docStringSeparator, .star (tk .other), tk .docStringSeparator]
  | .tags => plus (tk .tagLine)
  | .description => plus (tk .other)

/-- `IgnoredTokens -> #Comment,#Empty`: tokens that may occur anywhere. -/
def Sym.ignorable : Sym → Bool
  | .t .comment => true
  | .t .empty => true
  | _ => false

/-- `Skips w w'`: `w'` is `w` with some ignorable tokens left out. -/
inductive Skips : List Sym → List Sym → Prop
  | nil : Skips [] []
  | keep {s w w'} : Skips w w' → Skips (s :: w) (s :: w')
  | skip {s w w'} : s.ignorable = true → Skips w w' → Skips (s :: w) w'

/-- A concrete syntax tree: leaves are the tokens as the parser recognised them. -/
inductive Tree
  | leaf (k : Kind) (t : Token)
  | node (r : Rule) (children : List Tree)

/-- The grammar symbol of a tree. -/
def Tree.sym : Tree → Sym
  | .leaf k _ => .t k
  | .node r _ => .r r

/-- A derivation tree of the grammar: at every inner node the symbols of the children, possibly without some comment
and blank-line tokens, are a word of the rule's right-hand side; every leaf's token has the leaf's kind. -/
inductive Conforms : Tree → Prop
  | leaf {k t} : t.type = some k → Conforms (.leaf k t)
  | node {r cs w} : (∀ c ∈ cs, Conforms c) → Skips (cs.map Tree.sym) w → Lang (grammar r) w → Conforms (.node r cs)

/-- The tokens at the leaves, left to right. -/
def Tree.leaves : Tree → List Token
  | .leaf _ t => [t]
  | .node _ cs => cs.flatMap Tree.leaves

end Gherkin
