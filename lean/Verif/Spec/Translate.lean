import Verif.Spec.Noise
import Verif.Spec.Steps
import Verif.Spec.Mirror

/-! Specification for C79: the same text in two languages. Nothing here depends on the parser, matcher or builder model. -/

namespace Gherkin

/-- The keyword lists of the titles: features, rules, backgrounds, scenarios (with outlines) and examples. -/
def titleLists : List (Dialect → List Str) := [Dialect.feature, Dialect.rule, Dialect.background, fun d => d.scenario ++ d.scenarioOutline, Dialect.examples]

/-- The line begins, after white space, with a title keyword and a colon, or with a step keyword. -/
def Keyworded (d : Dialect) (s : Str) : Prop :=
  ∃ w kw rest, White w ∧ ((∃ kws ∈ titleLists, kw ∈ kws d ∧ s = w ++ (kw ++ ':' :: rest)) ∨ (kw ∈ d.stepKeywords ∧ s = w ++ (kw ++ rest)))

/-- The longest step keyword the text begins with. -/
structure StepWord (d : Dialect) (kw s : Str) : Prop where
  mem : kw ∈ d.stepKeywords
  pre : kw <+: s
  longest : ∀ k ∈ d.stepKeywords, k <+: s → k.length ≤ kw.length

/-- A line in one language and in another: the keyword of a title or step is replaced by a keyword for the same thing, the rest is kept; a line without keyword in
either language is kept. -/
inductive SameLine (d d' : Dialect) : Str → Str → Prop
  | title {kws w w' kw kw' rest} : kws ∈ titleLists → White w → White w' → kw ∈ kws d → kw' ∈ kws d' →
      SameLine d d' (w ++ (kw ++ ':' :: rest)) (w' ++ (kw' ++ ':' :: rest))
  | step {w w' kw kw' rest} : White w → White w' → StepWord d kw (kw ++ rest) → StepWord d' kw' (kw' ++ rest) →
      (∀ ty, kw ∈ d.ofType ty ↔ kw' ∈ d'.ofType ty) → SameLine d d' (w ++ (kw ++ rest)) (w' ++ (kw' ++ rest))
  | plain {s} : ¬ Keyworded d s → ¬ Keyworded d' s → SameLine d d' s s

/-- `text'` is a translation of `text` from the language of dialect `d` to the language `lang'` of dialect `d'`, which a matcher reads that begins with the
language `start'`. The document `doc` belongs to `text`. -/
structure Translates (d : Dialect) (lang' start' : Str) (d' : Dialect) (text : Str) (doc : Document) (text' : Str) : Prop where
  length : (splitLines text').length = (splitLines text).length
  /-- the language header is translated; without header the matcher must know the language -/
  header : ∀ n name, HeaderAt text n name → ∀ s', LineIs text' n s' → IsHeader lang' s'
  default : (∀ n name, ¬ HeaderAt text n name) → start' = lang'
  /-- lines of doc strings and descriptions are kept -/
  kept : ∀ n, doc.inDocString text n ∨ doc.describes text n → ∀ s s', LineIs text n s → LineIs text' n s' → s' = s
  /-- all other lines say the same -/
  lines : ∀ n, ¬ doc.inDocString text n → (∀ name, ¬ HeaderAt text n name) → ∀ s s', LineIs text n s → LineIs text' n s' → SameLine d d' s s'

def Step.wordless (s : Step) : Step := { s with keyword := none }
def Background.wordless (b : Background) : Background := { b with keyword := none, steps := b.steps.map Step.wordless }
def Examples.wordless (e : Examples) : Examples := { e with keyword := none }
def Scenario.wordless (s : Scenario) : Scenario :=
  { s with keyword := none, steps := s.steps.map Step.wordless, examples := s.examples.map Examples.wordless }
def RuleChild.wordless : RuleChild → RuleChild
  | .background b => .background b.wordless
  | .scenario s => .scenario s.wordless
def RuleNode.wordless (r : RuleNode) : RuleNode := { r with keyword := none, children := r.children.map RuleChild.wordless }
def FeatureChild.wordless : FeatureChild → FeatureChild
  | .background b => .background b.wordless
  | .scenario s => .scenario s.wordless
  | .rule r => .rule r.wordless

/-- The feature without its language and without the keywords of titles and steps; the types of the steps are kept. -/
def Feature.wordless (f : Feature) : Feature :=
  { f with keyword := none, language := none, children := f.children.map FeatureChild.wordless }

end Gherkin
