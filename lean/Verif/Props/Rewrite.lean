import Verif.Proofs.Rewrite2
import Verif.Props.Header
import Verif.Props.MdPrint

/-! # C88: what the parser reads can be written again -/

namespace Gherkin

open Pickles Robot Auto

/-! ### The text of a feature does not depend on positions and ids -/

namespace Print

theorem tags_change (y : Style) (g : Change) (ts : List Tag) : tags y (ts.map (Tag.change g)) = tags y ts := by
  cases ts <;> simp [tags, Tag.change, Function.comp_def]

theorem row_change (y : Style) (g : Change) (r : Row) : row y (r.change g) = row y r := by
  simp [row, Row.change, Cell.change, Function.comp_def]

theorem rows_change (y : Style) (g : Change) (rs : List Row) : (rs.map (Row.change g)).map (row y) = rs.map (row y) := by
  rw [List.map_map]
  exact List.map_congr_left fun r _ => row_change y g r

theorem arg_change (y : Style) (g : Change) (a : StepArg) : arg y (a.change g) = arg y a := by
  cases a with
  | none => rfl
  | table t => exact rows_change y g t.rows
  | doc d => rfl

theorem step_change (y : Style) (g : Change) (s : Step) : step y (s.change g) = step y s := by
  simp [step, Step.change, arg_change]

theorem steps_change (y : Style) (g : Change) (ss : List Step) : (ss.map (Step.change g)).flatMap (step y) = ss.flatMap (step y) := by
  rw [List.flatMap_map]
  exact List.flatMap_congr fun s _ => step_change y g s

variable (y : Style) (g : Change) (hg : ∀ s, g.description s = s)
include hg

theorem background_change (b : Background) : background y (b.change g) = background y b := by
  simp [background, Background.change, hg, steps_change]

theorem examples_change (e : Examples) : examples y (e.change g) = examples y e := by
  have : (Option.map (Row.change g) e.header).toList ++ e.body.map (Row.change g) = (e.header.toList ++ e.body).map (Row.change g) := by
    cases e.header <;> simp
  simp only [examples, Examples.change, hg, tags_change, this, rows_change]

theorem scenario_change (s : Scenario) : scenario y (s.change g) = scenario y s := by
  have : (s.examples.map (Examples.change g)).flatMap (examples y) = s.examples.flatMap (examples y) := by
    rw [List.flatMap_map]
    exact List.flatMap_congr fun e _ => examples_change y g hg e
  simp only [scenario, Scenario.change, hg, tags_change, steps_change, this]

theorem ruleChild_change (c : RuleChild) : ruleChild y (c.change g) = ruleChild y c := by
  cases c with
  | background b => exact background_change y g hg b
  | scenario s => exact scenario_change y g hg s

theorem featureChild_change (c : FeatureChild) : featureChild y (c.change g) = featureChild y c := by
  cases c with
  | background b => exact background_change y g hg b
  | scenario s => exact scenario_change y g hg s
  | rule r =>
    have : (r.children.map (RuleChild.change g)).flatMap (ruleChild y) = r.children.flatMap (ruleChild y) := by
      rw [List.flatMap_map]
      exact List.flatMap_congr fun e _ => ruleChild_change y g hg e
    simp only [featureChild, FeatureChild.change, rule, RuleNode.change, hg, tags_change, this]

omit hg in
theorem text_unplaced (f : Feature) : text y f.unplaced = text y f := by
  have : ∀ g : Change, (∀ s, g.description s = s) → (f.children.map (FeatureChild.change g)).flatMap (featureChild y) = f.children.flatMap (featureChild y) := by
    intro g hg
    rw [List.flatMap_map]
    exact List.flatMap_congr fun e _ => featureChild_change y g hg e
  simp only [text, feature, Feature.unplaced, Feature.change, tags_change, this ⟨fun _ => .zero, fun _ => 0, fun s => s⟩ fun _ => rfl]

end Print

/-! ### C88 -/

/-- **C88, what is read can be written.** The feature of a text that is read can be written as a text again (`Printable.Feature`, the condition of C44), if no step is there in which
the white space after the keyword has kept the text from completing a longer keyword. -/
theorem C88_printable {m : CState} (hm : m.Valid) {text : Str} {b : BState} {stop : Bool} {d : Document} {f : Feature}
    (h : (parse (classicCfg astBuilder stop) text m b).1 = .ok (some d)) (hf : d.feature = some f) (hw : d.Rewritable) : Printable.Feature f := by
  obtain ⟨F, g1, g2, _⟩ := C56_accepted_layout hm h hf
  obtain ⟨_, cm, e1⟩ := file_parses hm g1 g2 b stop
  rw [h] at e1
  have e2 : d = ((fileCst (Classic.reset m) F).ast cm b.nextId).1 := by
    injection e1 with e1
    injection e1
  obtain ⟨c1, c2, _⟩ := file_matcher hm g1
  have e3 : f = ((featureCst (fileMatcher (Classic.reset m) F) (1 + F.before.length + (F.language.toList.flatMap Layout.Ln.texts).length) (langTok (Classic.reset m) F) F.feature).ast b.nextId).1 := by
    rw [e2] at hf
    have : some _ = some f := hf
    injection this with this
    exact this.symm
  have hreal : ∀ x ∈ F.feature.texts, Rewrite.Real x := fun x hx => Rewrite.real_lines text x (by
    rw [g2]; simp only [Layout.File.texts, List.mem_append]; exact .inr (.inr hx))
  have hl := Rewrite.feature_language c1 c2 hreal (1 + F.before.length + (F.language.toList.flatMap Layout.Ln.texts).length) b.nextId (langTok (Classic.reset m) F)
  rw [← e3] at hl
  have key := Rewrite.feature_read c1 c2 hreal (1 + F.before.length + (F.language.toList.flatMap Layout.Ln.texts).length) b.nextId (langTok (Classic.reset m) F) (by
    rw [← e3]
    intro c hc s hs
    refine hw f hf _ hl _ c1.valid.cur s ?_
    simp only [Document.steps, Document.backgrounds, Document.scenarios, hf, Option.toList_some, List.flatMap_cons, List.flatMap_nil, List.append_nil, List.mem_append]
    simp only [Rewrite.childSteps, List.mem_append, List.mem_flatMap] at hs
    rcases hs with ⟨x, hx, hs⟩ | ⟨x, hx, hs⟩
    · exact .inl (List.mem_flatMap.2 ⟨x, List.mem_flatMap.2 ⟨c, hc, hx⟩, hs⟩)
    · exact .inr (List.mem_flatMap.2 ⟨x, List.mem_flatMap.2 ⟨c, hc, hx⟩, hs⟩))
  rw [← e3] at key
  exact key.1

/-- The condition always holds in the dialects no step keyword of which begins another one. -/
theorem C88_apart {e : Document} (h : ∀ f ∈ e.feature, ∀ name ∈ f.language, ∀ d ∈ dialectFor name, d.Apart) : e.Rewritable := by
  intro f hf name hn d hd s _ kw hk _ k hk' hp
  have ha := h f hf name hn d hd
  rcases Nat.le_total k.length kw.length with hl | hl
  · exact List.prefix_of_prefix_length_le hp (List.prefix_append _ _) hl
  · have := List.prefix_of_prefix_length_le (List.prefix_append kw (s.text.getD [])) hp hl
    rw [ha kw hk k hk' this]
    exact List.prefix_refl _

/-- These are all dialects but five. -/
theorem C88_dialects : (dialects.filter fun p => !decide (∀ k ∈ p.2.stepKeywords, ∀ k' ∈ p.2.stepKeywords, k <+: k' → k = k')).map (·.1) =
    [py"cs", py"en-old", py"fr", py"ht", py"sk"] := by decide +kernel

/-- **C88, read, written, read.** Take a text that is read, write its feature in any style, and read this, with any matcher: the feature is the same except for positions and ids; and so are
the cases, and the pickles. -/
theorem C88_round_trip {m : CState} (hm : m.Valid) {text : Str} {b : BState} {stop : Bool} {d : Document} {f : Feature}
    (h : (parse (classicCfg astBuilder stop) text m b).1 = .ok (some d)) (hf : d.feature = some f) (hw : d.Rewritable) (y : Style)
    {m' : CState} (hm' : m'.Valid) (b' : BState) (stop' : Bool) :
    ∃ d' f', (parse (classicCfg astBuilder stop') (Print.text y f) m' b').1 = .ok (some d') ∧ d'.feature = some f' ∧ f'.unplaced = f.unplaced ∧
      d'.cases.map Case.content = d.cases.map Case.content ∧
      ∀ (eng : Engine) (uri : Str) (n k : Nat), (compile eng uri d' n).map (fun p => p.1.map Pickle.content) = (compile eng uri d k).map fun p => p.1.map Pickle.content := by
  obtain ⟨d', f', h1, h2, h3⟩ := C44_round_trip hm' y (C88_printable hm h hf hw) b' stop'
  exact ⟨d', f', h1, h2, h3, by rw [cases_kept h2, cases_kept hf, h3], fun eng uri n k => compile_alike eng uri h2 hf h3 n k⟩

/-- **C88, once is enough.** Writing, in the same style, what is read from the written text gives the same text. -/
theorem C88_stable {m : CState} (hm : m.Valid) {text : Str} {b : BState} {stop : Bool} {d : Document} {f : Feature}
    (h : (parse (classicCfg astBuilder stop) text m b).1 = .ok (some d)) (hf : d.feature = some f) (hw : d.Rewritable) (y z : Style)
    {m' : CState} (hm' : m'.Valid) (b' : BState) (stop' : Bool) :
    ∃ d' f', (parse (classicCfg astBuilder stop') (Print.text y f) m' b').1 = .ok (some d') ∧ d'.feature = some f' ∧ Print.text z f' = Print.text z f := by
  obtain ⟨d', f', h1, h2, h3⟩ := C44_round_trip hm' y (C88_printable hm h hf hw) b' stop'
  exact ⟨d', f', h1, h2, by rw [← Print.text_unplaced z f', ← Print.text_unplaced z f, h3]⟩

/-- **C88, the suites.** A file, and the file with its feature written again, build to the same suites, except for positions. -/
theorem C88_suite (eng : Engine) (printable : Char → Bool) (es : List DirEntry) (uri name : Str) (hn : suffix name ≠ py".md") (text : Str)
    (d : Document) (f : Feature) (hd : parseFile name text = .ok (some d)) (hf : d.feature = some f) (hw : d.Rewritable) (y : Style)
    (sets : List Setting) (tests : List Test) (fn : Option Str) (hb : build eng printable es uri name text = .ok (.suite sets tests, fn)) :
    ∃ tests', build eng printable es uri name (Print.text y f) = .ok (.suite sets tests', fn) ∧ tests'.map Test.unplaced = tests.map Test.unplaced := by
  have h1 := hd
  rw [classic_file hn] at h1
  obtain ⟨d', f', h2, h4, h5, h6, h7⟩ := C88_round_trip default_valid h1 hf hw y default_valid newBuilder false
  rw [← classic_file hn] at h2
  refine suite_same hd h2 hf h4 ?_ ?_ ?_ h6 (h7 eng uri 0 0) hb
  · rw [show f'.name = f'.unplaced.name from rfl, show f.name = f.unplaced.name from rfl, h5]
  · rw [← names_kept f', ← names_kept f, h5]
  · rw [← settings_unplaced es f', ← settings_unplaced es f, h5]

/-! ### The hypotheses can be met -/

namespace Sample

/-- A text that is not tidy. -/
def untidy : Str := py"  #language:en\r\n# a comment\n\n @web   @slow # tags\n\t@x\nFeature:Shop  \n\n  A description.  \n # not this\n\n\nBackground:\n\tGiven    a user\nScenario Outline:   buy <x>\n When they buy\n\"\"\"  json \n    \\\"\\\"\\\" <x>\n  \\\"\\\"\\\\\"\\\"\\\"\n  \"\"\"\n   Then  they see\n |a|  b\\|c |\n#\n |  <x>| |\n\n Examples:\n |x |\n | \\\\n|"

/-- The document of a text, if it is read. -/
def documentOf (text : Str) : Option Document :=
  match (parse (classicCfg astBuilder false) text defaultMatcher newBuilder).1 with
  | .ok d => d
  | .error _ => none

/-- A text, tidied up. -/
def tidied (text : Str) : Str := (((documentOf text).bind (·.feature)).map (Print.text ⟨0, 2, 4, 6⟩)).getD []

def wordsOf (text : Str) : List (Option Str × Option Str) := (documentOf text).toList.flatMap fun d => d.steps.map fun s => (s.keyword, s.text)

theorem en_apart : enD.Apart := by unfold Dialect.Apart; decide +kernel

end Sample

/-- Every hypothesis of C88 is met by the untidy text. -/
example : ∃ d f, (parse (classicCfg astBuilder false) Sample.untidy defaultMatcher newBuilder).1 = .ok (some d) ∧ d.feature = some f ∧ d.Rewritable := by
  have h : ((Sample.documentOf Sample.untidy).bind (·.feature)).map (·.language) = some (some py"en") := by decide +kernel
  unfold Sample.documentOf at h
  rcases hp : (parse (classicCfg astBuilder false) Sample.untidy defaultMatcher newBuilder).1 with e | o
  · rw [hp] at h; simp at h
  · rw [hp] at h
    obtain ⟨f, h1, h2⟩ := Option.map_eq_some_iff.1 h
    obtain ⟨d, h3, h4⟩ := Option.bind_eq_some_iff.1 h1
    simp only at h3
    subst h3
    refine ⟨d, f, rfl, h4, C88_apart ?_⟩
    intro g hg name hn dl hdl
    rw [h4] at hg
    obtain rfl : f = g := Option.some.inj hg
    rw [h2] at hn
    obtain rfl : py"en" = name := Option.some.inj hn
    have : dialectFor py"en" = some Sample.enD := by decide +kernel
    rw [this] at hdl
    obtain rfl : Sample.enD = dl := Option.some.inj hdl
    exact Sample.en_apart

example : Sample.tidied Sample.untidy = py"# language: en\n@web @slow @x\n  Feature: Shop\n  A description.  \n  Background: \n    Given a user\n  Scenario Outline: buy <x>\n    When they buy\n      \"\"\"json\n          \\\"\\\"\\\" <x>\n        \\\"\\\"\\\\\"\\\"\\\"\n      \"\"\"\n    Then they see\n      | a | b\\|c |\n      | <x> |  |\n  Examples: \n      | x |\n      | \\\\n |\n" := by
  decide +kernel

example : Sample.tidied (Sample.tidied Sample.untidy) = Sample.tidied Sample.untidy ∧ testsOf (Sample.tidied Sample.untidy) = testsOf Sample.untidy ∧
    (testsOf Sample.untidy).length = 1 := by decide +kernel

/-- **C88, a counterexample without the condition.** In French, the second blank after `Étant donné` makes `que` a part of the text; it is lost when the step is written. -/
theorem C88_counterexample :
    Sample.wordsOf py"#language:fr\nFonctionnalité: f\nScénario: s\n  Étant donné  que x\n" = [(some py"Étant donné ", some py"que x")] ∧
    Sample.wordsOf (Sample.tidied py"#language:fr\nFonctionnalité: f\nScénario: s\n  Étant donné  que x\n") = [(some py"Étant donné que ", some py"x")] := by
  decide +kernel

end Gherkin
