import Verif.Proofs.TransParse
import Verif.Proofs.Bare
import Verif.Props.Mirror

/-! C79: pickles do not depend on the keywords of titles and steps. -/

namespace Gherkin

namespace Pickles

theorem scenarioSteps_wordless (eng : Engine) (bg : List Step) (s : Scenario) :
    scenarioSteps eng (bg.map Step.wordless) s.wordless = scenarioSteps eng bg s := by
  simp only [scenarioSteps, Scenario.wordless, List.isEmpty_map, ← List.map_append]
  rw [stepLoop_map (h := Step.wordless) (f' := pickleStep eng) (fun _ _ => rfl) (fun _ => rfl)]

theorem rowSteps_wordless (eng : Engine) (bg : List Step) (s : Scenario) (h r : Row) :
    rowSteps eng (bg.map Step.wordless) s.wordless h r = rowSteps eng bg s h r := by
  simp only [rowSteps, Scenario.wordless, List.isEmpty_map]
  rw [stepLoop_map (h := Step.wordless) (f' := pickleStep eng) (fun _ _ => rfl) (fun _ => rfl)]
  have : ∀ last, stepLoop (outlineStep eng h.cells r) last (s.steps.map Step.wordless) =
      stepLoop (outlineStep eng h.cells r) last s.steps := fun last =>
    stepLoop_map (h := Step.wordless) (f' := outlineStep eng h.cells r) (fun x ty => rfl) (fun _ => rfl) _ _
  simp only [this]

theorem compileScenario_wordless (eng : Engine) (uri : Str) (ts : List Tag) (bg : List Step) (s : Scenario) (l : Str) :
    compileScenario eng uri ts (bg.map Step.wordless) s.wordless l = compileScenario eng uri ts bg s l := by
  have h1 : s.wordless.name = s.name := rfl
  have h2 : s.wordless.id = s.id := rfl
  have h3 : s.wordless.tags = s.tags := rfl
  simp only [compileScenario, scenarioSteps_wordless, h1, h2, h3]

theorem compileRow_wordless (eng : Engine) (uri : Str) (ts : List Tag) (bg : List Step) (s : Scenario) (l : Str) (e : Examples) (h r : Row) :
    compileRow eng uri ts (bg.map Step.wordless) s.wordless l e.wordless h r = compileRow eng uri ts bg s l e h r := by
  have h1 : s.wordless.name = s.name := rfl
  have h2 : s.wordless.id = s.id := rfl
  have h3 : s.wordless.tags = s.tags := rfl
  have h4 : e.wordless.tags = e.tags := rfl
  simp only [compileRow, rowSteps_wordless, h1, h2, h3, h4]

theorem compileAny_wordless (eng : Engine) (uri : Str) (ts : List Tag) (bg : List Step) (s : Scenario) (l : Str) :
    compileAny eng uri ts (bg.map Step.wordless) s.wordless l = compileAny eng uri ts bg s l := by
  have h4 : s.wordless.examples = s.examples.map Examples.wordless := rfl
  simp only [compileAny, h4, List.isEmpty_map, compileScenario_wordless]
  congr 1
  simp only [compileOutline, h4, each_map]
  congr 2
  funext e
  have he : e.wordless.header = e.header := rfl
  have hb : e.wordless.body = e.body := rfl
  rw [he, hb]
  cases e.header with
  | none => rfl
  | some h =>
    simp only []
    congr 1
    funext r
    exact compileRow_wordless eng uri ts bg s l e h r

theorem compileRuleChildren_wordless (eng : Engine) (uri : Str) (ts : List Tag) (l : Str) : ∀ (cs : List RuleChild) (bg : List Step),
    compileRuleChildren eng uri ts l (bg.map Step.wordless) (cs.map RuleChild.wordless) = compileRuleChildren eng uri ts l bg cs := by
  intro cs
  induction cs with
  | nil => intro bg; rfl
  | cons c cs ih =>
    intro bg
    cases c with
    | background b =>
      have hs : b.wordless.steps = b.steps.map Step.wordless := rfl
      simp only [List.map_cons, RuleChild.wordless, compileRuleChildren, hs, ← List.map_append]
      exact ih _
    | scenario s => simp only [List.map_cons, RuleChild.wordless, compileRuleChildren, compileAny_wordless, ih]

theorem compileChildren_wordless (eng : Engine) (uri : Str) (ts : List Tag) (l : Str) : ∀ (cs : List FeatureChild) (bg : List Step),
    compileChildren eng uri ts l (bg.map Step.wordless) (cs.map FeatureChild.wordless) = compileChildren eng uri ts l bg cs := by
  intro cs
  induction cs with
  | nil => intro bg; rfl
  | cons c cs ih =>
    intro bg
    cases c with
    | background b =>
      have hs : b.wordless.steps = b.steps.map Step.wordless := rfl
      simp only [List.map_cons, FeatureChild.wordless, compileChildren, hs, ← List.map_append]
      exact ih _
    | scenario s => simp only [List.map_cons, FeatureChild.wordless, compileChildren, compileAny_wordless, ih]
    | rule r =>
      have h1 : r.wordless.tags = r.tags := rfl
      have h2 : r.wordless.children = r.children.map RuleChild.wordless := rfl
      simp only [List.map_cons, FeatureChild.wordless, compileChildren, compileRule, h1, h2, compileRuleChildren_wordless, ih]

/-- The pickle with another language. -/
def _root_.Gherkin.Pickle.into (lang : Str) (p : Pickle) : Pickle := { p with language := lang }

section
variable (eng : Engine) (u l k : Str)

theorem compileAny_into (tags : List Tag) (bg : List Step) (s : Scenario) :
    Via (List.map (Pickle.into k)) (compileAny eng u tags bg s l) (compileAny eng u tags bg s k) := by
  unfold compileAny
  split
  · exact (Via.refl _).bind fun _ => (Via.refl _).bind fun _ => (Via.refl _).bind fun _ => Via.pure rfl
  · refine (Via.each (h := List.map (Pickle.into k)) (fun e => ?_) s.examples).bind fun pss => Via.pure (by rw [List.map_flatten])
    cases e.header with
    | none => exact Via.pure rfl
    | some hd =>
      refine Via.each (f := fun row => compileRow eng u tags bg s l e hd row) (g := fun row => compileRow eng u tags bg s k e hd row) (fun r => ?_) _
      exact (Via.refl _).bind fun _ => (Via.refl _).bind fun _ => (Via.refl _).bind fun _ => (Via.refl _).bind fun _ => Via.pure rfl

theorem compileRuleChildren_into (tags : List Tag) : ∀ (cs : List RuleChild) (bg : List Step),
    Via (List.map (Pickle.into k)) (compileRuleChildren eng u tags l bg cs) (compileRuleChildren eng u tags k bg cs)
  | [], _ => Via.pure rfl
  | .background _ :: cs, _ => compileRuleChildren_into tags cs _
  | .scenario s :: cs, bg =>
    (compileAny_into eng u l k tags bg s).bind fun _ => (compileRuleChildren_into tags cs bg).bind fun _ => Via.pure (by rw [List.map_append])

theorem compileChildren_into (tags : List Tag) : ∀ (cs : List FeatureChild) (bg : List Step),
    Via (List.map (Pickle.into k)) (compileChildren eng u tags l bg cs) (compileChildren eng u tags k bg cs)
  | [], _ => Via.pure rfl
  | .background _ :: cs, _ => compileChildren_into tags cs _
  | .scenario s :: cs, bg =>
    (compileAny_into eng u l k tags bg s).bind fun _ => (compileChildren_into tags cs bg).bind fun _ => Via.pure (by rw [List.map_append])
  | .rule r :: cs, bg =>
    (compileRuleChildren_into eng u l k _ r.children bg).bind fun _ => (compileChildren_into tags cs bg).bind fun _ => Via.pure (by rw [List.map_append])

end

/-- Pickles of features which agree up to language, keywords and columns agree up to the language. -/
theorem compile_wordless (eng : Engine) (u l k : Str) {d d' : Document} {f f' : Feature} (hf : d.feature = some f) (hf' : d'.feature = some f')
    (hl : f.language = some l) (hk : f'.language = some k) (h : f'.uncolumned.wordless = f.uncolumned.wordless) :
    Via (List.map (Pickle.into k)) (compile eng u d) (compile eng u d') := by
  rw [← compile_change (g := ⟨fun l => ⟨l.line, none⟩, fun i => i, fun s => s⟩) (fun _ => rfl) eng u d' ⟨d'.feature.map Feature.uncolumned, []⟩ rfl,
    ← compile_change (g := ⟨fun l => ⟨l.line, none⟩, fun i => i, fun s => s⟩) (fun _ => rfl) eng u d ⟨d.feature.map Feature.uncolumned, []⟩ rfl, hf, hf']
  have hl' : f.uncolumned.language = some l := hl
  have hk' : f'.uncolumned.language = some k := hk
  revert hl' hk' h
  simp only [Option.map_some]
  generalize f.uncolumned = F
  generalize f'.uncolumned = F'
  intro h hl' hk'
  have h1 : F'.tags = F.tags := by have := congrArg Feature.tags h; exact this
  have h2 : F'.children.map FeatureChild.wordless = F.children.map FeatureChild.wordless := by have := congrArg Feature.children h; exact this
  have h3 : F'.children.isEmpty = F.children.isEmpty := by
    rw [← List.isEmpty_map (f := FeatureChild.wordless), h2, List.isEmpty_map]
  simp only [compile, h1, h3, hl', hk']
  split
  · exact Via.pure rfl
  · show Via _ (compileChildren eng u F.tags l [] F.children) (compileChildren eng u F.tags k [] F'.children)
    rw [← compileChildren_wordless eng u F.tags l F.children [], ← compileChildren_wordless eng u F.tags k F'.children [], h2]
    exact compileChildren_into eng u l k F.tags _ _

end Pickles
end Gherkin
