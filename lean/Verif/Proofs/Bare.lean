import Verif.Spec.Bare
import Verif.Compiler
import Verif.Spec.Cst
import Verif.Proofs.Unique

/-! Locations, descriptions and comments do not matter for pickles. -/

namespace Gherkin

open Cst

namespace Pickles

variable {g : Change}

theorem each_map {α β γ : Type} {h : α → β} {f : β → M γ} : ∀ xs : List α, each f (xs.map h) = each (fun a => f (h a)) xs := by
  intro xs
  induction xs with
  | nil => rfl
  | cons x xs ih => simp only [List.map_cons, each, ih]

theorem interpolateFrom_change (eng : Engine) (vs : List Cell) : ∀ (hs : List Cell) (i : Nat) (s : Str),
    interpolateFrom eng (vs.map (Cell.change g)) i (hs.map (Cell.change g)) s = interpolateFrom eng vs i hs s := by
  intro hs
  induction hs with
  | nil => intros; rfl
  | cons h hs ih =>
    intro i s
    simp only [List.map_cons, interpolateFrom, List.getElem?_map]
    cases vs[i]? with
    | none => rfl
    | some v =>
      simp only [Option.map_some, Cell.change]
      cases reSub eng h.value (reescape v.value) s with
      | ok s' => exact ih (i + 1) s'
      | error e => rfl

theorem interpolate_change (eng : Engine) (hs vs : List Cell) (s : Str) :
    interpolate eng (hs.map (Cell.change g)) (vs.map (Cell.change g)) s = interpolate eng hs vs s := interpolateFrom_change eng vs hs 0 s

theorem pickleArg_change (eng : Engine) (a : StepArg) (hs vs : List Cell) :
    pickleArg eng (a.change g) (hs.map (Cell.change g)) (vs.map (Cell.change g)) = pickleArg eng a hs vs := by
  cases a with
  | none => rfl
  | table t =>
    simp only [StepArg.change, DataTable.change, pickleArg, each_map]
    simp only [Row.change, each_map, interpolate_change, Cell.change]
  | doc d =>
    simp only [StepArg.change, DocString.change, pickleArg, interpolate_change]

variable (hid : ∀ n, g.id n = n)
include hid

theorem pickleStep_change (eng : Engine) (s : Step) (ty : Option KType) : pickleStep eng (s.change g) ty = pickleStep eng s ty := by
  have := pickleArg_change (g := g) eng s.arg [] []
  simp only [List.map_nil] at this
  simp only [pickleStep, Step.change, this, hid]

theorem outlineStep_change (eng : Engine) (hs : List Cell) (r : Row) (s : Step) (ty : Option KType) :
    outlineStep eng (hs.map (Cell.change g)) (r.change g) (s.change g) ty = outlineStep eng hs r s ty := by
  simp only [outlineStep, Step.change, Row.change, interpolate_change, pickleArg_change, hid]

omit hid in
theorem stepLoop_map {h : Step → Step} {f f' : Step → Option KType → M PStep} (hf : ∀ s ty, f (h s) ty = f' s ty)
    (hk : ∀ s, (h s).keywordType = s.keywordType) : ∀ (ss : List Step) (last : Option KType), stepLoop f last (ss.map h) = stepLoop f' last ss := by
  intro ss
  induction ss with
  | nil => intros; rfl
  | cons s ss ih => intro last; simp only [List.map_cons, stepLoop, hf, hk, ih]

theorem pickleTags_change (ts : List Tag) : pickleTags (ts.map (Tag.change g)) = pickleTags ts := by
  simp only [pickleTags, List.map_map]
  apply List.map_congr_left
  intro t _
  simp [Tag.change, hid]

theorem scenarioSteps_change (eng : Engine) (bg : List Step) (s : Scenario) :
    scenarioSteps eng (bg.map (Step.change g)) (s.change g) = scenarioSteps eng bg s := by
  simp only [scenarioSteps, Scenario.change, List.isEmpty_map, ← List.map_append]
  rw [stepLoop_map (f' := pickleStep eng) (pickleStep_change hid eng) (fun _ => rfl)]

theorem rowSteps_change (eng : Engine) (bg : List Step) (s : Scenario) (h r : Row) :
    rowSteps eng (bg.map (Step.change g)) (s.change g) (h.change g) (r.change g) = rowSteps eng bg s h r := by
  simp only [rowSteps, Scenario.change, List.isEmpty_map]
  rw [stepLoop_map (f' := pickleStep eng) (pickleStep_change hid eng) (fun _ => rfl)]
  have : ∀ last, stepLoop (outlineStep eng (h.change g).cells (r.change g)) last (s.steps.map (Step.change g)) =
      stepLoop (outlineStep eng h.cells r) last s.steps := fun last =>
    stepLoop_map (f' := outlineStep eng h.cells r) (fun x ty => outlineStep_change hid eng h.cells r x ty) (fun _ => rfl) _ _
  simp only [this]

theorem compileScenario_change (eng : Engine) (uri : Str) (ts : List Tag) (bg : List Step) (s : Scenario) (l : Str) :
    compileScenario eng uri (ts.map (Tag.change g)) (bg.map (Step.change g)) (s.change g) l = compileScenario eng uri ts bg s l := by
  have h1 : (s.change g).name = s.name := rfl
  have h2 : (s.change g).id = s.id := hid _
  have h3 : (s.change g).tags = s.tags.map (Tag.change g) := rfl
  simp only [compileScenario, scenarioSteps_change hid, h1, h2, h3, ← List.map_append, pickleTags_change hid]

theorem compileRow_change (eng : Engine) (uri : Str) (ts : List Tag) (bg : List Step) (s : Scenario) (l : Str) (e : Examples) (h r : Row) :
    compileRow eng uri (ts.map (Tag.change g)) (bg.map (Step.change g)) (s.change g) l (e.change g) (h.change g) (r.change g) =
      compileRow eng uri ts bg s l e h r := by
  have h1 : (s.change g).name = s.name := rfl
  have h2 : (s.change g).id = s.id := hid _
  have h3 : (s.change g).tags = s.tags.map (Tag.change g) := rfl
  have h4 : (e.change g).tags = e.tags.map (Tag.change g) := rfl
  have h5 : (r.change g).id = r.id := hid _
  have h6 : (r.change g).cells = r.cells.map (Cell.change g) := rfl
  have h7 : (h.change g).cells = h.cells.map (Cell.change g) := rfl
  simp only [compileRow, rowSteps_change hid, h1, h2, h3, h4, h5, h6, h7, ← List.map_append, pickleTags_change hid, interpolate_change]

theorem compileAny_change (eng : Engine) (uri : Str) (ts : List Tag) (bg : List Step) (s : Scenario) (l : Str) :
    compileAny eng uri (ts.map (Tag.change g)) (bg.map (Step.change g)) (s.change g) l = compileAny eng uri ts bg s l := by
  have h4 : (s.change g).examples = s.examples.map (Examples.change g) := rfl
  simp only [compileAny, h4, List.isEmpty_map, compileScenario_change hid]
  congr 1
  simp only [compileOutline, h4, each_map]
  congr 2
  funext e
  have he : (e.change g).header = e.header.map (Row.change g) := rfl
  have hb : (e.change g).body = e.body.map (Row.change g) := rfl
  rw [he, hb]
  cases e.header with
  | none => rfl
  | some h =>
    simp only [Option.map_some, each_map]
    congr 1
    funext r
    exact compileRow_change hid eng uri ts bg s l e h r

theorem compileRuleChildren_change (eng : Engine) (uri : Str) (ts : List Tag) (l : Str) : ∀ (cs : List RuleChild) (bg : List Step),
    compileRuleChildren eng uri (ts.map (Tag.change g)) l (bg.map (Step.change g)) (cs.map (RuleChild.change g)) =
      compileRuleChildren eng uri ts l bg cs := by
  intro cs
  induction cs with
  | nil => intro bg; rfl
  | cons c cs ih =>
    intro bg
    cases c with
    | background b =>
      have hs : (b.change g).steps = b.steps.map (Step.change g) := rfl
      simp only [List.map_cons, RuleChild.change, compileRuleChildren, hs, ← List.map_append]
      exact ih _
    | scenario s => simp only [List.map_cons, RuleChild.change, compileRuleChildren, compileAny_change hid, ih]

theorem compileChildren_change (eng : Engine) (uri : Str) (ts : List Tag) (l : Str) : ∀ (cs : List FeatureChild) (bg : List Step),
    compileChildren eng uri (ts.map (Tag.change g)) l (bg.map (Step.change g)) (cs.map (FeatureChild.change g)) =
      compileChildren eng uri ts l bg cs := by
  intro cs
  induction cs with
  | nil => intro bg; rfl
  | cons c cs ih =>
    intro bg
    cases c with
    | background b =>
      have hs : (b.change g).steps = b.steps.map (Step.change g) := rfl
      simp only [List.map_cons, FeatureChild.change, compileChildren, hs, ← List.map_append]
      exact ih _
    | scenario s => simp only [List.map_cons, FeatureChild.change, compileChildren, compileAny_change hid, ih]
    | rule r =>
      have h1 : (r.change g).tags = r.tags.map (Tag.change g) := rfl
      have h2 : (r.change g).children = r.children.map (RuleChild.change g) := rfl
      simp only [List.map_cons, FeatureChild.change, compileChildren, compileRule, h1, h2, ← List.map_append,
        compileRuleChildren_change hid, ih]

/-- Pickles depend neither on locations nor on descriptions nor on comments. -/
theorem compile_change (eng : Engine) (uri : Str) (d d' : Document) (h : d'.feature = d.feature.map (Feature.change g)) :
    compile eng uri d' = compile eng uri d := by
  simp only [compile, h]
  cases d.feature with
  | none => rfl
  | some f =>
    have h1 : (f.change g).tags = f.tags.map (Tag.change g) := rfl
    have h2 : (f.change g).children = f.children.map (FeatureChild.change g) := rfl
    have h3 : (f.change g).language = f.language := rfl
    have := fun l => compileChildren_change hid eng uri f.tags l f.children []
    simp only [List.map_nil] at this
    simp only [Option.map_some, h1, h2, h3, List.isEmpty_map, this]

end Pickles

/-- Documents whose features agree up to locations and descriptions have the same pickles. -/
theorem compile_bare (eng : Engine) (uri : Str) {d d' : Document} (h : d'.feature.map Feature.bare = d.feature.map Feature.bare) :
    Pickles.compile eng uri d' = Pickles.compile eng uri d := by
  rw [← Pickles.compile_change (g := ⟨fun _ => .zero, fun i => i, fun _ => []⟩) (fun _ => rfl) eng uri d' ⟨d'.feature.map Feature.bare, []⟩ rfl,
    ← Pickles.compile_change (g := ⟨fun _ => .zero, fun i => i, fun _ => []⟩) (fun _ => rfl) eng uri d ⟨d.feature.map Feature.bare, []⟩ rfl, h]

end Gherkin
