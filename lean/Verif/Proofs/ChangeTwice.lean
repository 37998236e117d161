import Verif.Spec.Bare
import Verif.Spec.Blocks

/-! Changing a feature twice; the descriptions of a changed feature. -/

namespace Gherkin

/-- First `a`, then `b`. -/
def Change.and_then (a b : Change) : Change := ⟨fun l => b.loc (a.loc l), fun i => b.id (a.id i), fun s => b.description (a.description s)⟩

section
variable (a b : Change)

theorem map_twice {α : Type} {f g h : α → α} (e : ∀ x, g (f x) = h x) (l : List α) : (l.map f).map g = l.map h := by
  rw [List.map_map]; exact List.map_congr_left fun x _ => e x

theorem Tag.twice (t : Tag) : (t.change a).change b = t.change (a.and_then b) := rfl
theorem Cell.twice (t : Cell) : (t.change a).change b = t.change (a.and_then b) := rfl
theorem Row.twice (r : Row) : (r.change a).change b = r.change (a.and_then b) := by
  simp only [Row.change, map_twice (Cell.twice a b)]; rfl
theorem StepArg.twice (x : StepArg) : (x.change a).change b = x.change (a.and_then b) := by
  cases x with
  | none => rfl
  | doc d => rfl
  | table t => simp only [StepArg.change, DataTable.change, map_twice (Row.twice a b)]; rfl
theorem Step.twice (s : Step) : (s.change a).change b = s.change (a.and_then b) := by
  simp only [Step.change, StepArg.twice a b]; rfl
theorem Background.twice (x : Background) : (x.change a).change b = x.change (a.and_then b) := by
  simp only [Background.change, map_twice (Step.twice a b)]; rfl
theorem Examples.twice (x : Examples) : (x.change a).change b = x.change (a.and_then b) := by
  have : (x.header.map (Row.change a)).map (Row.change b) = x.header.map (Row.change (a.and_then b)) := by
    cases x.header with
    | none => rfl
    | some r => exact congrArg some (Row.twice a b r)
  simp only [Examples.change, map_twice (Tag.twice a b), map_twice (Row.twice a b), this]; rfl
theorem Scenario.twice (x : Scenario) : (x.change a).change b = x.change (a.and_then b) := by
  simp only [Scenario.change, map_twice (Tag.twice a b), map_twice (Step.twice a b), map_twice (Examples.twice a b)]; rfl
theorem RuleChild.twice (x : RuleChild) : (x.change a).change b = x.change (a.and_then b) := by
  cases x with
  | background x => exact congrArg RuleChild.background (Background.twice a b x)
  | scenario x => exact congrArg RuleChild.scenario (Scenario.twice a b x)
theorem RuleNode.twice (x : RuleNode) : (x.change a).change b = x.change (a.and_then b) := by
  simp only [RuleNode.change, map_twice (Tag.twice a b), map_twice (RuleChild.twice a b)]; rfl
theorem FeatureChild.twice (x : FeatureChild) : (x.change a).change b = x.change (a.and_then b) := by
  cases x with
  | background x => exact congrArg FeatureChild.background (Background.twice a b x)
  | scenario x => exact congrArg FeatureChild.scenario (Scenario.twice a b x)
  | rule x => exact congrArg FeatureChild.rule (RuleNode.twice a b x)
theorem Feature.twice (f : Feature) : (f.change a).change b = f.change (a.and_then b) := by
  simp only [Feature.change, map_twice (Tag.twice a b), map_twice (FeatureChild.twice a b)]; rfl

end

/-- The descriptions of a changed feature. -/
theorem parts_change (g : Change) (f : Feature) : (f.change g).parts.map (·.2.2) = f.parts.map fun p => g.description p.2.2 := by
  have ex : ∀ x : Examples, (x.change g).parts.map (·.2.2) = x.parts.map fun p => g.description p.2.2 := fun _ => rfl
  have bg : ∀ x : Background, (x.change g).parts.map (·.2.2) = x.parts.map fun p => g.description p.2.2 := fun _ => rfl
  have fl : ∀ {α : Type} {parts : α → List (Part × Location × Str)} {c : α → α} (_ : ∀ x, (parts (c x)).map (·.2.2) = (parts x).map fun p => g.description p.2.2)
      (l : List α), ((l.map c).flatMap parts).map (·.2.2) = (l.flatMap parts).map fun p => g.description p.2.2 := by
    intro α parts c h l
    induction l with
    | nil => rfl
    | cons x l ih => simp only [List.map_cons, List.flatMap_cons, List.map_append, h, ih]
  have sc : ∀ x : Scenario, (x.change g).parts.map (·.2.2) = x.parts.map fun p => g.description p.2.2 := by
    intro x
    simp only [Scenario.parts, List.map_cons, Scenario.change]
    rw [fl ex]
  have rc : ∀ x : RuleChild, (x.change g).parts.map (·.2.2) = x.parts.map fun p => g.description p.2.2 := by
    intro x
    cases x with
    | background x => exact bg x
    | scenario x => exact sc x
  have ru : ∀ x : RuleNode, (x.change g).parts.map (·.2.2) = x.parts.map fun p => g.description p.2.2 := by
    intro x
    simp only [RuleNode.parts, List.map_cons, RuleNode.change]
    rw [fl rc]
  have fc : ∀ x : FeatureChild, (x.change g).parts.map (·.2.2) = x.parts.map fun p => g.description p.2.2 := by
    intro x
    cases x with
    | background x => exact bg x
    | scenario x => exact sc x
    | rule x => exact ru x
  simp only [Feature.parts, List.map_cons, Feature.change]
  rw [fl fc]

end Gherkin
