import Verif.Spec.ShiftPickle
import Verif.Proofs.Pickle

/-! The compiler with raised ids gives the same pickles with raised ids. -/

namespace Gherkin.Pickles

variable {α β : Type} (k : Nat)

/-- `x'` started `k` higher does what `x` does, `k` higher. -/
def Raised (g : α → α) (x x' : M α) : Prop :=
  ∀ n, x' (n + k) = match x n with | .ok (a, m) => .ok (g a, m + k) | .error e => .error e

variable {k}

theorem Raised.bind {g : α → α} {h : β → β} {x x' : M α} {f f' : α → M β} (hx : Raised k g x x') (hf : ∀ a, Raised k h (f a) (f' (g a))) :
    Raised k h (x >>= f) (x' >>= f') := by
  intro n
  change Pickles.bind x' f' (n + k) = match Pickles.bind x f n with | .ok (a, m) => .ok (h a, m + k) | .error e => .error e
  unfold Pickles.bind
  rw [hx n]
  rcases x n with e | ⟨a, m⟩
  · rfl
  · exact hf a m

theorem Raised.pure {g : α → α} (a : α) : Raised k g (Pure.pure a) (Pure.pure (g a)) := fun _ => rfl
theorem Raised.pure_of {g : α → α} {a a' : α} (h : a' = g a) : Raised k g (Pure.pure a) (Pure.pure a') := by subst h; exact fun _ => rfl

theorem Raised.nextId : Raised k (· + k) nextId nextId := by intro n; simp [Pickles.nextId]; omega
theorem Raised.key_id (o : Option α) : Raised k id (Pickles.key o) (Pickles.key o) := by intro n; cases o <;> rfl
theorem Raised.lift (x : Except Crash α) : Raised k id (lift x) (lift x) := by intro n; cases x <;> rfl

theorem Raised.each {γ : Type} {g : β → β} {s : γ → γ} {f f' : γ → M β} (hf : ∀ a, Raised k g (f a) (f' (s a))) (as : List γ) :
    Raised k (List.map g) (each f as) (each f' (as.map s)) := by
  induction as with
  | nil => exact fun _ => rfl
  | cons a as ih =>
    exact Raised.bind (hf a) fun b => Raised.bind (h := List.map g) ih fun bs => fun _ => rfl

variable {eng : Engine}

theorem each_raised_id {γ δ : Type} {f : γ → M δ} (hf : ∀ a, Raised k id (f a) (f a)) (as : List γ) : Raised k id (each f as) (each f as) := by
  have := Raised.each (s := id) hf as
  rw [List.map_id] at this
  intro n; rw [this n]; rcases each f as n with e | ⟨a, m⟩ <;> simp

theorem pickleArg_raised (arg : StepArg) (hs vs : List Cell) : Raised k id (pickleArg eng arg hs vs) (pickleArg eng (arg.shift k) hs vs) := by
  cases arg with
  | none => exact fun _ => rfl
  | table t =>
    simp only [StepArg.shift, pickleArg, DataTable.shift]
    refine Raised.bind (g := id) ?_ fun _ => Raised.pure _
    have := Raised.each (k := k) (g := id) (s := Row.shift k) (f := fun (r : Row) => each (fun (c : Cell) => lift (interpolate eng hs vs c.value)) r.cells)
      (f' := fun (r : Row) => each (fun (c : Cell) => lift (interpolate eng hs vs c.value)) r.cells)
      (fun r => each_raised_id (fun c => Raised.lift _) _) t.rows
    intro n; rw [this n]; rcases each _ t.rows n with e | ⟨a, m⟩ <;> simp
  | doc d =>
    simp only [StepArg.shift, pickleArg]
    refine Raised.bind (Raised.lift _) fun c => ?_
    cases d.mediaType with
    | none => exact Raised.pure _
    | some mt => exact Raised.bind (Raised.lift _) fun _ => Raised.pure _

theorem pickleStep_raised (s : Step) (ty : Option KType) :
    Raised k (PStep.shift k) (pickleStep eng s ty) (pickleStep eng (s.shift k) ty) := by
  unfold pickleStep
  refine Raised.bind Raised.nextId fun i => ?_
  refine Raised.bind (Raised.key_id s.text) fun t => ?_
  exact Raised.bind (pickleArg_raised _ _ _) fun a => Raised.pure _

theorem outlineStep_raised (hs : List Cell) (row : Row) (s : Step) (ty : Option KType) :
    Raised k (PStep.shift k) (outlineStep eng hs row s ty) (outlineStep eng hs (row.shift k) (s.shift k) ty) := by
  unfold outlineStep
  refine Raised.bind (Raised.key_id s.text) fun t => ?_
  refine Raised.bind (Raised.lift _) fun t => ?_
  refine Raised.bind (pickleArg_raised _ _ _) fun a => ?_
  exact Raised.bind Raised.nextId fun i => Raised.pure _

theorem stepLoop_raised {f f' : Step → Option KType → M PStep} (hf : ∀ s ty, Raised k (PStep.shift k) (f s ty) (f' (s.shift k) ty))
    (l : Option KType) (ss : List Step) :
    Raised k (fun p => (p.1.map (PStep.shift k), p.2)) (stepLoop f l ss) (stepLoop f' l (ss.map (Step.shift k))) := by
  induction ss generalizing l with
  | nil => exact fun _ => rfl
  | cons s ss ih =>
    simp only [List.map_cons, stepLoop]
    refine Raised.bind (Raised.key_id s.keywordType) fun kt => ?_
    refine Raised.bind (hf s _) fun p => ?_
    exact Raised.bind (ih _) fun q => Raised.pure_of rfl

theorem scenarioSteps_raised (bg : List Step) (s : Scenario) :
    Raised k (List.map (PStep.shift k)) (scenarioSteps eng bg s) (scenarioSteps eng (bg.map (Step.shift k)) (s.shift k)) := by
  unfold scenarioSteps
  have : (s.shift k).steps = s.steps.map (Step.shift k) := rfl
  rw [this, List.isEmpty_map]
  split
  · exact fun _ => rfl
  · rw [← List.map_append]
    exact Raised.bind (stepLoop_raised pickleStep_raised _ _) fun r => Raised.pure_of rfl

theorem rowSteps_raised (bg : List Step) (s : Scenario) (h r : Row) :
    Raised k (List.map (PStep.shift k)) (rowSteps eng bg s h r) (rowSteps eng (bg.map (Step.shift k)) (s.shift k) (h.shift k) (r.shift k)) := by
  unfold rowSteps
  have : (s.shift k).steps = s.steps.map (Step.shift k) := rfl
  rw [this, List.isEmpty_map]
  split
  · exact fun _ => rfl
  · refine Raised.bind (stepLoop_raised pickleStep_raised _ _) fun a => ?_
    refine Raised.bind (stepLoop_raised (fun s ty => outlineStep_raised h.cells r s ty) _ _) fun b => ?_
    exact Raised.pure_of (by simp)

theorem pickleTags_shift (ts : List Tag) : pickleTags (ts.map (Tag.shift k)) = (pickleTags ts).map (PTag.shift k) := by
  simp [pickleTags, Tag.shift, PTag.shift, Function.comp_def]

theorem compileScenario_raised (uri : Str) (tags : List Tag) (bg : List Step) (s : Scenario) (lang : Str) :
    Raised k (List.map (Pickle.shift k)) (compileScenario eng uri tags bg s lang)
      (compileScenario eng uri (tags.map (Tag.shift k)) (bg.map (Step.shift k)) (s.shift k) lang) := by
  unfold compileScenario
  refine Raised.bind (scenarioSteps_raised _ _) fun steps => ?_
  refine Raised.bind Raised.nextId fun i => ?_
  refine Raised.bind (Raised.key_id s.name) fun nm => ?_
  refine Raised.pure_of ?_
  have : (s.shift k).tags = s.tags.map (Tag.shift k) := rfl
  rw [this, ← List.map_append, pickleTags_shift]
  rfl

theorem compileRow_raised (uri : Str) (tags : List Tag) (bg : List Step) (s : Scenario) (lang : Str) (e : Examples) (h r : Row) :
    Raised k (Pickle.shift k) (compileRow eng uri tags bg s lang e h r)
      (compileRow eng uri (tags.map (Tag.shift k)) (bg.map (Step.shift k)) (s.shift k) lang (e.shift k) (h.shift k) (r.shift k)) := by
  unfold compileRow
  refine Raised.bind (rowSteps_raised _ _ _ _) fun steps => ?_
  refine Raised.bind Raised.nextId fun i => ?_
  refine Raised.bind (Raised.key_id s.name) fun nm => ?_
  refine Raised.bind (Raised.lift _) fun nm => ?_
  refine Raised.pure_of ?_
  have h1 : (s.shift k).tags = s.tags.map (Tag.shift k) := rfl
  have h2 : (e.shift k).tags = e.tags.map (Tag.shift k) := rfl
  rw [h1, h2, ← List.map_append, ← List.map_append, pickleTags_shift]
  rfl

theorem compileOutline_raised (uri : Str) (tags : List Tag) (bg : List Step) (s : Scenario) (lang : Str) :
    Raised k (List.map (Pickle.shift k)) (compileOutline eng uri tags bg s lang)
      (compileOutline eng uri (tags.map (Tag.shift k)) (bg.map (Step.shift k)) (s.shift k) lang) := by
  unfold compileOutline
  refine Raised.bind (g := List.map (List.map (Pickle.shift k))) ?_ fun pss => Raised.pure_of (by simp [List.map_flatten])
  refine Raised.each ?_ s.examples
  intro e
  have h1 : (e.shift k).header = e.header.map (Row.shift k) := rfl
  have h2 : (e.shift k).body = e.body.map (Row.shift k) := rfl
  rw [h1, h2]
  cases e.header with
  | none => exact fun _ => rfl
  | some hd => exact Raised.each (fun r => compileRow_raised uri tags bg s lang e hd r) e.body

theorem compileAny_raised (uri : Str) (tags : List Tag) (bg : List Step) (s : Scenario) (lang : Str) :
    Raised k (List.map (Pickle.shift k)) (compileAny eng uri tags bg s lang)
      (compileAny eng uri (tags.map (Tag.shift k)) (bg.map (Step.shift k)) (s.shift k) lang) := by
  unfold compileAny
  have : (s.shift k).examples = s.examples.map (Examples.shift k) := rfl
  rw [this, List.isEmpty_map]
  split
  · exact compileScenario_raised _ _ _ _ _
  · exact compileOutline_raised _ _ _ _ _

theorem compileRuleChildren_raised (uri : Str) (tags : List Tag) (lang : Str) (bg : List Step) (cs : List RuleChild) :
    Raised k (List.map (Pickle.shift k)) (compileRuleChildren eng uri tags lang bg cs)
      (compileRuleChildren eng uri (tags.map (Tag.shift k)) lang (bg.map (Step.shift k)) (cs.map (RuleChild.shift k))) := by
  induction cs generalizing bg with
  | nil => exact fun _ => rfl
  | cons c cs ih =>
    cases c with
    | background b =>
      simp only [List.map_cons, RuleChild.shift, compileRuleChildren]
      have := ih (bg ++ b.steps)
      rw [List.map_append] at this
      exact this
    | scenario s =>
      simp only [List.map_cons, RuleChild.shift, compileRuleChildren]
      refine Raised.bind (compileAny_raised _ _ _ _ _) fun ps => ?_
      exact Raised.bind (ih bg) fun qs => Raised.pure_of (by simp)

theorem compileChildren_raised (uri : Str) (tags : List Tag) (lang : Str) (bg : List Step) (cs : List FeatureChild) :
    Raised k (List.map (Pickle.shift k)) (compileChildren eng uri tags lang bg cs)
      (compileChildren eng uri (tags.map (Tag.shift k)) lang (bg.map (Step.shift k)) (cs.map (FeatureChild.shift k))) := by
  induction cs generalizing bg with
  | nil => exact fun _ => rfl
  | cons c cs ih =>
    cases c with
    | background b =>
      simp only [List.map_cons, FeatureChild.shift, compileChildren]
      have := ih (bg ++ b.steps)
      rw [List.map_append] at this
      exact this
    | scenario s =>
      simp only [List.map_cons, FeatureChild.shift, compileChildren]
      refine Raised.bind (compileAny_raised _ _ _ _ _) fun ps => ?_
      exact Raised.bind (ih bg) fun qs => Raised.pure_of (by simp)
    | rule r =>
      simp only [List.map_cons, FeatureChild.shift, compileChildren]
      refine Raised.bind (g := List.map (Pickle.shift k)) ?_ fun ps => Raised.bind (ih bg) fun qs => Raised.pure_of (by simp)
      unfold compileRule
      have := compileRuleChildren_raised (k := k) (eng := eng) uri (tags ++ r.tags) lang bg r.children
      rw [List.map_append] at this
      exact this

/-- Compiling a document with raised ids. -/
theorem compile_raised (uri : Str) (d : Document) :
    Raised k (List.map (Pickle.shift k)) (compile eng uri d) (compile eng uri (d.shift k)) := by
  unfold compile
  simp only [Document.shift]
  cases d.feature with
  | none => exact fun _ => rfl
  | some f =>
    simp only [Option.map_some]
    have : (f.shift k).children = f.children.map (FeatureChild.shift k) := rfl
    rw [this, List.isEmpty_map]
    split
    · exact fun _ => rfl
    · refine Raised.bind (Raised.key_id f.language) fun l => ?_
      exact compileChildren_raised uri f.tags l [] f.children

end Gherkin.Pickles
