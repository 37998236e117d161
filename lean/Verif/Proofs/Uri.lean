import Verif.Proofs.ShiftPickle
import Verif.Props.Parts

/-! The path of a file is only a label of its pickles. -/

namespace Gherkin

open Pickles Robot

namespace Pickles

variable {eng : Engine} (uri uri' : Str)

/-- The pickle, from another file. -/
def at_ (u : Str) (p : Pickle) : Pickle := { p with uri := u }

theorem raised_self {α : Type} (x : M α) : Raised 0 id x x := by
  intro n
  show x n = _
  rcases x n with e | ⟨a, m⟩ <;> rfl

theorem each_at {α β : Type} {g : β → β} {f f' : α → M β} (hf : ∀ a, Raised 0 g (f a) (f' a)) (as : List α) : Raised 0 (List.map g) (each f as) (each f' as) := by
  have := Raised.each (s := id) hf as
  rwa [List.map_id] at this

theorem compileScenario_at (tags : List Tag) (bg : List Step) (s : Scenario) (lang : Str) :
    Raised 0 (List.map (at_ uri')) (compileScenario eng uri tags bg s lang) (compileScenario eng uri' tags bg s lang) := by
  unfold compileScenario
  refine Raised.bind (raised_self _) fun steps => ?_
  refine Raised.bind (raised_self _) fun i => ?_
  refine Raised.bind (raised_self _) fun nm => ?_
  exact Raised.pure_of rfl

theorem compileRow_at (tags : List Tag) (bg : List Step) (s : Scenario) (lang : Str) (e : Examples) (h r : Row) :
    Raised 0 (at_ uri') (compileRow eng uri tags bg s lang e h r) (compileRow eng uri' tags bg s lang e h r) := by
  unfold compileRow
  refine Raised.bind (raised_self _) fun steps => ?_
  refine Raised.bind (raised_self _) fun i => ?_
  refine Raised.bind (raised_self _) fun nm => ?_
  refine Raised.bind (raised_self _) fun nm => ?_
  exact Raised.pure_of rfl

theorem compileOutline_at (tags : List Tag) (bg : List Step) (s : Scenario) (lang : Str) :
    Raised 0 (List.map (at_ uri')) (compileOutline eng uri tags bg s lang) (compileOutline eng uri' tags bg s lang) := by
  unfold compileOutline
  refine Raised.bind (g := List.map (List.map (at_ uri'))) ?_ fun pss => Raised.pure_of (by simp [List.map_flatten])
  refine each_at ?_ s.examples
  intro e
  cases e.header with
  | none => exact fun _ => rfl
  | some hd => exact each_at (fun r => compileRow_at uri uri' tags bg s lang e hd r) e.body

theorem compileAny_at (tags : List Tag) (bg : List Step) (s : Scenario) (lang : Str) :
    Raised 0 (List.map (at_ uri')) (compileAny eng uri tags bg s lang) (compileAny eng uri' tags bg s lang) := by
  unfold compileAny
  split
  · exact compileScenario_at _ _ _ _ _ _
  · exact compileOutline_at _ _ _ _ _ _

theorem compileRuleChildren_at (tags : List Tag) (lang : Str) (bg : List Step) (cs : List RuleChild) :
    Raised 0 (List.map (at_ uri')) (compileRuleChildren eng uri tags lang bg cs) (compileRuleChildren eng uri' tags lang bg cs) := by
  induction cs generalizing bg with
  | nil => exact fun _ => rfl
  | cons c cs ih =>
    cases c with
    | background b => exact ih (bg ++ b.steps)
    | scenario s =>
      simp only [compileRuleChildren]
      refine Raised.bind (compileAny_at _ _ _ _ _ _) fun ps => ?_
      exact Raised.bind (ih bg) fun qs => Raised.pure_of (by simp)

theorem compileChildren_at (tags : List Tag) (lang : Str) (bg : List Step) (cs : List FeatureChild) :
    Raised 0 (List.map (at_ uri')) (compileChildren eng uri tags lang bg cs) (compileChildren eng uri' tags lang bg cs) := by
  induction cs generalizing bg with
  | nil => exact fun _ => rfl
  | cons c cs ih =>
    cases c with
    | background b => exact ih (bg ++ b.steps)
    | scenario s =>
      simp only [compileChildren]
      refine Raised.bind (compileAny_at _ _ _ _ _ _) fun ps => ?_
      exact Raised.bind (ih bg) fun qs => Raised.pure_of (by simp)
    | rule r =>
      simp only [compileChildren]
      refine Raised.bind (g := List.map (at_ uri')) ?_ fun ps => Raised.bind (ih bg) fun qs => Raised.pure_of (by simp)
      unfold compileRule
      exact compileRuleChildren_at _ _ _ _ _ _

/-- Compiling a document, from another file. -/
theorem compile_at (d : Document) (n : Nat) :
    compile eng uri' d n = (compile eng uri d n).map fun p => (p.1.map (at_ uri'), p.2) := by
  have h : Raised 0 (List.map (at_ uri')) (compile eng uri d) (compile eng uri' d) := by
    unfold compile
    cases d.feature with
    | none => exact fun _ => rfl
    | some f =>
      simp only
      split
      · exact fun _ => rfl
      · refine Raised.bind (raised_self _) fun l => ?_
        exact compileChildren_at _ _ _ _ _ _
  have := h n
  rw [Nat.add_zero] at this
  rw [this]
  rcases compile eng uri d n with e | ⟨a, m⟩ <;> rfl

end Pickles

/-- Files whose features have the same name, tags and settings, and whose cases and pickles say the same, build to the same suite, positions apart, whatever their names and paths. -/
theorem suite_same_anywhere {eng : Engine} {printable : Char → Bool} {es es' : List DirEntry} {uri name uri' name' text text' : Str} {d d' : Document} {f f' : Feature}
    (hd : parseFile name text = .ok (some d)) (hd' : parseFile name' text' = .ok (some d')) (hf : d.feature = some f) (hf' : d'.feature = some f') (hn : f'.name = f.name)
    (ht : f'.tags.map Tag.name = f.tags.map Tag.name) (hs : settings es' f' = settings es f) (hc : d'.cases.map Case.content = d.cases.map Case.content)
    (hp : (compile eng uri d' 0).map (fun p => p.1.map Pickle.content) = (compile eng uri d 0).map fun p => p.1.map Pickle.content)
    {sets : List Setting} {tests : List Test} {fn : Option Str} (hb : build eng printable es uri name text = .ok (.suite sets tests, fn)) :
    ∃ tests', build eng printable es' uri' name' text' = .ok (.suite sets tests', fn) ∧ tests'.map Test.unplaced = tests.map Test.unplaced := by
  obtain ⟨d0, f0, ps, n, g1, g2, g3, _, g5, g6⟩ := build_suite hb
  have hd0 : d0 = d := by rw [hd] at g1; simpa using g1.symm
  subst hd0
  have hf0 : f0 = f := by rw [hf] at g2; simpa using g2.symm
  subst hf0
  rw [g3] at hp
  rcases hq : compile eng uri d' 0 with x | ⟨qs, k⟩
  · rw [hq] at hp; cases hp
  · have hq' : compile eng uri' d' 0 = .ok (qs.map (Pickles.at_ uri'), k) := by rw [Pickles.compile_at uri uri', hq]; rfl
    obtain ⟨_, tests', b1, _⟩ := built eng printable es' uri' name' text' d' f' hd' hf' _ k hq'
    rw [hs, hn, ← g5, ← g6] at b1
    refine ⟨tests', b1, ?_⟩
    have t1 := suite_tests hb hd hf
    have t2 := suite_tests b1 hd' hf'
    rw [ht, hc] at t2
    exact forall₂_unique (R := SuiteTest eng printable (f0.tags.map Tag.name)) (fun _ _ _ h h' => SuiteTest.unique h h') t2 t1

end Gherkin
