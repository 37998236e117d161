import Verif.Proofs.JsonText
import Verif.Spec.Shown

/-! The values of the events. -/

namespace Gherkin

open JsonText

theorem valueItems_map {α : Type} (f : α → J) (g : α → Value) (h : ∀ a, (f a).value = some (g a)) (l : List α) :
    J.valueItems (l.map f) = some (l.map g) := by
  induction l with
  | nil => rfl
  | cons a l ih => simp only [List.map_cons, J.valueItems, h a, ih]

theorem valuePairs_append (a b : List (Str × J)) : J.valuePairs (a ++ b) =
    match J.valuePairs a, J.valuePairs b with
    | some v, some w => some (v ++ w)
    | _, _ => none := by
  induction a with
  | nil => simp only [List.nil_append, J.valuePairs]; cases J.valuePairs b <;> rfl
  | cons p a ih =>
    simp only [List.cons_append, J.valuePairs, ih]
    cases J.valuePair p <;> cases J.valuePairs a <;> cases J.valuePairs b <;> rfl

theorem number_value (n : Nat) : (J.id n).value = some (Shown.number n) := rfl

theorem ptag_value (t : PTag) : t.toJson.value = some (Shown.tag t) := rfl

theorem parg_value (a : PArg) : a.toJson.value = some (Shown.arg a) := by
  cases a with
  | table rows =>
    have h : ∀ cells : List Str, (J.dict [(py"cells", .list (cells.map fun v => .dict [(py"value", .str v)]))]).value =
        some (.obj [(py"cells", .list (cells.map fun v => .obj [(py"value", .str v)]))]) := by
      intro cells
      have := valueItems_map (fun v => J.dict [(py"value", .str v)]) (fun v => .obj [(py"value", .str v)]) (fun _ => rfl) cells
      simp [J.value, J.valuePairs, J.valuePair, this]
    have := valueItems_map _ _ h rows
    simp [PArg.toJson, Shown.arg, J.value, J.valuePairs, J.valuePair, this]
  | doc c mt => cases mt <;> rfl

theorem pstep_value (s : PStep) : s.toJson.value = some (Shown.step s) := by
  have h1 := valueItems_map J.id Shown.number number_value s.astNodeIds
  rcases ht : s.type with _ | t <;> rcases ha : s.arg with _ | a
  all_goals
    simp [PStep.toJson, Shown.step, Shown.object, J.value, J.valuePairs, J.valuePair, h1, ht, ha, Shown.number]
  all_goals simp [parg_value]

theorem pickle_value (p : Pickle) : p.toJson.value = some (Shown.pickle p) := by
  have h1 := valueItems_map J.id Shown.number number_value p.astNodeIds
  have h2 := valueItems_map PTag.toJson Shown.tag ptag_value p.tags
  have h3 := valueItems_map PStep.toJson Shown.step pstep_value p.steps
  unfold Pickle.toJson Shown.pickle
  split <;> simp [J.value, J.valuePairs, J.valuePair, h1, h2, h3, Shown.number]

theorem comments_value (l : List Comment) : J.valueItems (l.map Comment.toJson) = if l = [] then some [] else none := by
  cases l with
  | nil => rfl
  | cons c l => simp [J.valueItems, Comment.toJson, J.value, J.valuePairs, J.valuePair]

theorem feature_value (f : Feature) : f.toJson.value = none := by
  have h : ∀ (p : Str × J) (l : List (Str × J)), J.valuePairs l = none → J.valuePairs (p :: l) = none := by
    intro p l h; simp only [J.valuePairs, h]; cases J.valuePair p <;> rfl
  unfold Feature.toJson J.rejectNones
  simp only [List.filterMap_cons, Option.map_some, J.value]
  rw [h]
  · rfl
  · simp [J.valuePairs, J.valuePair, J.value]

theorem event_value (e : Event) : e.toJson.value = e.shown := by
  cases e with
  | source s => rfl
  | pickle p => simp [Event.toJson, Event.shown, J.value, J.valuePairs, J.valuePair, pickle_value]
  | parseError => rfl
  | document uri d =>
    have hc := comments_value d.comments
    rcases hf : d.feature with _ | f
    · by_cases h : d.comments = []
      · simp [Event.toJson, Event.shown, hf, h, Document.withUri, Document.fields, J.rejectNones, J.value, J.valuePairs, J.valuePair, J.valueItems]
      · simp [Event.toJson, Event.shown, hf, h, Document.withUri, Document.fields, J.rejectNones, J.value, J.valuePairs, J.valuePair, hc]
    · simp [Event.toJson, Event.shown, hf, Document.withUri, Document.fields, J.rejectNones, J.value, J.valuePairs, J.valuePair, feature_value]

end Gherkin
