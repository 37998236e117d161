import Verif.Proofs.Hom
import Verif.Spec.Shift

/-! The AST builder with a raised id counter gives the same document with raised ids. -/

namespace Gherkin

open AstNode AstB

def Item.shift (k : Nat) : Item → Item
  | .tok t => .tok t
  | .node r items => .node r (items.map (Item.shift k))
  | .step s => .step (s.shift k)
  | .table t => .table (t.shift k)
  | .docString d => .docString d
  | .rows rs => .rows (rs.map (Row.shift k))
  | .background b => .background (b.shift k)
  | .scenario s => .scenario (s.shift k)
  | .examples e => .examples (e.shift k)
  | .description s => .description s
  | .rule r => .rule (r.map (RuleNode.shift k))
  | .feature f => .feature (f.map (Feature.shift k))
  | .document d => .document (d.shift k)

def BState.shift (k : Nat) (b : BState) : BState :=
  { b with stack := b.stack.map fun (r, items) => (r, items.map (Item.shift k)), nextId := b.nextId + k }

variable (k : Nat)

theorem shift_key (i : Item) : (i.shift k).key = i.key := by
  cases i <;> simp [Item.shift, Item.key]

theorem getItems_shift (items : List Item) (key : Key) : getItems (items.map (Item.shift k)) key = (getItems items key).map (Item.shift k) := by
  simp only [getItems, List.filter_map]
  congr 1
  apply List.filter_congr
  intro i _
  simp [shift_key]

theorem getSingle_shift (items : List Item) (key : Key) :
    getSingle (items.map (Item.shift k)) key = (getSingle items key).map (Item.shift k) := by
  simp [getSingle, getItems_shift, List.head?_map]

theorem getTokens_shift (items : List Item) (kd : Kind) : getTokens (items.map (Item.shift k)) kd = getTokens items kd := by
  simp only [getTokens, getItems_shift, List.filterMap_map]
  congr 1
  funext i
  cases i <;> simp [Item.shift]

theorem getToken_shift (items : List Item) (kd : Kind) : getToken (items.map (Item.shift k)) kd = getToken items kd := by
  simp [getToken, getTokens_shift]

theorem zipIdx_shift {α β : Type} (f : α → Nat → β) (g : β → β) (hg : ∀ a i, f a (i + k) = g (f a i)) (xs : List α) (n : Nat) :
    (xs.zipIdx (n + k)).map (fun p => f p.1 p.2) = ((xs.zipIdx n).map fun p => f p.1 p.2).map g := by
  induction xs generalizing n with
  | nil => rfl
  | cons x xs ih =>
    simp only [List.zipIdx_cons, List.map_cons, hg]
    rw [show n + k + 1 = (n + 1) + k by omega, ih]

theorem getTags_shift (items : List Item) (n : Nat) :
    getTags (items.map (Item.shift k)) (n + k) = ((getTags items n).1.map (Tag.shift k), (getTags items n).2 + k) := by
  unfold getTags
  rw [getSingle_shift]
  cases h : getSingle items (.r .tags) with
  | none => rfl
  | some i =>
    cases i <;> simp only [Option.map_some, Item.shift, List.map_nil]
    simp only [getTokens_shift, Prod.mk.injEq]
    exact ⟨zipIdx_shift k (fun (p : Token × MItem) id => ({ id := id, loc := locAt p.1 p.2.column, name := p.2.text } : Tag)) (Tag.shift k)
      (fun _ _ => rfl) _ _, by omega⟩

theorem makeRows_shift (ts : List Token) (n : Nat) : makeRows ts (n + k) = (makeRows ts n).map (Row.shift k) :=
  zipIdx_shift k (fun (t : Token) id => ({ id := id, loc := t.loc, cells := getCells t } : Row)) (Row.shift k) (fun _ _ => rfl) _ _

theorem raggedRow_shift (rs : List Row) : raggedRow (rs.map (Row.shift k)) = (raggedRow rs).map (Row.shift k) := by
  cases rs with
  | nil => rfl
  | cons r rs =>
    simp only [raggedRow, List.map_cons]
    rw [← List.map_cons, List.find?_map]
    rfl

theorem getTableRows_shift (items : List Item) (n : Nat) :
    getTableRows (items.map (Item.shift k)) (n + k) =
      ((match (getTableRows items n).1 with | .ok rs => .ok (rs.map (Row.shift k)) | .error e => .error e), (getTableRows items n).2 + k) := by
  unfold getTableRows
  simp only [getTokens_shift, makeRows_shift, raggedRow_shift]
  cases raggedRow (makeRows (getTokens items .tableRow) n) with
  | none => simp; omega
  | some r => simp [Row.shift]; omega

theorem getDescription_shift (items : List Item) : getDescription (items.map (Item.shift k)) = getDescription items := by
  unfold getDescription
  rw [getSingle_shift]
  cases getSingle items (.r .description) with
  | none => rfl
  | some i => cases i <;> simp [Item.shift]

theorem getSteps_shift (items : List Item) : getSteps (items.map (Item.shift k)) = (getSteps items).map (Step.shift k) := by
  simp only [getSteps, getItems_shift, List.filterMap_map, List.map_filterMap]
  congr 1; funext i; cases i <;> simp [Item.shift]

theorem getScenarios_shift (items : List Item) : getScenarios (items.map (Item.shift k)) = (getScenarios items).map (Scenario.shift k) := by
  simp only [getScenarios, getItems_shift, List.filterMap_map, List.map_filterMap]
  congr 1; funext i; cases i <;> simp [Item.shift]

theorem getExamples_shift (items : List Item) : getExamples (items.map (Item.shift k)) = (getExamples items).map (Examples.shift k) := by
  simp only [getExamples, getItems_shift, List.filterMap_map, List.map_filterMap]
  congr 1; funext i; cases i <;> simp [Item.shift]

theorem getBackground_shift (items : List Item) : getBackground (items.map (Item.shift k)) = (getBackground items).map (Background.shift k) := by
  unfold getBackground
  rw [getSingle_shift]
  cases getSingle items (.r .background) with
  | none => rfl
  | some i => cases i <;> simp [Item.shift]

theorem getRules_shift (items : List Item) : getRules (items.map (Item.shift k)) = (getRules items).map (List.map (RuleNode.shift k)) := by
  unfold getRules
  rw [getItems_shift]
  induction getItems items (.r .rule) with
  | nil => rfl
  | cons i is ih =>
    simp only [List.map_cons, List.mapM_cons, ih]
    cases i with
    | rule r =>
      cases r with
      | none => simp [Item.shift]
      | some r =>
        simp only [Item.shift, Option.map_some, Option.bind_eq_bind, Option.bind_some]
        cases List.mapM (m := Option) (fun i => match i with | Item.rule (some r) => some r | _ => none) is <;> rfl
    | _ => simp [Item.shift]

theorem getNode_shift (items : List Item) (r : Rule) : getNode (items.map (Item.shift k)) r = (getNode items r).map (List.map (Item.shift k)) := by
  unfold getNode
  rw [getSingle_shift]
  cases getSingle items (.r r) with
  | none => rfl
  | some i => cases i <;> simp [Item.shift]

theorem getRows_shift (items : List Item) : getRows (items.map (Item.shift k)) = (getRows items).map (Row.shift k) := by
  unfold getRows
  rw [getSingle_shift]
  cases getSingle items (.r .examplesTable) with
  | none => rfl
  | some i => cases i <;> simp [Item.shift]

/-- Raised result of `transform`. -/
def shiftRes (x : Except MExc Item × Nat) : Except MExc Item × Nat :=
  ((match x.1 with | .ok i => .ok (i.shift k) | .error e => .error e), x.2 + k)

theorem transform_shift (r : Rule) (items : List Item) (cm : List Comment) (n : Nat) :
    transform r (items.map (Item.shift k)) cm (n + k) = shiftRes k (transform r items cm n) := by
  cases r <;> simp only [transform]
  case step =>
    unfold mkStep
    rw [getToken_shift, getSingle_shift, getSingle_shift]
    cases getToken items .stepLine with
    | none => simp [shiftRes]; omega
    | some l =>
      simp only [shiftRes, Item.shift, Step.shift]
      refine Prod.ext ?_ (by simp; omega)
      simp only [Except.ok.injEq, Item.step.injEq, Step.mk.injEq, true_and]
      cases getSingle items (.r .dataTable) with
      | none =>
        simp only [Option.map_none]
        cases getSingle items (.r .docString) with
        | none => rfl
        | some i => cases i <;> simp [Item.shift, StepArg.shift]
      | some i =>
        cases i <;> simp only [Option.map_some, Item.shift] <;> first
        | rfl
        | (cases getSingle items (.r .docString) with
           | none => rfl
           | some i => cases i <;> simp [Item.shift, StepArg.shift])
  case docString =>
    unfold mkDocString
    rw [getToken_shift, getTokens_shift]
    cases getToken items .docStringSeparator with
    | none => rfl
    | some sep =>
      simp only
      cases sep.text with
      | none => rfl
      | some media =>
        simp only
        cases (getTokens items .other).mapM (·.text) <;> simp [shiftRes, Item.shift]
  case dataTable =>
    unfold mkDataTable
    rw [getTableRows_shift]
    rcases getTableRows items n with ⟨x, n'⟩
    cases x with
    | error e => rfl
    | ok rs => cases rs <;> simp [shiftRes, Item.shift, DataTable.shift, Row.shift]
  case background =>
    unfold mkBackground
    rw [getToken_shift]
    cases getToken items .backgroundLine with
    | none => simp [shiftRes]; omega
    | some l =>
      simp only [getDescription_shift, getSteps_shift, shiftRes, Item.shift, Background.shift]
      exact Prod.ext rfl (by simp; omega)
  case scenarioDefinition =>
    unfold mkScenario
    rw [getTags_shift, getNode_shift]
    rcases getTags items n with ⟨tags, n1⟩
    cases getNode items .scenario with
    | none => rfl
    | some sub =>
      simp only [Option.map_some, getToken_shift]
      cases getToken sub .scenarioLine with
      | none => simp [shiftRes]; omega
      | some l =>
        simp only [getDescription_shift, getSteps_shift, getExamples_shift, shiftRes, Item.shift, Scenario.shift]
        exact Prod.ext rfl (by simp; omega)
  case examplesDefinition =>
    unfold mkExamples
    rw [getTags_shift, getNode_shift]
    rcases getTags items n with ⟨tags, n1⟩
    cases getNode items .examples with
    | none => rfl
    | some sub =>
      simp only [Option.map_some, getToken_shift]
      cases getToken sub .examplesLine with
      | none => simp [shiftRes]; omega
      | some l =>
        simp only [getDescription_shift, getRows_shift, shiftRes, Item.shift, Examples.shift, List.head?_map, List.map_tail]
        exact Prod.ext rfl (by simp; omega)
  case examplesTable =>
    unfold mkExamplesTable
    rw [getTableRows_shift]
    rcases getTableRows items n with ⟨x, n'⟩
    cases x <;> simp [shiftRes, Item.shift]
  case description =>
    unfold mkDescription
    rw [getTokens_shift]
    cases trimTexts ((getTokens items .other).map (·.text)) with
    | nil => simp [shiftRes, Item.shift, joinStr]
    | cons t ts =>
      simp only
      cases (t :: ts).mapM id <;> simp [shiftRes, Item.shift]
  case rule =>
    unfold mkRule
    rw [getNode_shift]
    cases getNode items .ruleHeader with
    | none => simp [shiftRes, Item.shift]
    | some header =>
      simp only [Option.map_some, getTags_shift, getToken_shift]
      rcases getTags header n with ⟨tags, n1⟩
      cases getToken header .ruleLine with
      | none => simp [shiftRes, Item.shift]
      | some l =>
        simp only [getDescription_shift, getBackground_shift, getScenarios_shift, shiftRes, Item.shift, Option.map_some, RuleNode.shift]
        refine Prod.ext ?_ (by simp; omega)
        simp only [Except.ok.injEq, Item.rule.injEq, Option.some.injEq, RuleNode.mk.injEq, true_and, List.map_append, List.map_map]
        cases getBackground items <;> simp [RuleChild.shift, Function.comp_def]
  case feature =>
    unfold mkFeature
    rw [getNode_shift]
    cases getNode items .featureHeader with
    | none => simp [shiftRes, Item.shift]
    | some header =>
      simp only [Option.map_some, getTags_shift, getToken_shift]
      rcases getTags header n with ⟨tags, n1⟩
      cases getToken header .featureLine with
      | none => simp [shiftRes, Item.shift]
      | some l =>
        simp only [getRules_shift]
        cases getRules items with
        | none => simp [shiftRes, Item.shift]
        | some rules =>
          simp only [Option.map_some, getDescription_shift, getBackground_shift, getScenarios_shift, shiftRes, Item.shift, Feature.shift]
          refine Prod.ext ?_ rfl
          simp only [Except.ok.injEq, Item.feature.injEq, Option.some.injEq, Feature.mk.injEq, true_and, List.map_append, List.map_map]
          cases getBackground items <;> simp [FeatureChild.shift, Function.comp_def]
  case gherkinDocument =>
    simp only [shiftRes, mkDocument, Item.shift, Document.shift, getSingle_shift]
    cases getSingle items (.r .feature) with
    | none => simp [shiftRes, Item.shift]
    | some i => cases i <;> simp [Item.shift]
  all_goals simp [shiftRes, Item.shift]

theorem astBuilder_shift : astBuilder.Hom (BState.shift k) (Option.map (Document.shift k)) where
  start r b := rfl
  stop r b := by
    simp only [astBuilder, endRule]
    rcases b with ⟨stack, cm, n⟩
    cases stack with
    | nil => rfl
    | cons x rest =>
      cases rest with
      | nil => rfl
      | cons y rest =>
        obtain ⟨r, items⟩ := x
        obtain ⟨pr, pitems⟩ := y
        simp only [BState.shift, List.map_cons, transform_shift]
        rcases transform r items cm n with ⟨z, n'⟩
        cases z <;> simp [shiftRes]
  build t b := by
    simp only [astBuilder, build]
    rcases b with ⟨stack, cm, n⟩
    split
    · rfl
    · cases stack with
      | nil => rfl
      | cons x rest => simp [BState.shift, Item.shift]
  result b := by
    simp only [astBuilder, result]
    rcases b with ⟨stack, cm, n⟩
    cases stack with
    | nil => rfl
    | cons x rest =>
      obtain ⟨r, items⟩ := x
      simp only [BState.shift, List.map_cons, getSingle_shift]
      cases getSingle items (.r .gherkinDocument) with
      | none => rfl
      | some i => cases i <;> simp [Item.shift]

end Gherkin
