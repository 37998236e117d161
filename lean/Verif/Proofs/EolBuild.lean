import Verif.Proofs.Run
import Verif.Proofs.Eol
import Verif.TokenFormatter

/-! The builders do not look at the line ends of the tokens' lines. -/

namespace Gherkin

open AstNode AstB

def Item.canon : Item → Item
  | .tok t => .tok t.canon
  | .node r items => .node r (items.map Item.canon)
  | i => i

def BState.canon (b : BState) : BState :=
  { b with stack := b.stack.map fun (r, items) => (r, items.map Item.canon) }

theorem canon_key (i : Item) : i.canon.key = i.key := by
  cases i <;> simp [Item.canon, Item.key, Token.canon]

theorem getItems_canon (items : List Item) (key : Key) : getItems (items.map Item.canon) key = (getItems items key).map Item.canon := by
  simp only [getItems, List.filter_map]
  congr 1
  apply List.filter_congr
  intro i _
  simp [canon_key]

theorem getSingle_canon (items : List Item) (key : Key) :
    getSingle (items.map Item.canon) key = (getSingle items key).map Item.canon := by
  simp [getSingle, getItems_canon, List.head?_map]

theorem getTokens_canon (items : List Item) (kd : Kind) : getTokens (items.map Item.canon) kd = (getTokens items kd).map Token.canon := by
  simp only [getTokens, getItems_canon, List.filterMap_map, List.map_filterMap]
  congr 1
  funext i
  cases i <;> simp [Item.canon]

theorem getToken_canon (items : List Item) (kd : Kind) : getToken (items.map Item.canon) kd = (getToken items kd).map Token.canon := by
  simp [getToken, getTokens_canon, List.head?_map]

theorem getTags_canon (items : List Item) (n : Nat) : getTags (items.map Item.canon) n = getTags items n := by
  unfold getTags
  rw [getSingle_canon]
  cases h : getSingle items (.r .tags) with
  | none => rfl
  | some i =>
    cases i <;> simp only [Option.map_some, Item.canon]
    rename_i r its
    simp only [getTokens_canon]
    have : ∀ ts : List Token, ((ts.map Token.canon).flatMap fun t => t.items.map fun i => (t, i)) =
        (ts.flatMap fun t => t.items.map fun i => (t, i)).map fun p => (p.1.canon, p.2) := by
      intro ts
      induction ts with
      | nil => rfl
      | cons t ts ih => simp [ih, Token.canon, Function.comp_def]
    rw [this]
    rw [List.zipIdx_map, List.map_map, List.length_map]
    rfl

theorem makeRows_canon (ts : List Token) (n : Nat) : makeRows (ts.map Token.canon) n = makeRows ts n := by
  unfold makeRows
  rw [List.zipIdx_map, List.map_map]
  rfl

theorem getTableRows_canon (items : List Item) (n : Nat) : getTableRows (items.map Item.canon) n = getTableRows items n := by
  unfold getTableRows
  simp only [getTokens_canon, makeRows_canon, List.length_map]

theorem getDescription_canon (items : List Item) : getDescription (items.map Item.canon) = getDescription items := by
  unfold getDescription
  rw [getSingle_canon]
  cases getSingle items (.r .description) with
  | none => rfl
  | some i => cases i <;> simp [Item.canon]

theorem getSteps_canon (items : List Item) : getSteps (items.map Item.canon) = getSteps items := by
  simp only [getSteps, getItems_canon, List.filterMap_map]
  congr 1; funext i; cases i <;> simp [Item.canon]

theorem getScenarios_canon (items : List Item) : getScenarios (items.map Item.canon) = getScenarios items := by
  simp only [getScenarios, getItems_canon, List.filterMap_map]
  congr 1; funext i; cases i <;> simp [Item.canon]

theorem getExamples_canon (items : List Item) : getExamples (items.map Item.canon) = getExamples items := by
  simp only [getExamples, getItems_canon, List.filterMap_map]
  congr 1; funext i; cases i <;> simp [Item.canon]

theorem getBackground_canon (items : List Item) : getBackground (items.map Item.canon) = getBackground items := by
  unfold getBackground
  rw [getSingle_canon]
  cases getSingle items (.r .background) with
  | none => rfl
  | some i => cases i <;> simp [Item.canon]

theorem getRules_canon (items : List Item) : getRules (items.map Item.canon) = getRules items := by
  unfold getRules
  rw [getItems_canon]
  induction getItems items (.r .rule) with
  | nil => rfl
  | cons i is ih =>
    simp only [List.map_cons, List.mapM_cons, ih]
    cases i <;> simp [Item.canon]

theorem getNode_canon (items : List Item) (r : Rule) : getNode (items.map Item.canon) r = (getNode items r).map (List.map Item.canon) := by
  unfold getNode
  rw [getSingle_canon]
  cases getSingle items (.r r) with
  | none => rfl
  | some i => cases i <;> simp [Item.canon]

theorem getRows_canon (items : List Item) : getRows (items.map Item.canon) = getRows items := by
  unfold getRows
  rw [getSingle_canon]
  cases getSingle items (.r .examplesTable) with
  | none => rfl
  | some i => cases i <;> simp [Item.canon]

theorem map_text_canon (ts : List Token) : (ts.map Token.canon).map (·.text) = ts.map (·.text) := by
  rw [List.map_map]; rfl

theorem mapM_text_canon (ts : List Token) : (ts.map Token.canon).mapM (fun t : Token => t.text) = ts.mapM (fun t : Token => t.text) := by
  induction ts with
  | nil => rfl
  | cons t ts ih => simp only [List.map_cons, List.mapM_cons, ih]; rfl

/-- Result of `transform` with canonical lines. -/
def transRes (x : Except MExc Item × Nat) : Except MExc Item × Nat :=
  ((match x.1 with | .ok i => .ok i.canon | .error e => .error e), x.2)

theorem transform_canon (r : Rule) (items : List Item) (cm : List Comment) (n : Nat) :
    transform r (items.map Item.canon) cm n = transRes (transform r items cm n) := by
  cases r <;> simp only [transform]
  case step =>
    unfold mkStep
    rw [getToken_canon, getSingle_canon, getSingle_canon]
    cases getToken items .stepLine with
    | none => simp [transRes]
    | some l =>
      simp only [transRes, Item.canon, Option.map_some]
      refine Prod.ext ?_ rfl
      simp only [Except.ok.injEq, Item.step.injEq, Step.mk.injEq, true_and, Token.canon]
      cases getSingle items (.r .dataTable) with
      | none =>
        simp only [Option.map_none]
        cases getSingle items (.r .docString) with
        | none => rfl
        | some i => cases i <;> simp [Item.canon]
      | some i =>
        cases i <;> simp only [Option.map_some, Item.canon] <;> first
        | rfl
        | (cases getSingle items (.r .docString) with
           | none => rfl
           | some i => cases i <;> simp [Item.canon])
  case docString =>
    unfold mkDocString
    rw [getToken_canon, getTokens_canon]
    cases getToken items .docStringSeparator with
    | none => rfl
    | some sep =>
      simp only [Option.map_some]
      rw [show sep.canon.text = sep.text from rfl, mapM_text_canon]
      cases sep.text with
      | none => rfl
      | some media =>
        simp only
        cases (getTokens items .other).mapM (·.text) <;> simp [transRes, Item.canon, Token.canon]
  case dataTable =>
    unfold mkDataTable
    rw [getTableRows_canon]
    rcases getTableRows items n with ⟨x, n'⟩
    cases x with
    | error e => rfl
    | ok rs => cases rs <;> simp [transRes, Item.canon]
  case background =>
    unfold mkBackground
    rw [getToken_canon]
    cases getToken items .backgroundLine with
    | none => simp [transRes]
    | some l =>
      simp only [getDescription_canon, getSteps_canon, transRes, Item.canon, Option.map_some]
      rfl
  case scenarioDefinition =>
    unfold mkScenario
    rw [getTags_canon, getNode_canon]
    rcases getTags items n with ⟨tags, n1⟩
    cases getNode items .scenario with
    | none => rfl
    | some sub =>
      simp only [Option.map_some, getToken_canon]
      cases getToken sub .scenarioLine with
      | none => simp [transRes]
      | some l =>
        simp only [getDescription_canon, getSteps_canon, getExamples_canon, transRes, Item.canon, Option.map_some]
        rfl
  case examplesDefinition =>
    unfold mkExamples
    rw [getTags_canon, getNode_canon]
    rcases getTags items n with ⟨tags, n1⟩
    cases getNode items .examples with
    | none => rfl
    | some sub =>
      simp only [Option.map_some, getToken_canon]
      cases getToken sub .examplesLine with
      | none => simp [transRes]
      | some l =>
        simp only [getDescription_canon, getRows_canon, transRes, Item.canon, Option.map_some]
        rfl
  case examplesTable =>
    unfold mkExamplesTable
    rw [getTableRows_canon]
    rcases getTableRows items n with ⟨x, n'⟩
    cases x <;> simp [transRes, Item.canon]
  case description =>
    unfold mkDescription
    rw [getTokens_canon, map_text_canon]
    cases trimTexts ((getTokens items .other).map (·.text)) with
    | nil => simp [transRes, Item.canon, joinStr]
    | cons t ts =>
      simp only
      cases (t :: ts).mapM id <;> simp [transRes, Item.canon]
  case rule =>
    unfold mkRule
    rw [getNode_canon]
    cases getNode items .ruleHeader with
    | none => simp [transRes, Item.canon]
    | some header =>
      simp only [Option.map_some, getTags_canon, getToken_canon]
      rcases getTags header n with ⟨tags, n1⟩
      cases getToken header .ruleLine with
      | none => simp [transRes, Item.canon]
      | some l =>
        simp only [getDescription_canon, getBackground_canon, getScenarios_canon, transRes, Item.canon, Option.map_some]
        rfl
  case feature =>
    unfold mkFeature
    rw [getNode_canon]
    cases getNode items .featureHeader with
    | none => simp [transRes, Item.canon]
    | some header =>
      simp only [Option.map_some, getTags_canon, getToken_canon]
      rcases getTags header n with ⟨tags, n1⟩
      cases getToken header .featureLine with
      | none => simp [transRes, Item.canon]
      | some l =>
        simp only [getRules_canon, Option.map_some]
        cases getRules items with
        | none => simp [transRes, Item.canon]
        | some rules =>
          simp only [getDescription_canon, getBackground_canon, getScenarios_canon, transRes, Item.canon]
          rfl
  case gherkinDocument =>
    simp only [transRes, mkDocument, Item.canon, getSingle_canon]
    cases getSingle items (.r .feature) with
    | none => simp
    | some i => cases i <;> simp [Item.canon]
  all_goals simp [transRes, Item.canon]

/-- `φ` follows the builder's methods when the tokens have canonical lines. -/
structure Builder.Blind {σ ρ : Type} (B : Builder σ ρ) (φ : σ → σ) : Prop where
  reset : ∀ b, φ (B.reset b) = B.reset b
  start : ∀ r b, B.start r (φ b) = ((B.start r b).1, φ (B.start r b).2)
  stop : ∀ r b, B.stop r (φ b) = ((B.stop r b).1, φ (B.stop r b).2)
  build : ∀ t b, B.build t.canon (φ b) = ((B.build t b).1, φ (B.build t b).2)
  result : ∀ b, B.result (φ b) = B.result b

theorem astBuilder_blind : astBuilder.Blind BState.canon where
  reset b := rfl
  start r b := rfl
  stop r b := by
    simp only [astBuilder, endRule]
    rcases b with ⟨stack, cm, n⟩
    cases stack with
    | nil => rfl
    | cons x rest =>
      cases rest with
      | nil => rfl
      | cons y rest =>
        obtain ⟨r, items⟩ := x
        obtain ⟨pr, pitems⟩ := y
        simp only [BState.canon, List.map_cons, transform_canon]
        rcases transform r items cm n with ⟨z, n'⟩
        cases z <;> simp [transRes]
  build t b := by
    simp only [astBuilder, build]
    rcases b with ⟨stack, cm, n⟩
    rw [show t.canon.type = t.type from rfl]
    split
    · rfl
    · cases stack with
      | nil => rfl
      | cons x rest => simp [BState.canon, Item.canon]
  result b := by
    simp only [astBuilder, result]
    rcases b with ⟨stack, cm, n⟩
    cases stack with
    | nil => rfl
    | cons x rest =>
      obtain ⟨r, items⟩ := x
      simp only [BState.canon, List.map_cons, getSingle_canon]
      cases getSingle items (.r .gherkinDocument) with
      | none => rfl
      | some i => cases i <;> simp [Item.canon]

theorem formatToken_canon (t : Token) : Fmt.formatToken t.canon = Fmt.formatToken t := by
  unfold Fmt.formatToken
  rw [show t.canon.eof = t.line.canon.isEof from rfl, canon_eof]
  rfl

theorem formatter_blind : formatter.Blind (List.map Token.canon) where
  reset b := rfl
  start r b := rfl
  stop r b := rfl
  build t b := by simp [formatter]
  result b := by
    simp only [formatter, Fmt.result]
    have : (b.map Token.canon).mapM Fmt.formatToken = b.mapM Fmt.formatToken := by
      induction b with
      | nil => rfl
      | cons t ts ih => simp only [List.map_cons, List.mapM_cons, ih, formatToken_canon]
    rw [this]

end Gherkin
