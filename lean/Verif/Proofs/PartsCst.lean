import Verif.Proofs.LayFile
import Verif.Proofs.CstMap
import Verif.Proofs.PartsCompile

/-! What the tree of a layout says does not depend on the line numbers and the ids. -/

namespace Gherkin

open Cst Pickles
open Layout (place)

/-- The token of a line, its number apart. -/
theorem tokOf_erase (m : CState) (k : Kind) (s : Str) (n : Nat) : (tokOf m k s n).erase = (tokOf m k s 0).erase := by
  have hl : ∀ n, (Token.fresh ⟨s, n⟩).line = ⟨s, n⟩ := fun _ => rfl
  have e1 : ∀ p, (Line.mk s n).startsWith p = (Line.mk s 0).startsWith p := fun _ => rfl
  have e2 : ∀ p, (Line.mk s n).startsWithTitle p = (Line.mk s 0).startsWithTitle p := fun _ => rfl
  have e3 : (Line.mk s n).isBlank = (Line.mk s 0).isBlank := rfl
  have e4 : (Line.mk s n).isEof = (Line.mk s 0).isEof := rfl
  have e5 : (Line.mk s n).lineText = (Line.mk s 0).lineText := rfl
  have e6 : (Line.mk s n).tags = (Line.mk s 0).tags := rfl
  have e7 : (Line.mk s n).tableCells = (Line.mk s 0).tableCells := rfl
  have e8 : ∀ j, (Line.mk s n).lineTextFrom j = (Line.mk s 0).lineTextFrom j := fun _ => rfl
  have e9 : (Line.mk s n).indent = (Line.mk s 0).indent := rfl
  have e10 : ∀ j, (Line.mk s n).restTrimmed j = (Line.mk s 0).restTrimmed j := fun _ => rfl
  unfold tokOf
  cases k <;>
    simp only [Classic.matchKind, Classic.matchEof, Classic.matchEmpty, Classic.matchComment, Classic.matchTagLine, Classic.matchTitle,
      Classic.matchStep, Classic.matchDocSep, Classic.matchSep, Classic.matchTableRow, Classic.matchLanguage, Classic.matchOther,
      Token.eof, hl, e1, e2, e3, e4, e5, e6, e7, e8, e9, e10] <;>
    (repeat' split) <;> first | rfl | skip

theorem place_same {α β γ : Type} {len : α → Nat} {f : Nat → α → β} {g : β → γ} (h : ∀ n a, g (f n a) = g (f 0 a)) :
    ∀ (as : List α) (n : Nat), (place len f n as).map g = as.map fun a => g (f 0 a)
  | [], _ => rfl
  | a :: as, n => by simp only [place, List.map_cons, h n a, place_same h as]

theorem thread_same {α β γ : Type} {f : α → Nat → β × Nat} {g : β → γ} {h : α → γ} : ∀ (as : List α) (_ : ∀ a ∈ as, ∀ n, g (f a n).1 = h a) (n : Nat),
    (thread f as n).1.map g = as.map h
  | [], _, _ => rfl
  | a :: as, hh, n => by
    simp only [thread, List.map_cons, hh a (by simp), thread_same as (fun x hx => hh x (by simp [hx]))]

/-! ### Without ids -/

/-- The row of a token. -/
def bareRow (t : Token) : Row := ((Cst.row t 0).1).change unplacing
def bareTags (ts : List Token) : List Tag := ts.flatMap fun t => t.items.map fun i => ⟨0, .zero, i.text⟩

theorem row_bare (t : Token) (n : Nat) : (Cst.row t n).1.change unplacing = bareRow t := rfl

theorem lineTags_bare (t : Token) (n : Nat) : (lineTags t n).1.map (Tag.change unplacing) = t.items.map fun i => ⟨0, .zero, i.text⟩ :=
  thread_same (f := fun (i : MItem) n => (({ id := n, loc := itemLoc t i.column, name := i.text } : Tag), n + 1)) (g := Tag.change unplacing)
    (h := fun i => ⟨0, .zero, i.text⟩) t.items (fun _ _ _ => rfl) n

theorem tags_bare (ts : List Token) (n : Nat) : (Cst.tags ts n).1.map (Tag.change unplacing) = bareTags ts := by
  unfold Cst.tags bareTags
  rw [List.map_flatten]
  have := thread_same (g := List.map (Tag.change unplacing)) (h := fun t : Token => t.items.map fun i => (⟨0, .zero, i.text⟩ : Tag)) ts (fun t _ n => lineTags_bare t n) n
  rw [this, List.flatMap_def]

def bareArg (a : Arg) : StepArg := (a.ast 0).1.change unplacing
def bareStep (s : CStep) : Step := (s.ast 0).1.change unplacing
def bareBackground (b : CBackground) : Background := (b.ast 0).1.change unplacing
def bareExamples (e : CExamples) : Examples := (e.ast 0).1.change unplacing
def bareScenario (s : CScenario) : Scenario := (s.ast 0).1.change unplacing
def bareRule (r : CRule) : RuleNode := (r.ast 0).1.change unplacing

theorem rows_bare (ts : List Token) (n : Nat) : (thread Cst.row ts n).1.map (Row.change unplacing) = ts.map bareRow :=
  thread_same ts (fun t _ n => row_bare t n) n

theorem Cst.Arg.bare (a : Arg) (n : Nat) : (a.ast n).1.change unplacing = bareArg a := by
  cases a with
  | none => rfl
  | doc => rfl
  | table r rs => simp only [bareArg, Arg.ast, StepArg.change, DataTable.change, rows_bare]

theorem Cst.CStep.bare (s : CStep) (n : Nat) : (s.ast n).1.change unplacing = bareStep s := by
  simp only [bareStep, CStep.ast, Step.change, Arg.bare]

theorem steps_bare (ss : List CStep) (n : Nat) : (thread CStep.ast ss n).1.map (Step.change unplacing) = ss.map bareStep :=
  thread_same ss (fun s _ n => s.bare n) n

theorem Cst.CBackground.bare (b : CBackground) (n : Nat) : (b.ast n).1.change unplacing = bareBackground b := by
  simp only [bareBackground, CBackground.ast, Background.change, steps_bare]

theorem head_tail_map {α β : Type} {f : α → β} {as : List α} {bs : List β} (h : as.map f = bs) : as.head?.map f = bs.head? ∧ as.tail.map f = bs.tail := by
  subst h; cases as <;> simp

theorem Cst.CExamples.bare (e : CExamples) (n : Nat) : (e.ast n).1.change unplacing = bareExamples e := by
  simp only [bareExamples, CExamples.ast, Examples.change, tags_bare, (head_tail_map (rows_bare e.table _)).1, (head_tail_map (rows_bare e.table _)).2]

theorem Cst.CScenario.bare (s : CScenario) (n : Nat) : (s.ast n).1.change unplacing = bareScenario s := by
  have h : ∀ n, (thread CExamples.ast s.examples n).1.map (Examples.change unplacing) = s.examples.map bareExamples :=
    fun n => thread_same s.examples (fun e _ n => e.bare n) n
  simp only [bareScenario, CScenario.ast, Scenario.change, tags_bare, steps_bare, h]

theorem scenarios_bare (ss : List CScenario) (n : Nat) : (thread CScenario.ast ss n).1.map (Scenario.change unplacing) = ss.map bareScenario :=
  thread_same ss (fun s _ n => s.bare n) n

theorem background_bare (b : Option CBackground) (n : Nat) : (threadOpt CBackground.ast b n).1.map (Background.change unplacing) = b.map bareBackground := by
  cases b with
  | none => rfl
  | some b => simp only [threadOpt, Option.map_some, b.bare]

theorem Cst.CRule.bare (r : CRule) (n : Nat) : (r.ast n).1.change unplacing = bareRule r := by
  have h : ∀ n k, ((threadOpt CBackground.ast r.background n).1.toList.map RuleChild.background ++ (thread CScenario.ast r.scenarios k).1.map RuleChild.scenario).map (RuleChild.change unplacing) =
      (r.background.toList.map fun b => RuleChild.background (bareBackground b)) ++ r.scenarios.map fun s => RuleChild.scenario (bareScenario s) := by
    intro n k
    rw [List.map_append, List.map_map, List.map_map]
    congr 1
    · have := congrArg (fun o => o.toList.map RuleChild.background) (background_bare r.background n)
      simpa [Option.toList_map, Function.comp_def, RuleChild.change] using this
    · have := congrArg (List.map RuleChild.scenario) (scenarios_bare r.scenarios k)
      simpa [Function.comp_def, RuleChild.change] using this
  simp only [bareRule, CRule.ast, RuleNode.change, tags_bare, h]

/-! ### Without line numbers -/

namespace Auto

theorem tok_text (m : CState) (k : Kind) (s : Str) (n : Nat) : (tokOf m k s n).text = (tokOf m k s 0).text := (congrArg Token.text (tokOf_erase m k s n) : _)
theorem tok_keyword (m : CState) (k : Kind) (s : Str) (n : Nat) : (tokOf m k s n).keyword = (tokOf m k s 0).keyword :=
  (congrArg Token.keyword (tokOf_erase m k s n) : _)
theorem tok_type (m : CState) (k : Kind) (s : Str) (n : Nat) : (tokOf m k s n).keywordType = (tokOf m k s 0).keywordType :=
  (congrArg Token.keywordType (tokOf_erase m k s n) : _)
theorem tok_items (m : CState) (k : Kind) (s : Str) (n : Nat) : (tokOf m k s n).items = (tokOf m k s 0).items := (congrArg Token.items (tokOf_erase m k s n) : _)
theorem tok_dialect (m : CState) (k : Kind) (s : Str) (n : Nat) : (tokOf m k s n).dialect = (tokOf m k s 0).dialect := (congrArg Token.dialect (tokOf_erase m k s n) : _)

theorem tok_textOf (m : CState) (k : Kind) (s : Str) (n : Nat) : textOf (tokOf m k s n) = textOf (tokOf m k s 0) := by unfold textOf; rw [tok_text]

theorem others_text (m : CState) (n : Nat) (ls : List Str) : (others m n ls).map textOf = ls.map fun s => textOf (tokOf m .other s 0) :=
  place_same (fun n s => tok_textOf m _ s n) ls n

theorem headDesc_bare (m : CState) (n : Nat) (h : Layout.Head) : description (headDesc m n h) = description (headDesc m 0 h) := by
  simp only [description, headDesc, others_text]

theorem rowTok_bare (m : CState) (s : Str) (n : Nat) : bareRow (tokOf m .tableRow s n) = bareRow (tokOf m .tableRow s 0) := by
  simp only [bareRow, Cst.row, Row.change, tok_items m _ s n, List.map_map]
  rfl

theorem rowToks_bare (m : CState) (n : Nat) (rs : List Layout.Ln) : (rowToks m n rs).map bareRow = (rowToks m 0 rs).map bareRow := by
  unfold rowToks
  have h := fun n => place_same (len := fun l : Layout.Ln => l.texts.length) (f := fun n (l : Layout.Ln) => tokOf m .tableRow l.text n)
    (g := bareRow) (fun n l => rowTok_bare m l.text n) rs n
  rw [h n, h 0]

theorem tagToks_bare (m : CState) (n : Nat) (ts : List Layout.Ln) : bareTags (tagToks m n ts) = bareTags (tagToks m 0 ts) := by
  unfold bareTags tagToks
  rw [List.flatMap_def, List.flatMap_def]
  have h := fun n => place_same (len := fun l : Layout.Ln => l.texts.length) (f := fun n (l : Layout.Ln) => tokOf m .tagLine l.text n)
    (g := fun t : Token => t.items.map fun i => (⟨0, .zero, i.text⟩ : Tag)) (fun n l => by rw [tok_items m _ l.text n]) ts n
  rw [h n, h 0]

theorem arg_bare (m : CState) (n : Nat) (a : Layout.Arg) : bareArg (argCst m n a) = bareArg (argCst m 0 a) := by
  cases a with
  | none => rfl
  | table r rs =>
    simp only [bareArg, argCst, Arg.ast, StepArg.change, DataTable.change, rows_bare, List.map_cons, rowTok_bare m _ n]
    rw [rowToks_bare, rowToks_bare m (0 + _)]
  | doc o ls c =>
    simp only [bareArg, argCst, Arg.ast, StepArg.change, DocString.change, others_text, tok_keyword m _ o n, tok_textOf m _ o n]

theorem step_bare (m : CState) (n : Nat) (s : Layout.Step) : bareStep (stepCst m n s) = bareStep (stepCst m 0 s) := by
  simp only [bareStep, stepCst, CStep.ast, Step.change, Cst.Arg.bare, arg_bare m (n + _), arg_bare m (0 + _), tok_keyword m _ _ n, tok_type m _ _ n, tok_text m _ _ n]

theorem stepsCst_bare (m : CState) (n : Nat) (ss : List Layout.Step) : (stepsCst m n ss).map bareStep = (stepsCst m 0 ss).map bareStep := by
  unfold stepsCst
  rw [place_same (fun n s => step_bare m n s), place_same (fun n s => step_bare m n s)]

theorem background_bare (m : CState) (n : Nat) (b : Layout.Background) : bareBackground (backgroundCst m n b) = bareBackground (backgroundCst m 0 b) := by
  simp only [bareBackground, backgroundCst, CBackground.ast, Background.change, steps_bare, headDesc_bare m n, stepsCst_bare m (n + _), stepsCst_bare m (0 + _),
    tok_keyword m _ _ n, tok_text m _ _ n]

theorem examples_bare (m : CState) (n : Nat) (e : Layout.Examples) : bareExamples (examplesCst m n e) = bareExamples (examplesCst m 0 e) := by
  simp only [bareExamples, examplesCst, CExamples.ast, Examples.change, tags_bare, (head_tail_map (rows_bare _ _)).1, (head_tail_map (rows_bare _ _)).2,
    tagToks_bare m n, headDesc_bare m (n + _), headDesc_bare m (0 + _), rowToks_bare m (n + _ + _), rowToks_bare m (0 + _ + _), tok_keyword m _ _ (n + _), tok_text m _ _ (n + _),
    tok_keyword m _ _ (0 + _), tok_text m _ _ (0 + _)]

theorem examplesCst_bare (m : CState) (n : Nat) (es : List Layout.Examples) :
    (place (fun e => e.texts.length) (examplesCst m) n es).map bareExamples = es.map fun e => bareExamples (examplesCst m 0 e) :=
  place_same (fun n e => examples_bare m n e) es n

theorem examplesAst_bare (es : List CExamples) (n : Nat) : (thread CExamples.ast es n).1.map (Examples.change unplacing) = es.map bareExamples :=
  thread_same es (fun e _ n => e.bare n) n

theorem scenario_bare (m : CState) (n : Nat) (s : Layout.Scenario) : bareScenario (scenarioCst m n s) = bareScenario (scenarioCst m 0 s) := by
  simp only [bareScenario, scenarioCst, CScenario.ast, Scenario.change, tags_bare, steps_bare, examplesAst_bare, examplesCst_bare, tagToks_bare m n,
    headDesc_bare m (n + _), headDesc_bare m (0 + _), stepsCst_bare m (n + _ + _), stepsCst_bare m (0 + _ + _),
    tok_keyword m _ _ (n + _), tok_text m _ _ (n + _), tok_keyword m _ _ (0 + _), tok_text m _ _ (0 + _)]

/-- What a scenario of a layout says. -/
def scen (m : CState) (s : Layout.Scenario) : Scenario := bareScenario (scenarioCst m 0 s)
def back (m : CState) (b : Layout.Background) : Background := bareBackground (backgroundCst m 0 b)
/-- The tags that tag lines say. -/
def tagged (m : CState) (ts : List Layout.Ln) : List Tag := bareTags (tagToks m 0 ts)

/-- What a rule of a layout says. -/
def ruled (m : CState) (r : Layout.Rule) : RuleNode where
  id := 0
  tags := tagged m r.tags
  loc := .zero
  keyword := (tokOf m .ruleLine r.head.line 0).keyword
  name := (tokOf m .ruleLine r.head.line 0).text
  description := description (headDesc m 0 r.head)
  children := (r.background.toList.map (back m)).map RuleChild.background ++ (r.scenarios.map (scen m)).map RuleChild.scenario

theorem backgrounds_place (m : CState) (n : Nat) (b : Option Layout.Background) : ((b.map (backgroundCst m n)).map bareBackground).toList = b.toList.map (back m) := by
  cases b with
  | none => rfl
  | some b => simp [background_bare m n, back]

theorem scenarios_place (m : CState) (n : Nat) (ss : List Layout.Scenario) :
    (place (fun s => s.texts.length) (scenarioCst m) n ss).map bareScenario = ss.map (scen m) := place_same (fun n s => scenario_bare m n s) ss n

theorem rule_bare (m : CState) (n : Nat) (r : Layout.Rule) : bareRule (ruleCst m n r) = ruled m r := by
  have h : ∀ n k (c : CRule), ((threadOpt CBackground.ast c.background n).1.toList.map RuleChild.background ++ (thread CScenario.ast c.scenarios k).1.map RuleChild.scenario).map (RuleChild.change unplacing) =
      (c.background.map bareBackground).toList.map RuleChild.background ++ (c.scenarios.map bareScenario).map RuleChild.scenario := by
    intro n k c
    rw [List.map_append, List.map_map, List.map_map]
    congr 1
    · have := congrArg (fun o => o.toList.map RuleChild.background) (Gherkin.background_bare c.background n)
      simpa [Option.toList_map, Function.comp_def, RuleChild.change] using this
    · have := congrArg (List.map RuleChild.scenario) (scenarios_bare c.scenarios k)
      simpa [Function.comp_def, RuleChild.change] using this
  simp only [bareRule, CRule.ast, RuleNode.change, tags_bare, h, ruled, tagged]
  simp only [ruleCst, backgrounds_place, scenarios_place, tagToks_bare m n, headDesc_bare m (n + _), tok_keyword m _ _ (n + _), tok_text m _ _ (n + _)]

/-- What the feature of a layout says. -/
def featured (m : CState) (f : Layout.Feature) : Feature where
  tags := tagged m f.tags
  loc := .zero
  language := (tokOf m .featureLine f.head.line 0).dialect
  keyword := (tokOf m .featureLine f.head.line 0).keyword
  name := (tokOf m .featureLine f.head.line 0).text
  description := description (headDesc m 0 f.head)
  children := (f.background.toList.map (back m)).map FeatureChild.background ++ (f.scenarios.map (scen m)).map FeatureChild.scenario ++ (f.rules.map (ruled m)).map FeatureChild.rule

theorem feature_bare (m : CState) (n : Nat) (l : Option Token) (f : Layout.Feature) (k : Nat) : ((featureCst m n l f).ast k).1.change unplacing = featured m f := by
  have h : ∀ n k j (c : CFeature), ((threadOpt CBackground.ast c.background n).1.toList.map FeatureChild.background ++ (thread CScenario.ast c.scenarios k).1.map FeatureChild.scenario ++
        (thread CRule.ast c.rules j).1.map FeatureChild.rule).map (FeatureChild.change unplacing) =
      (c.background.map bareBackground).toList.map FeatureChild.background ++ (c.scenarios.map bareScenario).map FeatureChild.scenario ++ (c.rules.map bareRule).map FeatureChild.rule := by
    intro n k j c
    rw [List.map_append, List.map_append, List.map_map, List.map_map, List.map_map]
    congr 1
    · congr 1
      · have := congrArg (fun o => o.toList.map FeatureChild.background) (Gherkin.background_bare c.background n)
        simpa [Option.toList_map, Function.comp_def, FeatureChild.change] using this
      · have := congrArg (List.map FeatureChild.scenario) (scenarios_bare c.scenarios k)
        simpa [Function.comp_def, FeatureChild.change] using this
    · have := congrArg (List.map FeatureChild.rule) (thread_same (g := RuleNode.change unplacing) c.rules (fun r _ n => r.bare n) j)
      simpa [Function.comp_def, FeatureChild.change] using this
  have hr : ∀ n, (place (fun s => s.texts.length) (ruleCst m) n f.rules).map bareRule = f.rules.map (ruled m) := by
    intro n
    have := place_same (len := fun s : Layout.Rule => s.texts.length) (f := ruleCst m) (g := bareRule) (fun n r => by rw [rule_bare, rule_bare]) f.rules n
    rw [this]
    simp only [rule_bare]
  simp only [CFeature.ast, Feature.change, tags_bare, h, featured, tagged]
  simp only [featureCst, backgrounds_place, scenarios_place, hr, tagToks_bare m n, headDesc_bare m (n + _), tok_keyword m _ _ (n + _), tok_text m _ _ (n + _), tok_dialect m _ _ (n + _)]

end Auto

end Gherkin
