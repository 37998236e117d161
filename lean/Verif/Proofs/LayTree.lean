import Verif.Proofs.LayFile
import Verif.Spec.Outline

/-! The outline of the document of a layout. -/

namespace Gherkin

namespace Auto

open Layout (Ln place)
open Cst (thread threadOpt)

theorem tokOf_line (m : CState) (k : Kind) (s : Str) (n : Nat) : (tokOf m k s n).loc.line = n := by
  have := classic_lawful.locLine k (Token.fresh ⟨s, n⟩) m
  simp only [classic] at this
  rw [tokOf, this]; rfl

theorem thread_map {α β γ : Type} {f : α → Nat → β × Nat} {g : β → γ} {h : α → γ} (hh : ∀ a n, g (f a n).1 = h a) : ∀ (xs : List α) (n : Nat),
    (thread f xs n).1.map g = xs.map h
  | [], _ => rfl
  | x :: xs, n => by simp [thread, hh, thread_map hh xs]

theorem place_map {α β γ : Type} {len : α → Nat} {f : Nat → α → β} {g : β → γ} {h : Nat → α → γ} (hh : ∀ n a, g (f n a) = h n a) : ∀ (xs : List α) (n : Nat),
    (place len f n xs).map g = place len h n xs
  | [], _ => rfl
  | x :: xs, n => by simp [place, hh, place_map hh xs]

theorem place_map' {α β γ : Type} {len : α → Nat} {f : Nat → α → β} {g : β → γ} {h : Nat → α → γ} : ∀ {xs : List α} (_ : ∀ a ∈ xs, ∀ n, g (f n a) = h n a) (n : Nat),
    (place len f n xs).map g = place len h n xs
  | [], _, _ => rfl
  | x :: xs, hh, n => by simp [place, hh x (by simp), place_map' (xs := xs) fun a ha => hh a (by simp [ha])]

theorem itemLoc_line (t : Token) (c : Nat) : (Cst.itemLoc t c).line = t.loc.line := by unfold Cst.itemLoc; split <;> rfl

theorem lineTags_trees (t : Token) (n : Nat) : (Cst.lineTags t n).1.map Tag.tree = List.replicate t.items.length (.node .tagLine t.loc.line []) := by
  rw [Cst.lineTags, thread_map (h := fun _ => .node .tagLine t.loc.line [])]
  · exact List.map_const'
  · intro a n; simp [Tag.tree, itemLoc_line]

theorem tags_flat {γ : Type} {g : Tag → γ} {h : Token → List γ} (hh : ∀ t n, (Cst.lineTags t n).1.map g = h t) : ∀ (ts : List Token) (n : Nat),
    (Cst.tags ts n).1.map g = (ts.map h).flatten := by
  intro ts n
  simp only [Cst.tags, List.map_flatten]
  rw [thread_map (g := List.map g) (h := h) hh]

theorem tagToks_items {m : CState} (hc : m.Calm) {s : Str} {n : Nat} (hk : Layout.kind m.dialect s = .tagLine) (hb : ¬ BadTags s) :
    (tokOf m .tagLine s n).items.length = Layout.tagCount s := by
  obtain ⟨ts, ht⟩ := sound_tag (n := n) hc.valid.known hk hb
  have hf := lineKind_fits m.dialect ⟨s, n⟩
  rw [show lineKind m.dialect ⟨s, n⟩ = .tagLine from hk] at hf
  simp only [fits, firstIs_iff] at hf
  have l1 : (Token.fresh ⟨s, n⟩).line = ⟨s, n⟩ := rfl
  have ht0 : Line.tags ⟨s, 0⟩ = .ok ts := ht
  simp [tokOf, Classic.matchKind, Classic.matchTagLine, l1, hf, ht, setMatched, Layout.tagCount, ht0]

theorem tags_tree {m : CState} (hc : m.Calm) {ts : List Ln} (h : Layout.TagsOk m.dialect ts) (n k : Nat) :
    (Cst.tags (tagToks m n ts) k).1.map Tag.tree = Layout.tagTrees n ts := by
  rw [tags_flat lineTags_trees, Layout.tagTrees, tagToks]
  rw [place_map' (h := fun n (l : Ln) => List.replicate (Layout.tagCount l.text) (Sketch.node .tagLine n []))]
  intro l hl n
  rw [tagToks_items hc (h l hl).1.1 (h l hl).2, tokOf_line]

theorem rows_tree {m : CState} (rs : List Ln) (n k : Nat) : (thread Cst.row (rowToks m n rs) k).1.map Row.tree = Layout.rowTrees n rs := by
  rw [thread_map (h := fun t => .node .tableRow t.loc.line []) (by intros; rfl), rowToks, Layout.rowTrees, place_map]
  intro n l; rw [tokOf_line]

theorem rowToks_cons (m : CState) (n : Nat) (r : Ln) (rs : List Ln) : rowToks m n (r :: rs) = tokOf m .tableRow r.text n :: rowToks m (n + r.texts.length) rs := rfl

theorem arg_tree {m : CState} (a : Layout.Arg) (n k : Nat) : ((argCst m n a).ast k).1.trees = a.trees n := by
  cases a with
  | none => rfl
  | table r rs => simp only [argCst, Cst.Arg.ast, StepArg.trees, Layout.Arg.trees, ← rowToks_cons, rows_tree]
  | doc o ls c => simp only [argCst, Cst.Arg.ast, StepArg.trees, Layout.Arg.trees, tokOf_line]

theorem step_tree {m : CState} (n : Nat) (s : Layout.Step) (k : Nat) : ((stepCst m n s).ast k).1.tree = s.tree n := by
  simp only [Cst.CStep.ast, Step.tree, Layout.Step.tree, stepCst, tokOf_line, arg_tree]

theorem steps_tree {m : CState} (n : Nat) (ss : List Layout.Step) (k : Nat) : (thread Cst.CStep.ast (stepsCst m n ss) k).1.map Step.tree = Layout.stepTrees n ss := by
  rw [stepsCst, Layout.stepTrees]
  induction ss generalizing n k with
  | nil => rfl
  | cons s ss ih => simp only [place, thread, List.map_cons, step_tree, ih]

theorem background_tree {m : CState} (n : Nat) (b : Layout.Background) (k : Nat) : ((backgroundCst m n b).ast k).1.tree = b.tree n := by
  simp only [Cst.CBackground.ast, Background.tree, Layout.Background.tree, backgroundCst, tokOf_line, steps_tree]

theorem head_tail {α : Type} (l : List α) : l.head?.toList ++ l.tail = l := by cases l <;> rfl

theorem examples_tree {m : CState} (hc : m.Calm) (n : Nat) (b : Layout.Examples) (h : b.Ok m.dialect) (k : Nat) : ((examplesCst m n b).ast k).1.tree = b.tree n := by
  simp only [Cst.CExamples.ast, Examples.tree, Layout.Examples.tree, examplesCst, tokOf_line, head_tail, rows_tree, tags_tree hc h.1]
  rfl

theorem thread_place {α β γ δ : Type} {len : α → Nat} {f : Nat → α → β} {a : β → Nat → γ × Nat} {g : γ → δ} {t : Nat → α → δ} : ∀ {xs : List α}
    (_ : ∀ x ∈ xs, ∀ n k, g (a (f n x) k).1 = t n x) (n k : Nat), (thread a (place len f n xs) k).1.map g = place len t n xs
  | [], _, _, _ => rfl
  | x :: xs, h, n, k => by
    simp only [place, thread, List.map_cons, h x (by simp), thread_place (xs := xs) fun y hy => h y (by simp [hy])]

theorem scenario_tree {m : CState} (hc : m.Calm) (n : Nat) (b : Layout.Scenario) (h : b.Ok m.dialect) (k : Nat) : ((scenarioCst m n b).ast k).1.tree = b.tree n := by
  simp only [Cst.CScenario.ast, Scenario.tree, Layout.Scenario.tree, scenarioCst, tokOf_line, steps_tree, tags_tree hc h.1]
  rw [thread_place (t := Layout.Examples.tree) (fun x hx n k => examples_tree hc n x (h.2.2.2 x hx) k)]
  rfl

theorem backgroundOpt_tree {m : CState} (n : Nat) (b : Option Layout.Background) (k : Nat) :
    (threadOpt Cst.CBackground.ast (b.map (backgroundCst m n)) k).1.toList.map Background.tree = Layout.backgroundTrees n b := by
  cases b with
  | none => rfl
  | some b => simp [threadOpt, Layout.backgroundTrees, place, background_tree]

theorem scenarios_tree {m : CState} (hc : m.Calm) (n : Nat) (ss : List Layout.Scenario) (h : ∀ s ∈ ss, s.Ok m.dialect) (k : Nat) :
    (thread Cst.CScenario.ast (place (fun s => s.texts.length) (scenarioCst m) n ss) k).1.map Scenario.tree = Layout.scenarioTrees n ss :=
  thread_place (fun x hx n k => scenario_tree hc n x (h x hx) k) n k

theorem rule_tree {m : CState} (hc : m.Calm) (n : Nat) (b : Layout.Rule) (h : b.Ok m.dialect) (k : Nat) : ((ruleCst m n b).ast k).1.tree = b.tree n := by
  have e1 : RuleChild.tree ∘ RuleChild.background = Background.tree := rfl
  have e2 : RuleChild.tree ∘ RuleChild.scenario = Scenario.tree := rfl
  simp only [Cst.CRule.ast, RuleNode.tree, Layout.Rule.tree, ruleCst, tokOf_line, tags_tree hc h.1, List.map_append, List.map_map, e1, e2, backgroundOpt_tree,
    scenarios_tree hc _ _ h.2.2.2]
  rfl

theorem feature_tree {m : CState} (hc : m.Calm) (n : Nat) (t : Option Token) (b : Layout.Feature) (h : b.Ok m.dialect) (k : Nat) :
    ((featureCst m n t b).ast k).1.tree = b.tree n := by
  have e1 : FeatureChild.tree ∘ FeatureChild.background = Background.tree := rfl
  have e2 : FeatureChild.tree ∘ FeatureChild.scenario = Scenario.tree := rfl
  have e3 : FeatureChild.tree ∘ FeatureChild.rule = RuleNode.tree := rfl
  simp only [Cst.CFeature.ast, Feature.tree, Layout.Feature.tree, featureCst, tokOf_line, tags_tree hc h.1, List.map_append, List.map_map, e1, e2, e3, backgroundOpt_tree,
    scenarios_tree hc _ _ h.2.2.2.1]
  rw [thread_place (t := Layout.Rule.tree) (fun x hx n k => rule_tree hc n x (h.2.2.2.2 x hx) k)]
  rfl

end Auto

/-- The matcher after the language header is outside doc strings and has the dialect of the layout. -/
theorem file_matcher {m : CState} (hm : m.Valid) {F : Layout.File} (hF : F.Ok m.defaultName) :
    (Auto.fileMatcher (Classic.reset m) F).Calm ∧ F.feature.Ok (Auto.fileMatcher (Classic.reset m) F).dialect ∧
    (Auto.fileMatcher (Classic.reset m) F).dialectName =
      (match F.language with | none => m.defaultName | some l => (Classic.languageName l.text).getD []) := by
  have hc := Auto.reset_calm hm
  obtain ⟨_, _, hF⟩ := hF
  cases hl : F.language with
  | none =>
    rw [hl] at hF
    obtain ⟨d, hd, hf⟩ := hF
    have hm1 : Auto.fileMatcher (Classic.reset m) F = Classic.reset m := by simp [Auto.fileMatcher, hl]
    rw [hm1]
    exact ⟨hc, by rw [Auto.reset_dialect hm hd]; exact hf, reset_name hm⟩
  | some l =>
    rw [hl] at hF
    obtain ⟨hla, name, d, hh, hd, hf⟩ := hF
    have hlne : l.text ≠ [] := by
      obtain ⟨_, _, a, b, c, e, f, _, _, _, _, _, h⟩ := hh
      rw [h]; simp
    have hm1 : Auto.fileMatcher (Classic.reset m) F = { Classic.reset m with dialectName := name, dialect := d } := by
      simp only [Auto.fileMatcher, hl]; exact (Auto.header_go (m := Classic.reset m) hh hd 0 [] hlne).2.1
    rw [hm1]
    exact ⟨⟨⟨hd, hc.valid.dflt⟩, hc.active, hc.indent⟩, hf, by simp [languageName_iff.2 hh]⟩

end Gherkin
