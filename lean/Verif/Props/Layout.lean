import Verif.Proofs.LayTree
import Verif.Proofs.LayBack2
import Verif.Proofs.LayCheck
import Verif.Props.Samples
import Verif.Props.Blocks

/-! # C56: every well-formed text is read, and the document has the structure of the text -/

namespace Gherkin

open Auto

/-- **C56.** A text whose lines are arranged as Gherkin asks for is read without an error, in both error modes, and the document has for each line of
the text the element it should have, in its place: nothing is missing, nothing is added, nothing is attached to something else. -/
theorem C56_layout_accepted {m : CState} (hm : m.Valid) {F : Layout.File} (hF : F.Ok m.defaultName) {text : Str} (ht : splitLines text = F.texts)
    (b : BState) (stop : Bool) :
    ∃ d f, (parse (classicCfg astBuilder stop) text m b).1 = .ok (some d) ∧ d.feature = some f ∧ f.tree = F.tree := by
  obtain ⟨h1, cm, h2⟩ := file_parses hm hF ht b stop
  obtain ⟨hc, hf, _⟩ := file_matcher hm hF
  refine ⟨_, _, h2, rfl, ?_⟩
  simp only [Layout.File.tree, Layout.size]
  exact feature_tree hc _ _ _ hf _

/-- A text without a feature is read if it has only blank lines and comments that do not look like language headers. -/
theorem C56_nothing_accepted {m : CState} (hm : m.Valid) {text : Str} (hn : Layout.Noise (splitLines text))
    (hh : ∀ s ∈ splitLines text, ∀ name, ¬ IsHeader name s) (b : BState) (stop : Bool) :
    ∃ d, (parse (classicCfg astBuilder stop) text m b).1 = .ok (some d) ∧ d.feature = none := by
  have hc := reset_calm hm
  obtain ⟨q, hq, h⟩ := Piece.noise (n := 1) hc (S := [0]) (by decide) hn (.inr fun s hs => by
    have := (not_header (l := ⟨s, 0⟩)).2 (hh s hs)
    exact this) (splitLines_ne text) 0 (by simp)
  simp only [List.mem_singleton] at hq
  subst hq
  obtain ⟨tr, he⟩ := eof_run (m := Classic.reset m) (q := 0) (q' := 42) (by decide) ((splitLines text).length + 1)
  obtain ⟨mv, h1, h2⟩ := h _ _ _ _ he
  rw [← tokenLines_from] at h1
  refine ⟨_, run_doc (D := ⟨none, tokOf (Classic.reset m) .eof [] ((splitLines text).length + 1)⟩) hm h1 ?_ ?_ b stop, rfl⟩
  · exact ⟨by simp, rfl⟩
  · rw [← coreToks, h2]; rfl

/-- **C56, the other direction.** A text that is read with a feature is arranged as Gherkin asks for. -/
theorem C56_accepted_layout {m : CState} (hm : m.Valid) {text : Str} {b : BState} {stop : Bool} {d : Document} {f : Feature}
    (h : (parse (classicCfg astBuilder stop) text m b).1 = .ok (some d)) (hf : d.feature = some f) :
    ∃ F : Layout.File, F.Ok m.defaultName ∧ splitLines text = F.texts ∧ f.tree = F.tree := by
  obtain ⟨mv, q, m', D, h1, h2, h3, h4⟩ := accepted_doc hm h
  have hr : Read text m mv q m' D := ⟨hm, h1, h2, h3⟩
  cases hD : D.feature with
  | none => rw [h4] at hf; simp [Cst.CDoc.ast, hD, Cst.threadOpt] at hf
  | some F =>
    obtain ⟨F, g1, g2⟩ := hr.layout hD
    obtain ⟨d', f', e1, e2, e3⟩ := C56_layout_accepted hm g1 g2 b stop
    rw [h] at e1
    injection e1 with e1
    injection e1 with e1
    subst e1
    rw [hf] at e2
    injection e2 with e2
    subst e2
    exact ⟨F, g1, g2, e3⟩

/-- **C56, exactly.** Which texts are accepted: those arranged as Gherkin asks for, and those that have only blank lines and comments that do not look
like language headers. -/
theorem C56_accepted_iff {m : CState} (hm : m.Valid) (text : Str) (b : BState) (stop : Bool) :
    (∃ d, (parse (classicCfg astBuilder stop) text m b).1 = .ok (some d)) ↔
    (∃ F : Layout.File, F.Ok m.defaultName ∧ splitLines text = F.texts) ∨
    (Layout.Noise (splitLines text) ∧ ∀ s ∈ splitLines text, ∀ name, ¬ IsHeader name s) := by
  constructor
  · rintro ⟨d, h⟩
    obtain ⟨mv, q, m', D, h1, h2, h3, h4⟩ := accepted_doc hm h
    have hr : Read text m mv q m' D := ⟨hm, h1, h2, h3⟩
    cases hD : D.feature with
    | none => exact .inr (hr.nothing hD)
    | some F => exact .inl (hr.layout hD)
  · rintro (⟨F, g1, g2⟩ | ⟨g1, g2⟩)
    · obtain ⟨d, _, h, _⟩ := C56_layout_accepted hm g1 g2 b stop
      exact ⟨d, h⟩
    · obtain ⟨d, h, _⟩ := C56_nothing_accepted hm g1 g2 b stop
      exact ⟨d, h⟩

/-! ### The hypotheses can be met: the layout of the sample text -/

namespace Sample
open Layout

/-- A step line with its argument and the number of cells of its rows. -/
def backgroundStep : Layout.Step := ⟨⟨py"    Given a user\n", []⟩, .table ⟨py"      | name | age |\n", []⟩ [⟨py"      | Ann  | 7   |\n", [py"\n", py"  # a comment\n"]⟩]⟩
def docStep : Layout.Step :=
  ⟨⟨py"    When the user buys <what>\n", []⟩, .doc py"      \"\"\"json\n" [py"      { \"a\": 1 }\n"] ⟨py"      \"\"\"\n", []⟩⟩
def outline : Layout.Scenario :=
  ⟨[⟨py"  @x\n", []⟩], ⟨py"  Scenario Outline: buy <what>\n", [], [], []⟩,
   [docStep, ⟨⟨py"    Then the price is <price>\n", [py"\n"]⟩, .none⟩],
   [⟨[⟨py"    @cheap\n", []⟩], ⟨py"    Examples:\n", [], [], []⟩,
     [⟨py"      | what | price |\n", []⟩, ⟨py"      | egg  | 1     |\n", []⟩, ⟨py"      | milk | 2     |\n", [py"\n"]⟩]⟩]⟩
def ruleScenario : Layout.Scenario := ⟨[], ⟨py"    Example: other\n", [], [], []⟩, [⟨⟨py"      * a step\n", []⟩, .none⟩], []⟩
def layout : Layout.File :=
  ⟨[], some ⟨py"# language: en\n", []⟩,
   ⟨[⟨py"@web @slow\n", []⟩], ⟨py"Feature: Shop\n", [], [py"  A description.\n", py"\n"], []⟩,
    some ⟨⟨py"  Background:\n", [], [], []⟩, [backgroundStep]⟩, [outline], [⟨[], ⟨py"  Rule: second\n", [], [], []⟩, none, [ruleScenario]⟩]⟩⟩

theorem layout_texts : splitLines text = layout.texts := by decide +kernel

theorem layout_ok : layout.Ok py"en" := by
  refine ⟨by intro s hs; simp [layout] at hs, by intro s hs; simp [layout] at hs, ?_⟩
  refine ⟨by intro s hs; simp at hs, py"en", en.dialect, (languageName_iff (s := py"# language: en\n")).1 (by decide +kernel), by decide +kernel, ?_⟩
  refine ⟨tagsB_ok (by decide +kernel), headB_ok (by decide +kernel), ?_, ?_, ?_⟩
  · intro x hx
    simp only [layout, Option.mem_def, Option.some.injEq] at hx
    subst hx
    refine ⟨headB_ok (by decide +kernel), ?_⟩
    intro s hs
    simp only [List.mem_singleton] at hs
    subst hs
    exact ⟨lnB_ok (by decide +kernel), argB_ok (n := 2) (by decide +kernel)⟩
  · intro x hx
    simp only [layout, List.mem_singleton] at hx
    subst hx
    refine ⟨tagsB_ok (by decide +kernel), headB_ok (by decide +kernel), ?_, ?_⟩
    · intro s hs
      simp only [outline, List.mem_cons, List.not_mem_nil, or_false] at hs
      rcases hs with rfl | rfl
      · exact ⟨lnB_ok (by decide +kernel), argB_ok (n := 0) (by decide +kernel)⟩
      · exact ⟨lnB_ok (by decide +kernel), trivial⟩
    · intro s hs
      simp only [outline, List.mem_singleton] at hs
      subst hs
      exact ⟨tagsB_ok (by decide +kernel), headB_ok (by decide +kernel), rowsB_ok (n := 2) (by decide +kernel)⟩
  · intro x hx
    simp only [layout, List.mem_singleton] at hx
    subst hx
    refine ⟨by intro t ht; simp at ht, headB_ok (by decide +kernel), by simp, ?_⟩
    intro s hs
    simp only [List.mem_singleton] at hs
    subst hs
    refine ⟨by intro t ht; simp [ruleScenario] at ht, headB_ok (by decide +kernel), ?_, by intro t ht; simp [ruleScenario] at ht⟩
    intro s hs
    simp only [ruleScenario, List.mem_singleton] at hs
    subst hs
    exact ⟨lnB_ok (by decide +kernel), trivial⟩

example (b : BState) (stop : Bool) :
    ∃ d f, (parse (classicCfg astBuilder stop) text en b).1 = .ok (some d) ∧ d.feature = some f ∧ f.tree = layout.tree :=
  C56_layout_accepted (m := en) ⟨by decide +kernel, by decide +kernel⟩ layout_ok layout_texts b stop

/-- Comments before the end of a text without feature. -/
example (b : BState) (stop : Bool) : ∃ d, (parse (classicCfg astBuilder stop) py"# a\n\n  # b\n" en b).1 = .ok (some d) ∧ d.feature = none :=
  C56_nothing_accepted (m := en) ⟨by decide +kernel, by decide +kernel⟩
    (by rw [show splitLines py"# a\n\n  # b\n" = [py"# a\n", py"\n", py"  # b\n"] from by decide +kernel]; exact noiseB_ok (by decide +kernel))
    (by
      rw [show splitLines py"# a\n\n  # b\n" = [py"# a\n", py"\n", py"  # b\n"] from by decide +kernel]
      intro s hs name hh
      have h1 := languageName_iff.2 hh
      simp only [List.mem_cons, List.not_mem_nil, or_false] at hs
      rcases hs with rfl | rfl | rfl
      · rw [show Classic.languageName py"# a\n" = none from by decide +kernel] at h1; simp at h1
      · rw [show Classic.languageName py"\n" = none from by decide +kernel] at h1; simp at h1
      · rw [show Classic.languageName py"  # b\n" = none from by decide +kernel] at h1; simp at h1) b stop

end Sample

end Gherkin
