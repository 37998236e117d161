import Verif.Proofs.Find
import Verif.Spec.Pickles

/-! Where the nodes of a document stand in its dictionaries. -/

namespace Gherkin

open J

theorem Within.trans {p e1 e2 : Option J} {a b c : J} (h1 : Within p a b e1) (h2 : Within e1 b c e2) : Within p a c e2 := by
  induction h1 with
  | self => exact h2
  | value hv _ ih => exact .value hv (ih h2)
  | item hv _ ih => exact .item hv (ih h2)

theorem Within.field {p : Option J} {l : List (Str × Option J)} {k : Str} {v : J} (h : (k, some v) ∈ l) :
    Within p (.rejectNones l) v (some (.rejectNones l)) :=
  .value (List.mem_filterMap.2 ⟨_, h, rfl⟩) .self

theorem Within.element {α : Type} {p : Option J} {l : List (Str × Option J)} {k : Str} {f : α → J} {as : List α} {a : α}
    (h : (k, some (.list (as.map f))) ∈ l) (ha : a ∈ as) : Within p (.rejectNones l) (f a) (some (.rejectNones l)) :=
  (Within.field h).trans (.item (List.mem_map_of_mem ha) .self)

theorem Within.wrapped {p : Option J} {k : Str} {v : J} : Within p (.dict [(k, v)]) v (some (.dict [(k, v)])) :=
  .value (List.mem_singleton.2 rfl) .self

theorem step_isNode (s : Step) : IsNode s.id s.toJson := by simp [IsNode, Step.toJson, rejectNones, get?]
theorem row_isNode (r : Row) : IsNode r.id r.toJson := by simp [IsNode, Row.toJson, get?]
theorem tag_isNode (t : Tag) : IsNode t.id t.toJson := by simp [IsNode, Tag.toJson, get?]
theorem scenario_isNode (s : Scenario) : IsNode s.id s.toJson := by simp [IsNode, Scenario.toJson, rejectNones, get?]
theorem examples_isNode (e : Examples) : IsNode e.id e.toJson := by simp [IsNode, Examples.toJson, rejectNones, get?]
theorem background_isNode (b : Background) : IsNode b.id b.toJson := by simp [IsNode, Background.toJson, rejectNones, get?]
theorem rule_isNode (r : RuleNode) : IsNode r.id r.toJson := by simp [IsNode, RuleNode.toJson, rejectNones, get?]

theorem child_within {d : Document} {uri : Str} {f : Feature} (hf : f ∈ d.feature) {c : FeatureChild} (hc : c ∈ f.children) :
    Within none (d.withUri uri) c.toJson (some f.toJson) := by
  have h1 : Within none (d.withUri uri) f.toJson (some (d.withUri uri)) := by
    refine Within.field (k := py"feature") ?_
    rw [Option.mem_def] at hf
    simp [Document.fields, hf]
  refine h1.trans ?_
  exact Within.element (k := py"children") (by simp) hc

theorem ruleChild_within {p : Option J} {r : RuleNode} {c : RuleChild} (hc : c ∈ r.children) :
    Within p r.toJson c.toJson (some r.toJson) := Within.element (k := py"children") (by simp) hc

/-- A scenario stands in a dictionary of its own. -/
theorem scenario_within {d : Document} {uri : Str} {s : Scenario} (hs : s ∈ d.scenarios) :
    Within none (d.withUri uri) s.toJson (some (.dict [(py"scenario", s.toJson)])) := by
  simp only [Document.scenarios, List.mem_flatMap, Option.mem_toList] at hs
  obtain ⟨f, hf, c, hc, hs⟩ := hs
  have h1 := child_within (uri := uri) hf hc
  cases c with
  | background b => simp [FeatureChild.scenarios] at hs
  | scenario s' =>
    simp only [FeatureChild.scenarios, List.mem_singleton] at hs; subst hs
    exact h1.trans .wrapped
  | rule r =>
    simp only [FeatureChild.scenarios, List.mem_flatMap] at hs
    obtain ⟨c, hc, hs⟩ := hs
    have h2 := h1.trans (Within.wrapped.trans (ruleChild_within hc))
    cases c with
    | background b => simp at hs
    | scenario s' =>
      simp only [List.mem_singleton] at hs; subst hs
      exact h2.trans .wrapped

theorem background_within {d : Document} {uri : Str} {b : Background} (hb : b ∈ d.backgrounds) :
    Within none (d.withUri uri) b.toJson (some (.dict [(py"background", b.toJson)])) := by
  simp only [Document.backgrounds, List.mem_flatMap, Option.mem_toList] at hb
  obtain ⟨f, hf, c, hc, hb⟩ := hb
  have h1 := child_within (uri := uri) hf hc
  cases c with
  | scenario b => simp [FeatureChild.backgrounds] at hb
  | background s' =>
    simp only [FeatureChild.backgrounds, List.mem_singleton] at hb; subst hb
    exact h1.trans .wrapped
  | rule r =>
    simp only [FeatureChild.backgrounds, List.mem_flatMap] at hb
    obtain ⟨c, hc, hb⟩ := hb
    have h2 := h1.trans (Within.wrapped.trans (ruleChild_within hc))
    cases c with
    | scenario b => simp at hb
    | background s' =>
      simp only [List.mem_singleton] at hb; subst hb
      exact h2.trans .wrapped

theorem scenario_step_within {p : Option J} {s : Scenario} {x : Step} (h : x ∈ s.steps) : Within p s.toJson x.toJson (some s.toJson) :=
  Within.element (k := py"steps") (by simp) h

theorem background_step_within {p : Option J} {b : Background} {x : Step} (h : x ∈ b.steps) : Within p b.toJson x.toJson (some b.toJson) :=
  Within.element (k := py"steps") (by simp) h

theorem examples_within {p : Option J} {s : Scenario} {e : Examples} (h : e ∈ s.examples) : Within p s.toJson e.toJson (some s.toJson) :=
  Within.element (k := py"examples") (by simp) h

theorem body_within {p : Option J} {e : Examples} {r : Row} (h : r ∈ e.body) : Within p e.toJson r.toJson (some e.toJson) :=
  Within.element (k := py"tableBody") (by simp) h

end Gherkin
