import Verif.Proofs.FindDoc
import Verif.Props.Document

/-! C32: looking up nodes by id. -/

namespace Gherkin

/-- C32: in the dictionaries of a parsed document (with the key `uri` that the caller adds) the search for an id returns a node and its
enclosing dictionary iff this is a node with this id inside the document and its innermost enclosing dictionary; so there is exactly one.
It returns nothing iff the id does not occur in the document. -/
theorem C32_find_node {μ : Type} (M : Matcher μ) (hM : M.Lawful) (stop : Bool) (text : Str) (m : μ) (b : BState) (d : Document)
    (h : (parse ⟨M, astBuilder, stop⟩ text m b).1 = .ok (some d)) (uri : Str) :
    (∀ i node encl, J.find i none (d.withUri uri) = some (node, encl) ↔ Within none (d.withUri uri) node encl ∧ node.IsNode i) ∧
    (∀ i, J.find i none (d.withUri uri) = none ↔ i ∉ d.ids) := by
  have hd := (C08_ids_distinct M hM stop text m b d h).1
  refine ⟨fun i node encl => ⟨J.find_sound i none _, fun hw => J.find_complete hw.1 hw.2 ?_⟩, fun i => ?_⟩
  · rw [withUri_ids]; exact hd
  · rw [J.find_none, withUri_ids]

/-- C32 for the nodes the Robot model asks for: scenarios, their steps, background steps and rows of examples tables, each with the
dictionary around it. -/
theorem C32_find_typed {μ : Type} (M : Matcher μ) (hM : M.Lawful) (stop : Bool) (text : Str) (m : μ) (b : BState) (d : Document)
    (h : (parse ⟨M, astBuilder, stop⟩ text m b).1 = .ok (some d)) (uri : Str) :
    (∀ s ∈ d.scenarios, J.find s.id none (d.withUri uri) = some (s.toJson, some (.dict [(py"scenario", s.toJson)]))) ∧
    (∀ s ∈ d.scenarios, ∀ x ∈ s.steps, J.find x.id none (d.withUri uri) = some (x.toJson, some s.toJson)) ∧
    (∀ g ∈ d.backgrounds, ∀ x ∈ g.steps, J.find x.id none (d.withUri uri) = some (x.toJson, some g.toJson)) ∧
    (∀ e ∈ d.examples, ∀ r ∈ e.body, J.find r.id none (d.withUri uri) = some (r.toJson, some e.toJson)) := by
  have hf := (C32_find_node M hM stop text m b d h uri).1
  refine ⟨fun s hs => (hf _ _ _).2 ⟨scenario_within hs, scenario_isNode s⟩,
    fun s hs x hx => (hf _ _ _).2 ⟨(scenario_within hs).trans (scenario_step_within hx), step_isNode x⟩,
    fun g hg x hx => (hf _ _ _).2 ⟨(background_within hg).trans (background_step_within hx), step_isNode x⟩, fun e he r hr => ?_⟩
  simp only [Document.examples, List.mem_flatMap] at he
  obtain ⟨s, hs, he⟩ := he
  exact (hf _ _ _).2 ⟨((scenario_within hs).trans (examples_within he)).trans (body_within hr), row_isNode r⟩

/-! A row of the sample's examples table is found below its examples block; an id that does not occur is not found. -/

/-- The text of a string value. -/
def J.text? : J → Option Str
  | .str s => some s
  | _ => none

example : (((J.find 7 none (Sample.doc.withUri py"a.feature")).bind (·.2)).bind (J.get? py"keyword")).bind J.text? = some py"Examples" := by
  decide +kernel
example : (((J.find 12 none (Sample.doc.withUri py"a.feature")).map (·.1)).bind (J.get? py"name")).bind J.text? = some py"buy <what>" := by
  decide +kernel
example : (J.find 100 none (Sample.doc.withUri py"a.feature")).isNone = true := by decide +kernel

end Gherkin
