import Verif.Spec.Messages
import Verif.Props.Robot

/-! # C95: the dictionaries are Cucumber messages -/

namespace Gherkin

open Message Robot

theorem list_items {α : Type} {read : J → Option α} {write : α → J} (h : ∀ a, read (write a) = some a) (as : List α) : list read (.list (as.map write)) = some as := by
  induction as with
  | nil => rfl
  | cons a as ih =>
    have ih : items read (as.map write) = some as := ih
    show (read (write a)).bind _ = _
    rw [h, Option.bind_some, ih, Option.bind_some]

theorem tag_back (t : Tag) : tag t.toJson = some t := rfl
theorem cell_back (c : Cell) : cell c.toJson = some c := rfl

theorem row_back (r : Row) : row r.toJson = some r := by
  have : row r.toJson = (list cell (.list (r.cells.map Cell.toJson))).bind fun cells => some ⟨r.id, r.loc, cells⟩ := rfl
  rw [this, list_items cell_back]; rfl

theorem dataTable_back (t : DataTable) : dataTable t.toJson = some t := by
  have : dataTable t.toJson = (list row (.list (t.rows.map Row.toJson))).bind fun rows => some ⟨t.loc, rows⟩ := rfl
  rw [this, list_items row_back]; rfl

theorem docString_back (d : DocString) : docString d.toJson = some d := by
  obtain ⟨l, c, d, m⟩ := d
  cases d <;> cases m <;> rfl

theorem type_back (t : KType) : Message.keywordType (.str t.name) = some t := by cases t <;> rfl

theorem step_back (s : Step) : step s.toJson = some s := by
  obtain ⟨id, loc, kw, kt, text, arg⟩ := s
  have e : ∀ t : DataTable, (stepArg none (some t.toJson)) = some (.table t) := by intro t; simp [stepArg, dataTable_back]
  have e' : ∀ t : DocString, (stepArg (some t.toJson) none) = some (.doc t) := by intro t; simp [stepArg, docString_back]
  cases arg with
  | none => rcases kt with _ | (_ | _ | _ | _ | _) <;> cases kw <;> cases text <;> rfl
  | table t =>
    have : step (Step.toJson ⟨id, loc, kw, kt, text, .table t⟩) = (stepArg none (some t.toJson)).bind fun arg => some ⟨id, loc, kw, kt, text, arg⟩ := by
      rcases kt with _ | (_ | _ | _ | _ | _) <;> cases kw <;> cases text <;> rfl
    rw [this, e]; rfl
  | doc t =>
    have : step (Step.toJson ⟨id, loc, kw, kt, text, .doc t⟩) = (stepArg (some t.toJson) none).bind fun arg => some ⟨id, loc, kw, kt, text, arg⟩ := by
      rcases kt with _ | (_ | _ | _ | _ | _) <;> cases kw <;> cases text <;> rfl
    rw [this, e']; rfl

theorem background_back (b : Background) : background b.toJson = some b := by
  obtain ⟨id, loc, kw, name, desc, steps⟩ := b
  have : background (Background.toJson ⟨id, loc, kw, name, desc, steps⟩) = (list step (.list (steps.map Step.toJson))).bind fun steps => some ⟨id, loc, kw, name, desc, steps⟩ := by
    cases kw <;> cases name <;> rfl
  rw [this, list_items step_back]; rfl

theorem examples_back (e : Examples) : Message.examples e.toJson = some e := by
  obtain ⟨id, tags, loc, kw, name, desc, header, body⟩ := e
  have : Message.examples (Examples.toJson ⟨id, tags, loc, kw, name, desc, header, body⟩) = (list tag (.list (tags.map Tag.toJson))).bind fun tags =>
      (may row (header.map Row.toJson)).bind fun header => (list row (.list (body.map Row.toJson))).bind fun body => some ⟨id, tags, loc, kw, name, desc, header, body⟩ := by
    cases kw <;> cases name <;> cases header <;> rfl
  have h : may row (header.map Row.toJson) = some header := by
    cases header with
    | none => rfl
    | some r => simp [may, row_back]
  rw [this, list_items tag_back, list_items row_back, h]; rfl

theorem scenario_back (s : Scenario) : scenario s.toJson = some s := by
  obtain ⟨id, tags, loc, kw, name, desc, steps, ex⟩ := s
  have : scenario (Scenario.toJson ⟨id, tags, loc, kw, name, desc, steps, ex⟩) = (list tag (.list (tags.map Tag.toJson))).bind fun tags =>
      (list step (.list (steps.map Step.toJson))).bind fun steps => (list Message.examples (.list (ex.map Examples.toJson))).bind fun ex =>
      some ⟨id, tags, loc, kw, name, desc, steps, ex⟩ := by
    cases kw <;> cases name <;> rfl
  rw [this, list_items tag_back, list_items step_back, list_items examples_back]; rfl

theorem ruleChild_back (c : RuleChild) : ruleChild c.toJson = some c := by
  cases c with
  | background b => show (background b.toJson).map _ = _; rw [background_back]; rfl
  | scenario s => show (scenario s.toJson).map _ = _; rw [scenario_back]; rfl

theorem rule_back (r : RuleNode) : rule r.toJson = some r := by
  obtain ⟨id, tags, loc, kw, name, desc, children⟩ := r
  have : rule (RuleNode.toJson ⟨id, tags, loc, kw, name, desc, children⟩) = (list tag (.list (tags.map Tag.toJson))).bind fun tags =>
      (list ruleChild (.list (children.map RuleChild.toJson))).bind fun children => some ⟨id, tags, loc, kw, name, desc, children⟩ := by
    cases kw <;> cases name <;> rfl
  rw [this, list_items tag_back, list_items ruleChild_back]; rfl

theorem featureChild_back (c : FeatureChild) : featureChild c.toJson = some c := by
  cases c with
  | background b => show (background b.toJson).map _ = _; rw [background_back]; rfl
  | scenario s => show (scenario s.toJson).map _ = _; rw [scenario_back]; rfl
  | rule r => show (rule r.toJson).map _ = _; rw [rule_back]; rfl

theorem feature_back (f : Feature) : Message.feature f.toJson = some f := by
  obtain ⟨tags, loc, lang, kw, name, desc, children⟩ := f
  have : Message.feature (Feature.toJson ⟨tags, loc, lang, kw, name, desc, children⟩) = (list tag (.list (tags.map Tag.toJson))).bind fun tags =>
      (list featureChild (.list (children.map FeatureChild.toJson))).bind fun children => some ⟨tags, loc, lang, kw, name, desc, children⟩ := by
    cases lang <;> cases kw <;> cases name <;> rfl
  rw [this, list_items tag_back, list_items featureChild_back]; rfl

theorem comment_back (c : Comment) : comment c.toJson = some c := by
  obtain ⟨l, t⟩ := c
  cases t <;> rfl

/-- **C95.** The dictionary of a document is a `GherkinDocument` message, from which the document can be read back; so two documents have the same dictionary only if they are the same. -/
theorem C95_document (d : Document) : document d.toJson = some (none, d) := by
  obtain ⟨f, cs⟩ := d
  have : document (Document.toJson ⟨f, cs⟩) = (may Message.feature (f.map Feature.toJson)).bind fun f => (list comment (.list (cs.map Comment.toJson))).bind fun cs => some (none, ⟨f, cs⟩) := by
    cases f <;> rfl
  have h : may Message.feature (f.map Feature.toJson) = some f := by
    cases f with
    | none => rfl
    | some f => simp [may, feature_back]
  rw [this, h, list_items comment_back]; rfl

theorem document_uri_back (d : Document) (uri : Str) : document (d.withUri uri) = some (some uri, d) := by
  obtain ⟨f, cs⟩ := d
  have : document (Document.withUri ⟨f, cs⟩ uri) = (may Message.feature (f.map Feature.toJson)).bind fun f => (list comment (.list (cs.map Comment.toJson))).bind fun cs =>
      some (some uri, ⟨f, cs⟩) := by
    cases f <;> rfl
  have h : may Message.feature (f.map Feature.toJson) = some f := by
    cases f with
    | none => rfl
    | some f => simp [may, feature_back]
  rw [this, h, list_items comment_back]; rfl

theorem ident_back (n : Nat) : ident (.id n) = some n := rfl

theorem pickleTag_back (t : PTag) : pickleTag t.toJson = some t := rfl

theorem pickleArg_back (a : PArg) : pickleArg a.toJson = some a := by
  cases a with
  | table rows =>
    have : pickleArg (PArg.toJson (.table rows)) = (list pickleRow (.list (rows.map fun cells =>
      .dict [(py"cells", .list (cells.map fun v => .dict [(py"value", .str v)]))]))).bind fun rows => some (.table rows) := rfl
    rw [this, list_items (read := pickleRow)]; · rfl
    intro cells
    show list pickleCell (.list (cells.map fun v => .dict [(py"value", .str v)])) = _
    exact list_items (read := pickleCell) (fun v => rfl) cells
  | doc c m => cases m <;> rfl

theorem pickleStep_back (s : PStep) : pickleStep s.toJson = some s := by
  obtain ⟨ids, id, type, text, arg⟩ := s
  have : pickleStep (PStep.toJson ⟨ids, id, type, text, arg⟩) = (list ident (.list (ids.map .id))).bind fun ids => (orNull Message.keywordType ((type.map fun t => J.str t.name).getD .null)).bind fun type =>
      (may pickleArg (arg.map PArg.toJson)).bind fun arg => some ⟨ids, id, type, text, arg⟩ := by
    cases arg <;> rfl
  have h : may pickleArg (arg.map PArg.toJson) = some arg := by
    cases arg with
    | none => rfl
    | some a => simp [may, pickleArg_back]
  have h2 : orNull Message.keywordType ((type.map fun t => J.str t.name).getD .null) = some type := by
    rcases type with _ | k
    · rfl
    · cases k <;> rfl
  rw [this, list_items ident_back, h, h2]; rfl

/-- **C95** for pickles. -/
theorem C95_pickle (p : Pickle) : pickle p.toJson = some p := by
  obtain ⟨ids, id, tags, name, lang, steps, uri⟩ := p
  have : pickle (Pickle.toJson ⟨ids, id, tags, name, lang, steps, uri⟩) = (list ident (.list (ids.map .id))).bind fun ids => (list pickleTag (.list (tags.map PTag.toJson))).bind fun tags =>
      (list pickleStep (.list (steps.map PStep.toJson))).bind fun steps => some ⟨ids, id, tags, name, lang, steps, uri⟩ := by
    unfold Pickle.toJson
    split <;> rfl
  rw [this, list_items ident_back, list_items pickleTag_back, list_items pickleStep_back]; rfl

/-- **C95** for everything that the stream of events yields. -/
theorem C95_event (e : Event) : envelope e.toJson = some e := by
  cases e with
  | source s => rfl
  | document uri d => show (document (d.withUri uri)).bind _ = _; rw [document_uri_back]; rfl
  | pickle p => show (pickle p.toJson).map _ = _; rw [C95_pickle]; rfl
  | parseError uri loc msg => rfl

/-! ### Concrete cases -/

namespace Sample.Messages

def text : Str := py"# c
@t
Feature: f
  Rule: r
    Background:
      * b
    Scenario Outline: s
      Given <a>
        | x |
      And y
        \"\"\"json
        z
        \"\"\"
      Examples:
        | a |
        | 1 |
"

/-- The value behind a path of keys (of the last element, where there is a list). -/
def at_ : List Str → J → Option J
  | [], j => some j
  | k :: ks, j => (j.get? k).bind fun
    | .list l => l.getLast?.bind (at_ ks)
    | v => at_ ks v

end Sample.Messages

open Sample.Messages in
/-- A parsed document, some of its fields by name, and the document read back. -/
example : ∃ d, parseFile py"a.feature" text = .ok (some d) ∧ (d.comments.length = 1 ∧ d.cases.length = 1) ∧ document d.toJson = some (none, d) ∧
    (at_ [py"feature", py"children", py"rule", py"children", py"scenario", py"steps", py"docString", py"content"] d.toJson).bind string = some py"z" ∧
    (at_ [py"feature", py"children", py"rule", py"children", py"scenario", py"steps", py"docString", py"mediaType"] d.toJson).bind string = some py"json" ∧
    (at_ [py"feature", py"children", py"rule", py"children", py"scenario", py"examples", py"tableBody", py"cells", py"value"] d.toJson).bind string = some py"1" ∧
    (at_ [py"feature", py"tags", py"name"] d.toJson).bind string = some py"@t" := by
  obtain ⟨d, hd⟩ : ∃ d, parseFile py"a.feature" text = .ok (some d) := by
    have : (match parseFile py"a.feature" text with | .ok (some _) => true | _ => false) = true := by decide +kernel
    revert this
    cases parseFile py"a.feature" text with
    | error e => simp
    | ok o => cases o with
      | none => simp
      | some d => simp
  have key : (match parseFile py"a.feature" text with
    | .ok (some d) => decide ((d.comments.length = 1 ∧ d.cases.length = 1) ∧
      (at_ [py"feature", py"children", py"rule", py"children", py"scenario", py"steps", py"docString", py"content"] d.toJson).bind string = some py"z" ∧
      (at_ [py"feature", py"children", py"rule", py"children", py"scenario", py"steps", py"docString", py"mediaType"] d.toJson).bind string = some py"json" ∧
      (at_ [py"feature", py"children", py"rule", py"children", py"scenario", py"examples", py"tableBody", py"cells", py"value"] d.toJson).bind string = some py"1" ∧
      (at_ [py"feature", py"tags", py"name"] d.toJson).bind string = some py"@t")
    | _ => false) = true := by decide +kernel
  rw [hd] at key
  simp only [decide_eq_true_eq] at key
  exact ⟨d, hd, key.1, C95_document d, key.2⟩

end Gherkin
