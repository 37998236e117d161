import Verif.Props.Suite
import Verif.Props.Print
import Verif.Props.Samples
import Verif.Spec.Bare

/-! # C61: what you write is what Robot runs -/

namespace Gherkin

open Robot Pickles

theorem forall₂_get {α β : Type} {R : α → β → Prop} : ∀ {as : List α} {bs : List β}, List.Forall₂ R as bs → ∀ {i : Nat} {a : α} {b : β},
    as[i]? = some a → bs[i]? = some b → R a b
  | _, _, .cons h _, 0, _, _, ha, hb => by simp at ha hb; subst ha hb; exact h
  | _, _, .cons _ h, i + 1, _, _, ha, hb => forall₂_get h (i := i) (by simpa using ha) (by simpa using hb)

theorem ArgRel.imp {R S : Str → Str → Prop} (h : ∀ s s', R s s' → S s s') : ∀ {a : StepArg} {p : Option PArg}, ArgRel R a p → ArgRel S a p
  | .none, none, _ => trivial
  | .table _, some (.table _), hr => List.Forall₂.imp (fun _ _ hx => List.Forall₂.imp (fun _ _ => h _ _) hx) hr
  | .doc _, some (.doc _ _), hr => ⟨h _ _ hr.1, by
      have h2 := hr.2
      generalize DocString.mediaType _ = a at h2
      cases h2 with
      | none => exact .none
      | some hx => exact .some (h _ _ hx)⟩
  | .none, some _, hr => by cases hr
  | .table _, none, hr => by cases hr
  | .table _, some (.doc _ _), hr => by cases hr
  | .doc _, none, hr => by cases hr
  | .doc _, some (.table _), hr => by cases hr

theorem StepRel.imp {R S : Str → Str → Prop} (h : ∀ s s', R s s' → S s s') {s : Step} {q : PStep} (hr : StepRel R s q) : StepRel S s q := by
  obtain ⟨⟨t, h1, h2⟩, h3⟩ := hr
  exact ⟨⟨t, h1, h _ _ h2⟩, h3.imp h⟩

/-- How the texts of a case are filled, with `R` for the columns of the row. -/
def Case.fillBy (R : List (Str × Str) → Str → Str → Prop) (c : Case) (s s' : Str) : Prop :=
  match c.row with
  | none => s = s'
  | some (_, h, r) => R (columns h r) s s'

def Case.fillAtBy (R : List (Str × Str) → Str → Str → Prop) (c : Case) (i : Nat) (s s' : Str) : Prop :=
  if i < c.background.length then s = s' else c.fillBy R s s'

theorem texts_at_by {R : List (Str × Str) → Str → Str → Prop} {c : Case} {p : Pickle} (h : c.Texts R p) {i : Nat} {s : Step} {q : PStep} (hs : c.steps[i]? = some s) (hq : p.steps[i]? = some q) :
    StepRel (c.fillAtBy R i) s q := by
  unfold Case.Texts at h
  rcases hrow : c.row with _ | ⟨e, hd, r⟩
  · rw [hrow] at h
    refine (forall₂_get h.2 hs hq).imp ?_
    intro a b hab
    unfold Case.fillAtBy Case.fillBy
    rw [hrow]
    split <;> exact hab
  · rw [hrow] at h
    by_cases hne : c.scenario.steps = []
    · rw [Case.steps, if_pos hne] at hs; simp at hs
    · obtain ⟨ps, qs, e1, h1, h2⟩ := h.2 hne
      rw [Case.steps, if_neg hne] at hs
      rw [e1] at hq
      have hl := h1.length_eq
      by_cases hi : i < c.background.length
      · rw [List.getElem?_append_left hi] at hs
        rw [List.getElem?_append_left (by omega)] at hq
        refine (forall₂_get h1 hs hq).imp ?_
        intro a b hab
        rw [Case.fillAtBy, if_pos hi]; exact hab
      · rw [List.getElem?_append_right (by omega)] at hs
        rw [List.getElem?_append_right (by omega), ← hl] at hq
        refine (forall₂_get h2 hs hq).imp ?_
        intro a b hab
        rw [Case.fillAtBy, if_neg hi, Case.fillBy, hrow]; exact hab

theorem texts_name_by {R : List (Str × Str) → Str → Str → Prop} {c : Case} {p : Pickle} (h : c.Texts R p) :
    ∃ n, c.scenario.name = some n ∧ c.fillBy R n p.name := by
  unfold Case.Texts at h
  rcases hrow : c.row with _ | ⟨e, hd, r⟩
  · rw [hrow] at h; exact ⟨_, h.1, by rw [Case.fillBy, hrow]⟩
  · rw [hrow] at h; obtain ⟨n, h1, h2⟩ := h.1; exact ⟨n, h1, by rw [Case.fillBy, hrow]; exact h2⟩

theorem texts_at {c : Case} {p : Pickle} (h : c.Texts ReplacedAll p) {i : Nat} {s : Step} {q : PStep} (hs : c.steps[i]? = some s)
    (hq : p.steps[i]? = some q) : StepRel (c.FillAt i) s q := texts_at_by h hs hq

theorem texts_name {c : Case} {p : Pickle} (h : c.Texts ReplacedAll p) : ∃ n, c.scenario.name = some n ∧ c.Fill n p.name := texts_name_by h

theorem case_step_filled {d : Document} (hd : Ready d) {f : Feature} (hf : d.feature = some f) {c : Case} (hc : c ∈ d.cases) {s : Step} (hs : s ∈ c.steps) :
    s.keyword.isSome := by
  obtain ⟨c1, c2, _⟩ := case_nodes hf hc
  have : (Gherkin.Entry.step s.loc s.keyword s.keywordType s.text).Filled := by
    unfold Case.steps at hs
    split at hs
    · simp at hs
    · rw [List.mem_append] at hs
      rcases hs with hs | hs
      · obtain ⟨b, hb, hs⟩ := c2 s hs
        refine hd.filled _ (mem_doc_step (s := s) ?_ _ (by simp [Step.entries]))
        simp only [Document.steps, List.mem_append, List.mem_flatMap]; exact .inl ⟨b, hb, hs⟩
      · refine hd.filled _ (mem_doc_step (s := s) ?_ _ (by simp [Step.entries]))
        simp only [Document.steps, List.mem_append, List.mem_flatMap]; exact .inr ⟨_, c1, hs⟩
  exact this.2.1

theorem testFor_of {d : Document} (hd : Ready d) {f : Feature} (hf : d.feature = some f) {c : Case} (hc : c ∈ d.cases) {p : Pickle} {own : List Tag} {t : Test}
    (ho : c.tags = f.tags ++ own) (ht : TestOf own c p t) (htx : c.Texts ReplacedAll p) (hl : p.steps.length = c.steps.length)
    (hty : ∀ i, i < c.steps.length → (p.steps[i]?).map (·.type) = some (c.typeAt i)) : TestFor f c t where
  name := by obtain ⟨n, h1, h2⟩ := texts_name htx; exact ⟨n, _, h1, h2, ht.name⟩
  docs := by
    obtain ⟨calls, _, hbody⟩ := ht.body
    rw [Test.docs, hbody, List.filterMap_append, List.filterMap_append, List.filterMap_map]
    have e2 : (if own = [] then [] else [Item.tags (own.map fun t => t.name.drop 1)]).filterMap Item.doc? = [] := by split <;> rfl
    have e3 : calls.filterMap (Item.doc? ∘ Item.call) = ([] : List Str) := by rw [List.filterMap_eq_nil_iff]; intro a _; rfl
    rw [e2, e3, docOf]
    split <;> rfl
  tags := by
    refine ⟨own.map Tag.name, by rw [ho]; simp, ?_⟩
    obtain ⟨calls, _, hbody⟩ := ht.body
    rw [Test.tagNames, hbody, List.flatMap_append, List.flatMap_append, List.flatMap_map]
    have e1 : (if c.scenario.description = [] then [] else [Item.documentation (strip c.scenario.description)]).flatMap Item.tagList = [] := by
      split <;> rfl
    have e2 : (if own = [] then [] else [Item.tags (own.map fun t => t.name.drop 1)]).flatMap Item.tagList = own.map fun t => t.name.drop 1 := by
      split
      · rename_i hn; simp [hn]
      · simp
    rw [e1, e2]
    simp [Function.comp_def]
  count := by
    have := (calls_of ht).length_eq
    rw [List.length_zip, hl, Nat.min_self] at this
    exact this.symm
  calls := by
    intro i s toks hs htoks
    obtain ⟨hi, _⟩ := List.getElem?_eq_some_iff.1 hs
    obtain ⟨q, hq⟩ : ∃ q, p.steps[i]? = some q := ⟨_, List.getElem?_eq_getElem (by omega)⟩
    have hz : (c.steps.zip p.steps)[i]? = some (s, q) := by
      rw [List.getElem?_zip_eq_some]; exact ⟨hs, hq⟩
    have hcall := forall₂_get (calls_of ht) hz htoks
    obtain ⟨⟨x, hx, hfx⟩, harg⟩ := texts_at htx hs hq
    obtain ⟨kw, hkw⟩ := Option.isSome_iff_exists.1 (case_step_filled hd hf hc (List.mem_of_getElem? hs))
    have h1 := hty i hi
    rw [hq, Option.map_some, Option.some.injEq] at h1
    have h2 := hcall.name
    simp only [h1, hkw, Option.getD_some] at h2
    exact ⟨kw, x, q.text, q.arg, hkw, hx, hfx, harg, h2, hcall.args⟩

/-- Everything about a test at once. -/
theorem runs (eng : Engine) (printable : Char → Bool) (es : List DirEntry) (uri name content : Str) (d : Document) (f : Feature)
    (h : parseFile name content = .ok (some d)) (hf : d.feature = some f) (hp : d.PlainExamples) :
    ∃ tests, build eng printable es uri name content = .ok (.suite (settings es f) tests, f.name) ∧
      List.Forall₂ (fun (c : Case) (t : Test) => TestFor f c t) d.cases tests := by
  obtain ⟨hr, hb, _⟩ := parseFile_ready h
  obtain ⟨ps, n, hc⟩ := C30_compiles eng uri name content d h (by
    intro e he hd' hh c hcell
    refine Pickles.readable_plain ?_
    rw [List.any_eq_false]
    intro x hx
    rw [hp e he hd' hh c hcell x hx]; simp)
  obtain ⟨_, tests, h2, h3⟩ := built eng printable es uri name content d f h hf ps n hc
  have ht := C28_pickle_replaced_partial eng uri d hb (by
    intro e he hd' hh r hrow
    exact ⟨hp e he hd' hh, Nat.le_of_eq (hr.tables e he hd' hh r hrow).symm⟩) 0 n ps hc
  have hty := C27_pickle_types eng uri d hb 0 n ps hc
  refine ⟨tests, h2, forall₂_zip_left (S := fun c p => c.Texts ReplacedAll p ∧ p.steps.length = c.steps.length ∧
    ∀ i, i < c.steps.length → (p.steps[i]?).map (·.type) = some (c.typeAt i)) ?_ ?_ h3⟩
  · rintro c p t ⟨h4, h5, h6⟩ ⟨hcd, _, own, ho, ht⟩
    exact testFor_of hr hf hcd ho ht h4 h5 h6
  · clear h2 h3 hc
    generalize d.cases = cs at *
    clear * - ht hty
    induction ht with
    | nil => exact .nil
    | cons a _ ih =>
      cases hty with
      | cons b hty => exact .cons ⟨a, b.1, b.2⟩ (ih hty)

theorem settings_for (es : List DirEntry) (f : Feature) : SettingsFor f (settings es f) := by
  constructor
  · intro s
    simp only [settings, List.mem_append, List.mem_singleton, List.mem_map]
    constructor
    · rintro (((h | h) | ⟨_, _, h⟩) | h)
      · split at h
        · simp at h
        · rename_i hne; simp at h; exact ⟨hne, h⟩
      · cases h
      · cases h
      · split at h <;> simp at h
    · rintro ⟨hne, rfl⟩
      exact .inl (.inl (.inl (by rw [if_neg hne]; simp)))
  · intro ts
    simp only [settings, List.mem_append, List.mem_singleton, List.mem_map]
    constructor
    · rintro (((h | h) | ⟨_, _, h⟩) | h)
      · split at h <;> simp at h
      · cases h
      · cases h
      · split at h
        · simp at h
        · rename_i hne; simp at h; exact ⟨hne, by simpa using h⟩
    · rintro ⟨hne, rfl⟩
      exact .inr (by rw [if_neg hne]; simp)

/-- **C61.** Take any feature file, plain or Markdown, that parses and has a feature, with no character special in regular expressions in
the headers of its examples. Robot Framework gets a suite
with the feature's name, description and tags, and exactly one test per case of the document, in order: each is named, documented and tagged as its
scenario is and calls the case's steps (background first), in order, as they are written, with the row's values for the placeholders and with the
steps' tables and doc strings as arguments. -/
theorem C61_what_runs (eng : Engine) (printable : Char → Bool) (es : List DirEntry) (uri name content : Str) (d : Document) (f : Feature)
    (h : parseFile name content = .ok (some d)) (hf : d.feature = some f) (hp : d.PlainExamples) :
    ∃ sets tests, build eng printable es uri name content = .ok (.suite sets tests, f.name) ∧ SettingsFor f sets ∧
      List.Forall₂ (fun (c : Case) (t : Test) => TestFor f c t) d.cases tests := by
  obtain ⟨tests, h1, h2⟩ := runs eng printable es uri name content d f h hf hp
  exact ⟨_, tests, h1, settings_for es f, h2⟩

/-! ### Changing locations and ids changes nothing -/

/-- The case with its locations, ids and descriptions changed. -/
def Case.change (g : Change) (c : Case) : Case where
  outerTags := c.outerTags.map (Tag.change g)
  background := c.background.map (Step.change g)
  scenario := c.scenario.change g
  row := c.row.map fun (e, h, r) => (e.change g, h.change g, r.change g)

section
variable (g : Change)

theorem rows_change (s : Scenario) : (s.change g).rows = s.rows.map (Option.map fun (e, h, r) => (e.change g, h.change g, r.change g)) := by
  unfold Scenario.rows
  rcases hs : s.examples with _ | ⟨e, es⟩
  · simp [Scenario.change, hs]
  · have h1 : (s.change g).examples = (e :: es).map (Examples.change g) := by simp [Scenario.change, hs]
    rw [h1]
    simp only [List.map_cons]
    rw [← List.map_cons]
    generalize e :: es = l
    induction l with
    | nil => rfl
    | cons e l ih =>
      rw [List.map_cons, List.flatMap_cons, List.flatMap_cons, ih, List.map_append]
      congr 1
      rcases hh : e.header with _ | h
      · simp [Examples.change, hh]
      · simp [Examples.change, hh, Function.comp_def]

theorem scenario_cases_change (tags : List Tag) (bg : List Step) (s : Scenario) :
    (s.change g).cases (tags.map (Tag.change g)) (bg.map (Step.change g)) = (s.cases tags bg).map (Case.change g) := by
  unfold Scenario.cases
  rw [rows_change, List.map_map, List.map_map]
  rfl

theorem rule_bg_change (r : RuleNode) : (r.change g).backgroundSteps = r.backgroundSteps.map (Step.change g) := by
  unfold RuleNode.backgroundSteps
  simp only [RuleNode.change, List.flatMap_map, List.map_flatMap]
  congr 1; funext c; cases c <;> simp [RuleChild.change, Background.change]

theorem rule_scenarios_change (r : RuleNode) : (r.change g).scenarios = r.scenarios.map (Scenario.change g) := by
  unfold RuleNode.scenarios
  simp only [RuleNode.change, List.flatMap_map, List.map_flatMap]
  congr 1; funext c; cases c <;> simp [RuleChild.change]

theorem feature_bg_change (f : Feature) : (f.change g).backgroundSteps = f.backgroundSteps.map (Step.change g) := by
  unfold Feature.backgroundSteps
  simp only [Feature.change, List.flatMap_map, List.map_flatMap]
  congr 1; funext c; cases c <;> simp [FeatureChild.change, FeatureChild.backgroundSteps, Background.change]

theorem cases_change (f : Feature) : (f.change g).cases = f.cases.map (Case.change g) := by
  unfold Feature.cases
  rw [feature_bg_change]
  simp only [Feature.change, List.flatMap_map, List.map_flatMap]
  congr 1; funext c
  cases c with
  | background b => rfl
  | scenario s => exact scenario_cases_change g _ _ s
  | rule r =>
    simp only [FeatureChild.change, FeatureChild.cases, RuleNode.cases]
    rw [rule_scenarios_change, rule_bg_change, ← List.map_append]
    simp only [RuleNode.change]
    rw [← List.map_append, List.flatMap_map, List.map_flatMap]
    congr 1; funext s; exact scenario_cases_change g _ _ s

theorem case_steps_change (c : Case) : (c.change g).steps = c.steps.map (Step.change g) := by
  unfold Case.steps
  simp only [Case.change, Scenario.change, List.map_eq_nil_iff]
  split <;> simp

theorem columns_change (h r : Row) : columns (h.change g) (r.change g) = columns h r := by
  simp [columns, Row.change, Function.comp_def, Cell.change]

theorem fill_change (c : Case) : (c.change g).Fill = c.Fill := by
  funext s s'
  unfold Case.Fill
  rcases hr : c.row with _ | ⟨e, h, r⟩
  · simp [Case.change, hr]
  · simp [Case.change, hr, columns_change]

theorem fillAt_change (c : Case) (i : Nat) : (c.change g).FillAt i = c.FillAt i := by
  funext s s'
  unfold Case.FillAt
  rw [fill_change]
  simp [Case.change]

theorem typeAt_change (c : Case) (i : Nat) : (c.change g).typeAt i = c.typeAt i := by
  have h1 : ((c.change g).steps.take (i + 1)).filterMap (·.keywordType) = (c.steps.take (i + 1)).filterMap (·.keywordType) := by
    rw [case_steps_change, ← List.map_take, List.filterMap_map]; rfl
  have h2 : (c.change g).row.isSome = c.row.isSome := by simp [Case.change]
  unfold Case.typeAt
  rw [h1, h2]

theorem suffix_change (c : Case) : (c.change g).suffix = c.suffix := by
  unfold Case.suffix
  rcases hr : c.row with _ | ⟨e, h, r⟩
  · simp [Case.change, hr]
  · have : rowSuffix (h.change g) (r.change g) = rowSuffix h r := by
      simp [rowSuffix, Row.change, List.zip_map, List.flatMap_map, Cell.change]
    simp [Case.change, hr, this, Examples.change]

theorem argRel_change (R : Str → Str → Prop) (a : StepArg) (p : Option PArg) : ArgRel R (a.change g) p ↔ ArgRel R a p := by
  cases a with
  | none => rfl
  | doc d => cases p with
    | none => rfl
    | some p => cases p <;> rfl
  | table t => cases p with
    | none => rfl
    | some p =>
      cases p with
      | doc _ _ => rfl
      | table rows => simp [StepArg.change, DataTable.change, ArgRel, Row.change, Cell.change, List.forall₂_map_left_iff]

theorem names_change (ts : List Tag) : (ts.map (Tag.change g)).map Tag.name = ts.map Tag.name := by
  simp [Function.comp_def, Tag.change]

theorem case_tags_change (c : Case) : (c.change g).tags.map Tag.name = c.tags.map Tag.name := by
  unfold Case.tags
  rcases hr : c.row with _ | ⟨e, h, r⟩
  · simp [Case.change, hr, Scenario.change, Function.comp_def, Tag.change]
  · simp [Case.change, hr, Scenario.change, Function.comp_def, Tag.change, Examples.change]

theorem callAt_change (c : Case) (i : Nat) (s : Step) (toks : List Tok) : (c.change g).CallAt i (s.change g) toks ↔ c.CallAt i s toks := by
  unfold Case.CallAt
  rw [fillAt_change, typeAt_change]
  simp only [Step.change, argRel_change]

theorem testFor_change (hd : g.description = id) (f : Feature) (c : Case) (t : Test) : TestFor (f.change g) (c.change g) t ↔ TestFor f c t := by
  have e1 : (c.change g).scenario.name = c.scenario.name := rfl
  have e2 : (c.change g).scenario.description = c.scenario.description := by simp [Case.change, Scenario.change, hd]
  have e3 : (f.change g).tags.map Tag.name = f.tags.map Tag.name := names_change g _
  constructor
  · rintro ⟨h1, h2, h3, h4, h5⟩
    rw [e1, fill_change, suffix_change] at h1
    rw [e2] at h2
    rw [case_tags_change, e3] at h3
    rw [case_steps_change, List.length_map] at h4
    refine ⟨h1, h2, h3, h4, fun i s toks hs ht => ?_⟩
    exact (callAt_change g c i s toks).1 (h5 i _ toks (by rw [case_steps_change, List.getElem?_map, hs]; rfl) ht)
  · rintro ⟨h1, h2, h3, h4, h5⟩
    refine ⟨by rw [e1, fill_change, suffix_change]; exact h1, by rw [e2]; exact h2, by rw [case_tags_change, e3]; exact h3,
      by rw [case_steps_change, List.length_map]; exact h4, fun i s toks hs ht => ?_⟩
    rw [case_steps_change, List.getElem?_map, Option.map_eq_some_iff] at hs
    obtain ⟨s0, hs, rfl⟩ := hs
    exact (callAt_change g c i s0 toks).2 (h5 i s0 toks hs ht)

theorem settingsFor_change (hd : g.description = id) (f : Feature) (sets : List Setting) : SettingsFor (f.change g) sets ↔ SettingsFor f sets := by
  simp [SettingsFor, Feature.change, hd, Tag.change, Function.comp_def]

theorem examples_change (f : Feature) (cm cm' : List Comment) :
    (Document.mk (some (f.change g)) cm').examples = (Document.mk (some f) cm).examples.map (Examples.change g) := by
  simp only [Document.examples, Document.scenarios, Option.toList_some, List.flatMap_cons, List.flatMap_nil, List.append_nil, Feature.change]
  rw [List.flatMap_map, List.flatMap_assoc, List.flatMap_assoc, List.map_flatMap]
  congr 1; funext c
  cases c with
  | background b => rfl
  | scenario s => simp [FeatureChild.change, FeatureChild.scenarios, Scenario.change]
  | rule r =>
    simp only [FeatureChild.change, FeatureChild.scenarios, RuleNode.change, List.flatMap_map]
    rw [List.flatMap_assoc, List.flatMap_assoc, List.map_flatMap]
    congr 1; funext c; cases c <;> simp [RuleChild.change, Scenario.change]

theorem plain_change (f : Feature) (cm cm' : List Comment) :
    (Document.mk (some (f.change g)) cm').PlainExamples ↔ (Document.mk (some f) cm).PlainExamples := by
  unfold Document.PlainExamples
  rw [examples_change g f cm cm']
  simp only [List.forall_mem_map, Examples.change, Option.mem_def, Option.map_eq_some_iff, forall_exists_index, and_imp, forall_apply_eq_imp_iff₂,
    Row.change, Cell.change]

end

theorem forall₂_of_map {α β γ : Type} {F : α → γ} {R : γ → β → Prop} : ∀ {as : List α} {bs : List β},
    List.Forall₂ R (as.map F) bs ↔ List.Forall₂ (fun a b => R (F a) b) as bs := by
  intro as bs
  exact List.forall₂_map_left_iff

/-- **C61.** Write down any feature that can be written at all, in any language and with any indentation, into a file that is not a Markdown file, and run
it: Robot Framework gets a suite with the feature's name, description and tags, and exactly one test per case of the feature, as above. -/
theorem C61_what_you_write_is_what_runs (eng : Engine) (printable : Char → Bool) (es : List DirEntry) (uri name : Str) (hn : suffix name ≠ py".md")
    (y : Style) {f : Feature} (hf : Printable.Feature f) (hp : (Document.mk (some f) []).PlainExamples) :
    ∃ sets tests, build eng printable es uri name (Print.text y f) = .ok (.suite sets tests, f.name) ∧ SettingsFor f sets ∧
      List.Forall₂ (fun (c : Case) (t : Test) => TestFor f c t) f.cases tests := by
  have hv : defaultMatcher.Valid := ⟨by decide +kernel, by decide +kernel⟩
  obtain ⟨d, g, h1, h2, h3⟩ := C44_round_trip hv y hf newBuilder false
  have h1' : parseFile name (Print.text y f) = .ok (some d) := by rw [parseFile, if_neg hn]; exact h1
  obtain ⟨gf, cm⟩ := d
  simp only at h2
  subst h2
  let u : Change := ⟨fun _ => .zero, fun _ => 0, fun s => s⟩
  have hu : u.description = id := rfl
  have h3' : g.change u = f.change u := h3
  obtain ⟨sets, tests, r1, r2, r3⟩ := C61_what_runs eng printable es uri name _ _ g h1' rfl (by
    rw [← plain_change u g cm [], h3', plain_change u f []]; exact hp)
  have hname : g.name = f.name := by
    have := congrArg Feature.name h3'
    exact this
  refine ⟨sets, tests, by rw [r1, hname], ?_, ?_⟩
  · rw [← settingsFor_change u hu, ← h3', settingsFor_change u hu]; exact r2
  · have r4 : List.Forall₂ (fun (c : Case) (t : Test) => TestFor g c t) g.cases tests := by simpa [Document.cases] using r3
    have r5 : List.Forall₂ (fun (c : Case) (t : Test) => TestFor (f.change u) c t) (g.cases.map (Case.change u)) tests := by
      rw [forall₂_of_map]
      exact r4.imp fun c t ht => by rw [← h3']; exact (testFor_change u hu g c t).2 ht
    rw [← cases_change, h3', cases_change, forall₂_of_map] at r5
    exact r5.imp fun c t ht => (testFor_change u hu f c t).1 ht

/-! ### The hypotheses can be met -/

theorem plainExamples_of {d : Document} (h : ∀ e ∈ d.examples, (e.header.toList.all fun h => h.cells.all fun c => c.value.all fun x =>
    !isMeta x) = true) : d.PlainExamples := by
  intro e he
  have h1 := h e he
  simp only [List.all_eq_true, Option.mem_toList, Bool.not_eq_true'] at h1
  exact h1

example : Printable.Feature Sample.french ∧ (Document.mk (some Sample.french) []).PlainExamples :=
  ⟨Sample.french_ok, plainExamples_of (by decide +kernel)⟩

example : outline (build Sample.noEngine (fun _ => true) [] [] py"a.feature" (Print.text ⟨0, 2, 4, 6⟩ Sample.french)) =
    [(py"acheter œuf", [py"x"], [([py"Soit un client"], 8), ([py"Lorsqu'il achète œuf"], 11), ([py"Alors il paie"], 18)]),
     (py"simple", [], [([py"Soit un client"], 8), ([[]], 27)])] := by decide +kernel

/-- `Sample.text` of Props/Samples.lean, an English file with a background, an outline and a rule, meets the hypotheses of `C61_what_runs`. -/
example : ∃ d f, parseFile py"a.feature" Sample.text = .ok (some d) ∧ d.feature = some f ∧ d.PlainExamples := by
  have h : (match parseFile py"a.feature" Sample.text with
    | .ok (some d) => d.feature.isSome && d.examples.all fun e => e.header.toList.all fun h => h.cells.all fun c => c.value.all fun x => !isMeta x
    | _ => false) = true := by decide +kernel
  split at h
  · rename_i d hd
    simp only [Bool.and_eq_true, Option.isSome_iff_exists] at h
    obtain ⟨⟨f, hf⟩, h⟩ := h
    refine ⟨d, f, hd, hf, plainExamples_of fun e he => ?_⟩
    rw [List.all_eq_true] at h
    exact h e he
  · cases h

end Gherkin
