import Verif.Proofs.FindDoc
import Verif.Proofs.Filled
import Verif.Spec.Robot
import Verif.Spec.Independent
import Verif.Proofs.PyLit
import Verif.Proofs.RobotVar

/-! Every pickle becomes its Robot Framework test. -/

namespace Gherkin

open Robot Pickles

theorem each_of {α β : Type} {f : α → R β} {P : α → β → Prop} : ∀ {as : List α}, (∀ a ∈ as, ∃ b, f a = .ok b ∧ P a b) →
    ∃ bs, Robot.each f as = .ok bs ∧ List.Forall₂ P as bs
  | [], _ => ⟨[], rfl, .nil⟩
  | a :: as, h => by
    obtain ⟨b, h1, h2⟩ := h a (by simp)
    obtain ⟨bs, h3, h4⟩ := each_of (as := as) fun a ha => h a (by simp [ha])
    exact ⟨b :: bs, by rw [Robot.each, h1]; simp only [h3], .cons h2 h4⟩

theorem forall₂_of_map_eq {α β γ : Type} {f : α → γ} {g : β → γ} : ∀ {as : List α} {bs : List β}, as.map f = bs.map g →
    List.Forall₂ (fun a b => f a = g b) as bs
  | [], [], _ => .nil
  | [], b :: bs, h => by simp at h
  | a :: as, [], h => by simp at h
  | a :: as, b :: bs, h => by
    simp only [List.map_cons, List.cons.injEq] at h
    exact .cons h.1 (forall₂_of_map_eq h.2)

theorem forall₂_zip {α β γ : Type} {P : α → β → Prop} {Q : β → γ → Prop} : ∀ {as : List α} {bs : List β} {cs : List γ},
    List.Forall₂ P as bs → List.Forall₂ Q bs cs → List.Forall₂ (fun (x : α × β) c => P x.1 x.2 ∧ Q x.2 c) (as.zip bs) cs
  | _, _, _, .nil, .nil => .nil
  | _, _, _, .cons h1 h2, .cons h3 h4 => .cons ⟨h1, h3⟩ (forall₂_zip h2 h4)

/-! ### Keyword calls -/

theorem place_ok (loc : Location) {c : Nat} (hc : loc.column = some c) : ∀ (col : Int) (ts : List Tok), ∃ ts', place loc col ts = .ok ts' ∧
    (∀ ty, values ty ts' = values ty ts) ∧ (∀ t ∈ ts', t.lineno = loc.line) ∧ (∀ t ∈ ts', t.type = .keyword → t.col = (c : Int) - 1)
  | _, [] => ⟨[], rfl, fun _ => rfl, by simp, by simp⟩
  | col, t :: ts => by
    rw [place]
    by_cases ht : t.type = .keyword
    · obtain ⟨ts', h1, h2, h3, h4⟩ := place_ok loc hc ({ t with lineno := loc.line, col := c - 1 } : Tok).endCol ts
      refine ⟨{ t with lineno := loc.line, col := c - 1 } :: ts', ?_, ?_, ?_, ?_⟩
      · rw [if_pos ht]; simp only [hc, h1]
      · intro ty
        have := h2 ty
        simp only [values] at this ⊢
        rw [List.filter_cons, List.filter_cons]
        simp only
        split <;> simp [this]
      · simp only [List.mem_cons]; rintro x (rfl | hx)
        · rfl
        · exact h3 x hx
      · simp only [List.mem_cons]; rintro x (rfl | hx) hk
        · rfl
        · exact h4 x hx hk
    · obtain ⟨ts', h1, h2, h3, h4⟩ := place_ok loc hc col ts
      refine ⟨{ t with lineno := loc.line, col := col } :: ts', ?_, ?_, ?_, ?_⟩
      · rw [if_neg ht]; simp only [h1]
      · intro ty
        have := h2 ty
        simp only [values] at this ⊢
        rw [List.filter_cons, List.filter_cons]
        simp only
        split <;> simp [this]
      · simp only [List.mem_cons]; rintro x (rfl | hx)
        · rfl
        · exact h3 x hx
      · simp only [List.mem_cons]; rintro x (rfl | hx) hk
        · exact absurd hk ht
        · exact h4 x hx hk

theorem place_unplaced (loc : Location) : ∀ {col : Int} {ts ts' : List Tok}, place loc col ts = .ok ts' → ts'.map Tok.unplaced = ts.map Tok.unplaced
  | _, [], _, h => by simp only [place, Except.ok.injEq] at h; subst h; rfl
  | col, t :: ts, ts', h => by
    rw [place] at h
    split at h
    · split at h
      · simp [crash] at h
      · split at h
        · rename_i hp
          simp only [Except.ok.injEq] at h
          subst h
          rw [List.map_cons, List.map_cons, place_unplaced loc hp]; rfl
        · simp at h
    · split at h
      · rename_i hp
        simp only [Except.ok.injEq] at h
        subst h
        rw [List.map_cons, List.map_cons, place_unplaced loc hp]; rfl
      · simp at h

theorem callTokens_unplaced (name : Str) (args : List Str) : (callTokens name args).map Tok.unplaced = callTokens name args := by
  simp only [callTokens, List.map_cons, List.map_append, List.map_flatMap, List.map_nil]
  rfl

theorem place_plain (loc : Location) : ∀ (col : Int) (ts : List Tok), (∀ t ∈ ts, t.type ≠ .keyword) →
    ∃ ts', place loc col ts = .ok ts' ∧ ∀ t ∈ ts', t.col = col ∧ t.type ≠ .keyword
  | _, [], _ => ⟨[], rfl, by simp⟩
  | col, t :: ts, h => by
    obtain ⟨ts', h1, h2⟩ := place_plain loc col ts (fun t ht => h t (by simp [ht]))
    refine ⟨{ t with lineno := loc.line, col := col } :: ts', ?_, ?_⟩
    · rw [place, if_neg (h t (by simp))]; simp only [h1]
    · simp only [List.mem_cons]; rintro x (rfl | hx)
      · exact ⟨rfl, h t (by simp)⟩
      · exact h2 x hx

theorem place_around (loc : Location) {c : Nat} (hc : loc.column = some c) (name : Str) (args : List Str) {ts : List Tok}
    (h : place loc 0 (callTokens name args) = .ok ts) (before after : List Tok) (k : Tok) (e : ts = before ++ k :: after) (hk : k.type = .keyword)
    (h0 : 0 ≤ k.col) : (∀ t ∈ before, t.col = 0) ∧ ∀ t ∈ after, t.col = k.col + k.value.length := by
  obtain ⟨rest, hp, hr⟩ := place_plain loc ({ type := .keyword, value := name, lineno := loc.line, col := (c : Int) - 1 } : Tok).endCol
    ((args.flatMap fun a => [({ type := .separator, value := py"    " } : Tok), { type := .argument, value := a }]) ++ [{ type := .eol, value := py"\n" }]) (by
      intro t ht
      simp only [List.mem_append, List.mem_flatMap, List.mem_cons, List.not_mem_nil, or_false] at ht
      rcases ht with ⟨a, _, rfl | rfl⟩ | rfl <;> simp)
  have h' : ts = { type := .separator, value := py"    ", lineno := loc.line, col := 0 } ::
      { type := .keyword, value := name, lineno := loc.line, col := (c : Int) - 1 } :: rest := by
    simp only [callTokens, List.cons_append, place, hc, hp, reduceCtorEq, ↓reduceIte] at h
    simpa using h.symm
  rw [h'] at e
  cases before with
  | nil => simp at e; obtain ⟨rfl, _⟩ := e; simp at hk
  | cons b before =>
    simp only [List.cons_append, List.cons.injEq] at e
    obtain ⟨rfl, e⟩ := e
    cases before with
    | nil =>
      simp only [List.nil_append, List.cons.injEq] at e
      obtain ⟨rfl, rfl⟩ := e
      refine ⟨by simp, fun t ht => ?_⟩
      rw [(hr t ht).1, Tok.endCol, if_neg]
      simp only at h0 ⊢
      omega
    | cons b before =>
      simp only [List.cons_append, List.cons.injEq] at e
      exact absurd hk (hr k (by rw [e.2]; simp)).2

theorem values_call (name : Str) (args : List Str) :
    values .keyword (callTokens name args) = [name] ∧ values .argument (callTokens name args) = args := by
  constructor
  · simp only [values, callTokens, List.cons_append, List.filter_cons]
    simp only [reduceCtorEq, decide_false, decide_true, Bool.false_eq_true, if_false, if_true, List.map_cons]
    congr 1
    rw [List.filter_append, List.filter_flatMap]
    simp
  · simp only [values, callTokens, List.cons_append, List.filter_cons]
    simp only [reduceCtorEq, decide_false, Bool.false_eq_true, if_false]
    rw [List.filter_append, List.filter_flatMap, List.map_append]
    have : (fun a : Str => List.filter (fun t : Tok => decide (t.type = .argument)) [{ type := .separator, value := py"    " }, { type := .argument, value := a }])
      = fun a => [{ type := .argument, value := a }] := by funext a; simp
    rw [this, List.map_flatMap]
    simp

theorem step_get (s : Step) : s.toJson.get? py"location" = some (.loc s.loc) ∧ s.toJson.get? py"keyword" = s.keyword.map .str := by
  have hn : ([(py"id", some (J.id s.id)), (py"location", some (.loc s.loc)), (py"keyword", s.keyword.map .str),
    (py"keywordType", s.keywordType.map fun t => .str t.name), (py"text", s.text.map .str), s.arg.pair].map (·.1)).Nodup := by
    cases s.arg <;> simp [StepArg.pair]
  constructor
  · rw [Step.toJson, J.get?_reject hn]; rfl
  · rw [Step.toJson, J.get?_reject hn]; rfl

/-- A step whose node is found and has what is needed gives its call. -/
theorem stepCall_ok {printable : Char → Bool} {root : J} {s : Step} {q : PStep} {e : Option J} (hf : J.find s.id none root = some (s.toJson, e))
    (hs : (Gherkin.Entry.step s.loc s.keyword s.keywordType s.text).Filled) (hq : ∃ rest, q.astNodeIds = s.id :: rest) :
    ∃ toks, stepCall printable root q = .ok (some (.call toks)) ∧ CallOf s q toks ∧
      toks.map Tok.unplaced = callTokens ((if q.type = some .unknown then [] else s.keyword.getD []) ++ q.text) (callArgs printable q.arg) := by
  obtain ⟨rest, hq⟩ := hq
  obtain ⟨h1, h2, h3, h4⟩ := hs
  obtain ⟨c, hc⟩ := Option.isSome_iff_exists.1 h1
  obtain ⟨kw, hkw⟩ := Option.isSome_iff_exists.1 h2
  obtain ⟨g1, g2⟩ := step_get s
  have hk : keywordPart s.toJson q = .ok (if q.type = some .unknown then [] else s.keyword.getD []) := by
    unfold keywordPart
    split
    · rfl
    · simp only [item, g2, hkw, Option.map_some, text, Option.getD_some]
  obtain ⟨toks, p1, p2, p3, p4⟩ := place_ok s.loc hc 0
    (callTokens ((if q.type = some .unknown then [] else s.keyword.getD []) ++ q.text) (callArgs printable q.arg))
  have hv := values_call ((if q.type = some .unknown then [] else s.keyword.getD []) ++ q.text) (callArgs printable q.arg)
  refine ⟨toks, ?_, ⟨?_, ?_, p3, fun t ht hk => ⟨c, hc, p4 t ht hk⟩, fun b a k e hk h0 => place_around s.loc hc _ _ p1 b a k e hk h0, ?_⟩,
    by rw [place_unplaced _ p1, callTokens_unplaced]⟩
  · rw [stepCall, hq]
    simp only [hf, hk, g1, p1]
  · rw [p2, hv.1]
  · rw [p2, hv.2]; exact callArgs_passed printable q.arg
  · intro a ha
    rw [p2, hv.2, ha]
    exact ⟨_, rfl, Escape.arg_variable printable a _ (by simp [callArgs])⟩

/-! ### Names -/

theorem row_get (r : Row) : r.toJson.get? py"cells" = some (.list (r.cells.map Cell.toJson)) := rfl

theorem cell_get (c : Cell) : c.toJson.get? py"value" = some (.str c.value) := rfl

theorem examples_get (e : Examples) : e.toJson.get? py"keyword" = e.keyword.map .str ∧
    e.toJson.get? py"tableHeader" = e.header.map Row.toJson := by
  constructor
  · rw [Examples.toJson, J.get?_reject (by simp)]; rfl
  · rw [Examples.toJson, J.get?_reject (by simp)]; rfl

theorem nameParts_ok {e : Examples} {h : Row} (hh : e.header = some h) : ∀ (done : List Cell) (hs vs : List Cell), h.cells = done ++ hs →
    vs.length = hs.length →
    nameParts e.toJson done.length (vs.map Cell.toJson) = .ok ((hs.zip vs).flatMap fun (h, v) => py" " ++ h.value ++ py" = " ++ v.value)
  | _, hs, [], _, _ => by
    simp [nameParts]
  | done, [], v :: vs, _, hl => by simp at hl
  | done, c :: hs, v :: vs, hc, hl => by
    have ih := nameParts_ok hh (done ++ [c]) hs vs (by simp [hc]) (by simpa using hl)
    rw [List.length_append] at ih
    have hi : (elements (.list (h.cells.map Cell.toJson)))[done.length]? = some c.toJson := by
      rw [hc]; simp [elements]
    rw [List.map_cons, nameParts]
    simp only [item, (examples_get e).2, hh, Option.map_some, row_get, hi, cell_get]
    simp only [List.length_singleton] at ih
    simp only [ih, text]
    simp

theorem testName_row {root : J} {p : Pickle} {e : Examples} {h r : Row} {i : Nat} (hf : J.find r.id none root = some (r.toJson, some e.toJson))
    (hp : p.astNodeIds = [i, r.id]) (hh : e.header = some h) (hl : r.cells.length = h.cells.length) (hk : e.keyword.isSome) :
    testName root p = .ok (p.name ++ if e.keyword = some py"Examples" then rowSuffix h r else []) := by
  obtain ⟨kw, hkw⟩ := Option.isSome_iff_exists.1 hk
  unfold testName
  rw [hp]
  have hn := nameParts_ok hh [] h.cells r.cells rfl hl
  simp only [hf, row_get, item, (examples_get e).1, hkw, Option.map_some, text, elements, Option.some.injEq]
  simp only [List.length_nil] at hn
  by_cases hx : kw = py"Examples"
  · simp only [hx, if_true, hn]; rfl
  · simp only [hx, if_false, List.append_nil]

/-! ### Cases -/

theorem case_nodes {d : Document} {f : Feature} (hf : d.feature = some f) {c : Case} (h : c ∈ d.cases) :
    c.scenario ∈ d.scenarios ∧ (∀ s ∈ c.background, ∃ b ∈ d.backgrounds, s ∈ b.steps) ∧
    (∀ i ∈ c.scenario.ids, i ∈ f.children.flatMap FeatureChild.ids) ∧
    ∃ own, c.outerTags = f.tags ++ own ∧ ∀ t ∈ own, t.id ∈ f.children.flatMap FeatureChild.ids := by
  simp only [Document.cases, hf, Option.toList_some, List.flatMap_cons, List.flatMap_nil, List.append_nil, Feature.cases, List.mem_flatMap] at h
  obtain ⟨ch, hch, h⟩ := h
  have hdoc : d.scenarios = f.children.flatMap FeatureChild.scenarios := by simp [Document.scenarios, hf]
  have hbg : d.backgrounds = f.children.flatMap FeatureChild.backgrounds := by simp [Document.backgrounds, hf]
  have hfb : ∀ s ∈ f.backgroundSteps, ∃ b ∈ d.backgrounds, s ∈ b.steps := by
    intro s hs
    simp only [Feature.backgroundSteps, List.mem_flatMap] at hs
    obtain ⟨x, hx, hs⟩ := hs
    cases x with
    | background b => exact ⟨b, by rw [hbg, List.mem_flatMap]; exact ⟨_, hx, by simp [FeatureChild.backgrounds]⟩, hs⟩
    | scenario _ => simp [FeatureChild.backgroundSteps] at hs
    | rule _ => simp [FeatureChild.backgroundSteps] at hs
  cases ch with
  | background b => simp [FeatureChild.cases] at h
  | scenario s =>
    obtain ⟨h1, h2, rfl, h4⟩ := mem_scenario_cases (show c ∈ s.cases _ _ from h)
    refine ⟨?_, by rw [h2]; exact hfb, ?_, [], by simp [h1], by simp⟩
    · rw [hdoc, List.mem_flatMap]; exact ⟨_, hch, by simp [FeatureChild.scenarios]⟩
    · intro i hi; rw [List.mem_flatMap]; exact ⟨_, hch, hi⟩
  | rule r =>
    have h' : c ∈ r.cases f.tags f.backgroundSteps := h
    simp only [RuleNode.cases, List.mem_flatMap] at h'
    obtain ⟨s, hs, h'⟩ := h'
    obtain ⟨h1, h2, rfl, h4⟩ := mem_scenario_cases h'
    have hrd : ∀ i ∈ r.ids, i ∈ f.children.flatMap FeatureChild.ids := by
      intro i hi; rw [List.mem_flatMap]; exact ⟨_, hch, hi⟩
    have hs' : .scenario c.scenario ∈ r.children := by
      simp only [RuleNode.scenarios, List.mem_flatMap] at hs
      obtain ⟨rc, hrc, hs⟩ := hs
      cases rc with
      | background _ => simp at hs
      | scenario s' => simp at hs; rw [hs]; exact hrc
    refine ⟨?_, ?_, ?_, r.tags, h1, ?_⟩
    · rw [hdoc, List.mem_flatMap]
      refine ⟨_, hch, ?_⟩
      simp only [FeatureChild.scenarios, List.mem_flatMap]
      exact ⟨_, hs', by simp⟩
    · rw [h2]; intro t ht
      simp only [List.mem_append] at ht
      rcases ht with ht | ht
      · exact hfb t ht
      · simp only [RuleNode.backgroundSteps, List.mem_flatMap] at ht
        obtain ⟨rc, hrc, ht⟩ := ht
        cases rc with
        | scenario _ => simp at ht
        | background b =>
          refine ⟨b, ?_, ht⟩
          rw [hbg, List.mem_flatMap]
          refine ⟨_, hch, ?_⟩
          simp only [FeatureChild.backgrounds, List.mem_flatMap]
          exact ⟨_, hrc, by simp⟩
    · intro i hi
      refine hrd _ ?_
      simp only [RuleNode.ids, List.mem_cons, List.mem_append, List.mem_flatMap]
      exact .inr (.inr ⟨_, hs', hi⟩)
    · intro t ht
      refine hrd _ ?_
      simp only [RuleNode.ids, List.mem_cons, List.mem_append, List.mem_map]
      exact .inr (.inl ⟨t, ht, rfl⟩)

theorem steps_ids {eng : Engine} {uri lang : Str} {c : Case} {p : Pickle} (h : Realises eng uri lang c p) :
    List.Forall₂ (fun (s : Step) (q : PStep) => ∃ rest, q.astNodeIds = s.id :: rest) c.steps p.steps := by
  have h1 : c.steps.map (fun s => some s.id) = p.steps.map fun q => q.astNodeIds.head? := by
    have := congrArg (List.map List.head?) h.stepIds
    rw [List.map_map] at this
    change p.steps.map (fun q => q.astNodeIds.head?) = _ at this
    rw [this]
    unfold Case.steps Case.stepIds
    split <;> simp [Function.comp_def]
  refine (forall₂_of_map_eq h1).imp ?_
  intro s q hq
  cases hl : q.astNodeIds with
  | nil => simp [hl] at hq
  | cons i l => simp [hl] at hq; exact ⟨l, by rw [hq]⟩

theorem forall₂_left_mem {α β : Type} {R : α → β → Prop} {P : α → Prop} : ∀ {as : List α} {bs : List β}, List.Forall₂ R as bs → (∀ a ∈ as, P a) →
    List.Forall₂ (fun a b => P a ∧ R a b) as bs
  | _, _, .nil, _ => .nil
  | _, _, .cons hab hrest, h => .cons ⟨h _ (by simp), hab⟩ (forall₂_left_mem hrest fun a ha => h a (by simp [ha]))

theorem forall₂_each {α β γ : Type} {R : α → β → Prop} {f : β → Robot.R γ} {Q : α → β → γ → Prop} : ∀ {as : List α} {bs : List β},
    List.Forall₂ R as bs → (∀ a b, R a b → ∃ c, f b = .ok c ∧ Q a b c) →
    ∃ cs, Robot.each f bs = .ok cs ∧ List.Forall₂ (fun (x : α × β) c => Q x.1 x.2 c) (as.zip bs) cs
  | _, _, .nil, _ => ⟨[], rfl, .nil⟩
  | _, _, .cons hab hrest, h => by
    obtain ⟨c, h1, h2⟩ := h _ _ hab
    obtain ⟨cs, h3, h4⟩ := forall₂_each hrest h
    exact ⟨c :: cs, by rw [Robot.each, h1]; simp only [h3], .cons h2 h4⟩

theorem scenario_get (s : Scenario) : s.toJson.get? py"location" = some (.loc s.loc) ∧ s.toJson.get? py"description" = some (.str s.description) := by
  constructor
  · rw [Scenario.toJson, J.get?_reject (by simp)]; rfl
  · rw [Scenario.toJson, J.get?_reject (by simp)]; rfl

/-- What a document must offer so that every pickle becomes a test. -/
structure Ready (d : Document) : Prop where
  nodup : d.ids.Nodup
  filled : ∀ e ∈ d.entries, e.Filled
  tables : ∀ e ∈ d.examples, ∀ h ∈ e.header, ∀ r ∈ e.body, r.cells.length = h.cells.length

/-- The test without its positions. -/
def exactTest (printable : Char → Bool) (own : List Tag) (c : Case) (p : Pickle) : Test where
  name := p.name ++ c.suffix
  pos := none
  body := (if c.scenario.description = [] then [] else [.documentation (strip c.scenario.description)]) ++
      (if own = [] then [] else [.tags (own.map fun t => t.name.drop 1)]) ++
      (c.steps.zip p.steps).map fun (s, q) =>
        .call (callTokens ((if q.type = some .unknown then [] else s.keyword.getD []) ++ q.text) (callArgs printable q.arg))

theorem testCase_full {eng : Engine} {printable : Char → Bool} {d : Document} (hd : Ready d) {uri uri' lang : Str} {f : Feature} (hf : d.feature = some f) {c : Case}
    (hc : c ∈ d.cases) {p : Pickle} (hr : Realises eng uri' lang c p) :
    ∃ t own, testCase printable (d.withUri uri) (f.tags.map (·.id)) p = .ok t ∧ c.tags = f.tags ++ own ∧ TestOf own c p t ∧
      t.unplaced = exactTest printable own c p := by
  obtain ⟨c1, c2, c3, own, c4, c5⟩ := case_nodes hf hc
  have hids : (J.ids (d.withUri uri)).Nodup := by rw [withUri_ids]; exact hd.nodup
  have find : ∀ {i : Nat} {n : J} {e : Option J}, Within none (d.withUri uri) n e → n.IsNode i → J.find i none (d.withUri uri) = some (n, e) :=
    fun h1 h2 => J.find_complete h1 h2 hids
  have fs := find (scenario_within c1) (scenario_isNode _)
  have hsteps : ∀ s ∈ c.steps, (∃ e, J.find s.id none (d.withUri uri) = some (s.toJson, e)) ∧
      (Gherkin.Entry.step s.loc s.keyword s.keywordType s.text).Filled := by
    intro s hs
    unfold Case.steps at hs
    split at hs
    · simp at hs
    · rw [List.mem_append] at hs
      rcases hs with hs | hs
      · obtain ⟨b, hb, hs⟩ := c2 s hs
        refine ⟨⟨_, find ((background_within hb).trans (background_step_within hs)) (step_isNode s)⟩, hd.filled _ (mem_doc_step (s := s) ?_ _ (by simp [Step.entries]))⟩
        simp only [Document.steps, List.mem_append, List.mem_flatMap]; exact .inl ⟨b, hb, hs⟩
      · refine ⟨⟨_, find ((scenario_within c1).trans (scenario_step_within hs)) (step_isNode s)⟩, hd.filled _ (mem_doc_step (s := s) ?_ _ (by simp [Step.entries]))⟩
        simp only [Document.steps, List.mem_append, List.mem_flatMap]; exact .inr ⟨_, c1, hs⟩
  obtain ⟨items, i1, i2⟩ := forall₂_each (f := stepCall printable (d.withUri uri))
    (Q := fun s q i => ∃ toks, i = some (.call toks) ∧ CallOf s q toks ∧
      toks.map Tok.unplaced = callTokens ((if q.type = some .unknown then [] else s.keyword.getD []) ++ q.text) (callArgs printable q.arg)) (forall₂_left_mem (steps_ids hr) hsteps) (by
      rintro s q ⟨⟨⟨e, h1⟩, h2⟩, h3⟩
      obtain ⟨toks, h4, h5, h6⟩ := stepCall_ok (printable := printable) h1 h2 h3
      exact ⟨_, h4, toks, rfl, h5, h6⟩)
  obtain ⟨calls, j1, j2, j3⟩ : ∃ calls : List (List Tok), items = calls.map (fun t => some (.call t)) ∧
      List.Forall₂ (fun (x : Step × PStep) toks => CallOf x.1 x.2 toks) (c.steps.zip p.steps) calls ∧
      (calls.map (Item.unplaced ∘ Item.call)) = (c.steps.zip p.steps).map fun (s, q) =>
        .call (callTokens ((if q.type = some .unknown then [] else s.keyword.getD []) ++ q.text) (callArgs printable q.arg)) := by
    clear i1
    generalize c.steps.zip p.steps = l at i2
    induction i2 with
    | nil => exact ⟨[], rfl, .nil, rfl⟩
    | cons h _ ih =>
      obtain ⟨toks, h1, h2, h2'⟩ := h
      obtain ⟨calls, h3, h4, h5⟩ := ih
      exact ⟨toks :: calls, by rw [h1, h3]; rfl, .cons h2 h4, by
        simp only [List.map_cons, h5, Function.comp_apply, Item.unplaced, h2']⟩
  have hname : testName (d.withUri uri) p = .ok (p.name ++ c.suffix) := by
    have hn := hr.nodeIds
    unfold Case.nodeIds at hn
    cases hrow : c.row with
    | none =>
      rw [hrow] at hn
      simp only [Option.elim_none] at hn
      simp [testName, hn, Case.suffix, hrow]
    | some x =>
      obtain ⟨e, h, r⟩ := x
      rw [hrow] at hn
      simp only [Option.elim_some] at hn
      obtain ⟨a1, a2, a3⟩ := (case_ids hc).2.2.2 e h r hrow
      have he : e ∈ d.examples := by simp only [Document.examples, List.mem_flatMap]; exact ⟨_, c1, a1⟩
      have hk : (Gherkin.Entry.examples e.loc e.keyword e.name).Filled := hd.filled _ (mem_doc_scenario c1 _ (by
        simp only [Scenario.entries, List.mem_append, List.mem_cons, List.mem_flatMap]
        exact .inr (.inr (.inr ⟨e, a1, by simp [Examples.entries]⟩)))) 
      rw [testName_row (find (((scenario_within c1).trans (examples_within a1)).trans (body_within a3)) (row_isNode r)) hn a2
        (hd.tables e he h a2 r a3) hk.1]
      simp [Case.suffix, hrow]
  have hsf : (Gherkin.Entry.scenario c.scenario.loc c.scenario.keyword c.scenario.name).Filled :=
    hd.filled _ (mem_doc_scenario c1 _ (by simp [Scenario.entries]))
  obtain ⟨col, hcol⟩ := Option.isSome_iff_exists.1 hsf.1
  obtain ⟨g1, g2⟩ := scenario_get c.scenario
  have hpos : headerPos ((J.find c.scenario.id none (d.withUri uri)).map (·.1)) = .ok (some (c.scenario.loc.line, (col : Int) - 1)) := by
    rw [fs]; simp only [headerPos, Option.map_some, Option.bind_some, g1, hcol]
  have hdoc : testDoc ((J.find c.scenario.id none (d.withUri uri)).map (·.1)) =
      if c.scenario.description = [] then [] else [.documentation (strip c.scenario.description)] := by
    rw [fs]; simp only [testDoc, Option.map_some, Option.bind_some, g2]
    cases c.scenario.description <;> simp
  -- tags
  have hfid : d.ids = f.tags.map (·.id) ++ f.children.flatMap FeatureChild.ids := by simp [Document.ids, hf, Feature.ids]
  have hdis : ∀ t ∈ f.tags, ∀ i ∈ f.children.flatMap FeatureChild.ids, t.id ≠ i := by
    have := hd.nodup
    rw [hfid, List.nodup_append] at this
    exact fun t ht i hi => this.2.2 _ (List.mem_map_of_mem ht) i hi
  have hown : ∀ t ∈ own ++ c.scenario.tags ++ (c.row.elim [] fun (e, _, _) => e.tags), t.id ∈ f.children.flatMap FeatureChild.ids := by
    intro t ht
    rw [List.mem_append, List.mem_append] at ht
    rcases ht with (ht | ht) | ht
    · exact c5 t ht
    · refine c3 _ ?_
      simp only [Scenario.ids, List.mem_cons, List.mem_append, List.mem_map]
      exact .inr (.inl (.inl ⟨t, ht, rfl⟩))
    · cases hrow : c.row with
      | none => simp [hrow] at ht
      | some x =>
        obtain ⟨e, h, r⟩ := x
        obtain ⟨a1, a2, a3⟩ := (case_ids hc).2.2.2 e h r hrow
        simp only [hrow, Option.elim_some] at ht
        refine c3 _ ?_
        simp only [Scenario.ids, List.mem_cons, List.mem_append, List.mem_flatMap]
        refine .inr (.inr ⟨e, a1, ?_⟩)
        simp only [Examples.ids, List.mem_cons, List.mem_append, List.mem_map]
        exact .inr (.inl ⟨t, ht, rfl⟩)
  have htags : testTags (f.tags.map (·.id)) p = if own ++ c.scenario.tags ++ (c.row.elim [] fun (e, _, _) => e.tags) = [] then []
      else [.tags ((own ++ c.scenario.tags ++ (c.row.elim [] fun (e, _, _) => e.tags)).map fun t => t.name.drop 1)] := by
    have h0 : (p.tags.filter fun t => !(f.tags.map (·.id)).contains t.astNodeId).map (fun t => t.name.drop 1) =
        (own ++ c.scenario.tags ++ (c.row.elim [] fun (e, _, _) => e.tags)).map fun t => t.name.drop 1 := by
      rw [hr.tags, Case.tags, c4, List.filter_map, List.map_map]
      rw [List.append_assoc, List.append_assoc, ← List.append_assoc own, List.filter_append]
      have e1 : f.tags.filter ((fun t : PTag => !(f.tags.map (·.id)).contains t.astNodeId) ∘ fun t : Tag => (⟨t.id, t.name⟩ : PTag)) = [] := by
        rw [List.filter_eq_nil_iff]
        intro t ht
        simp only [Function.comp_apply, Bool.not_eq_true', Bool.not_eq_false, List.contains_iff_mem]
        exact List.mem_map_of_mem ht
      have e2 : (own ++ c.scenario.tags ++ (c.row.elim [] fun (e, _, _) => e.tags)).filter
          ((fun t : PTag => !(f.tags.map (·.id)).contains t.astNodeId) ∘ fun t : Tag => (⟨t.id, t.name⟩ : PTag)) =
          own ++ c.scenario.tags ++ (c.row.elim [] fun (e, _, _) => e.tags) := by
        rw [List.filter_eq_self]
        intro t ht
        simp only [Function.comp_apply, Bool.not_eq_true', ← Bool.not_eq_true, List.contains_iff_mem, List.mem_map, not_exists, not_and]
        exact fun t' ht' => hdis t' ht' _ (hown t ht)
      rw [e1, e2]
      rfl
    unfold testTags
    rw [h0]
    generalize own ++ c.scenario.tags ++ (c.row.elim [] fun (e, _, _) => e.tags) = l
    cases l <;> simp
  have hid : ∃ rest, p.astNodeIds = c.scenario.id :: rest := ⟨_, hr.nodeIds⟩
  obtain ⟨rest, hid⟩ := hid
  have hbody : testDoc ((J.find c.scenario.id none (d.withUri uri)).map (·.1)) ++ testTags (f.tags.map (·.id)) p ++ (items.filterMap fun c => c) =
      (if c.scenario.description = [] then [] else [.documentation (strip c.scenario.description)]) ++
      (if own ++ c.scenario.tags ++ (c.row.elim [] fun (e, _, _) => e.tags) = [] then []
        else [.tags ((own ++ c.scenario.tags ++ (c.row.elim [] fun (e, _, _) => e.tags)).map fun t => t.name.drop 1)]) ++ calls.map .call := by
    simp only [hdoc, htags]
    rw [j1, List.filterMap_map]
    congr 1
    clear j1 j2 j3
    induction calls with
    | nil => rfl
    | cons _ _ ih => simp
  refine ⟨{ name := p.name ++ c.suffix, pos := some (c.scenario.loc.line, (col : Int) - 1), body := testDoc ((J.find c.scenario.id none (d.withUri uri)).map (·.1)) ++ testTags (f.tags.map (·.id)) p ++ items.filterMap fun c => c },
    own ++ c.scenario.tags ++ (c.row.elim [] fun (e, _, _) => e.tags), ?_, ?_, ⟨⟨calls, j2, hbody⟩, rfl, col, hcol, rfl⟩, ?_⟩
  · rw [testCase, hid]
    simp only [i1, hname, hpos]
  · rw [Case.tags, c4]; simp
  · rw [Test.unplaced, exactTest, hbody]
    simp only [List.map_append, List.map_map, j3]
    congr 3
    · split <;> rfl
    · split <;> rfl

theorem testCase_ok {eng : Engine} {printable : Char → Bool} {d : Document} (hd : Ready d) {uri uri' lang : Str} {f : Feature} (hf : d.feature = some f) {c : Case}
    (hc : c ∈ d.cases) {p : Pickle} (hr : Realises eng uri' lang c p) :
    ∃ t own, testCase printable (d.withUri uri) (f.tags.map (·.id)) p = .ok t ∧ c.tags = f.tags ++ own ∧ TestOf own c p t := by
  obtain ⟨t, own, h1, h2, h3, _⟩ := testCase_full (printable := printable) hd (uri := uri) hf hc hr
  exact ⟨t, own, h1, h2, h3⟩

end Gherkin
