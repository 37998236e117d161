import Verif.Props.WrittenOut

/-! # C97: names, descriptions, tags and steps do not get in each other's way -/

namespace Gherkin

open Robot Pickles

theorem unplaced_docs (t : Test) : t.docs = t.unplaced.docs := by
  unfold Test.docs Test.unplaced
  rw [List.filterMap_map]
  congr 1
  funext i
  cases i <;> rfl

theorem unplaced_tagNames (t : Test) : t.tagNames = t.unplaced.tagNames := by
  unfold Test.tagNames Test.unplaced
  rw [List.flatMap_map]
  congr 1
  funext i
  cases i <;> rfl

theorem exact_docs {printable : Char → Bool} {own : List Tag} {c : Case} {p : Pickle} : (exactTest printable own c p).docs = docOf c.scenario.description := by
  unfold Test.docs exactTest docOf
  simp only [List.filterMap_append, List.filterMap_map]
  have : ∀ l : List (Step × PStep), l.filterMap (Item.doc? ∘ fun (x : Step × PStep) =>
      Item.call (callTokens ((if x.2.type = some .unknown then [] else x.1.keyword.getD []) ++ x.2.text) (callArgs printable x.2.arg))) = [] := by
    intro l; rw [List.filterMap_eq_nil_iff]; intro _ _; rfl
  rw [this]
  by_cases h : c.scenario.description = [] <;> by_cases h' : own = [] <;> simp [h, h']

theorem exact_tagNames {printable : Char → Bool} {own : List Tag} {c : Case} {p : Pickle} : (exactTest printable own c p).tagNames = own.map fun t => t.name.drop 1 := by
  unfold Test.tagNames exactTest
  simp only [List.flatMap_append, List.flatMap_map]
  have : ∀ l : List (Step × PStep), (l.flatMap fun (x : Step × PStep) =>
      (Item.call (callTokens ((if x.2.type = some .unknown then [] else x.1.keyword.getD []) ++ x.2.text) (callArgs printable x.2.arg))).tagList) = [] := by
    intro l; rw [List.flatMap_eq_nil_iff]; intro _ _; rfl
  rw [this]
  by_cases h : c.scenario.description = [] <;> by_cases h' : own = [] <;> simp [h, h']

theorem row_suffix {c c' : Case} (h : c.row.map rowContent = c'.row.map rowContent) : c.suffix = c'.suffix := by
  have zip : ∀ {a b a' b' : List Cell}, a.map (·.value) = a'.map (·.value) → b.map (·.value) = b'.map (·.value) →
      ((a.zip b).flatMap fun (h, v) => py" " ++ h.value ++ py" = " ++ v.value) = (a'.zip b').flatMap fun (h, v) => py" " ++ h.value ++ py" = " ++ v.value := by
    intro a b a' b' h1 h2
    have : ∀ x y : List Cell, ((x.zip y).flatMap fun (h, v) => py" " ++ h.value ++ py" = " ++ v.value) =
        (((x.map (·.value)).zip (y.map (·.value))).flatMap fun (h, v) => py" " ++ h ++ py" = " ++ v) := by
      intro x y; rw [List.zip_map, List.flatMap_map]; rfl
    rw [this, this, h1, h2]
  unfold Case.suffix
  rcases h1 : c.row with _ | ⟨e, hd, r⟩ <;> rcases h2 : c'.row with _ | ⟨e', hd', r'⟩ <;> rw [h1, h2] at h <;> simp [rowContent] at h
  simp only [h.1, rowSuffix, zip h.2.1 h.2.2]

/-- **C97.** A test is its name, its documentation, its tags and its calls, and nothing else; and each of these depends on a part of the case only: the name on the name of the scenario and the
row, the documentation on the description, the tags on the tags below the feature's, and the calls on the steps, the background and the row. -/
theorem C97_parts (eng : Engine) (printable : Char → Bool)
    (es : List DirEntry) (uri name content : Str) (sets : List Setting) (tests : List Test) (fn : Option Str) (d : Document) (f : Feature)
    (es' : List DirEntry) (uri' name' content' : Str) (sets' : List Setting) (tests' : List Test) (fn' : Option Str) (d' : Document) (f' : Feature)
    (hb : build eng printable es uri name content = .ok (.suite sets tests, fn)) (hd : parseFile name content = .ok (some d)) (hf : d.feature = some f)
    (hb' : build eng printable es' uri' name' content' = .ok (.suite sets' tests', fn')) (hd' : parseFile name' content' = .ok (some d')) (hf' : d'.feature = some f')
    (i j : Nat) (c c' : Case) (t t' : Test) (hc : d.cases[i]? = some c) (ht : tests[i]? = some t) (hc' : d'.cases[j]? = some c') (ht' : tests'[j]? = some t') :
    t.unplaced.body = t.docs.map .documentation ++ (if t.tagNames = [] then [] else [.tags t.tagNames]) ++ t.bareCalls.map .call ∧
    (c.scenario.name = c'.scenario.name → c.row.map rowContent = c'.row.map rowContent → t.name = t'.name) ∧
    (c.scenario.description = c'.scenario.description → t.docs = t'.docs) ∧
    ((c.tags.drop f.tags.length).map Tag.name = (c'.tags.drop f'.tags.length).map Tag.name → t.tagNames = t'.tagNames) ∧
    (c.background.map Step.bare = c'.background.map Step.bare → c.scenario.steps.map Step.bare = c'.scenario.steps.map Step.bare →
      c.row.map rowContent = c'.row.map rowContent → t.bareCalls = t'.bareCalls) := by
  obtain ⟨p, own, a1, a2, a3, a4, a5⟩ := suite_exact hd hf hb hc ht
  obtain ⟨p', own', b1, b2, b3, b4, b5⟩ := suite_exact hd' hf' hb' hc' ht'
  refine ⟨?_, ?_, ?_, ?_, ?_⟩
  · rw [unplaced_docs, unplaced_tagNames, calls_exact a2, a2, exact_docs, exact_tagNames]
    unfold exactTest docOf
    by_cases h : c.scenario.description = [] <;> by_cases h' : own = [] <;> simp [h, h']
  · intro hn hrow
    obtain ⟨x, x1, x2⟩ := texts_name_by a3
    obtain ⟨y, y1, y2⟩ := texts_name_by b3
    rw [hn, y1, Option.some.injEq] at x1
    subst x1
    have u1 : t.name = p.name ++ c.suffix := by
      have : t.unplaced.name = _ := congrArg Test.name a2
      exact this
    have u2 : t'.name = p'.name ++ c'.suffix := by
      have : t'.unplaced.name = _ := congrArg Test.name b2
      exact this
    rw [u1, u2, row_suffix hrow]
    congr 1
    unfold Case.fillBy at x2 y2
    rcases h1 : c.row with _ | ⟨e, hd, r⟩ <;> rcases h2 : c'.row with _ | ⟨e', hd', r'⟩ <;> rw [h1, h2] at hrow <;> simp [rowContent] at hrow <;> rw [h1] at x2 <;> rw [h2] at y2
    · exact x2.symm.trans y2
    · simp only [columns, hrow.2.1, hrow.2.2, interpolated] at x2 y2
      rw [x2] at y2
      simpa using y2
  · intro h
    rw [unplaced_docs, unplaced_docs t', a2, b2, exact_docs, exact_docs, h]
  · intro h
    rw [unplaced_tagNames, unplaced_tagNames t', a2, b2, exact_tagNames, exact_tagNames]
    rw [a1, b1, List.drop_left, List.drop_left] at h
    have : ∀ l : List Tag, (l.map fun t => t.name.drop 1) = (l.map Tag.name).map (List.drop 1) := by intro l; rw [List.map_map]; rfl
    rw [this, this, h]
  · intro hbg hs hrow
    obtain ⟨l1, same⟩ := C92_calls_are_independent eng printable es uri name content sets tests fn d es' uri' name' content' sets' tests' fn' d' hb hd hb' hd' i j c c' t t' hc ht hc' ht'
    obtain ⟨l2, _⟩ := C92_calls_are_independent eng printable es' uri' name' content' sets' tests' fn' d' es uri name content sets tests fn d hb' hd' hb hd j i c' c t' t hc' ht' hc ht
    have hsteps : c.steps.map Step.bare = c'.steps.map Step.bare := by
      unfold Case.steps
      by_cases h0 : c.scenario.steps = []
      · rw [if_pos h0, if_pos (by rw [h0] at hs; simpa using hs.symm)]
      · rw [if_neg h0, if_neg (fun x => h0 (by rw [x] at hs; simpa using hs)), List.map_append, List.map_append, hbg, hs]
    have hlen : c.steps.length = c'.steps.length := by simpa using congrArg List.length hsteps
    have hbl : c.background.length = c'.background.length := by simpa using congrArg List.length hbg
    have hrow2 : c.row.map (fun x => (x.2.1.cells.map (·.value), x.2.2.cells.map (·.value))) = c'.row.map fun x => (x.2.1.cells.map (·.value), x.2.2.cells.map (·.value)) := by
      have := congrArg (Option.map fun x : Option Str × List Str × List Str => x.2) hrow
      simpa [rowContent, Function.comp_def] using this
    apply List.ext_getElem?
    intro a
    by_cases ha : a < c.steps.length
    · obtain ⟨s, hs1⟩ : ∃ s, c.steps[a]? = some s := ⟨_, List.getElem?_eq_getElem ha⟩
      obtain ⟨s', hs2⟩ : ∃ s, c'.steps[a]? = some s := ⟨_, List.getElem?_eq_getElem (by omega)⟩
      have hb : s.bare = s'.bare := by
        have := congrArg (·[a]?) hsteps
        simpa [hs1, hs2] using this
      refine same a a s s' hs1 hs2 (written_bare hb) ?_ ?_
      · unfold Case.filledAt
        rw [hbl, hrow2]
      · have hsome : c.row.isSome = c'.row.isSome := by simpa using congrArg Option.isSome hrow
        rw [typeAt_last, typeAt_last, hsteps, hsome]
    · rw [List.getElem?_eq_none (by omega), List.getElem?_eq_none (by omega)]

/-! ### A concrete case -/

namespace Sample.Labels

def plainly : Str := py"Feature: f
  Scenario Outline: s <a>
    Given <a>
    Examples:
      | a |
      | 1 |
"

def labelled : Str := py"@x
Feature: f
  @y
  Scenario Outline: s <a>
    why

    Given <a>
    @z
    Examples:
      | a |
      | 1 |
"

end Sample.Labels

open Sample.Labels Sample.Columns in
/-- The same calls and name with and without tags and description. -/
example : (first plainly).map (fun x => (x.2.name, x.2.docs, x.2.tagNames)) = some (py"s 1 a = 1", [], []) ∧
    (first labelled).map (fun x => (x.2.name, x.2.docs, x.2.tagNames)) = some (py"s 1 a = 1", [py"why"], [py"y", py"z"]) ∧
    (first plainly).map (fun x => x.2.bareCalls) = (first labelled).map (fun x => x.2.bareCalls) ∧ (first plainly).map (fun x => x.2.bareCalls.length) = some 1 := by
  refine ⟨by decide +kernel, by decide +kernel, by decide +kernel, by decide +kernel⟩

end Gherkin
