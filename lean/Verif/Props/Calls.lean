import Verif.Spec.Calls
import Verif.Props.Independent
import Verif.Props.Parts

/-! # C92: the steps of a test are independent of each other -/

namespace Gherkin

open Robot Pickles

theorem calls_exact {printable : Char → Bool} {own : List Tag} {c : Case} {p : Pickle} {t : Test} (h : t.unplaced = exactTest printable own c p) :
    t.bareCalls = (c.steps.zip p.steps).map fun x => callTokens ((if x.2.type = some .unknown then [] else x.1.keyword.getD []) ++ x.2.text) (callArgs printable x.2.arg) := by
  have hb : t.bareCalls = t.unplaced.calls := by
    unfold Test.bareCalls Test.calls Test.unplaced
    rw [List.map_filterMap, List.filterMap_map]
    congr 1
    funext i
    cases i <;> rfl
  have nd : ∀ (a : Str) (b : List Str) (P Q : Prop) [Decidable P] [Decidable Q], (((if P then [] else [Item.documentation a]) ++ (if Q then [] else [Item.tags b])).filterMap Item.toks?) = ([] : List (List Tok)) := by
    intro a b P Q _ _
    by_cases hp : P <;> by_cases hq : Q <;> simp [hp, hq, Item.toks?]
  rw [hb, Test.calls, h, exactTest]
  simp only [List.filterMap_append]
  have := nd (strip c.scenario.description) (own.map fun t => t.name.drop 1) (c.scenario.description = []) (own = [])
  rw [List.filterMap_append] at this
  rw [this, List.nil_append, List.filterMap_map]
  simp [Function.comp_def, Item.toks?]

theorem filled_same (R : List (Str × Str) → Str → Str → Prop) {c c' : Case} {i j : Nat} (h : c.filledAt i = c'.filledAt j) : c.fillAtBy R i = c'.fillAtBy R j := by
  funext s s'
  unfold Case.filledAt at h
  unfold Case.fillAtBy Case.fillBy
  rcases h1 : c.row with _ | ⟨e, hd, r⟩ <;> rcases h2 : c'.row with _ | ⟨e', hd', r'⟩ <;> rw [h1, h2] at h <;>
    by_cases b1 : i < c.background.length <;> by_cases b2 : j < c'.background.length <;> simp [b1, b2] at h ⊢
  simp [columns, h.1, h.2]

/-- **C92.** The call of a step depends on the step alone - its keyword, text and argument -, on the row of the example, and on whether it counts as a step with `*` (which `And` and `But`
take over from the step they follow). It does not matter what other steps there are, and where the step stands, and in what file. -/
theorem C92_calls_are_independent (eng : Engine) (printable : Char → Bool)
    (es : List DirEntry) (uri name content : Str) (sets : List Setting) (tests : List Test) (fn : Option Str) (d : Document)
    (es' : List DirEntry) (uri' name' content' : Str) (sets' : List Setting) (tests' : List Test) (fn' : Option Str) (d' : Document)
    (hb : build eng printable es uri name content = .ok (.suite sets tests, fn)) (hd : parseFile name content = .ok (some d))
    (hb' : build eng printable es' uri' name' content' = .ok (.suite sets' tests', fn')) (hd' : parseFile name' content' = .ok (some d'))
    (i j : Nat) (c c' : Case) (t t' : Test) (hc : d.cases[i]? = some c) (ht : tests[i]? = some t) (hc' : d'.cases[j]? = some c') (ht' : tests'[j]? = some t') :
    t.bareCalls.length = c.steps.length ∧
    ∀ (a b : Nat) (s s' : Step), c.steps[a]? = some s → c'.steps[b]? = some s' → s.written = s'.written → c.filledAt a = c'.filledAt b →
      (c.typeAt a = some .unknown ↔ c'.typeAt b = some .unknown) → t.bareCalls[a]? = t'.bareCalls[b]? := by
  obtain ⟨f, hf⟩ : ∃ f, d.feature = some f := by
    cases h : d.feature with
    | none => simp [Document.cases, h] at hc
    | some f => exact ⟨f, rfl⟩
  obtain ⟨f', hf'⟩ : ∃ f, d'.feature = some f := by
    cases h : d'.feature with
    | none => simp [Document.cases, h] at hc'
    | some f => exact ⟨f, rfl⟩
  obtain ⟨p, own, a1, a2, a3, a4, a5⟩ := suite_exact hd hf hb hc ht
  obtain ⟨p', own', b1, b2, b3, b4, b5⟩ := suite_exact hd' hf' hb' hc' ht'
  refine ⟨by rw [calls_exact a2, List.length_map, List.length_zip, a4, Nat.min_self], ?_⟩
  intro a b s s' hs hs' hw hfl hty
  have la := (List.getElem?_eq_some_iff.1 hs).1
  have lb := (List.getElem?_eq_some_iff.1 hs').1
  obtain ⟨q, hq⟩ : ∃ q, p.steps[a]? = some q := ⟨_, List.getElem?_eq_getElem (by omega)⟩
  obtain ⟨q', hq'⟩ : ∃ q, p'.steps[b]? = some q := ⟨_, List.getElem?_eq_getElem (by omega)⟩
  have z1 : (c.steps.zip p.steps)[a]? = some (s, q) := by rw [List.getElem?_zip_eq_some]; exact ⟨hs, hq⟩
  have z2 : (c'.steps.zip p'.steps)[b]? = some (s', q') := by rw [List.getElem?_zip_eq_some]; exact ⟨hs', hq'⟩
  have t1 := a5 a la
  have t2 := b5 b lb
  rw [hq, Option.map_some, Option.some.injEq] at t1
  rw [hq', Option.map_some, Option.some.injEq] at t2
  rw [← t1, ← t2] at hty
  simp only [Step.written, Prod.mk.injEq] at hw
  obtain ⟨w1, w2, w3⟩ := hw
  have hR : ∀ (c : Case) i s a b, c.fillAtBy (interpolated eng) i s a → c.fillAtBy (interpolated eng) i s b → a = b := by
    intro c i s a b
    unfold Case.fillAtBy Case.fillBy
    split
    · rintro rfl rfl; rfl
    · split
      · rintro rfl rfl; rfl
      · intro ha hb; unfold interpolated at ha hb; rw [ha] at hb; simpa using hb
  obtain ⟨⟨x, x1, x2⟩, x3⟩ := texts_at_by a3 hs hq
  obtain ⟨⟨y, y1, y2⟩, y3⟩ := texts_at_by b3 hs' hq'
  rw [w2, y1] at x1
  simp only [Option.some.injEq] at x1
  subst x1
  rw [filled_same _ hfl] at x2 x3
  have e1 := hR _ _ _ _ _ x2 y2
  have e2 : q.arg = q'.arg := by
    have w3 : s.arg.change ⟨fun _ => .zero, fun _ => 0, fun s => s⟩ = s'.arg.change ⟨fun _ => .zero, fun _ => 0, fun s => s⟩ := w3
    rw [← argRel_change ⟨fun _ => .zero, fun _ => 0, fun s => s⟩, w3, argRel_change] at x3
    exact ArgRel.unique (hR c' b) x3 y3
  rw [calls_exact a2, calls_exact b2, List.getElem?_map, List.getElem?_map, z1, z2]
  simp only [Option.map_some, e1, e2, w1, hty]

theorem written_bare {s s' : Step} (h : s.bare = s'.bare) : s.written = s'.written := by
  have h1 : s.bare.keyword = s'.bare.keyword := congrArg Step.keyword h
  have h2 : s.bare.text = s'.bare.text := congrArg Step.text h
  have h3 : s.bare.arg = s'.bare.arg := congrArg Step.arg h
  have e1 : s.keyword = s'.keyword := h1
  have e2 : s.text = s'.text := h2
  simp only [Step.written, e1, e2, h3]

/-- The type of the last of these steps. -/
def lastType (l : List Step) : Option KType := (l.filterMap (·.keywordType)).reverse.find? (· ≠ .conjunction)

theorem lastType_bare (l : List Step) : lastType (l.map Step.bare) = lastType l := by
  unfold lastType
  rw [List.filterMap_map]
  rfl

theorem lastType_append (l l' : List Step) : lastType (l ++ l') = (lastType l').or (lastType l) := by
  simp [lastType, List.find?_append]

theorem lastType_some {l : List Step} (h : ∃ s ∈ l, ∃ k, s.keywordType = some k ∧ k ≠ .conjunction) : ∃ k, lastType l = some k := by
  obtain ⟨s, hs, k, hk, hn⟩ := h
  rw [← Option.isSome_iff_exists, lastType, List.find?_isSome]
  exact ⟨k, by simp only [List.mem_reverse, List.mem_filterMap]; exact ⟨s, hs, hk⟩, by simpa using hn⟩

theorem typeAt_last {c : Case} (i : Nat) : c.typeAt i = (lastType ((c.steps.map Step.bare).take (i + 1))).or (if c.row.isSome then none else some .unknown) := by
  rw [← List.map_take, lastType_bare]
  unfold Case.typeAt lastType
  cases ((c.steps.take (i + 1)).filterMap (·.keywordType)).reverse.find? (· ≠ .conjunction) <;> rfl

theorem case_bare {c : Case} {l : List Step} (h : c.scenario.steps.map Step.bare = l) (hn : l ≠ []) : c.steps.map Step.bare = c.background.map Step.bare ++ l := by
  have : c.scenario.steps ≠ [] := by rintro e; rw [e] at h; exact hn h.symm
  rw [Case.steps, if_neg this, List.map_append, h]

theorem get_bare {c : Case} {l : List Step} (h : c.steps.map Step.bare = l) {i : Nat} {s : Step} (hs : l[i]? = some s) : ∃ x, c.steps[i]? = some x ∧ x.bare = s := by
  rw [← h, List.getElem?_map] at hs
  cases hx : c.steps[i]? with
  | none => rw [hx] at hs; simp at hs
  | some x => rw [hx] at hs; exact ⟨x, rfl, by simpa using hs⟩

/-- **C92, editing a scenario.** Take two cases with the same background and the same row, whose scenarios have the same steps at the beginning (`pre`) and at the end (`post`), and any others
in between: the tests have the same calls at the beginning and at the end, if the steps at the end do not begin with a conjunction (`And`, `But`). -/
theorem C92_editing (eng : Engine) (printable : Char → Bool)
    (es : List DirEntry) (uri name content : Str) (sets : List Setting) (tests : List Test) (fn : Option Str) (d : Document)
    (es' : List DirEntry) (uri' name' content' : Str) (sets' : List Setting) (tests' : List Test) (fn' : Option Str) (d' : Document)
    (hb : build eng printable es uri name content = .ok (.suite sets tests, fn)) (hd : parseFile name content = .ok (some d))
    (hb' : build eng printable es' uri' name' content' = .ok (.suite sets' tests', fn')) (hd' : parseFile name' content' = .ok (some d'))
    (i j : Nat) (c c' : Case) (t t' : Test) (hc : d.cases[i]? = some c) (ht : tests[i]? = some t) (hc' : d'.cases[j]? = some c') (ht' : tests'[j]? = some t')
    (hbg : c.background.map Step.bare = c'.background.map Step.bare) (hrow : c.row.map rowContent = c'.row.map rowContent)
    (pre mid mid' post : List Step) (hs : c.scenario.steps.map Step.bare = pre ++ mid ++ post) (hs' : c'.scenario.steps.map Step.bare = pre ++ mid' ++ post)
    (h0 : pre ++ mid ++ post ≠ []) (h0' : pre ++ mid' ++ post ≠ []) (hp : ∀ s ∈ post.head?, ∃ k, s.keywordType = some k ∧ k ≠ .conjunction) :
    ∃ first calls calls' last, t.bareCalls = first ++ calls ++ last ∧ t'.bareCalls = first ++ calls' ++ last ∧
      first.length = c.background.length + pre.length ∧ calls.length = mid.length ∧ calls'.length = mid'.length ∧ last.length = post.length := by
  obtain ⟨l1, same⟩ := C92_calls_are_independent eng printable es uri name content sets tests fn d es' uri' name' content' sets' tests' fn' d' hb hd hb' hd' i j c c' t t' hc ht hc' ht'
  obtain ⟨l2, _⟩ := C92_calls_are_independent eng printable es' uri' name' content' sets' tests' fn' d' es uri name content sets tests fn d hb' hd' hb hd j i c' c t' t hc' ht' hc ht
  have e1 := case_bare hs h0
  have e2 := case_bare hs' h0'
  rw [← hbg] at e2
  have hlb : c'.background.length = c.background.length := by simpa using (congrArg List.length hbg).symm
  generalize hB : c.background.map Step.bare = B at e1 e2
  have hBl : B.length = c.background.length := by rw [← hB, List.length_map]
  have n1 : c.steps.length = B.length + pre.length + mid.length + post.length := by
    have := congrArg List.length e1; simp at this; omega
  have n2 : c'.steps.length = B.length + pre.length + mid'.length + post.length := by
    have := congrArg List.length e2; simp at this; omega
  have hsome : c.row.isSome = c'.row.isSome := by simpa using congrArg Option.isSome hrow
  have hrow2 : c.row.map (fun x => (x.2.1.cells.map (·.value), x.2.2.cells.map (·.value))) = c'.row.map fun x => (x.2.1.cells.map (·.value), x.2.2.cells.map (·.value)) := by
    have := congrArg (Option.map fun x : Option Str × List Str × List Str => x.2) hrow
    simpa [rowContent, Function.comp_def] using this
  have fillSame : ∀ a b, (a < c.background.length ↔ b < c'.background.length) → c.filledAt a = c'.filledAt b := by
    intro a b hab
    unfold Case.filledAt
    by_cases h : a < c.background.length
    · rw [if_pos h, if_pos (hab.1 h)]
    · rw [if_neg h, if_neg (fun x => h (hab.2 x)), hrow2]
  have front : ∀ a, a < B.length + pre.length → t.bareCalls[a]? = t'.bareCalls[a]? := by
    intro a ha
    obtain ⟨s, hx⟩ : ∃ s, (B ++ pre)[a]? = some s := ⟨_, List.getElem?_eq_getElem (by simp; omega)⟩
    have g1 : (B ++ (pre ++ mid ++ post))[a]? = some s := by
      rw [show B ++ (pre ++ mid ++ post) = (B ++ pre) ++ (mid ++ post) by simp, List.getElem?_append_left (by simp; omega), hx]
    have g2 : (B ++ (pre ++ mid' ++ post))[a]? = some s := by
      rw [show B ++ (pre ++ mid' ++ post) = (B ++ pre) ++ (mid' ++ post) by simp, List.getElem?_append_left (by simp; omega), hx]
    obtain ⟨x, x1, x2⟩ := get_bare e1 g1
    obtain ⟨y, y1, y2⟩ := get_bare e2 g2
    refine same a a x y x1 y1 (written_bare (x2.trans y2.symm)) (fillSame a a (by rw [hlb])) ?_
    have : (c.steps.map Step.bare).take (a + 1) = (c'.steps.map Step.bare).take (a + 1) := by
      have cut : ∀ y : List Step, ((B ++ pre) ++ y).take (a + 1) = (B ++ pre).take (a + 1) := fun y => List.take_append_of_le_length (by rw [List.length_append]; omega)
      rw [e1, e2, show B ++ (pre ++ mid ++ post) = (B ++ pre) ++ (mid ++ post) by simp, show B ++ (pre ++ mid' ++ post) = (B ++ pre) ++ (mid' ++ post) by simp, cut, cut]
    rw [typeAt_last, typeAt_last, this, hsome]
  have back : ∀ k, k < post.length → t.bareCalls[B.length + pre.length + mid.length + k]? = t'.bareCalls[B.length + pre.length + mid'.length + k]? := by
    intro k hk
    have get : ∀ m : List Step, (B ++ (pre ++ m ++ post))[B.length + pre.length + m.length + k]? = post[k]? := by
      intro m
      rw [show B ++ (pre ++ m ++ post) = (B ++ pre ++ m) ++ post by simp, List.getElem?_append_right (by simp; omega)]
      congr 1
      simp; omega
    obtain ⟨s, hx⟩ : ∃ s, post[k]? = some s := ⟨_, List.getElem?_eq_getElem hk⟩
    obtain ⟨x, x1, x2⟩ := get_bare e1 ((get mid).trans hx)
    obtain ⟨y, y1, y2⟩ := get_bare e2 ((get mid').trans hx)
    refine same _ _ x y x1 y1 (written_bare (x2.trans y2.symm)) (fillSame _ _ (by rw [hlb, ← hBl]; omega)) ?_
    have cut : ∀ m : List Step, (B ++ (pre ++ m ++ post)).take (B.length + pre.length + m.length + k + 1) = (B ++ pre ++ m) ++ post.take (k + 1) := by
      intro m
      have hl : B.length + pre.length + m.length + k + 1 = (B ++ pre ++ m).length + (k + 1) := by simp only [List.length_append]; omega
      rw [show B ++ (pre ++ m ++ post) = (B ++ pre ++ m) ++ post by simp, hl, List.take_length_add_append]
    obtain ⟨ty, hty⟩ : ∃ ty, lastType (post.take (k + 1)) = some ty := by
      apply lastType_some
      cases post with
      | nil => simp at hk
      | cons z zs => exact ⟨z, by simp, hp z (by simp)⟩
    rw [typeAt_last, typeAt_last, e1, e2, cut, cut, lastType_append, lastType_append (B ++ pre ++ mid'), hty]
    simp only [Option.some_or]
  have f1 : t.bareCalls.take (B.length + pre.length) = t'.bareCalls.take (B.length + pre.length) := by
    apply List.ext_getElem?
    intro a
    rw [List.getElem?_take, List.getElem?_take]
    split
    · exact front a (by assumption)
    · rfl
  have f2 : t.bareCalls.drop (B.length + pre.length + mid.length) = t'.bareCalls.drop (B.length + pre.length + mid'.length) := by
    apply List.ext_getElem?
    intro a
    rw [List.getElem?_drop, List.getElem?_drop]
    by_cases ha : a < post.length
    · exact back a ha
    · rw [List.getElem?_eq_none (by omega), List.getElem?_eq_none (by omega)]
  have cut : ∀ (l : List (List Tok)) (x y : Nat), l = l.take x ++ (l.drop x).take y ++ l.drop (x + y) := by
    intro l x y
    rw [List.append_assoc, ← List.drop_drop, List.take_append_drop, List.take_append_drop]
  refine ⟨t.bareCalls.take (B.length + pre.length), (t.bareCalls.drop (B.length + pre.length)).take mid.length, (t'.bareCalls.drop (B.length + pre.length)).take mid'.length,
    t.bareCalls.drop (B.length + pre.length + mid.length), cut _ _ _, ?_, ?_, ?_, ?_, ?_⟩
  · rw [f1, f2]; exact cut _ _ _
  all_goals simp only [List.length_take, List.length_drop, l1, l2]; omega

/-! ### The hypotheses can be met -/

namespace Sample.Calls

def before : Str := py"Feature: one
  Background:
    * a shop

  Scenario Outline: buy
    And I have <n> coins
    When I buy
      | <n> |
    Then I pay
    And I leave

    Examples:
      | n |
      | 7 |
"

def after : Str := py"Feature: two
  Background:
    * a shop

  Scenario Outline: buy in haste
    And I have <n> coins
    * nothing
    And I run away
    Then I pay
    And I leave

    Examples:
      | n |
      | 7 |
"

/-- Of the first case: background, own steps, row; and the calls of its test. -/
def first (text : Str) : List Step × List Step × Option (Option Str × List Str × List Str) × List (List Tok) :=
  match parseFile py"a.feature" text, build Sample.noEngine (fun _ => true) [] [] py"a.feature" text with
  | .ok (some d), .ok (.suite _ (t :: _), _) => match d.cases with
    | c :: _ => (c.background.map Step.bare, c.scenario.steps.map Step.bare, c.row.map rowContent, t.bareCalls)
    | [] => ([], [], none, [])
  | _, _ => ([], [], none, [])

end Sample.Calls

open Sample.Calls in
/-- One step at the beginning and two at the end are the same, and so are two calls and two calls. -/
example : (first before).1 = (first after).1 ∧ (first before).1.length = 1 ∧ (first before).2.2.1 = (first after).2.2.1 ∧ (first before).2.2.1.isSome ∧
    (first before).2.1.take 1 = (first after).2.1.take 1 ∧ (first before).2.1.drop 2 = (first after).2.1.drop 3 ∧ ((first before).2.1.drop 2).length = 2 ∧
    (∀ s ∈ ((first before).2.1.drop 2).head?, s.keywordType = some .outcome) ∧
    (first before).2.2.2.take 2 = (first after).2.2.2.take 2 ∧ (first before).2.2.2.drop 3 = (first after).2.2.2.drop 4 ∧ (first after).2.2.2.length = 6 := by decide +kernel

/-- The condition on the steps at the end cannot be dropped: `And` after a step with `*` is left out of the name of the call. -/
theorem C92_conjunction :
    ((Sample.Calls.first py"Feature: f\n  Scenario: s\n    Given a\n    And b\n").2.2.2.map fun toks => values .keyword toks) = [[py"Given a"], [py"And b"]] ∧
    ((Sample.Calls.first py"Feature: f\n  Scenario: s\n    * a\n    And b\n").2.2.2.map fun toks => values .keyword toks) = [[py"a"], [py"b"]] := by decide +kernel

end Gherkin
