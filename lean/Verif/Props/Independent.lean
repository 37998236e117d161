import Verif.Props.Runs

/-! # C62: a test depends on its own scenario only -/

namespace Gherkin

open Robot Pickles

/-- A cell that holds a value. -/
def cellOf (v : Str) : Cell := { loc := .zero, value := v }

/-- Interpolation looks at the cells' values only. -/
theorem interpolateFrom_values (eng : Engine) {vs vs' : List Cell} (hv : vs.map (·.value) = vs'.map (·.value)) :
    ∀ {hs hs' : List Cell}, hs.map (·.value) = hs'.map (·.value) → ∀ (i : Nat) (s : Str), interpolateFrom eng vs i hs s = interpolateFrom eng vs' i hs' s
  | [], [], _, _, _ => rfl
  | [], _ :: _, h, _, _ => by simp at h
  | _ :: _, [], h, _, _ => by simp at h
  | a :: hs, b :: hs', h, i, s => by
    simp only [List.map_cons, List.cons.injEq] at h
    rw [interpolateFrom, interpolateFrom, h.1]
    have hi : (vs[i]?).map (·.value) = (vs'[i]?).map (·.value) := by rw [← List.getElem?_map, hv, List.getElem?_map]
    cases h1 : vs[i]? with
    | none => cases h2 : vs'[i]? with
      | none => rfl
      | some _ => rw [h1, h2] at hi; simp at hi
    | some x => cases h2 : vs'[i]? with
      | none => rw [h1, h2] at hi; simp at hi
      | some y =>
        rw [h1, h2] at hi
        simp only [Option.map_some, Option.some.injEq] at hi
        simp only [hi]
        cases reSub eng b.value (reescape y.value) s with
        | error e => rfl
        | ok s' => exact interpolateFrom_values eng hv h.2 _ _

/-- Interpolation as a relation of the columns. -/
def interpolated (eng : Engine) (cols : List (Str × Str)) (s s' : Str) : Prop :=
  interpolate eng (cols.map fun c => cellOf c.1) (cols.map fun c => cellOf c.2) s = .ok s'

theorem interpolated_of {eng : Engine} {h r : Row} (hl : r.cells.length = h.cells.length) {s s' : Str} (hi : interpolate eng h.cells r.cells s = .ok s') :
    interpolated eng (columns h r) s s' := by
  unfold interpolated
  rw [← hi]
  refine interpolateFrom_values eng ?_ ?_ 0 s
  · simp only [List.map_map, Function.comp_def, cellOf, columns]
    rw [show (fun x : Str × Str => x.2) = Prod.snd from rfl, List.map_snd_zip (by simp [hl])]
  · simp only [List.map_map, Function.comp_def, cellOf, columns]
    rw [show (fun x : Str × Str => x.1) = Prod.fst from rfl, List.map_fst_zip (by simp [hl])]

theorem forall₂_unique {α β : Type} {R : α → β → Prop} (h : ∀ a b b', R a b → R a b' → b = b') : ∀ {as : List α} {bs bs' : List β},
    List.Forall₂ R as bs → List.Forall₂ R as bs' → bs = bs'
  | _, _, _, .nil, .nil => rfl
  | _, _, _, .cons h1 h2, .cons h3 h4 => by rw [h _ _ _ h1 h3, forall₂_unique h h2 h4]

theorem ArgRel.unique {R : Str → Str → Prop} (hR : ∀ s a b, R s a → R s b → a = b) {arg : StepArg} {p q : Option PArg} (hp : ArgRel R arg p)
    (hq : ArgRel R arg q) : p = q := by
  cases arg with
  | none =>
    cases p with
    | some _ => cases hp
    | none => cases q with
      | some _ => cases hq
      | none => rfl
  | table t =>
    rcases p with _ | p
    · cases hp
    rcases q with _ | q
    · cases hq
    cases p with
    | doc _ _ => cases hp
    | table p => cases q with
      | doc _ _ => cases hq
      | table q =>
        simp only [ArgRel] at hp hq
        have := forall₂_unique (R := fun (r : Row) cells => List.Forall₂ (fun (c : Cell) v => R c.value v) r.cells cells)
          (fun r x y h1 h2 => forall₂_unique (fun (c : Cell) a b => hR c.value a b) h1 h2) hp hq
        rw [this]
  | doc d =>
    rcases p with _ | p
    · cases hp
    rcases q with _ | q
    · cases hq
    cases p with
    | table _ => cases hp
    | doc c m => cases q with
      | table _ => cases hq
      | doc c' m' =>
        obtain ⟨h1, h2⟩ := hp
        obtain ⟨h3, h4⟩ := hq
        rw [hR _ _ _ h1 h3]
        generalize d.mediaType = k at h2 h4
        cases h2 with
        | none => cases h4; rfl
        | some h2 => cases h4 with
          | some h4 => rw [hR _ _ _ h2 h4]

/-- Everything about the tests of a suite, exactly. -/
theorem suite_exact {eng : Engine} {printable : Char → Bool} {es : List DirEntry} {uri name content : Str} {d : Document} {f : Feature}
    (h : parseFile name content = .ok (some d)) (hf : d.feature = some f) {sets : List Setting} {tests : List Test} {fn : Option Str}
    (hb : build eng printable es uri name content = .ok (.suite sets tests, fn)) {i : Nat} {c : Case} {t : Test} (hc : d.cases[i]? = some c)
    (ht : tests[i]? = some t) :
    ∃ p own, c.tags = f.tags ++ own ∧ t.unplaced = exactTest printable own c p ∧ c.Texts (interpolated eng) p ∧ p.steps.length = c.steps.length ∧
      ∀ j, j < c.steps.length → (p.steps[j]?).map (·.type) = some (c.typeAt j) := by
  obtain ⟨d', f', ps, n, g1, g2, g3, g4, _⟩ := build_suite hb
  rw [h] at g1
  simp only [Except.ok.injEq, Option.some.injEq] at g1
  subst g1
  rw [hf] at g2
  simp only [Option.some.injEq] at g2
  subst g2
  obtain ⟨hr, hbf, _⟩ := parseFile_ready h
  obtain ⟨lang, _, hp⟩ := compile_forall₂ hbf g3
  obtain ⟨tests', t1, t2⟩ := forall₂_each (f := testCase printable (d.withUri uri) (f.tags.map (·.id)))
    (Q := fun c p t => ∃ own, c.tags = f.tags ++ own ∧ t.unplaced = exactTest printable own c p)
    (forall₂_and_mem hp) (by
      rintro c p ⟨h1, h2⟩
      obtain ⟨t, own, e1, e2, _, e3⟩ := testCase_full (printable := printable) hr (uri := uri) hf h1 h2
      exact ⟨t, e1, own, e2, e3⟩)
  rw [g4] at t1
  simp only [Except.ok.injEq] at t1
  subst t1
  have htx := texts_by (R := interpolated eng) eng uri d hbf (fun e he h hh r hrow s s' hi => interpolated_of (hr.tables e he h hh r hrow) hi) 0 n ps g3
  have hty := C27_pickle_types eng uri d hbf 0 n ps g3
  have hlen := hp.length_eq
  obtain ⟨hi, _⟩ := List.getElem?_eq_some_iff.1 hc
  obtain ⟨p, hpi⟩ : ∃ p, ps[i]? = some p := ⟨_, List.getElem?_eq_getElem (by omega)⟩
  have hz : (d.cases.zip ps)[i]? = some (c, p) := by rw [List.getElem?_zip_eq_some]; exact ⟨hc, hpi⟩
  obtain ⟨own, o1, o2⟩ := forall₂_get t2 hz ht
  obtain ⟨y1, y2⟩ := forall₂_get hty hc hpi
  exact ⟨p, own, o1, o2, forall₂_get htx hc hpi, y1, y2⟩

section
variable {c c' : Case} (hs : c.content = c'.content)
include hs

theorem content_row : c.row.map rowContent = c'.row.map rowContent := congrArg Case.Content.row hs

theorem content_fill (R : List (Str × Str) → Str → Str → Prop) : c.fillBy R = c'.fillBy R := by
  have h := content_row hs
  funext s s'
  unfold Case.fillBy
  rcases h1 : c.row with _ | ⟨e, hd, r⟩ <;> rcases h2 : c'.row with _ | ⟨e', hd', r'⟩ <;> rw [h1, h2] at h <;> simp [rowContent] at h
  simp [columns, h.2.1, h.2.2]

theorem content_fillAt (R : List (Str × Str) → Str → Str → Prop) (i : Nat) : c.fillAtBy R i = c'.fillAtBy R i := by
  have h : c.background.length = c'.background.length := by simpa [Case.content] using congrArg (fun x => x.background.length) hs
  funext s s'
  unfold Case.fillAtBy
  rw [h, content_fill hs R]

theorem content_suffix : c.suffix = c'.suffix := by
  have h := content_row hs
  have zip : ∀ {a b a' b' : List Cell}, a.map (·.value) = a'.map (·.value) → b.map (·.value) = b'.map (·.value) →
      ((a.zip b).flatMap fun (h, v) => py" " ++ h.value ++ py" = " ++ v.value) = (a'.zip b').flatMap fun (h, v) => py" " ++ h.value ++ py" = " ++ v.value := by
    intro a b a' b' h1 h2
    have : ∀ x y : List Cell, ((x.zip y).flatMap fun (h, v) => py" " ++ h.value ++ py" = " ++ v.value) =
        (((x.map (·.value)).zip (y.map (·.value))).flatMap fun (h, v) => py" " ++ h ++ py" = " ++ v) := by
      intro x y; rw [List.zip_map, List.flatMap_map]; rfl
    rw [this, this, h1, h2]
  unfold Case.suffix
  rcases h1 : c.row with _ | ⟨e, hd, r⟩ <;> rcases h2 : c'.row with _ | ⟨e', hd', r'⟩ <;> rw [h1, h2] at h <;> simp [rowContent] at h
  simp only [h.1, rowSuffix, zip h.2.1 h.2.2]

theorem content_steps : c.steps.map (Step.change ⟨fun _ => .zero, fun _ => 0, fun s => s⟩) = c'.steps.map (Step.change ⟨fun _ => .zero, fun _ => 0, fun s => s⟩) := by
  have h1 : c.background.map (Step.change ⟨fun _ => .zero, fun _ => 0, fun s => s⟩) = c'.background.map (Step.change ⟨fun _ => .zero, fun _ => 0, fun s => s⟩) :=
    congrArg Case.Content.background hs
  have h2 : c.scenario.steps.map (Step.change ⟨fun _ => .zero, fun _ => 0, fun s => s⟩) =
    c'.scenario.steps.map (Step.change ⟨fun _ => .zero, fun _ => 0, fun s => s⟩) := congrArg Case.Content.steps hs
  have h3 : c.scenario.steps = [] ↔ c'.scenario.steps = [] := by
    rw [← List.map_eq_nil_iff, h2, List.map_eq_nil_iff]
  unfold Case.steps
  by_cases h : c.scenario.steps = []
  · rw [if_pos h, if_pos (h3.1 h)]
  · rw [if_neg h, if_neg (fun e => h (h3.2 e)), List.map_append, List.map_append, h1, h2]

theorem content_typeAt (i : Nat) : c.typeAt i = c'.typeAt i := by
  have key : ∀ l : List Step, (l.take (i + 1)).filterMap (·.keywordType) =
      ((l.map (Step.change ⟨fun _ => .zero, fun _ => 0, fun s => s⟩)).take (i + 1)).filterMap (·.keywordType) := by
    intro l; rw [← List.map_take, List.filterMap_map]; rfl
  have h2 : c.row.isSome = c'.row.isSome := by simpa using congrArg Option.isSome (content_row hs)
  unfold Case.typeAt
  rw [key c.steps, content_steps hs, ← key, h2]

end

theorem exactTest_unique {eng : Engine} {printable : Char → Bool} {c c' : Case} {own own' : List Tag} {p p' : Pickle} (hs : c.content = c'.content)
    (ho : own.map Tag.name = own'.map Tag.name)
    (h1 : c.Texts (interpolated eng) p) (h2 : p.steps.length = c.steps.length) (h3 : ∀ j, j < c.steps.length → (p.steps[j]?).map (·.type) = some (c.typeAt j))
    (h1' : c'.Texts (interpolated eng) p') (h2' : p'.steps.length = c'.steps.length)
    (h3' : ∀ j, j < c'.steps.length → (p'.steps[j]?).map (·.type) = some (c'.typeAt j)) :
    exactTest printable own c p = exactTest printable own' c' p' := by
  have hR : ∀ (c : Case) i s a b, c.fillAtBy (interpolated eng) i s a → c.fillAtBy (interpolated eng) i s b → a = b := by
    intro c i s a b
    unfold Case.fillAtBy Case.fillBy
    split
    · rintro rfl rfl; rfl
    · split
      · rintro rfl rfl; rfl
      · intro ha hb; unfold interpolated at ha hb; rw [ha] at hb; simpa using hb
  have hname : p.name = p'.name := by
    obtain ⟨n, e1, e2⟩ := texts_name_by h1
    obtain ⟨n', e1', e2'⟩ := texts_name_by h1'
    have e3 : c.scenario.name = c'.scenario.name := congrArg Case.Content.name hs
    rw [e3, e1'] at e1
    simp only [Option.some.injEq] at e1
    subst e1
    rw [content_fill hs] at e2
    unfold Case.fillBy at e2 e2'
    rcases hr : c'.row with _ | ⟨e, h, r⟩
    · rw [hr] at e2 e2'; exact e2.symm.trans e2'
    · rw [hr] at e2 e2'; simp only [interpolated] at e2 e2'; rw [e2] at e2'; simpa using e2'
  have hdesc : c.scenario.description = c'.scenario.description := congrArg Case.Content.description hs
  have hlen : c.steps.length = c'.steps.length := by simpa using congrArg List.length (content_steps hs)
  have hown : own = [] ↔ own' = [] := by rw [← List.map_eq_nil_iff (f := Tag.name), ho, List.map_eq_nil_iff]
  have hown2 : (own.map fun t => t.name.drop 1) = own'.map fun t => t.name.drop 1 := by
    have e : ∀ l : List Tag, (l.map fun t => t.name.drop 1) = (l.map Tag.name).map (List.drop 1) := by intro l; simp
    rw [e, e, ho]
  unfold exactTest
  rw [hname, content_suffix hs, hdesc]
  congr 2
  · rw [hown2]
    by_cases e : own = []
    · rw [if_pos e, if_pos (hown.1 e)]
    · rw [if_neg e, if_neg (fun x => e (hown.2 x))]
  · apply List.ext_getElem?
    intro i
    rw [List.getElem?_map, List.getElem?_map]
    by_cases hi : i < c.steps.length
    · obtain ⟨s, hs1⟩ : ∃ s, c.steps[i]? = some s := ⟨_, List.getElem?_eq_getElem hi⟩
      obtain ⟨s', hs2⟩ : ∃ s, c'.steps[i]? = some s := ⟨_, List.getElem?_eq_getElem (by omega)⟩
      obtain ⟨q, hq1⟩ : ∃ q, p.steps[i]? = some q := ⟨_, List.getElem?_eq_getElem (by omega)⟩
      obtain ⟨q', hq2⟩ : ∃ q, p'.steps[i]? = some q := ⟨_, List.getElem?_eq_getElem (by omega)⟩
      have z1 : (c.steps.zip p.steps)[i]? = some (s, q) := by rw [List.getElem?_zip_eq_some]; exact ⟨hs1, hq1⟩
      have z2 : (c'.steps.zip p'.steps)[i]? = some (s', q') := by rw [List.getElem?_zip_eq_some]; exact ⟨hs2, hq2⟩
      have hch : s.change ⟨fun _ => .zero, fun _ => 0, fun s => s⟩ = s'.change ⟨fun _ => .zero, fun _ => 0, fun s => s⟩ := by
        have := congrArg (fun l : List Step => l[i]?) (content_steps hs)
        simp only [List.getElem?_map, hs1, hs2, Option.map_some, Option.some.injEq] at this
        exact this
      have hkw : s.keyword = s'.keyword := by have := congrArg Step.keyword hch; exact this
      have htext : s.text = s'.text := by have := congrArg Step.text hch; exact this
      have harg : s.arg.change ⟨fun _ => .zero, fun _ => 0, fun s => s⟩ = s'.arg.change ⟨fun _ => .zero, fun _ => 0, fun s => s⟩ := by
        have := congrArg Step.arg hch; exact this
      have hty : q.type = q'.type := by
        have a := h3 i hi
        have b := h3' i (by omega)
        rw [hq1, Option.map_some, Option.some.injEq, content_typeAt hs] at a
        rw [hq2, Option.map_some, Option.some.injEq] at b
        rw [a, b]
      obtain ⟨⟨x, x1, x2⟩, x3⟩ := texts_at_by h1 hs1 hq1
      obtain ⟨⟨y, y1, y2⟩, y3⟩ := texts_at_by h1' hs2 hq2
      rw [htext, y1] at x1
      simp only [Option.some.injEq] at x1
      subst x1
      rw [content_fillAt hs] at x2 x3
      have e1 := hR _ _ _ _ _ x2 y2
      have e2 : q.arg = q'.arg := by
        rw [← argRel_change ⟨fun _ => .zero, fun _ => 0, fun s => s⟩, harg, argRel_change] at x3
        exact ArgRel.unique (hR c' i) x3 y3
      rw [z1, z2]
      simp only [Option.map_some, hty, hkw, e1, e2]
    · rw [List.getElem?_eq_none (by simp; omega), List.getElem?_eq_none (by simp; omega)]

/-- **C62.** A test depends on nothing but the content of its own case: name, description and steps of its scenario, its tags, the background steps and the
values of its row. Take any two feature files that build to suites, of whatever names, in whatever directories. Where a case of the one has the same
content as a case of the other, and the features have the same tags, the two tests are the same except for their positions. So whatever else
is in a file - other scenarios, other rows, rules, comments - changes nothing. -/
theorem C62_tests_are_independent (eng : Engine) (printable : Char → Bool)
    (es : List DirEntry) (uri name content : Str) (sets : List Setting) (tests : List Test) (fn : Option Str) (d : Document) (f : Feature)
    (es' : List DirEntry) (uri' name' content' : Str) (sets' : List Setting) (tests' : List Test) (fn' : Option Str) (d' : Document) (f' : Feature)
    (hb : build eng printable es uri name content = .ok (.suite sets tests, fn)) (hd : parseFile name content = .ok (some d)) (hf : d.feature = some f)
    (hb' : build eng printable es' uri' name' content' = .ok (.suite sets' tests', fn')) (hd' : parseFile name' content' = .ok (some d'))
    (hf' : d'.feature = some f') (htags : f.tags.map Tag.name = f'.tags.map Tag.name)
    (i j : Nat) (c c' : Case) (t t' : Test) (hc : d.cases[i]? = some c) (ht : tests[i]? = some t) (hc' : d'.cases[j]? = some c') (ht' : tests'[j]? = some t')
    (hs : c.content = c'.content) : t.unplaced = t'.unplaced := by
  obtain ⟨p, own, a1, a2, a3, a4, a5⟩ := suite_exact hd hf hb hc ht
  obtain ⟨p', own', b1, b2, b3, b4, b5⟩ := suite_exact hd' hf' hb' hc' ht'
  rw [a2, b2]
  refine exactTest_unique hs ?_ a3 a4 a5 b3 b4 b5
  have h : c.tags.map Tag.name = c'.tags.map Tag.name := congrArg Case.Content.tags hs
  rw [a1, b1, List.map_append, List.map_append, htags] at h
  exact List.append_cancel_left h

/-! ### The hypotheses can be met -/

/-- A file with one row, and one where its scenario stands among others, below another row, in another place. -/
def Sample.alone : Str := py"@f
Feature: one
  Background:
    Given a shop

  @s
  Scenario Outline: buy <what>
    When I buy <what>
      | <what> |
    Then I pay

    Examples:
      | what |
      | egg  |
"
def Sample.among : Str := py"# comment
@f
Feature: two
  About something else.

  Background:
    Given   a shop

  Scenario: other
    Given nothing

  @s
  Scenario Outline:   buy <what>
    When I buy <what>

      | <what> |
    Then I pay
    Examples: first
      | what |
      | milk |
      | egg  |
"

/-- The contents of the cases and the tests without positions. -/
def contents (text : Str) : List Case.Content × List Test :=
  match parseFile py"a.feature" text, build Sample.noEngine (fun _ => true) [] [] py"a.feature" text with
  | .ok (some d), .ok (.suite _ tests, _) => (d.cases.map Case.content, tests.map Test.unplaced)
  | _, _ => ([], [])

example : (contents Sample.alone).1.length = 1 ∧ (contents Sample.among).1.length = 3 ∧
    (contents Sample.alone).1[0]? = (contents Sample.among).1[2]? ∧ (contents Sample.alone).1[0]? ≠ (contents Sample.among).1[1]? ∧
    (contents Sample.alone).2[0]? = (contents Sample.among).2[2]? ∧ (contents Sample.alone).2[0]? ≠ (contents Sample.among).2[1]? := by decide +kernel

end Gherkin
