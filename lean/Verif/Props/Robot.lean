import Verif.Proofs.Robot
import Verif.Props.Files
import Verif.Props.Pickles
import Verif.Props.Errors
import Verif.Spec.Runs

/-! C30, C31, C33, C34, C38: the Robot Framework model of a feature file. -/

namespace Gherkin

open Robot Pickles

theorem parsed_ready {μ : Type} {M : Matcher μ} (hM : M.Lawful) (hF : M.Filling) {stop : Bool} {text : Str} {m : μ} {b : BState} {d : Document}
    (h : (parse ⟨M, astBuilder, stop⟩ text m b).1 = .ok (some d)) : Ready d where
  nodup := (C08_ids_distinct M hM stop text m b d h).1
  filled := parsed_filled hM hF h
  tables := by
    intro e he hd hhd r hr
    obtain ⟨_, w, hw⟩ := (C16_tables_rectangular M hM stop text m b d h).2 e he
    rw [Option.mem_def] at hhd
    exact (hw r (by simp [hr])).trans (hw hd (by simp [hhd])).symm

theorem parseFile_ready {name content : Str} {d : Document} (h : parseFile name content = .ok (some d)) :
    Ready d ∧ d.BackgroundFirst ∧ ∀ f ∈ d.feature, f.name.isSome := by
  have key : Ready d ∧ d.BackgroundFirst := by
    unfold parseFile at h
    split at h
    · exact ⟨parsed_ready markdown_lawful markdown_filling h, parsed_backgroundFirst markdown_lawful h⟩
    · exact ⟨parsed_ready classic_lawful classic_filling h, parsed_backgroundFirst classic_lawful h⟩
  refine ⟨key.1, key.2, fun f hf => ?_⟩
  have : (Gherkin.Entry.feature f.loc f.keyword f.name f.language).Filled := key.1.filled _ (by
    simp only [Document.entries, Feature.entries, List.mem_flatMap, Option.mem_toList, List.mem_append, List.mem_cons]
    exact ⟨f, hf, .inr (.inl rfl)⟩)
  exact this.1

/-- Everything about the Robot model of a feature file that parses and compiles. -/
theorem built (eng : Engine) (printable : Char → Bool) (es : List DirEntry) (uri name content : Str) (d : Document) (f : Feature)
    (h : parseFile name content = .ok (some d)) (hf : d.feature = some f) (ps : List Pickle) (n : Nat) (hc : compile eng uri d 0 = .ok (ps, n)) :
    d.cases.length = ps.length ∧ ∃ tests, build eng printable es uri name content = .ok (.suite (settings es f) tests, f.name) ∧
      List.Forall₂ (fun (x : Case × Pickle) t => x.1 ∈ d.cases ∧ x.1.steps.length = x.2.steps.length ∧
        ∃ own, x.1.tags = f.tags ++ own ∧ TestOf own x.1 x.2 t) (d.cases.zip ps) tests := by
  obtain ⟨hr, hb, hn⟩ := parseFile_ready h
  obtain ⟨lang, _, hp⟩ := compile_forall₂ hb hc
  obtain ⟨tests, t1, t2⟩ := forall₂_each (f := testCase printable (d.withUri uri) (f.tags.map (·.id)))
    (Q := fun c p t => c ∈ d.cases ∧ c.steps.length = p.steps.length ∧ ∃ own, c.tags = f.tags ++ own ∧ TestOf own c p t)
    (forall₂_and_mem hp) (by
      rintro c p ⟨h1, h2⟩
      obtain ⟨t, own, e1, e2, e3⟩ := testCase_ok (printable := printable) hr (uri := uri) hf h1 h2
      exact ⟨t, e1, h1, (steps_ids h2).length_eq, own, e2, e3⟩)
  refine ⟨hp.length_eq, tests, ?_, t2⟩
  obtain ⟨nm, hnm⟩ := Option.isSome_iff_exists.1 (hn f hf)
  unfold build tryBuild convert
  simp only [h, hc, hf, t1, hnm]

/-- A suite comes only from a file that parses, has a feature and compiles. -/
theorem build_suite {eng : Engine} {printable : Char → Bool} {es : List DirEntry} {uri name content : Str} {sets : List Setting} {tests : List Test}
    {fn : Option Str} (h : build eng printable es uri name content = .ok (.suite sets tests, fn)) :
    ∃ d f ps n, parseFile name content = .ok (some d) ∧ d.feature = some f ∧ compile eng uri d 0 = .ok (ps, n) ∧
      Robot.each (testCase printable (d.withUri uri) (f.tags.map (·.id))) ps = .ok tests ∧ sets = settings es f ∧ fn = f.name := by
  have h1 : tryBuild eng printable es uri name content = .ok (.suite sets tests, fn) := by
    unfold build at h
    split at h
    · rename_i r hr; rw [hr]; simpa using h
    · split at h <;> simp at h
    · simp at h
  unfold tryBuild at h1
  split at h1 <;> try (simp [crash] at h1; done)
  rename_i d hd
  unfold convert at h1
  split at h1 <;> try (simp [crash] at h1; done)
  rename_i ps n hps
  split at h1 <;> try (simp [crash] at h1; done)
  rename_i f hf
  split at h1 <;> try (simp at h1; done)
  rename_i tests' ht
  split at h1 <;> try (simp [crash] at h1; done)
  rename_i nm hnm
  simp only [Except.ok.injEq, Prod.mk.injEq, File.suite.injEq] at h1
  obtain ⟨⟨rfl, rfl⟩, rfl⟩ := h1
  exact ⟨d, f, ps, n, hd, hf, hps, ht, rfl, hnm.symm⟩

/-- The keyword calls of a test are those in the body. -/
theorem calls_of {own : List Tag} {c : Case} {p : Pickle} {t : Test} (ht : TestOf own c p t) :
    List.Forall₂ (fun (x : Step × PStep) toks => CallOf x.1 x.2 toks) (c.steps.zip p.steps) t.calls := by
  obtain ⟨calls, hcl, hbody⟩ := ht.body
  have : t.calls = calls := by
    rw [Test.calls, hbody]
    rw [List.filterMap_append, List.filterMap_append, List.filterMap_map]
    have e1 : (if c.scenario.description = [] then [] else [Item.documentation (strip c.scenario.description)]).filterMap
      Item.toks? = [] := by split <;> rfl
    have e2 : (if own = [] then [] else [Item.tags (own.map fun t => t.name.drop 1)]).filterMap
      Item.toks? = [] := by split <;> rfl
    rw [e1, e2]
    simp only [List.nil_append]
    clear hcl hbody e1 e2
    induction calls with
    | nil => rfl
    | cons _ _ ih => simpa using ih
  rw [this]; exact hcl

/-- C30: a feature file that parses, has a feature and compiles becomes a suite with one test per pickle (that is, per case of the
document), in order; each test has one keyword call per pickle step, in order, and each call is the call of its step. -/
theorem C30_one_test_per_pickle (eng : Engine) (printable : Char → Bool) (es : List DirEntry) (uri name content : Str) (d : Document) (f : Feature)
    (h : parseFile name content = .ok (some d)) (hf : d.feature = some f) (ps : List Pickle) (n : Nat) (hc : compile eng uri d 0 = .ok (ps, n)) :
    d.cases.length = ps.length ∧ ∃ sets tests, build eng printable es uri name content = .ok (.suite sets tests, f.name) ∧
      List.Forall₂ (fun (x : Case × Pickle) t => x.1.steps.length = x.2.steps.length ∧
        List.Forall₂ (fun (y : Step × PStep) toks => CallOf y.1 y.2 toks) (x.1.steps.zip x.2.steps) t.calls) (d.cases.zip ps) tests := by
  obtain ⟨h1, tests, h2, h3⟩ := built eng printable es uri name content d f h hf ps n hc
  refine ⟨h1, _, tests, h2, h3.imp ?_⟩
  rintro ⟨c, p⟩ t ⟨_, hl, own, _, ht⟩
  exact ⟨hl, calls_of ht⟩

/-- C30: the hypothesis of compilation is met by every file that parses, if every header cell of an examples table, between `<` and
`>`, is a regular expression of the modelled kind. -/
theorem C30_compiles (eng : Engine) (uri name content : Str) (d : Document) (h : parseFile name content = .ok (some d)) (hh : d.ReadableHeaders) :
    ∃ ps n, compile eng uri d 0 = .ok (ps, n) := by
  unfold parseFile at h
  split at h
  · exact compile_total eng uri (parsed_compilable markdown_lawful markdown_filling h hh) 0
  · exact compile_total eng uri (parsed_compilable classic_lawful classic_filling h hh) 0

/-- C31: the tags of each test are the names, without the first character, of the tags of its case (feature, rule, scenario, examples
block, C26) that follow the feature's tags: a tag that repeats a feature tag stays. The suite's test tags are the feature's. -/
theorem C31_tags (eng : Engine) (printable : Char → Bool) (es : List DirEntry) (uri name content : Str) (d : Document) (f : Feature)
    (h : parseFile name content = .ok (some d)) (hf : d.feature = some f) (ps : List Pickle) (n : Nat) (hc : compile eng uri d 0 = .ok (ps, n)) :
    d.cases.length = ps.length ∧ ∃ sets tests, build eng printable es uri name content = .ok (.suite sets tests, f.name) ∧
      (∀ ts, .testTags ts ∈ sets ↔ f.tags ≠ [] ∧ ts = f.tags.map fun t => t.name.drop 1) ∧
      List.Forall₂ (fun (c : Case) t => ∃ own, c.tags = f.tags ++ own ∧ t.tagNames = own.map fun t => t.name.drop 1) d.cases tests := by
  obtain ⟨h1, tests, h2, h3⟩ := built eng printable es uri name content d f h hf ps n hc
  refine ⟨h1, _, tests, h2, ?_, ?_⟩
  · intro ts
    simp only [settings, List.mem_append, List.mem_singleton, List.mem_map]
    constructor
    · rintro (((h | h) | ⟨_, _, h⟩) | h)
      · split at h <;> simp at h
      · cases h
      · cases h
      · split at h
        · simp at h
        · rename_i hne; simp at h; exact ⟨hne, by simpa using h⟩
    · rintro ⟨hne, rfl⟩
      exact .inr (by rw [if_neg hne]; simp)
  · have key : ∀ (cs : List Case) (ps : List Pickle) (ts : List Test), cs.length = ps.length →
        List.Forall₂ (fun (x : Case × Pickle) t => x.1 ∈ d.cases ∧ x.1.steps.length = x.2.steps.length ∧
          ∃ own, x.1.tags = f.tags ++ own ∧ TestOf own x.1 x.2 t) (cs.zip ps) ts →
        List.Forall₂ (fun (c : Case) t => ∃ own, c.tags = f.tags ++ own ∧ t.tagNames = own.map fun t => t.name.drop 1) cs ts := by
      intro cs
      induction cs with
      | nil => intro ps ts _ h; cases h; exact .nil
      | cons c cs ih =>
        intro ps ts hl h
        cases ps with
        | nil => simp at hl
        | cons p ps =>
          cases h with
          | cons ha hb =>
            refine .cons ?_ (ih ps _ (by simpa using hl) hb)
            obtain ⟨_, _, own, ho, ht⟩ := ha
            refine ⟨own, ho, ?_⟩
            obtain ⟨calls, _, hbody⟩ := ht.body
            rw [Test.tagNames, hbody, List.flatMap_append, List.flatMap_append, List.flatMap_map]
            have e1 : (if c.scenario.description = [] then [] else [Item.documentation (strip c.scenario.description)]).flatMap
              Item.tagList = [] := by split <;> rfl
            have e2 : (if own = [] then [] else [Item.tags (own.map fun t => t.name.drop 1)]).flatMap
              Item.tagList = own.map fun t => t.name.drop 1 := by
              split
              · rename_i hn; simp [hn]
              · simp
            rw [e1, e2]
            simp
    exact key _ _ _ h1 h3

/-- C34: the name of a test is the pickle's name, followed for a row of an `Examples` block by ` header = value` for each column.
Partial: the keyword of the examples block must be exactly `Examples`. -/
theorem C34_test_names_partial (eng : Engine) (printable : Char → Bool) (es : List DirEntry) (uri name content : Str) (d : Document) (f : Feature)
    (h : parseFile name content = .ok (some d)) (hf : d.feature = some f) (ps : List Pickle) (n : Nat) (hc : compile eng uri d 0 = .ok (ps, n)) :
    d.cases.length = ps.length ∧ ∃ sets tests, build eng printable es uri name content = .ok (.suite sets tests, f.name) ∧
      List.Forall₂ (fun (x : Case × Pickle) t =>
        (x.1.row = none → t.name = x.2.name) ∧
        (∀ e h r, x.1.row = some (e, h, r) → r.cells.length = h.cells.length ∧
          (e.keyword = some py"Examples" → t.name = x.2.name ++ rowSuffix h r) ∧ (e.keyword ≠ some py"Examples" → t.name = x.2.name)))
        (d.cases.zip ps) tests := by
  obtain ⟨h1, tests, h2, h3⟩ := built eng printable es uri name content d f h hf ps n hc
  obtain ⟨hr, _, _⟩ := parseFile_ready h
  refine ⟨h1, _, tests, h2, h3.imp ?_⟩
  rintro ⟨c, p⟩ t ⟨hcd, _, own, _, ht⟩
  have hnm := ht.name
  refine ⟨?_, ?_⟩
  · intro hrow; rw [hnm]; simp only at hrow; simp [Case.suffix, hrow]
  · intro e h r hrow
    simp only at hrow
    obtain ⟨a1, a2, a3⟩ := (case_ids hcd).2.2.2 e h r hrow
    refine ⟨hr.tables e ?_ h a2 r a3, ?_, ?_⟩
    · simp only [Document.examples, List.mem_flatMap]; exact ⟨_, (case_nodes hf hcd).1, a1⟩
    · intro hk; rw [hnm]; simp [Case.suffix, hrow, hk]
    · intro hk; rw [hnm]; simp [Case.suffix, hrow, hk]

/-- C38: the suite imports the GherkinParser library and right after it the resource files of C38_resource_imports, in that order, and
no other. -/
theorem C38_settings (eng : Engine) (printable : Char → Bool) (es : List DirEntry) (uri name content : Str) (sets : List Setting) (tests : List Test)
    (fn : Option Str) (h : build eng printable es uri name content = .ok (.suite sets tests, fn)) :
    ∃ pre post, sets = pre ++ .library py"GherkinParser.Library" :: (Files.resourceImports es).map .resource ++ post ∧
      ∀ s ∈ pre ++ post, (∀ n, s ≠ .resource n) ∧ ∀ n, s ≠ .library n := by
  obtain ⟨_, f, _, _, _, _, _, _, rfl, _⟩ := build_suite h
  refine ⟨if strip f.description = [] then [] else [.documentation (strip f.description)],
    if f.tags = [] then [] else [.metadata py"Tags" (joinStr py", " (f.tags.map fun t => t.name.drop 1)), .testTags (f.tags.map fun t => t.name.drop 1)],
    by simp [settings], ?_⟩
  intro s hs
  rw [List.mem_append] at hs
  rcases hs with hs | hs
  · split at hs
    · simp at hs
    · simp at hs; subst hs; simp
  · split at hs
    · simp at hs
    · simp at hs
      rcases hs with rfl | rfl <;> simp

/-! ### C33 -/

/-- An error entry shows an error: line, column (counted from 0) and message. -/
def EntryOf (e : Err) (x : Robot.Entry) : Prop :=
  x.line = e.loc.line ∧ (∃ c, e.loc.column = some c ∧ x.col = (c : Int) - 1) ∧ x.message = e.msg

/-- C33: for a file that does not parse there is never a test; if every parse error has a column, the model has one entry per error, in
order, with its line, column and message; and if some error has none (see C33_counterexample), `build_gherkin_model` raises `TypeError`.
Partial: that last case. -/
theorem C33_errors_partial (eng : Engine) (printable : Char → Bool) (es : List DirEntry) (uri name content : Str) (errs : List Err)
    (h : parseFile name content = .error (.composite errs)) :
    ((∀ e ∈ errs, e.loc.column.isSome) →
      ∃ entries, build eng printable es uri name content = .ok (.errors entries, none) ∧ List.Forall₂ EntryOf errs entries) ∧
    ((∃ e ∈ errs, e.loc.column = none) → build eng printable es uri name content = .error .typeError) := by
  have hb : build eng printable es uri name content = match errorEntries errs with
      | .ok entries => .ok (.errors entries, none)
      | .error c => .error c := by
    unfold build tryBuild; simp only [h]
    cases errorEntries errs <;> rfl
  rw [hb]
  clear hb h
  constructor
  · intro hc
    have : ∃ entries, errorEntries errs = .ok entries ∧ List.Forall₂ EntryOf errs entries := by
      induction errs with
      | nil => exact ⟨[], rfl, .nil⟩
      | cons e es ih =>
        obtain ⟨c, hc'⟩ := Option.isSome_iff_exists.1 (hc e (by simp))
        obtain ⟨entries, h1, h2⟩ := ih fun e he => hc e (by simp [he])
        refine ⟨{ line := e.loc.line, col := (c : Int) - 1, message := e.msg } :: entries, ?_, .cons ⟨rfl, ⟨c, hc', rfl⟩, rfl⟩ h2⟩
        rw [errorEntries]; simp only [hc', h1]
    obtain ⟨entries, h1, h2⟩ := this
    exact ⟨entries, by rw [h1], h2⟩
  · intro hc
    have : errorEntries errs = .error .typeError := by
      induction errs with
      | nil => obtain ⟨e, he, _⟩ := hc; simp at he
      | cons e es ih =>
        rw [errorEntries]
        cases hcol : e.loc.column with
        | none => rfl
        | some c =>
          obtain ⟨e', he', hn⟩ := hc
          have : e' ∈ es := by
            rw [List.mem_cons] at he'
            rcases he' with rfl | he'
            · rw [hcol] at hn; cases hn
            · exact he'
          simp only [ih ⟨e', this, hn⟩]
    rw [this]

/-- C33: whatever goes wrong, a model with tests is only made of a file that parses. -/
theorem C33_no_tests (eng : Engine) (printable : Char → Bool) (es : List DirEntry) (uri name content : Str) (sets : List Setting) (tests : List Test)
    (fn : Option Str) (h : build eng printable es uri name content = .ok (.suite sets tests, fn)) :
    ∃ d, parseFile name content = .ok (some d) := by
  obtain ⟨d, _, _, _, h, _⟩ := build_suite h
  exact ⟨d, h⟩

/-- C33: which of the two cases of `C33_errors_partial` a (classic) file belongs to: `TypeError` is raised exactly when one of the parse
errors is an unexpected end of file. -/
theorem C33_type_error_iff_eof (eng : Engine) (printable : Char → Bool) (es : List DirEntry) (uri name content : Str) (errs : List Err)
    (hn : suffix name ≠ py".md") (h : parseFile name content = .error (.composite errs)) :
    build eng printable es uri name content = .error .typeError ↔ ∃ e ∈ errs, ∃ expected, e.kind = .unexpectedEof expected := by
  have hv : defaultMatcher.Valid := ⟨by decide +kernel, by decide +kernel⟩
  have hcol : ∀ e ∈ errs, e.loc.column = none ↔ ∃ expected, e.kind = .unexpectedEof expected := by
    intro e he
    have hp : (parse ⟨classic, astBuilder, false⟩ content defaultMatcher newBuilder).1 = .error (.composite errs) := by
      rw [parseFile, if_neg hn] at h; exact h
    have hE := (C48_error_positions false content defaultMatcher hv newBuilder e (.inr ⟨errs, he, hp⟩)).1
    unfold ErrorAt at hE
    split at hE
    · obtain ⟨l, _, h1, _⟩ := hE; simp_all
    · obtain ⟨h1, _⟩ := hE; simp_all
    · obtain ⟨l, _, _, h1 | h1, _⟩ := hE <;> simp_all
    · obtain ⟨l, _, h1, _⟩ := hE; simp_all
  have hpart := C33_errors_partial eng printable es uri name content errs h
  constructor
  · intro hb
    by_cases hc : ∀ e ∈ errs, e.loc.column.isSome
    · obtain ⟨x, hx, _⟩ := hpart.1 hc
      rw [hx] at hb; cases hb
    · simp only [Classical.not_forall, Option.not_isSome, Option.isNone_iff_eq_none] at hc
      obtain ⟨e, he, hn⟩ := hc
      exact ⟨e, he, (hcol e he).1 (by simpa using hn)⟩
  · rintro ⟨e, he, hk⟩
    exact hpart.2 ⟨e, he, (hcol e he).2 hk⟩

/-- C33: a file that does not fail with parse errors either becomes a suite or is shown as one error entry, on line 1, whose message
begins with the name of the exception's class. (Robot Framework counts columns from 0 here.) -/
theorem C33_other_failures (eng : Engine) (printable : Char → Bool) (es : List DirEntry) (uri name content : Str)
    (h : ∀ errs, parseFile name content ≠ .error (.composite errs)) :
    (∃ sets tests fn, build eng printable es uri name content = .ok (.suite sets tests, some fn)) ∨
    (∃ c x, build eng printable es uri name content = .ok (.errors [x], none) ∧
      x.line = 1 ∧ x.col = 0 ∧ crashName c <+: x.message) := by
  rcases hp : parseFile name content with e | d
  · rcases e with es' | e | c | _
    all_goals first | exact absurd hp (h _) | (refine .inr ⟨_, _, by unfold build tryBuild; rw [hp]; rfl, rfl, rfl, List.prefix_append _ _⟩)
  · rcases d with _ | d
    · exact .inr ⟨_, _, by unfold build tryBuild; rw [hp]; rfl, rfl, rfl, List.prefix_append _ _⟩
    · rcases hc : compile eng uri d 0 with c | ⟨ps, n⟩
      · exact .inr ⟨c, _, by unfold build tryBuild convert; simp only [hp, hc]; rfl, rfl, rfl, List.prefix_append _ _⟩
      · rcases hf : d.feature with _ | f
        · exact .inr ⟨.keyError, _, by unfold build tryBuild convert; simp only [hp, hc, hf]; rfl, rfl, rfl, List.prefix_append _ _⟩
        · obtain ⟨_, tests, hb, _⟩ := built eng printable es uri name content d f hp hf ps n hc
          obtain ⟨nm, hnm⟩ := Option.isSome_iff_exists.1 ((parseFile_ready hp).2.2 f hf)
          exact .inl ⟨_, tests, nm, by rw [hb, hnm]⟩

/-- C33: a text without a feature parses, has no tests, and is shown as an error entry. -/
theorem C33_no_feature (eng : Engine) (printable : Char → Bool) (es : List DirEntry) (uri name content : Str) (d : Document)
    (h : parseFile name content = .ok (some d)) (hf : d.feature = none) :
    build eng printable es uri name content = .ok (.errors [{ line := 1, col := 0, message := py"KeyError: " }], none) := by
  have hc : compile eng uri d 0 = .ok ([], 0) := by unfold compile; rw [hf]; rfl
  unfold build tryBuild convert
  simp only [h, hc, hf]
  rfl


/-- A tag at the end of the file: the error "unexpected end of file" has no column, and `build_gherkin_model` raises `TypeError` instead of
returning the error. -/
theorem C33_counterexample (eng : Engine) (printable : Char → Bool) (es : List DirEntry) (uri : Str) :
    build eng printable es uri py"a.feature" py"@tag\n" = .error .typeError := by
  have h : parseFile py"a.feature" py"@tag\n" = .error (.composite [
      { kind := .unexpectedEof [.tagLine, .featureLine, .comment, .empty],
        msg := py"(2:0): unexpected end of file, expected: #TagLine, #FeatureLine, #Comment, #Empty", loc := ⟨2, none⟩, aliasOf := none }]) := by
    decide +kernel
  exact (C33_errors_partial eng printable es uri _ _ _ h).2 ⟨_, List.mem_singleton.2 rfl, rfl⟩

/-- A text of comments only has no feature. -/
example : ∃ d, parseFile py"a.feature" py"# nothing\n" = .ok (some d) ∧ d.feature = none :=
  ⟨{ feature := none, comments := [{ loc := ⟨1, some 1⟩, text := py"# nothing" }] }, by decide +kernel, rfl⟩

/-- A tag with a space makes the tag reader crash, which is shown as one error entry. -/
example : (∀ errs, parseFile py"a.feature" py"@a b\nFeature: f\n" ≠ .error (.composite errs)) ∧
    build Sample.noEngine (fun _ => true) [] [] py"a.feature" py"@a b\nFeature: f\n" =
      .ok (.errors [{ line := 1, col := 0, message := py"AttributeError: " }], none) := by
  have h : parseFile py"a.feature" py"@a b\nFeature: f\n" = .error (.crash .attributeError) := by decide +kernel
  refine ⟨fun errs => (by rw [h]; simp), ?_⟩
  unfold build tryBuild; rw [h]; rfl

/-! ### Why C34 is partial -/

/-- The tests' names. -/
def names : Except Crash (File × Option Str) → List Str
  | .ok (.suite _ tests, _) => tests.map (·.name)
  | _ => []

/-- An outline with the keyword `Scenarios` (which English has beside `Examples`). -/
def Sample.scenarios : Str := py"Feature: f
  Scenario: s
    Given <a>
    Scenarios:
      | a |
      | 1 |
      | 2 |
"

/-- Below the keyword `Scenarios` both rows give tests of the same name; below `Examples` they are told apart. -/
theorem C34_counterexample :
    names (build Sample.noEngine (fun _ => true) [] [] py"a.feature" Sample.scenarios) = [py"s", py"s"] ∧
    names (build Sample.noEngine (fun _ => true) [] [] py"a.feature" (replaceAll py"Scenarios" py"Examples" Sample.scenarios)) =
      [py"s a = 1", py"s a = 2"] := by
  decide +kernel

/-! ### The hypotheses can be met -/

/-- The calls and tags of all tests. -/
def outline : Except Crash (File × Option Str) → List (Str × List Str × List (List Str × Int))
  | .ok (.suite _ tests, _) => tests.map fun t => (t.name, t.tagNames, t.calls.map fun c => (values .keyword c, (c.head?.map (·.lineno)).getD 0))
  | _ => []

example : outline (build Sample.noEngine (fun _ => true) [] [] py"a.feature" Sample.text) =
    [(py"buy egg what = egg price = 1", [py"x", py"cheap"],
        [([py"Given a user"], 7), ([py"When the user buys egg"], 14), ([py"Then the price is 1"], 18)]),
     (py"buy milk what = milk price = 2", [py"x", py"cheap"],
        [([py"Given a user"], 7), ([py"When the user buys milk"], 14), ([py"Then the price is 2"], 18)]),
     (py"other", [], [([py"Given a user"], 7), ([py"a step"], 28)])] := by decide +kernel

example : (match build Sample.noEngine (fun _ => true) [.file py"b.resource", .file py"a.resource", .file py"_c.resource"] [] py"a.feature" Sample.text with
    | .ok (.suite sets _, _) => sets
    | _ => []) = [.documentation py"A description.", .library py"GherkinParser.Library", .resource py"a.resource", .resource py"b.resource",
      .metadata py"Tags" py"web, slow", .testTags [py"web", py"slow"]] := by decide +kernel

example : (match parseFile py"a.feature" Sample.bad with | .error (.composite es) => es.all fun e => e.loc.column.isSome | _ => false) = true := by
  decide +kernel

end Gherkin
