import Verif.Spec.Quiet
import Verif.Props.Mirror
import Verif.Props.MdNoise
import Verif.Props.Noise

/-! # C78: blank lines, comments and prose do not change the suite -/

namespace Gherkin

open Robot Pickles Markdown

/-- The case without its description. -/
def Case.silent (c : Case) : Case := { c with scenario := { c.scenario with description := [] } }

theorem silent_content {g : Change} (c : Case) : (c.change g).silent.content = c.silent.content := by
  have h := case_content_change (g := ⟨g.loc, g.id, id⟩) rfl c.silent
  rw [← h]
  unfold Case.content
  have ht : (c.change g).silent.tags.map Tag.name = (c.silent.change ⟨g.loc, g.id, id⟩).tags.map Tag.name := by
    have h1 : (c.change g).silent.tags = (c.change g).tags := rfl
    have h2 : c.silent.tags = c.tags := rfl
    rw [h1, case_tags_change, case_tags_change, h2]
  rw [ht]
  have hr : (c.change g).silent.row = (c.silent.change ⟨g.loc, g.id, id⟩).row ∨ ∃ e e' : Examples, ∃ h r, e.keyword = e'.keyword ∧
      (c.change g).silent.row = some (e, h, r) ∧ (c.silent.change ⟨g.loc, g.id, id⟩).row = some (e', h, r) := by
    obtain ⟨tg, bg, sc, row⟩ := c
    cases row with
    | none => exact .inl rfl
    | some x => exact .inr ⟨x.1.change g, x.1.change ⟨g.loc, g.id, id⟩, x.2.1.change g, x.2.2.change g, rfl, rfl, rfl⟩
  have hrow : (c.change g).silent.row.map rowContent = (c.silent.change ⟨g.loc, g.id, id⟩).row.map rowContent := by
    rcases hr with hr | ⟨e, e', h, r, h1, h2, h3⟩
    · rw [hr]
    · rw [h2, h3]; simp [rowContent, h1]
  rw [hrow]
  rfl

theorem cases_bare {f f' : Feature} (h : f'.bare = f.bare) : (f'.cases.map Case.silent).map Case.content = (f.cases.map Case.silent).map Case.content := by
  have key : ∀ f : Feature, (f.cases.map Case.silent).map Case.content = (f.bare.cases.map Case.silent).map Case.content := by
    intro f
    unfold Feature.bare
    rw [cases_change, List.map_map, List.map_map, List.map_map]
    apply List.map_congr_left
    intro c _
    exact (silent_content c).symm
  rw [key f', key f, h]

theorem settings_bare {f f' : Feature} (h : f'.bare = f.bare) (es : List DirEntry) : (settings es f').filter Setting.Works = (settings es f).filter Setting.Works := by
  have key : ∀ f : Feature, (settings es f).filter Setting.Works = settings es f.bare := by
    intro f
    unfold settings
    simp only [List.filter_append]
    congr 1
    · congr 1
      · congr 1
        · by_cases h : strip f.description = []
          · rw [if_pos h]; rfl
          · rw [if_neg h]; rfl
      · rw [List.filter_eq_self]; intro x hx; rw [List.mem_map] at hx; obtain ⟨_, _, rfl⟩ := hx; rfl
    · by_cases h : f.tags = []
      · rw [if_pos h, if_pos (by simp [Feature.bare, Feature.change, h])]; rfl
      · rw [if_neg h, if_neg (by simp [Feature.bare, Feature.change, h])]
        simp [Feature.bare, Feature.change, Tag.change, List.map_map, Function.comp_def, Setting.Works]
  rw [key f', key f, h]

theorem quiet_exact {t : Test} {printable : Char → Bool} {own : List Tag} {c : Case} {p : Pickle} (h : t.unplaced = exactTest printable own c p) :
    t.quiet = exactTest printable own c.silent p := by
  unfold Test.quiet
  rw [h]
  unfold exactTest
  simp only [List.filter_append]
  congr 1
  congr 1
  · congr 1
    · by_cases h : c.scenario.description = []
      · rw [if_pos h]; rfl
      · rw [if_neg h]; rfl
    · by_cases h : own = []
      · rw [if_pos h]; rfl
      · rw [if_neg h]; rfl
  · rw [show c.silent.steps = c.steps from rfl, List.filter_eq_self]; intro x hx; rw [List.mem_map] at hx; obtain ⟨_, _, rfl⟩ := hx; rfl

theorem tests_silent (eng : Engine) (printable : Char → Bool)
    (es : List DirEntry) (uri name content : Str) (sets : List Setting) (tests : List Test) (fn : Option Str) (d : Document) (f : Feature)
    (es' : List DirEntry) (uri' name' content' : Str) (sets' : List Setting) (tests' : List Test) (fn' : Option Str) (d' : Document) (f' : Feature)
    (hb : build eng printable es uri name content = .ok (.suite sets tests, fn)) (hd : parseFile name content = .ok (some d)) (hf : d.feature = some f)
    (hb' : build eng printable es' uri' name' content' = .ok (.suite sets' tests', fn')) (hd' : parseFile name' content' = .ok (some d'))
    (hf' : d'.feature = some f') (htags : f.tags.map Tag.name = f'.tags.map Tag.name)
    (i j : Nat) (c c' : Case) (t t' : Test) (hc : d.cases[i]? = some c) (ht : tests[i]? = some t) (hc' : d'.cases[j]? = some c') (ht' : tests'[j]? = some t')
    (hs : c.silent.content = c'.silent.content) : t.quiet = t'.quiet := by
  obtain ⟨p, own, a1, a2, a3, a4, a5⟩ := suite_exact hd hf hb hc ht
  obtain ⟨p', own', b1, b2, b3, b4, b5⟩ := suite_exact hd' hf' hb' hc' ht'
  rw [quiet_exact a2, quiet_exact b2]
  refine exactTest_unique (eng := eng) hs ?_ a3 a4 a5 b3 b4 b5
  have h : c.tags.map Tag.name = c'.tags.map Tag.name := congrArg Case.Content.tags hs
  rw [a1, b1, List.map_append, List.map_append, htags] at h
  exact List.append_cancel_left h

/-- Two files whose features agree, locations and descriptions apart: if one builds to a suite, so does the other, with the same name, settings and tests,
except for positions and documentation. -/
theorem suite_bare (eng : Engine) (printable : Char → Bool) (es : List DirEntry) (uri uri' name name' content content' : Str)
    (doc doc' : Document) (h : parseFile name content = .ok (some doc)) (h' : parseFile name' content' = .ok (some doc'))
    (e2 : doc'.feature.map Feature.bare = doc.feature.map Feature.bare) (sets : List Setting) (tests : List Test) (fn : Option Str)
    (hb : build eng printable es uri name content = .ok (.suite sets tests, fn)) :
    ∃ sets' tests', build eng printable es uri' name' content' = .ok (.suite sets' tests', fn) ∧ SameRun sets sets' tests tests' := by
  obtain ⟨d0, f, ps, n, g1, g2, g3, g4, g5, g6⟩ := build_suite hb
  have hd0 : d0 = doc := by rw [h] at g1; simpa using g1.symm
  subst hd0
  have hcomp := compile_bare eng uri e2
  rw [g2] at e2
  obtain ⟨f', hf', e3⟩ : ∃ f', doc'.feature = some f' ∧ f'.bare = f.bare := by
    cases hx : doc'.feature with
    | none => rw [hx] at e2; simp at e2
    | some f' => rw [hx] at e2; exact ⟨f', rfl, by simpa using e2⟩
  have hcomp' : compile eng uri' doc' 0 = .ok (ps.map (Pickle.at uri'), n) := by
    rw [compile_uri eng uri uri' doc' 0, hcomp, g3]
  have hlen := (built eng printable es uri name content d0 f h g2 ps n g3)
  obtain ⟨l1, tests', b1, b2⟩ := built eng printable es uri' name' content' doc' f' h' hf' _ n hcomp'
  have hname : f'.name = f.name := (congrArg Feature.name e3 : f'.bare.name = f.bare.name)
  have htags : f.tags.map Tag.name = f'.tags.map Tag.name := by
    have := congrArg (fun x : Feature => x.tags.map Tag.name) e3
    simp only [Feature.bare, Feature.change, names_change] at this
    exact this.symm
  refine ⟨settings es f', tests', by rw [b1, hname, g6], by rw [g5]; exact settings_bare e3 es, ?_⟩
  have hcases : doc'.cases.map (fun c => c.silent.content) = d0.cases.map (fun c => c.silent.content) := by
    simp only [Document.cases, hf', g2, Option.toList_some, List.flatMap_cons, List.flatMap_nil, List.append_nil]
    have := cases_bare e3
    rwa [List.map_map, List.map_map] at this
  obtain ⟨c1, tests0, c2, c3⟩ := hlen
  have ht0 : tests0 = tests := by rw [hb] at c2; simp only [Except.ok.injEq, Prod.mk.injEq, File.suite.injEq] at c2; exact c2.1.2.symm
  subst ht0
  have n1 := b2.length_eq
  have n2 := c3.length_eq
  have n3 : doc'.cases.length = d0.cases.length := by simpa using congrArg List.length hcases
  rw [List.length_zip] at n1 n2
  apply List.ext_getElem?
  intro i
  rw [List.getElem?_map, List.getElem?_map]
  by_cases hi : i < tests0.length
  · have hi' : i < tests'.length := by simp only [List.length_map] at n1 l1; omega
    have hci : i < d0.cases.length := by simp only [List.length_map] at n1 l1; omega
    have hci' : i < doc'.cases.length := by omega
    rw [List.getElem?_eq_getElem hi, List.getElem?_eq_getElem hi']
    simp only [Option.map_some, Option.some.injEq]
    refine (tests_silent eng printable es uri name content sets tests0 fn d0 f es uri' name' content' _ tests' _ doc' f' hb h g2 b1 h' hf' htags i i
      _ _ _ _ (List.getElem?_eq_getElem hci) (List.getElem?_eq_getElem hi) (List.getElem?_eq_getElem hci') (List.getElem?_eq_getElem hi') ?_).symm
    have := congrArg (fun l : List Case.Content => l[i]?) hcases
    simp only [List.getElem?_map, List.getElem?_eq_getElem hci, List.getElem?_eq_getElem hci', Option.map_some, Option.some.injEq] at this
    exact this.symm
  · have hi' : ¬ i < tests'.length := by simp only [List.length_map] at n1 l1; omega
    rw [List.getElem?_eq_none (by omega), List.getElem?_eq_none (by omega)]

theorem classic_file {name content : Str} (hn : suffix name ≠ py".md") :
    parseFile name content = (parse ⟨classic, astBuilder, false⟩ content defaultMatcher newBuilder).1 := by
  unfold parseFile; rw [if_neg hn]

theorem markdown_file {name content : Str} (hn : suffix name = py".md") :
    parseFile name content = (parse ⟨markdown, astBuilder, false⟩ content defaultMarkdown newBuilder).1 := by
  unfold parseFile; rw [if_pos hn]

theorem default_valid : defaultMatcher.Valid := ⟨by decide +kernel, by decide +kernel⟩

/-- **C78, adding a line to a feature file.** Add a blank line outside doc strings, or a comment outside doc strings and not before or inside a description, to a
feature file that gives a suite: it still gives a suite, of the same name, with the same settings and the same tests with the same tags and calls, except for
positions and documentation. -/
theorem C78_insert (eng : Engine) (printable : Char → Bool) (es : List DirEntry) (uri name pre line post : Str) (hn : suffix name ≠ py".md") (doc : Document)
    (h : parseFile name (pre ++ post) = .ok (some doc)) (hp : AtLineStart pre) (hl : IgnorableLine line)
    (hdoc : ¬ doc.inDocString (pre ++ post) ((splitLines pre).length + 1))
    (hdesc : ¬ BlankText line → ∀ n, NextLine (pre ++ post) (splitLines pre).length n → ¬ doc.describes (pre ++ post) n)
    (sets : List Setting) (tests : List Test) (fn : Option Str) (hb : build eng printable es uri name (pre ++ post) = .ok (.suite sets tests, fn)) :
    ∃ sets' tests', build eng printable es uri name (pre ++ line ++ post) = .ok (.suite sets' tests', fn) ∧ SameRun sets sets' tests tests' := by
  rw [classic_file hn] at h
  obtain ⟨d', e1, e2, _⟩ := C46_insert default_valid h hp hl hdoc hdesc
  exact suite_bare eng printable es uri uri name name _ _ doc d' (by rw [classic_file hn]; exact h) (by rw [classic_file hn]; exact e1) e2 sets tests fn hb

/-- **C78, removing a line of a feature file.** The same for removing a blank line or a comment outside doc strings. -/
theorem C78_remove (eng : Engine) (printable : Char → Bool) (es : List DirEntry) (uri name pre line post : Str) (hn : suffix name ≠ py".md") (doc : Document)
    (h : parseFile name (pre ++ line ++ post) = .ok (some doc)) (hp : AtLineStart pre) (hl : IgnorableLine line)
    (hdoc : ¬ doc.inDocString (pre ++ line ++ post) ((splitLines pre).length + 1))
    (sets : List Setting) (tests : List Test) (fn : Option Str) (hb : build eng printable es uri name (pre ++ line ++ post) = .ok (.suite sets tests, fn)) :
    ∃ sets' tests', build eng printable es uri name (pre ++ post) = .ok (.suite sets' tests', fn) ∧ SameRun sets sets' tests tests' := by
  rw [classic_file hn] at h
  obtain ⟨d', e1, e2, _⟩ := C46_remove default_valid h hp hl hdoc
  exact suite_bare eng printable es uri uri name name _ _ doc d' (by rw [classic_file hn]; exact h) (by rw [classic_file hn]; exact e1) e2 sets tests fn hb

/-- **C78, adding prose to a Markdown file.** The same for a line of prose added to a Markdown file after its feature's line and outside doc strings. -/
theorem C78_insert_prose (eng : Engine) (printable : Char → Bool) (es : List DirEntry) (uri name pre line post : Str) (hn : suffix name = py".md") (dl : Dialect)
    (hd : dialectFor py"en" = some dl) (hf : OneFence (pre ++ post)) (hh : PlainHeadings (pre ++ post)) (doc : Document)
    (h : parseFile name (pre ++ post) = .ok (some doc)) (hp : AtLineStart pre) (hl : ProseLine dl line) (hafter : AfterFeature doc pre)
    (hdoc : ¬ doc.inDocString (pre ++ post) ((splitLines pre).length + 1))
    (sets : List Setting) (tests : List Test) (fn : Option Str) (hb : build eng printable es uri name (pre ++ post) = .ok (.suite sets tests, fn)) :
    ∃ sets' tests', build eng printable es uri name (pre ++ line ++ post) = .ok (.suite sets' tests', fn) ∧ SameRun sets sets' tests tests' := by
  rw [markdown_file hn] at h
  have hm : MdState.new py"en" = some defaultMarkdown := by unfold defaultMarkdown MdState.new; rw [hd]; rfl
  obtain ⟨d', e1, e2, _⟩ := C77_insert hd hm hf hh h hp hl hafter hdoc
  exact suite_bare eng printable es uri uri name name _ _ doc d' (by rw [markdown_file hn]; exact h) (by rw [markdown_file hn]; exact e1) e2 sets tests fn hb

/-- **C78, removing prose from a Markdown file.** -/
theorem C78_remove_prose (eng : Engine) (printable : Char → Bool) (es : List DirEntry) (uri name pre line post : Str) (hn : suffix name = py".md") (dl : Dialect)
    (hd : dialectFor py"en" = some dl) (hf : OneFence (pre ++ line ++ post)) (hh : PlainHeadings (pre ++ line ++ post)) (doc : Document)
    (h : parseFile name (pre ++ line ++ post) = .ok (some doc)) (hp : AtLineStart pre) (hl : ProseLine dl line) (hafter : AfterFeature doc pre)
    (hdoc : ¬ doc.inDocString (pre ++ line ++ post) ((splitLines pre).length + 1))
    (sets : List Setting) (tests : List Test) (fn : Option Str) (hb : build eng printable es uri name (pre ++ line ++ post) = .ok (.suite sets tests, fn)) :
    ∃ sets' tests', build eng printable es uri name (pre ++ post) = .ok (.suite sets' tests', fn) ∧ SameRun sets sets' tests tests' := by
  rw [markdown_file hn] at h
  have hm : MdState.new py"en" = some defaultMarkdown := by unfold defaultMarkdown MdState.new; rw [hd]; rfl
  obtain ⟨d', e1, e2, _⟩ := C77_remove hd hm hf hh h hp hl hafter hdoc
  exact suite_bare eng printable es uri uri name name _ _ doc d' (by rw [markdown_file hn]; exact h) (by rw [markdown_file hn]; exact e1) e2 sets tests fn hb

/-! ### The hypotheses can be met -/

/-- What a run of a file depends on. -/
def Sample.run (name text : Str) : Option (List Setting × List (Str × List (Option Str))) :=
  match build Sample.noEngine (fun _ => true) [] [] name text with
  | .ok (.suite sets tests, _) => some (sets.filter Setting.Works, tests.map fun t => (t.quiet.name, t.quiet.body.map fun i => match i with | .call ts => ts[1]?.map (·.value) | _ => none))
  | _ => none

def Sample.loudPre : Str := py"@a\nFeature: f\n\n  About it.\n\n  Scenario: s\n    Words.\n    Given x\n"
def Sample.loudPost : Str := py"    When y\n"
def Sample.loudDoc : Document := ((parseFile py"a.feature" (Sample.loudPre ++ Sample.loudPost)).toOption.getD none).getD default

/-- A comment is put between two steps of a feature file. -/
example : ∃ sets tests fn sets' tests', build Sample.noEngine (fun _ => true) [] [] py"a.feature" (Sample.loudPre ++ Sample.loudPost) = .ok (.suite sets tests, fn) ∧
    tests ≠ [] ∧ build Sample.noEngine (fun _ => true) [] [] py"a.feature" (Sample.loudPre ++ py"  # why\n" ++ Sample.loudPost) = .ok (.suite sets' tests', fn) ∧
    SameRun sets sets' tests tests' := by
  have hlen : (splitLines Sample.loudPre).length = 8 := by decide +kernel
  have hcomment : CommentText py"  # why\n" := ⟨py"  ", py" why\n", White.of_all rfl, rfl⟩
  have hd : parseFile py"a.feature" (Sample.loudPre ++ Sample.loudPost) = .ok (some Sample.loudDoc) := by decide +kernel
  have hn : suffix py"a.feature" ≠ py".md" := by decide +kernel
  have hbs : ∃ sets tests fn, tests ≠ [] ∧ build Sample.noEngine (fun _ => true) [] [] py"a.feature" (Sample.loudPre ++ Sample.loudPost) = .ok (.suite sets tests, fn) := by
    have hx : (match build Sample.noEngine (fun _ => true) [] [] py"a.feature" (Sample.loudPre ++ Sample.loudPost) with
      | .ok (.suite _ tests, _) => tests.isEmpty | _ => true) = false := by decide +kernel
    revert hx
    generalize build Sample.noEngine (fun _ => true) [] [] py"a.feature" (Sample.loudPre ++ Sample.loudPost) = r
    intro hx
    rcases r with e | ⟨⟨sets, tests⟩ | es, fn⟩
    · simp at hx
    · exact ⟨sets, tests, fn, by intro h; subst h; simp at hx, rfl⟩
    · simp at hx
  obtain ⟨sets, tests, fn, ht, hb⟩ := hbs
  obtain ⟨sets', tests', h1, h2⟩ := C78_insert Sample.noEngine (fun _ => true) [] [] py"a.feature" Sample.loudPre py"  # why\n" Sample.loudPost hn Sample.loudDoc hd
    (.inr ⟨Sample.loudPre.dropLast, by decide +kernel⟩)
    ⟨⟨py"  # why", rfl, by decide⟩, .inr hcomment, by
      have : Classic.languageName (Line.mk py"  # why\n" 0).lineText = none := by decide +kernel
      exact not_header.1 this⟩
    (by
      rw [hlen]
      rintro ⟨x, hx, _⟩
      have : Sample.loudDoc.docStrings = [] := by decide +kernel
      rw [this] at hx
      simp at hx)
    (by
      rw [hlen]
      rintro - n ⟨hn, -, hn2⟩ ⟨f, name, dialect, h1, h2, h3, p, loc, s, hp, l, hl, rfl⟩
      have hf : Sample.loudDoc.feature.bind (·.language) = some py"en" := by decide +kernel
      rw [h1] at hf
      simp only [Option.bind_some] at hf
      rw [h2] at hf
      simp only [Option.some.injEq] at hf
      subst hf
      have hd : dialect = Sample.en.dialect := by
        have : dialects.lookup py"en" = some Sample.en.dialect := by decide +kernel
        rw [h3] at this; simpa using this
      subst hd
      have hparts : ∀ x ∈ Sample.loudDoc.parts, ∀ l ∈ descriptionLines Sample.en.dialect (Sample.loudPre ++ Sample.loudPost) x.1 x.2.1.line, l.number ≤ 8 := by decide +kernel
      have := hparts _ hp _ hl
      omega) sets tests fn hb
  exact ⟨sets, tests, fn, sets', tests', hb, ht, h1, h2⟩

/-- What the runs of such files are: documentation does not count, tests, tags and calls do. -/
example : Sample.run py"a.feature" (Sample.loudPre ++ Sample.loudPost) =
    some ([.library py"GherkinParser.Library", .metadata py"Tags" py"a", .testTags [py"a"]], [(py"s", [some py"Given x", some py"When y"])]) := by
  decide +kernel

/-- Prose in a Markdown file that gives a suite. -/
example : Sample.run py"a.md" Sample.md ≠ none ∧
    Sample.run py"a.md" (((splitLines Sample.md).take 8).flatten ++ py"Some words.\n" ++ ((splitLines Sample.md).drop 8).flatten) = Sample.run py"a.md" Sample.md := by
  decide +kernel

end Gherkin
