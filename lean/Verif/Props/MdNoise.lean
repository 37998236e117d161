import Verif.Spec.MdNoise
import Verif.Proofs.MdNoise3
import Verif.Props.Mirror

/-! # C77: prose in Markdown does not change tests -/

namespace Gherkin

open Auto Cst Markdown

theorem prose_line {d : Dialect} {line : Str} (h : ProseLine d line) (k : Nat) : ProseL d ⟨line, k⟩ := by
  obtain ⟨⟨body, hb, _⟩, h1, h2, h3, h4⟩ := h
  exact ⟨h1, h2, h3, h4, by rw [hb]; simp [Line.isEof]⟩

/-- **C77, adding a line.** -/
theorem C77_insert {lang : Str} {dl : Dialect} (hd : dialectFor lang = some dl) {m : MdState} (hm : MdState.new lang = some m)
    {pre line post : Str} {stop : Bool} {b : BState} {d : Document} (hf : OneFence (pre ++ post)) (hh : PlainHeadings (pre ++ post))
    (h : (parse ⟨markdown, astBuilder, stop⟩ (pre ++ post) m b).1 = .ok (some d)) (hp : AtLineStart pre) (hl : ProseLine dl line)
    (hafter : AfterFeature d pre) (hdoc : ¬ d.inDocString (pre ++ post) ((splitLines pre).length + 1)) :
    ∃ d', (parse ⟨markdown, astBuilder, stop⟩ (pre ++ line ++ post) m b).1 = .ok (some d') ∧
      d'.feature.map Feature.bare = d.feature.map Feature.bare ∧ ∀ eng uri, Pickles.compile eng uri d' = Pickles.compile eng uri d := by
  obtain ⟨f, hf⟩ := hf
  have hdl : (Md.reset m).dialect = dl := (md_speaks hd hm).1.2
  obtain ⟨A, B, B', e1, e2, e3, e4, e5⟩ := noise_lines (post := post) hp hl.1
  obtain ⟨mv, m', D, hr, hD, ht, cm, hdoc'⟩ := md_accepted_doc hf hh h
  simp only [Option.some.injEq] at hdoc'
  subst hdoc'
  rw [hdl] at hr
  have hn := prose_line hl ((splitLines pre).length + 1)
  have hfl : ∀ l ∈ tokenLines (pre ++ post), fenceOf l.text = none ∨ fenceOf l.text = some f := tokenLines_of hf (.inl (by decide))
  have h1 := mild_keeps (d := dl) hfl
  have h2 := good_keeps (d := dl) hfl
  have h0 : MdAt dl f 0 (Md.reset m) := ⟨⟨hdl, .inl (by simp [Md.reset])⟩, by omega⟩
  obtain ⟨mvA, z, mvY, rfl, hlen, key⟩ := md_insert_run (mdSkip_textual dl) h1 h2 e5 (by rw [e1]; exact fun _ h => h) hn (prose_skip hn) e4 (e1 ▸ hr) h0
  have hlines := fun {i x} => mdRun_lines h1 h2 hfl hr (fun _ h => h) h0 (i := i) (x := x)
  have hq := md_after (mdRun_path hr) hlines hD ht hafter.choose_spec.1 (by rw [hlen, e3]; exact hafter.choose_spec.2)
  have hopen : z.state ∉ openStates := by
    intro hz
    have := md_inside (cm := cm) (n := b.nextId) (mdRun_path hr) hlines
      (by rw [hlen, e3, splitLines_append hp, List.length_append]; omega) hD ht hz
    rw [hlen, e3] at this
    exact hdoc this
  obtain ⟨mv', hr', he⟩ := key hq hopen
  rw [← e2] at hr'
  obtain ⟨d', h1, h2⟩ := md_same_essence hD ht hr' he b stop cm
  exact ⟨d', h1, h2, fun eng uri => compile_bare eng uri h2⟩

/-- **C77, removing a line.** -/
theorem C77_remove {lang : Str} {dl : Dialect} (hd : dialectFor lang = some dl) {m : MdState} (hm : MdState.new lang = some m)
    {pre line post : Str} {stop : Bool} {b : BState} {d : Document} (hf : OneFence (pre ++ line ++ post)) (hh : PlainHeadings (pre ++ line ++ post))
    (h : (parse ⟨markdown, astBuilder, stop⟩ (pre ++ line ++ post) m b).1 = .ok (some d)) (hp : AtLineStart pre) (hl : ProseLine dl line)
    (hafter : AfterFeature d pre) (hdoc : ¬ d.inDocString (pre ++ line ++ post) ((splitLines pre).length + 1)) :
    ∃ d', (parse ⟨markdown, astBuilder, stop⟩ (pre ++ post) m b).1 = .ok (some d') ∧
      d'.feature.map Feature.bare = d.feature.map Feature.bare ∧ ∀ eng uri, Pickles.compile eng uri d' = Pickles.compile eng uri d := by
  obtain ⟨f, hf⟩ := hf
  have hdl : (Md.reset m).dialect = dl := (md_speaks hd hm).1.2
  obtain ⟨A, B, B', e1, e2, e3, e4, e5⟩ := noise_lines (post := post) hp hl.1
  obtain ⟨mv, m', D, hr, hD, ht, cm, hdoc'⟩ := md_accepted_doc hf hh h
  simp only [Option.some.injEq] at hdoc'
  subst hdoc'
  rw [hdl] at hr
  have hn := prose_line hl ((splitLines pre).length + 1)
  have hfl : ∀ l ∈ tokenLines (pre ++ line ++ post), fenceOf l.text = none ∨ fenceOf l.text = some f := tokenLines_of hf (.inl (by decide))
  have h1 := mild_keeps (d := dl) hfl
  have h2 := good_keeps (d := dl) hfl
  have h0 : MdAt dl f 0 (Md.reset m) := ⟨⟨hdl, .inl (by simp [Md.reset])⟩, by omega⟩
  obtain ⟨mvA, z, mvY, rfl, hlen, key⟩ := md_remove_run (mdSkip_textual dl) h1 h2 e5 (by rw [e2]; exact fun _ h => h) hn (prose_skip hn) e4 (e2 ▸ hr) h0
  have hlines := fun {i x} => mdRun_lines h1 h2 hfl hr (fun _ h => h) h0 (i := i) (x := x)
  have hq := md_after (mdRun_path hr) hlines hD ht hafter.choose_spec.1 (by rw [hlen, e3]; exact hafter.choose_spec.2)
  have hopen : z.state ∉ openStates := by
    intro hz
    have := md_inside (cm := cm) (n := b.nextId) (mdRun_path hr) hlines
      (by rw [hlen, e3, List.append_assoc, splitLines_append hp, List.length_append]; omega) hD ht hz
    rw [hlen, e3] at this
    exact hdoc this
  obtain ⟨mv', hr', he⟩ := key hq hopen
  rw [← e1] at hr'
  obtain ⟨d', h1, h2⟩ := md_same_essence hD ht hr' he b stop cm
  exact ⟨d', h1, h2, fun eng uri => compile_bare eng uri h2⟩

/-! ### Cases that meet the hypotheses -/

theorem Sample.md_plain : OneFence Sample.md ∧ PlainHeadings Sample.md := by
  refine ⟨⟨py"```", by decide +kernel⟩, ?_⟩
  intro s hs h1 ⟨a, b, h2⟩
  have hk : ∀ s ∈ splitLines Sample.md, (lstrip s).head? = some '#' → '@' ∉ s := by decide +kernel
  refine hk s hs h1 ?_
  rw [h2]; simp

theorem no_bar {s : Str} (h : (lstrip s).head? ≠ some '|') : ¬ SeparatorRow s ∧ ¬ BadRow s := by
  have key : ∀ (w r : Str), White w → s = w ++ '|' :: r → False := by
    intro w r hw e
    have := lstrip_pre (s := '|' :: r) hw (by intro x hx; simp at hx; subst hx; decide)
    rw [← e] at this
    exact h (by rw [this]; rfl)
  refine ⟨?_, ?_⟩
  · rintro ⟨pre, rest, hw, e, _⟩
    exact key pre rest hw e
  · rintro ⟨ws, a, n, w, hw, _, ha, _, e⟩
    cases a with
    | nil => simp at ha
    | cons c a =>
      simp only [List.head?_cons, Option.some.injEq] at ha
      subst ha
      exact key ws (a ++ List.replicate (2 * n + 1) '\\' ++ w) hw (by rw [e]; simp)

def Sample.mdProse : Document := ((parse ⟨markdown, astBuilder, false⟩ Sample.md Sample.enMd Sample.fresh).1.toOption.getD none).getD default

theorem Sample.words_prose (w : Str) (h : w = py"Some words.\n") : ProseLine Sample.enMd.dialect w := by
  subst h
  exact ⟨⟨py"Some words.", rfl, by decide⟩, prose_of (by decide) (by decide +kernel), by decide +kernel, no_bar (by decide +kernel)⟩

/-- A line of prose can be put between two rows of a table. -/
example : ∃ d', (parse ⟨markdown, astBuilder, false⟩ (((splitLines Sample.md).take 8).flatten ++ py"Some words.\n" ++ ((splitLines Sample.md).drop 8).flatten)
      Sample.enMd Sample.fresh).1 = .ok (some d') ∧ d'.feature.map Feature.bare = Sample.mdProse.feature.map Feature.bare ∧
    ∀ eng uri, Pickles.compile eng uri d' = Pickles.compile eng uri Sample.mdProse := by
  have e : ((splitLines Sample.md).take 8).flatten ++ ((splitLines Sample.md).drop 8).flatten = Sample.md := by decide +kernel
  have hlen : (splitLines ((splitLines Sample.md).take 8).flatten).length = 8 := by decide +kernel
  have hft : ∃ ft, Sample.mdProse.feature = some ft ∧ ft.loc.line ≤ 8 := ⟨Sample.mdProse.feature.getD default, by decide +kernel, by decide +kernel⟩
  refine C77_insert (lang := py"en") (dl := Sample.enMd.dialect) (by decide +kernel) (by decide +kernel) (by rw [e]; exact Sample.md_plain.1) (by rw [e]; exact Sample.md_plain.2)
    (by rw [e]; decide +kernel) (.inr ⟨((splitLines Sample.md).take 8).flatten.dropLast, by decide +kernel⟩) (Sample.words_prose _ rfl) ?_ ?_
  · obtain ⟨ft, h1, h2⟩ := hft
    exact ⟨ft, h1, by rw [hlen]; exact h2⟩
  · rw [hlen, e]
    rintro ⟨x, hx, hn⟩
    have : ∀ x ∈ Sample.mdProse.docStrings, 9 ∉ x.lines Sample.md := by decide +kernel
    exact this x hx hn

/-- The line of prose in line 4 can be removed. -/
example : ∃ d', (parse ⟨markdown, astBuilder, false⟩ (((splitLines Sample.md).take 3).flatten ++ ((splitLines Sample.md).drop 4).flatten)
      Sample.enMd Sample.fresh).1 = .ok (some d') ∧ d'.feature.map Feature.bare = Sample.mdProse.feature.map Feature.bare ∧
    ∀ eng uri, Pickles.compile eng uri d' = Pickles.compile eng uri Sample.mdProse := by
  have e : ((splitLines Sample.md).take 3).flatten ++ py"Some words.\n" ++ ((splitLines Sample.md).drop 4).flatten = Sample.md := by decide +kernel
  have hlen : (splitLines ((splitLines Sample.md).take 3).flatten).length = 3 := by decide +kernel
  have hft : ∃ ft, Sample.mdProse.feature = some ft ∧ ft.loc.line ≤ 3 := ⟨Sample.mdProse.feature.getD default, by decide +kernel, by decide +kernel⟩
  refine C77_remove (lang := py"en") (dl := Sample.enMd.dialect) (line := py"Some words.\n") (by decide +kernel) (by decide +kernel) (by rw [e]; exact Sample.md_plain.1)
    (by rw [e]; exact Sample.md_plain.2)
    (by rw [e]; decide +kernel) (.inr ⟨((splitLines Sample.md).take 3).flatten.dropLast, by decide +kernel⟩) (Sample.words_prose _ rfl) ?_ ?_
  · obtain ⟨ft, h1, h2⟩ := hft
    exact ⟨ft, h1, by rw [hlen]; exact h2⟩
  · rw [hlen, e]
    rintro ⟨x, hx, hn⟩
    have : ∀ x ∈ Sample.mdProse.docStrings, 4 ∉ x.lines Sample.md := by decide +kernel
    exact this x hx hn

/-! ### The conditions are needed -/

/-- What a Markdown text is parsed to: nothing if it is refused, else the feature's name and description and the contents of the doc strings. -/
def Sample.told (text : Str) : Option (Option Str × Option Str × List Str) :=
  match (parse ⟨markdown, astBuilder, false⟩ text Sample.enMd Sample.fresh).1 with
  | .ok (some d) => some (d.feature.bind (·.name), d.feature.bind (·.keyword), d.docStrings.map (·.content))
  | _ => none

/-- Before the feature's line: prose becomes the feature. -/
theorem C77_before_feature :
    Sample.told py"# Feature: f\n" = some (some py"f", some py"Feature", []) ∧ Sample.told py"words\n# Feature: f\n" = some (some py"words", none, []) := by
  decide +kernel

/-- In a doc string: its content changes. -/
theorem C77_in_docstring :
    Sample.told py"# Feature: f\n## Scenario: s\n* Given x\n```\n```\n" = some (some py"f", some py"Feature", [[]]) ∧
    Sample.told py"# Feature: f\n## Scenario: s\n* Given x\n```\nwords\n```\n" = some (some py"f", some py"Feature", [py"words"]) := by
  decide +kernel

/-- Separator rows: they are comments, and end a description. -/
theorem C77_separator :
    (Sample.told py"# Feature: f\n## Scenario: s\n```\nx\n```\n* Given x\n").isSome = true ∧
    Sample.told py"# Feature: f\n## Scenario: s\n```\n|--|\nx\n```\n* Given x\n" = none := by
  decide +kernel

/-- Rows that end in the middle of an escape: the parser crashes. -/
theorem C77_bad_row :
    (Sample.told py"# Feature: f\n## Scenario: s\n* Given x\n").isSome = true ∧
    Sample.told py"# Feature: f\n## Scenario: s\n      | x \\\n* Given x\n" = none := by
  decide +kernel

end Gherkin
