import Verif.Proofs.Noise
import Verif.Proofs.NoiseSafe
import Verif.Proofs.Plain
import Verif.Proofs.Bare
import Verif.Props.Blocks

/-! # C46: blank lines and comments do not change tests -/

namespace Gherkin

open Auto Cst

theorem src_drop {A B : List Line} (h : Src (A ++ B)) (hA : ∀ l ∈ A, l.isEof = false) : Src B := by
  induction A with
  | nil => exact h
  | cons a A ih => exact ih (h.tail (hA a (by simp))) fun l hl => hA l (by simp [hl])

theorem ignorable_line {line : Str} (h : IgnorableLine line) (k : Nat) :
    (Line.mk line k).isNoise = true ∧ (Line.mk line k).isEof = false ∧ Classic.languageName (Line.mk line k).lineText = none ∧
      ((Line.mk line k).isBlank = false → ¬ BlankText line) := by
  obtain ⟨⟨body, hb, _⟩, hn, hh⟩ := h
  have hbl : ∀ {x}, isBlankLine (Line.mk line k) = x ↔ (Line.mk line k).isBlank = x := by intro x; rw [isBlankLine_iff]
  refine ⟨?_, ?_, not_header.2 hh, ?_⟩
  · rcases hn with hn | hn
    · simp [Line.isNoise, hbl.1 (blank_iff.2 hn)]
    · have := comment_iff (l := Line.mk line k) |>.2 hn
      rw [firstIs_iff] at this
      simp [Line.isNoise, this]
  · rw [hb]; simp [Line.isEof]
  · intro h1 h2
    rw [hbl.1 (blank_iff (l := Line.mk line k) |>.2 h2)] at h1; simp at h1

/-- From a run with the same essence to a document with the same content. -/
theorem same_essence {m : CState} (hm : m.Valid) {text text' : Str} {mv mv' : List Auto.Move} {q q' : Nat} {m1 m1' : CState} {D : CDoc}
    (hD : D.Ok) (ht : D.toks = (mv.map (·.tok)).filter Token.isCore) (hr' : Run 0 (Classic.reset m) (tokenLines text') mv' q' m1')
    (he : essence false mv' = essence false mv) (b : BState) (stop : Bool) (cm : List Comment) :
    ∃ d', (parse (classicCfg astBuilder stop) text' m b).1 = .ok (some d') ∧
      d'.feature.map Feature.bare = (D.ast cm b.nextId).1.feature.map Feature.bare := by
  have hq := run_end hr' (tokenLines_src text')
  subst hq
  have hw : RowChain none (mv'.map Move.tok) := by
    rw [← rowChain_core]
    apply rowChain_scan (o := false)
    have : RowChain none (essence false mv') := by
      rw [he]; unfold essence
      rw [← ht, ← CDoc.plain_toks hD]
      exact doc_chain (CDoc.plain_ok hD)
    exact this
  obtain ⟨r, hr⟩ := run_parses hm hr' hw b stop
  obtain ⟨_, _, _, hr2, _⟩ := parse_doc classic_lawful stop hr
  subst hr2
  obtain ⟨mv2, q2, m2, D2, r1, r2, r3, r4⟩ := accepted_doc hm hr
  obtain ⟨rfl, _, _⟩ := run_det hr' r1
  refine ⟨_, hr, ?_⟩
  rw [r4]
  apply bare_of_toks r2 hD
  rw [r3, ht]; exact he

/-- **C46, adding a line.** A blank line can be added anywhere outside doc strings, and a comment anywhere outside doc strings and not before or
inside a description: the text still parses, to a document that differs in places, comments and descriptions only, and that compiles to exactly
the same pickles. -/
theorem C46_insert {pre line post : Str} {stop : Bool} {m : CState} (hm : m.Valid) {b : BState} {d : Document}
    (h : (parse (classicCfg astBuilder stop) (pre ++ post) m b).1 = .ok (some d)) (hp : AtLineStart pre) (hl : IgnorableLine line)
    (hdoc : ¬ d.inDocString (pre ++ post) ((splitLines pre).length + 1))
    (hdesc : ¬ BlankText line → ∀ n, NextLine (pre ++ post) (splitLines pre).length n → ¬ d.describes (pre ++ post) n) :
    ∃ d', (parse (classicCfg astBuilder stop) (pre ++ line ++ post) m b).1 = .ok (some d') ∧
      d'.feature.map Feature.bare = d.feature.map Feature.bare ∧ ∀ eng uri, Pickles.compile eng uri d' = Pickles.compile eng uri d := by
  obtain ⟨A, B, B', e1, e2, e3, e4, e5⟩ := noise_lines (post := post) hp hl.1
  obtain ⟨mv, q, m', D, hr, hD, ht, rfl⟩ := accepted_doc hm h
  obtain ⟨n1, n2, n3, n4⟩ := ignorable_line hl ((splitLines pre).length + 1)
  have hs : Src (A ++ B) := e1 ▸ tokenLines_src (pre ++ post)
  obtain ⟨mvA, z, mvY, rfl, hlen, key⟩ := insert_run e5 (src_drop hs e5) hs n1 n2 n3 e4 (e1 ▸ hr) (inv_start hm)
  have hopen : z.state ∉ openStates := by
    intro hz
    have := (open_iff (cm := commentsOf ((mvA ++ z :: mvY).map (·.tok))) (n := b.nextId) hm hr hD ht).1 hz
    rw [hlen, e3] at this
    exact hdoc this
  obtain ⟨mv', hr', he⟩ := key hopen fun hbl => safe_of hm hr hD ht (by rw [hlen, e3]; exact hdesc (n4 hbl))
  rw [← e2] at hr'
  obtain ⟨d', h1, h2⟩ := same_essence (text := pre ++ post) (q := q) (m1 := m') hm hD ht hr' he b stop (commentsOf ((mvA ++ z :: mvY).map (·.tok)))
  exact ⟨d', h1, h2, fun eng uri => compile_bare eng uri h2⟩

/-- **C46, removing a line.** Blank lines and comments outside doc strings can be removed, with the same conclusion. -/
theorem C46_remove {pre line post : Str} {stop : Bool} {m : CState} (hm : m.Valid) {b : BState} {d : Document}
    (h : (parse (classicCfg astBuilder stop) (pre ++ line ++ post) m b).1 = .ok (some d)) (hp : AtLineStart pre) (hl : IgnorableLine line)
    (hdoc : ¬ d.inDocString (pre ++ line ++ post) ((splitLines pre).length + 1)) :
    ∃ d', (parse (classicCfg astBuilder stop) (pre ++ post) m b).1 = .ok (some d') ∧
      d'.feature.map Feature.bare = d.feature.map Feature.bare ∧ ∀ eng uri, Pickles.compile eng uri d' = Pickles.compile eng uri d := by
  obtain ⟨A, B, B', e1, e2, e3, e4, e5⟩ := noise_lines (post := post) hp hl.1
  obtain ⟨mv, q, m', D, hr, hD, ht, rfl⟩ := accepted_doc hm h
  obtain ⟨n1, n2, n3, n4⟩ := ignorable_line hl ((splitLines pre).length + 1)
  have hs := e2 ▸ tokenLines_src (pre ++ line ++ post)
  have hB' : Src B' := (src_drop hs e5).tail n2
  obtain ⟨mvA, z, mvY, rfl, hlen, key⟩ := remove_run e5 hB' hs n1 n2 n3 e4 (e2 ▸ hr) (inv_start hm)
  have hopen : z.state ∉ openStates := by
    intro hz
    have := (open_iff (cm := commentsOf ((mvA ++ z :: mvY).map (·.tok))) (n := b.nextId) hm hr hD ht).1 hz
    rw [hlen, e3] at this
    exact hdoc this
  obtain ⟨mv', hr', he⟩ := key hopen
  rw [← e1] at hr'
  obtain ⟨d', h1, h2⟩ := same_essence (text := pre ++ line ++ post) (q := q) (m1 := m') hm hD ht hr' he b stop (commentsOf ((mvA ++ z :: mvY).map (·.tok)))
  exact ⟨d', h1, h2, fun eng uri => compile_bare eng uri h2⟩

/-! ### Cases that meet the hypotheses -/

theorem White.of_all {s : Str} (h : s.all isSpace = true) : White s := by simpa [White] using h

/-- What stands before the doc string of the sample, and the rest. -/
def Sample.noisePre : Str := ((splitLines Sample.blocks).take 11).flatten
def Sample.noisePost : Str := ((splitLines Sample.blocks).drop 11).flatten

/-- A comment between a step and its doc string can be added. -/
example : ∃ d', (parse ⟨classic, astBuilder, false⟩ (Sample.noisePre ++ py"  # why\n" ++ Sample.noisePost) Sample.en Sample.fresh).1 = .ok (some d') ∧
    d'.feature.map Feature.bare = Sample.blocksDoc.feature.map Feature.bare ∧
    ∀ eng uri, Pickles.compile eng uri d' = Pickles.compile eng uri Sample.blocksDoc := by
  have e : Sample.noisePre ++ Sample.noisePost = Sample.blocks := by decide +kernel
  have hlen : (splitLines Sample.noisePre).length = 11 := by decide +kernel
  have hcomment : CommentText py"  # why\n" := ⟨py"  ", py" why\n", White.of_all rfl, rfl⟩
  refine C46_insert (pre := Sample.noisePre) (post := Sample.noisePost) (line := py"  # why\n") (stop := false) (m := Sample.en) ⟨by decide +kernel, by decide +kernel⟩
    (by rw [e]; decide +kernel) (.inr ⟨Sample.noisePre.dropLast, by decide +kernel⟩)
    ⟨⟨py"  # why", rfl, by decide⟩, .inr hcomment, ?_⟩ ?_ ?_
  · have : Classic.languageName (Line.mk py"  # why\n" 0).lineText = none := by decide +kernel
    exact not_header.1 this
  · rw [hlen, e]
    rintro ⟨x, hx, hn⟩
    have : Sample.blocksDoc.docStrings = [Sample.blocksString] := by decide +kernel
    rw [this] at hx
    simp only [List.mem_singleton] at hx
    subst hx
    revert hn
    decide +kernel
  · rw [hlen, e]
    rintro - n ⟨hn, -, hn2⟩ ⟨f, name, dialect, h1, h2, h3, p, loc, s, hp, l, hl, rfl⟩
    have hf : Sample.blocksDoc.feature.bind (·.language) = some py"en" := by decide +kernel
    rw [h1] at hf
    simp only [Option.bind_some] at hf
    rw [h2] at hf
    simp only [Option.some.injEq] at hf
    subst hf
    have hd : dialect = Sample.en.dialect := by
      have : dialects.lookup py"en" = some Sample.en.dialect := by decide +kernel
      rw [h3] at this; simpa using this
    subst hd
    have hparts : ∀ x ∈ Sample.blocksDoc.parts, ∀ l ∈ descriptionLines Sample.en.dialect Sample.blocks x.1 x.2.1.line, l.number ≤ 9 := by decide +kernel
    have := hparts _ hp _ hl
    omega

/-- The comment in line 9 can be removed. -/
example : ∃ d', (parse ⟨classic, astBuilder, false⟩ (((splitLines Sample.blocks).take 8).flatten ++ ((splitLines Sample.blocks).drop 9).flatten)
      Sample.en Sample.fresh).1 = .ok (some d') ∧
    d'.feature.map Feature.bare = Sample.blocksDoc.feature.map Feature.bare ∧
    ∀ eng uri, Pickles.compile eng uri d' = Pickles.compile eng uri Sample.blocksDoc := by
  have e : ((splitLines Sample.blocks).take 8).flatten ++ py"# another comment\n" ++ ((splitLines Sample.blocks).drop 9).flatten = Sample.blocks := by
    decide +kernel
  have hlen : (splitLines ((splitLines Sample.blocks).take 8).flatten).length = 8 := by decide +kernel
  refine C46_remove (line := py"# another comment\n") (stop := false) (m := Sample.en) ⟨by decide +kernel, by decide +kernel⟩ (by rw [e]; decide +kernel)
    (.inr ⟨((splitLines Sample.blocks).take 8).flatten.dropLast, by decide +kernel⟩)
    ⟨⟨py"# another comment", rfl, by decide⟩, .inr ⟨[], py" another comment\n", White.of_all rfl, rfl⟩, ?_⟩ ?_
  · have : Classic.languageName (Line.mk py"# another comment\n" 0).lineText = none := by decide +kernel
    exact not_header.1 this
  · rw [hlen, e]
    rintro ⟨x, hx, hn⟩
    have : Sample.blocksDoc.docStrings = [Sample.blocksString] := by decide +kernel
    rw [this] at hx
    simp only [List.mem_singleton] at hx
    subst hx
    revert hn
    decide +kernel

/-- The condition on descriptions cannot be dropped: a comment before a description makes the description an error. -/
theorem C46_comment_in_description :
    (parse ⟨classic, astBuilder, false⟩ py"Feature: f\n  words\n" Sample.en Sample.fresh).1.toOption.isSome = true ∧
    (parse ⟨classic, astBuilder, false⟩ py"Feature: f\n# c\n  words\n" Sample.en Sample.fresh).1.toOption.isSome = false := by decide +kernel

/-- Nor can the one on doc strings: their content changes. -/
theorem C46_blank_in_docstring :
    let parse' t := ((parse ⟨classic, astBuilder, false⟩ t Sample.en Sample.fresh).1.toOption.getD none).map fun d => d.docStrings.map (·.content)
    parse' py"Feature: f\nScenario: s\n  * x\n  ```\n  ```\n" = some [[]] ∧
    parse' py"Feature: f\nScenario: s\n  * x\n  ```\n\n\n  ```\n" = some [py"\n"] := by decide +kernel

end Gherkin
