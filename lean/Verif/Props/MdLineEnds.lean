import Verif.Proofs.MdEolBuild
import Verif.Props.LineEnds
import Verif.Props.Quiet
import Verif.Proofs.FileStream

/-! # C86: line ends do not matter in Markdown texts -/

namespace Gherkin

open Markdown

/-- **C86.** Two Markdown texts that differ in their line ends only, and do not begin with a blank line, parse to the same document or the same
errors, in both error modes. -/
theorem C86_document {s t : Str} (h : SameLines s t) (hs : FirstNotBlank s) (stop : Bool) {lang : Str} {dl : Dialect} {m : MdState}
    (hd : dialectFor lang = some dl) (hm : MdState.new lang = some m) (b : BState) :
    (parse ⟨markdown, astBuilder, stop⟩ s m b).1 = (parse ⟨markdown, astBuilder, stop⟩ t m b).1 :=
  (MdBlind.parse_chomped ⟨lang, hd⟩ astBuilder_blind astBuilder_clean h.chomped hs.lead (hs.same h.chomped).lead (md_speaks hd hm) b).1

/-- **C86**, for the token listing. -/
theorem C86_listing {s t : Str} (h : SameLines s t) (hs : FirstNotBlank s) (stop : Bool) {lang : Str} {dl : Dialect} {m : MdState}
    (hd : dialectFor lang = some dl) (hm : MdState.new lang = some m) (b : List Token) :
    (parse ⟨markdown, formatter, stop⟩ s m b).1 = (parse ⟨markdown, formatter, stop⟩ t m b).1 :=
  (MdBlind.parse_chomped ⟨lang, hd⟩ formatter_blind formatter_clean h.chomped hs.lead (hs.same h.chomped).lead (md_speaks hd hm) b).1

/-- **C86**, Windows line ends: the text with every `\n` replaced by `\r\n`. -/
theorem C86_crlf (text : Str) (hs : FirstNotBlank text) (stop : Bool) {lang : Str} {dl : Dialect} {m : MdState}
    (hd : dialectFor lang = some dl) (hm : MdState.new lang = some m) (b : BState) :
    (parse ⟨markdown, astBuilder, stop⟩ (toCrlf text) m b).1 = (parse ⟨markdown, astBuilder, stop⟩ text m b).1 :=
  C86_document (sameLines_crlf text) (hs.same (sameLines_crlf text).chomped.symm) stop hd hm b

/-- **C86**, final line end: a line end added after an unfinished last line. -/
theorem C86_final {text : Str} (hne : text ≠ []) (hl : text.getLast? ≠ some '\n') (hs : FirstNotBlank text) {e : Str} (he : IsLineEnd e) (stop : Bool)
    {lang : Str} {dl : Dialect} {m : MdState} (hd : dialectFor lang = some dl) (hm : MdState.new lang = some m) (b : BState) :
    (parse ⟨markdown, astBuilder, stop⟩ (text ++ e) m b).1 = (parse ⟨markdown, astBuilder, stop⟩ text m b).1 :=
  C86_document (sameLines_final hne hl he) (hs.same (sameLines_final hne hl he).chomped.symm) stop hd hm b

/-- **C86**, Robot Framework: the suite or the list of errors that the parser makes of a feature file or of a Markdown file does not depend on the
line ends. -/
theorem C86_suite {s t : Str} (h : SameLines s t) (eng : Engine) (printable : Char → Bool) (es : List DirEntry) (uri name : Str)
    (hs : Robot.suffix name = py".md" → FirstNotBlank s) : Robot.build eng printable es uri name s = Robot.build eng printable es uri name t := by
  have hp : Robot.parseFile name s = Robot.parseFile name t := by
    unfold Robot.parseFile
    by_cases hn : Robot.suffix name = py".md"
    · rw [if_pos hn, if_pos hn]
      obtain ⟨dl, hd⟩ : ∃ dl, dialectFor py"en" = some dl := Option.isSome_iff_exists.1 (by decide +kernel)
      exact C86_document h (hs hn) false hd (by unfold Robot.defaultMarkdown MdState.new; rw [hd]; rfl) _
    · rw [if_neg hn, if_neg hn]
      exact C45_document h false defaultMatcher_valid _
  unfold Robot.build Robot.tryBuild
  rw [hp]

/-! ### The hypotheses can be met, and the condition is needed -/

/-- A Markdown text that begins with a line of tags. -/
def Sample.mdTagged : Str := py"`@a` `@b`\n# Feature: f\nwords\n## Scenario: s\n- Given x\n  | a |\n"

theorem Sample.mdTagged_begins : FirstNotBlank Sample.mdTagged := by
  have hs : splitLines Sample.mdTagged = [py"`@a` `@b`\n", py"# Feature: f\n", py"words\n", py"## Scenario: s\n", py"- Given x\n", py"  | a |\n"] := by
    decide +kernel
  intro pre s post e hp hw
  have hm : s ∈ splitLines Sample.mdTagged := by rw [e]; simp
  rw [hs] at hm
  simp only [List.mem_cons, List.not_mem_nil, or_false] at hm
  have no : ∀ c, c ∈ s → isSpace c = false → False := fun c hc h => by rw [hw c hc] at h; simp at h
  rcases hm with rfl | rfl | rfl | rfl | rfl | rfl
  · exact no '`' (by decide +kernel) (by decide +kernel)
  · exact no '#' (by decide +kernel) (by decide +kernel)
  · exact no 'w' (by decide +kernel) (by decide +kernel)
  · exact no '#' (by decide +kernel) (by decide +kernel)
  · exact no '-' (by decide +kernel) (by decide +kernel)
  · exact no '|' (by decide +kernel) (by decide +kernel)

example : SameLines (toCrlf Sample.mdTagged) Sample.mdTagged ∧ FirstNotBlank Sample.mdTagged ∧ toCrlf Sample.mdTagged ≠ Sample.mdTagged ∧
    (match (parse ⟨markdown, astBuilder, false⟩ (toCrlf Sample.mdTagged) Sample.enMd Sample.fresh).1 with | .ok _ => true | .error _ => false) = true :=
  ⟨sameLines_crlf _, Sample.mdTagged_begins, by decide +kernel, by decide +kernel⟩

/-- A blank line that begins a text makes the feature, and its column counts the line end. -/
theorem C86_blank_feature :
    SameLines py"\r\nhello\r\n" py"\nhello\n" ∧
    ((parse ⟨markdown, astBuilder, false⟩ py"\nhello\n" Sample.enMd Sample.fresh).1.toOption.bind fun d => d.bind fun d => d.feature.map Feature.loc) =
      some ⟨1, some 2⟩ ∧
    ((parse ⟨markdown, astBuilder, false⟩ py"\r\nhello\r\n" Sample.enMd Sample.fresh).1.toOption.bind fun d => d.bind fun d => d.feature.map Feature.loc) =
      some ⟨1, some 3⟩ :=
  ⟨sameLines_crlf py"\nhello\n", by decide +kernel, by decide +kernel⟩

end Gherkin
