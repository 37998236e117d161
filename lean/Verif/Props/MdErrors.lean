import Verif.Proofs.MdTotal2
import Verif.Props.Errors
import Verif.Props.Markdown

/-! C59, C60: what happens when a Markdown text does not parse. -/

namespace Gherkin

theorem reset_fenced (m : MdState) : Md.Fenced (Md.reset m).dialectName (Md.reset m).dialect (Md.reset m) :=
  ⟨⟨rfl, rfl⟩, by intro f h; unfold Md.reset at h; simp at h⟩

/-! ### C59 -/

/-- C59: parsing a Markdown text returns a document, or raises `CompositeParserException` with at least one error (`stop_at_first_error` off) or a
single `ParserException` (on) — unless some line of the text is a table row that ends inside an escape sequence (`RuntimeError`). Partial: with
such a line the claim is false (`C59_counterexample_row`). -/
theorem C59_markdown_outcome_partial (stop : Bool) (text : Str) (m : MdState) (b : BState) :
    (∃ d, (parse ⟨markdown, astBuilder, stop⟩ text m b).1 = .ok (some d)) ∨
    (stop = false ∧ ∃ es, es ≠ [] ∧ (parse ⟨markdown, astBuilder, stop⟩ text m b).1 = .error (.composite es)) ∨
    (stop = true ∧ ∃ e, (parse ⟨markdown, astBuilder, stop⟩ text m b).1 = .error (.single e)) ∨
    ((parse ⟨markdown, astBuilder, stop⟩ text m b).1 = .error (.crash .runtimeError) ∧ ∃ n s, LineIs text n s ∧ BadRow s) := by
  have h := md_parse_out stop text m (reset_fenced m) b
  have hc := (parse_cases (cfg := ⟨markdown, astBuilder, stop⟩) markdown_lawful text m b).2
  rcases hp : parse ⟨markdown, astBuilder, stop⟩ text m b with ⟨r, c⟩
  rw [hp] at h hc
  simp only at h ⊢
  cases h with
  | @ok a =>
    left
    obtain ⟨D, _, _, h3, _⟩ := parse_doc markdown_lawful stop (show (parse ⟨markdown, astBuilder, stop⟩ text m b).1 = .ok a by rw [hp])
    exact ⟨_, by rw [h3]⟩
  | crash h0 =>
    obtain ⟨rfl, s, hs, hb⟩ := h0
    obtain ⟨i, hi, rfl⟩ := List.mem_iff_getElem.1 hs
    exact .inr (.inr (.inr ⟨rfl, i + 1, _, ⟨by omega, by simp [hi]⟩, hb⟩))
  | single h _ => exact .inr (.inr (.inl ⟨h, _, rfl⟩))
  | @composite es _ =>
    obtain ⟨_, h2, _, h4⟩ := hc es c rfl
    exact .inr (.inl ⟨h4, es, by rintro rfl; simp at h2, rfl⟩)

/-- C59, for texts without such lines: a document or `CompositeParserException`. -/
theorem C59_no_other_exception (text : Str) (hb : ∀ n s, LineIs text n s → ¬ BadRow s) (m : MdState) (b : BState) :
    (∃ d, (parse ⟨markdown, astBuilder, false⟩ text m b).1 = .ok (some d)) ∨
    (∃ es, es ≠ [] ∧ (parse ⟨markdown, astBuilder, false⟩ text m b).1 = .error (.composite es)) := by
  rcases C59_markdown_outcome_partial false text m b with h | ⟨_, h⟩ | ⟨h, _⟩ | ⟨_, n, s, h1, h2⟩
  · exact .inl h
  · exact .inr h
  · simp at h
  · exact absurd h2 (hb n s h1)

/-- A table row that ends inside an escape sequence: `RuntimeError` instead of `CompositeParserException`. -/
theorem C59_counterexample_row :
    (parse ⟨markdown, astBuilder, false⟩ py"# Feature: f\n## Scenario: s\n- Given x\n  | a \\\n" Sample.enMd Sample.fresh).1 =
      .error (.crash .runtimeError) := by decide +kernel

/-! ### C60 -/

/-- C60: every error that parsing a Markdown text raises, alone or in a list, is about the line of the text that it names (`MdErrorAt`), a line
between 1 and the number of lines + 1; a line is called unexpected only if it is a Gherkin line and has none of the expected forms. -/
theorem C60_markdown_error_positions (stop : Bool) (text lang : Str) (dl : Dialect) (hd : dialectFor lang = some dl) (m : MdState)
    (hm : MdState.new lang = some m) (b : BState) (e : Err)
    (h : (parse ⟨markdown, astBuilder, stop⟩ text m b).1 = .error (.single e) ∨
      ∃ es, e ∈ es ∧ (parse ⟨markdown, astBuilder, stop⟩ text m b).1 = .error (.composite es)) :
    MdErrorAt dl text e ∧ 1 ≤ e.loc.line ∧ e.loc.line ≤ (splitLines text).length + 1 := by
  have ho := md_parse_out stop text m (md_speaks hd hm) b
  have hb : ∀ l ∈ sourceLines text, 1 ≤ l.number ∧ l.number ≤ (splitLines text).length + 1 := by
    intro l hl
    simp only [sourceLines, List.mem_map] at hl
    obtain ⟨⟨s, n⟩, h1, rfl⟩ := hl
    obtain ⟨h2, h3, _⟩ := List.mem_zipIdx h1
    exact ⟨h2, by show n ≤ _; omega⟩
  suffices hE : MdErrorAt dl text e by
    refine ⟨hE, ?_⟩
    unfold MdErrorAt at hE
    split at hE
    · obtain ⟨l, hl, c, h1, _⟩ := hE; rw [h1]; exact hb l hl
    · obtain ⟨h1, _⟩ := hE; rw [h1]; simp [sourceLines]
    · exact hE.elim
    · obtain ⟨l, hl, h1, _⟩ := hE; rw [h1]; exact hb l hl
  rcases h with h | ⟨es, he, h⟩
  · rw [h] at ho
    cases ho with
    | crash h => exact absurd h.1 (by simp)
    | single _ h => exact h.2
  · rw [h] at ho
    cases ho with
    | crash h => exact absurd h.1 (by simp)
    | composite h => exact (h e he).2

/-- Not vacuous: one text, three errors of three kinds. -/
example : (match (parse ⟨markdown, astBuilder, false⟩
      py"# Feature: f\n\n## Scenario: s\n- Given x\n  | a | b |\n  | c |\n# Background: late\n  | z |\n`@t`\n" Sample.enMd Sample.fresh).1 with
    | .error (.composite es) => es.map fun e => (e.msg, e.loc)
    | _ => []) =
    [(py"(7:3): expected: #EOF, #TableRow, #StepLine, #TagLine, #ExamplesLine, #ScenarioLine, #RuleLine, #Comment, #Empty, got '# Background: late'",
        ⟨7, some 3⟩),
     (py"(6:3): inconsistent cell count within the table", ⟨6, some 3⟩),
     (py"(10:0): unexpected end of file, expected: #TagLine, #RuleLine, #Comment, #Empty", ⟨10, none⟩)] := by decide +kernel

end Gherkin
