import Verif.Proofs.Bad
import Verif.Proofs.LangFail
import Verif.Proofs.StopMode
import Verif.Props.Samples

/-! C04, C20 (unknown languages), C47, C48: what happens when a text does not parse. -/

namespace Gherkin

/-! ### C04 -/

/-- Some line of the text is a tag line with white space inside a tag, or a table row that ends inside an escape sequence. -/
def HasBadLine (text : Str) : Prop := ∃ n s, LineIs text n s ∧ (BadTags s ∨ BadRow s)

theorem crash_bad {text : Str} {x : Crash} (h : ∃ l ∈ tokenLines text, BadLine l x) :
    (x = .attributeError ∧ ∃ n s, LineIs text n s ∧ BadTags s) ∨ (x = .runtimeError ∧ ∃ n s, LineIs text n s ∧ BadRow s) := by
  obtain ⟨l, hl, hb⟩ := h
  have hne : l.isEof = false := by
    cases he : l.isEof with
    | false => rfl
    | true =>
      have ht : l.text = [] := by simpa [Line.isEof] using he
      rcases badLine_plain hb with ⟨_, ws, a, y, w, z, b, r, _, _, _, _, _, _, _, h2, _⟩ | ⟨_, ws, a, n, w, _, _, _, _, h2⟩
      · rw [ht] at h2; simp at h2
      · rw [ht] at h2; simp at h2
  have hs := tokenLines_lineIs hl hne
  rcases badLine_plain hb with ⟨h1, h2⟩ | ⟨h1, h2⟩
  · exact .inl ⟨h1, _, _, hs, h2⟩
  · exact .inr ⟨h1, _, _, hs, h2⟩

/-- C04: parsing a classic text returns a document, or raises `CompositeParserException` (`stop_at_first_error` off) or a single
`ParserException` (on) — unless some line of the text is a tag line with white space inside a tag (`AttributeError`) or a table row that ends
inside an escape sequence (`RuntimeError`). Partial: with such a line the claim is false (`C04_counterexample_tag`, `C04_counterexample_row`). -/
theorem C04_parse_outcome_partial (stop : Bool) (text : Str) (m : CState) (hm : m.Valid) (b : BState) :
    (∃ d, (parse ⟨classic, astBuilder, stop⟩ text m b).1 = .ok (some d)) ∨
    (stop = false ∧ ∃ es, es ≠ [] ∧ (parse ⟨classic, astBuilder, stop⟩ text m b).1 = .error (.composite es)) ∨
    (stop = true ∧ ∃ e, (parse ⟨classic, astBuilder, stop⟩ text m b).1 = .error (.single e)) ∨
    ((parse ⟨classic, astBuilder, stop⟩ text m b).1 = .error (.crash .attributeError) ∧ ∃ n s, LineIs text n s ∧ BadTags s) ∨
    ((parse ⟨classic, astBuilder, stop⟩ text m b).1 = .error (.crash .runtimeError) ∧ ∃ n s, LineIs text n s ∧ BadRow s) := by
  have h := parse_out stop text hm b
  have hc := (parse_cases (cfg := ⟨classic, astBuilder, stop⟩) classic_lawful text m b).2
  rcases hp : parse ⟨classic, astBuilder, stop⟩ text m b with ⟨r, c⟩
  rw [hp] at h hc
  simp only at h ⊢
  cases h with
  | @ok a =>
    left
    obtain ⟨D, _, _, h3, _⟩ := parse_doc classic_lawful stop (show (parse ⟨classic, astBuilder, stop⟩ text m b).1 = .ok a by rw [hp])
    exact ⟨_, by rw [h3]⟩
  | crash h0 =>
    rcases crash_bad h0 with ⟨rfl, h⟩ | ⟨rfl, h⟩
    · exact .inr (.inr (.inr (.inl ⟨rfl, h⟩)))
    · exact .inr (.inr (.inr (.inr ⟨rfl, h⟩)))
  | single h _ => exact .inr (.inr (.inl ⟨h, _, rfl⟩))
  | @composite es _ =>
    obtain ⟨_, h2, _, h4⟩ := hc es c rfl
    exact .inr (.inl ⟨h4, es, by rintro rfl; simp at h2, rfl⟩)

/-- C04, for texts without such lines: a document or `CompositeParserException`. -/
theorem C04_no_other_exception (text : Str) (hb : ¬ HasBadLine text) (m : CState) (hm : m.Valid) (b : BState) :
    (∃ d, (parse ⟨classic, astBuilder, false⟩ text m b).1 = .ok (some d)) ∨
    (∃ es, es ≠ [] ∧ (parse ⟨classic, astBuilder, false⟩ text m b).1 = .error (.composite es)) := by
  rcases C04_parse_outcome_partial false text m hm b with h | ⟨_, h⟩ | ⟨h, _⟩ | ⟨_, n, s, h1, h2⟩ | ⟨_, n, s, h1, h2⟩
  · exact .inl h
  · exact .inr h
  · simp at h
  · exact absurd ⟨n, s, h1, .inl h2⟩ hb
  · exact absurd ⟨n, s, h1, .inr h2⟩ hb

theorem C04_counterexample_tag : (parse ⟨classic, astBuilder, false⟩ py"@a b\nFeature: x\n" Sample.en Sample.fresh).1 = .error (.crash .attributeError) := by
  decide +kernel

theorem C04_counterexample_row : (parse ⟨classic, astBuilder, false⟩ py"Feature: x\n  Scenario: y\n    Given z\n      | a \\\n" Sample.en Sample.fresh).1 =
    .error (.crash .runtimeError) := by
  decide +kernel

/-! ### C48 -/

/-- The lines an error can have. -/
theorem errorAt_line {dflt text : Str} {e : Err} (h : ErrorAt dflt text e) : 1 ≤ e.loc.line ∧ e.loc.line ≤ (splitLines text).length + 1 := by
  have hb : ∀ l ∈ sourceLines text, 1 ≤ l.number ∧ l.number ≤ (splitLines text).length + 1 := by
    intro l hl
    simp only [sourceLines, List.mem_map] at hl
    obtain ⟨⟨s, n⟩, h1, rfl⟩ := hl
    obtain ⟨h2, h3, _⟩ := List.mem_zipIdx h1
    exact ⟨h2, by show n ≤ _; omega⟩
  unfold ErrorAt at h
  split at h
  · obtain ⟨l, hl, h1, _⟩ := h; rw [h1]; exact hb l hl
  · obtain ⟨h1, _⟩ := h; rw [h1]; simp [sourceLines]
  · obtain ⟨l, hl, h1, _⟩ := h; rw [h1]; exact hb l hl
  · obtain ⟨l, hl, h1, _⟩ := h; rw [h1]; exact hb l hl

/-- C48: every error that parsing raises, alone or in a list, is about the text at the place it names (`ErrorAt`), on a line between 1 and the
number of lines + 1. -/
theorem C48_error_positions (stop : Bool) (text : Str) (m : CState) (hm : m.Valid) (b : BState) (e : Err)
    (h : (parse ⟨classic, astBuilder, stop⟩ text m b).1 = .error (.single e) ∨
      ∃ es, e ∈ es ∧ (parse ⟨classic, astBuilder, stop⟩ text m b).1 = .error (.composite es)) :
    ErrorAt m.defaultName text e ∧ 1 ≤ e.loc.line ∧ e.loc.line ≤ (splitLines text).length + 1 := by
  have ho := parse_out stop text hm b
  suffices hE : ErrorAt m.defaultName text e from ⟨hE, errorAt_line hE⟩
  rcases h with h | ⟨es, he, h⟩
  · rw [h] at ho
    cases ho with
    | single _ h => obtain ⟨n, h⟩ := h; exact h.1
  · rw [h] at ho
    cases ho with
    | composite h => obtain ⟨n, h⟩ := h e he; exact h.1

/-- A text with an error of each kind. -/
example : (parse ⟨classic, astBuilder, false⟩ py"  # language: xx\nnonsense\nFeature: x\n  Scenario: y\n    Given z\n      | a |\n      | b | c |\n  @tag\n"
      Sample.en Sample.fresh).1 = .error (.composite [
    ⟨.noSuchLanguage py"xx", py"(1:3): Language not supported: xx", ⟨1, some 1⟩, some 1⟩,
    ⟨.unexpectedToken [.eof, .language, .tagLine, .featureLine, .comment, .empty] py"nonsense",
      py"(2:1): expected: #EOF, #Language, #TagLine, #FeatureLine, #Comment, #Empty, got 'nonsense'", ⟨2, some 1⟩, none⟩,
    ⟨.astBuilder, py"(7:7): inconsistent cell count within the table", ⟨7, some 7⟩, none⟩,
    ⟨.unexpectedEof [.tagLine, .ruleLine, .comment, .empty],
      py"(9:0): unexpected end of file, expected: #TagLine, #RuleLine, #Comment, #Empty", ⟨9, none⟩, none⟩]) := by
  decide +kernel

/-! ### C47 -/

section
variable {μ σ ρ : Type} {M : Matcher μ} {B : Builder σ ρ}

/-- C47, any matcher and builder: with `stop_at_first_error` parsing returns exactly what it returns without it if there is no error; otherwise
it raises the first of the errors that are collected without it. `Err.Like`: same kind and message; the same location, unless the error holds the
location object of a token that is matched again. -/
theorem C47_first_error (hL : M.Lawful) (text : Str) (m : μ) (b : σ) :
    (∀ r, (parse ⟨M, B, true⟩ text m b).1 = .ok r ↔ (parse ⟨M, B, false⟩ text m b).1 = .ok r) ∧
    (∀ es, (parse ⟨M, B, false⟩ text m b).1 = .error (.composite es) →
      ∃ e e0 rest, (parse ⟨M, B, true⟩ text m b).1 = .error (.single e) ∧ es = e0 :: rest ∧ e0.Like e) ∧
    (∀ e, (parse ⟨M, B, true⟩ text m b).1 = .error (.single e) →
      (∃ e0 rest, (parse ⟨M, B, false⟩ text m b).1 = .error (.composite (e0 :: rest)) ∧ e0.Like e) ∨
      (∃ e0 rest, (parse ⟨M, B, false⟩ text m b).2.errors = e0 :: rest ∧ e0.Like e ∧ ∃ x, (parse ⟨M, B, false⟩ text m b).1 = .error (.crash x)) ∨
      (parse ⟨M, B, false⟩ text m b).1 = .error (.single e)) ∧
    (∀ x, (parse ⟨M, B, true⟩ text m b).1 = .error (.crash x) → (parse ⟨M, B, false⟩ text m b).1 = .error (.crash x)) := by
  have h := parse_side (B := B) hL text m b
  have hc := parse_cases (cfg := ⟨M, B, false⟩) hL text m b
  have hs := parse_cases (cfg := ⟨M, B, true⟩) hL text m b
  have hf := parse_ne_fuel (cfg := ⟨M, B, false⟩) hL text m b
  rcases hp : parse ⟨M, B, false⟩ text m b with ⟨r, c⟩
  rcases hq : parse ⟨M, B, true⟩ text m b with ⟨r', c'⟩
  rw [hp] at h hc hf
  rw [hq] at h hs
  simp only at hf ⊢
  rcases h with ⟨h1, h2⟩ | ⟨e, h1, h2⟩
  · obtain ⟨rfl, rfl⟩ := Prod.mk.injEq _ _ _ _ ▸ h1
    refine ⟨fun r => Iff.rfl, fun es he => ?_, fun e he => .inr (.inr he), fun x hx => hx⟩
    subst he
    have := (hs.2 es c' rfl).2.2.2
    simp at this
  · simp only at h1
    subst h1
    obtain ⟨e0, rest, h3, h4⟩ := h2
    refine ⟨fun r0 => ⟨fun h => by simp at h, fun h => ?_⟩, fun es he => ?_, fun e' he => ?_, fun x hx => by simp at hx⟩
    · subst h
      have := (hc.1 r0 c rfl).1
      rw [this] at h3; simp at h3
    · subst he
      have := parse_composite_errors hL hp
      exact ⟨e, e0, rest, rfl, by rw [← this]; exact h3, h4⟩
    · simp only [Except.error.injEq, Exc.single.injEq] at he
      subst he
      cases r with
      | ok r0 => have := (hc.1 r0 c rfl).1; rw [this] at h3; simp at h3
      | error x =>
        cases x with
        | composite es =>
          have := parse_composite_errors hL hp
          rw [this] at h3
          exact .inl ⟨e0, rest, by rw [h3], h4⟩
        | crash x => exact .inr (.inl ⟨e0, rest, h3, h4, x, rfl⟩)
        | outOfFuel => simp at hf
        | single e1 =>
          rcases parse_single_errors hL hp with h | ⟨_, h⟩
          · simp at h
          · rw [h] at h3; simp at h3

end

/-- The same error: same kind, same message, same line; and the same column, except for an unknown language (its location is changed when the line is
then read as a comment). -/
def SameError (e0 e : Err) : Prop :=
  e0.kind = e.kind ∧ e0.msg = e.msg ∧ e0.loc.line = e.loc.line ∧ ((∀ name, e.kind ≠ .noSuchLanguage name) → e0.loc = e.loc)

theorem same_error {dflt text : Str} {e0 e : Err} {n0 n : Nat} (h0 : QAt dflt text n0 e0) (h1 : QAt dflt text n e) (h : e0.Like e) : SameError e0 e := by
  cases ha : e.aliasOf with
  | none =>
    have := h.loc ha
    exact ⟨h.kind, h.msg, by rw [this], fun _ => this⟩
  | some k =>
    obtain ⟨_, a2, name, a3⟩ := h1.2 k ha
    obtain ⟨_, b2, _⟩ := h0.2 k (by rw [h.alias, ha])
    exact ⟨h.kind, h.msg, by rw [a2, b2], fun hn => absurd a3 (hn name)⟩

/-- C47: with `stop_at_first_error` a classic text gives the same document if it has no error, and otherwise the error that is listed first without
it — provided that nothing else goes wrong later (C04). -/
theorem C47_stop_at_first_error (text : Str) (m : CState) (hm : m.Valid) (b : BState) :
    (∀ d, (parse ⟨classic, astBuilder, true⟩ text m b).1 = .ok d ↔ (parse ⟨classic, astBuilder, false⟩ text m b).1 = .ok d) ∧
    (∀ es, (parse ⟨classic, astBuilder, false⟩ text m b).1 = .error (.composite es) →
      ∃ e e0 rest, (parse ⟨classic, astBuilder, true⟩ text m b).1 = .error (.single e) ∧ es = e0 :: rest ∧ SameError e0 e) ∧
    (∀ e, (parse ⟨classic, astBuilder, true⟩ text m b).1 = .error (.single e) → ¬ HasBadLine text →
      ∃ e0 rest, (parse ⟨classic, astBuilder, false⟩ text m b).1 = .error (.composite (e0 :: rest)) ∧ SameError e0 e) := by
  obtain ⟨h1, h2, h3, _⟩ := C47_first_error (B := astBuilder) classic_lawful text m b
  have hs := parse_out true text hm b
  have hk := parse_out false text hm b
  have key : ∀ e es e0 rest, (parse ⟨classic, astBuilder, true⟩ text m b).1 = .error (.single e) →
      (parse ⟨classic, astBuilder, false⟩ text m b).1 = .error (.composite es) → es = e0 :: rest → e0.Like e → SameError e0 e := by
    intro e es e0 rest k1 k2 k3 k4
    rw [k1] at hs
    rw [k2] at hk
    cases hs with
    | single _ a =>
      cases hk with
      | composite a' =>
        obtain ⟨n, a⟩ := a
        obtain ⟨n0, a'⟩ := a' e0 (by rw [k3]; simp)
        exact same_error a' a k4
  refine ⟨h1, fun es he => ?_, fun e he hb => ?_⟩
  · obtain ⟨e, e0, rest, k1, k2, k3⟩ := h2 es he
    exact ⟨e, e0, rest, k1, k2, key e es e0 rest k1 he k2 k3⟩
  · rcases h3 e he with ⟨e0, rest, k1, k2⟩ | ⟨e0, rest, _, _, x, k⟩ | k
    · exact ⟨e0, rest, k1, key e _ e0 rest he k1 rfl k2⟩
    · rcases C04_no_other_exception text hb m hm b with ⟨d, h⟩ | ⟨es, _, h⟩ <;> rw [k] at h <;> simp at h
    · rcases C04_no_other_exception text hb m hm b with ⟨d, h⟩ | ⟨es, _, h⟩ <;> rw [k] at h <;> simp at h

/-- C47 for the Markdown matcher: same documents; the first error is the one raised. -/
theorem C47_markdown (text : Str) (m : MdState) (b : BState) :
    (∀ d, (parse ⟨markdown, astBuilder, true⟩ text m b).1 = .ok d ↔ (parse ⟨markdown, astBuilder, false⟩ text m b).1 = .ok d) ∧
    (∀ es, (parse ⟨markdown, astBuilder, false⟩ text m b).1 = .error (.composite es) →
      ∃ e e0 rest, (parse ⟨markdown, astBuilder, true⟩ text m b).1 = .error (.single e) ∧ es = e0 :: rest ∧ e0.Like e) :=
  ⟨(C47_first_error (B := astBuilder) markdown_lawful text m b).1, (C47_first_error (B := astBuilder) markdown_lawful text m b).2.1⟩

example : ∃ e, (parse ⟨classic, astBuilder, true⟩ Sample.bad Sample.en Sample.fresh).1 = .error (.single e) ∧
    (parse ⟨classic, astBuilder, false⟩ Sample.bad Sample.en Sample.fresh).1 = .error (.composite [e]) := by
  refine ⟨⟨.astBuilder, py"(6:7): inconsistent cell count within the table", ⟨6, some 7⟩, none⟩, ?_, ?_⟩ <;> decide +kernel

/-- The column of an unknown language differs: 3 when parsing stops at the first error, 1 in the list. -/
example : (parse ⟨classic, astBuilder, true⟩ py"  # language: xx\n" Sample.en Sample.fresh).1 =
      .error (.single ⟨.noSuchLanguage py"xx", py"(1:3): Language not supported: xx", ⟨1, some 3⟩, some 1⟩) ∧
    (parse ⟨classic, astBuilder, false⟩ py"  # language: xx\n" Sample.en Sample.fresh).1 =
      .error (.composite [⟨.noSuchLanguage py"xx", py"(1:3): Language not supported: xx", ⟨1, some 1⟩, some 1⟩]) := by
  constructor <;> decide +kernel

/-! ### C20: unknown languages -/

/-- C20: a language header with an unknown name makes parsing fail; the error is the first one, says "Language not supported" with the name, and
names the header's line. (If another line cannot be read at all, see C04, that exception comes instead of the list of errors.) -/
theorem C20_unknown_language (text : Str) (m : CState) (hm : m.Valid) (b : BState) (n : Nat) (name : Str) (h : HeaderAt text n name)
    (hd : dialectFor name = none) :
    (∃ e l, LineIs text n l ∧ (parse ⟨classic, astBuilder, true⟩ text m b).1 = .error (.single e) ∧ e.kind = .noSuchLanguage name ∧
      e.loc = ⟨n, some ((l.takeWhile isSpace).length + 1)⟩ ∧
      e.msg = posText n ((l.takeWhile isSpace).length + 1) ++ py"Language not supported: " ++ name) ∧
    ((∃ e l rest, LineIs text n l ∧ (parse ⟨classic, astBuilder, false⟩ text m b).1 = .error (.composite (e :: rest)) ∧
      e.kind = .noSuchLanguage name ∧ e.loc.line = n ∧
      e.msg = posText n ((l.takeWhile isSpace).length + 1) ++ py"Language not supported: " ++ name) ∨
     (HasBadLine text ∧ ∃ x, (parse ⟨classic, astBuilder, false⟩ text m b).1 = .error (.crash x))) := by
  obtain ⟨l, h1, h2, h3, h4⟩ := unknown_language hm h hd b
  have hl : LineIs text n l.text := by rw [← h2]; exact tokenLines_lineIs (source_mem h1) (Auto.sourceLines_noteof h1)
  have hE := (C48_error_positions true text m hm b _ (.inl h4)).1
  simp only [ErrorAt, Err.mkNoSuchLanguage] at hE
  obtain ⟨l', g1, g2, g3, g4, g5, g6⟩ := hE
  have hll : l' = l := by
    have hl' : LineIs text n l'.text := by rw [g2]; exact tokenLines_lineIs (source_mem g1) (Auto.sourceLines_noteof g1)
    have e1 : l'.text = l.text := by have := hl'.2.symm.trans hl.2; simpa using this
    cases l; cases l'; simp only [Line.mk.injEq]; simp only at e1 g2 h2; exact ⟨e1, by omega⟩
  subst hll
  have hfc : firstColumn l' = l'.indent + 1 := firstColumn_eq l'
  refine ⟨⟨_, l'.text, hl, h4, rfl, ?_, ?_⟩, ?_⟩
  · show (⟨n, some (l'.indent + 1)⟩ : Location) = _
    rw [← hfc]; rfl
  · rw [h2] at g6; exact g6
  · by_cases hb : HasBadLine text
    · rcases (C47_first_error (B := astBuilder) classic_lawful text m b).2.2.1 _ h4 with ⟨e0, rest, k1, k2⟩ | ⟨e0, rest, _, _, x, k⟩ | k
      · left
        have hE0 := parse_out false text hm b
        rw [k1] at hE0
        cases hE0 with
        | composite hc =>
          obtain ⟨n0, hc⟩ := hc e0 (by simp)
          refine ⟨e0, l'.text, rest, hl, k1, k2.kind, ?_, ?_⟩
          · exact (hc.2 n k2.alias).2.1
          · rw [k2.msg]; rw [h2] at g6; exact g6
      · exact .inr ⟨hb, x, k⟩
      · have := parse_out false text hm b
        rw [k] at this
        cases this with
        | single h _ => simp at h
    · obtain ⟨e0, rest, k1, k2⟩ := (C47_stop_at_first_error text m hm b).2.2 _ h4 hb
      left
      exact ⟨e0, l'.text, rest, hl, k1, k2.1, k2.2.2.1, by rw [k2.2.1]; rw [h2] at g6; exact g6⟩

/-- The header `  # language: xx` in line 2, after a comment. -/
example : HeaderAt py"# first\n  # language: xx \nFeature: y\n" 2 py"xx" ∧ dialectFor py"xx" = none := by
  refine ⟨⟨⟨py"  # language: xx \n", ⟨by simp, by decide +kernel⟩, by simp, ?_, ?_⟩, ?_⟩, by decide +kernel⟩
  · intro c hc; simp at hc; subst hc; left; decide
  · exact ⟨py"  ", py" ", [], py" ", py" \n", by simp [White, isSpace], by simp [White, isSpace], by simp [White], by simp [White, isSpace], by simp [White, isSpace], rfl⟩
  · intro k hk s hs
    have hk1 : k = 1 := by have := hs.1; omega
    subst hk1
    have : s = py"# first\n" := by
      have h2 := hs.2
      rw [show (splitLines py"# first\n  # language: xx \nFeature: y\n")[1 - 1]? = some py"# first\n" by decide +kernel] at h2
      simpa using h2.symm
    subst this
    right
    refine ⟨⟨[], py" first\n", by simp [White], rfl⟩, fun nm hnm => ?_⟩
    have : Classic.languageName py"# first\n" = some nm := languageName_iff.2 hnm
    rw [show Classic.languageName py"# first\n" = none by decide +kernel] at this
    simp at this

end Gherkin
