import Verif.Proofs.FileStream
import Verif.Props.Errors
import Verif.Props.Robot

/-! # C65-C68: reading feature files -/

namespace Gherkin

/-! ### C65: Robot Framework -/

/-- **C65.** However a text is saved - with Unix or Windows line ends or a mixture, without or with a byte order mark - Robot gets the suite (or
the errors) of the text. -/
theorem C65_saved {t : Str} (ht : PlainText t) {bytes : ByteArray} (h : SavedAs t bytes) (eng : Engine) (printable : Char → Bool) (es : List DirEntry)
    (uri name : Str) : Robot.buildFile eng printable es uri name bytes = Robot.build eng printable es uri name t := by
  unfold Robot.buildFile
  rw [robotText_saved ht h]

/-- **C65**, for two files. -/
theorem C65_same_suite {t : Str} (ht : PlainText t) {bytes bytes' : ByteArray} (h : SavedAs t bytes) (h' : SavedAs t bytes') (eng : Engine)
    (printable : Char → Bool) (es : List DirEntry) (uri name : Str) :
    Robot.buildFile eng printable es uri name bytes = Robot.buildFile eng printable es uri name bytes' :=
  (C65_saved ht h ..).trans (C65_saved ht h' ..).symm

/-- **C65.** A file that is no UTF-8 text becomes one error entry in its first line; no exception leaves the builder. -/
theorem C65_undecodable {bytes : ByteArray} (h : NotUtf8 bytes) (eng : Engine) (printable : Char → Bool) (es : List DirEntry) (uri name : Str) :
    Robot.buildFile eng printable es uri name bytes = .ok (.errors [⟨1, 0, py"UnicodeDecodeError: "⟩], none) := by
  unfold Robot.buildFile robotText
  rw [decode_none.2 h]
  rfl

theorem no_crlf {t : Str} (h : '\r' ∉ t) : ¬ ['\r', '\n'] <:+: t := by
  rintro ⟨a, b, rfl⟩
  simp at h

/-- A text with an umlaut, saved with a byte order mark and mixed line ends: a suite comes out. -/
example : PlainText py"Feature: ä\n  Scenario: s\n    * x\n" ∧
    SavedAs py"Feature: ä\n  Scenario: s\n    * x\n" (py"\uFEFFFeature: ä\r\n  Scenario: s\n    * x\r\n").utf8Encode ∧
    (match Robot.build Sample.noEngine (fun _ => true) [] py"a" py"a.feature" py"Feature: ä\n  Scenario: s\n    * x\n" with
      | .ok (.suite _ [_], some nm) => nm == py"ä"
      | _ => false) = true := by
  refine ⟨⟨no_crlf (by decide), by decide⟩, ⟨py"Feature: ä\r\n  Scenario: s\n    * x\r\n", ?_, .inr rfl⟩, by decide +kernel⟩
  repeat first | exact EndsAs.nil | apply EndsAs.windows | apply EndsAs.unix | (refine EndsAs.char (by decide) ?_)

/-- A byte that no UTF-8 text has. -/
example : NotUtf8 ⟨#[0xFF]⟩ := by
  rw [← decode_none]
  decide +kernel

/-! ### C66: the command line program -/

/-- **C66.** A source event has the file's text without any change: encoded again it is the file, byte for byte. -/
theorem C66_lossless (uri : Str) (bytes : ByteArray) (s : SourceFile) :
    sourceEvent uri bytes = some s ↔ s.uri = uri ∧ s.data.utf8Encode = bytes := by
  unfold sourceEvent
  constructor
  · intro h
    obtain ⟨t, h1, rfl⟩ := Option.map_eq_some_iff.1 h
    exact ⟨rfl, (decode_iff.1 h1).symm⟩
  · rintro ⟨h1, h2⟩
    rw [decode_iff.2 h2.symm, ← h1]
    rfl

theorem go_split (eng : Engine) (opt : StreamOptions) : ∀ (files : List (Str × ByteArray)) (ss done : List SourceFile),
    List.Forall₂ (fun f s => sourceEvent f.1 f.2 = some s) files ss → ∀ rest,
    mainFiles.go eng opt (files ++ rest) done = mainFiles.go eng opt rest (ss.reverse ++ done) := by
  intro files
  induction files with
  | nil => intro ss done h rest; cases h; rfl
  | cons f fs ih =>
    intro ss done h rest
    cases h with
    | @cons _ s _ ss h1 h2 =>
      obtain ⟨u, x⟩ := f
      rw [List.cons_append, mainFiles.go]
      simp only at h1
      rw [h1]
      simp only
      rw [ih ss (s :: done) h2 rest]
      simp

/-- The program run on files that can be decoded. -/
theorem mainFiles_decoded (eng : Engine) (opt : StreamOptions) {files : List (Str × ByteArray)} {ss : List SourceFile}
    (h : List.Forall₂ (fun f s => sourceEvent f.1 f.2 = some s) files ss) :
    mainFiles eng opt files = ((mainProgram eng opt ss).1, (mainProgram eng opt ss).2.map .crash) := by
  have := go_split eng opt files ss [] h []
  rw [List.append_nil] at this
  unfold mainFiles
  rw [this]
  simp [mainFiles.go]

/-- Files of texts that differ in their line ends only. -/
def SameFile (f f' : Str × ByteArray) : Prop := f.1 = f'.1 ∧ ∃ s s' : Str, SameLines s s' ∧ f.2 = s.utf8Encode ∧ f'.2 = s'.utf8Encode

/-- **C66.** The line ends of the files do not change what is printed, except for the source events. -/
theorem C66_line_ends (eng : Engine) (opt : StreamOptions) (ho : opt.printSource = false) {files files' : List (Str × ByteArray)}
    (h : List.Forall₂ SameFile files files') : mainFiles eng opt files = mainFiles eng opt files' := by
  have key : ∃ ss ss', List.Forall₂ (fun f s => sourceEvent f.1 f.2 = some s) files ss ∧
      List.Forall₂ (fun f s => sourceEvent f.1 f.2 = some s) files' ss' ∧ List.Forall₂ SameSource ss ss' := by
    induction h with
    | nil => exact ⟨[], [], .nil, .nil, .nil⟩
    | @cons f f' fs fs' h _ ih =>
      obtain ⟨ss, ss', h1, h2, h3⟩ := ih
      obtain ⟨hu, s, s', hl, e1, e2⟩ := h
      exact ⟨⟨f.1, s⟩ :: ss, ⟨f'.1, s'⟩ :: ss', .cons ((C66_lossless ..).2 ⟨rfl, e1.symm⟩) h1, .cons ((C66_lossless ..).2 ⟨rfl, e2.symm⟩) h2,
        .cons ⟨hu, hl.chomped⟩ h3⟩
  obtain ⟨ss, ss', h1, h2, h3⟩ := key
  rw [mainFiles_decoded eng opt h1, mainFiles_decoded eng opt h2, main_same eng ho h3]

/-- **C66.** A file that is no UTF-8 text ends the program, after everything about the files before it has been printed; the files after it do
not matter. -/
theorem C66_undecodable (eng : Engine) (opt : StreamOptions) {before : List (Str × ByteArray)} (hb : ∀ f ∈ before, ¬ NotUtf8 f.2) (uri : Str)
    {bytes : ByteArray} (h : NotUtf8 bytes) (after : List (Str × ByteArray)) :
    (mainFiles eng opt (before ++ (uri, bytes) :: after)).1 = (mainFiles eng opt before).1 ∧
    (mainFiles eng opt (before ++ (uri, bytes) :: after)).2 = some (((mainFiles eng opt before).2).getD .undecodable) := by
  have key : ∃ ss, List.Forall₂ (fun f s => sourceEvent f.1 f.2 = some s) before ss := by
    induction before with
    | nil => exact ⟨[], .nil⟩
    | cons f fs ih =>
      obtain ⟨ss, hs⟩ := ih fun g hg => hb g (by simp [hg])
      cases hd : decodeUtf8 f.2 with
      | none => exact absurd (decode_none.1 hd) (hb f (by simp))
      | some t => exact ⟨⟨f.1, t⟩ :: ss, .cons (by simp [sourceEvent, hd]) hs⟩
  obtain ⟨ss, hs⟩ := key
  have h1 := go_split eng opt before ss [] hs ((uri, bytes) :: after)
  rw [mainFiles_decoded eng opt hs]
  unfold mainFiles
  rw [h1, mainFiles.go]
  simp [sourceEvent, decode_none.2 h]

example (text : Str) : SameFile (py"a", (toCrlf text).utf8Encode) (py"a", text.utf8Encode) := ⟨rfl, _, _, sameLines_crlf _, rfl, rfl⟩

/-- Nothing at all is printed about a file after one that is no text. -/
example : mainFiles Sample.noEngine ⟨true, true, true⟩ [(py"a", ⟨#[0xFF]⟩), (py"b", Sample.text.utf8Encode)] = ([], some .undecodable) := by
  have := C66_undecodable Sample.noEngine ⟨true, true, true⟩ (before := []) (by simp) py"a" (bytes := ⟨#[0xFF]⟩) (by rw [← decode_none]; decide +kernel)
    [(py"b", Sample.text.utf8Encode)]
  exact Prod.ext this.1 this.2

/-! ### C67: the byte order mark -/

/-- C67 holds for Robot: a byte order mark makes no difference. Missing: the command line program and `TokenScanner(path)`, for which it is false. -/
theorem C67_robot_partial {t : Str} (ht : PlainText t) (eng : Engine) (printable : Char → Bool) (es : List DirEntry) (uri name : Str) :
    Robot.buildFile eng printable es uri name ('\uFEFF' :: t).utf8Encode = Robot.buildFile eng printable es uri name t.utf8Encode :=
  have hr : EndsAs t t := by
    clear ht
    induction t with
    | nil => exact .nil
    | cons c cs ih =>
      by_cases hc : c = '\n'
      · subst hc; exact .unix ih
      · exact .char hc ih
  C65_same_suite ht ⟨t, hr, .inr rfl⟩ ⟨t, hr, .inl rfl⟩ ..

/-- The error about a first line that is neither a tag, feature, language or comment line nor empty. -/
def AboutFirstLine (e : Err) : Prop :=
  ∃ got, e.kind = .unexpectedToken [.eof, .language, .tagLine, .featureLine, .comment, .empty] got ∧ e.loc = ⟨1, some 1⟩

theorem bom_err (l : Str) : AboutFirstLine (Err.mkUnexpectedToken (Token.fresh ⟨bom :: l, 1⟩) state0.expected) := by
  have hi : (⟨bom :: l, 1⟩ : Line).indent = 0 := by
    simp [Line.indent, Line.trimmed, lstrip, lstripBy, show isSpace bom = false by decide]
  refine ⟨_, rfl, ?_⟩
  simp [Err.mkUnexpectedToken, Token.fresh, hi]

/-- C67 is false for the command line program: a text with a byte order mark is never parsed, whatever follows the mark. Unless another exception
leaves the parser (C04), the first error is about line 1, column 1. -/
theorem C67_bom_refused (text : Str) :
    (∀ d, aloneOutcome ('\uFEFF' :: text) ≠ .ok d) ∧
    (¬ HasBadLine ('\uFEFF' :: text) → ∃ e rest, aloneOutcome ('\uFEFF' :: text) = .error (.composite (e :: rest)) ∧ AboutFirstLine e) := by
  have hv : defaultMatcher.Valid := ⟨by decide +kernel, by decide +kernel⟩
  obtain ⟨l, ls, _, hp⟩ := parse_bom text hv newBuilder
  obtain ⟨h1, _, h3⟩ := C47_stop_at_first_error (bom :: text) defaultMatcher hv newBuilder
  have ha : aloneOutcome (bom :: text) = (parse ⟨classic, astBuilder, false⟩ (bom :: text) defaultMatcher newBuilder).1 := rfl
  change (∀ d, aloneOutcome (bom :: text) ≠ .ok d) ∧ (¬ HasBadLine (bom :: text) → _)
  rw [ha]
  constructor
  · intro d hd
    have := (h1 d).2 hd
    rw [hp] at this
    cases this
  · intro hb
    obtain ⟨e0, rest, k1, k2⟩ := h3 _ hp hb
    obtain ⟨got, g1, g2⟩ := bom_err l
    exact ⟨e0, rest, k1, got, k2.1.trans g1, (k2.2.2.2 (by rw [g1]; intro _ h; cases h)).trans g2⟩

/-- C67 is false for `parser.parse(TokenScanner(path))` as well, in both error modes. -/
theorem C67_scanner_refuses (text : Str) (stop : Bool) {m : CState} (hm : m.Valid) (b : BState) :
    ∃ r, parsePath (classicCfg astBuilder stop) ('\uFEFF' :: text).utf8Encode m b = some r ∧ ∀ d, r.1 ≠ .ok d := by
  have hu : universal (bom :: text) = bom :: universal text := rfl
  refine ⟨parse (classicCfg astBuilder stop) (bom :: universal text) m b, ?_, ?_⟩
  · unfold parsePath scannerText
    rw [decode_iff.2 rfl]
    exact congrArg (fun t => some (parse (classicCfg astBuilder stop) t m b)) hu
  · intro d hd
    obtain ⟨l, ls, _, hp⟩ := parse_bom (universal text) hm b
    have ht : (parse ⟨classic, astBuilder, true⟩ (bom :: universal text) m b).1 = .ok d := by
      cases stop with
      | true => exact hd
      | false => exact ((C47_stop_at_first_error _ m hm b).1 d).2 hd
    rw [hp] at ht
    cases ht

/-- A text that is parsed without the byte order mark and refused with it. -/
example : (∃ d, aloneOutcome py"Feature: a\n" = .ok (some d)) ∧ ¬ ∃ d, aloneOutcome ('\uFEFF' :: py"Feature: a\n") = .ok d :=
  ⟨by
    have : (match aloneOutcome py"Feature: a\n" with | .ok (some _) => true | _ => false) = true := by decide +kernel
    revert this
    split
    · exact fun _ => ⟨_, by assumption⟩
    · intro h; simp at h,
  fun ⟨d, h⟩ => (C67_bom_refused _).1 d h⟩

/-! ### C68: a path or its text -/

/-- C68 for files in which each `\r` is followed by `\n`: `parser.parse(TokenScanner(path))` gives the document or the errors of
`parser.parse(text)`. Missing: files with other `\r`, for which it is false. -/
theorem C68_path_partial {text : Str} (h : NoLoneCr text) (stop : Bool) {m : CState} (hm : m.Valid) (b : BState) :
    (parsePath (classicCfg astBuilder stop) text.utf8Encode m b).map (·.1) = some (parse (classicCfg astBuilder stop) text m b).1 := by
  unfold parsePath scannerText
  rw [decode_iff.2 rfl]
  simp only [Option.map_some, Option.some.injEq]
  exact (classic_chomped astBuilder_blind stop (ends_lines (universal_ends h)).symm hm b).1

/-- C68 for a file with `\r` inside a line. The text is one line, a feature; the file has two, a feature and a
scenario. -/
theorem C68_lone_cr :
    (∃ d, (parse (classicCfg astBuilder false) py"Feature: a\r  Scenario: b\n" Sample.en Sample.fresh).1 = .ok (some d) ∧
      d.feature.map (·.children.length) = some 0) ∧
    (∃ r d, parsePath (classicCfg astBuilder false) (py"Feature: a\r  Scenario: b\n").utf8Encode Sample.en Sample.fresh = some r ∧
      r.1 = .ok (some d) ∧ d.feature.map (·.children.length) = some 1) := by
  constructor
  · have : (match (parse (classicCfg astBuilder false) py"Feature: a\r  Scenario: b\n" Sample.en Sample.fresh).1 with
      | .ok (some d) => d.feature.map (·.children.length) == some 0 | _ => false) = true := by decide +kernel
    revert this
    split
    · exact fun h => ⟨_, by assumption, by simpa using h⟩
    · intro h; cases h
  · have hd : decodeUtf8 (py"Feature: a\r  Scenario: b\n").utf8Encode = some py"Feature: a\r  Scenario: b\n" := decode_iff.2 rfl
    have : (match (parse (classicCfg astBuilder false) (universal py"Feature: a\r  Scenario: b\n") Sample.en Sample.fresh).1 with
      | .ok (some d) => d.feature.map (·.children.length) == some 1 | _ => false) = true := by decide +kernel
    revert this
    split
    · intro h
      refine ⟨parse (classicCfg astBuilder false) (universal py"Feature: a\r  Scenario: b\n") Sample.en Sample.fresh, _, ?_, by assumption, by simpa using h⟩
      unfold parsePath scannerText
      rw [hd]
      rfl
    · intro h; cases h

theorem noLoneCr_cons {c : Char} {t : Str} (hc : c = '\r' → t.head? = some '\n') (h : NoLoneCr t) : NoLoneCr (c :: t) := by
  rintro (_ | ⟨x, a⟩) b hb
  · simp at hb
    rw [← hb.2]
    exact hc hb.1
  · simp at hb
    exact h a b hb.2

example : NoLoneCr py"Feature: a\r\n  Scenario: b\n" := by
  repeat first | exact (fun a b h => by simp at h) | refine noLoneCr_cons (by decide) ?_

end Gherkin
