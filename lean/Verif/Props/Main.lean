import Verif.Proofs.Shown
import Verif.Props.Stream

/-! C58: what `python -m gurke` prints. -/

namespace Gherkin

open JsonText

/-- A line of output for an event: printable ASCII characters that are a JSON text for the event's value. -/
def PrintedAs (line : Str) (e : Event) : Prop := ∃ v, e.shown = some v ∧ Text line v ∧ ∀ c ∈ line, 32 ≤ c.toNat ∧ c.toNat < 127

theorem printAll_spec (evs : List Event) : ∃ shown rest, evs = shown ++ rest ∧ List.Forall₂ PrintedAs (printAll evs).1 shown ∧
    ((rest = [] ∧ (printAll evs).2 = none) ∨ (∃ e more, rest = e :: more ∧ e.shown = none ∧ (printAll evs).2 = some .typeError)) := by
  induction evs with
  | nil => exact ⟨[], [], rfl, .nil, .inl ⟨rfl, rfl⟩⟩
  | cons e es ih =>
    have h := dumps_text e.toJson
    simp only [printAll]
    rcases hd : dumps e.toJson with c | s
    · rw [hd] at h
      exact ⟨[], e :: es, rfl, .nil, .inr ⟨e, es, rfl, by rw [← event_value]; exact h.1, by rw [h.2]⟩⟩
    · rw [hd] at h
      obtain ⟨v, h1, h2, h3⟩ := h
      obtain ⟨shown, rest, rfl, i1, i2⟩ := ih
      exact ⟨e :: shown, rest, rfl, .cons ⟨v, by rw [← event_value]; exact h1, h2, h3⟩ i1, i2⟩

/-- C58: the lines that `python -m gurke` prints are JSON texts for the first events of the stream, in order, each of printable ASCII
characters only (so that no line breaks inside). Either these are all events and the program ends as the stream ends, or the next event has
no JSON text and the program ends with `TypeError`. Missing: that all events are printed, which is false, since documents with a feature or
comment and parse errors have none. -/
theorem C58_printed_lines_partial (eng : Engine) (opt : StreamOptions) (files : List SourceFile) :
    ∃ shown rest, (stream eng opt files).1 = shown ++ rest ∧ List.Forall₂ PrintedAs (mainProgram eng opt files).1 shown ∧
      ((rest = [] ∧ (mainProgram eng opt files).2 = (stream eng opt files).2.1) ∨
       (∃ e more, rest = e :: more ∧ e.shown = none ∧ (mainProgram eng opt files).2 = some .typeError)) := by
  unfold mainProgram
  rcases hs : stream eng opt files with ⟨evs, crash, b⟩
  obtain ⟨shown, rest, h1, h2, h3⟩ := printAll_spec evs
  simp only
  rcases hp : printAll evs with ⟨out, c⟩
  rw [hp] at h2 h3
  refine ⟨shown, rest, h1, ?_, ?_⟩
  · cases c <;> exact h2
  · rcases h3 with ⟨a, b⟩ | ⟨e, more, a, b, d⟩
    · simp only at b; subst b; exact .inl ⟨a, rfl⟩
    · simp only at d; subst d; exact .inr ⟨e, more, a, b, rfl⟩

/-- C58: a line stands for one value: whoever reads it as JSON finds what was printed. -/
theorem C58_one_value (line : Str) (v w : Value) (hv : Text line v) (hw : Text line w) : v = w :=
  (text_unique hv hw (x := []) (y := []) rfl).2

/-- C58: with `--no-ast`, and only texts that parse, every event is printed. -/
theorem C58_without_ast (eng : Engine) (opt : StreamOptions) (hopt : opt.printAst = false) (files : List SourceFile)
    (hp : ∀ s ∈ files, ∃ d, aloneOutcome s.data = .ok (some d)) :
    List.Forall₂ PrintedAs (mainProgram eng opt files).1 (stream eng opt files).1 ∧
      (mainProgram eng opt files).2 = (stream eng opt files).2.1 := by
  have hall : ∀ b, ∀ e ∈ (streamFrom eng opt files b).1, e.shown ≠ none := by
    induction files with
    | nil => intro b e he; simp [streamFrom] at he
    | cons s ss ih =>
      intro b e he
      have h1 : ∀ e ∈ (enumEvents eng opt s b).1, e.shown ≠ none := by
        obtain ⟨d, hd⟩ := hp s (by simp)
        have := parseDefault_again b s.data
        unfold enumEvents
        rw [this, hd]
        simp only [Except.map, Option.map, hopt]
        intro e he
        have hsrc : ∀ e ∈ (if opt.printSource then [Event.source s] else []), e.shown ≠ none := by
          intro e he
          split at he
          · simp at he; subst he; simp [Event.shown]
          · simp at he
        split at he
        · split at he
          · simp only [Bool.false_eq_true, ↓reduceIte, List.append_nil, List.mem_append, List.mem_map] at he
            rcases he with he | ⟨p, _, rfl⟩
            · exact hsrc e he
            · simp [Event.shown]
          · simp only [Bool.false_eq_true, ↓reduceIte, List.append_nil] at he; exact hsrc e he
        · simp only [Bool.false_eq_true, ↓reduceIte, List.append_nil] at he; exact hsrc e he
      simp only [streamFrom] at he
      rcases hx : enumEvents eng opt s b with ⟨evs, c, b'⟩
      rw [hx] at he h1
      cases c with
      | some c => exact h1 e he
      | none =>
        simp only [List.mem_append] at he
        rcases he with he | he
        · exact h1 e he
        · exact ih (fun s hs => hp s (by simp [hs])) b' e he
  obtain ⟨shown, rest, h1, h2, h3⟩ := C58_printed_lines_partial eng opt files
  rcases h3 with ⟨rfl, h3⟩ | ⟨e, more, rfl, hn, _⟩
  · rw [h1, List.append_nil]; exact ⟨h2, h3⟩
  · exact absurd hn (hall newBuilder e (by show e ∈ (stream eng opt files).1; rw [h1]; simp))

/-- C58: as long as documents are asked for, the program does not survive the first text with a feature: after the source it ends with
`TypeError`, whatever other files there are. -/
theorem C58_feature_ends (eng : Engine) (opt : StreamOptions) (hopt : opt.printAst = true) (s : SourceFile) (files : List SourceFile) (d : Document)
    (hd : aloneOutcome s.data = .ok (some d)) (hf : d.feature ≠ none) :
    (mainProgram eng opt (s :: files)).2 = some .typeError ∧
      List.Forall₂ PrintedAs (mainProgram eng opt (s :: files)).1 (if opt.printSource then [.source s] else []) := by
  have hpre : ∃ post, (stream eng opt (s :: files)).1 = (if opt.printSource then [Event.source s] else []) ++ Event.document s.uri d :: post := by
    have h0 : parseDefault newBuilder s.data = (.ok (some d), (parseDefault newBuilder s.data).2) := by rw [← hd]; rfl
    have h1 : ∃ post, (enumEvents eng opt s newBuilder).1 = (if opt.printSource then [Event.source s] else []) ++ Event.document s.uri d :: post := by
      unfold enumEvents
      rw [h0]
      simp only [hopt, ↓reduceIte]
      split
      · split <;> simp
      · exact ⟨[], rfl⟩
    unfold stream streamFrom
    rcases hx : enumEvents eng opt s newBuilder with ⟨evs, c, b'⟩
    rw [hx] at h1
    obtain ⟨post, h1⟩ := h1
    cases c with
    | some c => exact ⟨post, h1⟩
    | none => simp only at h1 ⊢; rw [h1]; exact ⟨post ++ (streamFrom eng opt files b').1, by simp⟩
  obtain ⟨post, hpre⟩ := hpre
  obtain ⟨shown, rest, h1, h2, h3⟩ := C58_printed_lines_partial eng opt (s :: files)
  have hdoc : (Event.document s.uri d).shown = none := by simp [Event.shown, hf]
  rw [hpre] at h1
  have hshown : ∀ e ∈ shown, e.shown ≠ none := by
    intro e he hn
    generalize (mainProgram eng opt (s :: files)).1 = l at h2
    clear h1 h3
    induction h2 with
    | nil => simp at he
    | cons a _ ih =>
      rcases List.mem_cons.1 he with rfl | he
      · obtain ⟨v, hv, _⟩ := a; rw [hn] at hv; simp at hv
      · exact ih he
  have hsrc : ∀ e ∈ (if opt.printSource then [Event.source s] else []), e.shown ≠ none := by
    intro e he
    split at he
    · simp at he; subst he; simp [Event.shown]
    · simp at he
  have hb := block_unique (p := fun e : Event => e.shown ≠ none) h1.symm hshown hsrc
    (by
      rcases h3 with ⟨rfl, _⟩ | ⟨e, more, rfl, hn, _⟩
      · simp
      · simp [hn])
    (by simp [hdoc])
  rw [hb.1] at h2
  refine ⟨?_, h2⟩
  rcases h3 with ⟨rfl, _⟩ | ⟨e, more, rfl, hn, h⟩
  · exact absurd hb.2 (by simp)
  · exact h

/-- A text with a quotation mark, a letter outside ASCII, a character outside the basic plane and a backslash. -/
def Sample.printed : Str := py"Feature: \"ä\"\n  Scenario: s\n    * 𝄞 \\\n"

/-- C58: with the options as they are by default, the document of the sample is never printed. -/
theorem C58_false_by_default : (mainProgram Sample.noEngine ⟨true, true, true⟩ [⟨py"a", Sample.printed⟩]).2 = some .typeError ∧
    (mainProgram Sample.noEngine ⟨true, true, true⟩ [⟨py"a", Sample.printed⟩]).1 =
      [py"{\"source\": {\"uri\": \"a\", \"data\": \"Feature: \\\"\\u00e4\\\"\\n  Scenario: s\\n    * \\ud834\\udd1e \\\\\\n\", \"mediaType\": \"text/x.cucumber.gherkin+plain\"}}"] ∧
    (stream Sample.noEngine ⟨true, true, true⟩ [⟨py"a", Sample.printed⟩]).1.length = 3 := by decide +kernel

/-! Without documents both events are printed, and the text meets the hypotheses of both theorems. -/
example : (mainProgram Sample.noEngine ⟨true, false, true⟩ [⟨py"a", Sample.printed⟩]).2 = none ∧
    (mainProgram Sample.noEngine ⟨false, false, true⟩ [⟨py"a", Sample.printed⟩]).1 =
      [py"{\"pickle\": {\"astNodeIds\": [\"1\"], \"id\": \"3\", \"tags\": [], \"name\": \"s\", \"language\": \"en\", \"steps\": [{\"astNodeIds\": [\"0\"], \"id\": \"2\", \"type\": \"Unknown\", \"text\": \"\\ud834\\udd1e \\\\\"}], \"uri\": \"a\"}}"] := by
  decide +kernel
example : (match aloneOutcome Sample.printed with | .ok (some d) => d.feature.isSome | _ => false) = true := by decide +kernel
/-! A file that does not parse ends the program, even without documents: its events have no JSON text. -/
example : (mainProgram Sample.noEngine ⟨true, false, true⟩ [⟨py"a", py"x"⟩, ⟨py"b", Sample.printed⟩]) = ([], some .typeError) := by decide +kernel

end Gherkin
