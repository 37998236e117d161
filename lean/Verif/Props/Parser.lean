import Verif.Proofs.Order
import Verif.Proofs.Grow
import Verif.Props.Samples

/-! C01, C02, C05, C06, C07: the parser as a whole. -/

namespace Gherkin

section
variable {σ ρ : Type}

/-- C01 (classic): `parse` ends — the model's fuel, one unit per line and one for the end of the text, never runs out — and
its main loop takes at most (number of lines + 1) tokens; each look-ahead, started in any state, ends as well. -/
theorem C01_classic_parse_terminates (B : Builder σ ρ) (stop : Bool) (text : Str) (m : CState) (b : σ) :
    (parse ⟨classic, B, stop⟩ text m b).1 ≠ .error .outOfFuel ∧
    (takes (parse ⟨classic, B, stop⟩ text m b).2.log).length ≤ (splitLines text).length + 1 ∧
    ∀ la c, (lookahead ⟨classic, B, stop⟩ la c).1 ≠ .error .outOfFuel :=
  ⟨parse_ne_fuel (cfg := ⟨classic, B, stop⟩) classic_lawful text m b,
   parse_takes (cfg := ⟨classic, B, stop⟩) classic_lawful text m b,
   fun la c => lookahead_ne_fuel (cfg := ⟨classic, B, stop⟩) classic_lawful la c⟩

/-- C01 (Markdown). -/
theorem C01_markdown_parse_terminates (B : Builder σ ρ) (stop : Bool) (text : Str) (m : MdState) (b : σ) :
    (parse ⟨markdown, B, stop⟩ text m b).1 ≠ .error .outOfFuel ∧
    (takes (parse ⟨markdown, B, stop⟩ text m b).2.log).length ≤ (splitLines text).length + 1 ∧
    ∀ la c, (lookahead ⟨markdown, B, stop⟩ la c).1 ≠ .error .outOfFuel :=
  ⟨parse_ne_fuel (cfg := ⟨markdown, B, stop⟩) markdown_lawful text m b,
   parse_takes (cfg := ⟨markdown, B, stop⟩) markdown_lawful text m b,
   fun la c => lookahead_ne_fuel (cfg := ⟨markdown, B, stop⟩) markdown_lawful la c⟩

/-- C02: with the classic matcher the main loop processes the lines of the text in source order, each once, the end-of-file
pseudo line last; a run that is cut short (eleventh error, `stop_at_first_error`, crash) has processed a prefix of them. -/
theorem C02_classic_lines_in_order (B : Builder σ ρ) (hB : B.Plain) (stop : Bool) (text : Str) (m : CState) (hm : m.Valid) (b : σ) :
    takes (parse ⟨classic, B, stop⟩ text m b).2.log <+: tokenLines text ∧
    (∀ r, (parse ⟨classic, B, stop⟩ text m b).1 = .ok r →
      takes (parse ⟨classic, B, stop⟩ text m b).2.log = tokenLines text) ∧
    (∀ es, (parse ⟨classic, B, stop⟩ text m b).1 = .error (.composite es) → es.length ≤ 10 →
      takes (parse ⟨classic, B, stop⟩ text m b).2.log = tokenLines text) := by
  have hs := parse_sim (stop := stop) hB text hm b
  have hp := pure_parse_takes (cfg := classicCfg B stop) (tokenLines_numbered text) m b
  have hlog : (parse ⟨classic, B, stop⟩ text m b).2.log = (Pure.parse (classicCfg B stop) (tokenLines text) m b).2.log := by
    have := congrArg Ctx.log hs.2; exact this
  rw [hlog, hs.1]
  exact ⟨hp.1, fun r h => hp.2.1 ⟨r, h⟩, hp.2.2⟩

/-- C05: when `parse` returns a document, there is a derivation tree of the grammar of gherkin.berp whose leaves, left to
right, are the lines of the text, each recognised by the matcher as a token of the leaf's kind; and these are exactly the
tokens handed to the builder. -/
theorem C05_accepted_text_is_derivation_tree (B : Builder σ ρ) (hB : B.Plain) (stop : Bool) (text : Str) (m : CState)
    (hm : m.Valid) (b : σ) (r : ρ) (h : (parse ⟨classic, B, stop⟩ text m b).1 = .ok r) :
    ∃ kids : List Tree,
      Conforms (.node .gherkinDocument kids) ∧
      (Tree.node .gherkinDocument kids).leaves.map (·.line) = tokenLines text ∧
      (Tree.node .gherkinDocument kids).leaves = builds (parse ⟨classic, B, stop⟩ text m b).2.log ∧
      ∀ t ∈ (Tree.node .gherkinDocument kids).leaves, ∃ k, t.type = some k ∧
        ∃ t0 m0 m1, t0.line = t.line ∧ Classic.matchKind k t0 m0 = (.ok true, t, m1) := by
  have ho := (C02_classic_lines_in_order B hB stop text m hm b).2.1 r h
  rcases hp : parse ⟨classic, B, stop⟩ text m b with ⟨x, c⟩
  rw [hp] at h ho
  simp only at h ho
  subst h
  obtain ⟨h1, h2, kids, hA⟩ := (parse_cases (cfg := ⟨classic, B, stop⟩) classic_lawful text m b).1 r c hp
  refine ⟨kids, hA.conforms, ?_, hA.leaves, ?_⟩
  · rw [hA.leaves, ← hA.lines, ho]
  · intro t ht
    rw [hA.leaves] at ht
    obtain ⟨_, k, hk, _, hb⟩ := hA.tokens t ht
    obtain ⟨t0, m0, m1, hl, hmt⟩ := hb
    exact ⟨k, hk, t0, m0, m1, hl, hmt⟩

/-- C05 (Markdown): the same, except that the lines are in source order only as far as the look-ahead keeps the order (C03). -/
theorem C05_markdown_accepted_text_is_derivation_tree (B : Builder σ ρ) (stop : Bool) (text : Str) (m : MdState) (b : σ) (r : ρ)
    (h : (parse ⟨markdown, B, stop⟩ text m b).1 = .ok r) :
    ∃ kids : List Tree,
      Conforms (.node .gherkinDocument kids) ∧
      (Tree.node .gherkinDocument kids).leaves.map (·.line) = takes (parse ⟨markdown, B, stop⟩ text m b).2.log ∧
      (Tree.node .gherkinDocument kids).leaves = builds (parse ⟨markdown, B, stop⟩ text m b).2.log := by
  rcases hp : parse ⟨markdown, B, stop⟩ text m b with ⟨x, c⟩
  rw [hp] at h
  simp only at h
  subst h
  obtain ⟨h1, h2, kids, hA⟩ := (parse_cases (cfg := ⟨markdown, B, stop⟩) markdown_lawful text m b).1 r c hp
  exact ⟨kids, hA.conforms, by rw [hA.leaves, ← hA.lines], hA.leaves⟩

/-- C06: the errors of a `CompositeParserException` are 1 to 11 with pairwise different messages. -/
theorem C06_error_list_bounded {μ : Type} (M : Matcher μ) (hM : M.Lawful) (B : Builder σ ρ) (stop : Bool) (text : Str) (m : μ) (b : σ)
    (es : List Err) (h : (parse ⟨M, B, stop⟩ text m b).1 = .error (.composite es)) :
    1 ≤ es.length ∧ es.length ≤ 11 ∧ (es.map (·.msg)).Nodup := by
  rcases hp : parse ⟨M, B, stop⟩ text m b with ⟨x, c⟩
  rw [hp] at h
  simp only at h
  subst h
  obtain ⟨h1, h2, h3, _⟩ := (parse_cases (cfg := ⟨M, B, stop⟩) hM text m b).2 es c hp
  exact ⟨h2, h3, h1⟩

/-- C06, second half: processing one token with at most ten (distinct) errors on record either leads on to the next token, with
the old errors kept in place and still at most ten of them, or ends the parse; if it ends it with a
`CompositeParserException`, that holds exactly eleven errors. -/
theorem C06_stops_at_eleventh {μ : Type} (M : Matcher μ) (hM : M.Lawful) (B : Builder σ ρ) (stop : Bool) (q : Nat) (t : Token)
    (c c' : Ctx μ σ) (hc : c.errors.length ≤ 10) (hd : (c.errors.map (·.msg)).Nodup) :
    (∀ q', matchToken ⟨M, B, stop⟩ q t c = (.ok q', c') →
      c.errors.map (·.msg) <+: c'.errors.map (·.msg) ∧ c'.errors.length ≤ 10 ∧ (c'.errors.map (·.msg)).Nodup) ∧
    (∀ es, matchToken ⟨M, B, stop⟩ q t c = (.error (.composite es), c') → es.length = 11 ∧ (es.map (·.msg)).Nodup) := by
  have h := matchToken_grows (cfg := ⟨M, B, stop⟩) hM q t c
  refine ⟨fun q' h' => ?_, fun es h' => ?_⟩
  · have := h.1 q' c' h'
    have h2 := this.2 ⟨hd, hc⟩
    exact ⟨this.1, h2.2, h2.1⟩
  · have := h.2 _ c' h' ⟨hd, hc⟩
    exact ⟨this.2.1, this.1⟩

/-- C07: with the collecting parser, a parse that ends without exception or crash in builder and matcher returns a document
exactly when no error is on record at its end; the error list only ever grows (C06), so an error at any line rules a document
out. A returned document comes with a builder that answered every single event without an error. -/
theorem C07_document_iff_no_error {μ : Type} (M : Matcher μ) (hM : M.Lawful) (B : Builder σ ρ) (text : Str) (m : μ) (b : σ) :
    ((∃ r, (parse ⟨M, B, false⟩ text m b).1 = .ok r) →
      (parse ⟨M, B, false⟩ text m b).2.errors = [] ∧ BuildsOk B (B.reset b) (parse ⟨M, B, false⟩ text m b).2.log) ∧
    ((∃ es, (parse ⟨M, B, false⟩ text m b).1 = .error (.composite es)) → (parse ⟨M, B, false⟩ text m b).2.errors ≠ []) := by
  rcases hp : parse ⟨M, B, false⟩ text m b with ⟨x, c⟩
  refine ⟨?_, ?_⟩
  · rintro ⟨r, h⟩
    simp only at h
    subst h
    obtain ⟨h1, h2, kids, hA⟩ := (parse_cases (cfg := ⟨M, B, false⟩) hM text m b).1 r c hp
    exact ⟨h1, hA.builds⟩
  · rintro ⟨es, h⟩
    simp only at h
    subst h
    intro h0
    have := parse_composite_errors (cfg := ⟨M, B, false⟩) hM hp
    rw [h0] at this
    subst this
    have := ((parse_cases (cfg := ⟨M, B, false⟩) hM text m b).2 _ c hp).2.1
    simp at this

end

example : Sample.en.Valid := ⟨by decide +kernel, by decide +kernel⟩
example : (parse ⟨classic, astBuilder, false⟩ Sample.text Sample.en Sample.fresh).1.toOption.isSome = true := by decide +kernel

end Gherkin
