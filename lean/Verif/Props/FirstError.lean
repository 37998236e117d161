import Verif.Proofs.FirstError5
import Verif.Props.Errors

/-! # C71: the first error is at the first line that cannot be right -/

namespace Gherkin

open Auto

theorem unevenRows_canon {ls : List Line} : UnevenRows (ls.map Line.canon) ↔ UnevenRows ls := by
  have hc : ∀ (c : Char), isEol c = false → ∀ l : Line, firstIs c l.canon = firstIs c l := by
    intro c h l
    rw [firstIs_iff, firstIs_iff, canon_startsWith l (p := [c]) (by intro x hx; simp at hx; rw [hx]; exact h)]
  have hb : ∀ l : Line, isBlankLine l.canon = isBlankLine l := by
    intro l
    rw [isBlankLine_iff, isBlankLine_iff, canon_blank]
  constructor
  · rintro ⟨a, r, b, r', c, x, y, h1, h2, h3, h4, h5, h6, h7⟩
    rw [List.append_assoc, List.map_eq_append_iff] at h1
    obtain ⟨a', s1, e1, rfl, k1⟩ := h1
    rw [List.cons_append, List.map_eq_cons_iff] at k1
    obtain ⟨r1, s2, rfl, rfl, k2⟩ := k1
    rw [List.map_eq_append_iff] at k2
    obtain ⟨b', s3, rfl, rfl, k3⟩ := k2
    rw [List.map_eq_cons_iff] at k3
    obtain ⟨r2, s4, rfl, rfl, rfl⟩ := k3
    rw [hc _ rfl] at h3 h4
    rw [canon_cells] at h5 h6
    refine ⟨a', r1, b', r2, s4, x, y, by simp [e1], ?_, h3, h4, h5, h6, h7⟩
    intro z hz
    have := h2 z.canon (List.mem_map.2 ⟨z, hz, rfl⟩)
    rwa [hb, hc _ rfl] at this
  · rintro ⟨a, r, b, r', c, x, y, rfl, h2, h3, h4, h5, h6, h7⟩
    refine ⟨a.map Line.canon, r.canon, b.map Line.canon, r'.canon, c.map Line.canon, x, y, by simp, ?_, by rw [hc _ rfl]; exact h3,
      by rw [hc _ rfl]; exact h4, by rw [canon_cells]; exact h5, by rw [canon_cells]; exact h6, h7⟩
    intro z hz
    obtain ⟨z', hz', rfl⟩ := List.mem_map.1 hz
    rw [hb, hc _ rfl]
    exact h2 z' hz'

theorem linesFrom_canon : ∀ (n : Nat) (ss : List Str), (linesFrom n ss).map Line.canon = linesFrom n (ss.map Blind.canonText)
  | _, [] => rfl
  | n, s :: ss => by
    simp only [linesFrom, List.map_cons, linesFrom_canon (n + 1) ss]
    rfl

theorem sourceLines_canon {s t : Str} (h : (splitLines s).map rstripEol = (splitLines t).map rstripEol) :
    (sourceLines s).map Line.canon = (sourceLines t).map Line.canon := by
  have e : ∀ u : Str, (splitLines u).map Blind.canonText = ((splitLines u).map rstripEol).map (· ++ ['\n']) := by
    intro u
    rw [List.map_map]
    apply List.map_congr_left
    intro x hx
    simp [Blind.canonText, splitLines_ne u x hx]
  rw [sourceLines_from, sourceLines_from, linesFrom_canon, linesFrom_canon, e, e, h]

/-- The lines before the error, completed: with the last line ended. -/
theorem viable_ended {text : Str} {m : CState} (hm : m.Valid) {b : BState} {e : Err}
    (h : (parse (classicCfg astBuilder true) text m b).1 = .error (.single e)) (hu : e.Unexpected)
    (hs : ((∃ ks, e.kind = .unexpectedEof ks) → AtLineStart text)) :
    ∃ more, (∀ stop b', ∃ toks, (parse (classicCfg formatter stop) (textBefore text e.loc.line ++ more) m b').1 = .ok toks) ∧
      ((∀ stop b', ∃ d, (parse (classicCfg astBuilder stop) (textBefore text e.loc.line ++ more) m b').1 = .ok d) ∨
        UnevenRows ((sourceLines text).take (e.loc.line - 1))) := by
  obtain ⟨pre, l, rest, mv, q, m', row, e1, e2, e3, e4, e5, e6, _⟩ := parse_unexpected astBuilder_apart astBuilder_plain hm h hu
  obtain ⟨p1, p2, p3⟩ := place_in e1
  have hn : e.loc.line - 1 = pre.length := by rw [e5, p2]; rfl
  obtain ⟨f1, f2, f3⟩ := full_but_last text
  have hfull : ∀ x ∈ (splitLines text).take pre.length, ∃ b, '\n' ∉ b ∧ x = b ++ ['\n'] := by
    intro x hx
    rcases p3 with ⟨_, k, _⟩ | ⟨k, _⟩
    · apply f1
      rw [List.dropLast_eq_take]
      exact List.take_subset_take_left _ (by omega) hx
    · exact f2 (hs (e6.1 k)) x (List.mem_of_mem_take hx)
  obtain ⟨more, mv2, m2, hrun, hno⟩ := complete hm e1 e2 e3 e4 hfull
  refine ⟨more, ?_, ?_⟩
  · intro stop b'
    rw [textBefore, hn]
    obtain ⟨_, _, h2⟩ := run_formatted hm hrun b'
    exact ⟨_, run_accepted formatter_plain hm hrun (formatter_ok _ _) h2⟩
  · by_cases hw : RowChain none (mv.map Move.tok)
    · left
      intro stop b'
      rw [textBefore, hn]
      refine run_parses hm hrun ?_ b' stop
      rw [List.map_append]
      refine rowChain_append ?_ hw
      intro t ht
      obtain ⟨x, hx, rfl⟩ := List.mem_map.1 ht
      exact hno x hx
    · right
      rw [hn, sourceLines_from, linesFrom_take, ← p1]
      exact (uneven_from (reach_toks e2)).1 hw

/-- **C71.** The lines before the first syntax error can be continued to a text the parser accepts: `more` can be put after them so that the tokens
of the whole are a document; and this document is built too, unless two rows before the error line have different numbers of cells. -/
theorem C71_lines_before {text : Str} {m : CState} (hm : m.Valid) {b : BState} {e : Err}
    (h : (parse (classicCfg astBuilder true) text m b).1 = .error (.single e)) (hu : e.Unexpected) :
    ∃ more, (∀ stop b', ∃ toks, (parse (classicCfg formatter stop) (textBefore text e.loc.line ++ more) m b').1 = .ok toks) ∧
      ((∀ stop b', ∃ d, (parse (classicCfg astBuilder stop) (textBefore text e.loc.line ++ more) m b').1 = .ok d) ∨
        UnevenRows ((sourceLines text).take (e.loc.line - 1))) := by
  by_cases hs : (∃ ks, e.kind = .unexpectedEof ks) → AtLineStart text
  · exact viable_ended hm h hu hs
  · obtain ⟨⟨ks, hk⟩, ha⟩ : (∃ ks, e.kind = .unexpectedEof ks) ∧ ¬ AtLineStart text := by
      by_cases hk : ∃ ks, e.kind = .unexpectedEof ks
      · exact ⟨hk, fun h => hs fun _ => h⟩
      · exact absurd (fun h => absurd h hk) hs
    have hne : text ≠ [] := fun h => ha (.inl h)
    have hl : text.getLast? ≠ some '\n' := by
      intro hl
      exact ha (.inr ⟨text.dropLast, by
        have := List.dropLast_append_getLast hne
        rw [List.getLast?_eq_some_getLast hne] at hl
        rw [Option.some.injEq] at hl
        rw [hl] at this
        exact this.symm⟩)
    have hsame := sameLines_final hne hl (e := ['\n']) (.inl rfl)
    have hch := hsame.chomped
    have hlen : (splitLines (text ++ ['\n'])).length = (splitLines text).length := by
      have := congrArg List.length hch
      simpa using this
    have h' : (parse (classicCfg astBuilder true) (text ++ ['\n']) m b).1 = .error (.single e) := by
      rw [C45_final hne hl (.inl rfl) true hm b]
      exact h
    have hline : e.loc.line = (splitLines text).length + 1 := by
      obtain ⟨pre, l, rest, mv, q, m', row, e1, e2, e3, e4, e5, e6, _⟩ := parse_unexpected astBuilder_apart astBuilder_plain hm h hu
      obtain ⟨p1, p2, p3⟩ := place_in e1
      rcases p3 with ⟨k, _⟩ | ⟨_, k, _⟩
      · rw [e6.2 ⟨ks, hk⟩] at k; simp at k
      · omega
    obtain ⟨more, h1, h2⟩ := viable_ended hm h' hu fun _ => .inr ⟨text, rfl⟩
    have hb1 : textBefore (text ++ ['\n']) e.loc.line = text ++ ['\n'] := by
      rw [textBefore, hline, Nat.add_sub_cancel, ← hlen, List.take_length]
      exact (full_but_last _).2.2
    have hb2 : textBefore text e.loc.line = text := by
      rw [textBefore, hline, Nat.add_sub_cancel, List.take_length]
      exact (full_but_last _).2.2
    rw [hb1, List.append_assoc] at h1 h2
    refine ⟨['\n'] ++ more, by rw [hb2]; exact h1, ?_⟩
    rw [hb2]
    rcases h2 with h2 | h2
    · exact .inl h2
    · right
      have e1 : ∀ u : Str, (splitLines u).length = (splitLines text).length → (sourceLines u).take (e.loc.line - 1) = sourceLines u := by
        intro u hu
        rw [hline, Nat.add_sub_cancel, ← hu]
        apply List.take_of_length_le
        rw [sourceLines_from, linesFrom_length]
        exact Nat.le_refl _
      rw [e1 _ rfl]
      rw [e1 _ hlen] at h2
      rw [← unevenRows_canon] at h2 ⊢
      rwa [← sourceLines_canon hch]

/-- **C71.** When a line is refused, every text with the same lines up to and including this one is refused there, with the same error: nothing that
could follow makes the line right. -/
theorem C71_error_line {text : Str} {m : CState} (hm : m.Valid) {b : BState} {e : Err}
    (h : (parse (classicCfg astBuilder true) text m b).1 = .error (.single e)) (hu : ∃ expected got, e.kind = .unexpectedToken expected got)
    {text' : Str} (hs : SameUpTo e.loc.line text text') :
    (parse (classicCfg astBuilder true) text' m b).1 = .error (.single e) ∧ ∀ d, (parse (classicCfg astBuilder false) text' m b).1 ≠ .ok d := by
  obtain ⟨pre, l, rest, mv, q, m', row, e1, e2, e3, e4, e5, e6, e7⟩ := parse_unexpected astBuilder_apart astBuilder_plain hm h (.inl hu)
  obtain ⟨p1, p2, p3⟩ := place_in e1
  have hl : l.isEof = false := by
    cases hl : l.isEof with
    | false => rfl
    | true =>
      obtain ⟨ks, hk⟩ := e6.1 hl
      obtain ⟨x, y, hk'⟩ := hu
      rw [hk] at hk'; simp at hk'
  rcases p3 with ⟨_, k1, k2⟩ | ⟨k, _⟩
  · have hn : e.loc.line = pre.length + 1 := by rw [e5, p2]
    obtain ⟨s1, s2⟩ := hs
    rw [hn] at s1 s2
    have ht : ∃ rest', tokenLines text' = pre ++ l :: rest' := by
      refine ⟨linesFrom (pre.length + 2) ((splitLines text').drop (pre.length + 1)) ++ [⟨[], (splitLines text').length + 1⟩], ?_⟩
      have hlen : ((splitLines text).take pre.length).length = pre.length := by
        rw [List.length_take]; omega
      rw [tokenLines_from]
      generalize [(⟨[], (splitLines text').length + 1⟩ : Line)] = z
      conv => lhs; rw [← List.take_append_drop (pre.length + 1) (splitLines text'), ← s2, k2]
      rw [List.append_assoc, linesFrom_append, hlen, ← p1, List.singleton_append, linesFrom]
      have hl' : (⟨l.text, 1 + pre.length⟩ : Line) = l := by
        rcases l with ⟨t, n⟩
        simp only at p2
        rw [p2, Nat.add_comm]
      have e2 : 1 + pre.length + 1 = pre.length + 2 := by omega
      rw [hl', e2]
      simp only [List.append_assoc, List.cons_append]
    obtain ⟨rest', ht⟩ := ht
    have h' := e7 hl text' rest' ht
    refine ⟨h', ?_⟩
    intro d hd
    have := ((C47_stop_at_first_error text' m hm b).1 d).2 hd
    rw [show (parse ⟨classic, astBuilder, true⟩ text' m b).1 = _ from h'] at this
    simp at this
  · rw [hl] at k; simp at k

/-- Whether a text is accepted depends neither on the error mode nor on the ids given before. -/
theorem accepted_any {text : Str} {m : CState} (hm : m.Valid) {stop : Bool} {b : BState} {d : Option Document}
    (h : (parse (classicCfg astBuilder stop) text m b).1 = .ok d) (b' : BState) (stop' : Bool) :
    ∃ d', (parse (classicCfg astBuilder stop') text m b').1 = .ok d' := by
  obtain ⟨_, _, _, hr', _⟩ := parse_doc classic_lawful stop h
  subst hr'
  obtain ⟨mv2, q2, m2, D2, r1, r2, r3, r4⟩ := accepted_doc hm h
  exact ⟨_, run_doc hm r1 r2 r3 b' stop'⟩

/-- **C71**, for the list of errors: when the first error of the list is a syntax error, the lines before it can be completed, and, when it is a
refused line, no text that begins with the lines up to this one is accepted. -/
theorem C71_first_in_list {text : Str} {m : CState} (hm : m.Valid) {b : BState} {e : Err} {es : List Err}
    (h : (parse (classicCfg astBuilder false) text m b).1 = .error (.composite (e :: es))) (hu : e.Unexpected) :
    (∃ more, (∀ stop b', ∃ toks, (parse (classicCfg formatter stop) (textBefore text e.loc.line ++ more) m b').1 = .ok toks) ∧
      ((∀ stop b', ∃ d, (parse (classicCfg astBuilder stop) (textBefore text e.loc.line ++ more) m b').1 = .ok d) ∨
        UnevenRows ((sourceLines text).take (e.loc.line - 1)))) ∧
    ((∃ expected got, e.kind = .unexpectedToken expected got) → ∀ text', SameUpTo e.loc.line text text' →
      ∀ stop b' d, (parse (classicCfg astBuilder stop) text' m b').1 ≠ .ok d) := by
  obtain ⟨e1, e0, rest, k1, k2, k3, _, k4, _⟩ := (C47_stop_at_first_error text m hm b).2.1 _ h
  rw [List.cons.injEq] at k2
  obtain ⟨rfl, _⟩ := k2
  have hu1 : e1.Unexpected := by
    rcases hu with ⟨x, y, h⟩ | ⟨x, h⟩
    · exact .inl ⟨x, y, by rw [← k3]; exact h⟩
    · exact .inr ⟨x, by rw [← k3]; exact h⟩
  refine ⟨?_, ?_⟩
  · rw [k4]
    exact C71_lines_before hm k1 hu1
  · intro hk text' hs stop b' d hd
    rw [k3] at hk
    rw [k4] at hs
    obtain ⟨_, h2⟩ := C71_error_line hm k1 hk hs
    obtain ⟨d', hd'⟩ := accepted_any hm hd b false
    exact h2 d' hd'

/-! ### Texts with syntax errors -/

/-- A line that may not stand where it stands: the last one. -/
def Sample.refused : Str := py"Feature: x\n  Scenario: y\n  Examples:\n    nothing\n    | a |\n  what?\n"

example : ∃ e, (parse (classicCfg astBuilder true) Sample.refused Sample.en Sample.fresh).1 = .error (.single e) ∧
    (∃ expected got, e.kind = .unexpectedToken expected got) ∧ e.loc.line = 6 ∧
    SameUpTo 6 Sample.refused (Sample.refused ++ py"Feature: z\n") ∧
    textBefore Sample.refused 6 = py"Feature: x\n  Scenario: y\n  Examples:\n    nothing\n    | a |\n" := by
  refine ⟨⟨.unexpectedToken [.eof, .tableRow, .tagLine, .examplesLine, .scenarioLine, .ruleLine, .comment, .empty] py"what?",
    py"(6:3): expected: #EOF, #TableRow, #TagLine, #ExamplesLine, #ScenarioLine, #RuleLine, #Comment, #Empty, got 'what?'", ⟨6, some 3⟩, none⟩,
    by decide +kernel, ⟨_, _, rfl⟩, rfl, ?_, ?_⟩
  · unfold SameUpTo; decide +kernel
  · decide +kernel

/-- A text that ends too early, with an unfinished line. -/
example : ∃ e, (parse (classicCfg astBuilder true) py"Feature: x\n  @tag" Sample.en Sample.fresh).1 = .error (.single e) ∧ e.Unexpected ∧ e.loc.line = 3 := by
  refine ⟨⟨.unexpectedEof [.tagLine, .ruleLine, .comment, .empty],
    py"(3:0): unexpected end of file, expected: #TagLine, #RuleLine, #Comment, #Empty", ⟨3, none⟩, none⟩, ?_, .inr ⟨_, rfl⟩, rfl⟩
  decide +kernel

/-- The exception of `C71_lines_before` is needed: here the lines before the error contain rows of different widths, the parser has not compared them
yet when it meets the bad line, and no continuation makes a document of them. -/
example : UnevenRows ((sourceLines py"Feature: x\n  Scenario: y\n    Given z\n      | a |\n      | b | c |\n  what?\n").take 5) := by
  refine ⟨(sourceLines py"Feature: x\n  Scenario: y\n    Given z\n").take 3, ⟨py"      | a |\n", 4⟩, [], ⟨py"      | b | c |\n", 5⟩, [],
    [⟨9, py"a"⟩], [⟨9, py"b"⟩, ⟨13, py"c"⟩], ?_⟩
  decide +kernel

end Gherkin
