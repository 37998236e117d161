import Verif.Proofs.FirstError2
import Verif.Props.Listing

/-! The completions. -/

namespace Gherkin

open Auto

/-- A line of a title keyword alone. -/
def titleText (kw : Str) : Str := kw ++ py":\n"

def dialectHas (d : Dialect) : Bool :=
  (d.feature.any fun f => !f.contains '\n' && Layout.kind d (titleText f) == .featureLine) &&
  (d.rule.any fun f => !f.contains '\n' && Layout.kind d (titleText f) == .ruleLine)

theorem dialects_have : dialects.all (fun p => dialectHas p.2) = true := by decide +kernel

theorem known_has {d : Dialect} (hd : d.Known) {k : Kind} (hk : k = .featureLine ∨ k = .ruleLine) :
    ∃ f, '\n' ∉ f ∧ Layout.kind d (titleText f) = k := by
  obtain ⟨name, h⟩ := hd
  have := List.all_eq_true.1 dialects_have _ (lookup_mem h)
  simp only [dialectHas, Bool.and_eq_true, List.any_eq_true, beq_iff_eq, Bool.not_eq_true', List.contains_eq_mem, decide_eq_false_iff_not] at this
  obtain ⟨⟨f, _, h1, h2⟩, g, _, g1, g2⟩ := this
  rcases hk with rfl | rfl
  · exact ⟨f, h1, h2⟩
  · exact ⟨g, g1, g2⟩

/-- Lines that end a file from a given state. -/
structure Closing (q : Nat) (m : CState) (ls : List Str) : Prop where
  shape : ∀ s ∈ ls, ∃ b, '\n' ∉ b ∧ s = b ++ ['\n']
  run : ∀ n, ∃ mv m', Run q m (linesFrom n ls ++ [⟨[], n + ls.length⟩]) mv 42 m' ∧ ∀ x ∈ mv, x.tok.type ≠ some .tableRow
  peek : q ∈ laStates → ∀ n la, Pure.peek la m (linesFrom n ls ++ [⟨[], n + ls.length⟩]) = .ok false

theorem eof_closes {m : CState} {q : Nat} (h : goes q .eof false false = some 42) (n : Nat) :
    ∃ mv m', Run q m [⟨[], n⟩] mv 42 m' ∧ ∀ x ∈ mv, x.tok.type ≠ some .tableRow := by
  obtain ⟨tr, h⟩ := eof_run (m := m) h n
  refine ⟨_, _, h, ?_⟩
  intro x hx
  simp only [List.mem_cons, List.not_mem_nil, or_false] at hx
  subst hx
  have : (tokOf m .eof [] n).type = some .eof := rfl
  rw [this]; simp

theorem closes_eof {m : CState} {q : Nat} (h : goes q .eof false false = some 42) (hq : q ∉ laStates) : Closing q m [] :=
  ⟨by simp, fun n => by simpa [linesFrom] using eof_closes h n, fun h => absurd h hq⟩

theorem closes_title {m : CState} {q : Nat} (hi : Inv q m) (hq : q ∉ openStates) (h0 : q ≠ 0) {k : Kind} (hk : k = .featureLine ∨ k = .ruleLine) {q' : Nat}
    (h1 : goes q k false false = some q') (h2 : goes q' .eof false false = some 42) : ∃ ls, Closing q m ls := by
  have ha : m.active = none := by
    cases hma : m.active with
    | none => rfl
    | some s => exact absurd (hi.active.2 (by rw [hma]; simp)) hq
  have hc : m.Calm := ⟨hi.valid, ha, hi.indent ha⟩
  obtain ⟨f, f1, f2⟩ := known_has hi.valid.known hk
  have hs : titleText f ≠ [] := by simp [titleText]
  have hkk : ∀ n, lineKind m.dialect ⟨titleText f, n⟩ = k := fun n => f2
  obtain ⟨_, tr, g1, g2⟩ := goes_some h1
  refine ⟨[titleText f], ?_, ?_, ?_⟩
  · intro s hs
    simp only [List.mem_cons, List.not_mem_nil, or_false] at hs
    subst hs
    refine ⟨f ++ [':'], ?_, by simp [titleText]⟩
    simp [f1]
  · intro n
    obtain ⟨mv, m', r1, r2⟩ := eof_closes (m := m) h2 (n + 1)
    have hl : Line.Sound ⟨titleText f, n⟩ := sound_plain hc.valid.known (hkk n) (by rcases hk with rfl | rfl <;> simp) (by rcases hk with rfl | rfl <;> simp)
    have hst := sel_step g1 hc hq (hkk n) (by rcases hk with rfl | rfl <;> simp) hl (by simpa [Line.isEof] using hs) (.inl h0)
      (rest := [⟨[], n + 1⟩]) (by rcases hk with rfl | rfl <;> simp)
    rcases hmm : Classic.matchKind k (Token.fresh ⟨titleText f, n⟩) m with ⟨r, t, m1⟩
    have hmt := match_true ha (l := ⟨titleText f, n⟩) (k := k) (by rcases hk with rfl | rfl <;> simp) (by rcases hk with rfl | rfl <;> simp) hl
      (by rw [← hkk n]; exact lineKind_fits _ _)
    rw [hmm] at hmt hst
    simp only at hmt hst
    subst hmt
    have hm1 : m1 = m := by
      rcases hk with rfl | rfl <;>
      · revert hmm
        simp only [Classic.matchKind, Classic.matchTitle]
        split
        · intro h; simp only [Prod.mk.injEq] at h; exact h.2.2.symm
        · simp
    have htt := matched_type hmm
    refine ⟨⟨q, tr, t⟩ :: mv, m', ?_, ?_⟩
    · simp only [linesFrom, List.cons_append, List.nil_append, List.length_cons, List.length_nil]
      refine .cons hst (by simpa [Line.isEof] using hs) ?_
      rw [g2, hm1]; exact r1
    · intro x hx
      rcases List.mem_cons.1 hx with rfl | hx
      · show t.type ≠ _
        rw [htt]; rcases hk with rfl | rfl <;> simp
      · exact r2 x hx
  · intro _ n la
    simp only [linesFrom, List.cons_append, List.nil_append]
    rw [peek_title hc f2 (by rcases hk with rfl | rfl <;> simp) (by rcases hk with rfl | rfl <;> simp) (by rcases hk with rfl | rfl <;> simp)
      (by rcases hk with rfl | rfl <;> simp) hs]
    rcases hk with rfl | rfl <;> cases la <;> rfl

theorem closes_doc {m : CState} {q : Nat} (hi : Inv q m) (hq : q ∈ openStates) : ∃ ls, Closing q m ls := by
  have ha := hi.active.1 hq
  cases hma : m.active with
  | none => exact absurd hma ha
  | some sep =>
    have hsep := hi.sep sep hma
    have hs : ∀ n, Line.startsWith ⟨sep ++ ['\n'], n⟩ sep = true := by rcases hsep with rfl | rfl <;> exact fun n => rfl
    have hne : sep ++ ['\n'] ≠ [] := by simp
    refine ⟨[sep ++ ['\n']], ?_, ?_, ?_⟩
    · intro s h
      simp only [List.mem_cons, List.not_mem_nil, or_false] at h
      subst h
      refine ⟨sep, ?_, rfl⟩
      rcases hsep with rfl | rfl <;> decide
    · intro n
      obtain ⟨row, ps, ps', h1, h2⟩ := open_row q hq
      have he : Line.isEof ⟨sep ++ ['\n'], n⟩ = false := by simp [Line.isEof]
      have hm : Classic.matchKind .docStringSeparator (Token.fresh ⟨sep ++ ['\n'], n⟩) m =
          (.ok true, tokOf m .docStringSeparator (sep ++ ['\n']) n, { m with active := none, indentToRemove := 0 }) := by
        have : (Token.fresh ⟨sep ++ ['\n'], n⟩).line = ⟨sep ++ ['\n'], n⟩ := rfl
        simp [tokOf, Classic.matchKind, Classic.matchDocSep, hma, Classic.matchSep, this, hs]
      have ht := matched_type hm
      have hst : step q ⟨sep ++ ['\n'], n⟩ [⟨[], n + 1⟩] m = some (⟨.docStringSeparator, none, ps, q + 1⟩, tokOf m .docStringSeparator (sep ++ ['\n']) n,
          { m with active := none, indentToRemove := 0 }) :=
        step_make h1 (pre := []) (post := [⟨.other, none, ps', q⟩]) h2 (by simp) hm (.inr he) (by simp)
      have hg : goes (q + 1) .eof false false = some 42 := by
        simp only [openStates, List.mem_cons, List.not_mem_nil, or_false] at hq
        rcases hq with rfl | rfl | rfl | rfl <;> decide +kernel
      obtain ⟨mv, m', r1, r2⟩ := eof_closes (m := { m with active := none, indentToRemove := 0 }) hg (n + 1)
      refine ⟨⟨q, ⟨.docStringSeparator, none, ps, q + 1⟩, tokOf m .docStringSeparator (sep ++ ['\n']) n⟩ :: mv, m', ?_, ?_⟩
      · simp only [linesFrom, List.cons_append, List.nil_append, List.length_cons, List.length_nil]
        exact .cons hst he r1
      · intro x hx
        rcases List.mem_cons.1 hx with rfl | hx
        · show (tokOf m .docStringSeparator (sep ++ ['\n']) n).type ≠ _
          rw [ht]; simp
        · exact r2 x hx
    · intro h
      exact absurd hq (tag_not_open q h).1

def rowOkC (q : Nat) : Bool :=
  openStates.contains q || (needLa q).isSome || (goes q .eof false false == some 42 && !laStates.contains q) ||
    (q != 0 && [Kind.featureLine, .ruleLine].any fun k => match goes q k false false with | some q' => goes q' .eof false false == some 42 | none => false)

theorem rows_okC : ∀ q ∈ allStates, rowOkC q = true := by decide +kernel

/-- From every state in which no tags wait for what has been seen, the file can be ended. -/
theorem closes {q : Nat} {row : StateRow} (hrow : table q = some row) {m : CState} (hi : Inv q m) (hn : needLa q = none) : ∃ ls, Closing q m ls := by
  by_cases hq : q ∈ openStates
  · exact closes_doc hi hq
  · have h := rows_okC q (mem_allStates hrow)
    unfold rowOkC at h
    have e1 : openStates.contains q = false := by simpa using hq
    rw [e1, hn] at h
    simp only [Option.isSome_none, Bool.false_or, Bool.or_eq_true, Bool.and_eq_true, beq_iff_eq, Bool.not_eq_true', bne_iff_ne, ne_eq, List.any_eq_true] at h
    rcases h with ⟨h1, h2⟩ | ⟨h0, k, hk, h⟩
    · exact ⟨[], closes_eof h1 (by simpa using h2)⟩
    · cases hg : goes q k false false with
      | none => rw [hg] at h; simp at h
      | some q' =>
        rw [hg] at h
        exact closes_title hi hq h0 (by simpa using hk) hg (by simpa using h)

end Gherkin
