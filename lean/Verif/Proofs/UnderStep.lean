import Verif.Proofs.Opaque
import Verif.Proofs.StepAt

/-! A doc string delimiter under a step opens a doc string of that step. -/

namespace Gherkin

open Cst

namespace Auto

theorem step_target {q : Nat} {row : StateRow} (h : table q = some row) {tr : Trans} (htr : tr ∈ row.trans) :
    (tr.kind = .stepLine → tr.target ∈ stepStates) ∧
    (q ∈ stepStates → (tr.kind = .comment ∨ tr.kind = .empty → tr.target = q) ∧ tr.kind ≠ .language ∧ tr.kind ≠ .other) := by
  have hq := rows_ok6 q (mem_allStates h)
  unfold rowOk6 at hq
  rw [h] at hq
  simp only [List.all_eq_true] at hq
  have := hq tr htr
  simp only [Bool.and_eq_true, Bool.or_eq_true, bne_iff_ne, ne_eq, Bool.not_eq_true', beq_iff_eq] at this
  obtain ⟨⟨⟨⟨⟨h1, h2⟩, h3⟩, h4⟩, h5⟩, h6⟩ := this
  refine ⟨fun hk => ?_, fun hs => ⟨fun hk => ?_, ?_, ?_⟩⟩
  · rcases h1 with h1 | h1
    · exact absurd hk h1
    · simpa using h1
  · have hc : stepStates.contains q = true := by simpa using hs
    rw [hc] at h2
    simp at h2
    rcases h2 with h2 | h2
    · rcases hk with hk | hk
      · exact absurd hk h2.1
      · exact absurd hk h2.2
    · exact h2
  · have hc : stepStates.contains q = true := by simpa using hs
    rw [hc] at h3; simpa using h3
  · have hc : stepStates.contains q = true := by simpa using hs
    rw [hc] at h4; simpa using h4

theorem stepStates_facts {q : Nat} (h : q ∈ stepStates) : q ∉ openStates ∧ q ≠ 0 := by
  simp only [stepStates, List.mem_cons, List.not_mem_nil, or_false] at h
  rcases h with rfl | rfl | rfl | rfl <;> decide

/-- In a state after a step a line that is not the end of the file is read as what it is. -/
theorem step_kind_after {q : Nat} {l : Line} {rest : List Line} {m m' : CState} {tr : Trans} {t : Token} (hi : Inv q m)
    (hq : q ∈ stepStates) (hne : l.isEof = false) (h : StepSpec q l rest m tr t m') : tr.kind = lineKind m.dialect l := by
  obtain ⟨f1, f2⟩ := stepStates_facts hq
  have ha : m.active = none := by
    apply Classical.byContradiction
    intro hc; exact f1 (hi.active.2 hc)
  obtain ⟨row, hrow, htr⟩ := step_row h
  rcases step_kind hi ha hne h with ⟨_, h0, _⟩ | ⟨h1, _⟩ | ⟨h1, _⟩
  · exact absurd h0 f2
  · exact h1
  · exact absurd h1 ((step_target hrow htr).2 hq).2.2

theorem run_under : ∀ {pre : List Line} {q : Nat} {m : CState} {l : Line} {post : List Line} {mv : List Move} {q' : Nat} {m' : CState},
    Run q m (pre ++ l :: post) mv q' m' → Src (pre ++ l :: post) → Inv q m → q ∈ stepStates → l.isEof = false →
    (∀ y ∈ pre, isBlankLine y = true ∨ firstIs '#' y = true) → docDelimiters.any (isDelim · l) = true →
    ∃ mvP z mv', mv = mvP ++ z :: mv' ∧ mvP.length = pre.length ∧ (∀ y ∈ mvP, y.tr.kind = .comment ∨ y.tr.kind = .empty) ∧
      z.tr.kind = .docStringSeparator := by
  intro pre
  induction pre with
  | nil =>
    intro q m l post mv q' m' h hs hi hq hne _ hd
    obtain ⟨l', rest, x, mv', m1, h1, h2, h3, h4, h5, _⟩ := run_cons h hs
    simp at h1
    rw [← h1.1, ← h1.2] at h4
    refine ⟨[], x, mv', by simpa using h2, rfl, by simp, ?_⟩
    rw [step_kind_after hi hq hne h4, lineKind_iff hi.valid.known (by simp)]
    exact hd
  | cons y pre ih =>
    intro q m l post mv q' m' h hs hi hq hne hp hd
    have hne' : y.isEof = false := by
      obtain ⟨src, e, g1, g2, g3⟩ := hs.shape
      cases hy : y.isEof with
      | false => rfl
      | true =>
        cases src with
        | nil => simp at g1
        | cons a src => simp at g1; rw [g1.1, g3 a (by simp)] at hy; simp at hy
    obtain ⟨l', rest, x, mv', m1, h1, h2, h3, h4, h5, h6⟩ := run_cons h hs
    simp at h1
    rw [← h1.1, ← h1.2] at h4
    have hk := step_kind_after hi hq hne' h4
    have hk' : x.tr.kind = .comment ∨ x.tr.kind = .empty := by
      rw [hk]
      rcases hp y (by simp) with hb | hb
      · right; simp [lineKind, hb]
      · left
        cases hbl : isBlankLine y with
        | false => simp [lineKind, hbl, hb]
        | true =>
          exfalso
          have h1 := (lineKind_iff (k := .empty) hi.valid.known (l := y) (by simp)).1 (by simp [lineKind, hbl])
          have h2 := fits_unique hi.valid.known (l := y) (k := .empty) (k' := .comment) h1 hb (by simp) (by simp)
          simp at h2
    obtain ⟨row, hrow, htr⟩ := step_row h4
    have htgt := ((step_target hrow htr).2 hq).1 hk'
    rcases h6 with ⟨h6, _⟩ | ⟨_, hs', hr⟩
    · rw [← h1.1, hne'] at h6; simp at h6
    have hi' := inv_step hi h4
    rw [htgt] at hr hi'
    rw [← h1.2] at hr hs'
    obtain ⟨mvP, z, mv2, g1, g2, g3, g4⟩ := ih hr hs' hi' hq hne (fun w hw => hp w (by simp [hw])) hd
    refine ⟨x :: mvP, z, mv2, by rw [h2, g1]; rfl, by simp [g2], ?_, g4⟩
    intro w hw
    simp at hw
    rcases hw with rfl | hw
    · exact hk'
    · exact g3 w hw

end Auto

/-- A doc string delimiter under a step, blank lines and comments apart, opens the doc string of the step. -/
theorem arg_under {text : Str} {m : CState} (hm : m.Valid) {stop : Bool} {b : BState} {d : Document}
    (h : (parse ⟨classic, astBuilder, stop⟩ text m b).1 = .ok (some d)) {s : Step} (hs : s ∈ d.steps) {pre post : List Line} {l : Line}
    (hl : linesAfter text s.loc.line = pre ++ l :: post) (hp : ∀ y ∈ pre, isBlankLine y = true ∨ firstIs '#' y = true)
    (hd : docDelimiters.any (isDelim · l) = true) : ∃ x, s.arg = .doc x ∧ x.loc.line = l.number := by
  obtain ⟨mv, q, m', D, hr, hD, ht, rfl⟩ := accepted_doc hm h
  have hsrc := Auto.tokenLines_src text
  have hinv := Auto.inv_start hm
  obtain ⟨S, hS, k, rfl⟩ := ast_steps hs
  obtain ⟨A, B, hAB, hTH⟩ := step_at hD hS
  have hok := csteps_ok hD hS
  have h1 : (mv.map (·.tok)).filter Token.isCore = A ++ S.line :: (S.arg.toks ++ B) := by rw [← ht, hAB]; simp [CStep.toks]
  obtain ⟨mv1, x, mv2, rfl, hx, h2, _⟩ := locate h1
  obtain ⟨l1, l0, l2, m1, m2, e1, e2, e3, e4, e5, e6, e7, e8⟩ := Auto.run_at hr hsrc hinv
  have hk : x.tr.kind = .stepLine := by
    have := Auto.matched_type e3.matched
    rw [hx, hok.1] at this
    simpa using this.symm
  obtain ⟨row, hrow, htr⟩ := Auto.step_row e3
  have hst := (Auto.step_target hrow htr).1 hk
  have hne0 : l0.isEof = false := by
    rcases e3.eof with h | h
    · rw [hk] at h; simp at h
    · exact h
  rcases e8 with ⟨h, _⟩ | ⟨_, hsrc2, hrun⟩
  · rw [hne0] at h; simp at h
  obtain ⟨n1, n2⟩ := lines_split e1
  have n3 := (n2 hsrc2.ne).1
  have hloc : S.line.loc.line = l0.number := by rw [← hx]; exact e4.2
  have hl' : l2.dropLast = pre ++ l :: post := by
    rw [← n3, ← hloc]; exact hl
  obtain ⟨post', hl2⟩ : ∃ post', l2 = pre ++ l :: post' := by
    refine ⟨post ++ [l2.getLast hsrc2.ne], ?_⟩
    conv => lhs; rw [← List.dropLast_append_getLast hsrc2.ne, hl']
    simp
  have hnel : l.isEof = false := by
    obtain ⟨src, e, g1, g2, g3⟩ := hsrc2.shape
    have : l ∈ src := by
      have : src = l2.dropLast := by rw [g1]; simp
      rw [this, hl']; simp
    exact g3 l this
  rw [hl2] at hrun hsrc2
  obtain ⟨mvP, z, mv', f1, f2, f3, f4⟩ := Auto.run_under hrun hsrc2 e6 hst hnel hp hd
  have hzt : z.tok.type = some .docStringSeparator := by
    have := Auto.run_types hrun z (by rw [f1]; simp)
    rw [this, f4]
  have hP : (mvP.map (·.tok)).filter Token.isCore = [] := by
    rw [List.filter_eq_nil_iff]
    intro t htm
    simp only [List.mem_map] at htm
    obtain ⟨y, hy, rfl⟩ := htm
    rw [isCore_kind (Auto.run_types hrun y (by rw [f1]; simp [hy]))]
    rcases f3 y hy with h | h <;> simp [h]
  rw [f1, List.map_append, List.filter_append, hP, List.map_cons, List.filter_cons, if_pos (by rw [isCore_kind hzt]; rfl)] at h2
  simp only [List.nil_append] at h2
  have hnum : z.tok.loc.line = l.number := by
    have hr' : Auto.Run 0 (Classic.reset m) (tokenLines text) ((mv1 ++ x :: mvP) ++ z :: mv') q m' := by
      rw [f1] at hr; simpa using hr
    rw [move_number hm hr']
    rw [hl2] at e1
    have e1' : tokenLines text = (l1 ++ l0 :: pre) ++ l :: post' := by rw [e1]; simp
    rw [(lines_split e1').1]
    simp [e2, f2]
  have ho := hok.2
  simp only [CStep.ast]
  cases ha : S.arg with
  | none =>
    rw [ha] at h2
    simp [Arg.toks] at h2
    exact absurd hzt (hTH z.tok (by rw [← h2]; simp)).2.2
  | table r rs =>
    rw [ha] at h2 ho
    simp [Arg.toks] at h2
    have := ho.1 r (by simp)
    rw [← h2.1, hzt] at this; simp at this
  | doc o ls c =>
    rw [ha] at h2
    simp [Arg.toks] at h2
    exact ⟨_, rfl, by rw [← hnum, h2.1]⟩

end Gherkin
