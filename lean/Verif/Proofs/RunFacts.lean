import Verif.Proofs.Auto

/-! Facts about single steps and whole runs of the line automaton: which transitions were passed over, when a doc string is open, which
dialect is in force. -/

namespace Gherkin

namespace Auto

/-- Only tag lines are looked ahead from. -/
def laOnTags (rows : List Trans) : Bool := rows.all fun tr => tr.la == none || tr.kind == .tagLine

/-- Why a transition was not taken. -/
def Passed (l : Line) (rest : List Line) (m : CState) (x : Trans) : Prop :=
  (x.kind ≠ .eof ∧ l.isEof = true) ∨ (Classic.matchKind x.kind (Token.fresh l) m).1 = .ok false ∨
    ∃ la, x.la = some la ∧ Pure.peek la m rest = .ok false ∧ (Classic.matchKind x.kind (Token.fresh l) m).1 = .ok true

theorem pick_spec {rest : List Line} {l : Line} {m : CState} : ∀ {rows : List Trans} {m' : CState} {tr : Trans} {t : Token},
    laOnTags rows = true → pick rows l rest m = some (tr, t, m') →
    ∃ pre post, rows = pre ++ tr :: post ∧ Classic.matchKind tr.kind (Token.fresh l) m = (.ok true, t, m') ∧
      (tr.kind = .eof ∨ l.isEof = false) ∧ (∀ la, tr.la = some la → Pure.peek la m rest = .ok true) ∧
      ∀ x ∈ pre, Passed l rest m x := by
  intro rows
  induction rows with
  | nil => intro m' tr t _ h; simp [pick] at h
  | cons tr0 trs ih =>
    intro m' tr t hla h
    simp only [laOnTags, List.all_cons, Bool.and_eq_true] at hla
    have lift : pick trs l rest m = some (tr, t, m') → Passed l rest m tr0 →
        ∃ pre post, tr0 :: trs = pre ++ tr :: post ∧ Classic.matchKind tr.kind (Token.fresh l) m = (.ok true, t, m') ∧
        (tr.kind = .eof ∨ l.isEof = false) ∧ (∀ la, tr.la = some la → Pure.peek la m rest = .ok true) ∧
        ∀ x ∈ pre, Passed l rest m x := by
      intro h hp
      obtain ⟨pre, post, h1, h2, h3, h4, h5⟩ := ih hla.2 h
      refine ⟨tr0 :: pre, post, by rw [h1]; rfl, h2, h3, h4, ?_⟩
      intro x hx
      rcases List.mem_cons.1 hx with rfl | hx
      · exact hp
      · exact h5 x hx
    simp only [pick] at h
    by_cases hk : tr0.kind ≠ .eof ∧ l.isEof = true
    · rw [if_pos hk] at h; exact lift h (.inl hk)
    · rw [if_neg hk] at h
      have hk' : tr0.kind = .eof ∨ l.isEof = false := by
        by_cases h1 : tr0.kind = .eof
        · exact .inl h1
        · exact .inr (by simpa [h1] using hk)
      rcases hm : Classic.matchKind tr0.kind (Token.fresh l) m with ⟨r, t0, m0⟩
      rw [hm] at h
      cases r with
      | error e => simp at h
      | ok b =>
        cases b with
        | false => simp only at h; exact lift h (.inr (.inl (by rw [hm])))
        | true =>
          simp only at h
          have fin : some (tr0, t0, m0) = some (tr, t, m') → (∀ la, tr0.la = some la → Pure.peek la m rest = .ok true) →
              ∃ pre post, tr0 :: trs = pre ++ tr :: post ∧ Classic.matchKind tr.kind (Token.fresh l) m = (.ok true, t, m') ∧
              (tr.kind = .eof ∨ l.isEof = false) ∧ (∀ la, tr.la = some la → Pure.peek la m rest = .ok true) ∧
              ∀ x ∈ pre, Passed l rest m x := by
            intro h hp
            simp only [Option.some.injEq, Prod.mk.injEq] at h
            obtain ⟨rfl, rfl, rfl⟩ := h
            exact ⟨[], trs, rfl, hm, hk', hp, by simp⟩
          cases hl : tr0.la with
          | none => rw [hl] at h; exact fin h (by simp [hl])
          | some la =>
            rw [hl] at h
            have htag : tr0.kind = .tagLine := by simpa [hl] using hla.1
            have hmm : m0 = m := by
              have := Classic.matchKind_state (k := tr0.kind) (by rw [htag]; simp) (by rw [htag]; simp) (Token.fresh l) m
              rw [hm] at this; exact this
            subst hmm
            simp only at h
            cases hp : Pure.peek la m0 rest with
            | error e => rw [hp] at h; simp at h
            | ok b =>
              rw [hp] at h
              cases b with
              | false => simp only at h; exact lift h (.inr (.inr ⟨la, hl, hp, by rw [hm]⟩))
              | true => exact fin h (by intro la' h'; rw [hl] at h'; cases h'; exact hp)

theorem pick_make {rest : List Line} {l : Line} {m m' : CState} {tr : Trans} {t : Token} : ∀ {pre post : List Trans},
    laOnTags pre = true →
    Classic.matchKind tr.kind (Token.fresh l) m = (.ok true, t, m') → (tr.kind = .eof ∨ l.isEof = false) →
    (∀ la, tr.la = some la → Pure.peek la m' rest = .ok true) → (∀ x ∈ pre, Passed l rest m x) →
    pick (pre ++ tr :: post) l rest m = some (tr, t, m') := by
  intro pre
  induction pre with
  | nil =>
    intro post _ h1 h2 h3 _
    have : ¬ (tr.kind ≠ .eof ∧ l.isEof = true) := by
      rintro ⟨a, b⟩
      rcases h2 with h2 | h2
      · exact a h2
      · rw [h2] at b; simp at b
    simp only [List.nil_append, pick]
    rw [if_neg this, h1]
    simp only
    cases hl : tr.la with
    | none => rfl
    | some la => simp only; rw [h3 la hl]
  | cons x pre ih =>
    intro post hla h1 h2 h3 h4
    simp only [laOnTags, List.all_cons, Bool.and_eq_true] at hla
    have ih' := ih (post := post) hla.2 h1 h2 h3 (fun y hy => h4 y (by simp [hy]))
    simp only [List.cons_append, pick]
    by_cases hk : x.kind ≠ .eof ∧ l.isEof = true
    · rw [if_pos hk]; exact ih'
    · rw [if_neg hk]
      rcases h4 x (by simp) with h | h | ⟨la, e1, e2, e3⟩
      · exact absurd h hk
      · have := Classic.matchKind_false h
        rcases hm : Classic.matchKind x.kind (Token.fresh l) m with ⟨r, t0, m0⟩
        rw [hm] at h this
        simp only at h this
        subst h
        simp only
        exact ih'
      · have htag : x.kind = .tagLine := by simpa [e1] using hla.1
        have hmm := Classic.matchKind_state (k := x.kind) (by rw [htag]; simp) (by rw [htag]; simp) (Token.fresh l) m
        rcases hm : Classic.matchKind x.kind (Token.fresh l) m with ⟨r, t0, m0⟩
        rw [hm] at e3 hmm
        simp only at e3 hmm
        subst e3; subst hmm
        simp only [e1, e2]
        exact ih'

/-! ### The table -/

/-- The states inside a doc string. -/
def openStates : List Nat := [43, 45, 47, 49]

/-- Static facts: look-ahead only on tag lines; a language line only from state 0 to 1; doc string separators enter and leave the
open states, everything else stays on its side; the open states know only separators and other lines. -/
def rowOk5 (q : Nat) : Bool :=
  match table q with
  | some row => laOnTags row.trans && row.trans.all fun tr =>
      (tr.kind != .language || (q == 0 && tr.target == 1)) &&
      (tr.kind != .docStringSeparator || (openStates.contains q != openStates.contains tr.target)) &&
      (tr.kind == .docStringSeparator || (openStates.contains q == openStates.contains tr.target)) &&
      (!openStates.contains q || tr.kind == .docStringSeparator || (tr.kind == .other && tr.target == q)) &&
      (tr.target != 0 || q == 0)
  | none => true

theorem rows_ok5 : ∀ q ∈ allStates, rowOk5 q = true := by decide +kernel

structure RowFacts (q : Nat) (tr : Trans) : Prop where
  lang : tr.kind = .language → q = 0 ∧ tr.target = 1
  sep : tr.kind = .docStringSeparator → (tr.target ∈ openStates ↔ q ∉ openStates)
  keep : tr.kind ≠ .docStringSeparator → (tr.target ∈ openStates ↔ q ∈ openStates)
  inside : q ∈ openStates → tr.kind = .docStringSeparator ∨ (tr.kind = .other ∧ tr.target = q)
  zero : tr.target = 0 → q = 0

theorem row_facts {q : Nat} {row : StateRow} (h : table q = some row) : laOnTags row.trans = true ∧ ∀ tr ∈ row.trans, RowFacts q tr := by
  have hq := rows_ok5 q (mem_allStates h)
  unfold rowOk5 at hq
  rw [h] at hq
  simp only [Bool.and_eq_true, List.all_eq_true] at hq
  refine ⟨hq.1, fun tr htr => ?_⟩
  obtain ⟨⟨⟨⟨h1, h2⟩, h3⟩, h4⟩, h5⟩ := hq.2 tr htr
  refine ⟨?_, ?_, ?_, ?_, ?_⟩
  · intro e; rw [e] at h1; simpa using h1
  · intro e; rw [e] at h2
    cases hb1 : openStates.contains q <;> cases hb2 : openStates.contains tr.target <;> rw [hb1, hb2] at h2 <;>
      simp_all
  · intro e
    have h3' : openStates.contains q = openStates.contains tr.target := by
      cases hk : (tr.kind == .docStringSeparator)
      · rw [hk] at h3; simpa using h3
      · exact absurd (by simpa using hk) e
    cases hb1 : openStates.contains q <;> rw [hb1] at h3' <;> simp_all
  · intro e
    have : openStates.contains q = true := by simpa using e
    rw [this] at h4
    simp at h4
    rcases h4 with h4 | h4
    · exact .inl h4
    · exact .inr h4
  · intro e; rw [e] at h5; simpa using h5

/-- What one step says. -/
structure StepSpec (q : Nat) (l : Line) (rest : List Line) (m : CState) (tr : Trans) (t : Token) (m' : CState) : Prop where
  row : ∃ row pre post, table q = some row ∧ row.trans = pre ++ tr :: post ∧ ∀ x ∈ pre, Passed l rest m x
  matched : Classic.matchKind tr.kind (Token.fresh l) m = (.ok true, t, m')
  eof : tr.kind = .eof ∨ l.isEof = false
  peek : ∀ la, tr.la = some la → Pure.peek la m rest = .ok true
  facts : RowFacts q tr

theorem step_spec {q : Nat} {l : Line} {rest : List Line} {m m' : CState} {tr : Trans} {t : Token}
    (h : step q l rest m = some (tr, t, m')) : StepSpec q l rest m tr t m' := by
  unfold step at h
  cases hq : table q with
  | none => rw [hq] at h; simp at h
  | some row =>
    rw [hq] at h
    simp only at h
    obtain ⟨f1, f2⟩ := row_facts hq
    obtain ⟨pre, post, h1, h2, h3, h4, h5⟩ := pick_spec f1 h
    exact ⟨⟨row, pre, post, hq, h1, h5⟩, h2, h3, h4, f2 tr (by rw [h1]; simp)⟩

/-- The token's type is the transition's kind. -/
theorem matched_type {k : Kind} {l : Line} {m m' : CState} {t : Token} (h : Classic.matchKind k (Token.fresh l) m = (.ok true, t, m')) :
    t.type = some k := by
  revert h
  cases k <;>
    simp only [Classic.matchKind, Classic.matchEof, Classic.matchEmpty, Classic.matchComment, Classic.matchTagLine, Classic.matchTitle,
      Classic.matchStep, Classic.matchDocSep, Classic.matchSep, Classic.matchTableRow, Classic.matchLanguage, Classic.matchOther] <;>
    (repeat' split) <;> simp <;> (try (intro h _; rw [← h]; rfl))

/-! ### The invariant of runs -/

/-- Matcher and state agree. -/
structure Inv (q : Nat) (m : CState) : Prop where
  valid : m.Valid
  active : q ∈ openStates ↔ m.active ≠ none
  sep : ∀ s, m.active = some s → s = Classic.quotes ∨ s = Classic.ticks
  indent : m.active = none → m.indentToRemove = 0

theorem docSep_cases {l : Line} {m m' : CState} {t : Token} (hs : ∀ s, m.active = some s → s = Classic.quotes ∨ s = Classic.ticks)
    (h : Classic.matchDocSep (Token.fresh l) m = (.ok true, t, m')) :
    (m.active = none ∧ ∃ s, (s = Classic.quotes ∨ s = Classic.ticks) ∧ l.startsWith s = true ∧
      m' = { m with active := some s, indentToRemove := l.indent } ∧
      t = setMatched m.dialectName (Token.fresh l) (some .docStringSeparator) (some (l.restTrimmed s.length)) (some s) none none []) ∨
    (∃ s, m.active = some s ∧ l.startsWith s = true ∧ m' = { m with active := none, indentToRemove := 0 } ∧
      t = setMatched m.dialectName (Token.fresh l) (some .docStringSeparator) none (some s) none none []) := by
  revert h
  unfold Classic.matchDocSep Classic.matchSep
  have hl : (Token.fresh l).line = l := rfl
  simp only [hl]
  cases ha : m.active with
  | none =>
    simp only
    intro h
    left
    refine ⟨trivial, ?_⟩
    split at h
    · rename_i h1
      simp only [if_true, Prod.mk.injEq] at h
      exact ⟨_, .inl rfl, h1, h.2.2.symm, h.2.1.symm⟩
    · split at h
      · rename_i h1
        simp only [if_true, Prod.mk.injEq] at h
        exact ⟨_, .inr rfl, h1, h.2.2.symm, h.2.1.symm⟩
      · simp at h
  | some s =>
    simp only
    intro h
    right
    refine ⟨s, rfl, ?_⟩
    split at h
    · rename_i h1
      simp only [Bool.false_eq_true, if_false, Prod.mk.injEq] at h
      exact ⟨h1, h.2.2.symm, h.2.1.symm⟩
    · simp at h

theorem inv_next {q : Nat} {l : Line} {m m' : CState} {tr : Trans} {t : Token} (hi : Inv q m)
    (hmm : Classic.matchKind tr.kind (Token.fresh l) m = (.ok true, t, m')) (hff : RowFacts q tr) : Inv tr.target m' := by
  have hv : m'.Valid := by
    have := Classic.matchKind_valid (k := tr.kind) (t := Token.fresh l) hi.valid
    rw [hmm] at this; exact this
  by_cases hk : tr.kind = .docStringSeparator
  · have hm := hmm
    rw [hk] at hm
    have hf := hff.sep hk
    rcases docSep_cases hi.sep hm with ⟨ha, s, hs, _, rfl, _⟩ | ⟨s, ha, _, rfl, _⟩
    · have hq : q ∉ openStates := by rw [hi.active, ha]; simp
      refine ⟨hv, ?_, ?_, ?_⟩
      · simp only [ne_eq, reduceCtorEq, not_false_eq_true, iff_true]; exact hf.2 hq
      · intro s' h'; simp at h'; subst h'; exact hs
      · simp
    · have hq : q ∈ openStates := by rw [hi.active, ha]; simp
      refine ⟨hv, ?_, ?_, ?_⟩
      · simp only [ne_eq, not_true_eq_false, iff_false]; intro h1; exact hf.1 h1 hq
      · simp
      · simp
  · have hf := hff.keep hk
    have ha : m'.active = m.active ∧ m'.indentToRemove = m.indentToRemove := by
      by_cases hl : tr.kind = .language
      · have hm := hmm
        rw [hl] at hm
        simp only [Classic.matchKind, Classic.matchLanguage] at hm
        split at hm
        · simp at hm
        · split at hm
          · simp only [Prod.mk.injEq] at hm; rw [← hm.2.2]; exact ⟨rfl, rfl⟩
          · simp at hm
      · have := Classic.matchKind_state hl hk (Token.fresh l) m
        rw [hmm] at this
        simp only at this
        rw [this]; exact ⟨rfl, rfl⟩
    refine ⟨hv, ?_, ?_, ?_⟩
    · rw [hf, ha.1]; exact hi.active
    · rw [ha.1]; exact hi.sep
    · rw [ha.1, ha.2]; exact hi.indent

theorem inv_step {q : Nat} {l : Line} {rest : List Line} {m m' : CState} {tr : Trans} {t : Token} (hi : Inv q m)
    (h : StepSpec q l rest m tr t m') : Inv tr.target m' := inv_next hi h.matched h.facts

theorem inv_start {m : CState} (h : m.Valid) : Inv 0 (Classic.reset m) := by
  have hr : (Classic.reset m).active = none := by unfold Classic.reset; rfl
  refine ⟨Classic.reset_valid h, ?_, ?_, ?_⟩
  · rw [hr]; simp [openStates]
  · rw [hr]; simp
  · intro _; unfold Classic.reset; rfl

end Auto

end Gherkin
