import Verif.Proofs.StepKind
import Verif.Proofs.DocStrings

/-! Descriptions: the lines after a title. -/

namespace Gherkin

open Cst

namespace Auto

/-- After state 0 the dialect stays. -/
theorem step_dialect {q : Nat} {l : Line} {rest : List Line} {m m' : CState} {tr : Trans} {t : Token}
    (h : StepSpec q l rest m tr t m') (hi : Inv q m) (hk : tr.kind ≠ .language) : m'.dialect = m.dialect ∧ m'.dialectName = m.dialectName := by
  by_cases hd : tr.kind = .docStringSeparator
  · have hm := h.matched
    rw [hd] at hm
    rcases docSep_cases hi.sep hm with ⟨_, _, _, _, rfl, _⟩ | ⟨_, _, _, rfl, _⟩ <;> exact ⟨rfl, rfl⟩
  · have := Classic.matchKind_state hk hd (Token.fresh l) m
    rw [h.matched] at this
    simp only at this
    rw [this]; exact ⟨rfl, rfl⟩

theorem run_dialect {q : Nat} {m : CState} {lines : List Line} {mv : List Move} {q' : Nat} {m' : CState} (h : Run q m lines mv q' m') :
    Inv q m → q ≠ 0 → m'.dialect = m.dialect ∧ m'.dialectName = m.dialectName := by
  induction h with
  | nil => intros; exact ⟨rfl, rfl⟩
  | last hs he =>
    intro hi h0
    have sp := step_spec hs
    exact step_dialect sp hi fun h => h0 (sp.facts.lang h).1
  | cons hs he hr ih =>
    intro hi h0
    have sp := step_spec hs
    obtain ⟨e1, e2⟩ := step_dialect sp hi fun h => h0 (sp.facts.lang h).1
    obtain ⟨e3, e4⟩ := ih (inv_step hi sp) fun h => h0 (sp.facts.zero h)
    exact ⟨e3.trans e1, e4.trans e2⟩

/-- The states after a title line, by part. -/
def titleStates : Part → List Nat
  | .feature => [3]
  | .rule => [23]
  | .background => [6, 26]
  | .scenario => [12, 32]
  | .examples => [18, 38]

/-- The kinds of lines that end a description. -/
def endKinds : Part → List Kind
  | .feature | .rule => [.comment, .tagLine, .scenarioLine, .ruleLine, .backgroundLine]
  | .background => [.comment, .tagLine, .scenarioLine, .ruleLine, .stepLine]
  | .scenario => [.comment, .tagLine, .scenarioLine, .ruleLine, .stepLine, .examplesLine]
  | .examples => [.comment, .tagLine, .scenarioLine, .ruleLine, .tableRow, .examplesLine]

def partKind : Part → Kind
  | .feature => .featureLine
  | .rule => .ruleLine
  | .background => .backgroundLine
  | .scenario => .scenarioLine
  | .examples => .examplesLine

def allParts : List Part := [.feature, .rule, .background, .scenario, .examples]

/-- No transition for other lines. -/
def noOther (q : Nat) : Bool := !(kindsOf q).contains .other

/-- Title lines lead to title states. In them blank lines stay, other lines lead to the next state, where all lines that do not end the
description stay. Every other line leads where there are no other lines before the next token that matters. -/
def rowOk8 (q : Nat) : Bool :=
  match table q with
  | some row =>
    (row.trans.all fun tr => allParts.all fun p => tr.kind != partKind p || (titleStates p).contains tr.target) &&
    (allParts.all fun p => !(titleStates p).contains q ||
      ((endKinds p).all fun k => (kindsOf q).contains k) && (kindsOf q).contains .empty &&
      (row.trans.all fun tr => tr.kind == .eof || (tr.kind == .empty && tr.target == q) || (tr.kind == .other && tr.target == q + 1) ||
        ((endKinds p).contains tr.kind && (tr.kind != .comment || noOther tr.target)))) &&
    (allParts.all fun p => !((titleStates p).map (· + 1)).contains q ||
      ((endKinds p).all fun k => (kindsOf q).contains k) &&
      (row.trans.all fun tr => tr.kind == .eof || (tr.kind == .other && tr.target == q) ||
        ((endKinds p).contains tr.kind && (tr.kind != .comment || noOther tr.target)))) &&
    (!noOther q || row.trans.all fun tr => (tr.kind != .empty && tr.kind != .comment) || noOther tr.target)
  | none => true

theorem rows_ok8 : ∀ q ∈ allStates, rowOk8 q = true := by decide +kernel

theorem mem_parts (p : Part) : p ∈ allParts := by cases p <;> simp [allParts]

theorem title_target {q : Nat} {row : StateRow} (h : table q = some row) {tr : Trans} (ht : tr ∈ row.trans) {p : Part}
    (hk : tr.kind = partKind p) : tr.target ∈ titleStates p := by
  have hq := rows_ok8 q (mem_allStates h)
  unfold rowOk8 at hq
  rw [h] at hq
  simp only [Bool.and_eq_true, List.all_eq_true] at hq
  have := hq.1.1.1 tr ht p (mem_parts p)
  rw [hk] at this
  simpa using this

structure TitleRow (p : Part) (q : Nat) (row : StateRow) : Prop where
  has : ∀ k ∈ endKinds p, k ∈ kindsOf q
  hasEmpty : Kind.empty ∈ kindsOf q
  each : ∀ tr ∈ row.trans, tr.kind = .eof ∨ (tr.kind = .empty ∧ tr.target = q) ∨ (tr.kind = .other ∧ tr.target = q + 1) ∨
    (tr.kind ∈ endKinds p ∧ (tr.kind = .comment → noOther tr.target = true))

theorem title_row {q : Nat} {row : StateRow} (h : table q = some row) {p : Part} (hp : q ∈ titleStates p) : TitleRow p q row := by
  have hq := rows_ok8 q (mem_allStates h)
  unfold rowOk8 at hq
  rw [h] at hq
  simp only [Bool.and_eq_true, List.all_eq_true] at hq
  have := hq.1.1.2 p (mem_parts p)
  rw [show (titleStates p).contains q = true from by simpa using hp] at this
  simp only [Bool.not_true, Bool.false_or, Bool.and_eq_true, List.all_eq_true] at this
  refine ⟨fun k hk => by simpa using this.1.1 k hk, by simpa using this.1.2, fun tr htr => ?_⟩
  have := this.2 tr htr
  simp only [Bool.or_eq_true, Bool.and_eq_true, beq_iff_eq, bne_iff_ne, ne_eq, List.contains_iff_mem] at this
  rcases this with ((h1 | h1) | h1) | h1
  · exact .inl h1
  · exact .inr (.inl h1)
  · exact .inr (.inr (.inl h1))
  · refine .inr (.inr (.inr ⟨h1.1, fun hc => ?_⟩))
    rcases h1.2 with h2 | h2
    · exact absurd hc h2
    · exact h2

structure DescRow (p : Part) (q : Nat) (row : StateRow) : Prop where
  has : ∀ k ∈ endKinds p, k ∈ kindsOf q
  each : ∀ tr ∈ row.trans, tr.kind = .eof ∨ (tr.kind = .other ∧ tr.target = q) ∨
    (tr.kind ∈ endKinds p ∧ (tr.kind = .comment → noOther tr.target = true))

theorem desc_row {q : Nat} {row : StateRow} (h : table q = some row) {p : Part} (hp : q ∈ (titleStates p).map (· + 1)) : DescRow p q row := by
  have hq := rows_ok8 q (mem_allStates h)
  unfold rowOk8 at hq
  rw [h] at hq
  simp only [Bool.and_eq_true, List.all_eq_true] at hq
  have := hq.1.2 p (mem_parts p)
  rw [show ((titleStates p).map (· + 1)).contains q = true from List.contains_iff_mem.2 hp] at this
  simp only [Bool.not_true, Bool.false_or, Bool.and_eq_true, List.all_eq_true] at this
  refine ⟨fun k hk => by simpa using this.1 k hk, fun tr htr => ?_⟩
  have := this.2 tr htr
  simp only [Bool.or_eq_true, Bool.and_eq_true, beq_iff_eq, bne_iff_ne, ne_eq, List.contains_iff_mem] at this
  rcases this with (h1 | h1) | h1
  · exact .inl h1
  · exact .inr (.inl h1)
  · refine .inr (.inr ⟨h1.1, fun hc => ?_⟩)
    rcases h1.2 with h2 | h2
    · exact absurd hc h2
    · exact h2

theorem noOther_keep {q : Nat} {row : StateRow} (h : table q = some row) {tr : Trans} (ht : tr ∈ row.trans) (hq : noOther q = true)
    (hk : tr.kind = .empty ∨ tr.kind = .comment) : noOther tr.target = true := by
  have hr := rows_ok8 q (mem_allStates h)
  unfold rowOk8 at hr
  rw [h] at hr
  simp only [Bool.and_eq_true, List.all_eq_true] at hr
  have := hr.2
  rw [hq] at this
  simp only [Bool.not_true, Bool.false_or, List.all_eq_true] at this
  have := this tr ht
  rcases hk with hk | hk <;> simpa [hk] using this

/-- Where there are no transitions for other lines, the next token that matters is none. -/
theorem run_noOther {q : Nat} {m : CState} {lines : List Line} {mv : List Move} {q' : Nat} {m' : CState} (h : Run q m lines mv q' m') :
    noOther q = true → NH ((mv.map (·.tok)).filter Token.isCore) := by
  have kind : ∀ {q l rest m tr t m'}, step q l rest m = some (tr, t, m') → noOther q = true → tr.kind ≠ .other := by
    intro q l rest m tr t m' hs hq hk
    obtain ⟨row, pre, post, hrow, htr, _⟩ := (step_spec hs).row
    unfold noOther kindsOf at hq
    rw [hrow] at hq
    simp only [Bool.not_eq_true', ← Bool.not_eq_true, List.contains_iff_mem, List.mem_map] at hq
    exact hq ⟨tr, by rw [htr]; simp, hk⟩
  induction h with
  | nil => intro _; simp [NH]
  | last hs he =>
    intro hq t ht
    simp only [List.map_cons, List.map_nil, List.filter_cons] at ht
    split at ht
    · simp at ht; subst ht; rw [matched_type (step_spec hs).matched]; simpa using kind hs hq
    · simp at ht
  | @cons q m l rest tr t' m1 mv1 q1 m2 hs he hr ih =>
    intro hq t ht
    have sp := step_spec hs
    have hty := matched_type sp.matched
    simp only [List.map_cons, List.filter_cons] at ht
    split at ht
    · simp at ht; subst ht; rw [hty]; simpa using kind hs hq
    · rename_i hc
      obtain ⟨row, pre, post, hrow, htr, _⟩ := sp.row
      have : tr.kind = .empty ∨ tr.kind = .comment := by
        rw [isCore_kind hty] at hc
        cases hk : tr.kind <;> simp [hk] at hc ⊢
      exact ih (noOther_keep hrow (tr := tr) (by rw [htr]; simp) hq this) t ht

theorem ends_iff {d : Dialect} (hd : d.Known) (p : Part) (l : Line) : ends d p l = true ↔ lineKind d l ∈ endKinds p := by
  have k1 := lineKind_iff hd (l := l) (k := .comment) (by simp)
  have k2 := lineKind_iff hd (l := l) (k := .tagLine) (by simp)
  have k3 := lineKind_iff hd (l := l) (k := .scenarioLine) (by simp)
  have k4 := lineKind_iff hd (l := l) (k := .ruleLine) (by simp)
  have k5 := lineKind_iff hd (l := l) (k := .backgroundLine) (by simp)
  have k6 := lineKind_iff hd (l := l) (k := .stepLine) (by simp)
  have k7 := lineKind_iff hd (l := l) (k := .examplesLine) (by simp)
  have k8 := lineKind_iff hd (l := l) (k := .tableRow) (by simp)
  simp only [fits, Dialect.titles] at k1 k2 k3 k4 k5 k6 k7 k8
  cases p <;>
    simp only [ends, endKinds, Bool.or_eq_true, List.mem_cons, List.not_mem_nil, or_false, k1, k2, k3, k4, k5, k6, k7, k8, or_assoc]

/-- What is left of a run when the description is over. -/
structure DescEnd (d : Dialect) (p : Part) (rest : List Line) (mv : List Move) : Prop where
  nh : NH ((mv.map (·.tok)).filter Token.isCore)
  stop : ∃ l ls, rest = l :: ls ∧ ((l.isEof = true ∧ ls = []) ∨ (l.isEof = false ∧ ends d p l = true ∧ isBlankLine l = false))

theorem state_parts (p : Part) : ∀ q ∈ titleStates p, q ≠ 0 ∧ q ∉ openStates ∧ q + 1 ∉ openStates := by cases p <;> decide

theorem step_row {q : Nat} {l : Line} {rest : List Line} {m m' : CState} {tr : Trans} {t : Token} (h : StepSpec q l rest m tr t m') :
    ∃ row, table q = some row ∧ tr ∈ row.trans := by
  obtain ⟨row, pre, post, hrow, htr, _⟩ := h.row
  exact ⟨row, hrow, by rw [htr]; simp⟩

/-- A move that ends the description. -/
theorem desc_end {q : Nat} {m : CState} {lines : List Line} {mv : List Move} {q' : Nat} {m' : CState} {p : Part} (hi : Inv q m)
    (ha : m.active = none) (h : Run q m lines mv q' m') (hs : Src lines) (h0 : q ≠ 0)
    (hk : ∀ x ∈ mv.head?, x.tr.kind = .eof ∨ (x.tr.kind ∈ endKinds p ∧ (x.tr.kind = .comment → noOther x.tr.target = true))) :
    DescEnd m.dialect p lines mv := by
  obtain ⟨l, rest, x, mv', m1, rfl, rfl, rfl, h2, h3, h4⟩ := run_cons h hs
  have hx := hk x (by simp)
  have hty := matched_type h2.matched
  refine ⟨?_, l, rest, rfl, ?_⟩
  · intro t ht
    simp only [List.map_cons, List.filter_cons] at ht
    split at ht
    · simp at ht; subst ht; rw [hty]
      rcases hx with hx | hx
      · simp [hx]
      · intro hc; simp at hc; rw [hc] at hx
        cases p <;> simp [endKinds] at hx
    · rename_i hc
      have hcom : x.tr.kind = .comment := by
        rw [isCore_kind hty] at hc
        rcases hx with hx | hx
        · simp [hx] at hc
        · have : x.tr.kind ≠ .empty := by
            intro hc; rw [hc] at hx; cases p <;> simp [endKinds] at hx
          simpa [this] using hc
      rcases hx with hx | hx
      · rw [hcom] at hx; simp at hx
      · rcases h4 with ⟨_, _, rfl, _⟩ | ⟨_, _, hr⟩
        · simp at ht
        · exact run_noOther hr (hx.2 hcom) t ht
  · rcases h4 with ⟨he, hr, _⟩ | ⟨he, _⟩
    · exact .inl ⟨he, hr⟩
    · right
      refine ⟨he, ?_⟩
      have hd := hi.valid.known
      have hke : x.tr.kind ≠ .eof := by
        intro hk
        have hm := h2.matched
        rw [hk] at hm
        have : (Token.fresh l).eof = l.isEof := rfl
        simp [Classic.matchKind, Classic.matchEof, this, he] at hm
      have hx' := hx.resolve_left hke
      have hlk : x.tr.kind = lineKind m.dialect l := by
        rcases step_kind hi ha he h2 with ⟨_, h, _⟩ | ⟨h, _⟩ | ⟨h, _⟩
        · exact absurd h h0
        · exact h
        · rw [h] at hx'; cases p <;> simp [endKinds] at hx'
      refine ⟨(ends_iff hd p l).2 (hlk ▸ hx'.1), ?_⟩
      cases hb : isBlankLine l with
      | false => rfl
      | true =>
        have : lineKind m.dialect l = .empty := (lineKind_iff hd (by simp)).2 hb
        rw [hlk, this] at hx'
        cases p <;> simp [endKinds] at hx'

/-- The rest of a description: all lines up to one that ends it. -/
theorem run_desc {p : Part} {q : Nat} (hq : q ∈ titleStates p) : ∀ {lines : List Line} {m : CState} {mv : List Move} {q' : Nat} {m' : CState},
    Run (q + 1) m lines mv q' m' → Src lines → Inv (q + 1) m → m.active = none →
    ∃ others rest mvO mvR, lines = others ++ rest ∧ mv = mvO ++ mvR ∧ (∀ l ∈ others, l.isEof = false ∧ ends m.dialect p l = false) ∧
      mvO.map (·.tok) = others.map (fun l => (Classic.matchOther (Token.fresh l) m).2.1) ∧ (∀ x ∈ mvO, x.tr.kind = .other) ∧
      DescEnd m.dialect p rest mvR := by
  intro lines
  induction lines with
  | nil => intro m mv q' m' h hs; exact absurd rfl hs.ne
  | cons l rest ih =>
    intro m mv q' m' h hs hi ha
    have hrun := h
    obtain ⟨l', rest', x, mv', m1, h0, rfl, hxs, h2, h3, h4⟩ := run_cons h hs
    simp only [List.cons.injEq] at h0
    obtain ⟨rfl, rfl⟩ := h0
    obtain ⟨row, hrow, htr⟩ := step_row h2
    have hqp : q + 1 ∈ (titleStates p).map (· + 1) := List.mem_map.2 ⟨q, hq, rfl⟩
    have dr := desc_row hrow hqp
    have fin : (x.tr.kind = .eof ∨ (x.tr.kind ∈ endKinds p ∧ (x.tr.kind = .comment → noOther x.tr.target = true))) →
        ∃ others rest1 mvO mvR, l :: rest = others ++ rest1 ∧ x :: mv' = mvO ++ mvR ∧
        (∀ l ∈ others, l.isEof = false ∧ ends m.dialect p l = false) ∧
        mvO.map (·.tok) = others.map (fun l => (Classic.matchOther (Token.fresh l) m).2.1) ∧ (∀ x ∈ mvO, x.tr.kind = .other) ∧
        DescEnd m.dialect p rest1 mvR := fun hk =>
      ⟨[], l :: rest, [], x :: mv', rfl, rfl, by simp, rfl, by simp,
        desc_end hi ha hrun hs (by simp) (by intro y hy; simp at hy; subst hy; exact hk)⟩
    rcases dr.each _ htr with he | ⟨ho, ht⟩ | he
    · exact fin (.inl he)
    · have hne : l.isEof = false := by
        rcases h2.eof with h | h
        · rw [ho] at h; simp at h
        · exact h
      rcases h4 with ⟨h4, _⟩ | ⟨_, hs', hr⟩
      · rw [hne] at h4; simp at h4
      have hm := h2.matched
      rw [ho] at hm
      have hmm : m1 = m := by
        simp only [Classic.matchKind, Classic.matchOther, Prod.mk.injEq] at hm
        exact hm.2.2.symm
      subst hmm
      have hd := hi.valid.known
      have hnot : ends m1.dialect p l = false := by
        cases he : ends m1.dialect p l with
        | false => rfl
        | true =>
          exfalso
          have hmem := (ends_iff hd p l).1 he
          rcases step_kind hi ha hne h2 with ⟨h, _⟩ | ⟨h, _⟩ | ⟨_, h⟩
          · rw [ho] at h; simp at h
          · rw [ho] at h; rw [← h] at hmem; cases p <;> simp [endKinds] at hmem
          · exact h (dr.has _ hmem)
      have hi' := inv_step hi h2
      rw [ht] at hr hi'
      obtain ⟨others, rest2, mvO, mvR, e1, e2, e3, e4, e5, e6⟩ := ih hr hs' hi' ha
      subst e1; subst e2
      refine ⟨l :: others, rest2, x :: mvO, mvR, rfl, rfl, ?_, ?_, ?_, e6⟩
      · intro y hy; rcases List.mem_cons.1 hy with rfl | hy
        · exact ⟨hne, hnot⟩
        · exact e3 y hy
      · simp only [List.map_cons, e4]
        simp only [Classic.matchKind] at hm
        rw [hm]
      · intro y hy; rcases List.mem_cons.1 hy with rfl | hy
        · exact ho
        · exact e5 y hy
    · exact fin (.inr he)

/-- After a title: blank lines, then the description. -/
theorem run_title {p : Part} {q : Nat} (hq : q ∈ titleStates p) : ∀ {lines : List Line} {m : CState} {mv : List Move} {q' : Nat} {m' : CState},
    Run q m lines mv q' m' → Src lines → Inv q m → m.active = none →
    ∃ blanks others rest mvB mvO mvR, lines = blanks ++ (others ++ rest) ∧ mv = mvB ++ (mvO ++ mvR) ∧
      (∀ l ∈ blanks, l.isEof = false ∧ isBlankLine l = true) ∧ (∀ x ∈ mvB, x.tr.kind = .empty) ∧
      (∀ l ∈ others.head?, isBlankLine l = false) ∧
      (∀ l ∈ others, l.isEof = false ∧ ends m.dialect p l = false) ∧
      mvO.map (·.tok) = others.map (fun l => (Classic.matchOther (Token.fresh l) m).2.1) ∧ (∀ x ∈ mvO, x.tr.kind = .other) ∧
      DescEnd m.dialect p rest mvR := by
  intro lines
  induction lines with
  | nil => intro m mv q' m' h hs; exact absurd rfl hs.ne
  | cons l rest ih =>
    intro m mv q' m' h hs hi ha
    have hrun := h
    obtain ⟨l', rest', x, mv', m1, h0, rfl, hxs, h2, h3, h4⟩ := run_cons h hs
    simp only [List.cons.injEq] at h0
    obtain ⟨rfl, rfl⟩ := h0
    obtain ⟨row, hrow, htr⟩ := step_row h2
    have tr := title_row hrow hq
    have hd := hi.valid.known
    have fin : (x.tr.kind = .eof ∨ (x.tr.kind ∈ endKinds p ∧ (x.tr.kind = .comment → noOther x.tr.target = true))) →
        ∃ blanks others rest1 mvB mvO mvR, l :: rest = blanks ++ (others ++ rest1) ∧ x :: mv' = mvB ++ (mvO ++ mvR) ∧
        (∀ l ∈ blanks, l.isEof = false ∧ isBlankLine l = true) ∧ (∀ x ∈ mvB, x.tr.kind = .empty) ∧
        (∀ l ∈ others.head?, isBlankLine l = false) ∧
        (∀ l ∈ others, l.isEof = false ∧ ends m.dialect p l = false) ∧
        mvO.map (·.tok) = others.map (fun l => (Classic.matchOther (Token.fresh l) m).2.1) ∧ (∀ x ∈ mvO, x.tr.kind = .other) ∧
        DescEnd m.dialect p rest1 mvR := fun hk =>
      ⟨[], [], l :: rest, [], [], x :: mv', rfl, rfl, by simp, by simp, by simp, by simp, rfl, by simp,
        desc_end hi ha hrun hs (state_parts p q hq).1 (by intro y hy; simp at hy; subst hy; exact hk)⟩
    rcases tr.each _ htr with he | ⟨ho, ht⟩ | ⟨ho, ht⟩ | he
    · exact fin (.inl he)
    · have hne : l.isEof = false := by
        rcases h2.eof with h | h
        · rw [ho] at h; simp at h
        · exact h
      rcases h4 with ⟨h4, _⟩ | ⟨_, hs', hr⟩
      · rw [hne] at h4; simp at h4
      have hm := h2.matched
      rw [ho] at hm
      have hmm : m1 = m := by
        have := Classic.matchKind_state (k := .empty) (by simp) (by simp) (Token.fresh l) m
        rw [hm] at this; exact this
      subst hmm
      have hb : isBlankLine l = true := fits_of_true ha (k := .empty) (by simp) (by simp) (by rw [hm])
      have hi' := inv_step hi h2
      rw [ht] at hr hi'
      obtain ⟨blanks, others, rest2, mvB, mvO, mvR, e1, e2, e3, e4, e5⟩ := ih hr hs' hi' ha
      subst e1; subst e2
      refine ⟨l :: blanks, others, rest2, x :: mvB, mvO, mvR, rfl, rfl, ?_, ?_, e5⟩
      · intro y hy; rcases List.mem_cons.1 hy with rfl | hy
        · exact ⟨hne, hb⟩
        · exact e3 y hy
      · intro y hy; rcases List.mem_cons.1 hy with rfl | hy
        · exact ho
        · exact e4 y hy
    · have hne : l.isEof = false := by
        rcases h2.eof with h | h
        · rw [ho] at h; simp at h
        · exact h
      rcases h4 with ⟨h4, _⟩ | ⟨_, hs', hr⟩
      · rw [hne] at h4; simp at h4
      have hm := h2.matched
      rw [ho] at hm
      have hmm : m1 = m := by
        simp only [Classic.matchKind, Classic.matchOther, Prod.mk.injEq] at hm
        exact hm.2.2.symm
      subst hmm
      have hlk : lineKind m1.dialect l ∉ endKinds p ∧ lineKind m1.dialect l ≠ .empty := by
        rcases step_kind hi ha hne h2 with ⟨h, _⟩ | ⟨h, _⟩ | ⟨_, h⟩
        · rw [ho] at h; simp at h
        · rw [ho] at h; rw [← h]; cases p <;> simp [endKinds]
        · exact ⟨fun hm => h (tr.has _ hm), fun he => h (he ▸ tr.hasEmpty)⟩
      have hnot : ends m1.dialect p l = false := by
        rw [← Bool.not_eq_true, ends_iff hd p l]; exact hlk.1
      have hnb : isBlankLine l = false := by
        cases hb : isBlankLine l with
        | false => rfl
        | true => exact absurd ((lineKind_iff hd (k := .empty) (by simp)).2 hb) hlk.2
      have hi' := inv_step hi h2
      rw [ht] at hr hi'
      obtain ⟨others, rest2, mvO, mvR, e1, e2, e3, e4, e5, e6⟩ := run_desc hq hr hs' hi' ha
      subst e1; subst e2
      refine ⟨[], l :: others, rest2, [], x :: mvO, mvR, rfl, rfl, by simp, by simp, ?_, ?_, ?_, ?_, e6⟩
      · intro y hy; simp at hy; subst hy; exact hnb
      · intro y hy; rcases List.mem_cons.1 hy with rfl | hy
        · exact ⟨hne, hnot⟩
        · exact e3 y hy
      · simp only [List.map_cons, e4]
        simp only [Classic.matchKind] at hm
        rw [hm]
      · intro y hy; rcases List.mem_cons.1 hy with rfl | hy
        · exact ho
        · exact e5 y hy
    · exact fin (.inr he)

end Auto

/-! ### The parts of a document -/

theorem ast_parts {D : CDoc} {cm : List Comment} {n : Nat} {p : Part} {loc : Location} {s : Str} (h : (p, loc, s) ∈ (D.ast cm n).1.parts) :
    ∃ line desc, (p, line, desc) ∈ D.parts ∧ loc = line.loc ∧ s = description desc := by
  have bg : ∀ (b : CBackground) (k : Nat), (p, loc, s) ∈ (b.ast k).1.parts → ∃ line desc, (p, line, desc) ∈ b.parts ∧ loc = line.loc ∧ s = description desc := by
    intro b k h
    simp only [Background.parts, CBackground.ast, List.mem_singleton, Prod.mk.injEq] at h
    exact ⟨b.line, b.desc, by simp [CBackground.parts, h.1], h.2⟩
  have ex : ∀ (b : CExamples) (k : Nat), (p, loc, s) ∈ (b.ast k).1.parts → ∃ line desc, (p, line, desc) ∈ b.parts ∧ loc = line.loc ∧ s = description desc := by
    intro b k h
    simp only [Examples.parts, CExamples.ast, List.mem_singleton, Prod.mk.injEq] at h
    exact ⟨b.line, b.desc, by simp [CExamples.parts, h.1], h.2⟩
  have sc : ∀ (b : CScenario) (k : Nat), (p, loc, s) ∈ (b.ast k).1.parts → ∃ line desc, (p, line, desc) ∈ b.parts ∧ loc = line.loc ∧ s = description desc := by
    intro b k h
    simp only [Scenario.parts, CScenario.ast, List.mem_cons, Prod.mk.injEq, List.mem_flatMap] at h
    rcases h with h | ⟨e, he, h⟩
    · exact ⟨b.line, b.desc, by simp [CScenario.parts, h.1], h.2⟩
    · obtain ⟨E, hE, k, rfl⟩ := thread_mem he
      obtain ⟨line, desc, h1, h2⟩ := ex E k h
      exact ⟨line, desc, by simp only [CScenario.parts, List.mem_cons, List.mem_flatMap]; exact .inr ⟨E, hE, h1⟩, h2⟩
  have ru : ∀ (b : CRule) (k : Nat), (p, loc, s) ∈ (b.ast k).1.parts → ∃ line desc, (p, line, desc) ∈ b.parts ∧ loc = line.loc ∧ s = description desc := by
    intro b k h
    simp only [RuleNode.parts, CRule.ast, List.mem_cons, Prod.mk.injEq, List.mem_flatMap, List.mem_append, List.mem_map, Option.mem_toList] at h
    rcases h with h | ⟨e, (⟨x, hx, rfl⟩ | ⟨x, hx, rfl⟩), h⟩
    · exact ⟨b.line, b.desc, by simp [CRule.parts, h.1], h.2⟩
    · obtain ⟨E, hE, k, rfl⟩ := threadOpt_mem hx
      obtain ⟨line, desc, h1, h2⟩ := bg E k h
      exact ⟨line, desc, by simp only [CRule.parts, List.mem_cons, List.mem_flatMap, List.mem_append]; exact .inr (.inl ⟨E, by simpa using hE, h1⟩), h2⟩
    · obtain ⟨E, hE, k, rfl⟩ := thread_mem hx
      obtain ⟨line, desc, h1, h2⟩ := sc E k h
      exact ⟨line, desc, by simp only [CRule.parts, List.mem_cons, List.mem_flatMap, List.mem_append]; exact .inr (.inr ⟨E, hE, h1⟩), h2⟩
  simp only [Document.parts, CDoc.ast, List.mem_flatMap, Option.mem_toList] at h
  obtain ⟨f, hf, h⟩ := h
  obtain ⟨F, hF, k, rfl⟩ := threadOpt_mem hf
  suffices ∃ line desc, (p, line, desc) ∈ F.parts ∧ loc = line.loc ∧ s = description desc by
    obtain ⟨line, desc, h1, h2⟩ := this
    exact ⟨line, desc, by simp only [CDoc.parts, List.mem_flatMap]; exact ⟨F, by simpa using hF, h1⟩, h2⟩
  simp only [Feature.parts, CFeature.ast, List.mem_cons, Prod.mk.injEq, List.mem_flatMap, List.mem_append, List.mem_map, Option.mem_toList] at h
  rcases h with h | ⟨e, ((⟨x, hx, rfl⟩ | ⟨x, hx, rfl⟩) | ⟨x, hx, rfl⟩), h⟩
  · exact ⟨F.line, F.desc, by simp [CFeature.parts, h.1], h.2⟩
  · obtain ⟨E, hE, k, rfl⟩ := threadOpt_mem hx
    obtain ⟨line, desc, h1, h2⟩ := bg E k h
    exact ⟨line, desc, by simp only [CFeature.parts, List.mem_cons, List.mem_flatMap, List.mem_append]; exact .inr (.inl (.inl ⟨E, by simpa using hE, h1⟩)), h2⟩
  · obtain ⟨E, hE, k, rfl⟩ := thread_mem hx
    obtain ⟨line, desc, h1, h2⟩ := sc E k h
    exact ⟨line, desc, by simp only [CFeature.parts, List.mem_cons, List.mem_flatMap, List.mem_append]; exact .inr (.inl (.inr ⟨E, hE, h1⟩)), h2⟩
  · obtain ⟨E, hE, k, rfl⟩ := thread_mem hx
    obtain ⟨line, desc, h1, h2⟩ := ru E k h
    exact ⟨line, desc, by simp only [CFeature.parts, List.mem_cons, List.mem_flatMap, List.mem_append]; exact .inr (.inr ⟨E, hE, h1⟩), h2⟩

/-- The title line of a part has the part's kind, and its description consists of other lines. -/
theorem parts_ok {D : CDoc} (hD : D.Ok) {p : Part} {line : Token} {desc : List Token} (h : (p, line, desc) ∈ D.parts) :
    line.type = some (Auto.partKind p) ∧ DescOk desc := by
  have bg : ∀ b : CBackground, b.Ok → (p, line, desc) ∈ b.parts → line.type = some (Auto.partKind p) ∧ DescOk desc := by
    intro b hb h
    simp only [CBackground.parts, List.mem_singleton, Prod.mk.injEq] at h
    obtain ⟨rfl, rfl, rfl⟩ := h
    exact ⟨hb.1, hb.2.1⟩
  have ex : ∀ b : CExamples, b.Ok → (p, line, desc) ∈ b.parts → line.type = some (Auto.partKind p) ∧ DescOk desc := by
    intro b hb h
    simp only [CExamples.parts, List.mem_singleton, Prod.mk.injEq] at h
    obtain ⟨rfl, rfl, rfl⟩ := h
    exact ⟨hb.2.1, hb.2.2.1⟩
  have sc : ∀ b : CScenario, b.Ok → (p, line, desc) ∈ b.parts → line.type = some (Auto.partKind p) ∧ DescOk desc := by
    intro b hb h
    simp only [CScenario.parts, List.mem_cons, Prod.mk.injEq, List.mem_flatMap] at h
    rcases h with ⟨rfl, rfl, rfl⟩ | ⟨e, he, h⟩
    · exact ⟨hb.2.1, hb.2.2.1⟩
    · exact ex e (hb.2.2.2.2 e he) h
  have ru : ∀ b : CRule, b.Ok → (p, line, desc) ∈ b.parts → line.type = some (Auto.partKind p) ∧ DescOk desc := by
    intro b hb h
    simp only [CRule.parts, List.mem_cons, Prod.mk.injEq, List.mem_flatMap, List.mem_append, Option.mem_toList] at h
    rcases h with ⟨rfl, rfl, rfl⟩ | ⟨e, he, h⟩ | ⟨e, he, h⟩
    · exact ⟨hb.2.1, hb.2.2.1⟩
    · exact bg e (hb.2.2.2.1 e he) h
    · exact sc e (hb.2.2.2.2 e he) h
  simp only [CDoc.parts, List.mem_flatMap, Option.mem_toList] at h
  obtain ⟨f, hf, h⟩ := h
  have hb := hD.1 f hf
  simp only [CFeature.parts, List.mem_cons, Prod.mk.injEq, List.mem_flatMap, List.mem_append, Option.mem_toList] at h
  rcases h with ⟨rfl, rfl, rfl⟩ | ((⟨e, he, h⟩ | ⟨e, he, h⟩) | ⟨e, he, h⟩)
  · exact ⟨hb.2.2.1, hb.2.2.2.1⟩
  · exact bg e (hb.2.2.2.2.1 e he) h
  · exact sc e (hb.2.2.2.2.2.1 e he) h
  · exact ru e (hb.2.2.2.2.2.2 e he) h

theorem dropWhile_block {α : Type} {p : α → Bool} {a b : List α} (ha : ∀ x ∈ a, p x = true) (hb : ∀ x ∈ b.head?, p x = false) :
    (a ++ b).dropWhile p = b := by
  induction a with
  | nil =>
    cases b with
    | nil => rfl
    | cons y ys => simp [hb y (by simp)]
  | cons x xs ih => simp [ha x (by simp), ih fun y hy => ha y (by simp [hy])]

theorem takeWhile_block {α : Type} {p : α → Bool} {a b : List α} (ha : ∀ x ∈ a, p x = true) (hb : ∀ x ∈ b.head?, p x = false) :
    (a ++ b).takeWhile p = a := by
  induction a with
  | nil =>
    cases b with
    | nil => rfl
    | cons y ys => simp [hb y (by simp)]
  | cons x xs ih => simp [ha x (by simp), ih fun y hy => ha y (by simp [hy])]

theorem other_plain {l : Line} {m : CState} (ha : m.active = none) (hi : m.indentToRemove = 0) :
    textOf (Classic.matchOther (Token.fresh l) m).2.1 = chomp l.text := by
  have hl : (Token.fresh l).line = l := rfl
  simp only [Classic.matchOther, textOf, setMatched, Option.map_some, Option.getD_some, chomp, hl, outdent_eq, hi, outdent]
  simp [Classic.unescapeDoc, ha]

/-- The tokens of a description are those of the lines of the description. -/
theorem description_tokens {text : Str} {m : CState} (hm : m.Valid) {mv : List Auto.Move} {q : Nat} {m' : CState} {D : CDoc}
    (hr : Auto.Run 0 (Classic.reset m) (tokenLines text) mv q m') (hD : D.Ok) (ht : D.toks = (mv.map (·.tok)).filter Token.isCore)
    {p : Part} {line : Token} {desc : List Token} (hp : (p, line, desc) ∈ D.parts) :
    ∃ m2 : CState, m2.active = none ∧ m2.indentToRemove = 0 ∧
      desc = (descriptionLines m'.dialect text p line.loc.line).map fun l => (Classic.matchOther (Token.fresh l) m2).2.1 := by
  obtain ⟨A, B, hAB, hNH⟩ := doc_placed hD hp
  obtain ⟨pk, pd⟩ := parts_ok hD hp
  rw [ht] at hAB
  obtain ⟨mv1, x, mv2, rfl, hx, h2, _⟩ := locate hAB
  simp only at hx
  obtain ⟨l1, l, l2, m1, m2, e1, e2, e3, e4, e5, e6, e7, e8⟩ := Auto.run_at hr (Auto.tokenLines_src text) (Auto.inv_start hm)
  have hk : x.tr.kind = Auto.partKind p := by
    have := Auto.matched_type e3.matched
    rw [hx, pk] at this
    simpa using this.symm
  have hne : l.isEof = false := by
    rcases e3.eof with h | h
    · rw [hk] at h; cases p <;> simp [Auto.partKind] at h
    · exact h
  rcases e8 with ⟨h, _⟩ | ⟨_, hsrc, hrun⟩
  · rw [hne] at h; simp at h
  obtain ⟨row, hrow, htr⟩ := Auto.step_row e3
  have hT := Auto.title_target hrow htr hk
  obtain ⟨q0, qo, _⟩ := Auto.state_parts p _ hT
  have ha : m2.active = none := by
    apply Classical.byContradiction
    intro h; exact qo (e6.active.2 h)
  obtain ⟨blanks, others, rest, mvB, mvO, mvR, f1, f2, f3, f4, f5, f6, f7, f8, f9⟩ := Auto.run_title hT hrun hsrc e6 ha
  obtain ⟨d1, d2⟩ := Auto.run_dialect hrun e6 q0
  subst f1; subst f2
  -- the tokens of the description
  have hB : (mvB.map (·.tok)).filter Token.isCore = [] := by
    rw [List.filter_eq_nil_iff]
    intro t htm
    simp only [List.mem_map] at htm
    obtain ⟨y, hy, rfl⟩ := htm
    rw [isCore_kind (Auto.run_types hrun y (by simp [hy])), f4 y hy]
    simp
  have hO : ∀ t ∈ mvO.map (·.tok), t.type = some .other := by
    intro t htm
    simp only [List.mem_map] at htm
    obtain ⟨y, hy, rfl⟩ := htm
    rw [Auto.run_types hrun y (by simp [hy]), f8 y hy]
  have hOf : (mvO.map (·.tok)).filter Token.isCore = mvO.map (·.tok) :=
    List.filter_eq_self.2 fun z hz => by rw [isCore_kind (hO z hz)]; rfl
  rw [List.map_append, List.filter_append, hB, List.nil_append, List.map_append, List.filter_append, hOf] at h2
  have hdesc := block_unique (p := fun t : Token => t.type = some .other) h2.symm pd hO
    (by intro z hz; exact hNH z hz) (by intro z hz; exact f9.nh z hz)
  -- the lines
  obtain ⟨n1, n2⟩ := lines_split e1
  have n3 := (n2 hsrc.ne).1
  obtain ⟨le, ls, g1, g2⟩ := f9.stop
  have hloc : line.loc.line = l.number := by rw [← hx]; exact e4.2
  have hrest : rest ≠ [] := by rw [g1]; simp
  have n4 : linesAfter text l.number = blanks ++ (others ++ rest.dropLast) := by
    rw [n3, List.dropLast_append_of_ne_nil (by simp [hrest]), List.dropLast_append_of_ne_nil hrest]
  have hhead : ∀ y ∈ (rest.dropLast).head?, ends m2.dialect p y = true ∧ isBlankLine y = false := by
    intro y hy
    rcases g2 with ⟨_, rfl⟩ | ⟨_, g2⟩
    · rw [g1] at hy; simp at hy
    · rw [g1] at hy
      cases ls with
      | nil => simp at hy
      | cons z zs => simp at hy; subst hy; exact g2
  have hdw : (linesAfter text l.number).dropWhile isBlankLine = others ++ rest.dropLast := by
    rw [n4]
    refine dropWhile_block (fun y hy => (f3 y hy).2) ?_
    intro y hy
    cases others with
    | nil => exact (hhead y hy).2
    | cons z zs => exact f5 y hy
  have htw : ((linesAfter text l.number).dropWhile isBlankLine).takeWhile (fun l => !ends m'.dialect p l) = others := by
    rw [hdw, d1]
    refine takeWhile_block (fun y hy => by simp [(f6 y hy).2]) ?_
    intro y hy; simp [(hhead y hy).1]
  have hdd : desc = mvO.map (·.tok) := hdesc.1
  refine ⟨m2, ha, e6.indent ha, ?_⟩
  rw [descriptionLines, hloc, htw, hdd, f7]

/-- Descriptions are what stands in the text. -/
theorem descriptions_quoted {text : Str} {m : CState} (hm : m.Valid) {mv : List Auto.Move} {q : Nat} {m' : CState} {D : CDoc}
    (hr : Auto.Run 0 (Classic.reset m) (tokenLines text) mv q m') (hD : D.Ok) (ht : D.toks = (mv.map (·.tok)).filter Token.isCore)
    {p : Part} {line : Token} {desc : List Token} (hp : (p, line, desc) ∈ D.parts) :
    description desc = descriptionAt m'.dialect text p line.loc.line := by
  obtain ⟨m2, h1, h2, h3⟩ := description_tokens hm hr hD ht hp
  rw [descriptionAt, description, h3, List.map_map]
  congr 2
  refine List.map_congr_left fun y _ => ?_
  exact other_plain h1 h2

end Gherkin
