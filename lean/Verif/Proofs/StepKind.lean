import Verif.Proofs.Classify

/-! Which transition the parser takes outside doc strings, in terms of the kind of the line. -/

namespace Gherkin

/-- What the matcher answers outside doc strings: `false` exactly if the line does not pass the test for the kind. -/
theorem match_fits {m : CState} (ha : m.active = none) {l : Line} {k : Kind} (hk : k ≠ .language) (hke : k ≠ .eof) :
    (Classic.matchKind k (Token.fresh l) m).1 = .ok false ↔ fits m.dialect l k = false := by
  have hl : (Token.fresh l).line = l := rfl
  have title : ∀ k' ks, (Classic.matchTitle k' ks (Token.fresh l) m).1 = .ok false ↔ isTitle ks l = false := by
    intro k' ks
    unfold Classic.matchTitle
    rw [hl, isTitle_iff]
    cases hf : ks.find? (fun kw => l.startsWithTitle kw) with
    | none =>
      simp only [true_iff]
      rw [List.find?_eq_none] at hf
      rw [List.any_eq_false]; exact hf
    | some kw =>
      have h1 := List.find?_some hf
      have h2 := List.mem_of_find?_eq_some hf
      have : (ks.any fun k => l.startsWithTitle k) = true := List.any_eq_true.2 ⟨kw, h2, h1⟩
      simp [this]
  cases k
  case eof => exact absurd rfl hke
  case language => exact absurd rfl hk
  case empty =>
    simp only [Classic.matchKind, Classic.matchEmpty, hl, fits, isBlankLine_iff]
    cases l.isBlank <;> simp
  case comment =>
    simp only [Classic.matchKind, Classic.matchComment, hl, fits, firstIs_iff]
    cases l.startsWith ['#'] <;> simp
  case tagLine =>
    simp only [Classic.matchKind, Classic.matchTagLine, hl, fits, firstIs_iff]
    cases l.startsWith ['@'] <;> simp
    cases l.tags <;> simp
  case tableRow =>
    simp only [Classic.matchKind, Classic.matchTableRow, hl, fits, firstIs_iff]
    cases l.startsWith ['|'] <;> simp
    cases l.tableCells <;> simp
  case stepLine =>
    simp only [Classic.matchKind, Classic.matchStep, hl, fits, isStep_iff]
    cases hf : m.dialect.stepKeywords.find? (fun kw => l.startsWith kw) with
    | none =>
      simp only [true_iff]
      rw [List.find?_eq_none] at hf
      rw [List.any_eq_false]; exact hf
    | some kw =>
      have h1 := List.find?_some hf
      have h2 := List.mem_of_find?_eq_some hf
      have : (m.dialect.stepKeywords.any fun k => l.startsWith k) = true := List.any_eq_true.2 ⟨kw, h2, h1⟩
      simp [this]
  case docStringSeparator =>
    have e : docDelimiters.any (isDelim · l) = (l.startsWith Classic.quotes || l.startsWith Classic.ticks) := by
      simp [docDelimiters, isDelim, Line.startsWith, startsWith, Classic.quotes, Classic.ticks, Line.trimmed]
    simp only [Classic.matchKind, Classic.matchDocSep, ha, hl, fits, e, Classic.matchSep]
    cases h1 : l.startsWith Classic.quotes <;> cases h2 : l.startsWith Classic.ticks <;> simp
  case other => simp [Classic.matchKind, Classic.matchOther, fits]
  all_goals exact title _ _

theorem lineKind_language (d : Dialect) (l : Line) : lineKind d l ≠ .language := by
  intro h; have := lineKind_fits d l; rw [h] at this; simp [fits] at this
theorem lineKind_eof (d : Dialect) (l : Line) : lineKind d l ≠ .eof := by
  intro h; have := lineKind_fits d l; rw [h] at this; simp [fits] at this

/-- A line on which no match crashes: its tags and cells can be read, if it has any. -/
def Line.Sound (l : Line) : Prop :=
  (firstIs '@' l = true → ∃ ts, l.tags = .ok ts) ∧ (firstIs '|' l = true → ∃ cs, l.tableCells = .ok cs)

theorem match_true {m : CState} (ha : m.active = none) {l : Line} {k : Kind} (hk : k ≠ .language) (hke : k ≠ .eof) (hl : l.Sound)
    (hf : fits m.dialect l k = true) : (Classic.matchKind k (Token.fresh l) m).1 = .ok true := by
  have h := match_fits ha (l := l) hk hke
  cases hr : (Classic.matchKind k (Token.fresh l) m).1 with
  | ok b =>
    cases b with
    | true => rfl
    | false => rw [h.1 hr] at hf; simp at hf
  | error e =>
    exfalso
    have hl' : (Token.fresh l).line = l := rfl
    cases k
    case tagLine =>
      obtain ⟨ts, h1⟩ := hl.1 hf
      simp only [fits, firstIs_iff] at hf
      simp [Classic.matchKind, Classic.matchTagLine, hl', hf, h1] at hr
    case tableRow =>
      obtain ⟨ts, h1⟩ := hl.2 hf
      simp only [fits, firstIs_iff] at hf
      simp [Classic.matchKind, Classic.matchTableRow, hl', hf, h1] at hr
    case language => exact hk rfl
    all_goals
      simp only [Classic.matchKind, Classic.matchEof, Classic.matchEmpty, Classic.matchComment, Classic.matchTitle, Classic.matchStep,
        Classic.matchOther, Classic.matchDocSep, Classic.matchSep] at hr
      (repeat' split at hr) <;> simp at hr

theorem fits_of_true {m : CState} (ha : m.active = none) {l : Line} {k : Kind} (hk : k ≠ .language) (hke : k ≠ .eof)
    (h : (Classic.matchKind k (Token.fresh l) m).1 = .ok true) : fits m.dialect l k = true := by
  cases hf : fits m.dialect l k with
  | true => rfl
  | false => rw [(match_fits ha hk hke).2 hf] at h; simp at h

namespace Auto

/-- Static facts: `Other` comes last; every kind is also there without look-ahead. -/
def rowOk7 (q : Nat) : Bool :=
  match table q with
  | some row => row.trans.dropLast.all (fun tr => tr.kind != .other) &&
      row.trans.all (fun tr => row.trans.any fun x => x.kind == tr.kind && x.la == none)
  | none => true

theorem rows_ok7 : ∀ q ∈ allStates, rowOk7 q = true := by decide +kernel

/-- The kinds of lines a state has transitions for. -/
def kindsOf (q : Nat) : List Kind := match table q with | some row => row.trans.map (·.kind) | none => []

theorem other_last {q : Nat} {row : StateRow} (h : table q = some row) {pre post : List Trans} {tr : Trans}
    (hs : row.trans = pre ++ tr :: post) (hk : tr.kind = .other) : post = [] := by
  have hq := rows_ok7 q (mem_allStates h)
  unfold rowOk7 at hq
  rw [h] at hq
  simp only [Bool.and_eq_true, List.all_eq_true] at hq
  cases post with
  | nil => rfl
  | cons y post =>
    exfalso
    have : tr ∈ row.trans.dropLast := by
      rw [hs, List.dropLast_append_of_ne_nil (by simp)]
      simp
    have := hq.1 tr this
    simp [hk] at this

theorem plain_kind {q : Nat} {row : StateRow} (h : table q = some row) {k : Kind} (hk : k ∈ kindsOf q) :
    ∃ x ∈ row.trans, x.kind = k ∧ x.la = none := by
  have hq := rows_ok7 q (mem_allStates h)
  unfold rowOk7 at hq
  rw [h] at hq
  simp only [Bool.and_eq_true, List.all_eq_true] at hq
  unfold kindsOf at hk
  rw [h] at hk
  simp only [List.mem_map] at hk
  obtain ⟨tr, h1, rfl⟩ := hk
  have := hq.2 tr h1
  simp only [List.any_eq_true, Bool.and_eq_true, beq_iff_eq] at this
  obtain ⟨x, h2, h3, h4⟩ := this
  exact ⟨x, h2, h3, h4⟩

/-- Outside doc strings a transition is taken according to the kind of the line; lines of kinds the state does not know, and other
lines, are taken by `Other`. In state 0 a comment may be a language header. -/
theorem step_kind {q : Nat} {l : Line} {rest : List Line} {m m' : CState} {tr : Trans} {t : Token} (hi : Inv q m) (ha : m.active = none)
    (hne : l.isEof = false) (h : StepSpec q l rest m tr t m') :
    (tr.kind = .language ∧ q = 0 ∧ (Classic.languageName l.lineText).isSome = true) ∨
    (tr.kind = lineKind m.dialect l ∧ (q ≠ 0 ∨ Classic.languageName l.lineText = none)) ∨
    (tr.kind = .other ∧ lineKind m.dialect l ∉ kindsOf q) := by
  have hd := hi.valid.known
  obtain ⟨row, pre, post, hrow, htr, hpass⟩ := h.row
  by_cases hlang : tr.kind = .language
  · left
    have hm := h.matched
    rw [hlang] at hm
    refine ⟨hlang, (h.facts.lang hlang).1, ?_⟩
    simp only [Classic.matchKind, Classic.matchLanguage] at hm
    split at hm
    · simp at hm
    · rename_i name hn
      have : (Token.fresh l).line = l := rfl
      rw [this] at hn
      rw [hn]; rfl
  · right
    have hkeof : tr.kind ≠ .eof := by
      intro hk
      have hm := h.matched
      rw [hk] at hm
      have : (Token.fresh l).eof = l.isEof := rfl
      simp [Classic.matchKind, Classic.matchEof, this, hne] at hm
    have hf : fits m.dialect l tr.kind = true := fits_of_true ha hlang hkeof (by rw [h.matched])
    have hnl : q ≠ 0 ∨ Classic.languageName l.lineText = none := by
      by_cases h0 : q = 0
      · right
        subst h0
        -- the language transition was passed over
        have h0 : ∀ row, table 0 = some row → ∃ a x b, row.trans = a ++ x :: b ∧ x.kind = .language ∧ x.la = none ∧
            (∀ y ∈ a, y.kind = .eof) := by
          intro row hr
          simp only [table, Option.some.injEq] at hr
          subst hr
          exact ⟨[_], _, _, rfl, rfl, rfl, by simp⟩
        obtain ⟨a, x, b, e1, e2, e2', e3⟩ := h0 row hrow
        have hx : x ∈ pre := by
          rw [e1] at htr
          rcases List.append_eq_append_iff.1 htr with ⟨c, h1, h2⟩ | ⟨c, h1, h2⟩
          · cases c with
            | nil => simp at h2; rw [← h2.1] at hlang; exact absurd e2 hlang
            | cons y c => simp at h2; rw [h1]; simp [h2.1]
          · cases c with
            | nil => simp at h2; rw [h2.1] at hlang; exact absurd e2 hlang
            | cons y c => simp at h2; exact absurd (e3 tr (by rw [h1, h2.1]; simp)) hkeof
        have hp := hpass x hx
        unfold Passed at hp
        rw [e2] at hp
        have hlf : (Classic.matchKind .language (Token.fresh l) m).1 = .ok false := by
          rcases hp with hp | hp | ⟨la, hp1, hp2, hp3⟩
          · rw [hne] at hp; simp at hp
          · exact hp
          · rw [e2'] at hp1; simp at hp1
        cases hn : Classic.languageName l.lineText with
        | none => rfl
        | some name =>
          exfalso
          simp only [Classic.matchKind, Classic.matchLanguage, show (Token.fresh l).line = l from rfl, hn] at hlf
          split at hlf <;> simp at hlf
      · exact .inl h0
    by_cases hoth : tr.kind = .other
    · by_cases hko : lineKind m.dialect l = .other
      · left; exact ⟨by rw [hoth, hko], hnl⟩
      · right
        refine ⟨hoth, ?_⟩
        intro hmem
        obtain ⟨x, hx, hxk, hxl⟩ := plain_kind hrow hmem
        have hpost := other_last hrow htr hoth
        subst hpost
        have hxp : x ∈ pre := by
          rw [htr] at hx
          simp at hx
          rcases hx with hx | rfl
          · exact hx
          · rw [hoth] at hxk; exact absurd hxk.symm hko
        have hkl := lineKind_language m.dialect l
        have hke := lineKind_eof m.dialect l
        have hfit := lineKind_fits m.dialect l
        have hp := hpass x hxp
        unfold Passed at hp
        rw [hxk] at hp
        rcases hp with hp | hp | ⟨la, hp1, hp2, hp3⟩
        · rw [hne] at hp; simp at hp
        · rw [(match_fits ha hkl hke).1 hp] at hfit; simp at hfit
        · rw [hxl] at hp1; simp at hp1
    · left
      exact ⟨((lineKind_iff hd hoth).2 hf).symm, hnl⟩

end Auto

end Gherkin
