import Verif.Proofs.DialectFacts
import Verif.Proofs.Lawful

/-! What a `match_K` call of the classic matcher depends on: the line and the matcher's state, not what earlier calls left
in the token. -/

namespace Gherkin

/-- The matcher's dialect, and its default, are dialects of the table. Holds for every `TokenMatcher` object
(`CState.new_valid`, `Classic.matchKind_valid`, `Classic.reset_valid`). -/
structure CState.Valid (m : CState) : Prop where
  cur : dialectFor m.dialectName = some m.dialect
  dflt : (dialectFor m.defaultName).isSome

theorem CState.Valid.known {m : CState} (h : m.Valid) : m.dialect.Known := ⟨_, h.cur⟩

theorem CState.new_valid {name : Str} {m : CState} (h : CState.new name = some m) : m.Valid := by
  unfold CState.new at h
  cases hd : dialectFor name with
  | none => rw [hd] at h; simp at h
  | some d =>
    rw [hd] at h; simp at h; subst h
    exact ⟨hd, by simp [hd]⟩

/-- The token belongs to line `l`. -/
def Token.Of (t : Token) (l : Line) : Prop := t.line = l ∧ t.loc.line = l.number

theorem Token.fresh_of (l : Line) : (Token.fresh l).Of l := ⟨rfl, rfl⟩

theorem setMatched_of {t : Token} {l : Line} (h : t.Of l) (d : Str) (k : Option Kind) (x : Option Str) (kw : Option Str)
    (kt : Option KType) (i : Option Nat) (its : List MItem) :
    setMatched d t k x kw kt i its = setMatched d (Token.fresh l) k x kw kt i its := by
  obtain ⟨h1, h2⟩ := h
  cases t
  rename_i line loc _ _ _ _ _ _ _
  cases loc
  simp at h1 h2
  subst h1; subst h2
  rfl

namespace Classic

/-- The same call on any token of the line. -/
structure Indep (k : Kind) (t : Token) (l : Line) (m : CState) : Prop where
  res : (matchKind k t m).1 = (matchKind k (Token.fresh l) m).1
  st : (matchKind k t m).2.2 = (matchKind k (Token.fresh l) m).2.2
  tok : (matchKind k t m).2.1 = (matchKind k (Token.fresh l) m).2.1 ∨
    ((matchKind k t m).2.1 = t ∧ (matchKind k (Token.fresh l) m).2.1 = Token.fresh l)
  tokTrue : (matchKind k t m).1 = .ok true → (matchKind k t m).2.1 = (matchKind k (Token.fresh l) m).2.1
  tokErr : ∀ e, (matchKind k t m).1 = .error (.parser e) → (matchKind k t m).2.1 = (matchKind k (Token.fresh l) m).2.1

theorem indep (k : Kind) {t : Token} {l : Line} (h : t.Of l) (m : CState) : Indep k t l m := by
  have h1 : t.line = l := h.1
  have h2 : (Token.fresh l).line = l := rfl
  have e := setMatched_of h
  cases k <;> constructor <;>
    simp only [matchKind, matchEof, matchEmpty, matchComment, matchTagLine, matchTitle, matchStep, matchDocSep, matchSep,
      matchTableRow, matchLanguage, matchOther, Token.eof, h1, h2, e] <;>
    (repeat' split) <;> simp_all

/-- What a call can do to the matcher. -/
theorem matchKind_valid {k : Kind} {t : Token} {m : CState} (h : m.Valid) : (matchKind k t m).2.2.Valid := by
  cases k <;>
    simp only [matchKind, matchEof, matchEmpty, matchComment, matchTagLine, matchTitle, matchStep, matchDocSep, matchSep,
      matchTableRow, matchOther]
  case language =>
    unfold matchLanguage
    split
    · exact h
    · simp only
      split
      · rename_i d hd
        exact ⟨hd, h.dflt⟩
      · exact h
  all_goals (repeat' split) <;> first | exact h | exact ⟨h.cur, h.dflt⟩

theorem reset_valid {m : CState} (h : m.Valid) : (reset m).Valid := by
  obtain ⟨d, hd⟩ := Option.isSome_iff_exists.1 h.dflt
  unfold reset
  split
  · simp only [hd]
    exact ⟨hd, h.dflt⟩
  · exact ⟨h.cur, h.dflt⟩

/-- The kinds that are matched without raising `ParserException`s. -/
theorem matchKind_noparser {k : Kind} (hk : k ≠ .language) (t : Token) (m : CState) (e : Err) :
    (matchKind k t m).1 ≠ .error (.parser e) := by
  cases k <;> first | exact absurd rfl hk | skip
  all_goals
    simp only [matchKind, matchEof, matchEmpty, matchComment, matchTagLine, matchTitle, matchStep, matchDocSep, matchSep,
      matchTableRow, matchOther]
  all_goals (repeat' split) <;> simp

/-- The kinds that do not change the matcher. -/
theorem matchKind_state {k : Kind} (hk : k ≠ .language) (hk' : k ≠ .docStringSeparator) (t : Token) (m : CState) :
    (matchKind k t m).2.2 = m := by
  cases k <;> first | exact absurd rfl hk | exact absurd rfl hk' | skip
  all_goals
    simp only [matchKind, matchEof, matchEmpty, matchComment, matchTagLine, matchTitle, matchStep,
      matchTableRow, matchOther]
  all_goals (repeat' split) <;> rfl

/-- Errors of the matcher hold the token's own location. -/
theorem matchKind_alias {k : Kind} {t : Token} {m : CState} {e : Err} (h : (matchKind k t m).1 = .error (.parser e)) :
    e.aliasOf = some t.line.number := by
  by_cases hk : k = .language
  · subst hk
    revert h
    simp only [matchKind, matchLanguage]
    (repeat' split) <;> simp
    rintro rfl
    rfl
  · exact absurd h (matchKind_noparser hk t m e)

/-- A refused token is left as it was. -/
theorem matchKind_false {k : Kind} {t : Token} {m : CState} (h : (matchKind k t m).1 = .ok false) :
    (matchKind k t m).2.1 = t ∧ (matchKind k t m).2.2 = m := by
  revert h
  cases k <;>
    simp only [matchKind, matchEof, matchEmpty, matchComment, matchTagLine, matchTitle, matchStep, matchDocSep, matchSep,
      matchTableRow, matchLanguage, matchOther] <;>
    (repeat' split) <;> simp

end Classic

end Gherkin
