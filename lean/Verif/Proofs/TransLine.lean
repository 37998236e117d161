import Verif.Proofs.TransDoc
import Verif.Proofs.IndentDoc
import Verif.Proofs.PrintTok
import Verif.Props.Lines

/-! Lines that say the same in two languages. -/

namespace Gherkin

open Auto Cst Md

/-- The kinds that have keywords. -/
def wordKinds : List Kind := .stepLine :: titleKinds

/-- A line in two languages. -/
inductive PairL (d d' : Dialect) (l l' : Line) : Prop
  | plain : l' = l → (∀ k ∈ wordKinds, fits d l k = false ∧ fits d' l k = false) → PairL d d' l l'
  | title {K : Kind} {kw kw' rest : Str} : kw ∈ d.titles K → kw' ∈ d'.titles K → l.trimmed = kw ++ ':' :: rest → l'.trimmed = kw' ++ ':' :: rest →
      l'.number = l.number → PairL d d' l l'
  | step {kw kw' rest : Str} : d.stepKeywords.find? (fun k => l.startsWith k) = some kw → d'.stepKeywords.find? (fun k => l'.startsWith k) = some kw' →
      l.trimmed = kw ++ rest → l'.trimmed = kw' ++ rest → Classic.stepType d kw = Classic.stepType d' kw' → l'.number = l.number → PairL d d' l l'

theorem title_line_find {d : Dialect} (hd : d.Known) {K : Kind} {kw rest : Str} (hk : kw ∈ d.titles K) {l : Line} (hl : l.trimmed = kw ++ ':' :: rest) :
    (d.titles K).find? (fun x => l.startsWithTitle x) = some kw := by
  have key : ∀ x ∈ d.titles K, l.startsWithTitle x = true ↔ x = kw := by
    intro x hx
    simp only [Line.startsWithTitle, hl, startsWith, List.isPrefixOf_iff_prefix]
    constructor
    · rintro ⟨t, ht⟩
      refine colon_unique (x := t) (y := rest) (hd.title_chars hx).2 (hd.title_chars hk).2 ?_
      simpa using ht
    · rintro rfl
      exact ⟨rest, by simp⟩
  have : ∃ y, (d.titles K).find? (fun x => l.startsWithTitle x) = some y := by
    rw [← Option.isSome_iff_exists, List.find?_isSome]
    exact ⟨kw, hk, (key kw hk).2 rfl⟩
  obtain ⟨y, hy⟩ := this
  rw [hy, (key y (List.mem_of_find?_eq_some hy)).1 (by simpa using List.find?_some hy)]

theorem title_line_fits {d : Dialect} {K : Kind} {kw rest : Str} (hk : kw ∈ d.titles K) {l : Line} (hl : l.trimmed = kw ++ ':' :: rest) :
    fits d l K = true := by
  have ht : isTitle (d.titles K) l = true := by
    rw [isTitle_iff, List.any_eq_true]
    exact ⟨kw, hk, by simp only [Line.startsWithTitle, hl, startsWith, List.isPrefixOf_iff_prefix]; exact ⟨rest, by simp⟩⟩
  have := titles_kind hk
  simp only [titleKinds, List.mem_cons, List.not_mem_nil, or_false] at this
  rcases this with rfl | rfl | rfl | rfl | rfl <;> exact ht

theorem step_line_fits {d : Dialect} {kw : Str} {l : Line} (h : d.stepKeywords.find? (fun k => l.startsWith k) = some kw) : fits d l .stepLine = true := by
  simp only [fits, isStep_iff, List.any_eq_true]
  exact ⟨kw, List.mem_of_find?_eq_some h, by simpa using List.find?_some h⟩

theorem word_other {K : Kind} (h : K ∈ wordKinds) : K ≠ .other ∧ K ≠ .language ∧ K ≠ .eof := by
  simp only [wordKinds, titleKinds, List.mem_cons, List.not_mem_nil, or_false] at h
  rcases h with rfl | rfl | rfl | rfl | rfl | rfl <;> simp

/-- The pair of lines has a keyword of some kind, or none. -/
theorem pair_cases {d d' : Dialect} {l l' : Line} (h : PairL d d' l l') :
    (l' = l ∧ ∀ k ∈ wordKinds, fits d l k = false ∧ fits d' l k = false) ∨ ∃ K ∈ wordKinds, fits d l K = true ∧ fits d' l' K = true := by
  cases h with
  | plain h1 h2 => exact .inl ⟨h1, h2⟩
  | title h1 h2 h3 h4 _ => exact .inr ⟨_, List.mem_cons_of_mem _ (titles_kind h1), title_line_fits h1 h3, title_line_fits h2 h4⟩
  | step h1 h2 _ _ _ _ => exact .inr ⟨_, by simp [wordKinds], step_line_fits h1, step_line_fits h2⟩

theorem fits_plain (d d' : Dialect) (l : Line) {k : Kind} (hk : k ∉ wordKinds) : fits d l k = fits d' l k := by
  cases k <;> first | rfl | exact absurd (by decide) hk

theorem fits_false {d : Dialect} (hd : d.Known) {l : Line} {K k : Kind} (h : fits d l K = true) (hK : K ≠ .other) (hk : k ≠ .other) (hne : k ≠ K) :
    fits d l k = false := by
  cases hf : fits d l k with
  | false => rfl
  | true => exact absurd (fits_unique hd hf h hk hK) hne

/-- The same tests succeed on both lines. -/
theorem pair_fits {d d' : Dialect} (hd : d.Known) (hd' : d'.Known) {l l' : Line} (h : PairL d d' l l') (k : Kind) : fits d l k = fits d' l' k := by
  rcases pair_cases h with ⟨rfl, h2⟩ | ⟨K, hK, h1, h2⟩
  · by_cases hk : k ∈ wordKinds
    · rw [(h2 k hk).1, (h2 k hk).2]
    · exact fits_plain d d' l' hk
  · by_cases ho : k = .other
    · subst ho; rfl
    · by_cases e : k = K
      · subst e; rw [h1, h2]
      · rw [fits_false hd h1 (word_other hK).1 ho e, fits_false hd' h2 (word_other hK).1 ho e]

/-- A line with a keyword is no comment, tag, table row, delimiter or blank line. -/
theorem pair_same {d d' : Dialect} (hd : d.Known) {l l' : Line} (h : PairL d d' l l') {k : Kind} (hk : k ∉ wordKinds) (ho : k ≠ .other) (hf : fits d l k = true) : l' = l := by
  rcases pair_cases h with ⟨rfl, _⟩ | ⟨K, hK, h1, h2⟩
  · rfl
  · have := fits_unique hd hf h1 ho (word_other hK).1
    subst this
    exact absurd hK hk

theorem word_no_lang {d : Dialect} (hd : d.Known) {l : Line} {K : Kind} (hK : K ∈ wordKinds) (h : fits d l K = true) : Classic.languageName l.lineText = none := by
  cases hl : Classic.languageName l.lineText with
  | none => rfl
  | some nm =>
    have := comment_iff.2 (header_comment (header_iff.1 hl))
    have := fits_unique hd (k := .comment) this h (by simp) (word_other hK).1
    subst this
    exact absurd hK (by decide)

theorem pair_lang {d d' : Dialect} (hd : d.Known) (hd' : d'.Known) {l l' : Line} (h : PairL d d' l l') : Classic.languageName l'.lineText = Classic.languageName l.lineText := by
  rcases pair_cases h with ⟨rfl, _⟩ | ⟨K, hK, h1, h2⟩
  · rfl
  · rw [word_no_lang hd hK h1, word_no_lang hd' hK h2]

theorem pair_eof {d d' : Dialect} (hd : d.Known) (hd' : d'.Known) {l l' : Line} (h : PairL d d' l l') : l'.isEof = l.isEof := by
  rcases pair_cases h with ⟨rfl, _⟩ | ⟨K, hK, h1, h2⟩
  · rfl
  · have key : ∀ {d : Dialect} {l : Line}, d.Known → fits d l K = true → l.isEof = false := by
      intro d l hd h
      cases he : l.isEof with
      | false => rfl
      | true =>
        have : l.text = [] := by simpa [Line.isEof] using he
        have := fits_unique hd (k := .empty) (by simp [fits, isBlankLine, this]) h (by simp) (word_other hK).1
        subst this
        exact absurd hK (by decide)
    rw [key hd h1, key hd' h2]

/-- States of the matcher that differ in the language. -/
structure LangState (m m' : CState) : Prop where
  active : m'.active = m.active
  indent : m'.indentToRemove = m.indentToRemove

theorem mute_set {dn dn' : Str} {l l' : Line} (hn : l'.number = l.number) {k : Kind} {x : Option Str} {kw kw' : Option Str} {kt kt' : Option KType}
    {i i' : Option Nat} {its its' : List MItem} (hkw : k = .docStringSeparator → kw' = kw)
    (hkt : (if k = .stepLine then kt' else none) = if k = .stepLine then kt else none) (hits : its'.map (·.text) = its.map (·.text)) :
    (setMatched dn' (Token.fresh l') (some k) x kw' kt' i' its').mute = (setMatched dn (Token.fresh l) (some k) x kw kt i its).mute := by
  have e : ∀ its : List MItem, its.map (fun i => (⟨0, i.text⟩ : MItem)) = (its.map (·.text)).map fun s => ⟨0, s⟩ := by
    intro its; rw [List.map_map]; rfl
  simp only [Token.mute, Token.hush, Token.flat, setMatched, Token.fresh, Option.some.injEq, textOf, hn, e, hits, hkt]
  by_cases hk : k = .docStringSeparator
  · simp [hk, hkw hk]
  · simp [hk]

/-- The tests that do not look at keywords. -/
theorem match_same {k : Kind} (hk : k ∉ wordKinds) (hl : k ≠ .language) {l : Line} {m m' : CState} (hm : LangState m m') {r : Except MExc Bool} {t : Token} {m1 : CState}
    (hr : Classic.matchKind k (Token.fresh l) m = (r, t, m1)) :
    ∃ t' m1', Classic.matchKind k (Token.fresh l) m' = (r, t', m1') ∧ t'.mute = t.mute ∧ LangState m1 m1' ∧ m1.dialect = m.dialect ∧ m1'.dialect = m'.dialect := by
  obtain ⟨a1, a2⟩ := hm
  have hms : LangState m m' := ⟨a1, a2⟩
  have ff : (Token.fresh l).line = l := rfl
  have done : ∀ {x : Option Str} {kw : Option Str} {i : Option Nat} {its : List MItem},
      (setMatched m'.dialectName (Token.fresh l) (some k) x kw none i its).mute = (setMatched m.dialectName (Token.fresh l) (some k) x kw none i its).mute := by
    intro x kw i its
    exact mute_set rfl (fun _ => rfl) rfl rfl
  have sep : ∀ (s : Str) (b : Bool), k = .docStringSeparator → Classic.matchSep s b (Token.fresh l) m = (r, t, m1) →
      ∃ t' m1', Classic.matchSep s b (Token.fresh l) m' = (r, t', m1') ∧ t'.mute = t.mute ∧ LangState m1 m1' ∧ m1.dialect = m.dialect ∧ m1'.dialect = m'.dialect := by
    rintro s b rfl hr
    unfold Classic.matchSep at hr ⊢
    cases h1 : (Token.fresh l).line.startsWith s with
    | false =>
      rw [h1] at hr
      simp only [Bool.false_eq_true, if_false, Prod.mk.injEq] at hr ⊢
      obtain ⟨rfl, rfl, rfl⟩ := hr
      exact ⟨_, _, ⟨rfl, rfl, rfl⟩, rfl, hms, rfl, rfl⟩
    | true =>
      rw [h1] at hr
      simp only [if_true] at hr ⊢
      cases b with
      | true =>
        simp only [if_true, Prod.mk.injEq] at hr ⊢
        obtain ⟨rfl, rfl, rfl⟩ := hr
        exact ⟨_, _, ⟨rfl, rfl, rfl⟩, done, ⟨rfl, rfl⟩, rfl, rfl⟩
      | false =>
        simp only [Bool.false_eq_true, if_false, Prod.mk.injEq] at hr ⊢
        obtain ⟨rfl, rfl, rfl⟩ := hr
        exact ⟨_, _, ⟨rfl, rfl, rfl⟩, done, ⟨rfl, rfl⟩, rfl, rfl⟩
  cases k
  case language => exact absurd rfl hl
  case docStringSeparator =>
    simp only [Classic.matchKind, Classic.matchDocSep, a1] at hr ⊢
    cases ha : m.active with
    | none =>
      rw [ha] at hr
      simp only at hr ⊢
      cases h1 : (Token.fresh l).line.startsWith Classic.quotes with
      | false =>
        rw [h1] at hr
        simp only [Bool.false_eq_true, if_false] at hr ⊢
        exact sep _ _ rfl hr
      | true =>
        rw [h1] at hr
        simp only [if_true] at hr ⊢
        exact sep _ _ rfl hr
    | some s =>
      rw [ha] at hr
      exact sep _ _ rfl hr
  case other =>
    simp only [Classic.matchKind, Classic.matchOther, Prod.mk.injEq, a1, a2] at hr ⊢
    obtain ⟨rfl, rfl, rfl⟩ := hr
    exact ⟨_, _, ⟨rfl, rfl, rfl⟩, done, hms, rfl, rfl⟩
  case eof =>
    simp only [Classic.matchKind, Classic.matchEof] at hr ⊢
    cases h1 : (Token.fresh l).eof <;> rw [h1] at hr <;> simp only [Bool.false_eq_true, if_false, if_true, Prod.mk.injEq] at hr ⊢ <;> obtain ⟨rfl, rfl, rfl⟩ := hr
    · exact ⟨_, _, ⟨rfl, rfl, rfl⟩, rfl, hms, rfl, rfl⟩
    · exact ⟨_, _, ⟨rfl, rfl, rfl⟩, done, hms, rfl, rfl⟩
  case empty =>
    simp only [Classic.matchKind, Classic.matchEmpty] at hr ⊢
    cases h1 : (Token.fresh l).line.isBlank <;> rw [h1] at hr <;> simp only [Bool.false_eq_true, if_false, if_true, Prod.mk.injEq] at hr ⊢ <;> obtain ⟨rfl, rfl, rfl⟩ := hr
    · exact ⟨_, _, ⟨rfl, rfl, rfl⟩, rfl, hms, rfl, rfl⟩
    · exact ⟨_, _, ⟨rfl, rfl, rfl⟩, done, hms, rfl, rfl⟩
  case comment =>
    simp only [Classic.matchKind, Classic.matchComment] at hr ⊢
    cases h1 : (Token.fresh l).line.startsWith ['#'] <;> rw [h1] at hr <;> simp only [Bool.false_eq_true, if_false, if_true, Prod.mk.injEq] at hr ⊢ <;> obtain ⟨rfl, rfl, rfl⟩ := hr
    · exact ⟨_, _, ⟨rfl, rfl, rfl⟩, rfl, hms, rfl, rfl⟩
    · exact ⟨_, _, ⟨rfl, rfl, rfl⟩, done, hms, rfl, rfl⟩
  case tagLine =>
    simp only [Classic.matchKind, Classic.matchTagLine] at hr ⊢
    cases h1 : (Token.fresh l).line.startsWith ['@'] <;> rw [h1] at hr <;> simp only [Bool.false_eq_true, if_false, if_true, Prod.mk.injEq] at hr ⊢
    · obtain ⟨rfl, rfl, rfl⟩ := hr
      exact ⟨_, _, ⟨rfl, rfl, rfl⟩, rfl, hms, rfl, rfl⟩
    · cases h2 : (Token.fresh l).line.tags <;> rw [h2] at hr <;> simp only [Prod.mk.injEq] at hr ⊢ <;> obtain ⟨rfl, rfl, rfl⟩ := hr
      · exact ⟨_, _, ⟨rfl, rfl, rfl⟩, rfl, hms, rfl, rfl⟩
      · exact ⟨_, _, ⟨rfl, rfl, rfl⟩, done, hms, rfl, rfl⟩
  case tableRow =>
    simp only [Classic.matchKind, Classic.matchTableRow] at hr ⊢
    cases h1 : (Token.fresh l).line.startsWith ['|'] <;> rw [h1] at hr <;> simp only [Bool.false_eq_true, if_false, if_true, Prod.mk.injEq] at hr ⊢
    · obtain ⟨rfl, rfl, rfl⟩ := hr
      exact ⟨_, _, ⟨rfl, rfl, rfl⟩, rfl, hms, rfl, rfl⟩
    · cases h2 : (Token.fresh l).line.tableCells <;> rw [h2] at hr <;> simp only [Prod.mk.injEq] at hr ⊢ <;> obtain ⟨rfl, rfl, rfl⟩ := hr
      · exact ⟨_, _, ⟨rfl, rfl, rfl⟩, rfl, hms, rfl, rfl⟩
      · exact ⟨_, _, ⟨rfl, rfl, rfl⟩, done, hms, rfl, rfl⟩
  all_goals exact absurd (by decide) hk

/-- Outside doc strings a test that succeeds on a line succeeds on the line in the other language. -/
theorem pair_match {k : Kind} {l l' : Line} {m m' : CState} (hd : m.dialect.Known) (hd' : m'.dialect.Known) (h : PairL m.dialect m'.dialect l l') (hm : LangState m m')
    (ha : m.active = none) (hl : k ≠ .language) (ho : k = .other → l' = l) {t : Token} {m1 : CState}
    (hr : Classic.matchKind k (Token.fresh l) m = (.ok true, t, m1)) :
    ∃ t' m1', Classic.matchKind k (Token.fresh l') m' = (.ok true, t', m1') ∧ t'.mute = t.mute ∧ LangState m1 m1' ∧ m1.dialect = m.dialect ∧ m1'.dialect = m'.dialect := by
  by_cases hk : k ∈ wordKinds
  · -- a keyword
    obtain ⟨k1, k2, k3⟩ := word_other hk
    have hf : fits m.dialect l k = true := by
      cases hf : fits m.dialect l k with
      | true => rfl
      | false => have := (match_fits ha k2 k3).2 hf; rw [hr] at this; simp at this
    have hnum : l'.number = l.number := by
      cases h with
      | plain h1 _ => rw [h1]
      | title _ _ _ _ h5 => exact h5
      | step _ _ _ _ _ h5 => exact h5
    have htitle : ∀ K, K ∈ titleKinds → ∀ (m : CState) (l : Line), Classic.matchKind K (Token.fresh l) m = Classic.matchTitle K (m.dialect.titles K) (Token.fresh l) m := by
      intro K hK m l
      simp only [titleKinds, List.mem_cons, List.not_mem_nil, or_false] at hK
      rcases hK with rfl | rfl | rfl | rfl | rfl <;> rfl
    cases h with
    | plain h1 h2 => rw [(h2 k hk).1] at hf; simp at hf
    | @title K kw kw' rest h1 h2 h3 h4 h5 =>
      have hK := titles_kind h1
      have := fits_unique hd hf (title_line_fits h1 h3) k1 (word_other (List.mem_cons_of_mem _ hK)).1
      subst this
      rw [htitle _ hK] at hr ⊢
      unfold Classic.matchTitle at hr ⊢
      rw [show (Token.fresh l).line = l from rfl, title_line_find hd h1 h3] at hr
      rw [show (Token.fresh l').line = l' from rfl, title_line_find hd' h2 h4]
      simp only [Prod.mk.injEq, true_and] at hr ⊢
      obtain ⟨rfl, rfl⟩ := hr
      have e : l.restTrimmed (kw.length + 1) = l'.restTrimmed (kw'.length + 1) := by
        have key : ∀ kw : Str, List.drop (kw.length + 1) (kw ++ ':' :: rest) = rest := by
          intro kw
          induction kw with
          | nil => rfl
          | cons c cs ih => simpa using ih
        simp only [Line.restTrimmed, h3, h4, key]
      rw [e]
      refine ⟨_, _, ⟨rfl, rfl⟩, mute_set hnum ?_ rfl rfl, hm, rfl, rfl⟩
      intro e; subst e; exact absurd hK (by decide)
    | @step kw kw' rest h1 h2 h3 h4 h5 h6 =>
      have := fits_unique hd hf (step_line_fits h1) k1 (by simp)
      subst this
      simp only [Classic.matchKind, Classic.matchStep] at hr ⊢
      rw [show (Token.fresh l).line = l from rfl, h1] at hr
      rw [show (Token.fresh l').line = l' from rfl, h2]
      simp only [Prod.mk.injEq, true_and] at hr ⊢
      obtain ⟨rfl, rfl⟩ := hr
      have e : l.restTrimmed kw.length = l'.restTrimmed kw'.length := by
        simp only [Line.restTrimmed, h3, h4]
        simp
      rw [e, h5]
      exact ⟨_, _, ⟨rfl, rfl⟩, mute_set hnum (by simp) rfl rfl, hm, rfl, rfl⟩
  · have e : l' = l := by
      by_cases ho' : k = .other
      · exact ho ho'
      · by_cases he : k = .eof
        · subst he
          rcases pair_cases h with ⟨e, _⟩ | ⟨K, hK, h1, h2⟩
          · exact e
          · exfalso
            simp only [Classic.matchKind, Classic.matchEof] at hr
            split at hr
            · rename_i hee
              have : l.text = [] := by simpa [Token.eof, Token.fresh, Line.isEof] using hee
              have := fits_unique hd (k := .empty) (by simp [fits, isBlankLine, this]) h1 (by simp) (word_other hK).1
              subst this
              exact absurd hK (by decide)
            · simp at hr
        · refine pair_same hd h hk ho' ?_
          cases hf : fits m.dialect l k with
          | true => rfl
          | false => have := (match_fits ha hl he).2 hf; rw [hr] at this; simp at this
    subst e
    exact match_same hk hl hm hr

/-- A test that fails on a line fails on the line in the other language. -/
theorem pair_fails {k : Kind} {l l' : Line} {m m' : CState} (hd : m.dialect.Known) (hd' : m'.dialect.Known) (h : PairL m.dialect m'.dialect l l')
    (ha : m.active = none) (ha' : m'.active = none) (hr : (Classic.matchKind k (Token.fresh l) m).1 = .ok false) :
    (Classic.matchKind k (Token.fresh l') m').1 = .ok false := by
  by_cases hl : k = .language
  · subst hl
    simp only [Classic.matchKind, Classic.matchLanguage] at hr ⊢
    rw [show (Token.fresh l').line = l' from rfl, pair_lang hd hd' h]
    rw [show (Token.fresh l).line = l from rfl] at hr
    cases hn : Classic.languageName l.lineText with
    | none => rfl
    | some nm => rw [hn] at hr; simp only at hr; split at hr <;> simp at hr
  · by_cases he : k = .eof
    · subst he
      simp only [Classic.matchKind, Classic.matchEof] at hr ⊢
      have : (Token.fresh l').eof = (Token.fresh l).eof := pair_eof hd hd' h
      rw [this]
      split at hr
      · simp at hr
      · rename_i hx; rw [if_neg hx]
    · rw [match_fits ha hl he, pair_fits hd hd' h k] at hr
      rw [match_fits ha' hl he]
      exact hr

end Gherkin
