import Verif.Proofs.DocStrings
import Verif.Proofs.DocLine
import Verif.Proofs.Language

/-! Line ends do not matter for single lines. -/

namespace Gherkin

/-- The line with the line end `\n`, whatever its own line end. -/
def Line.canon (l : Line) : Line := ⟨if l.text = [] then [] else rstripEol l.text ++ ['\n'], l.number⟩

def Token.canon (t : Token) : Token := { t with line := t.line.canon }

theorem allEol_space {e : Str} (h : AllP isEol e) : AllP isSpace e := fun c hc => isEol_space (h c hc)

theorem strip_append_white (x : Str) {w : Str} (hw : AllP isSpace w) : strip (x ++ w) = strip x := by
  obtain ⟨a, b, h1, h2, h3, h4, h5⟩ := strip_spec x
  have : x ++ w = a ++ strip x ++ (b ++ w) := by
    conv => lhs; rw [h3]
    simp
  rw [this]
  exact strip_core h1 (by intro c hc; rcases List.mem_append.1 hc with h | h; exacts [h2 c h, hw c h]) h4 h5

theorem rstripEol_append (x : Str) {e : Str} (he : AllP isEol e) : rstripEol (x ++ e) = rstripEol x := by
  obtain ⟨w, h1, h2, h3⟩ := rstripBy_spec (p := isEol) x
  have : x ++ e = rstripBy isEol x ++ (w ++ e) := by
    conv => lhs; rw [h2]
    simp
  rw [rstripEol, this]
  exact rstripBy_append (by intro c hc; rcases List.mem_append.1 hc with h | h; exacts [h1 c h, he c h]) h3

theorem nl_eol : AllP isEol ['\n'] := by intro c hc; simp at hc; subst hc; rfl

/-- The two kinds of lines: blank ones, and those with a content `s` after white space. -/
theorem canon_cases (l : Line) (hne : l.isEof = false) :
    (∃ e, AllP isEol e ∧ AllP isSpace (rstripEol l.text) ∧ l.text = rstripEol l.text ++ e ∧ l.canon.text = rstripEol l.text ++ ['\n'] ∧
      l.trimmed = [] ∧ l.canon.trimmed = []) ∨
    (∃ a s e, AllP isSpace a ∧ AllP isEol e ∧ s ≠ [] ∧ NoHead isSpace s ∧ l.text = a ++ s ++ e ∧ l.canon.text = a ++ s ++ ['\n'] ∧
      l.trimmed = s ++ e ∧ l.canon.trimmed = s ++ ['\n'] ∧ l.indent = a.length ∧ l.canon.indent = a.length) := by
  obtain ⟨e, he, ht, _⟩ := rstripBy_spec (p := isEol) l.text
  have hne' : l.text ≠ [] := by intro h; simp [Line.isEof, h] at hne
  have hc : l.canon.text = rstripEol l.text ++ ['\n'] := by simp [Line.canon, hne']
  obtain ⟨a, ha, hs, hn⟩ := lstripBy_spec (p := isSpace) (rstripEol l.text)
  by_cases hz : lstripBy isSpace (rstripEol l.text) = []
  · left
    rw [hz, List.append_nil] at hs
    have hall : AllP isSpace (rstripEol l.text) := by rw [hs]; exact ha
    refine ⟨e, he, hall, ht, hc, ?_, ?_⟩
    · unfold Line.trimmed lstrip
      rw [ht]
      exact lstripBy_all (by intro c h; rcases List.mem_append.1 h with h | h; exacts [hall c h, allEol_space he c h])
    · unfold Line.trimmed lstrip
      rw [hc]
      exact lstripBy_all (by intro c h; rcases List.mem_append.1 h with h | h; exacts [hall c h, allEol_space nl_eol c h])
  · right
    have hh : ∀ e, NoHead isSpace (lstripBy isSpace (rstripEol l.text) ++ e) := by
      intro e c hcc
      cases hl : lstripBy isSpace (rstripEol l.text) with
      | nil => exact absurd hl hz
      | cons x xs => rw [hl] at hcc hn; exact hn c (by simpa using hcc)
    have t1 : l.text = a ++ (lstripBy isSpace (rstripEol l.text) ++ e) := by
      rw [← List.append_assoc, ← hs]; exact ht
    have t2 : l.canon.text = a ++ (lstripBy isSpace (rstripEol l.text) ++ ['\n']) := by
      rw [← List.append_assoc, ← hs]; exact hc
    have l1 : l = ⟨a ++ (lstripBy isSpace (rstripEol l.text) ++ e), l.number⟩ := by rw [← t1]
    have l2 : l.canon = ⟨a ++ (lstripBy isSpace (rstripEol l.text) ++ ['\n']), l.canon.number⟩ := by rw [← t2]
    refine ⟨a, lstripBy isSpace (rstripEol l.text), e, ha, he, hz, hn, by rw [List.append_assoc]; exact t1, by rw [List.append_assoc]; exact t2, ?_, ?_, ?_, ?_⟩
    · have := trimmed_append (n := l.number) ha (hh e); rw [← l1] at this; exact this
    · have := trimmed_append (n := l.canon.number) ha (hh ['\n']); rw [← l2] at this; exact this
    · have := indent_append (n := l.number) ha (hh e); rw [← l1] at this; exact this
    · have := indent_append (n := l.canon.number) ha (hh ['\n']); rw [← l2] at this; exact this

theorem canon_eof (l : Line) : l.canon.isEof = l.isEof := by
  unfold Line.canon Line.isEof
  by_cases h : l.text = []
  · simp [h]
  · simp only [h, if_false]
    rw [Bool.eq_iff_iff, List.isEmpty_iff, List.isEmpty_iff]
    simp [h]

theorem canon_of_eof {l : Line} (h : l.isEof = true) : l.canon = l := by
  rcases l with ⟨text, n⟩
  have : text = [] := by simpa [Line.isEof] using h
  subst this; rfl

theorem canon_blank (l : Line) : l.canon.isBlank = l.isBlank := by
  cases hne : l.isEof with
  | true => rw [canon_of_eof hne]
  | false =>
    rcases canon_cases l hne with ⟨e, _, _, _, _, h1, h2⟩ | ⟨a, s, e, _, _, hs, _, _, _, h1, h2, _⟩
    · simp [Line.isBlank, h1, h2]
    · cases s with
      | nil => exact absurd rfl hs
      | cons c s => simp [Line.isBlank, h1, h2]

/-- A word without line end characters. -/
def NoEol (p : Str) : Prop := ∀ c ∈ p, isEol c = false

theorem prefix_append {p s e : Str} (hp : NoEol p) (he : AllP isEol e) : p <+: s ++ e ↔ p <+: s := by
  constructor
  · rintro ⟨r, hr⟩
    rcases List.append_eq_append_iff.1 hr with ⟨a, rfl, _⟩ | ⟨a, h1, h2⟩
    · exact ⟨a, rfl⟩
    · cases a with
      | nil => simp at h1; exact ⟨[], by simp [h1]⟩
      | cons c a =>
        have := hp c (by rw [h1]; simp)
        rw [he c (by rw [h2]; simp)] at this; simp at this
  · rintro ⟨r, rfl⟩; exact ⟨r ++ e, by simp⟩

theorem canon_startsWith (l : Line) {p : Str} (hp : NoEol p) : l.canon.startsWith p = l.startsWith p := by
  cases hne : l.isEof with
  | true => rw [canon_of_eof hne]
  | false =>
    unfold Line.startsWith Gherkin.startsWith
    rcases canon_cases l hne with ⟨e, _, _, _, _, h1, h2⟩ | ⟨a, s, e, _, he, hs, _, _, _, h1, h2, _⟩
    · rw [h1, h2]
    · rw [h1, h2, Bool.eq_iff_iff, List.isPrefixOf_iff_prefix, List.isPrefixOf_iff_prefix, prefix_append hp nl_eol, prefix_append hp he]

theorem canon_title (l : Line) {kw : Str} (hp : NoEol kw) : l.canon.startsWithTitle kw = l.startsWithTitle kw :=
  canon_startsWith l (p := kw ++ [':']) (by intro c hc; simp at hc; rcases hc with h | h; exacts [hp c h, by subst h; rfl])

theorem canon_rest (l : Line) (n : Nat) : l.canon.restTrimmed n = l.restTrimmed n := by
  cases hne : l.isEof with
  | true => rw [canon_of_eof hne]
  | false =>
    unfold Line.restTrimmed
    rcases canon_cases l hne with ⟨e, _, _, _, _, h1, h2⟩ | ⟨a, s, e, _, he, hs, _, _, _, h1, h2, _⟩
    · rw [h1, h2]
    · have key : ∀ e : Str, AllP isEol e → strip ((s ++ e).drop n) = strip (s.drop n) := by
        intro e he
        rw [List.drop_append]
        exact strip_append_white _ (fun c hc => allEol_space he c (List.mem_of_mem_drop hc))
      rw [h1, h2, key _ he, key _ nl_eol]

theorem canon_strip (l : Line) : strip l.canon.trimmed = strip l.trimmed := by
  have := canon_rest l 0
  simpa [Line.restTrimmed] using this

theorem canon_indent {l : Line} (h : l.isBlank = false) : l.canon.indent = l.indent := by
  cases hne : l.isEof with
  | true => rw [canon_of_eof hne]
  | false =>
    rcases canon_cases l hne with ⟨e, _, _, _, _, h1, h2⟩ | ⟨a, s, e, _, he, hs, _, _, _, h1, h2, h3, h4⟩
    · simp [Line.isBlank, h1] at h
    · rw [h3, h4]

theorem canon_tags (l : Line) : l.canon.tags = l.tags := by
  unfold Line.tags
  rw [canon_strip]
  cases hb : l.isBlank with
  | false => rw [canon_indent hb]
  | true =>
    have : l.trimmed = [] := by simpa [Line.isBlank] using hb
    rw [this]
    rfl

theorem canon_cells (l : Line) : l.canon.tableCells = l.tableCells := by
  unfold Line.tableCells
  rw [canon_strip]
  cases hb : l.isBlank with
  | false => rw [canon_indent hb]
  | true =>
    have : l.trimmed = [] := by simpa [Line.isBlank] using hb
    rw [this]
    rfl

theorem header_strip {nm s : Str} : IsHeader nm s ↔ IsHeader nm (strip s) := by
  constructor
  · rintro ⟨h1, h2, a, b, c, d, e, ha, hb, hc, hd, he, rfl⟩
    refine ⟨h1, h2, [], b, c, d, [], by simp [White], hb, hc, hd, by simp [White], ?_⟩
    have hl : NoLast isSpace (['#'] ++ b ++ py"language" ++ c ++ [':'] ++ d ++ nm) := by
      intro x hx
      have hx' : nm.getLast? = some x := by
        rw [List.getLast?_append] at hx
        cases hn : nm.getLast? with
        | none => rw [List.getLast?_eq_none_iff] at hn; exact absurd hn h1
        | some y => rw [hn] at hx; simpa using hx
      have := h2 x (List.mem_of_getLast? hx')
      have key : ∀ x, langChar x → isSpace x = false := by
        intro x hx
        unfold langChar at hx
        have bnd : ∀ {lo hi : Char}, lo ≤ x ∧ x ≤ hi → lo.toNat ≤ x.toNat ∧ x.toNat ≤ hi.toNat := fun h => ⟨h.1, h.2⟩
        rcases hx with h | h | h | h
        · have := bnd h
          simp only [show 'a'.toNat = 97 from rfl, show 'z'.toNat = 122 from rfl] at this
          simp [isSpace]; omega
        · have := bnd h
          simp only [show 'A'.toNat = 65 from rfl, show 'Z'.toNat = 90 from rfl] at this
          simp [isSpace]; omega
        · subst h; rfl
        · subst h; rfl
      exact key x this
    have := strip_core (a := a) (b := e) (s := ['#'] ++ b ++ py"language" ++ c ++ [':'] ++ d ++ nm) ha he
      (by intro x hx; simp at hx; subst hx; rfl) hl
    simp only [List.append_assoc] at this ⊢
    rw [this]; simp
  · rintro ⟨h1, h2, a, b, c, d, e, ha, hb, hc, hd, he, h⟩
    obtain ⟨x, y, hx, hy, hs, _⟩ := strip_spec s
    refine ⟨h1, h2, x ++ a, b, c, d, e ++ y, ?_, hb, hc, hd, ?_, ?_⟩
    · intro z hz; rcases List.mem_append.1 hz with h | h; exacts [hx z h, ha z h]
    · intro z hz; rcases List.mem_append.1 hz with h | h; exacts [he z h, hy z h]
    · rw [hs, h]; simp

theorem canon_language (l : Line) : Classic.languageName l.canon.lineText = Classic.languageName l.lineText := by
  have key : ∀ (l : Line) (nm : Str), Classic.languageName l.lineText = some nm ↔ IsHeader nm (strip l.trimmed) := by
    intro l nm
    rw [languageName_iff, header_strip]; rfl
  cases h : Classic.languageName l.lineText with
  | none =>
    cases h' : Classic.languageName l.canon.lineText with
    | none => rfl
    | some nm =>
      have := (key _ _).1 h'
      rw [canon_strip] at this
      rw [(key _ _).2 this] at h; simp at h
  | some nm =>
    have := (key _ _).1 h
    rw [← canon_strip] at this
    rw [(key _ _).2 this]

theorem canon_comment (l : Line) : rstripEol l.canon.text = rstripEol l.text := by
  cases hne : l.isEof with
  | true => rw [canon_of_eof hne]
  | false =>
    have hne' : l.text ≠ [] := by intro h; simp [Line.isEof, h] at hne
    simp only [Line.canon, hne', if_false]
    rw [rstripEol_append _ nl_eol]
    obtain ⟨w, h1, h2, h3⟩ := rstripBy_spec (p := isEol) l.text
    exact rstripBy_id h3

theorem outdent_white {w : Str} (h : AllP isSpace w) (n : Nat) : outdent n w = w.drop n := by
  induction w generalizing n with
  | nil => cases n <;> rfl
  | cons c cs ih =>
    cases n with
    | zero => rfl
    | succ n =>
      simp only [outdent, h c (by simp), if_true, List.drop_succ_cons]
      exact ih (fun x hx => h x (by simp [hx])) n

theorem outdent_content {a s : Str} (ha : AllP isSpace a) (hs : NoHead isSpace s) (hne : s ≠ []) (e : Str) (n : Nat) :
    outdent n (a ++ s ++ e) = outdent n (a ++ s) ++ e := by
  induction a generalizing n with
  | nil =>
    cases s with
    | nil => exact absurd rfl hne
    | cons c cs =>
      have := hs c rfl
      cases n <;> simp [outdent, this]
  | cons c cs ih =>
    cases n with
    | zero => rfl
    | succ n =>
      simp only [List.cons_append, outdent, ha c (by simp), if_true]
      exact ih (fun x hx => ha x (by simp [hx])) n

theorem unescape_append {active : Option Str} (x : Str) {e : Str} (he : AllP isEol e) :
    Classic.unescapeDoc active (x ++ e) = Classic.unescapeDoc active x ++ e := by
  have hne : ∀ old : Str, NoEol old → ∀ c ∈ e, c ∉ old := by
    intro old ho c hc hm
    have := ho c hm
    rw [he c hc] at this; simp at this
  unfold Classic.unescapeDoc
  split
  · exact replaceAll_append (by decide) (hne _ (by unfold NoEol; decide)) _ x rfl
  · split
    · exact replaceAll_append (by decide) (hne _ (by unfold NoEol; decide)) _ x rfl
    · rfl

theorem canon_other (l : Line) (active : Option Str) (n : Nat) :
    rstripEol (Classic.unescapeDoc active (l.canon.lineTextFrom n)) = rstripEol (Classic.unescapeDoc active (l.lineTextFrom n)) := by
  cases hne : l.isEof with
  | true => rw [canon_of_eof hne]
  | false =>
    rw [outdent_eq, outdent_eq]
    rcases canon_cases l hne with ⟨e, he, hw, h1, h2, _, _⟩ | ⟨a, s, e, ha, he, hs, hn, h1, h2, _⟩
    · have key : ∀ e : Str, AllP isEol e → rstripEol (Classic.unescapeDoc active (outdent n (rstripEol l.text ++ e))) =
          rstripEol (Classic.unescapeDoc active ((rstripEol l.text).drop n)) := by
        intro e he
        rw [outdent_white (by intro c h; rcases List.mem_append.1 h with h | h; exacts [hw c h, allEol_space he c h]), List.drop_append]
        have he' : AllP isEol (e.drop (n - (rstripEol l.text).length)) := fun c hc => he c (List.mem_of_mem_drop hc)
        rw [unescape_append _ he', rstripEol_append _ he']
      rw [h2, key _ nl_eol]
      conv => rhs; rw [h1]
      rw [key _ he]
    · rw [h1, h2, outdent_content ha hn hs, outdent_content ha hn hs, unescape_append _ he, unescape_append _ nl_eol, rstripEol_append _ he,
        rstripEol_append _ nl_eol]

/-! ### Matching -/

/-- No keyword contains a line end. -/
def eolFree (d : Dialect) : Bool :=
  (titleKinds.all fun k => (d.titles k).all fun kw => kw.all fun c => !isEol c) && d.stepKeywords.all fun kw => kw.all fun c => !isEol c

theorem dialects_eolFree : dialects.all (fun p => eolFree p.2) = true := by decide +kernel

theorem Dialect.Known.eolFree {d : Dialect} (h : d.Known) : eolFree d = true := by
  obtain ⟨name, h⟩ := h
  exact List.all_eq_true.1 dialects_eolFree _ (lookup_mem h)

theorem title_noEol {d : Dialect} (h : d.Known) {k : Kind} {kw : Str} (hk : kw ∈ d.titles k) : NoEol kw := by
  have := h.eolFree
  simp only [Gherkin.eolFree, Bool.and_eq_true, List.all_eq_true] at this
  intro c hc
  simpa using this.1 k (titles_kind hk) kw hk c hc

theorem step_noEol {d : Dialect} (h : d.Known) {kw : Str} (hk : kw ∈ d.stepKeywords) : NoEol kw := by
  have := h.eolFree
  simp only [Gherkin.eolFree, Bool.and_eq_true, List.all_eq_true] at this
  intro c hc
  simpa using this.2 kw hk c hc

/-- A matcher as it is during a parse. -/
structure CState.Good (m : CState) : Prop where
  valid : m.Valid
  sep : ∀ s, m.active = some s → s = Classic.quotes ∨ s = Classic.ticks

theorem find_congr {α : Type} {p q : α → Bool} {l : List α} (h : ∀ x ∈ l, p x = q x) : l.find? p = l.find? q := by
  induction l with
  | nil => rfl
  | cons x xs ih =>
    simp only [List.find?_cons, h x (by simp)]
    rw [ih fun y hy => h y (by simp [hy])]

/-- What matching a canonical token gives. -/
def canonRes (r : Except MExc Bool × Token × CState) : Except MExc Bool × Token × CState := (r.1, r.2.1.canon, r.2.2)

theorem setMatched_canon {dn : Str} {t : Token} {k : Option Kind} {x x' : Option Str} {kw : Option Str} {kt : Option KType} {i : Option Nat}
    {its : List MItem} (hx : x'.map rstripEol = x.map rstripEol) (hi : i = none → t.line.isEof = true ∨ t.line.isBlank = false) :
    setMatched dn t.canon k x' kw kt i its = (setMatched dn t k x kw kt i its).canon := by
  have h1 : t.canon.line = t.line.canon := rfl
  cases i with
  | some n => simp only [setMatched, Token.canon, hx]
  | none =>
    have : (if t.canon.line.isEof = true then 0 else t.canon.line.indent) = (if t.line.isEof = true then 0 else t.line.indent) := by
      rw [h1, canon_eof]
      rcases hi rfl with h | h
      · simp [h]
      · rw [canon_indent h]
    unfold setMatched
    simp only [this, hx]
    rfl

theorem not_blank_of_prefix {l : Line} {p : Str} (h : l.startsWith p = true) (hp : p ≠ []) : l.isBlank = false := by
  have := startsWith_split h
  cases hb : l.isBlank with
  | false => rfl
  | true =>
    have h0 : l.trimmed = [] := by simpa [Line.isBlank] using hb
    rw [h0] at this
    cases p with
    | nil => exact absurd rfl hp
    | cons c p => simp at this

theorem matchTitle_canon {d : Dialect} (hd : d.Known) {k k' : Kind} (t : Token) (m : CState) :
    Classic.matchTitle k (d.titles k') t.canon m = canonRes (Classic.matchTitle k (d.titles k') t m) := by
  have hl : t.canon.line = t.line.canon := rfl
  have hf : (d.titles k').find? (fun kw => t.canon.line.startsWithTitle kw) = (d.titles k').find? (fun kw => t.line.startsWithTitle kw) :=
    find_congr fun kw hkw => canon_title t.line (title_noEol hd hkw)
  unfold Classic.matchTitle
  rw [hf]
  cases hr : (d.titles k').find? (fun kw => t.line.startsWithTitle kw) with
  | none => rfl
  | some kw =>
    simp only [canonRes]
    rw [setMatched_canon (x := some (t.line.restTrimmed (kw.length + 1)))]
    · rw [hl, canon_rest]
    · intro _
      have h9 := List.find?_some hr
      exact .inr (not_blank_of_prefix (p := kw ++ [':']) h9 (by simp))

theorem matchSep_canon {s : Str} (hs : s = Classic.quotes ∨ s = Classic.ticks) (o : Bool) (t : Token) (m : CState) :
    Classic.matchSep s o t.canon m = canonRes (Classic.matchSep s o t m) := by
  have hl : t.canon.line = t.line.canon := rfl
  have hne : NoEol s := by unfold NoEol; rcases hs with rfl | rfl <;> decide
  have hn : s ≠ [] := by rcases hs with rfl | rfl <;> decide
  unfold Classic.matchSep
  rw [hl, canon_startsWith _ hne]
  split
  · rename_i hst
    have hb := not_blank_of_prefix hst hn
    cases o with
    | true =>
      simp only [if_true, canonRes]
      rw [setMatched_canon (x := some (t.line.restTrimmed s.length)) (by rw [canon_rest]) (fun _ => .inr hb), canon_indent hb]
    | false =>
      simp only [Bool.false_eq_true, if_false, canonRes]
      rw [setMatched_canon (x := none) rfl (fun _ => .inr hb)]
  · rfl

theorem matchKind_canon (k : Kind) (t : Token) {m : CState} (hm : m.Good) :
    Classic.matchKind k t.canon m = canonRes (Classic.matchKind k t m) := by
  have hd := hm.valid.known
  have hl : t.canon.line = t.line.canon := rfl
  cases k <;> simp only [Classic.matchKind]
  case featureLine => exact matchTitle_canon hd (k' := .featureLine) t m
  case ruleLine => exact matchTitle_canon hd (k' := .ruleLine) t m
  case backgroundLine => exact matchTitle_canon hd (k' := .backgroundLine) t m
  case scenarioLine => exact matchTitle_canon hd (k' := .scenarioLine) t m
  case examplesLine => exact matchTitle_canon hd (k' := .examplesLine) t m
  case eof =>
    unfold Classic.matchEof Token.eof
    rw [hl, canon_eof]
    split
    · rename_i h
      simp only [canonRes]
      rw [setMatched_canon (x := none) rfl (fun _ => .inl h)]
    · rfl
  case empty =>
    unfold Classic.matchEmpty
    rw [hl, canon_blank]
    split
    · simp only [canonRes]
      rw [setMatched_canon (x := none) rfl (by simp)]
    · rfl
  case comment =>
    unfold Classic.matchComment
    rw [hl, canon_startsWith _ (by unfold NoEol; decide)]
    split
    · simp only [canonRes]
      rw [setMatched_canon (x := some t.line.text) (by simp [canon_comment]) (by simp)]
    · rfl
  case tagLine =>
    unfold Classic.matchTagLine
    rw [hl, canon_startsWith _ (by unfold NoEol; decide), canon_tags]
    split
    · rename_i h
      cases t.line.tags with
      | error c => rfl
      | ok tags =>
        simp only [canonRes]
        rw [setMatched_canon (x := none) rfl (fun _ => .inr (not_blank_of_prefix h (by simp)))]
    · rfl
  case tableRow =>
    unfold Classic.matchTableRow
    rw [hl, canon_startsWith _ (by unfold NoEol; decide), canon_cells]
    split
    · rename_i h
      cases t.line.tableCells with
      | error c => rfl
      | ok tags =>
        simp only [canonRes]
        rw [setMatched_canon (x := none) rfl (fun _ => .inr (not_blank_of_prefix h (by simp)))]
    · rfl
  case stepLine =>
    have hf : m.dialect.stepKeywords.find? (fun kw => t.canon.line.startsWith kw) = m.dialect.stepKeywords.find? (fun kw => t.line.startsWith kw) :=
      find_congr fun kw hkw => canon_startsWith t.line (step_noEol hd hkw)
    unfold Classic.matchStep
    rw [hf]
    cases hr : m.dialect.stepKeywords.find? (fun kw => t.line.startsWith kw) with
    | none => rfl
    | some kw =>
      simp only [canonRes]
      rw [setMatched_canon (x := some (t.line.restTrimmed kw.length))]
      · rw [hl, canon_rest]
      · intro _
        refine .inr (not_blank_of_prefix (p := kw) (List.find?_some hr) ?_)
        have := hd.step_head (List.mem_of_find?_eq_some hr)
        rintro rfl; simp [headOk] at this
  case docStringSeparator =>
    unfold Classic.matchDocSep
    cases ha : m.active with
    | none =>
      simp only
      rw [hl, canon_startsWith _ (by unfold NoEol; decide)]
      split
      · exact matchSep_canon (.inl rfl) true t m
      · exact matchSep_canon (.inr rfl) true t m
    | some s => exact matchSep_canon (hm.sep s ha) false t m
  case language =>
    unfold Classic.matchLanguage
    rw [hl, canon_language]
    cases hn : Classic.languageName t.line.lineText with
    | none => rfl
    | some nm =>
      have hb : t.line.isBlank = false := by
        have := header_comment (header_iff.1 hn)
        obtain ⟨a, b, ha, hb⟩ := this
        have h1 : (Line.mk (a ++ '#' :: b) t.line.number).trimmed = '#' :: b := trimmed_append ha (by intro c hc; simp at hc; subst hc; rfl)
        have h2 : t.line = ⟨a ++ '#' :: b, t.line.number⟩ := by rw [← hb]
        rw [h2, Line.isBlank, h1]; rfl
      have hset := setMatched_canon (dn := m.dialectName) (t := t) (k := some .language) (x := some nm) (x' := some nm) (kw := none) (kt := none)
        (i := none) (its := []) rfl (fun _ => .inr hb)
      simp only [hset]
      cases dialectFor nm with
      | some d => rfl
      | none => rfl
  case other =>
    unfold Classic.matchOther
    simp only [canonRes]
    rw [setMatched_canon (x := some (Classic.unescapeDoc m.active (t.line.lineTextFrom m.indentToRemove))) _ (by simp)]
    rw [hl, Option.map_some, Option.map_some, canon_other]

theorem matchKind_goodState (k : Kind) (t : Token) {m : CState} (hm : m.Good) : (Classic.matchKind k t m).2.2.Good := by
  refine ⟨Classic.matchKind_valid hm.valid, ?_⟩
  have h0 := hm.sep
  cases k <;>
    simp only [Classic.matchKind, Classic.matchEof, Classic.matchEmpty, Classic.matchComment, Classic.matchTagLine, Classic.matchTitle,
      Classic.matchStep, Classic.matchDocSep, Classic.matchSep, Classic.matchTableRow, Classic.matchLanguage, Classic.matchOther] <;>
    (repeat' split) <;> first | exact h0 | contradiction | (intro s hs; simp at hs; subst hs; simp) | (intro s hs; simp at hs)

end Gherkin
