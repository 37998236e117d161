import Verif.Spec.LineKind
import Verif.Proofs.RunSplit

/-! How the matcher recognises a line outside doc strings: exactly the tests of `lineKind`. -/

namespace Gherkin

theorem isBlankLine_iff (l : Line) : isBlankLine l = l.isBlank := by
  unfold isBlankLine Line.isBlank Line.trimmed lstrip lstripBy
  induction l.text with
  | nil => rfl
  | cons c cs ih =>
    by_cases hc : isSpace c = true
    · simp only [List.all_cons, hc, Bool.true_and, List.dropWhile_cons, if_true]; exact ih
    · simp [hc]

theorem firstIs_iff (c : Char) (l : Line) : firstIs c l = l.startsWith [c] := by
  unfold firstIs Line.startsWith startsWith Line.trimmed
  cases lstrip l.text with
  | nil => simp [List.isPrefixOf]
  | cons d ds => simp [List.isPrefixOf, Bool.beq_comm]

theorem isTitle_iff (kws : List Str) (l : Line) : isTitle kws l = kws.any fun k => l.startsWithTitle k := rfl
theorem isStep_iff (d : Dialect) (l : Line) : isStep d l = d.stepKeywords.any fun k => l.startsWith k := rfl

/-- The first character of the line apart from white space, if any. -/
theorem head_cases (l : Line) : l.trimmed = [] ∨ ∃ c cs, l.trimmed = c :: cs ∧ isSpace c = false := by
  unfold Line.trimmed lstrip lstripBy
  cases h : List.dropWhile isSpace l.text with
  | nil => exact .inl rfl
  | cons c cs =>
    refine .inr ⟨c, cs, rfl, ?_⟩
    have := List.head?_dropWhile_not isSpace l.text
    rw [h] at this
    simpa using this

/-- The keyword tests only succeed on lines that begin with an ordinary character. -/
theorem title_marker {d : Dialect} (hd : d.Known) {k : Kind} {l : Line} (h : isTitle (d.titles k) l = true) :
    ∃ c cs, l.trimmed = c :: cs ∧ isMarker c = false := by
  rw [isTitle_iff, List.any_eq_true] at h
  obtain ⟨kw, h1, h2⟩ := h
  exact startsWith_head h2 (headOk_colon (hd.title_head h1))

theorem step_marker {d : Dialect} (hd : d.Known) {l : Line} (h : isStep d l = true) : ∃ c cs, l.trimmed = c :: cs ∧ isMarker c = false := by
  rw [isStep_iff, List.any_eq_true] at h
  obtain ⟨kw, h1, h2⟩ := h
  exact startsWith_head h2 (hd.step_head h1)

/-- The test for a kind, apart from the end of the file and the language header. -/
def fits (d : Dialect) (l : Line) : Kind → Bool
  | .empty => isBlankLine l
  | .comment => firstIs '#' l
  | .tagLine => firstIs '@' l
  | .tableRow => firstIs '|' l
  | .docStringSeparator => docDelimiters.any (isDelim · l)
  | .stepLine => isStep d l
  | .other => true
  | .eof | .language => false
  | k => isTitle (d.titles k) l

theorem marker_char {l : Line} {c : Char} {cs : Str} (h : l.trimmed = c :: cs) :
    isBlankLine l = false ∧ (∀ x, firstIs x l = (c == x)) ∧ (isMarker c = false → docDelimiters.any (isDelim · l) = false) ∧
    (docDelimiters.any (isDelim · l) = true → c = '"' ∨ c = '`') := by
  have e : isDelim = fun (s : Str) (l : Line) => s.isPrefixOf l.trimmed := rfl
  refine ⟨?_, ?_, ?_, ?_⟩
  · rw [isBlankLine_iff, Line.isBlank, h]; rfl
  · intro x; show ((l.trimmed).head? == some x) = _; rw [h]; rfl
  · intro hm
    have h1 : ¬ c = '"' := by rintro rfl; simp [isMarker] at hm
    have h2 : ¬ c = '`' := by rintro rfl; simp [isMarker] at hm
    simp only [e, docDelimiters, List.any_cons, List.any_nil, h, Bool.or_false, List.isPrefixOf, Bool.or_eq_false_iff]
    refine ⟨?_, ?_⟩ <;> simp <;> intro h' <;> exact absurd h'.symm (by assumption)
  · simp only [e, docDelimiters, List.any_cons, List.any_nil, h, Bool.or_false, List.isPrefixOf, Bool.or_eq_true, Bool.and_eq_true, beq_iff_eq]
    rintro (h | h)
    · exact .inl h.1.symm
    · exact .inr h.1.symm

theorem isBlank_nil {l : Line} (h : l.trimmed = []) : isBlankLine l = true := by rw [isBlankLine_iff, Line.isBlank, h]; rfl

/-- Two tests never succeed on the same line. -/
theorem fits_unique {d : Dialect} (hd : d.Known) {l : Line} {k k' : Kind} (h : fits d l k = true) (h' : fits d l k' = true)
    (hk : k ≠ .other) (hk' : k' ≠ .other) : k = k' := by
  -- each test as a class of its own
  have cls : ∀ k, fits d l k = true → k ≠ .other →
      (k = .empty ∧ l.trimmed = []) ∨ ∃ c cs, l.trimmed = c :: cs ∧ isSpace c = false ∧
        ((k = .comment ∧ c = '#') ∨ (k = .tagLine ∧ c = '@') ∨ (k = .tableRow ∧ c = '|') ∨ (k = .docStringSeparator ∧ (c = '"' ∨ c = '`')) ∨
         (isMarker c = false ∧ ((k = .stepLine ∧ isStep d l = true) ∨ (k ∈ titleKinds ∧ isTitle (d.titles k) l = true)))) := by
    intro k h hk
    rcases head_cases l with he | ⟨c, cs, he, hs⟩
    · left
      have hf : ∀ x, firstIs x l = false := by intro x; show ((l.trimmed).head? == some x) = _; rw [he]; rfl
      have hn : ∀ c cs, l.trimmed = c :: cs → isMarker c = false → False := by intro c cs h; rw [he] at h; simp at h
      cases k <;> simp only [fits, hf] at h <;> try (simp at h; done)
      · exact ⟨rfl, he⟩
      case other => exact absurd rfl hk
      case stepLine => obtain ⟨c, cs, h1, h2⟩ := step_marker hd h; exact (hn c cs h1 h2).elim
      case docStringSeparator =>
        exfalso
        simp only [docDelimiters, List.any_cons, List.any_nil, isDelim, Bool.or_false] at h
        have : lstrip l.text = [] := he
        rw [this] at h; simp [List.isPrefixOf] at h
      all_goals (obtain ⟨c, cs, h1, h2⟩ := title_marker hd h; exact (hn c cs h1 h2).elim)
    · right
      refine ⟨c, cs, he, hs, ?_⟩
      obtain ⟨m1, m2, m3, m4⟩ := marker_char he
      have hm : ∀ c' cs', l.trimmed = c' :: cs' → isMarker c' = false → isMarker c = false := by
        intro c' cs' h; rw [he] at h; simp at h; rw [h.1]; exact id
      cases k <;> simp only [fits, m2, m1] at h <;> try (simp at h; done)
      case comment => simp at h; simp [h]
      case tagLine => simp at h; simp [h]
      case tableRow => simp at h; simp [h]
      case docStringSeparator => have := m4 h; simp [this]
      case other => exact absurd rfl hk
      case stepLine =>
        obtain ⟨c', cs', h1, h2⟩ := step_marker hd h
        simp [hm c' cs' h1 h2, h]
      all_goals
        obtain ⟨c', cs', h1, h2⟩ := title_marker hd h
        simp [hm c' cs' h1 h2, h, titleKinds]
  rcases cls k h hk with ⟨rfl, e⟩ | ⟨c, cs, e, _, h1⟩
  · rcases cls k' h' hk' with ⟨rfl, e'⟩ | ⟨c, cs, e', _⟩
    · rfl
    · rw [e] at e'; simp at e'
  · rcases cls k' h' hk' with ⟨rfl, e'⟩ | ⟨c', cs', e', _, h2⟩
    · rw [e] at e'; simp at e'
    · rw [e] at e'; simp at e'
      obtain ⟨rfl, rfl⟩ := e'
      have hmk : ∀ x, x = '#' ∨ x = '@' ∨ x = '|' ∨ x = '"' ∨ x = '`' → isMarker x = true := by
        rintro x (rfl | rfl | rfl | rfl | rfl) <;> decide
      rcases h1 with ⟨rfl, e1⟩ | ⟨rfl, e1⟩ | ⟨rfl, e1⟩ | ⟨rfl, e1⟩ | ⟨e1, h1⟩
      · rcases h2 with ⟨rfl, e2⟩ | ⟨rfl, e2⟩ | ⟨rfl, e2⟩ | ⟨rfl, e2⟩ | ⟨e2, h2⟩
        · rfl
        all_goals (subst e1; first | (simp at e2; done) | (rcases e2 with e2 | e2 <;> simp at e2; done) | (rw [hmk _ (by simp)] at e2; simp at e2))
      · rcases h2 with ⟨rfl, e2⟩ | ⟨rfl, e2⟩ | ⟨rfl, e2⟩ | ⟨rfl, e2⟩ | ⟨e2, h2⟩
        · subst e1; simp at e2
        · rfl
        all_goals (subst e1; first | (simp at e2; done) | (rcases e2 with e2 | e2 <;> simp at e2; done) | (rw [hmk _ (by simp)] at e2; simp at e2))
      · rcases h2 with ⟨rfl, e2⟩ | ⟨rfl, e2⟩ | ⟨rfl, e2⟩ | ⟨rfl, e2⟩ | ⟨e2, h2⟩
        · subst e1; simp at e2
        · subst e1; simp at e2
        · rfl
        all_goals (subst e1; first | (simp at e2; done) | (rcases e2 with e2 | e2 <;> simp at e2; done) | (rw [hmk _ (by simp)] at e2; simp at e2))
      · rcases h2 with ⟨rfl, e2⟩ | ⟨rfl, e2⟩ | ⟨rfl, e2⟩ | ⟨rfl, e2⟩ | ⟨e2, h2⟩
        · subst e2; simp at e1
        · subst e2; simp at e1
        · subst e2; simp at e1
        · rfl
        · rw [hmk c (by rcases e1 with e1 | e1 <;> simp [e1])] at e2; simp at e2
      · rcases h2 with ⟨rfl, e2⟩ | ⟨rfl, e2⟩ | ⟨rfl, e2⟩ | ⟨rfl, e2⟩ | ⟨e2, h2⟩
        · rw [hmk c (by simp [e2])] at e1; simp at e1
        · rw [hmk c (by simp [e2])] at e1; simp at e1
        · rw [hmk c (by simp [e2])] at e1; simp at e1
        · rw [hmk c (by rcases e2 with e2 | e2 <;> simp [e2])] at e1; simp at e1
        · rcases h1 with ⟨rfl, h1⟩ | ⟨_, h1⟩
          · rcases h2 with ⟨rfl, h2⟩ | ⟨_, h2⟩
            · rfl
            · rw [isTitle_iff, List.any_eq_true] at h2
              rw [isStep_iff, List.any_eq_true] at h1
              obtain ⟨kw, a1, a2⟩ := h2
              obtain ⟨st, b1, b2⟩ := h1
              have := hd.title_not_step a1 b1 a2
              simp only [Line.startsWith] at b2; rw [this] at b2; simp at b2
          · rcases h2 with ⟨rfl, h2⟩ | ⟨_, h2⟩
            · rw [isTitle_iff, List.any_eq_true] at h1
              rw [isStep_iff, List.any_eq_true] at h2
              obtain ⟨kw, a1, a2⟩ := h1
              obtain ⟨st, b1, b2⟩ := h2
              have := hd.title_not_step a1 b1 a2
              simp only [Line.startsWith] at b2; rw [this] at b2; simp at b2
            · rw [isTitle_iff, List.any_eq_true] at h1 h2
              obtain ⟨kw, a1, a2⟩ := h1
              obtain ⟨kw', b1, b2⟩ := h2
              exact hd.titles_disjoint a1 b1 a2 b2

theorem lineKind_fits (d : Dialect) (l : Line) : fits d l (lineKind d l) = true := by
  unfold lineKind
  repeat' split
  all_goals (first | rfl | (simp only [fits, Dialect.titles]; assumption) )

theorem lineKind_other {d : Dialect} {l : Line} (h : lineKind d l = .other) {k : Kind} (hk : k ≠ .other) : fits d l k = false := by
  unfold lineKind at h
  iterate 11 (split at h; · simp at h)
  cases k <;> simp only [fits, Dialect.titles] <;> first | exact absurd rfl hk | (rename_i h1 h2 h3 h4 h5 h6 h7 h8 h9 h10 h11; simp only [h1, h2, h3, h4, h5, h6, h7, h8, h9, h10, h11])

/-- A line is of a kind if and only if it passes the test for the kind. -/
theorem lineKind_iff {d : Dialect} (hd : d.Known) {l : Line} {k : Kind} (hk : k ≠ .other) : lineKind d l = k ↔ fits d l k = true := by
  constructor
  · rintro rfl; exact lineKind_fits d l
  · intro h
    by_cases ho : lineKind d l = .other
    · rw [lineKind_other ho hk] at h; simp at h
    · exact fits_unique hd (lineKind_fits d l) h ho hk

end Gherkin
