import Verif.Line

/-! Facts about stripping. -/

namespace Gherkin

/-- All characters of `s` satisfy `p`. -/
def AllP (p : Char → Bool) (s : Str) : Prop := ∀ c ∈ s, p c = true

/-- `s` does not begin with a character satisfying `p`. -/
def NoHead (p : Char → Bool) (s : Str) : Prop := ∀ c, s.head? = some c → p c = false
/-- `s` does not end with a character satisfying `p`. -/
def NoLast (p : Char → Bool) (s : Str) : Prop := ∀ c, s.getLast? = some c → p c = false

variable {p : Char → Bool}

theorem lstripBy_append {w s : Str} (hw : AllP p w) (hs : NoHead p s) : lstripBy p (w ++ s) = s := by
  induction w with
  | nil =>
    cases s with
    | nil => rfl
    | cons c s => simp [lstripBy, List.dropWhile, hs c rfl]
  | cons c w ih =>
    have := hw c (by simp)
    simp [lstripBy, List.dropWhile, this] at ih ⊢
    exact ih fun x hx => hw x (by simp [hx])

theorem rstripBy_append {w s : Str} (hw : AllP p w) (hs : NoLast p s) : rstripBy p (s ++ w) = s := by
  unfold rstripBy
  have := lstripBy_append (p := p) (w := w.reverse) (s := s.reverse) (fun c hc => hw c (by simpa using hc))
    (fun c hc => hs c (by simpa using hc))
  rw [List.reverse_append]
  simp only [lstripBy] at this
  rw [this]; simp

theorem lstripBy_spec (s : Str) : ∃ w, AllP p w ∧ s = w ++ lstripBy p s ∧ NoHead p (lstripBy p s) := by
  induction s with
  | nil => exact ⟨[], by simp [AllP], rfl, by simp [lstripBy, NoHead]⟩
  | cons c s ih =>
    obtain ⟨w, h1, h2, h3⟩ := ih
    by_cases hc : p c = true
    · refine ⟨c :: w, ?_, ?_, ?_⟩
      · intro x hx; simp at hx; rcases hx with rfl | hx
        · exact hc
        · exact h1 x hx
      · simp [lstripBy, List.dropWhile, hc]; exact h2
      · simpa [lstripBy, List.dropWhile, hc] using h3
    · refine ⟨[], by simp [AllP], by simp [lstripBy, List.dropWhile, hc], ?_⟩
      intro x hx
      simp [lstripBy, List.dropWhile, hc] at hx
      subst hx; simpa using hc

theorem rstripBy_spec (s : Str) : ∃ w, AllP p w ∧ s = rstripBy p s ++ w ∧ NoLast p (rstripBy p s) := by
  obtain ⟨w, h1, h2, h3⟩ := lstripBy_spec (p := p) s.reverse
  refine ⟨w.reverse, fun c hc => h1 c (by simpa using hc), ?_, ?_⟩
  · have := congrArg List.reverse h2
    simpa [rstripBy, lstripBy] using this
  · intro c hc
    apply h3 c
    simpa [rstripBy, lstripBy] using hc

theorem lstripBy_id {s : Str} (hs : NoHead p s) : lstripBy p s = s := by
  have := lstripBy_append (p := p) (w := []) (by simp [AllP]) hs
  simpa using this

theorem rstripBy_id {s : Str} (hs : NoLast p s) : rstripBy p s = s := by
  have := rstripBy_append (p := p) (w := []) (by simp [AllP]) hs
  simpa using this

theorem lstripBy_all {s : Str} (hs : AllP p s) : lstripBy p s = [] := by
  have := lstripBy_append (p := p) (w := s) (s := []) hs (by simp [NoHead])
  simpa using this

theorem rstripBy_all {s : Str} (hs : AllP p s) : rstripBy p s = [] := by
  have := rstripBy_append (p := p) (w := s) (s := []) hs (by simp [NoLast])
  simpa using this

theorem rstripBy_head {s : Str} (hs : NoHead p s) : NoHead p (rstripBy p s) := by
  obtain ⟨w, h1, h2, h3⟩ := rstripBy_spec (p := p) s
  intro c hc
  apply hs c
  rw [h2]
  cases h : rstripBy p s with
  | nil => rw [h] at hc; simp at hc
  | cons a r => rw [h] at hc; simpa using hc

/-- Stripping a core that neither begins nor ends with white space out of white space. -/
theorem strip_core {a s b : Str} (ha : AllP isSpace a) (hb : AllP isSpace b) (h1 : NoHead isSpace s) (h2 : NoLast isSpace s) :
    strip (a ++ s ++ b) = s := by
  unfold strip lstrip rstrip
  by_cases hs : s = []
  · subst hs
    rw [lstripBy_all (by intro c hc; simp at hc; rcases hc with hc | hc; exact ha c hc; exact hb c hc)]
    rfl
  · rw [List.append_assoc, lstripBy_append ha, rstripBy_append hb h2]
    intro c hc
    cases s with
    | nil => exact absurd rfl hs
    | cons x s => exact h1 c (by simpa using hc)

theorem strip_spec (s : Str) : ∃ a b, AllP isSpace a ∧ AllP isSpace b ∧ s = a ++ strip s ++ b ∧
    NoHead isSpace (strip s) ∧ NoLast isSpace (strip s) := by
  obtain ⟨a, h1, h2, h3⟩ := lstripBy_spec (p := isSpace) s
  obtain ⟨b, h4, h5, h6⟩ := rstripBy_spec (p := isSpace) (lstripBy isSpace s)
  refine ⟨a, b, h1, h4, ?_, rstripBy_head h3, h6⟩
  show s = a ++ rstripBy isSpace (lstripBy isSpace s) ++ b
  rw [List.append_assoc, ← h5]; exact h2

/-- A line in front of whose text there is white space. -/
theorem trimmed_append {a s : Str} {n : Nat} (ha : AllP isSpace a) (hs : NoHead isSpace s) : (Line.mk (a ++ s) n).trimmed = s :=
  lstripBy_append ha hs

theorem indent_append {a s : Str} {n : Nat} (ha : AllP isSpace a) (hs : NoHead isSpace s) : (Line.mk (a ++ s) n).indent = a.length := by
  unfold Line.indent
  rw [trimmed_append ha hs]
  simp

theorem trimmed_spec (l : Line) : ∃ a, AllP isSpace a ∧ l.text = a ++ l.trimmed ∧ NoHead isSpace l.trimmed ∧ a.length = l.indent := by
  obtain ⟨a, h1, h2, h3⟩ := lstripBy_spec (p := isSpace) l.text
  refine ⟨a, h1, h2, h3, ?_⟩
  unfold Line.indent
  have := congrArg List.length h2
  simp [Line.trimmed, lstrip] at this ⊢
  omega

end Gherkin
