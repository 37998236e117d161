import Verif.Spec.LineEnds
import Verif.Proofs.EolParse
import Verif.Props.Samples

/-! # C45: line ends do not matter -/

namespace Gherkin

theorem splitLines_body {body : Str} (h : '\n' ∉ body) (s : Str) : splitLines (body ++ ['\n'] ++ s) = (body ++ ['\n']) :: splitLines s := by
  induction body with
  | nil => simp [splitLines]
  | cons c cs ih =>
    have hc : c ≠ '\n' := by rintro rfl; simp at h
    have := ih (by simp at h; exact h.2)
    simp only [List.cons_append, splitLines, beq_iff_eq, hc, if_false, this]

theorem splitLines_end {body e : Str} (h : '\n' ∉ body) (he : IsLineEnd e) (s : Str) :
    splitLines (body ++ e ++ s) = (body ++ e) :: splitLines s := by
  rcases he with rfl | rfl
  · exact splitLines_body h s
  · have := splitLines_body (body := body ++ ['\r']) (by simp [h]) s
    simpa using this

theorem splitLines_last {body : Str} (h : '\n' ∉ body) (hb : body ≠ []) : splitLines body = [body] := by
  induction body with
  | nil => exact absurd rfl hb
  | cons c cs ih =>
    have hc : c ≠ '\n' := by rintro rfl; simp at h
    simp only [splitLines, beq_iff_eq, hc, if_false]
    cases cs with
    | nil => rfl
    | cons d ds => rw [ih (by simp at h ⊢; exact h.2) (by simp)]

theorem lineEnd_eol {e : Str} (h : e = [] ∨ IsLineEnd e) : AllP isEol e := by
  rcases h with rfl | rfl | rfl <;> intro c hc <;> simp at hc
  · subst hc; rfl
  · rcases hc with rfl | rfl <;> rfl

theorem SameLines.chomped {s t : Str} (h : SameLines s t) : (splitLines s).map rstripEol = (splitLines t).map rstripEol := by
  induction h with
  | nil => rfl
  | line hb he he' _ ih =>
    rw [splitLines_end hb he, splitLines_end hb he', List.map_cons, List.map_cons, ih, rstripEol_append _ (lineEnd_eol (.inr he)),
      rstripEol_append _ (lineEnd_eol (.inr he'))]
  | @last body e e' hb hne he he' =>
    have key : ∀ e, e = [] ∨ IsLineEnd e → (splitLines (body ++ e)).map rstripEol = [rstripEol body] := by
      intro e he
      rcases he with rfl | he
      · rw [List.append_nil, splitLines_last hb hne]; rfl
      · have := splitLines_end hb he []
        rw [List.append_nil] at this
        rw [this]
        simp [splitLines, rstripEol_append _ (lineEnd_eol (.inr he))]
    rw [key e he, key e' he']

/-- **C45.** Two texts that differ in their line ends only parse to the same document or the same errors, in both error modes. -/
theorem C45_document {s t : Str} (h : SameLines s t) (stop : Bool) {m : CState} (hm : m.Valid) (b : BState) :
    (parse (classicCfg astBuilder stop) s m b).1 = (parse (classicCfg astBuilder stop) t m b).1 :=
  (classic_chomped astBuilder_blind stop h.chomped hm b).1

/-- **C45**, for the token listing. -/
theorem C45_listing {s t : Str} (h : SameLines s t) (stop : Bool) {m : CState} (hm : m.Valid) (b : List Token) :
    (parse (classicCfg formatter stop) s m b).1 = (parse (classicCfg formatter stop) t m b).1 :=
  (classic_chomped formatter_blind stop h.chomped hm b).1

theorem toCrlf_body {body : Str} (h : '\n' ∉ body) : toCrlf body = body := by
  induction body with
  | nil => rfl
  | cons c cs ih =>
    have hc : c ≠ '\n' := by rintro rfl; simp at h
    have : toCrlf (c :: cs) = c :: toCrlf cs := by simp [toCrlf, hc]
    rw [this, ih (by simp at h; exact h.2)]

/-- Every text is a list of lines. -/
theorem lines_ind {P : Str → Prop} (nil : P []) (last : ∀ body, '\n' ∉ body → body ≠ [] → P body)
    (line : ∀ body s, '\n' ∉ body → P s → P (body ++ ['\n'] ++ s)) : ∀ (n : Nat) (s : Str), s.length ≤ n → P s
  | 0, s, h => by simp at h; subst h; exact nil
  | n + 1, s, h => by
    have hs : s = s.takeWhile (· != '\n') ++ s.dropWhile (· != '\n') := (List.takeWhile_append_dropWhile ..).symm
    have hb : '\n' ∉ s.takeWhile (· != '\n') := by
      intro hm
      have := List.all_takeWhile (p := (· != '\n')) (l := s)
      have := List.all_eq_true.1 this _ hm
      simp at this
    cases hd : s.dropWhile (· != '\n') with
    | nil =>
      rw [hd, List.append_nil] at hs
      by_cases hne : s = []
      · subst hne; exact nil
      · rw [← hs] at hb; exact last s hb hne
    | cons c cs =>
      have hc : c = '\n' := by
        have := List.head?_dropWhile_not (· != '\n') s
        rw [hd] at this
        simpa using this
      subst hc
      rw [hd] at hs
      have : s = s.takeWhile (· != '\n') ++ ['\n'] ++ cs := by simpa using hs
      rw [this]
      refine line _ _ hb (lines_ind nil last line n cs ?_)
      have hl := congrArg List.length hs
      simp at hl
      omega

theorem sameLines_refl (s : Str) : SameLines s s :=
  lines_ind (P := fun s => SameLines s s) .nil (fun body hb hne => by simpa using SameLines.last (e := []) (e' := []) hb hne (.inl rfl) (.inl rfl))
    (fun _ _ hb hs => .line hb (.inl rfl) (.inl rfl) hs) s.length s (Nat.le_refl _)

theorem sameLines_crlf (s : Str) : SameLines (toCrlf s) s := by
  refine lines_ind (P := fun s => SameLines (toCrlf s) s) .nil ?_ ?_ s.length s (Nat.le_refl _)
  · intro body hb hne
    rw [toCrlf_body hb]
    exact sameLines_refl _
  · intro body s hb hs
    have : toCrlf (body ++ ['\n'] ++ s) = body ++ ['\r', '\n'] ++ toCrlf s := by
      conv => rhs; rw [← toCrlf_body hb]
      simp [toCrlf]
    rw [this]
    exact .line hb (.inr rfl) (.inl rfl) hs

theorem sameLines_final {s : Str} (hne : s ≠ []) (hl : s.getLast? ≠ some '\n') {e : Str} (he : IsLineEnd e) : SameLines (s ++ e) s := by
  revert hne hl
  refine lines_ind (P := fun s => s ≠ [] → s.getLast? ≠ some '\n' → SameLines (s ++ e) s) (fun h => absurd rfl h) ?_ ?_ s.length s (Nat.le_refl _)
  · intro body hb hne _ _
    have := SameLines.last (e := e) (e' := []) hb hne (.inr he) (.inl rfl)
    rwa [List.append_nil] at this
  · intro body s hb hs _ hl
    cases s with
    | nil => simp at hl
    | cons c cs =>
      have := hs (by simp) (by simpa [List.getLast?_append] using hl)
      have := SameLines.line (e := ['\n']) (e' := ['\n']) hb (.inl rfl) (.inl rfl) this
      simpa using this

/-- **C45**, Windows line ends: the text with every `\n` replaced by `\r\n`. -/
theorem C45_crlf (text : Str) (stop : Bool) {m : CState} (hm : m.Valid) (b : BState) :
    (parse (classicCfg astBuilder stop) (toCrlf text) m b).1 = (parse (classicCfg astBuilder stop) text m b).1 :=
  C45_document (sameLines_crlf text) stop hm b

/-- **C45**, final line end: a line end added after an unfinished last line. -/
theorem C45_final {text : Str} (hne : text ≠ []) (hl : text.getLast? ≠ some '\n') {e : Str} (he : IsLineEnd e) (stop : Bool) {m : CState}
    (hm : m.Valid) (b : BState) :
    (parse (classicCfg astBuilder stop) (text ++ e) m b).1 = (parse (classicCfg astBuilder stop) text m b).1 :=
  C45_document (sameLines_final hne hl he) stop hm b

/-- A text that is accepted with either kind of line ends, and one that is refused; both with three lines at least. -/
example : SameLines (toCrlf Sample.text) Sample.text ∧ toCrlf Sample.text ≠ Sample.text ∧
    (match (parse (classicCfg astBuilder false) (toCrlf Sample.text) Sample.en Sample.fresh).1 with | .ok _ => true | .error _ => false) = true ∧
    (match (parse (classicCfg astBuilder false) (toCrlf Sample.bad) Sample.en Sample.fresh).1 with | .ok _ => true | .error _ => false) = false :=
  ⟨sameLines_crlf _, by decide +kernel, by decide +kernel, by decide +kernel⟩

end Gherkin
