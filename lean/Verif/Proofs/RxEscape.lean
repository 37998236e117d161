import Verif.Escape
import Verif.Proofs.RxText

/-! `re.sub(r"\s+", …)` in `escape`. -/

namespace Gherkin.Regex

/-- src/GherkinParser/gherkin_builder.py:36-37 `escape_whitespace`. -/
def escapeRun (m : Found) : Str := joinStr ['\\'] (m.text.map ([·]))

theorem joinChars (c : Char) : ∀ (w : Str), joinStr ['\\'] ((c :: w).map ([·])) = c :: w.flatMap fun d => ['\\', d] := by
  intro w
  induction w generalizing c with
  | nil => rfl
  | cons d w ih =>
    have := ih d
    simp only [List.map_cons, joinStr] at this ⊢
    rw [this]
    simp

theorem escape_after (s : Str) : Escape.escapeWhitespace true s =
    ((s.takeWhile isSpace).flatMap fun d => ['\\', d]) ++ Escape.escapeWhitespace false (s.dropWhile isSpace) := by
  induction s with
  | nil => rfl
  | cons c cs ih =>
    by_cases hc : isSpace c
    · simp [Escape.escapeWhitespace, hc, ih]
    · simp [Escape.escapeWhitespace, hc]

def spaces : Rx := .seq .eps (.seq (.set ⟨false, [.space]⟩) (.star (.set ⟨false, [.space]⟩)))

theorem spaces_read : read py"\\s+" = some spaces := by decide +kernel

theorem spaces_run (back : Str) (c : Char) (cs : Str) :
    spaces.run ⟨back, c :: cs, []⟩ = if isSpace c then runsOf isSpace [] (c :: back) cs else [] := by
  have hs : Set.has ⟨false, [.space]⟩ = isSpace := funext has_space
  have h0 : spaces.run ⟨back, c :: cs, []⟩ = ((Rx.set ⟨false, [.space]⟩).run ⟨back, c :: cs, []⟩).flatMap (Rx.star (.set ⟨false, [.space]⟩)).run := by
    simp [spaces, Rx.run]
  rw [h0]
  have h1 : (Rx.set ⟨false, [.space]⟩).run ⟨back, c :: cs, []⟩ = if isSpace c then [⟨c :: back, cs, []⟩] else [] := by
    simp [Rx.run, has_space]
  rw [h1]
  by_cases hc : isSpace c
  · simp only [hc, if_true, List.flatMap_cons, List.flatMap_nil, List.append_nil]
    rw [run_star, hs]
  · simp [hc]

theorem spaces_splice : ∀ (n : Nat) (rest back : Str), rest.length ≤ n →
    splice escapeRun rest (spaces.from false ⟨back, rest, []⟩) = Escape.escapeWhitespace false rest := by
  intro n
  induction n with
  | zero =>
    intro rest back h
    cases rest with
    | nil => rw [from_none (by rfl)]; rfl
    | cons c cs => simp at h
  | succ n ih =>
    intro rest back h
    cases rest with
    | nil => rw [from_none (by rfl)]; rfl
    | cons c cs =>
      by_cases hc : isSpace c
      · have hq : (spaces.run ⟨back, c :: cs, []⟩).find? (fun q => !false || q.rest.length < (c :: cs).length) =
            some ((⟨c :: back, cs, []⟩ : Pos).skip isSpace) := by
          rw [spaces_run, if_pos hc]
          have := head_runs isSpace [] cs (c :: back)
          cases hr : runsOf isSpace [] (c :: back) cs with
          | nil => rw [hr] at this; cases this
          | cons q qs => rw [hr] at this; simp at this ⊢; exact this
        have hsp := splice_some (p := ⟨back, c :: cs, []⟩) escapeRun hq
        have hrest := adv_takeWhile isSpace ⟨c :: back, cs, []⟩
        have hlen : (cs.dropWhile isSpace).length ≤ cs.length := (List.dropWhile_sublist _).length_le
        simp only at hsp hrest
        rw [hsp, hrest]
        have hne : ((cs.dropWhile isSpace).length == (c :: cs).length) = false := by
          simp only [List.length_cons, beq_eq_false_iff_ne]; omega
        rw [hne]
        have htail := ih (cs.dropWhile isSpace) ((⟨c :: back, cs, []⟩ : Pos).skip isSpace).back (by simp at h; omega)
        rw [htail]
        have htext : escapeRun ⟨⟨back, c :: cs, []⟩, (⟨c :: back, cs, []⟩ : Pos).skip isSpace⟩ =
            c :: (cs.takeWhile isSpace).flatMap fun d => ['\\', d] := by
          rw [← joinChars]
          unfold escapeRun Found.text
          rw [hrest]
          have hcs : cs = cs.takeWhile isSpace ++ cs.dropWhile isSpace := (List.takeWhile_append_dropWhile).symm
          have : (c :: cs).take ((c :: cs).length - (cs.dropWhile isSpace).length) = c :: cs.takeWhile isSpace := by
            have hl : (c :: cs).length - (cs.dropWhile isSpace).length = (cs.takeWhile isSpace).length + 1 := by
              have := congrArg List.length hcs
              simp only [List.length_append] at this
              simp only [List.length_cons]; omega
            rw [hl, List.take_succ_cons]
            congr 1
            have := List.take_left' (l₁ := cs.takeWhile isSpace) (l₂ := cs.dropWhile isSpace) rfl
            rwa [← hcs] at this
          rw [this]
        rw [htext]
        simp [Escape.escapeWhitespace, hc, escape_after cs]
      · rw [splice_none _ (by rw [spaces_run, if_neg hc]; rfl), ih cs (c :: back) (by simpa using h)]
        simp [Escape.escapeWhitespace, hc]

/-- src/GherkinParser/gherkin_builder.py:50 `re.sub(r"\s+", escape_whitespace, …)`. -/
theorem escapeWhitespace_regex (s : Str) : ((read py"\\s+").map fun r => r.sub escapeRun s) = some (Escape.escapeWhitespace false s) := by
  rw [spaces_read]
  simp only [Option.map_some, Option.some.injEq, Rx.sub, all_from]
  exact spaces_splice _ _ _ (Nat.le_refl _)

end Gherkin.Regex
