import Verif.Proofs.FirstError3
import Verif.Proofs.ErrAll
import Verif.Proofs.EolParse

/-! From the lines of the automaton to texts. -/

namespace Gherkin

open Auto

/-- All lines but the last one end with a line feed. -/
theorem full_but_last (text : Str) : (∀ x ∈ (splitLines text).dropLast, ∃ b, '\n' ∉ b ∧ x = b ++ ['\n']) ∧
    (AtLineStart text → ∀ x ∈ splitLines text, ∃ b, '\n' ∉ b ∧ x = b ++ ['\n']) ∧ (splitLines text).flatten = text := by
  have key : ∀ (n : Nat) (s : Str), s.length ≤ n → (∀ x ∈ (splitLines s).dropLast, ∃ b, '\n' ∉ b ∧ x = b ++ ['\n']) ∧
      (AtLineStart s → ∀ x ∈ splitLines s, ∃ b, '\n' ∉ b ∧ x = b ++ ['\n']) ∧ (splitLines s).flatten = s := by
    refine lines_ind (P := fun s => (∀ x ∈ (splitLines s).dropLast, ∃ b, '\n' ∉ b ∧ x = b ++ ['\n']) ∧
      (AtLineStart s → ∀ x ∈ splitLines s, ∃ b, '\n' ∉ b ∧ x = b ++ ['\n']) ∧ (splitLines s).flatten = s) ?_ ?_ ?_
    · simp [splitLines]
    · intro body h1 h2
      rw [splitLines_last h1 h2]
      refine ⟨by simp, ?_, by simp⟩
      rintro (rfl | ⟨p, rfl⟩)
      · exact absurd rfl h2
      · simp at h1
    · intro body s h1 ⟨ih1, ih2, ih3⟩
      rw [splitLines_body h1]
      refine ⟨?_, ?_, by simp [ih3]⟩
      · intro x hx
        cases hs : splitLines s with
        | nil => rw [hs] at hx; simp at hx
        | cons y ys =>
          rw [hs, List.dropLast_cons_of_ne_nil (by simp)] at hx
          rcases List.mem_cons.1 hx with rfl | hx
          · exact ⟨body, h1, rfl⟩
          · rw [hs] at ih1; exact ih1 x hx
      · intro h x hx
        rcases List.mem_cons.1 hx with rfl | hx
        · exact ⟨body, h1, rfl⟩
        · refine ih2 ?_ x hx
          rcases h with h | ⟨p, h⟩
          · simp at h
          · cases s using List.reverseRecOn with
            | nil => exact .inl rfl
            | append_singleton s' c =>
              right
              have := (List.append_inj' (show (body ++ ['\n'] ++ s') ++ [c] = p ++ ['\n'] by rw [← h]; simp) rfl).2
              exact ⟨s', by rw [this]⟩
  exact key _ text (Nat.le_refl _)

theorem linesFrom_take : ∀ (n i : Nat) (ss : List Str), (linesFrom n ss).take i = linesFrom n (ss.take i)
  | _, 0, _ => by simp [linesFrom]
  | _, _ + 1, [] => by simp [linesFrom]
  | n, i + 1, _ :: ss => by simp [linesFrom, linesFrom_take (n + 1) i ss]

theorem linesFrom_get : ∀ (n i : Nat) (ss : List Str), (linesFrom n ss)[i]? = (ss[i]?).map fun s => ⟨s, n + i⟩
  | _, _, [] => by simp [linesFrom]
  | n, 0, s :: ss => by simp [linesFrom]
  | n, i + 1, _ :: ss => by
    simp only [linesFrom, List.getElem?_cons_succ, linesFrom_get (n + 1) i ss]
    have : n + 1 + i = n + (i + 1) := by omega
    rw [this]

theorem sourceLines_from (text : Str) : sourceLines text = linesFrom 1 (splitLines text) := by
  rw [sourceLines, linesFrom_zipIdx]

/-- A place in the lines of a text. -/
theorem place_in {text : Str} {pre : List Line} {l : Line} {rest : List Line} (h : tokenLines text = pre ++ l :: rest) :
    pre = linesFrom 1 ((splitLines text).take pre.length) ∧ l.number = pre.length + 1 ∧
    ((l.isEof = false ∧ pre.length < (splitLines text).length ∧ (splitLines text).take (pre.length + 1) = (splitLines text).take pre.length ++ [l.text]) ∨
     (l.isEof = true ∧ pre.length = (splitLines text).length ∧ rest = [])) := by
  rw [tokenLines_from] at h
  have hlen : pre.length + (rest.length + 1) = (splitLines text).length + 1 := by
    have := congrArg List.length h
    simpa [linesFrom_length] using this.symm
  have hpre : pre = linesFrom 1 ((splitLines text).take pre.length) := by
    have := congrArg (List.take pre.length) h
    rw [List.take_left, List.take_append_of_le_length (by rw [linesFrom_length]; omega), linesFrom_take] at this
    exact this.symm
  have hget := congrArg (·[pre.length]?) h
  simp only [List.getElem?_append_right (Nat.le_refl _), Nat.sub_self, List.getElem?_cons_zero] at hget
  refine ⟨hpre, ?_⟩
  by_cases hi : pre.length < (splitLines text).length
  · rw [List.getElem?_append_left (by rw [linesFrom_length]; exact hi), linesFrom_get, List.getElem?_eq_getElem hi] at hget
    simp only [Option.map_some, Option.some.injEq] at hget
    rw [← hget]
    refine ⟨Nat.add_comm _ _, .inl ⟨?_, hi, ?_⟩⟩
    · have := splitLines_ne_nil text _ (List.getElem_mem hi)
      simpa [Line.isEof] using this
    · rw [List.take_succ_eq_append_getElem hi]
  · have hi' : pre.length = (splitLines text).length := by omega
    rw [hi', List.getElem?_append_right (by rw [linesFrom_length]; exact Nat.le_refl _), linesFrom_length] at hget
    simp only [Nat.sub_self, List.getElem?_cons_zero, Option.some.injEq] at hget
    rw [← hget]
    refine ⟨by rw [hi'], .inr ⟨rfl, hi', ?_⟩⟩
    exact List.eq_nil_of_length_eq_zero (by omega)

/-! ### The parse -/

section
variable {σ ρ : Type} {B : Builder σ ρ}

theorem runProd_stop (hB : B.Apart) {t : Token} {p : Prod} {c c' : Ctx CState σ} {r : Except Exc Unit}
    (h : runProd (classicCfg B true) p t c = (r, c')) : (r = .ok () → c'.errors = c.errors) ∧ ∀ e, r = .error (.single e) → ¬ e.Unexpected := by
  have : runProds (classicCfg B true) [p] t c = (r, c') := by
    simp only [runProds, h]
    cases r <;> rfl
  exact runProds_stop hB this

/-- A syntax error in stop mode. -/
theorem parse_unexpected (hB : B.Apart) (hP : B.Plain) {text : Str} {m : CState} (hm : m.Valid) {b : σ} {e : Err}
    (h : (parse (classicCfg B true) text m b).1 = .error (.single e)) (hu : e.Unexpected) :
    ∃ pre l rest mv q m' row, tokenLines text = pre ++ l :: rest ∧ Reach (l :: rest) 0 (Classic.reset m) pre mv q m' ∧ table q = some row ∧
      (∀ tr ∈ row.trans, Passed l rest m' tr) ∧ e.loc.line = l.number ∧ (l.isEof = true ↔ ∃ ks, e.kind = .unexpectedEof ks) ∧
      (l.isEof = false → ∀ text' rest', tokenLines text' = pre ++ l :: rest' → (parse (classicCfg B true) text' m b).1 = .error (.single e)) := by
  have hs := fun t => (parse_sim (stop := true) hP t hm b).1
  rw [hs] at h
  unfold Pure.parse at h
  rcases h0 : runProd (classicCfg B true) (.start .gherkinDocument) (Token.fresh ⟨[], 0⟩)
    { scanner := ⟨[], 0⟩, matcher := (classicCfg B true).matcher.reset m, queue := [], errors := [], builder := (classicCfg B true).builder.reset b,
      log := [] } with ⟨r0, c0⟩
  rw [h0] at h
  obtain ⟨k1, k2⟩ := runProd_stop hB h0
  cases r0 with
  | error x => simp only [Except.error.injEq] at h; subst h; exact absurd hu (k2 e rfl)
  | ok u =>
    simp only at h
    have hc0 : c0.errors = [] := k1 rfl
    have hm0 : c0.matcher = Classic.reset m := by
      have := runProds_matcher (cfg := classicCfg B true) (ps := [.start .gherkinDocument]) (t := Token.fresh ⟨[], 0⟩) (c' := c0) (r := .ok ())
        (c := { scanner := ⟨[], 0⟩, matcher := (classicCfg B true).matcher.reset m, queue := [], errors := [],
                builder := (classicCfg B true).builder.reset b, log := [] })
        (by simp only [runProds, h0])
      exact this
    rcases hl : Pure.loop (classicCfg B true) (tokenLines text) 0 c0 with ⟨r1, c1⟩
    rw [hl] at h
    cases r1 with
    | ok q =>
      exfalso
      simp only at h
      rcases h2 : runProd (classicCfg B true) (.stop .gherkinDocument) (Token.fresh ⟨[], 0⟩) c1 with ⟨r2, c2⟩
      rw [h2] at h
      obtain ⟨g1, g2⟩ := runProd_stop hB h2
      cases r2 with
      | error x => simp only [Except.error.injEq] at h; subst h; exact absurd hu (g2 e rfl)
      | ok u =>
        simp only at h
        split at h
        · simp at h
        · split at h
          · simp at h
          · simp at h
          · rename_i e' hr
            exact hB.res _ _ hr
    | error x =>
      simp only [Except.error.injEq] at h
      subst h
      obtain ⟨pre, l, rest, mv, q, m', row, t', e1, e2, e3, e4, e5, e6, e7⟩ := loop_unexpected hB hc0 hu hl
      rw [hm0] at e2
      refine ⟨pre, l, rest, mv, q, m', row, e1, e2, e3, e6, ?_, ?_, ?_⟩
      · rw [e5]
        unfold unexpected
        have := e4.2
        split
        · simpa [Err.mkUnexpectedEof] using this
        · unfold Err.mkUnexpectedToken
          split <;> simpa using this
      · rw [e5]
        unfold unexpected
        have hte : t'.eof = l.isEof := by rw [Token.eof, e4.1]
        rw [hte]
        cases l.isEof with
        | true => simp [Err.mkUnexpectedEof]
        | false => simp [Err.mkUnexpectedToken]
      · intro he text' rest' ht
        rw [hs, ht]
        unfold Pure.parse
        rw [h0]
        simp only
        rw [e7 he rest']

end

end Gherkin
