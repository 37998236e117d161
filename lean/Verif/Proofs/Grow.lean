import Verif.Proofs.Accepted

/-! The error list during one round of the main loop. -/

namespace Gherkin

section
variable {μ σ ρ : Type} {cfg : Config μ σ ρ}

theorem runProds_grows {ps : List Prod} {t : Token} {c c' : Ctx μ σ} (h : runProds cfg ps t c = (.ok (), c')) :
    Grows c.errors c'.errors := by
  induction ps generalizing c with
  | nil => simp [runProds] at h; subst h; exact .refl _
  | cons p ps ih =>
    simp only [runProds] at h
    rcases hp : runProd cfg p t c with ⟨r, c1⟩
    rw [hp] at h
    rw [runProd_eq] at hp
    have he := handle_errors hp
    cases r with
    | error y => simp at h
    | ok u => exact (he.1 u rfl).1.trans (ih h)

theorem matchToken_grows (hL : cfg.matcher.Lawful) (q : Nat) (t : Token) (c : Ctx μ σ) :
    (∀ q' c', matchToken cfg q t c = (.ok q', c') → Grows c.errors c'.errors) ∧
    (∀ x c', matchToken cfg q t c = (.error x, c') → ExcOk cfg c.errors x) := by
  have h := matchToken_cases hL (closed_errors hL) q t c
  rcases hm : matchToken cfg q t c with ⟨r, c'⟩
  rw [hm] at h
  simp only at h
  cases h with
  | noState h => exact ⟨by simp, fun x c'' h => by cases h; trivial⟩
  | matchExc h1 h2 => exact ⟨by simp, fun x c'' h => by cases h; exact h2⟩
  | unexpected h1 h2 h3 h4 h5 h6 =>
    rcases h6 with ⟨hs, rfl, rfl⟩ | ⟨hs, rfl, ha⟩ | ⟨hs, x, rfl, ha⟩
    · exact ⟨by simp, fun x c'' h => by cases h; exact hs⟩
    · exact ⟨fun q' c'' h => by cases h; exact h2.trans (addError_ok ha).1, by simp⟩
    · exact ⟨by simp, fun y c'' h => by cases h; exact (addError_err ha hs).1.mono h2⟩
  | taken h1 h2 hj0 hj1 h4 h5 h6 h7 h8 h9 hj2 h11 h12 =>
    rcases h12 with ⟨rfl, hp⟩ | ⟨x, rfl, hp⟩
    · exact ⟨fun q' c'' h => by cases h; exact hj2.trans (runProds_grows hp), by simp⟩
    · exact ⟨by simp, fun y c'' h => by cases h; exact (runProds_exc hp).mono hj2⟩

/-! ### A composite exception holds the errors on record -/

/-- The exception holds the errors of the context. -/
def Holds (x : Exc) (c : Ctx μ σ) : Prop := ∀ es, x = .composite es → c.errors = es

theorem addError_holds {e : Err} {c c' : Ctx μ σ} {x : Exc} (h : addError e c = (.error x, c')) : Holds x c' := by
  rcases addError_cases e c with ⟨_, h1⟩ | ⟨_, _, h1⟩ | ⟨_, _, h1⟩ <;> rw [h1] at h
  · simp at h
  · simp at h
  · cases h; rintro es ⟨⟩; rfl

theorem handle_holds {α : Type} {d : α} {r : Except MExc α} {c c' : Ctx μ σ} {x : Exc}
    (h : handle cfg d r c = (.error x, c')) : Holds x c' := by
  unfold handle at h
  split at h
  · simp at h
  · cases h; intro es h; simp at h
  · rename_i e
    split at h
    · cases h; intro es h; simp at h
    · rcases ha : addError e c with ⟨z, c1⟩
      rw [ha] at h
      cases z with
      | ok u => simp at h
      | error y => cases h; exact addError_holds ha

theorem closed_holds (hL : cfg.matcher.Lawful) : MatchClosed cfg (fun _ _ => True) (fun _ x c' => Holds x c') := by
  apply MatchClosed.of_tok hL
  · intros; trivial
  · intros; trivial
  · intro a b x c _ h; exact h
  · intros; trivial
  · intro k t c x t' c' h
    unfold matchTok at h
    split at h
    · simp at h
    · simp only at h
      rcases hh : handle cfg false (cfg.matcher.match_ k t c.matcher).1
        { c with matcher := (cfg.matcher.match_ k t c.matcher).2.2,
                 errors := syncErrors (cfg.matcher.match_ k t c.matcher).2.1 c.errors } with ⟨r, c1⟩
      rw [hh] at h
      cases h
      exact handle_holds hh
  · intros; trivial

theorem runProds_holds {ps : List Prod} {t : Token} {c c' : Ctx μ σ} {x : Exc} (h : runProds cfg ps t c = (.error x, c')) :
    Holds x c' := by
  induction ps generalizing c with
  | nil => simp [runProds] at h
  | cons p ps ih =>
    simp only [runProds] at h
    rcases hp : runProd cfg p t c with ⟨r, c1⟩
    rw [hp] at h
    rw [runProd_eq] at hp
    cases r with
    | error y => cases h; exact handle_holds hp
    | ok u => exact ih h

theorem matchToken_holds (hL : cfg.matcher.Lawful) {q : Nat} {t : Token} {c c' : Ctx μ σ} {x : Exc}
    (hm : matchToken cfg q t c = (.error x, c')) : Holds x c' := by
  have h := matchToken_cases hL (closed_holds hL) q t c
  rw [hm] at h
  simp only at h
  cases h with
  | noState h => intro es h; simp at h
  | matchExc h1 h2 => exact h2
  | unexpected h1 h2 h3 h4 h5 h6 =>
    rcases h6 with ⟨hs, h, rfl⟩ | ⟨hs, h, ha⟩ | ⟨hs, y, h, ha⟩
    · cases h; intro es h; simp at h
    · cases h
    · cases h; exact addError_holds ha
  | taken h1 h2 hj0 hj1 h4 h5 h6 h7 h8 h9 hj2 h11 h12 =>
    rcases h12 with ⟨h, hp⟩ | ⟨y, h, hp⟩
    · cases h
    · cases h; exact runProds_holds hp

theorem parse_composite_errors (hL : cfg.matcher.Lawful) {text : Str} {m : μ} {b : σ} {es : List Err} {c : Ctx μ σ}
    (h : parse cfg text m b = (.error (.composite es), c)) : c.errors = es := by
  unfold parse at h
  rcases hp : runProd cfg (.start .gherkinDocument) (Token.fresh ⟨[], 0⟩) (Ctx.init cfg text m b) with ⟨r, c0⟩
  rw [hp] at h
  cases r with
  | error x => cases h; rw [runProd_eq] at hp; exact handle_holds hp es rfl
  | ok u =>
    simp only at h
    have hind := (parseLoop_ind (cfg := cfg) (I := fun _ _ => True) (F := fun _ _ => True) (Q := fun x c => Holds x c)
      (by
        intro q c t c1 _ hr
        exact ⟨fun _ _ _ => ⟨fun _ => trivial, fun _ => trivial⟩, fun x c' hm => matchToken_holds hL hm⟩)
      (c0.scanner.lines.length + 1) 0 c0 trivial).2
    rcases hl : parseLoop cfg (c0.scanner.lines.length + 1) 0 c0 with ⟨r1, c1⟩
    rw [hl] at h hind
    cases r1 with
    | error x => cases h; exact hind _ _ rfl (by simp) es rfl
    | ok u =>
      simp only at h
      rcases hp2 : runProd cfg (.stop .gherkinDocument) (Token.fresh ⟨[], 0⟩) c1 with ⟨r2, c2⟩
      rw [hp2] at h
      cases r2 with
      | error x => cases h; rw [runProd_eq] at hp2; exact handle_holds hp2 es rfl
      | ok u =>
        simp only at h
        split at h
        · cases h; rfl
        · rcases hres : cfg.builder.result c2.builder with x | r
          · rw [hres] at h; cases x <;> simp at h
          · rw [hres] at h; simp at h

/-- A single `ParserException` leaves `parse` only with `stop_at_first_error` (or from the builder's `get_result`). -/
theorem parse_single_errors (hL : cfg.matcher.Lawful) {text : Str} {m : μ} {b : σ} {e : Err} {c : Ctx μ σ}
    (h : parse cfg text m b = (.error (.single e), c)) :
    cfg.stop = true ∨ (cfg.builder.result c.builder = .error (.parser e) ∧ c.errors = []) := by
  unfold parse at h
  rcases hp : runProd cfg (.start .gherkinDocument) (Token.fresh ⟨[], 0⟩) (Ctx.init cfg text m b) with ⟨r, c0⟩
  rw [hp] at h
  cases r with
  | error x => cases h; rw [runProd_eq] at hp; exact .inl ((handle_errors hp).2 _ rfl)
  | ok u =>
    simp only at h
    have hind := (parseLoop_ind (cfg := cfg) (I := fun _ _ => True) (F := fun _ _ => True)
      (Q := fun x _ => ∀ e, x = .single e → cfg.stop = true)
      (by
        intro q c t c1 _ hr
        refine ⟨fun _ _ _ => ⟨fun _ => trivial, fun _ => trivial⟩, fun x c' hm e he => ?_⟩
        subst he
        exact (matchToken_grows hL q t _).2 _ _ hm)
      (c0.scanner.lines.length + 1) 0 c0 trivial).2
    rcases hl : parseLoop cfg (c0.scanner.lines.length + 1) 0 c0 with ⟨r1, c1⟩
    rw [hl] at h hind
    cases r1 with
    | error x => cases h; exact .inl (hind _ _ rfl (by simp) e rfl)
    | ok u =>
      simp only at h
      rcases hp2 : runProd cfg (.stop .gherkinDocument) (Token.fresh ⟨[], 0⟩) c1 with ⟨r2, c2⟩
      rw [hp2] at h
      cases r2 with
      | error x => cases h; rw [runProd_eq] at hp2; exact .inl ((handle_errors hp2).2 _ rfl)
      | ok u =>
        simp only at h
        split at h
        · cases h
        · rename_i hne
          rcases hres : cfg.builder.result c2.builder with x | r
          · rw [hres] at h
            cases x with
            | parser e' => simp at h; rw [← h.1, ← h.2]; exact .inr ⟨hres, by simpa using hne⟩
            | crash k => simp at h
          · rw [hres] at h; simp at h

theorem parse_single (hL : cfg.matcher.Lawful) {text : Str} {m : μ} {b : σ} {e : Err} {c : Ctx μ σ}
    (h : parse cfg text m b = (.error (.single e), c)) : cfg.stop = true ∨ cfg.builder.result c.builder = .error (.parser e) :=
  (parse_single_errors hL h).imp id And.left

end

end Gherkin
