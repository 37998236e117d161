import Verif.Proofs.Accepted

/-! The main loop takes at most one token per unit of fuel. -/

namespace Gherkin

section
variable {μ σ ρ : Type} {cfg : Config μ σ ρ}

theorem takes_ev (t : Token) (p : Prod) : takes [p.ev t] = [] := by cases p <;> rfl

theorem runProds_takes (ps : List Prod) (t : Token) (c : Ctx μ σ) : takes (runProds cfg ps t c).2.log = takes c.log := by
  induction ps generalizing c with
  | nil => rfl
  | cons p ps ih =>
    have h : takes (runProd cfg p t c).2.log = takes c.log := by
      rw [runProd_eq, (handle_ctx (cfg := cfg) _ _ _).2.2.2.2]
      simp [takes_append, takes_ev]
    unfold runProds
    split
    · rename_i c' hp
      rw [hp] at h
      exact (ih c').trans h
    · exact h

theorem matchToken_takes (hL : cfg.matcher.Lawful) (q : Nat) (t : Token) (c : Ctx μ σ) :
    takes (matchToken cfg q t c).2.log = takes c.log := by
  have h := matchToken_cases hL (closed_frame hL) q t c
  rcases hm : matchToken cfg q t c with ⟨r, c'⟩
  rw [hm] at h
  simp only at h ⊢
  cases h with
  | noState h => rfl
  | matchExc h1 h2 => rw [h2.2]
  | unexpected h1 h2 h3 h4 h5 h6 =>
    rename_i row t' c1
    have key : ∀ y c2, addError (Gherkin.unexpected row.expected t') c1 = (y, c2) → c2.log = c1.log := by
      intro y c2 ha
      rcases addError_cases (Gherkin.unexpected row.expected t') c1 with ⟨_, h⟩ | ⟨_, _, h⟩ | ⟨_, _, h⟩ <;>
        (rw [h] at ha; cases ha; rfl)
    rcases h6 with ⟨_, _, rfl⟩ | ⟨_, _, ha⟩ | ⟨_, x, _, ha⟩
    · rw [h2.2]
    · rw [key _ _ ha, h2.2]
    · rw [key _ _ ha, h2.2]
  | taken h1 h2 hj0 hj1 h4 h5 h6 h7 h8 h9 hj2 h11 h12 =>
    rename_i row pre tr post t0 t' c0 c1 c2
    have := runProds_takes (cfg := cfg) tr.prods t' c2
    rcases h12 with ⟨_, hp⟩ | ⟨x, _, hp⟩ <;> (rw [hp] at this; simpa [hj2.2] using this)

theorem parseLoop_takes (hL : cfg.matcher.Lawful) (fuel q : Nat) (c : Ctx μ σ) :
    (takes (parseLoop cfg fuel q c).2.log).length ≤ (takes c.log).length + fuel := by
  induction fuel generalizing q c with
  | zero => simp [parseLoop]
  | succ fuel ih =>
    unfold parseLoop
    rcases hr : readToken c with ⟨t, c1⟩
    simp only
    have hlog : c1.log = c.log := by
      rcases readToken_cases c with ⟨t', q, hq, hc⟩ | ⟨l, ls, hq, hl, hc⟩ | ⟨hq, hl, hc⟩ <;>
        (rw [hr] at hc; cases hc; rfl)
    have hk := matchToken_takes hL q t { c1 with log := c1.log ++ [.take t.line] }
    rcases hm : matchToken cfg q t { c1 with log := c1.log ++ [.take t.line] } with ⟨r, c2⟩
    rw [hm] at hk
    simp only [takes_append, hlog] at hk
    have hlen : (takes c2.log).length = (takes c.log).length + 1 := by rw [hk]; simp [takes]
    cases r with
    | error x => simp only; omega
    | ok q' =>
      simp only
      split
      · simp only; omega
      · have := ih q' c2
        omega

/-- The main loop takes at most one token per line and one for the end of the text. -/
theorem parse_takes (hL : cfg.matcher.Lawful) (text : Str) (m : μ) (b : σ) :
    (takes (parse cfg text m b).2.log).length ≤ (splitLines text).length + 1 := by
  unfold parse
  have key : ∀ p c, takes (runProd cfg p (Token.fresh ⟨[], 0⟩) c).2.log = takes c.log := by
    intro p c
    rw [runProd_eq, (handle_ctx (cfg := cfg) _ _ _).2.2.2.2]
    simp [takes_append, takes_ev]
  have h1 := key (.start .gherkinDocument) (Ctx.init cfg text m b)
  have h1f := runProd_frame (cfg := cfg) (.start .gherkinDocument) (Token.fresh ⟨[], 0⟩) (Ctx.init cfg text m b)
  rcases hp : runProd cfg (.start .gherkinDocument) (Token.fresh ⟨[], 0⟩) (Ctx.init cfg text m b) with ⟨r, c⟩
  rw [hp] at h1 h1f
  have h0 : takes c.log = [] := h1
  cases r with
  | error x => simp only [h0]; simp
  | ok u =>
    simp only
    have h2 := parseLoop_takes hL (c.scanner.lines.length + 1) 0 c
    have hs : c.scanner.lines = splitLines text := by
      have := h1f.1; simp only at this; rw [this]; rfl
    rcases hl : parseLoop cfg (c.scanner.lines.length + 1) 0 c with ⟨r, c1⟩
    rw [hl, h0, hs] at h2
    simp only [List.length_nil, Nat.zero_add] at h2
    cases r with
    | error x => exact h2
    | ok u =>
      simp only
      have h3 := key (.stop .gherkinDocument) c1
      rcases hp : runProd cfg (.stop .gherkinDocument) (Token.fresh ⟨[], 0⟩) c1 with ⟨r, c2⟩
      rw [hp] at h3
      simp only at h3
      rw [← h3] at h2
      cases r with
      | error x => exact h2
      | ok u =>
        simp only
        split
        · exact h2
        · split <;> exact h2

end

end Gherkin
