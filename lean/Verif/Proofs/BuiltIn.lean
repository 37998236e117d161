import Verif.Proofs.Accepted

/-! A property of the matcher's state that every match keeps holds whenever a token is made. -/

namespace Gherkin

section
variable {μ σ ρ : Type} {cfg : Config μ σ ρ} {P : μ → Prop}

/-- A token as a matcher call left it, the matcher being in a state with `P`. -/
def BuiltIn (M : Matcher μ) (P : μ → Prop) (k : Kind) (t : Token) : Prop :=
  ∃ t0 m m', P m ∧ t0.line = t.line ∧ M.match_ k t0 m = (.ok true, t, m')

theorem handle_matcher {α : Type} (d : α) (r : Except MExc α) (c : Ctx μ σ) : (handle cfg d r c).2.matcher = c.matcher := by
  exact (handle_ctx (cfg := cfg) d r c).2.1

theorem matchTok_keepsP (hP : ∀ k t m, P m → P (cfg.matcher.match_ k t m).2.2) {k : Kind} {t t' : Token} {c c' : Ctx μ σ} {r : Except Exc Bool}
    (h : matchTok cfg k t c = (r, t', c')) (hc : P c.matcher) : P c'.matcher := by
  unfold matchTok at h
  split at h
  · cases h; exact hc
  · have := hP k t c.matcher hc
    rcases hm : cfg.matcher.match_ k t c.matcher with ⟨x, t1, m1⟩
    rw [hm] at h this
    simp only at h this
    have hh := handle_matcher (cfg := cfg) false x { c with matcher := m1, errors := syncErrors t1 c.errors }
    rcases hx : handle cfg false x { c with matcher := m1, errors := syncErrors t1 c.errors } with ⟨y, c1⟩
    rw [hx] at h hh
    cases h
    rw [hh]; exact this

theorem closed_keepsP (hL : cfg.matcher.Lawful) (hP : ∀ k t m, P m → P (cfg.matcher.match_ k t m).2.2) : MatchClosed cfg
    (fun c c' => P c.matcher → P c'.matcher) (fun c _ c' => P c.matcher → P c'.matcher) := by
  apply MatchClosed.of_tok hL
  · intro c h; exact h
  · intro a b c h1 h2 h; exact h2 (h1 h)
  · intro a b x c h1 h2 h; exact h2 (h1 h)
  · intro k t c b t' c' h; exact matchTok_keepsP hP h
  · intro k t c b t' c' h; exact matchTok_keepsP hP h
  · intro c s q h; exact h

/-- Every token that was built was made in a state with `P`. -/
def AllIn (cfg : Config μ σ ρ) (P : μ → Prop) (c : Ctx μ σ) : Prop :=
  ∀ t ∈ builds c.log, ∃ k, t.type = some k ∧ BuiltIn cfg.matcher P k t

theorem parse_builtIn (hL : cfg.matcher.Lawful) (hP : ∀ k t m, P m → P (cfg.matcher.match_ k t m).2.2) (text : Str) (m : μ) (b : σ)
    (hm : P (cfg.matcher.reset m)) {r : ρ} {c' : Ctx μ σ} (h : parse cfg text m b = (.ok r, c')) : AllIn cfg P c' := by
  have hframe : ∀ p (c : Ctx μ σ), p.ev (Token.fresh ⟨[], 0⟩) ≠ .build (Token.fresh ⟨[], 0⟩) → 
      (runProd cfg p (Token.fresh ⟨[], 0⟩) c).2.matcher = c.matcher ∧ builds (runProd cfg p (Token.fresh ⟨[], 0⟩) c).2.log = builds c.log := by
    intro p c hp
    rw [runProd_eq]
    have := handle_ctx (cfg := cfg) () (evAnswer cfg.builder c.builder (p.ev (Token.fresh ⟨[], 0⟩)))
      { c with builder := applyEv cfg.builder c.builder (p.ev (Token.fresh ⟨[], 0⟩)), log := c.log ++ [p.ev (Token.fresh ⟨[], 0⟩)] }
    refine ⟨handle_matcher _ _ _, ?_⟩
    rw [this.2.2.2.2, builds_append]
    cases p <;> simp_all [Prod.ev, builds]
  unfold parse at h
  have f1 := hframe (.start .gherkinDocument) (Ctx.init cfg text m b) (by simp [Prod.ev])
  rcases hp : runProd cfg (.start .gherkinDocument) (Token.fresh ⟨[], 0⟩) (Ctx.init cfg text m b) with ⟨y, c⟩
  rw [hp] at h f1
  cases y with
  | error x => simp at h
  | ok u =>
    simp only at h f1
    have h0 : P c.matcher ∧ AllIn cfg P c := by
      refine ⟨by rw [f1.1]; exact hm, ?_⟩
      intro t ht; rw [f1.2] at ht; simp [Ctx.init, builds] at ht
    rcases hl : parseLoop cfg (c.scanner.lines.length + 1) 0 c with ⟨y, c1⟩
    rw [hl] at h
    cases y with
    | error x => simp at h
    | ok u =>
      simp only at h
      have h1 : AllIn cfg P c1 := by
        have := (parseLoop_ind (cfg := cfg) (I := fun _ c => P c.matcher ∧ AllIn cfg P c) (F := fun _ c => AllIn cfg P c) (Q := fun _ _ => True)
          (by
            intro q c t c1 ⟨hI, hA⟩ hr
            have hc1 : c1.matcher = c.matcher ∧ c1.log = c.log := by
              rcases readToken_cases c with ⟨t', q, hq, hc⟩ | ⟨l, ls, hq, hl, hc⟩ | ⟨hq, hl, hc⟩ <;>
                (rw [hr] at hc; cases hc; exact ⟨rfl, rfl⟩)
            refine ⟨?_, fun _ _ _ => trivial⟩
            intro q' c' hm
            suffices hs : P c'.matcher ∧ AllIn cfg P c' from ⟨fun _ => hs.2, fun _ => hs⟩
            have hcs := matchToken_cases hL ((closed_keepsP hL hP).and (closed_frame hL)) q t { c1 with log := c1.log ++ [.take t.line] }
            have hA1 : ∀ t' ∈ builds (c1.log ++ [.take t.line]), ∃ k, t'.type = some k ∧ BuiltIn cfg.matcher P k t' := by
              intro t' ht'
              rw [builds_append, hc1.2] at ht'
              simp [builds] at ht'
              exact hA t' ht'
            rw [hm] at hcs
            simp only at hcs
            cases hcs with
            | unexpected h1 h2 h3 h4 h5 h6 =>
              rcases h6 with ⟨_, h6, _⟩ | ⟨_, h6, ha⟩ | ⟨_, x, h6, _⟩
              · simp at h6
              · obtain ⟨ha1, ha2, ha3⟩ := addError_ok ha
                refine ⟨?_, ?_⟩
                · rw [ha3]; exact h2.1 (by rw [← hc1.1] at hI; exact hI)
                · intro t' ht'
                  rw [ha3] at ht'
                  simp only at ht'
                  rw [h2.2.2] at ht'
                  exact hA1 t' ht'
              · simp at h6
            | taken h1 h2 hj0 hj1 h4 h5 h6 h7 h8 h9 hj2 h11 h12 =>
              rename_i row pre tr post t0 t' c0 c1' c2
              rcases h12 with ⟨_, hp⟩ | ⟨x, h12, _⟩
              · obtain ⟨p1, p2, p3, p4, p5⟩ := runProds_spec hp
                have hP1 : P c1.matcher := by rw [hc1.1]; exact hI
                refine ⟨?_, ?_⟩
                · have key : ∀ (ps : List Prod) (c c' : Ctx μ σ), runProds cfg ps t' c = (.ok (), c') → c'.matcher = c.matcher := by
                    intro ps
                    induction ps with
                    | nil => intro c c' h; simp [runProds] at h; rw [h]
                    | cons p ps ih =>
                      intro c c' h
                      simp only [runProds] at h
                      rcases hp : runProd cfg p t' c with ⟨r, c1⟩
                      rw [hp] at h
                      have hh := handle_matcher (cfg := cfg) () (evAnswer cfg.builder c.builder (p.ev t'))
                        { c with builder := applyEv cfg.builder c.builder (p.ev t'), log := c.log ++ [p.ev t'] }
                      rw [← runProd_eq, hp] at hh
                      cases r with
                      | error x => simp at h
                      | ok u => simp only at h hh; rw [ih _ _ h, hh]
                  rw [key _ _ _ hp]; exact hj2.1 hP1
                · intro u hu
                  obtain ⟨hb1, _, _⟩ := table_builds h1 (tr := tr) (by rw [h2]; simp)
                  rw [p1, builds_append, builds_prods t' _ hb1, hj2.2.2, List.mem_append, List.mem_singleton] at hu
                  rcases hu with hu | rfl
                  · exact hA1 u hu
                  · obtain ⟨_, hmt, _⟩ := matchTok_true h7
                    exact ⟨tr.kind, matchTok_true_type hL h7, t0, c0.matcher, c1'.matcher, hj0.1 hP1, h4.trans h5.symm, hmt⟩
              · simp at h12)
          (c.scanner.lines.length + 1) 0 c h0).1 c1 hl
        exact this.choose_spec
      have f2 := hframe (.stop .gherkinDocument) c1 (by simp [Prod.ev])
      rcases hp2 : runProd cfg (.stop .gherkinDocument) (Token.fresh ⟨[], 0⟩) c1 with ⟨y, c2⟩
      rw [hp2] at h f2
      cases y with
      | error x => simp at h
      | ok u =>
        simp only at h f2
        have h2 : AllIn cfg P c2 := by intro t ht; rw [f2.2] at ht; exact h1 t ht
        split at h
        · simp at h
        · split at h <;> simp at h
          rw [← h.2]; exact h2

end

end Gherkin
