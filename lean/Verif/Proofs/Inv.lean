import Verif.Proofs.Run

/-! Properties of the matcher and builder objects that survive a whole parse, however it ends. -/

namespace Gherkin

variable {μ σ ρ : Type}

/-- `P` is kept by every matcher and builder method. -/
structure Config.Keeps (cfg : Config μ σ ρ) (P : μ → σ → Prop) : Prop where
  match_ : ∀ k t m b, P m b → P (cfg.matcher.match_ k t m).2.2 b
  start : ∀ r m b, P m b → P m (cfg.builder.start r b).2
  stop : ∀ r m b, P m b → P m (cfg.builder.stop r b).2
  build : ∀ t m b, P m b → P m (cfg.builder.build t b).2

variable {cfg : Config μ σ ρ} {P : μ → σ → Prop}

theorem addError_same (e : Err) (c : Ctx μ σ) : (addError e c).2.matcher = c.matcher ∧ (addError e c).2.builder = c.builder := by
  unfold addError
  split
  · exact ⟨rfl, rfl⟩
  · simp only; split <;> exact ⟨rfl, rfl⟩

theorem handle_same {α : Type} (d : α) (r : Except MExc α) (c : Ctx μ σ) :
    (handle cfg d r c).2.matcher = c.matcher ∧ (handle cfg d r c).2.builder = c.builder := by
  unfold handle
  split
  · exact ⟨rfl, rfl⟩
  · exact ⟨rfl, rfl⟩
  · rename_i e
    split
    · exact ⟨rfl, rfl⟩
    · have := addError_same e c
      rcases hx : addError e c with ⟨x, c'⟩
      rw [hx] at this
      clear hx
      cases x <;> exact this

theorem matchTok_keeps (h : cfg.Keeps P) (k : Kind) (t : Token) (c : Ctx μ σ) (hc : P c.matcher c.builder) :
    P (matchTok cfg k t c).2.2.matcher (matchTok cfg k t c).2.2.builder := by
  unfold matchTok
  split
  · exact hc
  · simp only
    have := handle_same (cfg := cfg) false (cfg.matcher.match_ k t c.matcher).1
      { c with matcher := (cfg.matcher.match_ k t c.matcher).2.2, errors := syncErrors (cfg.matcher.match_ k t c.matcher).2.1 c.errors }
    rw [this.1, this.2]
    exact h.match_ k t _ _ hc

theorem matchAny_keeps (h : cfg.Keeps P) (ks : List Kind) (t : Token) (c : Ctx μ σ) (hc : P c.matcher c.builder) :
    P (matchAny cfg ks t c).2.2.matcher (matchAny cfg ks t c).2.2.builder := by
  induction ks generalizing t c with
  | nil => exact hc
  | cons k ks ih =>
    have := matchTok_keeps h k t c hc
    simp only [matchAny]
    rcases hx : matchTok cfg k t c with ⟨r, t', c'⟩
    rw [hx] at this
    clear hx
    cases r with
    | error x => exact this
    | ok b => cases b with
      | true => exact this
      | false => exact ih _ _ this

theorem readToken_same (c : Ctx μ σ) : (readToken c).2.matcher = c.matcher ∧ (readToken c).2.builder = c.builder := by
  unfold readToken
  split <;> exact ⟨rfl, rfl⟩

theorem laLoop_keeps (h : cfg.Keeps P) (la : LA) (fuel : Nat) (acc : List Token) (c : Ctx μ σ) (hc : P c.matcher c.builder) :
    P (laLoop cfg la fuel acc c).2.matcher (laLoop cfg la fuel acc c).2.builder := by
  induction fuel generalizing acc c with
  | zero => exact hc
  | succ fuel ih =>
    simp only [laLoop]
    have h1 := readToken_same c
    rcases hx : readToken c with ⟨t, c1⟩
    rw [hx] at h1
    clear hx
    simp only at h1
    rw [← h1.1, ← h1.2] at hc
    have h2 := matchTok_keeps h la.expected t c1 hc
    simp only
    rcases hx : matchTok cfg la.expected t c1 with ⟨r, t2, c2⟩
    rw [hx] at h2
    clear hx
    cases r with
    | error x => exact h2
    | ok b => cases b with
      | true => exact h2
      | false =>
        have h3 := matchAny_keeps h skipKinds t2 c2 h2
        simp only
        rcases hx : matchAny cfg skipKinds t2 c2 with ⟨r, t3, c3⟩
        rw [hx] at h3
        clear hx
        cases r with
        | error x => exact h3
        | ok b => cases b with
          | true => exact ih _ _ h3
          | false => exact h3

theorem lookahead_keeps (h : cfg.Keeps P) (la : LA) (c : Ctx μ σ) (hc : P c.matcher c.builder) :
    P (lookahead cfg la c).2.matcher (lookahead cfg la c).2.builder := by
  unfold lookahead
  have := laLoop_keeps h la (c.queue.length + c.scanner.lines.length + 1) [] c hc
  rcases hx : laLoop cfg la (c.queue.length + c.scanner.lines.length + 1) [] c with ⟨r, c'⟩
  rw [hx] at this
  clear hx
  cases r <;> exact this

theorem testTrans_keeps (h : cfg.Keeps P) (tr : Trans) (t : Token) (c : Ctx μ σ) (hc : P c.matcher c.builder) :
    P (testTrans cfg tr t c).2.2.matcher (testTrans cfg tr t c).2.2.builder := by
  unfold testTrans
  have h1 := matchTok_keeps h tr.kind t c hc
  rcases hx : matchTok cfg tr.kind t c with ⟨r, t', c'⟩
  rw [hx] at h1
  clear hx
  cases r with
  | error x => exact h1
  | ok b => cases b with
    | false => exact h1
    | true =>
      simp only
      cases tr.la with
      | none => exact h1
      | some la => exact lookahead_keeps h la c' h1

theorem runProd_keeps (h : cfg.Keeps P) (p : Prod) (t : Token) (c : Ctx μ σ) (hc : P c.matcher c.builder) :
    P (runProd cfg p t c).2.matcher (runProd cfg p t c).2.builder := by
  cases p with
  | start r =>
    simp only [runProd]
    have := handle_same (cfg := cfg) () (cfg.builder.start r c.builder).1
      { c with builder := (cfg.builder.start r c.builder).2, log := c.log ++ [.start r] }
    rw [this.1, this.2]; exact h.start r _ _ hc
  | stop r =>
    simp only [runProd]
    have := handle_same (cfg := cfg) () (cfg.builder.stop r c.builder).1
      { c with builder := (cfg.builder.stop r c.builder).2, log := c.log ++ [.stop r] }
    rw [this.1, this.2]; exact h.stop r _ _ hc
  | build =>
    simp only [runProd]
    have := handle_same (cfg := cfg) () (cfg.builder.build t c.builder).1
      { c with builder := (cfg.builder.build t c.builder).2, log := c.log ++ [.build t] }
    rw [this.1, this.2]; exact h.build t _ _ hc

theorem runProds_keeps (h : cfg.Keeps P) (ps : List Prod) (t : Token) (c : Ctx μ σ) (hc : P c.matcher c.builder) :
    P (runProds cfg ps t c).2.matcher (runProds cfg ps t c).2.builder := by
  induction ps generalizing c with
  | nil => exact hc
  | cons p ps ih =>
    have := runProd_keeps h p t c hc
    simp only [runProds]
    rcases hx : runProd cfg p t c with ⟨r, c'⟩
    rw [hx] at this
    clear hx
    cases r with
    | error x => exact this
    | ok u => exact ih _ this

theorem tryTrans_keeps (h : cfg.Keeps P) (trs : List Trans) (t : Token) (c : Ctx μ σ) (hc : P c.matcher c.builder) :
    P (tryTrans cfg trs t c).2.2.matcher (tryTrans cfg trs t c).2.2.builder := by
  induction trs generalizing t c with
  | nil => exact hc
  | cons tr trs ih =>
    have h1 := testTrans_keeps h tr t c hc
    simp only [tryTrans]
    rcases hx : testTrans cfg tr t c with ⟨r, t', c'⟩
    rw [hx] at h1
    clear hx
    cases r with
    | error x => exact h1
    | ok b => cases b with
      | false => exact ih _ _ h1
      | true =>
        have h2 := runProds_keeps h tr.prods t' c' h1
        simp only
        rcases hx : runProds cfg tr.prods t' c' with ⟨r, c2⟩
        rw [hx] at h2
        clear hx
        cases r <;> exact h2

theorem matchToken_keeps (h : cfg.Keeps P) (q : Nat) (t : Token) (c : Ctx μ σ) (hc : P c.matcher c.builder) :
    P (matchToken cfg q t c).2.matcher (matchToken cfg q t c).2.builder := by
  unfold matchToken
  cases table q with
  | none => exact hc
  | some row =>
    have h1 := tryTrans_keeps h row.trans t c hc
    simp only
    rcases hx : tryTrans cfg row.trans t c with ⟨r, t', c'⟩
    rw [hx] at h1
    clear hx
    cases r with
    | error x => exact h1
    | ok o => cases o with
      | some q' => exact h1
      | none =>
        simp only at h1 ⊢
        split
        · exact h1
        · have h2 := addError_same (unexpected row.expected t') c'
          rcases hx : addError (unexpected row.expected t') c' with ⟨x, c2⟩
          rw [hx] at h2
          clear hx
          simp only at h2
          cases x <;> · simp only; rw [h2.1, h2.2]; exact h1

theorem parseLoop_keeps (h : cfg.Keeps P) (fuel q : Nat) (c : Ctx μ σ) (hc : P c.matcher c.builder) :
    P (parseLoop cfg fuel q c).2.matcher (parseLoop cfg fuel q c).2.builder := by
  induction fuel generalizing q c with
  | zero => exact hc
  | succ fuel ih =>
    simp only [parseLoop]
    have h1 := readToken_same c
    rcases hx : readToken c with ⟨t, c1⟩
    rw [hx] at h1
    clear hx
    simp only at h1
    rw [← h1.1, ← h1.2] at hc
    have h2 := matchToken_keeps h q t { c1 with log := c1.log ++ [.take t.line] } hc
    simp only
    rcases hx : matchToken cfg q t { c1 with log := c1.log ++ [.take t.line] } with ⟨r, c2⟩
    rw [hx] at h2
    clear hx
    cases r with
    | error x => exact h2
    | ok q' =>
      simp only
      split
      · exact h2
      · exact ih _ _ h2

/-- What holds of the freshly reset matcher and builder holds of both when `parse` is over. -/
theorem parse_keeps (h : cfg.Keeps P) (text : Str) (m : μ) (b : σ) (h0 : P (cfg.matcher.reset m) (cfg.builder.reset b)) :
    P (parse cfg text m b).2.matcher (parse cfg text m b).2.builder := by
  unfold parse
  have h1 := runProd_keeps h (.start .gherkinDocument) (Token.fresh ⟨[], 0⟩) (Ctx.init cfg text m b) h0
  rcases hx : runProd cfg (.start .gherkinDocument) (Token.fresh ⟨[], 0⟩) (Ctx.init cfg text m b) with ⟨r, c⟩
  rw [hx] at h1
  clear hx
  cases r with
  | error x => exact h1
  | ok u =>
    have h2 := parseLoop_keeps h (c.scanner.lines.length + 1) 0 c h1
    simp only
    rcases hx : parseLoop cfg (c.scanner.lines.length + 1) 0 c with ⟨r, c1⟩
    rw [hx] at h2
    clear hx
    cases r with
    | error x => exact h2
    | ok u =>
      have h3 := runProd_keeps h (.stop .gherkinDocument) (Token.fresh ⟨[], 0⟩) c1 h2
      simp only
      rcases hx : runProd cfg (.stop .gherkinDocument) (Token.fresh ⟨[], 0⟩) c1 with ⟨r, c2⟩
      rw [hx] at h3
      clear hx
      cases r with
      | error x => exact h3
      | ok u =>
        simp only
        split
        · exact h3
        · rcases cfg.builder.result c2.builder with e | r
          · cases e <;> exact h3
          · exact h3

end Gherkin
