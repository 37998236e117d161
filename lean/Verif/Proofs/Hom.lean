import Verif.Proofs.Run

/-! The parser does not look into the builder: a map between builder states that commutes with the builder's methods commutes with
whole parses. -/

namespace Gherkin

variable {μ σ ρ : Type}

/-- `φ` commutes with the methods of `B`. -/
structure Builder.Hom (B : Builder σ ρ) (φ : σ → σ) (ψ : ρ → ρ) : Prop where
  start : ∀ r b, B.start r (φ b) = ((B.start r b).1, φ (B.start r b).2)
  stop : ∀ r b, B.stop r (φ b) = ((B.stop r b).1, φ (B.stop r b).2)
  build : ∀ t b, B.build t (φ b) = ((B.build t b).1, φ (B.build t b).2)
  result : ∀ b, B.result (φ b) = (match B.result b with | .ok r => .ok (ψ r) | .error e => .error e)

/-- A context with another builder state. -/
def Ctx.mapB (φ : σ → σ) (c : Ctx μ σ) : Ctx μ σ := { c with builder := φ c.builder }

variable {cfg : Config μ σ ρ} {φ : σ → σ}

theorem addError_map (e : Err) (c : Ctx μ σ) : addError e (c.mapB φ) = ((addError e c).1, (addError e c).2.mapB φ) := by
  by_cases h1 : e.msg ∈ c.errors.map (·.msg)
  · simp only [addError, Ctx.mapB, h1, if_true]
  · by_cases h2 : (c.errors ++ [e]).length > 10
    · simp only [addError, Ctx.mapB, h1, h2, if_true, if_false]
    · simp only [addError, Ctx.mapB, h1, h2, if_false]

theorem handle_map {α : Type} (d : α) (r : Except MExc α) (c : Ctx μ σ) :
    handle cfg d r (c.mapB φ) = ((handle cfg d r c).1, (handle cfg d r c).2.mapB φ) := by
  unfold handle
  split
  · rfl
  · rfl
  · split
    · rfl
    · rw [addError_map]
      rcases addError _ c with ⟨x, c'⟩
      cases x <;> rfl

theorem matchTok_map (k : Kind) (t : Token) (c : Ctx μ σ) :
    matchTok cfg k t (c.mapB φ) = ((matchTok cfg k t c).1, (matchTok cfg k t c).2.1, (matchTok cfg k t c).2.2.mapB φ) := by
  unfold matchTok
  split
  · rfl
  · have := handle_map (cfg := cfg) (φ := φ) false (cfg.matcher.match_ k t c.matcher).1
      { c with matcher := (cfg.matcher.match_ k t c.matcher).2.2, errors := syncErrors (cfg.matcher.match_ k t c.matcher).2.1 c.errors }
    exact Prod.ext (congrArg (·.1) this) (Prod.ext rfl (congrArg (·.2) this))

theorem matchAny_map (ks : List Kind) (t : Token) (c : Ctx μ σ) :
    matchAny cfg ks t (c.mapB φ) = ((matchAny cfg ks t c).1, (matchAny cfg ks t c).2.1, (matchAny cfg ks t c).2.2.mapB φ) := by
  induction ks generalizing t c with
  | nil => rfl
  | cons k ks ih =>
    simp only [matchAny, matchTok_map]
    rcases matchTok cfg k t c with ⟨r, t', c'⟩
    cases r with
    | error x => rfl
    | ok b => cases b <;> simp [ih]

theorem readToken_map (c : Ctx μ σ) : readToken (c.mapB φ) = ((readToken c).1, (readToken c).2.mapB φ) := by
  unfold readToken
  simp only [Ctx.mapB]
  split <;> rfl

theorem laLoop_map (la : LA) (fuel : Nat) (acc : List Token) (c : Ctx μ σ) :
    laLoop cfg la fuel acc (c.mapB φ) = ((laLoop cfg la fuel acc c).1, (laLoop cfg la fuel acc c).2.mapB φ) := by
  induction fuel generalizing acc c with
  | zero => rfl
  | succ fuel ih =>
    simp only [laLoop, readToken_map]
    rcases readToken c with ⟨t, c1⟩
    simp only [matchTok_map]
    rcases matchTok cfg la.expected t c1 with ⟨r, t2, c2⟩
    cases r with
    | error x => rfl
    | ok b =>
      cases b with
      | true => rfl
      | false =>
        simp only [matchAny_map]
        rcases matchAny cfg skipKinds t2 c2 with ⟨r, t3, c3⟩
        cases r with
        | error x => rfl
        | ok b => cases b <;> simp [ih]

theorem lookahead_map (la : LA) (c : Ctx μ σ) :
    lookahead cfg la (c.mapB φ) = ((lookahead cfg la c).1, (lookahead cfg la c).2.mapB φ) := by
  unfold lookahead
  have : (c.mapB φ).queue.length + (c.mapB φ).scanner.lines.length + 1 = c.queue.length + c.scanner.lines.length + 1 := rfl
  rw [this, laLoop_map]
  rcases laLoop cfg la (c.queue.length + c.scanner.lines.length + 1) [] c with ⟨r, c'⟩
  cases r <;> rfl

theorem testTrans_map (tr : Trans) (t : Token) (c : Ctx μ σ) :
    testTrans cfg tr t (c.mapB φ) = ((testTrans cfg tr t c).1, (testTrans cfg tr t c).2.1, (testTrans cfg tr t c).2.2.mapB φ) := by
  unfold testTrans
  rw [matchTok_map]
  rcases matchTok cfg tr.kind t c with ⟨r, t', c'⟩
  cases r with
  | error x => rfl
  | ok b =>
    cases b with
    | false => rfl
    | true =>
      simp only
      cases tr.la with
      | none => rfl
      | some la => simp only [lookahead_map]

variable {ψ : ρ → ρ}

theorem runProd_map (hB : cfg.builder.Hom φ ψ) (p : Prod) (t : Token) (c : Ctx μ σ) :
    runProd cfg p t (c.mapB φ) = ((runProd cfg p t c).1, (runProd cfg p t c).2.mapB φ) := by
  rw [runProd_eq, runProd_eq]
  have h1 : evAnswer cfg.builder (φ c.builder) (p.ev t) = evAnswer cfg.builder c.builder (p.ev t) := by
    cases p
    · exact congrArg (·.1) (hB.start _ _)
    · exact congrArg (·.1) (hB.stop _ _)
    · exact congrArg (·.1) (hB.build _ _)
  have h2 : applyEv cfg.builder (φ c.builder) (p.ev t) = φ (applyEv cfg.builder c.builder (p.ev t)) := by
    cases p
    · exact congrArg (·.2) (hB.start _ _)
    · exact congrArg (·.2) (hB.stop _ _)
    · exact congrArg (·.2) (hB.build _ _)
  have h3 := handle_map (cfg := cfg) (φ := φ) () (evAnswer cfg.builder c.builder (p.ev t))
    { c with builder := applyEv cfg.builder c.builder (p.ev t), log := c.log ++ [p.ev t] }
  simp only [Ctx.mapB] at h3 ⊢
  rw [h1, h2, h3]

theorem runProds_map (hB : cfg.builder.Hom φ ψ) (ps : List Prod) (t : Token) (c : Ctx μ σ) :
    runProds cfg ps t (c.mapB φ) = ((runProds cfg ps t c).1, (runProds cfg ps t c).2.mapB φ) := by
  induction ps generalizing c with
  | nil => rfl
  | cons p ps ih =>
    simp only [runProds, runProd_map hB]
    rcases runProd cfg p t c with ⟨r, c'⟩
    cases r with
    | error x => rfl
    | ok u => simp [ih]

theorem tryTrans_map (hB : cfg.builder.Hom φ ψ) (trs : List Trans) (t : Token) (c : Ctx μ σ) :
    tryTrans cfg trs t (c.mapB φ) = ((tryTrans cfg trs t c).1, (tryTrans cfg trs t c).2.1, (tryTrans cfg trs t c).2.2.mapB φ) := by
  induction trs generalizing t c with
  | nil => rfl
  | cons tr trs ih =>
    simp only [tryTrans, testTrans_map]
    rcases testTrans cfg tr t c with ⟨r, t', c'⟩
    cases r with
    | error x => rfl
    | ok b =>
      cases b with
      | false => simp [ih]
      | true =>
        simp only [runProds_map hB]
        rcases runProds cfg tr.prods t' c' with ⟨r, c2⟩
        cases r <;> rfl

theorem matchToken_map (hB : cfg.builder.Hom φ ψ) (q : Nat) (t : Token) (c : Ctx μ σ) :
    matchToken cfg q t (c.mapB φ) = ((matchToken cfg q t c).1, (matchToken cfg q t c).2.mapB φ) := by
  unfold matchToken
  cases table q with
  | none => rfl
  | some row =>
    simp only [tryTrans_map hB]
    rcases tryTrans cfg row.trans t c with ⟨r, t', c'⟩
    cases r with
    | error x => rfl
    | ok o =>
      cases o with
      | some q' => rfl
      | none =>
        simp only
        split
        · rfl
        · rw [addError_map]
          rcases addError (unexpected row.expected t') c' with ⟨x, c2⟩
          cases x <;> rfl

theorem parseLoop_map (hB : cfg.builder.Hom φ ψ) (fuel q : Nat) (c : Ctx μ σ) :
    parseLoop cfg fuel q (c.mapB φ) = ((parseLoop cfg fuel q c).1, (parseLoop cfg fuel q c).2.mapB φ) := by
  induction fuel generalizing q c with
  | zero => rfl
  | succ fuel ih =>
    simp only [parseLoop, readToken_map]
    rcases readToken c with ⟨t, c1⟩
    simp only
    have := matchToken_map hB q t { c1 with log := c1.log ++ [.take t.line] }
    simp only [Ctx.mapB] at this ⊢
    rw [this]
    rcases matchToken cfg q t { c1 with log := c1.log ++ [.take t.line] } with ⟨r, c2⟩
    cases r with
    | error x => rfl
    | ok q' =>
      simp only
      split
      · rfl
      · exact ih q' c2

/-- Parses commute with builder maps. -/
theorem parse_map (hB : cfg.builder.Hom φ ψ) {m m' : μ} {b b' : σ} (hm : cfg.matcher.reset m' = cfg.matcher.reset m)
    (hb : cfg.builder.reset b' = φ (cfg.builder.reset b)) (text : Str) :
    parse cfg text m' b' = ((match (parse cfg text m b).1 with | .ok r => .ok (ψ r) | .error e => .error e),
      (parse cfg text m b).2.mapB φ) := by
  have h0 : Ctx.init cfg text m' b' = (Ctx.init cfg text m b).mapB φ := by
    simp only [Ctx.init, Ctx.mapB, hm, hb]
  unfold parse
  rw [h0, runProd_map hB]
  rcases runProd cfg (.start .gherkinDocument) (Token.fresh ⟨[], 0⟩) (Ctx.init cfg text m b) with ⟨r, c⟩
  cases r with
  | error x => rfl
  | ok u =>
    simp only
    rw [show (c.mapB φ).scanner = c.scanner from rfl, parseLoop_map hB]
    rcases parseLoop cfg (c.scanner.lines.length + 1) 0 c with ⟨r, c1⟩
    cases r with
    | error x => rfl
    | ok u =>
      simp only
      rw [runProd_map hB]
      rcases runProd cfg (.stop .gherkinDocument) (Token.fresh ⟨[], 0⟩) c1 with ⟨r, c2⟩
      cases r with
      | error x => rfl
      | ok u =>
        simp only
        rw [show (c2.mapB φ).errors = c2.errors from rfl, show (c2.mapB φ).builder = φ c2.builder from rfl, hB.result]
        split
        · rfl
        · rcases cfg.builder.result c2.builder with e | r
          · cases e <;> rfl
          · rfl

end Gherkin
