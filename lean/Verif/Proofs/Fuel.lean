import Verif.Proofs.Driver

/-! Termination: the fuel given to the loops always suffices; look-ahead keeps the number of pending tokens. -/

namespace Gherkin

section
variable {μ σ ρ : Type} {cfg : Config μ σ ρ}

theorem handle_ne_fuel {α : Type} (d : α) (r : Except MExc α) (c : Ctx μ σ) :
    (handle cfg d r c).1 ≠ .error .outOfFuel := by
  unfold handle
  split
  · simp
  · simp
  · rename_i e
    split
    · simp
    · rcases addError_cases e c with ⟨_, h⟩ | ⟨_, _, h⟩ | ⟨_, _, h⟩ <;> rw [h] <;> simp

theorem matchTok_ne_fuel (k : Kind) (t : Token) (c : Ctx μ σ) :
    (matchTok cfg k t c).1 ≠ .error .outOfFuel := by
  unfold matchTok
  split
  · simp
  · exact handle_ne_fuel _ _ _

theorem matchAny_ne_fuel (ks : List Kind) (t : Token) (c : Ctx μ σ) :
    (matchAny cfg ks t c).1 ≠ .error .outOfFuel := by
  induction ks generalizing t c with
  | nil => simp [matchAny]
  | cons k ks ih =>
    have h := matchTok_ne_fuel (cfg := cfg) k t c
    unfold matchAny
    split
    · exact ih _ _
    · exact h

theorem runProd_ne_fuel (p : Prod) (t : Token) (c : Ctx μ σ) : (runProd cfg p t c).1 ≠ .error .outOfFuel := by
  unfold runProd
  split <;> exact handle_ne_fuel _ _ _

theorem runProds_ne_fuel (ps : List Prod) (t : Token) (c : Ctx μ σ) : (runProds cfg ps t c).1 ≠ .error .outOfFuel := by
  induction ps generalizing c with
  | nil => simp [runProds]
  | cons p ps ih =>
    have h := runProd_ne_fuel (cfg := cfg) p t c
    unfold runProds
    split
    · exact ih _
    · exact h

/-- Number of pending tokens that are not end-of-file tokens. -/
def Ctx.pend (c : Ctx μ σ) : Nat := (c.queue.filter fun t => !t.eof).length + c.scanner.lines.length

/-- What `readToken` does: it takes a token from the queue, or a fresh one for the next line, or an end-of-file token. -/
theorem readToken_cases (c : Ctx μ σ) :
    (∃ t q, c.queue = t :: q ∧ readToken c = (t, { c with queue := q })) ∨
    (∃ l ls, c.queue = [] ∧ c.scanner.lines = l :: ls ∧
      readToken c = (Token.fresh ⟨l, c.scanner.lineNumber + 1⟩,
        { c with scanner := { lines := ls, lineNumber := c.scanner.lineNumber + 1 } })) ∨
    (c.queue = [] ∧ c.scanner.lines = [] ∧
      readToken c = (Token.fresh ⟨[], c.scanner.lineNumber + 1⟩,
        { c with scanner := { lines := [], lineNumber := c.scanner.lineNumber + 1 } })) := by
  unfold readToken Scanner.read
  cases hq : c.queue with
  | cons t q => exact .inl ⟨t, q, rfl, rfl⟩
  | nil =>
    right
    cases hl : c.scanner.lines with
    | nil => exact .inr ⟨rfl, rfl, by simp⟩
    | cons l ls => exact .inl ⟨l, ls, rfl, rfl, rfl⟩

theorem laLoop_ne_fuel (hL : cfg.matcher.Lawful) (la : LA) (fuel : Nat) (acc : List Token) (c : Ctx μ σ)
    (hf : c.queue.length + c.scanner.lines.length < fuel) : (laLoop cfg la fuel acc c).1 ≠ .error .outOfFuel := by
  induction fuel generalizing acc c with
  | zero => omega
  | succ fuel ih =>
    unfold laLoop
    rcases hr : readToken c with ⟨t, c1⟩
    simp only
    have h1 := matchTok_ne_fuel (cfg := cfg) la.expected t c1
    have h1f := matchTok_frame (cfg := cfg) la.expected t c1
    have h1l := matchTok_line hL la.expected t c1
    rcases hm : matchTok cfg la.expected t c1 with ⟨r, t2, c2⟩
    rw [hm] at h1 h1f h1l
    cases r with
    | error x => simpa using h1
    | ok b =>
      cases b with
      | true => simp
      | false =>
        simp only
        have h2 := matchAny_ne_fuel (cfg := cfg) skipKinds t2 c2
        have h2f := matchAny_frame (cfg := cfg) skipKinds t2 c2
        rcases hm2 : matchAny cfg skipKinds t2 c2 with ⟨r, t3, c3⟩
        rw [hm2] at h2 h2f
        cases r with
        | error x => simpa using h2
        | ok b =>
          cases b with
          | false => simp
          | true =>
            apply ih
            simp only at h2f h1f h1l
            rw [h2f.1, h2f.2.1, h1f.1, h1f.2.1]
            rcases readToken_cases c with ⟨t', q, hq, hc⟩ | ⟨l, ls, hq, hl, hc⟩ | ⟨hq, hl, hc⟩
            · rw [hr] at hc; cases hc; simp [hq] at hf ⊢; omega
            · rw [hr] at hc; cases hc; simp [hq, hl] at hf ⊢; omega
            · exfalso
              rw [hr] at hc; cases hc
              have ht2 : t2.eof = true := by
                simp only [Token.eof, h1l, Token.fresh, Line.isEof, List.isEmpty_nil]
              rw [matchAny_eof (by decide) ht2] at hm2
              simp at hm2

theorem lookahead_ne_fuel (hL : cfg.matcher.Lawful) (la : LA) (c : Ctx μ σ) :
    (lookahead cfg la c).1 ≠ .error .outOfFuel := by
  unfold lookahead
  have h := laLoop_ne_fuel hL la (c.queue.length + c.scanner.lines.length + 1) [] c (by omega)
  rcases hl : laLoop cfg la (c.queue.length + c.scanner.lines.length + 1) [] c with ⟨r, c'⟩
  rw [hl] at h
  cases r with
  | error x => simpa using h
  | ok p => simp

/-- The look-ahead loop moves tokens from the pending ones to its answer. -/
theorem laLoop_pend (hL : cfg.matcher.Lawful) (la : LA) (fuel : Nat) (acc : List Token) (c : Ctx μ σ)
    {b : Bool} {ts : List Token} {c' : Ctx μ σ} (h : laLoop cfg la fuel acc c = (.ok (b, ts), c')) :
    (ts.filter fun t => !t.eof).length + c'.pend ≤ (acc.filter fun t => !t.eof).length + c.pend := by
  induction fuel generalizing acc c with
  | zero => simp [laLoop] at h
  | succ fuel ih =>
    unfold laLoop at h
    -- reading one token
    have hread : ∀ t c1, readToken c = (t, c1) →
        ((if t.eof then 0 else 1) + c1.pend ≤ c.pend) := by
      intro t c1 hr
      rcases readToken_cases c with ⟨t', q, hq, hc⟩ | ⟨l, ls, hq, hl, hc⟩ | ⟨hq, hl, hc⟩
      · rw [hr] at hc; cases hc
        simp only [Ctx.pend, hq, List.filter_cons]
        cases t.eof <;> simp <;> omega
      · rw [hr] at hc; cases hc
        simp only [Ctx.pend, hq, hl, List.length_cons]
        split <;> simp <;> omega
      · rw [hr] at hc; cases hc
        simp [Ctx.pend, hl, hq, Token.eof, Token.fresh, Line.isEof]
    rcases hr : readToken c with ⟨t, c1⟩
    have hrd := hread t c1 hr
    rw [hr] at h
    simp only at h
    have h1f := matchTok_frame (cfg := cfg) la.expected t c1
    have h1l := matchTok_line hL la.expected t c1
    rcases hm : matchTok cfg la.expected t c1 with ⟨r, t2, c2⟩
    rw [hm] at h1f h1l h
    simp only at h1f h1l
    have he2 : t2.eof = t.eof := by simp [Token.eof, h1l]
    have hp2 : c2.pend = c1.pend := by simp [Ctx.pend, h1f.1, h1f.2.1]
    have stop : ∀ (t3 : Token) (c3 : Ctx μ σ), t3.eof = t.eof → c3.pend = c1.pend →
        ((acc ++ [t3]).filter fun t => !t.eof).length + c3.pend ≤ (acc.filter fun t => !t.eof).length + c.pend := by
      intro t3 c3 he hp
      rw [List.filter_append, List.length_append, hp]
      have : ([t3].filter fun t => !t.eof).length = if t.eof then 0 else 1 := by
        simp only [List.filter_cons, he]; cases t.eof <;> simp
      omega
    cases r with
    | error x => simp at h
    | ok bb =>
      cases bb with
      | true =>
        simp at h
        obtain ⟨⟨_, rfl⟩, rfl⟩ := h
        exact stop t2 c2 he2 hp2
      | false =>
        simp only at h
        have h2f := matchAny_frame (cfg := cfg) skipKinds t2 c2
        have h2l := (matchAny_line hL skipKinds t2 c2).1
        rcases hm2 : matchAny cfg skipKinds t2 c2 with ⟨r, t3, c3⟩
        rw [hm2] at h2f h2l h
        simp only at h2f h2l
        have he3 : t3.eof = t.eof := by simp [Token.eof, h2l, h1l]
        have hp3 : c3.pend = c1.pend := by simp [Ctx.pend, h2f.1, h2f.2.1, h1f.1, h1f.2.1]
        cases r with
        | error x => simp at h
        | ok bb =>
          cases bb with
          | false =>
            simp at h
            obtain ⟨⟨_, rfl⟩, rfl⟩ := h
            exact stop t3 c3 he3 hp3
          | true =>
            have := ih (acc ++ [t3]) c3 h
            exact Nat.le_trans this (stop t3 c3 he3 hp3)

theorem lookahead_pend (hL : cfg.matcher.Lawful) (la : LA) (c : Ctx μ σ) {b : Bool} {c' : Ctx μ σ}
    (h : lookahead cfg la c = (.ok b, c')) : c'.pend ≤ c.pend := by
  unfold lookahead at h
  rcases hl : laLoop cfg la (c.queue.length + c.scanner.lines.length + 1) [] c with ⟨r, c1⟩
  rw [hl] at h
  cases r with
  | error x => simp at h
  | ok p =>
    obtain ⟨b', ts⟩ := p
    simp at h
    obtain ⟨_, rfl⟩ := h
    have := laLoop_pend hL la _ _ _ hl
    simp [Ctx.pend] at this ⊢
    omega

/-! ### Building `MatchClosed` -/

/-- Relations that ignore queue and scanner only have to be checked for single matches. -/
theorem MatchClosed.of_tok (hL : cfg.matcher.Lawful) {J : Ctx μ σ → Ctx μ σ → Prop} {E : Ctx μ σ → Exc → Ctx μ σ → Prop}
    (refl : ∀ c, J c c) (trans : ∀ {a b c}, J a b → J b c → J a c)
    (transE : ∀ {a b x c}, J a b → E b x c → E a x c)
    (tok : ∀ {k t c b t' c'}, matchTok cfg k t c = (.ok b, t', c') → J c c')
    (tokE : ∀ {k t c x t' c'}, matchTok cfg k t c = (.error x, t', c') → E c x c')
    (move : ∀ c s q, J c { c with scanner := s, queue := q }) : MatchClosed cfg J E := by
  have any : ∀ ks t c, (∀ b t' c', matchAny cfg ks t c = (.ok b, t', c') → J c c') ∧
      (∀ x t' c', matchAny cfg ks t c = (.error x, t', c') → E c x c') := by
    intro ks
    induction ks with
    | nil =>
      intro t c
      constructor
      · intro b t' c' h; simp [matchAny] at h; obtain ⟨_, _, rfl⟩ := h; exact refl c
      · intro x t' c' h; simp [matchAny] at h
    | cons k ks ih =>
      intro t c
      rcases hm : matchTok cfg k t c with ⟨r, t1, c1⟩
      have hu : matchAny cfg (k :: ks) t c = (match matchTok cfg k t c with
          | (.ok false, t', c') => matchAny cfg ks t' c'
          | r => r) := rfl
      rw [hm] at hu
      cases r with
      | error x =>
        simp only at hu
        constructor
        · intro b t' c' h; rw [hu] at h; simp at h
        · intro x t' c' h; rw [hu] at h; cases h; exact tokE hm
      | ok bb =>
        cases bb with
        | true =>
          simp only at hu
          constructor
          · intro b t' c' h; rw [hu] at h; cases h; exact tok hm
          · intro x t' c' h; rw [hu] at h; simp at h
        | false =>
          simp only at hu
          rw [hu]
          have := ih t1 c1
          exact ⟨fun b t' c' h => trans (tok hm) (this.1 b t' c' h), fun x t' c' h => transE (tok hm) (this.2 x t' c' h)⟩
  have rd : ∀ c : Ctx μ σ, J c (readToken c).2 := by
    intro c
    rcases readToken_cases c with ⟨t', q, hq, hc⟩ | ⟨l, ls, hq, hl, hc⟩ | ⟨hq, hl, hc⟩ <;> rw [hc]
    · exact move c c.scanner q
    · exact move c { lines := ls, lineNumber := c.scanner.lineNumber + 1 } c.queue
    · exact move c { lines := [], lineNumber := c.scanner.lineNumber + 1 } c.queue
  have loop : ∀ la fuel acc c, (∀ p c', laLoop cfg la fuel acc c = (.ok p, c') → J c c') ∧
      (∀ x c', x ≠ .outOfFuel → laLoop cfg la fuel acc c = (.error x, c') → E c x c') := by
    intro la fuel
    induction fuel with
    | zero =>
      intro acc c
      constructor
      · intro p c' h; simp [laLoop] at h
      · intro x c' hx h; simp [laLoop] at h; exact absurd h.1.symm hx
    | succ fuel ih =>
      intro acc c
      unfold laLoop
      rcases hr : readToken c with ⟨t, c1⟩
      have hj1 : J c c1 := by have := rd c; rw [hr] at this; exact this
      simp only
      rcases hm : matchTok cfg la.expected t c1 with ⟨r, t2, c2⟩
      cases r with
      | error x =>
        simp only
        constructor
        · intro p c' h; simp at h
        · intro x c' _ h; cases h; exact transE hj1 (tokE hm)
      | ok b =>
        have hj2 := trans hj1 (tok hm)
        cases b with
        | true =>
          simp only
          constructor
          · intro p c' h; cases h; exact hj2
          · intro x c' _ h; simp at h
        | false =>
          simp only
          rcases hm2 : matchAny cfg skipKinds t2 c2 with ⟨r, t3, c3⟩
          cases r with
          | error x =>
            simp only
            constructor
            · intro p c' h; simp at h
            · intro x c' _ h; cases h; exact transE hj2 ((any _ _ _).2 _ _ _ hm2)
          | ok b =>
            have hj3 := trans hj2 ((any _ _ _).1 _ _ _ hm2)
            cases b with
            | false =>
              simp only
              constructor
              · intro p c' h; cases h; exact hj3
              · intro x c' _ h; simp at h
            | true =>
              simp only
              have := ih (acc ++ [t3]) c3
              exact ⟨fun p c' h => trans hj3 (this.1 p c' h), fun x c' hx h => transE hj3 (this.2 x c' hx h)⟩
  refine ⟨refl, trans, transE, tok, tokE, ?_, ?_⟩
  · intro l c b c' h
    unfold lookahead at h
    rcases hl : laLoop cfg l (c.queue.length + c.scanner.lines.length + 1) [] c with ⟨r, c1⟩
    rw [hl] at h
    cases r with
    | error x => simp at h
    | ok p =>
      obtain ⟨b', ts⟩ := p
      simp at h
      obtain ⟨_, rfl⟩ := h
      exact trans ((loop _ _ _ _).1 _ _ hl) (move c1 c1.scanner _)
  · intro l c x c' h
    have hne := lookahead_ne_fuel hL l c
    rw [h] at hne
    unfold lookahead at h
    rcases hl : laLoop cfg l (c.queue.length + c.scanner.lines.length + 1) [] c with ⟨r, c1⟩
    rw [hl] at h
    cases r with
    | error y =>
      simp at h
      obtain ⟨rfl, rfl⟩ := h
      exact (loop _ _ _ _).2 _ _ (by intro hh; subst hh; simp at hne) hl
    | ok p => simp at h

/-- Conjunction of two kept relations. -/
theorem MatchClosed.and {J J' : Ctx μ σ → Ctx μ σ → Prop} {E E' : Ctx μ σ → Exc → Ctx μ σ → Prop}
    (h : MatchClosed cfg J E) (h' : MatchClosed cfg J' E') :
    MatchClosed cfg (fun c c' => J c c' ∧ J' c c') (fun c x c' => E c x c' ∧ E' c x c') :=
  ⟨fun c => ⟨h.refl c, h'.refl c⟩, fun a b => ⟨h.trans a.1 b.1, h'.trans a.2 b.2⟩,
    fun a b => ⟨h.transE a.1 b.1, h'.transE a.2 b.2⟩, fun a => ⟨h.tok a, h'.tok a⟩, fun a => ⟨h.tokE a, h'.tokE a⟩,
    fun a => ⟨h.la a, h'.la a⟩, fun a => ⟨h.laE a, h'.laE a⟩⟩

/-- Matching keeps builder and log. -/
theorem closed_frame (hL : cfg.matcher.Lawful) : MatchClosed cfg
    (fun c c' => c'.builder = c.builder ∧ c'.log = c.log) (fun c _ c' => c'.builder = c.builder ∧ c'.log = c.log) := by
  apply MatchClosed.of_tok hL
  · intro c; exact ⟨rfl, rfl⟩
  · intro a b c h1 h2; exact ⟨h2.1.trans h1.1, h2.2.trans h1.2⟩
  · intro a b x c h1 h2; exact ⟨h2.1.trans h1.1, h2.2.trans h1.2⟩
  · intro k t c b t' c' h
    have := matchTok_frame (cfg := cfg) k t c; rw [h] at this; exact this.2.2
  · intro k t c b t' c' h
    have := matchTok_frame (cfg := cfg) k t c; rw [h] at this; exact this.2.2
  · intro c s q; exact ⟨rfl, rfl⟩

/-- Matching never increases the number of pending tokens and never runs out of fuel. -/
theorem closed_pend (hL : cfg.matcher.Lawful) : MatchClosed cfg
    (fun c c' => c'.pend ≤ c.pend) (fun _ x _ => x ≠ .outOfFuel) := by
  refine ⟨fun c => Nat.le_refl _, fun a b => Nat.le_trans b a, fun _ b => b, ?_, ?_, ?_, ?_⟩
  · intro k t c b t' c' h
    have := matchTok_frame (cfg := cfg) k t c; rw [h] at this
    simp only at this
    simp [Ctx.pend, this.1, this.2.1]
  · intro k t c x t' c' h
    have := matchTok_ne_fuel (cfg := cfg) k t c; rw [h] at this; simpa using this
  · intro l c b c' h; exact lookahead_pend hL l c h
  · intro l c x c' h
    have := lookahead_ne_fuel hL l c; rw [h] at this; simpa using this

/-! ### Productions -/

theorem runProd_frame (p : Prod) (t : Token) (c : Ctx μ σ) :
    (runProd cfg p t c).2.scanner = c.scanner ∧ (runProd cfg p t c).2.queue = c.queue ∧
    (runProd cfg p t c).2.matcher = c.matcher := by
  unfold runProd
  split
  all_goals
    rename_i r
    first
    | exact ⟨(handle_ctx _ _ _).1, (handle_ctx _ _ _).2.2.1, (handle_ctx _ _ _).2.1⟩

theorem runProds_frame (ps : List Prod) (t : Token) (c : Ctx μ σ) :
    (runProds cfg ps t c).2.scanner = c.scanner ∧ (runProds cfg ps t c).2.queue = c.queue ∧
    (runProds cfg ps t c).2.matcher = c.matcher := by
  induction ps generalizing c with
  | nil => exact ⟨rfl, rfl, rfl⟩
  | cons p ps ih =>
    have h := runProd_frame (cfg := cfg) p t c
    unfold runProds
    split
    · rename_i c' hp
      rw [hp] at h
      have := ih c'
      exact ⟨this.1.trans h.1, this.2.1.trans h.2.1, this.2.2.trans h.2.2⟩
    · exact h

/-- One step of the driver neither runs out of fuel nor creates pending tokens. -/
theorem matchToken_pend (hL : cfg.matcher.Lawful) (q : Nat) (t : Token) (c : Ctx μ σ) :
    (matchToken cfg q t c).1 ≠ .error .outOfFuel ∧
    (∀ q', (matchToken cfg q t c).1 = .ok q' → (matchToken cfg q t c).2.pend ≤ c.pend) := by
  unfold matchToken
  split
  · simp
  · rename_i row hrow
    have h := tryTrans_cases hL (closed_pend hL) row.trans t c
    rcases htr : tryTrans cfg row.trans t c with ⟨r, t', c'⟩
    rw [htr] at h
    simp only at h ⊢
    cases h with
    | fail h => simp; exact h
    | none h1 h2 h3 h4 =>
      simp only
      split
      · simp
      · rcases addError_cases (unexpected row.expected t') c' with ⟨_, h⟩ | ⟨_, _, h⟩ | ⟨_, _, h⟩ <;> rw [h]
        · simp; exact h1
        · simp; simpa [Ctx.pend] using h1
        · simp
    | taken h1 h2 h3 h4 h5 h6 h7 h8 h9 h10 h11 h12 =>
      rename_i pre tr post t0 c0 c2 c3
      rcases h12 with ⟨rfl, hp⟩ | ⟨x, rfl, hp⟩
      · have := runProds_frame (cfg := cfg) tr.prods t' c3
        rw [hp] at this
        simp only at this ⊢
        refine ⟨by simp, fun q' _ => ?_⟩
        simpa [Ctx.pend, this.1, this.2.1] using h10
      · have := runProds_ne_fuel (cfg := cfg) tr.prods t' c3
        rw [hp] at this
        simpa using this

theorem parseLoop_ne_fuel (hL : cfg.matcher.Lawful) (fuel q : Nat) (c : Ctx μ σ) (h : c.pend < fuel) :
    (parseLoop cfg fuel q c).1 ≠ .error .outOfFuel := by
  induction fuel generalizing q c with
  | zero => omega
  | succ fuel ih =>
    unfold parseLoop
    rcases hr : readToken c with ⟨t, c1⟩
    simp only
    have hp := matchToken_pend hL q t { c1 with log := c1.log ++ [.take t.line] }
    rcases hm : matchToken cfg q t { c1 with log := c1.log ++ [.take t.line] } with ⟨r, c2⟩
    rw [hm] at hp
    cases r with
    | error x => simpa using hp.1
    | ok q' =>
      simp only
      split
      · simp
      · rename_i hne
        apply ih
        have h2 := hp.2 q' rfl
        simp only at h2
        have h3 : c1.pend + 1 ≤ c.pend := by
          rcases readToken_cases c with ⟨t', q, hq, hc⟩ | ⟨l, ls, hq, hl, hc⟩ | ⟨hq, hl, hc⟩
          · rw [hr] at hc; cases hc
            simp [Ctx.pend, hq, hne]; omega
          · rw [hr] at hc; cases hc
            simp [Ctx.pend, hl, hq]
          · rw [hr] at hc; cases hc
            simp [Token.eof, Token.fresh, Line.isEof] at hne
        have h4 : Ctx.pend { c1 with log := c1.log ++ [.take t.line] } = c1.pend := rfl
        omega

/-- **Termination**: a parse never ends by lack of fuel. -/
theorem parse_ne_fuel (hL : cfg.matcher.Lawful) (text : Str) (m : μ) (b : σ) : (parse cfg text m b).1 ≠ .error .outOfFuel := by
  unfold parse
  have h1 := runProd_ne_fuel (cfg := cfg) (.start .gherkinDocument) (Token.fresh ⟨[], 0⟩) (Ctx.init cfg text m b)
  have h1f := runProd_frame (cfg := cfg) (.start .gherkinDocument) (Token.fresh ⟨[], 0⟩) (Ctx.init cfg text m b)
  rcases hp : runProd cfg (.start .gherkinDocument) (Token.fresh ⟨[], 0⟩) (Ctx.init cfg text m b) with ⟨r, c⟩
  rw [hp] at h1 h1f
  cases r with
  | error x => simpa using h1
  | ok u =>
    simp only at h1f ⊢
    have h2 := parseLoop_ne_fuel hL (c.scanner.lines.length + 1) 0 c (by
      simp [Ctx.pend, h1f.2.1, Ctx.init])
    rcases hl : parseLoop cfg (c.scanner.lines.length + 1) 0 c with ⟨r, c1⟩
    rw [hl] at h2
    cases r with
    | error x => simpa using h2
    | ok u =>
      simp only
      have h3 := runProd_ne_fuel (cfg := cfg) (.stop .gherkinDocument) (Token.fresh ⟨[], 0⟩) c1
      rcases hp : runProd cfg (.stop .gherkinDocument) (Token.fresh ⟨[], 0⟩) c1 with ⟨r, c2⟩
      rw [hp] at h3
      cases r with
      | error x => simpa using h3
      | ok u =>
        simp only
        split
        · simp
        · split <;> simp

end

end Gherkin
