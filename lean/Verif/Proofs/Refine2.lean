import Verif.Proofs.Refine

/-! The driver with the classic matcher refines the queue-free parser: steps, loop, whole parse. -/

namespace Gherkin

/-- The errors a builder raises carry their own locations. -/
def Builder.Plain {σ ρ : Type} (B : Builder σ ρ) : Prop :=
  ∀ b ev e, evAnswer B b ev = .error (.parser e) → e.aliasOf = none

section
variable {σ ρ : Type} {B : Builder σ ρ} {stop : Bool}

/-- The tokens of the two parsers for the same line. -/
structure TR (l : Line) (t t0 : Token) (es : List Err) : Prop where
  of : t.Of l
  of0 : t0.Of l
  rel : t = t0 ∨ (ColOK t l ∧ t0 = Token.fresh l ∧ ∀ e ∈ es, e.aliasOf ≠ some l.number)

theorem matchTok_of {μ : Type} {cfg : Config μ σ ρ} (hL : cfg.matcher.Lawful) (k : Kind) {t : Token} {l : Line} (h : t.Of l)
    (c : Ctx μ σ) : (matchTok cfg k t c).2.1.Of l :=
  ⟨(matchTok_line hL k t c).trans h.1, (matchTok_locLine hL k t c).trans h.2⟩

theorem addError_alias {μ : Type} {e : Err} {c c' : Ctx μ σ} {y : Except Exc Unit} (h : addError e c = (y, c')) {n : Nat}
    (hc : ∀ e ∈ c.errors, e.aliasOf ≠ some n) (he : e.aliasOf ≠ some n) : ∀ e ∈ c'.errors, e.aliasOf ≠ some n := by
  have key : ∀ x ∈ c.errors ++ [e], x.aliasOf ≠ some n := by
    intro x hx
    simp at hx
    rcases hx with hx | rfl
    · exact hc x hx
    · exact he
  rcases addError_cases e c with ⟨_, h1⟩ | ⟨_, _, h1⟩ | ⟨_, _, h1⟩ <;> (rw [h1] at h; cases h)
  · exact hc
  · exact key
  · exact key

theorem handle_alias {μ α : Type} {cfg : Config μ σ ρ} {d : α} {r : Except MExc α} {c : Ctx μ σ} {n : Nat}
    (hc : ∀ e ∈ c.errors, e.aliasOf ≠ some n) (he : ∀ e, r = .error (.parser e) → e.aliasOf ≠ some n) :
    ∀ e ∈ (handle cfg d r c).2.errors, e.aliasOf ≠ some n := by
  unfold handle
  split
  · exact hc
  · exact hc
  · rename_i e
    split
    · exact hc
    · rcases ha : addError e c with ⟨z, c1⟩
      have := addError_alias ha hc (he e rfl)
      cases z <;> exact this

theorem sync_alias {es : List Err} {t : Token} {n : Nat} (h : ∀ e ∈ es, e.aliasOf ≠ some n) :
    ∀ e ∈ syncErrors t es, e.aliasOf ≠ some n := by
  intro e he
  simp only [syncErrors, List.mem_map] at he
  obtain ⟨e', he', rfl⟩ := he
  split <;> exact h e' he'

theorem matchTok_alias {k : Kind} {t : Token} {c : Ctx CState σ} {n : Nat} (hn : n ≠ t.line.number)
    (hc : ∀ e ∈ c.errors, e.aliasOf ≠ some n) :
    ∀ e ∈ (matchTok (classicCfg B stop) k t c).2.2.errors, e.aliasOf ≠ some n := by
  unfold matchTok
  split
  · exact hc
  · apply handle_alias
    · exact sync_alias hc
    · intro e he
      rw [Classic.matchKind_alias he]
      simp; exact fun h => hn h.symm

theorem runProds_alias (hB : B.Plain) {ps : List Prod} {t : Token} {c : Ctx CState σ} {n : Nat}
    (hc : ∀ e ∈ c.errors, e.aliasOf ≠ some n) :
    ∀ e ∈ (runProds (classicCfg B stop) ps t c).2.errors, e.aliasOf ≠ some n := by
  induction ps generalizing c with
  | nil => exact hc
  | cons p ps ih =>
    have h1 : ∀ e ∈ (runProd (classicCfg B stop) p t c).2.errors, e.aliasOf ≠ some n := by
      rw [runProd_eq]
      apply handle_alias
      · exact hc
      · intro e he
        rw [hB _ _ _ he]; simp
    unfold runProds
    rcases hp : runProd (classicCfg B stop) p t c with ⟨r, c1⟩
    rw [hp] at h1
    cases r with
    | ok u => exact ih h1
    | error x => exact h1

theorem matchTok_valid {k : Kind} {t : Token} {c : Ctx CState σ} (h : c.matcher.Valid) :
    (matchTok (classicCfg B stop) k t c).2.2.matcher.Valid := by
  unfold matchTok
  split
  · exact h
  · have := handle_ctx (cfg := classicCfg B stop) false (Classic.matchKind k t c.matcher).1
      { c with matcher := (Classic.matchKind k t c.matcher).2.2,
               errors := syncErrors (Classic.matchKind k t c.matcher).2.1 c.errors }
    have h2 := this.2.1
    exact h2 ▸ Classic.matchKind_valid h

theorem matchTok_sim (k : Kind) {l : Line} {t t0 : Token} {c : Ctx CState σ} (h : TR l t t0 c.errors) :
    (matchTok (classicCfg B stop) k t c).1 = (matchTok (classicCfg B stop) k t0 c.norm).1 ∧
    (matchTok (classicCfg B stop) k t c).2.2.norm = (matchTok (classicCfg B stop) k t0 c.norm).2.2 ∧
    TR l (matchTok (classicCfg B stop) k t c).2.1 (matchTok (classicCfg B stop) k t0 c.norm).2.1
      (matchTok (classicCfg B stop) k t c).2.2.errors ∧
    ((matchTok (classicCfg B stop) k t c).1 = .ok true →
      (matchTok (classicCfg B stop) k t c).2.1 = (matchTok (classicCfg B stop) k t0 c.norm).2.1) := by
  have hO := matchTok_of (cfg := classicCfg B stop) classic_lawful k h.of c
  rcases h.rel with rfl | ⟨hcol, rfl, hal⟩
  · rw [matchTok_norm]
    exact ⟨rfl, rfl, ⟨hO, hO, .inl rfl⟩, fun _ => rfl⟩
  · have hO0 := matchTok_of (cfg := classicCfg B stop) classic_lawful k h.of0 c
    rw [matchTok_norm]
    simp only
    have heof : (Token.fresh l).eof = t.eof := by simp [Token.eof, h.of.1, Token.fresh]
    revert hO hO0
    unfold matchTok
    rw [heof]
    split
    · intro hO hO0
      exact ⟨rfl, rfl, h, by simp⟩
    · intro hO hO0
      have hi := Classic.indep k h.of c.matcher
      have hl := (Classic.matchKind_good k t c.matcher).line
      have hl0 := (Classic.matchKind_good k (Token.fresh l) c.matcher).line
      have hnp : k ≠ .language → ∀ e, (Classic.matchKind k t c.matcher).1 ≠ .error (.parser e) :=
        fun hk e => Classic.matchKind_noparser hk t c.matcher e
      simp only [classicCfg, classic] at hO hO0 ⊢
      rcases hm : Classic.matchKind k t c.matcher with ⟨r, t', m'⟩
      rcases hm0 : Classic.matchKind k (Token.fresh l) c.matcher with ⟨r0, t0', m0'⟩
      obtain ⟨i1, i2, i3, i4, i5⟩ := hi
      rw [hm, hm0] at i1 i2 i3 i4 i5
      rw [hm] at hl hnp hO
      rw [hm0] at hl0 hO0
      simp only at i1 i2 i3 i4 i5 hl hl0 hnp hO hO0 ⊢
      subst i1; subst i2
      have hs : syncErrors t' c.errors = c.errors := sync_noalias (by rw [hl, h.of.1]; exact hal)
      have hs0 : syncErrors t0' c.errors = c.errors := sync_noalias (by rw [hl0]; exact hal)
      rw [hs, hs0]
      refine ⟨rfl, rfl, ⟨hO, hO0, ?_⟩, ?_⟩
      · rcases i3 with i3 | ⟨i3, i3'⟩
        · exact .inl i3
        · cases hr : r with
          | ok b =>
            right
            refine ⟨by rw [i3]; exact hcol, i3', ?_⟩
            simpa [handle] using hal
          | error x =>
            cases x with
            | crash x =>
              right
              refine ⟨by rw [i3]; exact hcol, i3', ?_⟩
              simpa [handle] using hal
            | parser e => exact .inl (i5 e hr)
      · intro hok
        rcases hh : handle (⟨⟨Classic.matchKind, Classic.reset⟩, B, stop⟩ : Config CState σ ρ) false r
          { c with matcher := m', errors := c.errors } with ⟨y, c1⟩
        rw [hh] at hok
        simp only at hok
        subst hok
        rcases handle_ok hh with ⟨hr, _⟩ | ⟨_, _, _, hd, _⟩
        · exact i4 hr
        · simp at hd

/-- What the simulation keeps; `e`: the line in hand is the end of the file. -/
structure Keep (e : Bool) (rest : List Line) (c : Ctx CState σ) : Prop where
  p : e = false → PInv rest c
  valid : c.matcher.Valid
  alias : NoAlias rest c.errors

theorem PInv.congr {rest : List Line} {c c' : Ctx CState σ} (h : PInv rest c) (hq : c'.queue = c.queue)
    (hs : c'.scanner = c.scanner) : PInv rest c' :=
  ⟨by rw [hq]; exact h.toks, by rw [hs]; exact h.lines, by rw [hq, hs]; exact h.shape⟩

theorem Keep.congr_norm {e : Bool} {rest : List Line} {c c' : Ctx CState σ} (h : Keep e rest c) (hn : c'.norm = c.norm)
    (hp : PInv rest c') : Keep e rest c' := by
  have h1 : c'.matcher = c.matcher := by have := congrArg Ctx.matcher hn; exact this
  have h2 : c'.errors = c.errors := by have := congrArg Ctx.errors hn; exact this
  exact ⟨fun _ => hp, by rw [h1]; exact h.valid, by rw [h2]; exact h.alias⟩

theorem Keep.matchTok {e : Bool} {rest : List Line} {l : Line} {c : Ctx CState σ} (h : Keep e rest c) {t : Token} (ht : t.Of l)
    (hn : ∀ x ∈ rest, x.number ≠ l.number) (k : Kind) : Keep e rest (matchTok (classicCfg B stop) k t c).2.2 := by
  have hf := matchTok_frame (cfg := classicCfg B stop) k t c
  refine ⟨fun he => (h.p he).congr hf.2.1 hf.1, matchTok_valid h.valid, ?_⟩
  intro e he x hx
  exact matchTok_alias (n := x.number) (by rw [ht.1]; exact hn x hx) (fun e he => h.alias e he x hx) e he

theorem Keep.runProds (hB : B.Plain) {e : Bool} {rest : List Line} {c : Ctx CState σ} (h : Keep e rest c) (ps : List Prod)
    (t : Token) : Keep e rest (runProds (classicCfg B stop) ps t c).2 := by
  have hf := runProds_frame (cfg := classicCfg B stop) ps t c
  refine ⟨fun he => (h.p he).congr hf.2.1 hf.1, by rw [hf.2.2]; exact h.valid, ?_⟩
  intro e he x hx
  exact runProds_alias hB (fun e he => h.alias e he x hx) e he

theorem try_sim (hB : B.Plain) {rest : List Line} {l : Line} (hn : ∀ x ∈ rest, x.number ≠ l.number) {rows : List Trans} :
    ∀ {t t0 : Token} {c : Ctx CState σ}, (∀ tr ∈ rows, tr.la ≠ none → tr.kind ≠ .eof) → TR l t t0 c.errors → Keep l.isEof rest c →
    (tryTrans (classicCfg B stop) rows t c).1 = (Pure.try_ (classicCfg B stop) rows t0 rest c.norm).1 ∧
    (tryTrans (classicCfg B stop) rows t c).2.2.norm = (Pure.try_ (classicCfg B stop) rows t0 rest c.norm).2.2 ∧
    (∀ y, (tryTrans (classicCfg B stop) rows t c).1 = .ok y → Keep l.isEof rest (tryTrans (classicCfg B stop) rows t c).2.2 ∧
      TR l (tryTrans (classicCfg B stop) rows t c).2.1 (Pure.try_ (classicCfg B stop) rows t0 rest c.norm).2.1
        (tryTrans (classicCfg B stop) rows t c).2.2.errors) := by
  induction rows with
  | nil => intro t t0 c _ ht hk; exact ⟨rfl, rfl, fun y _ => ⟨hk, ht⟩⟩
  | cons tr trs ih =>
    intro t t0 c hrows ht hk
    have ih := fun {t t0 : Token} {c : Ctx CState σ} => @ih t t0 c (fun tr h => hrows tr (by simp [h]))
    have hs := matchTok_sim (B := B) (stop := stop) tr.kind ht
    have hk1 := Keep.matchTok (B := B) (stop := stop) hk ht.of hn tr.kind
    have hprods : ∀ (t' : Token) (c' : Ctx CState σ), Keep l.isEof rest c' →
        Keep l.isEof rest (runProds (classicCfg B stop) tr.prods t' c').2 :=
      fun t' c' hk' => Keep.runProds (stop := stop) hB hk' tr.prods t'
    unfold tryTrans Pure.try_ testTrans Pure.test
    rcases hm : Gherkin.matchTok (classicCfg B stop) tr.kind t c with ⟨r, t1, c1⟩
    rcases hm0 : Gherkin.matchTok (classicCfg B stop) tr.kind t0 c.norm with ⟨r0, t10, c10⟩
    rw [hm, hm0] at hs
    rw [hm] at hk1
    simp only at hs hk1
    obtain ⟨h1, h2, h3, h4⟩ := hs
    subst h1; subst h2
    cases r with
    | error x => exact ⟨rfl, rfl, fun y h => by simp at h⟩
    | ok b =>
      cases b with
      | false => exact ih h3 hk1
      | true =>
        have := h4 rfl
        subst this
        cases hla : tr.la with
        | none =>
          simp only
          have hp := hprods t1 c1 hk1
          rw [runProds_norm]
          rcases hr : Gherkin.runProds (classicCfg B stop) tr.prods t1 c1 with ⟨r, c2⟩
          rw [hr] at hp
          cases r with
          | ok u => exact ⟨rfl, rfl, fun y _ => ⟨hp, ⟨h3.of, h3.of, .inl rfl⟩⟩⟩
          | error x => exact ⟨rfl, rfl, fun y h => by simp at h⟩
        | some la =>
          simp only
          have hne : l.isEof = false := by
            cases he : l.isEof with
            | false => rfl
            | true =>
              have hk := hrows tr (by simp) (by simp [hla])
              have hte : t.eof = true := by simp [Token.eof, ht.of.1, he]
              unfold Gherkin.matchTok at hm
              rw [if_pos ⟨hk, hte⟩] at hm
              simp at hm
          have hl := lookahead_sim (B := B) (stop := stop) (la := la) (hk1.p hne) hk1.valid hk1.alias
          have hmat : c1.norm.matcher = c1.matcher := rfl
          rw [hmat]
          cases hp : Pure.peek la c1.matcher rest with
          | error x =>
            rw [hp] at hl
            obtain ⟨c', e1, e2⟩ := hl
            rw [e1]
            exact ⟨rfl, e2, fun y h => by simp at h⟩
          | ok b =>
            rw [hp] at hl
            obtain ⟨c', e1, e2, e3⟩ := hl
            rw [e1]
            have hk2 := hk1.congr_norm e2 e3
            have herr : c'.errors = c1.errors := by have := congrArg Ctx.errors e2; exact this
            rw [← e2]
            cases b with
            | false => exact ih (herr ▸ h3) hk2
            | true =>
              simp only
              have hp := hprods t1 c' hk2
              rw [runProds_norm]
              rcases hr : Gherkin.runProds (classicCfg B stop) tr.prods t1 c' with ⟨r, c2⟩
              rw [hr] at hp
              cases r with
              | ok u => exact ⟨rfl, rfl, fun y _ => ⟨hp, ⟨h3.of, h3.of, .inl rfl⟩⟩⟩
              | error x => exact ⟨rfl, rfl, fun y h => by simp at h⟩

def rowOk4 (q : Nat) : Bool :=
  match table q with
  | some row => row.trans.all fun tr => tr.la == none || tr.kind != .eof
  | none => true

theorem rows_ok4 : ∀ q ∈ allStates, rowOk4 q = true := by decide +kernel

/-- Every state takes blank lines and comments, or takes everything. -/
def rowOk3 (q : Nat) : Bool :=
  match table q with
  | some row => (row.trans.any fun tr => tr.kind == .other && tr.la == none) ||
      ((row.trans.any fun tr => tr.kind == .comment && tr.la == none) &&
       (row.trans.any fun tr => tr.kind == .empty && tr.la == none))
  | none => true

theorem rows_ok3 : ∀ q ∈ allStates, rowOk3 q = true := by decide +kernel

theorem matchTok_false_kind {k : Kind} {t t' : Token} {c c' : Ctx CState σ} (hk : k ≠ .eof) (hl : k ≠ .language) (ht : t.eof = false)
    (h : matchTok (classicCfg B stop) k t c = (.ok false, t', c')) : (Classic.matchKind k t c.matcher).1 = .ok false := by
  unfold matchTok at h
  rw [if_neg (by simp [ht])] at h
  simp only [classicCfg, classic] at h
  rcases hm : Classic.matchKind k t c.matcher with ⟨r, t1, m1⟩
  have hnp := Classic.matchKind_noparser hl t c.matcher
  rw [hm] at h hnp
  simp only at h hnp ⊢
  rcases hh : handle (⟨⟨Classic.matchKind, Classic.reset⟩, B, stop⟩ : Config CState σ ρ) false r
          { c with matcher := m1, errors := syncErrors t1 c.errors } with ⟨y, c1⟩
  rw [hh] at h
  cases h
  rcases handle_ok hh with ⟨hr, _⟩ | ⟨e, he, _⟩
  · exact hr
  · exact absurd he (hnp e)

theorem unexpected_col {q : Nat} {row : StateRow} (hq : table q = some row) {t t' : Token} {c c' : Ctx CState σ} {l : Line}
    (ht : t.Of l) (he : l.isEof = false) (hb : l.isBlank = true ∨ l.startsWith ['#'] = true)
    (h : tryTrans (classicCfg B stop) row.trans t c = (.ok none, t', c')) : False := by
  have hc := tryTrans_cases (cfg := classicCfg B stop) classic_lawful (closed_frame classic_lawful) row.trans t c
  rw [h] at hc
  simp only at hc
  cases hc with
  | taken h1 h2 h3 h4 h5 h6 h7 h8 h9 h10 h11 h12 => rcases h12 with ⟨h, _⟩ | ⟨_, h, _⟩ <;> simp at h
  | none h1 h2 h3 h4 =>
    have hr := rows_ok3 q (mem_allStates hq)
    unfold rowOk3 at hr
    rw [hq] at hr
    simp only [Bool.or_eq_true, Bool.and_eq_true, List.any_eq_true, beq_iff_eq] at hr
    have key : ∀ k, k ≠ .eof → k ≠ .language → (∃ tr ∈ row.trans, tr.kind = k ∧ tr.la = none) →
        ∃ t m, t.line = l ∧ (Classic.matchKind k t m).1 = .ok false := by
      intro k hk hk' ⟨tr, htr, hkk, hla⟩
      obtain ⟨t0, t1, c0, c1, _, hl, hm⟩ := h4 tr htr hla
      rw [hkk] at hm
      exact ⟨t0, c0.matcher, hl.trans ht.1, matchTok_false_kind hk hk' (by simp [Token.eof, hl, ht.1, he]) hm⟩
    rcases hr with ⟨tr, htr, h⟩ | ⟨⟨tr, htr, h⟩, ⟨tr', htr', h'⟩⟩
    · obtain ⟨t, m, _, hf⟩ := key .other (by simp) (by simp) ⟨tr, htr, h⟩
      simp [Classic.matchKind, Classic.matchOther] at hf
    · rcases hb with hb | hb
      · obtain ⟨t, m, hl, hf⟩ := key .empty (by simp) (by simp) ⟨tr', htr', h'⟩
        simp [Classic.matchKind, Classic.matchEmpty, hl, hb] at hf
      · obtain ⟨t, m, hl, hf⟩ := key .comment (by simp) (by simp) ⟨tr, htr, h⟩
        simp [Classic.matchKind, Classic.matchComment, hl, hb] at hf

theorem unexpected_eq {ks : List Kind} {t t0 : Token} {l : Line} {es : List Err} (h : TR l t t0 es)
    (hn : l.isEof = false → ¬ (l.isBlank = true ∨ l.startsWith ['#'] = true)) : unexpected ks t = unexpected ks t0 := by
  rcases h.rel with rfl | ⟨hc, rfl, _⟩
  · rfl
  · have h1 := h.of
    obtain ⟨ha, hb⟩ := h1
    have hloc : t.loc = ⟨l.number, t.loc.column⟩ := by rw [← hb]
    unfold unexpected
    have heof : t.eof = (Token.fresh l).eof := by simp [Token.eof, ha, Token.fresh]
    rw [heof]
    rcases hc with hc | ⟨he, hc⟩ | ⟨he, hbc, _⟩
    · have : t.loc = (Token.fresh l).loc := by rw [hloc, hc]; rfl
      split
      · simp [Err.mkUnexpectedEof, this]
      · have hv : t.value = (Token.fresh l).value := by unfold Token.value; rw [heof, ha]; rfl
        have hli : t.line = (Token.fresh l).line := ha
        simp only [Err.mkUnexpectedToken, this, hv, hli]
    · have hf : (Token.fresh l).eof = false := he
      rw [hf]
      have hv : t.value = (Token.fresh l).value := by unfold Token.value; rw [heof, ha]; rfl
      have hli : t.line = (Token.fresh l).line := ha
      simp only [Bool.false_eq_true, if_false, Err.mkUnexpectedToken, hv]
      rw [hc, hb]
      rfl
    · exact absurd hbc (hn he)

theorem step_sim (hB : B.Plain) {rest : List Line} {l : Line} (hn : ∀ x ∈ rest, x.number ≠ l.number) (q : Nat)
    {t : Token} {c : Ctx CState σ} (ht : TR l t (Token.fresh l) c.errors) (hk : Keep l.isEof rest c) :
    (matchToken (classicCfg B stop) q t c).1 = (Pure.step (classicCfg B stop) q l rest c.norm).1 ∧
    (matchToken (classicCfg B stop) q t c).2.norm = (Pure.step (classicCfg B stop) q l rest c.norm).2 ∧
    (∀ y, (matchToken (classicCfg B stop) q t c).1 = .ok y → Keep l.isEof rest (matchToken (classicCfg B stop) q t c).2) := by
  unfold matchToken Pure.step
  cases hq : table q with
  | none => exact ⟨rfl, rfl, fun y h => by simp at h⟩
  | some row =>
    simp only
    have hla : ∀ tr ∈ row.trans, tr.la ≠ none → tr.kind ≠ .eof := by
      have hr := rows_ok4 q (mem_allStates hq)
      unfold rowOk4 at hr
      rw [hq] at hr
      simp only [List.all_eq_true, Bool.or_eq_true, beq_iff_eq, bne_iff_ne] at hr
      intro tr htr hne
      rcases hr tr htr with h | h
      · exact absurd h hne
      · exact h
    have hs := try_sim (stop := stop) hB hn (rows := row.trans) hla ht hk
    rcases hm : tryTrans (classicCfg B stop) row.trans t c with ⟨r, t1, c1⟩
    rcases hm0 : Pure.try_ (classicCfg B stop) row.trans (Token.fresh l) rest c.norm with ⟨r0, t10, c10⟩
    rw [hm, hm0] at hs
    simp only at hs
    obtain ⟨h1, h2, h3⟩ := hs
    subst h1; subst h2
    cases r with
    | error x => exact ⟨rfl, rfl, fun y h => by simp at h⟩
    | ok o =>
      obtain ⟨hk1, ht1⟩ := h3 o rfl
      cases o with
      | some tgt => exact ⟨rfl, rfl, fun y h => hk1⟩
      | none =>
        simp only
        have hu : unexpected row.expected t1 = unexpected row.expected t10 :=
          unexpected_eq ht1 (fun he hb => unexpected_col hq ht.of he hb hm)
        rw [hu]
        by_cases hst : (classicCfg B stop).stop = true
        · rw [if_pos hst, if_pos hst]; exact ⟨rfl, rfl, fun y h => by simp at h⟩
        · rw [if_neg hst, if_neg hst]
          rw [addError_norm]
          rcases ha : addError (unexpected row.expected t10) c1 with ⟨z, c2⟩
          cases z with
          | error x => exact ⟨rfl, rfl, fun y h => by simp at h⟩
          | ok u =>
            refine ⟨rfl, rfl, fun y _ => ?_⟩
            have hc2 := (addError_ok ha).2.2
            refine ⟨fun he => (hk1.p he).congr (by rw [hc2]) (by rw [hc2]), by rw [hc2]; exact hk1.valid, ?_⟩
            intro e he x hx
            refine addError_alias ha (fun e he => hk1.alias e he x hx) ?_ e he
            simp [unexpected, Err.mkUnexpectedEof, Err.mkUnexpectedToken]
            split <;> simp

/-- The lines are numbered in increasing order; only the last one is the end of the file. -/
structure Numbered (rest : List Line) : Prop where
  inc : (rest.map (·.number)).Pairwise (· < ·)
  eof : ∀ l ∈ rest.dropLast, l.isEof = false
  last : ∃ l, rest.getLast? = some l ∧ l.isEof = true

theorem Numbered.tail {l : Line} {rest : List Line} (h : Numbered (l :: rest)) (hl : l.isEof = false) : Numbered rest := by
  have hne : rest ≠ [] := by
    rintro rfl
    obtain ⟨x, hx, hx'⟩ := h.last
    simp at hx; subst hx; rw [hl] at hx'; simp at hx'
  refine ⟨?_, ?_, ?_⟩
  · have := h.inc; simp only [List.map_cons, List.pairwise_cons] at this; exact this.2
  · intro x hx; apply h.eof; rw [List.dropLast_cons_of_ne_nil hne]; simp [hx]
  · have := h.last
    rwa [List.getLast?_cons_of_ne_nil hne] at this

theorem loop_sim (hB : B.Plain) {rest : List Line} : ∀ {fuel q : Nat} {c : Ctx CState σ}, Numbered rest → Keep false rest c →
    c.pend < fuel →
    (parseLoop (classicCfg B stop) fuel q c).1 = ((Pure.loop (classicCfg B stop) rest q c.norm).1.map fun _ => ()) ∧
    (parseLoop (classicCfg B stop) fuel q c).2.norm = (Pure.loop (classicCfg B stop) rest q c.norm).2 := by
  induction rest with
  | nil => intro fuel q c hnum; obtain ⟨_, h, _⟩ := hnum.last; simp at h
  | cons l rest ih =>
    intro fuel q c hnum hk hf
    cases fuel with
    | zero => omega
    | succ fuel =>
      obtain ⟨l', rest', t, c1, hrest, hread, htO, htC, hnorm, hle, hcont, hstop⟩ := readToken_pinv (hk.p rfl)
      cases hrest
      unfold parseLoop Pure.loop
      rw [hread]
      simp only
      have hlog : c1.log = c.log := by have := congrArg Ctx.log hnorm; exact this
      have herr : c1.errors = c.errors := by have := congrArg Ctx.errors hnorm; exact this
      have hmt : c1.matcher = c.matcher := by have := congrArg Ctx.matcher hnorm; exact this
      have hbd : c1.builder = c.builder := by have := congrArg Ctx.builder hnorm; exact this
      have hne : ∀ x ∈ rest, x.number ≠ l.number := by
        intro x hx
        have := hnum.inc
        simp only [List.map_cons, List.pairwise_cons] at this
        have := this.1 x.number (List.mem_map_of_mem hx)
        omega
      have htr : TR l t (Token.fresh l) c1.errors := by
        refine ⟨htO, Token.fresh_of l, .inr ⟨htC, rfl, ?_⟩⟩
        rw [herr]; intro e he; exact hk.alias e he l (by simp)
      have hnn : Ctx.norm { c1 with log := c1.log ++ [.take t.line] } = { c.norm with log := c.norm.log ++ [.take l] } := by
        simp [Ctx.norm, hlog, herr, hmt, hbd, htO.1]
      have heof : t.eof = l.isEof := by simp [Token.eof, htO.1]
      have hk1 : Keep l.isEof rest { c1 with log := c1.log ++ [.take t.line] } :=
        ⟨fun he => (hcont he).1.congr rfl rfl, by simp only; rw [hmt]; exact hk.valid, by
          simp only; rw [herr]; intro e he x hx; exact hk.alias e he x (by simp [hx])⟩
      have hs := step_sim (stop := stop) hB hne q (c := { c1 with log := c1.log ++ [.take t.line] }) htr hk1
      rw [hnn] at hs
      have hpend := (matchToken_pend (cfg := classicCfg B stop) classic_lawful q t { c1 with log := c1.log ++ [.take t.line] }).2
      rcases hm : matchToken (classicCfg B stop) q t { c1 with log := c1.log ++ [.take t.line] } with ⟨r, c2⟩
      rcases hm0 : Pure.step (classicCfg B stop) q l rest { c.norm with log := c.norm.log ++ [.take l] } with ⟨r0, c20⟩
      rw [hm, hm0] at hs
      rw [hm] at hpend
      simp only at hs hpend
      obtain ⟨h1, h2, h3⟩ := hs
      subst h1; subst h2
      cases r with
      | error x => exact ⟨rfl, rfl⟩
      | ok q' =>
        cases he : l.isEof with
        | true =>
          simp only [heof, he, if_true]
          exact ⟨rfl, trivial⟩
        | false =>
          simp only [heof, he, Bool.false_eq_true, if_false]
          refine ih (hnum.tail he) (he ▸ h3 q' rfl) ?_
          have h4 := hpend q' rfl
          have h5 : c1.pend + 1 ≤ c.pend := by
            rcases readToken_cases c with ⟨t', q, hq, hc⟩ | ⟨l, ls, hq, hl, hc⟩ | ⟨hq, hl, hc⟩
            · rw [hread] at hc; cases hc
              have : t.eof = false := by rw [heof]; exact he
              simp [Ctx.pend, hq, this]; omega
            · rw [hread] at hc; cases hc
              simp [Ctx.pend, hl, hq]
            · rw [hread] at hc; cases hc
              have := heof
              rw [he] at this
              simp [Token.eof, Token.fresh, Line.isEof] at this
          have h6 : Ctx.pend { c1 with log := c1.log ++ [.take t.line] } = c1.pend := rfl
          omega

end

end Gherkin
