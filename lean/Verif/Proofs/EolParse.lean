import Verif.Proofs.EolBuild
import Verif.Proofs.Refine2
import Verif.Proofs.Auto

/-! Whole parses do not look at line ends: for any matcher whose answers do not depend on them, and with the token queue of the real parser. -/

namespace Gherkin

variable {μ σ ρ : Type}

/-- `G` is kept by matching, and the answers for a line do not depend on its line end. -/
structure Matcher.Blind (M : Matcher μ) (G : μ → Prop) : Prop where
  same : ∀ k t m, G m →
    M.match_ k t.canon m = ((M.match_ k t m).1, (M.match_ k t m).2.1.canon, (M.match_ k t m).2.2)
  good : ∀ k t m, G m → G (M.match_ k t m).2.2
  other : ∀ t m, ∃ t' m', M.match_ .other t m = (.ok true, t', m')
  empty : ∀ t m, t.line.isBlank = true → ∃ t' m', M.match_ .empty t m = (.ok true, t', m')

namespace Blind

def canonEv : Ev → Ev
  | .take l => .take l.canon
  | .build t => .build t.canon
  | e => e

def canonText (s : Str) : Str := if s = [] then [] else rstripEol s ++ ['\n']

/-- The context of the parse of the canonical lines. -/
def canonCtx (φ : σ → σ) (c : Ctx μ σ) : Ctx μ σ :=
  { c with scanner := { c.scanner with lines := c.scanner.lines.map canonText }, queue := c.queue.map Token.canon, builder := φ c.builder,
           log := c.log.map canonEv }

theorem split_flat : ∀ {ls : List Str}, (∀ l ∈ ls, ∃ b, '\n' ∉ b ∧ l = b ++ ['\n']) → splitLines ls.flatten = ls
  | [], _ => rfl
  | l :: ls, h => by
    obtain ⟨b, hb, rfl⟩ := h l (by simp)
    have key : ∀ (body : Str), '\n' ∉ body → ∀ s, splitLines (body ++ ['\n'] ++ s) = (body ++ ['\n']) :: splitLines s := by
      intro body hb s
      induction body with
      | nil => simp [splitLines]
      | cons c cs ih =>
        have hc : c ≠ '\n' := by rintro rfl; simp at hb
        have := ih (by simp at hb; exact hb.2)
        simp only [List.cons_append, splitLines, beq_iff_eq, hc, if_false, this]
    rw [List.flatten_cons, key b hb, split_flat fun x hx => h x (by simp [hx])]

theorem splitLines_shape (text : Str) : ∀ s ∈ splitLines text, ∃ body, '\n' ∉ body ∧ (s = body ∨ s = body ++ ['\n']) := by
  induction text with
  | nil => simp [splitLines]
  | cons c cs ih =>
    intro s hs
    simp only [splitLines] at hs
    split at hs
    · simp only [List.mem_cons] at hs
      rcases hs with rfl | hs
      · exact ⟨[], by simp, .inr rfl⟩
      · exact ih s hs
    · rename_i hc
      have hc : '\n' ≠ c := by rintro rfl; simp at hc
      split at hs
      · simp only [List.mem_singleton] at hs
        subst hs
        exact ⟨[c], by simpa using hc, .inl rfl⟩
      · rename_i l ls heq
        simp only [List.mem_cons] at hs
        rcases hs with rfl | hs
        · obtain ⟨b, hb, h⟩ := ih l (by rw [heq]; simp)
          refine ⟨c :: b, by simp [hc, hb], ?_⟩
          rcases h with rfl | rfl
          · exact .inl rfl
          · exact .inr rfl
        · exact ih s (by rw [heq]; simp [hs])

theorem splitLines_ne (text : Str) : ∀ s ∈ splitLines text, s ≠ [] := by
  induction text with
  | nil => simp [splitLines]
  | cons c cs ih =>
    intro s hs
    simp only [splitLines] at hs
    split at hs
    · simp only [List.mem_cons] at hs
      rcases hs with rfl | hs
      · simp
      · exact ih s hs
    · split at hs
      · simp only [List.mem_singleton] at hs; subst hs; simp
      · rename_i l ls heq
        simp only [List.mem_cons] at hs
        rcases hs with rfl | hs
        · simp
        · exact ih s (by rw [heq]; simp [hs])

variable {cfg : Config μ σ ρ} {φ : σ → σ} {G : μ → Prop}

theorem addError_c (e : Err) (c : Ctx μ σ) : addError e (canonCtx φ c) = ((addError e c).1, canonCtx φ (addError e c).2) := by
  by_cases h1 : e.msg ∈ c.errors.map (·.msg)
  · simp only [addError, canonCtx, h1, if_true]
  · by_cases h2 : (c.errors ++ [e]).length > 10
    · simp only [addError, canonCtx, h1, h2, if_true, if_false]
    · simp only [addError, canonCtx, h1, h2, if_false]

theorem handle_c {α : Type} (d : α) (r : Except MExc α) (c : Ctx μ σ) :
    handle cfg d r (canonCtx φ c) = ((handle cfg d r c).1, canonCtx φ (handle cfg d r c).2) := by
  unfold handle
  split
  · rfl
  · rfl
  · split
    · rfl
    · rw [addError_c]
      rcases addError _ c with ⟨x, c'⟩
      cases x <;> rfl

theorem matchTok_matcher (k : Kind) (t : Token) (c : Ctx μ σ) :
    (matchTok cfg k t c).2.2.matcher = c.matcher ∨ (matchTok cfg k t c).2.2.matcher = (cfg.matcher.match_ k t c.matcher).2.2 := by
  unfold matchTok
  split
  · exact .inl rfl
  · right
    rcases cfg.matcher.match_ k t c.matcher with ⟨r, t', m'⟩
    simp only
    have := (handle_ctx (cfg := cfg) false r { c with matcher := m', errors := syncErrors t' c.errors }).2.1
    rcases hh : handle cfg false r { c with matcher := m', errors := syncErrors t' c.errors } with ⟨y, c1⟩
    rw [hh] at this
    exact this

/-- The context stays good. -/
structure Keeps (G : μ → Prop) (c c' : Ctx μ σ) : Prop where
  good : G c.matcher → G c'.matcher

theorem Keeps.refl (c : Ctx μ σ) : Keeps G c c := ⟨id⟩
theorem Keeps.trans {a b c : Ctx μ σ} (h : Keeps G a b) (h' : Keeps G b c) : Keeps G a c := ⟨fun x => h'.good (h.good x)⟩
theorem Keeps.same {a b : Ctx μ σ} (h : b.matcher = a.matcher) : Keeps G a b := ⟨fun x => h ▸ x⟩

variable (hM : cfg.matcher.Blind G) (hL : cfg.matcher.Lawful)
include hM

theorem matchTok_keeps (k : Kind) (t : Token) (c : Ctx μ σ) : Keeps G c (matchTok cfg k t c).2.2 := by
  rcases matchTok_matcher (cfg := cfg) k t c with h | h
  · exact .same h
  · exact ⟨fun g => by rw [h]; exact hM.good _ _ _ g⟩

theorem matchTok_c (k : Kind) (t : Token) {c : Ctx μ σ} (hG : G c.matcher) :
    matchTok cfg k t.canon (canonCtx φ c) = ((matchTok cfg k t c).1, (matchTok cfg k t c).2.1.canon, canonCtx φ (matchTok cfg k t c).2.2) := by
  have he : t.canon.eof = t.eof := canon_eof t.line
  unfold matchTok
  rw [he]
  split
  · rfl
  · have hm : cfg.matcher.match_ k t.canon (canonCtx φ c).matcher = _ := hM.same k t c.matcher hG
    rw [hm]
    rcases cfg.matcher.match_ k t c.matcher with ⟨r, t', m'⟩
    simp only
    have := handle_c (cfg := cfg) (φ := φ) false r { c with matcher := m', errors := syncErrors t' c.errors }
    have hs : syncErrors t'.canon c.errors = syncErrors t' c.errors := rfl
    simp only [canonCtx] at this ⊢
    rw [hs, this]

theorem matchAny_c (ks : List Kind) : ∀ (t : Token) {c : Ctx μ σ}, G c.matcher →
    matchAny cfg ks t.canon (canonCtx φ c) = ((matchAny cfg ks t c).1, (matchAny cfg ks t c).2.1.canon, canonCtx φ (matchAny cfg ks t c).2.2) ∧
      Keeps G c (matchAny cfg ks t c).2.2 := by
  induction ks with
  | nil => intro t c _; exact ⟨rfl, .refl _⟩
  | cons k ks ih =>
    intro t c hG
    have h1 := matchTok_c hM (φ := φ) k t hG
    have h2 := matchTok_keeps hM k t c
    simp only [matchAny, h1]
    rcases hx : matchTok cfg k t c with ⟨r, t', c'⟩
    rw [hx] at h2
    replace h2 : Keeps G c c' := h2
    rcases r with x | _ | _
    · exact ⟨rfl, h2⟩
    · obtain ⟨h3, h4⟩ := ih t' (h2.good hG)
      exact ⟨h3, h2.trans h4⟩
    · exact ⟨rfl, h2⟩

omit hM in
theorem readToken_c (c : Ctx μ σ) : readToken (canonCtx φ c) = ((readToken c).1.canon, canonCtx φ (readToken c).2) ∧
    (readToken c).2.matcher = c.matcher := by
  rcases c with ⟨⟨lines, n⟩, m, q, es, b, log⟩
  cases q with
  | nil =>
    cases lines with
    | nil => exact ⟨rfl, rfl⟩
    | cons l ls => exact ⟨rfl, rfl⟩
  | cons t q => exact ⟨rfl, rfl⟩

theorem laLoop_c (la : LA) : ∀ (fuel : Nat) (acc : List Token) {c : Ctx μ σ}, G c.matcher →
    laLoop cfg la fuel (acc.map Token.canon) (canonCtx φ c) =
      ((laLoop cfg la fuel acc c).1.map (fun p => (p.1, p.2.map Token.canon)), canonCtx φ (laLoop cfg la fuel acc c).2) ∧
      Keeps G c (laLoop cfg la fuel acc c).2 := by
  intro fuel
  induction fuel with
  | zero => intro acc c _; exact ⟨rfl, .refl _⟩
  | succ fuel ih =>
    intro acc c hG
    obtain ⟨r1, r2⟩ := readToken_c (φ := φ) c
    simp only [laLoop, r1]
    rcases hr : readToken c with ⟨t, c1⟩
    rw [hr] at r2
    replace r2 : c1.matcher = c.matcher := r2
    have hG1 : G c1.matcher := r2 ▸ hG
    have h1 := matchTok_c hM (φ := φ) la.expected t hG1
    have h2 := matchTok_keeps hM la.expected t c1
    simp only [h1]
    rcases hx : matchTok cfg la.expected t c1 with ⟨r, t2, c2⟩
    rw [hx] at h2
    replace h2 : Keeps G c c2 := (Keeps.same r2).trans h2
    rcases r with x | _ | _
    · exact ⟨rfl, h2⟩
    · obtain ⟨h3, h4⟩ := matchAny_c hM (φ := φ) skipKinds t2 (h2.good hG)
      simp only [h3]
      rcases hy : matchAny cfg skipKinds t2 c2 with ⟨r, t3, c3⟩
      rw [hy] at h4
      replace h4 : Keeps G c c3 := h2.trans h4
      rcases r with x | _ | _
      · exact ⟨rfl, h4⟩
      · simp only [Except.map, List.map_append]; exact ⟨rfl, h4⟩
      · have := ih (acc ++ [t3]) (h4.good hG)
        rw [List.map_append] at this
        exact ⟨this.1, h4.trans this.2⟩
    · simp only [Except.map, List.map_append]; exact ⟨rfl, h2⟩

theorem lookahead_c (la : LA) {c : Ctx μ σ} (hG : G c.matcher) :
    lookahead cfg la (canonCtx φ c) = ((lookahead cfg la c).1, canonCtx φ (lookahead cfg la c).2) ∧ Keeps G c (lookahead cfg la c).2 := by
  obtain ⟨h1, h2⟩ := laLoop_c hM (φ := φ) la (c.queue.length + c.scanner.lines.length + 1) [] hG
  unfold lookahead
  have hf : (canonCtx φ c).queue.length + (canonCtx φ c).scanner.lines.length + 1 = c.queue.length + c.scanner.lines.length + 1 := by
    simp [canonCtx]
  rw [hf]
  rw [List.map_nil] at h1
  rw [h1]
  rcases hx : laLoop cfg la (c.queue.length + c.scanner.lines.length + 1) [] c with ⟨r, c'⟩
  rw [hx] at h2
  cases r with
  | error x => exact ⟨rfl, h2⟩
  | ok p =>
    obtain ⟨b, ts⟩ := p
    simp only [Except.map]
    exact ⟨by simp [canonCtx], h2.trans (.same rfl)⟩

omit hM in
theorem runProd_c (hB : cfg.builder.Blind φ) (p : Prod) (t : Token) (c : Ctx μ σ) :
    runProd cfg p t.canon (canonCtx φ c) = ((runProd cfg p t c).1, canonCtx φ (runProd cfg p t c).2) := by
  rw [runProd_eq, runProd_eq]
  have h1 : evAnswer cfg.builder (φ c.builder) (p.ev t.canon) = evAnswer cfg.builder c.builder (p.ev t) := by
    cases p
    · exact congrArg (·.1) (hB.start _ _)
    · exact congrArg (·.1) (hB.stop _ _)
    · exact congrArg (·.1) (hB.build _ _)
  have h2 : applyEv cfg.builder (φ c.builder) (p.ev t.canon) = φ (applyEv cfg.builder c.builder (p.ev t)) := by
    cases p
    · exact congrArg (·.2) (hB.start _ _)
    · exact congrArg (·.2) (hB.stop _ _)
    · exact congrArg (·.2) (hB.build _ _)
  have h3 := handle_c (cfg := cfg) (φ := φ) () (evAnswer cfg.builder c.builder (p.ev t))
    { c with builder := applyEv cfg.builder c.builder (p.ev t), log := c.log ++ [p.ev t] }
  have h4 : canonEv (p.ev t) = p.ev t.canon := by cases p <;> rfl
  simp only [canonCtx, List.map_append, List.map_cons, List.map_nil, h4] at h3 ⊢
  rw [h1, h2, h3]

omit hM in
theorem runProds_c (hB : cfg.builder.Blind φ) (ps : List Prod) (t : Token) (c : Ctx μ σ) :
    runProds cfg ps t.canon (canonCtx φ c) = ((runProds cfg ps t c).1, canonCtx φ (runProds cfg ps t c).2) := by
  induction ps generalizing c with
  | nil => rfl
  | cons p ps ih =>
    simp only [runProds, runProd_c hB]
    rcases runProd cfg p t c with ⟨r, c'⟩
    cases r with
    | error x => rfl
    | ok u => simp [ih]

include hL

theorem testTrans_c (tr : Trans) (t : Token) {c : Ctx μ σ} (hG : G c.matcher) :
    testTrans cfg tr t.canon (canonCtx φ c) =
      ((testTrans cfg tr t c).1, (testTrans cfg tr t c).2.1.canon, canonCtx φ (testTrans cfg tr t c).2.2) ∧
    Keeps G c (testTrans cfg tr t c).2.2 ∧ (testTrans cfg tr t c).2.1.line = t.line := by
  unfold testTrans
  rw [matchTok_c hM tr.kind t hG]
  have h2 := matchTok_keeps hM tr.kind t c
  have h3 := matchTok_line hL tr.kind t c
  rcases hx : matchTok cfg tr.kind t c with ⟨r, t', c'⟩
  rw [hx] at h2 h3
  replace h2 : Keeps G c c' := h2
  rcases r with x | _ | _
  · exact ⟨rfl, h2, h3⟩
  · exact ⟨rfl, h2, h3⟩
  · simp only
    cases hla : tr.la with
    | none => exact ⟨rfl, h2, h3⟩
    | some la =>
      simp only
      obtain ⟨h4, h5⟩ := lookahead_c hM (φ := φ) la (h2.good hG)
      rw [h4]
      exact ⟨rfl, h2.trans h5, h3⟩

theorem tryTrans_c (hB : cfg.builder.Blind φ) : ∀ (rows : List Trans) (t : Token) {c : Ctx μ σ}, G c.matcher →
    tryTrans cfg rows t.canon (canonCtx φ c) =
      ((tryTrans cfg rows t c).1, (tryTrans cfg rows t c).2.1.canon, canonCtx φ (tryTrans cfg rows t c).2.2) ∧
    Keeps G c (tryTrans cfg rows t c).2.2 ∧ (tryTrans cfg rows t c).2.1.line = t.line
  | [], t, c, _ => ⟨rfl, .refl _, rfl⟩
  | tr :: trs, t, c, hG => by
    obtain ⟨h1, h2, h3⟩ := testTrans_c hM hL (φ := φ) tr t hG
    simp only [tryTrans, h1]
    rcases hx : testTrans cfg tr t c with ⟨r, t', c'⟩
    rw [hx] at h2 h3
    replace h2 : Keeps G c c' := h2
    replace h3 : t'.line = t.line := h3
    rcases r with x | _ | _
    · exact ⟨rfl, h2, h3⟩
    · obtain ⟨h4, h5, h6⟩ := tryTrans_c hB trs t' (h2.good hG)
      exact ⟨h4, h2.trans h5, h6.trans h3⟩
    · simp only
      rw [runProds_c hB]
      rcases hr : runProds cfg tr.prods t' c' with ⟨y, c2⟩
      have := runProds_matcher hr
      cases y <;> exact ⟨rfl, h2.trans (.same this), h3⟩

omit hM in
/-- If no transition was taken then the transitions without look-ahead refused the line. -/
theorem tryTrans_none : ∀ {rows : List Trans} {t t' : Token} {c c' : Ctx μ σ},
    tryTrans cfg rows t c = (.ok none, t', c') →
    ∀ tr ∈ rows, tr.la = none → ∃ t0 t1 c0 c1, t0.line = t.line ∧ matchTok cfg tr.kind t0 c0 = (.ok false, t1, c1) := by
  intro rows
  induction rows with
  | nil => intro t t' c c' _ tr htr; simp at htr
  | cons tr trs ih =>
    intro t t' c c' h tr' htr' hla'
    simp only [tryTrans] at h
    have hline : (testTrans cfg tr t c).2.1.line = t.line := by
      have h3 := matchTok_line hL tr.kind t c
      unfold testTrans
      rcases hx : matchTok cfg tr.kind t c with ⟨r, t1, c1⟩
      rw [hx] at h3
      rcases r with x | _ | _ <;> try exact h3
      simp only
      cases tr.la <;> exact h3
    rcases hx : testTrans cfg tr t c with ⟨r, t1, c1⟩
    rw [hx] at h hline
    replace hline : t1.line = t.line := hline
    rcases r with x | _ | _
    · simp at h
    · simp only at h
      rcases List.mem_cons.1 htr' with rfl | htr'
      · refine ⟨t, t1, c, c1, rfl, ?_⟩
        unfold testTrans at hx
        rcases hm : matchTok cfg tr'.kind t c with ⟨r, t2, c2⟩
        rw [hm, hla'] at hx
        rcases r with x | _ | _ <;> simp at hx
        simp [hx]
      · obtain ⟨t0, t2, c0, c2, g1, g2⟩ := ih h tr' htr' hla'
        exact ⟨t0, t2, c0, c2, g1.trans hline, g2⟩
    · simp only at h
      rcases hr : runProds cfg tr.prods t1 c1 with ⟨y, c2⟩
      rw [hr] at h
      cases y <;> simp at h

/-- Blank lines are never unexpected. -/
theorem blank_ok {q : Nat} {row : StateRow} (hq : table q = some row) {t t' : Token} {c c' : Ctx μ σ}
    (he : t.line.isEof = false) (h : tryTrans cfg row.trans t c = (.ok none, t', c')) : t.line.isBlank = false := by
  cases hb : t.line.isBlank with
  | false => rfl
  | true =>
    exfalso
    have h4 := tryTrans_none hL h
    have hr := rows_ok3 q (mem_allStates hq)
    unfold rowOk3 at hr
    rw [hq] at hr
    simp only [Bool.or_eq_true, Bool.and_eq_true, List.any_eq_true, beq_iff_eq] at hr
    have yes : ∀ {k : Kind} {t0 t1 : Token} {c0 c1 : Ctx μ σ}, k ≠ .eof → t0.line = t.line → (∃ t' m', cfg.matcher.match_ k t0 c0.matcher = (.ok true, t', m')) →
        matchTok cfg k t0 c0 ≠ (.ok false, t1, c1) := by
      intro k t0 t1 c0 c1 hk hl ⟨t', m', hm⟩ hf
      unfold matchTok at hf
      rw [if_neg (by simp [Token.eof, hl, he]), hm] at hf
      simp [handle] at hf
    rcases hr with ⟨tr, htr, h⟩ | ⟨_, ⟨tr', htr', h'⟩⟩
    · obtain ⟨t0, t1, c0, c1, g1, g2⟩ := h4 tr htr h.2
      rw [h.1] at g2
      exact yes (by simp) g1 (hM.other _ _) g2
    · obtain ⟨t0, t1, c0, c1, g1, g2⟩ := h4 tr' htr' h'.2
      rw [h'.1] at g2
      exact yes (by simp) g1 (hM.empty _ _ (by rw [g1]; exact hb)) g2

omit hM hL in
theorem unexpected_c {ks : List Kind} {t : Token} (h : t.line.isEof = false → t.line.isBlank = false) :
    unexpected ks t.canon = unexpected ks t := by
  have he : t.canon.eof = t.eof := canon_eof t.line
  unfold unexpected
  rw [he]
  cases hx : t.eof with
  | true => rfl
  | false =>
    have hb := h hx
    have hv : strip t.canon.value = strip t.value := by
      unfold Token.value
      rw [he, hx]
      exact canon_strip t.line
    have hi : t.canon.line.indent = t.line.indent := canon_indent hb
    simp only [Bool.false_eq_true, if_false, Err.mkUnexpectedToken, hv, hi]
    rfl

theorem matchToken_c (hB : cfg.builder.Blind φ) (q : Nat) (t : Token) {c : Ctx μ σ} (hG : G c.matcher) :
    matchToken cfg q t.canon (canonCtx φ c) = ((matchToken cfg q t c).1, canonCtx φ (matchToken cfg q t c).2) ∧
    Keeps G c (matchToken cfg q t c).2 := by
  unfold matchToken
  cases hq : table q with
  | none => exact ⟨rfl, .refl _⟩
  | some row =>
    simp only
    obtain ⟨h1, h2, h3⟩ := tryTrans_c hM hL hB row.trans t hG
    rw [h1]
    rcases hr : tryTrans cfg row.trans t c with ⟨r, t', c'⟩
    rw [hr] at h2 h3
    replace h2 : Keeps G c c' := h2
    replace h3 : t'.line = t.line := h3
    cases r with
    | error x => exact ⟨rfl, h2⟩
    | ok o =>
      cases o with
      | some q' => exact ⟨rfl, h2⟩
      | none =>
        simp only
        rw [unexpected_c (by rw [h3]; exact fun he => blank_ok hM hL hq he hr)]
        split
        · exact ⟨rfl, h2⟩
        · rw [addError_c]
          have hc := addError_cases (unexpected row.expected t') c'
          rcases hx : addError (unexpected row.expected t') c' with ⟨x, c2⟩
          rw [hx] at hc
          have : c2.matcher = c'.matcher := by
            rcases hc with ⟨_, h⟩ | ⟨_, _, h⟩ | ⟨_, _, h⟩ <;> cases h <;> rfl
          cases x <;> exact ⟨rfl, h2.trans (.same this)⟩

theorem parseLoop_c (hB : cfg.builder.Blind φ) : ∀ (fuel q : Nat) {c : Ctx μ σ}, G c.matcher →
    parseLoop cfg fuel q (canonCtx φ c) = ((parseLoop cfg fuel q c).1, canonCtx φ (parseLoop cfg fuel q c).2) := by
  intro fuel
  induction fuel with
  | zero => intro q c _; rfl
  | succ fuel ih =>
    intro q c hG
    obtain ⟨r1, r2⟩ := readToken_c (φ := φ) c
    simp only [parseLoop, r1]
    rcases hr : readToken c with ⟨t, c1⟩
    rw [hr] at r2
    replace r2 : c1.matcher = c.matcher := r2
    have h0 : ({ canonCtx φ c1 with log := (canonCtx φ c1).log ++ [.take t.canon.line] } : Ctx μ σ) =
        canonCtx φ ({ c1 with log := c1.log ++ [.take t.line] } : Ctx μ σ) := by
      simp [canonCtx, canonEv, Token.canon]
    obtain ⟨h1, h2⟩ := matchToken_c hM hL hB q t (c := { c1 with log := c1.log ++ [.take t.line] }) (r2 ▸ hG)
    simp only [h0, h1, show t.canon.eof = t.eof from canon_eof t.line]
    rcases hx : matchToken cfg q t { c1 with log := c1.log ++ [.take t.line] } with ⟨r, c2⟩
    rw [hx] at h2
    replace h2 : Keeps G c c2 := ⟨fun g => h2.good (r2 ▸ g)⟩
    cases r with
    | error x => rfl
    | ok q' =>
      simp only
      split
      · rfl
      · exact ih q' (h2.good hG)

omit hM hL in
/-- The parse of the text with canonical lines, if the loop goes the same way. -/
theorem parse_of_loop (hB : cfg.builder.Blind φ) {text text' : Str} (ht : splitLines text' = (splitLines text).map canonText) {m : μ} {b : σ}
    (hloop : ∀ c1, runProd cfg (.start .gherkinDocument) (Token.fresh ⟨[], 0⟩) (Ctx.init cfg text m b) = (.ok (), c1) →
      parseLoop cfg (c1.scanner.lines.length + 1) 0 (canonCtx φ c1) =
        ((parseLoop cfg (c1.scanner.lines.length + 1) 0 c1).1, canonCtx φ (parseLoop cfg (c1.scanner.lines.length + 1) 0 c1).2)) :
    parse cfg text' m b = ((parse cfg text m b).1, canonCtx φ (parse cfg text m b).2) := by
  have hc : Ctx.init cfg text' m b = canonCtx φ (Ctx.init cfg text m b) := by
    simp [canonCtx, Ctx.init, Scanner.ofStr, hB.reset, ht]
  have e0 : Token.fresh ⟨[], 0⟩ = (Token.fresh ⟨[], 0⟩).canon := rfl
  unfold parse
  rw [hc, e0, runProd_c hB, ← e0]
  rcases hr : runProd cfg (.start .gherkinDocument) (Token.fresh ⟨[], 0⟩) (Ctx.init cfg text m b) with ⟨r, c1⟩
  cases r with
  | error x => rfl
  | ok u =>
    simp only
    have hl := hloop c1 hr
    rw [show (canonCtx φ c1).scanner.lines.length = c1.scanner.lines.length by simp [canonCtx], hl]
    rcases parseLoop cfg (c1.scanner.lines.length + 1) 0 c1 with ⟨r, c2⟩
    cases r with
    | error x => rfl
    | ok u =>
      simp only
      rw [e0, runProd_c hB, ← e0]
      rcases runProd cfg (.stop .gherkinDocument) (Token.fresh ⟨[], 0⟩) c2 with ⟨r, c3⟩
      cases r with
      | error x => rfl
      | ok u =>
        simp only
        rw [show (canonCtx φ c3).errors = c3.errors from rfl, show (canonCtx φ c3).builder = φ c3.builder from rfl, hB.result]
        split
        · rfl
        · rcases cfg.builder.result c3.builder with e | r
          · cases e <;> rfl
          · rfl

omit hM hL in
/-- The text with canonical line ends. -/
theorem split_canon (text : Str) : splitLines ((splitLines text).map canonText).flatten = (splitLines text).map canonText := by
  refine split_flat fun l hl => ?_
  obtain ⟨s, hs, rfl⟩ := List.mem_map.1 hl
  obtain ⟨body, hb, h⟩ := splitLines_shape text s hs
  refine ⟨rstripEol s, ?_, by simp [canonText, splitLines_ne text s hs]⟩
  have hsub : ∀ c ∈ rstripEol s, c ∈ rstripEol body := by
    rcases h with rfl | rfl
    · exact fun c hc => hc
    · rw [rstripEol_append _ nl_eol]; exact fun c hc => hc
  have hp : ∀ c ∈ rstripEol body, c ∈ body := by
    intro c hc
    unfold rstripEol rstripBy at hc
    rw [List.mem_reverse] at hc
    have := (List.dropWhile_sublist _).mem hc
    simpa using this
  exact fun hc => hb (hp _ (hsub _ hc))

/-- The outcome, and the builder up to line ends, depend on the lines without their line ends only. -/
theorem parse_chomped (hB : cfg.builder.Blind φ) {s t : Str} (h : (splitLines s).map rstripEol = (splitLines t).map rstripEol) {m : μ}
    (hm : G (cfg.matcher.reset m)) (b : σ) :
    (parse cfg s m b).1 = (parse cfg t m b).1 ∧ φ (parse cfg s m b).2.builder = φ (parse cfg t m b).2.builder := by
  have key : ∀ u : Str, parse cfg ((splitLines u).map canonText).flatten m b = ((parse cfg u m b).1, canonCtx φ (parse cfg u m b).2) := by
    intro u
    refine parse_of_loop hB (split_canon u) fun c1 hc1 => parseLoop_c hM hL hB _ _ ?_
    have h1 := runProd_eq (cfg := cfg) (.start .gherkinDocument) (Token.fresh ⟨[], 0⟩) (Ctx.init cfg u m b)
    rw [hc1] at h1
    have h2 := (handle_ctx (cfg := cfg) () (evAnswer cfg.builder (Ctx.init cfg u m b).builder ((Prod.start Rule.gherkinDocument).ev (Token.fresh ⟨[], 0⟩)))
      { Ctx.init cfg u m b with
        builder := applyEv cfg.builder (Ctx.init cfg u m b).builder ((Prod.start Rule.gherkinDocument).ev (Token.fresh ⟨[], 0⟩)),
        log := (Ctx.init cfg u m b).log ++ [(Prod.start Rule.gherkinDocument).ev (Token.fresh ⟨[], 0⟩)] }).2.1
    rw [← h1] at h2
    rw [show c1.matcher = cfg.matcher.reset m from h2]
    exact hm
  have hst : ((splitLines s).map canonText).flatten = ((splitLines t).map canonText).flatten := by
    have e : ∀ u : Str, (splitLines u).map canonText = ((splitLines u).map rstripEol).map (· ++ ['\n']) := by
      intro u
      rw [List.map_map]
      refine List.map_congr_left fun x hx => ?_
      simp [canonText, splitLines_ne u x hx]
    rw [e, e, h]
  have h1 := key s
  have h2 := key t
  rw [hst, h2] at h1
  simp only [Prod.mk.injEq] at h1
  exact ⟨h1.1.symm, (congrArg Ctx.builder h1.2).symm⟩

end Blind

theorem classic_blind : classic.Blind CState.Good where
  same k t m hm := matchKind_canon k t hm
  good k t m hm := matchKind_goodState k t hm
  other t m := ⟨_, _, rfl⟩
  empty t m h := by
    simp only [classic, Classic.matchKind, Classic.matchEmpty, h, if_true]
    exact ⟨_, _, rfl⟩

theorem classic_chomped {B : Builder σ ρ} {φ : σ → σ} (hB : B.Blind φ) (stop : Bool) {s t : Str}
    (h : (splitLines s).map rstripEol = (splitLines t).map rstripEol) {m : CState} (hm : m.Valid) (b : σ) :
    (parse ⟨classic, B, stop⟩ s m b).1 = (parse ⟨classic, B, stop⟩ t m b).1 ∧
    φ (parse ⟨classic, B, stop⟩ s m b).2.builder = φ (parse ⟨classic, B, stop⟩ t m b).2.builder :=
  Blind.parse_chomped (cfg := ⟨classic, B, stop⟩) classic_blind classic_lawful hB h
    ⟨Classic.reset_valid hm, by intro s hs; simp [classic, Classic.reset] at hs⟩ b

end Gherkin
