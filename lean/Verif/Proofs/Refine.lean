import Verif.Proofs.Pure

/-! The driver with the classic matcher refines the queue-free parser of `Proofs/Pure.lean`. -/

namespace Gherkin

/-! ### Contexts without queue and scanner -/

section
variable {μ σ ρ : Type} {cfg : Config μ σ ρ}

theorem addError_norm (e : Err) (c : Ctx μ σ) :
    addError e c.norm = ((addError e c).1, (addError e c).2.norm) := by
  unfold addError Ctx.norm
  simp only
  split
  · rfl
  · split <;> rfl

theorem handle_norm {α : Type} (d : α) (r : Except MExc α) (c : Ctx μ σ) :
    handle cfg d r c.norm = ((handle cfg d r c).1, (handle cfg d r c).2.norm) := by
  unfold handle
  split
  · rfl
  · rfl
  · rename_i e
    split
    · rfl
    · rw [addError_norm]
      rcases addError e c with ⟨x, c1⟩
      cases x <;> rfl

theorem matchTok_norm (k : Kind) (t : Token) (c : Ctx μ σ) :
    matchTok cfg k t c.norm = ((matchTok cfg k t c).1, (matchTok cfg k t c).2.1, (matchTok cfg k t c).2.2.norm) := by
  unfold matchTok
  split
  · rfl
  · have : c.norm.matcher = c.matcher := rfl
    rw [this]
    rcases cfg.matcher.match_ k t c.matcher with ⟨r, t', m'⟩
    have := handle_norm (cfg := cfg) false r { c with matcher := m', errors := syncErrors t' c.errors }
    simp only [Ctx.norm] at this ⊢
    rw [this]

theorem runProds_norm (ps : List Prod) (t : Token) (c : Ctx μ σ) :
    runProds cfg ps t c.norm = ((runProds cfg ps t c).1, (runProds cfg ps t c).2.norm) := by
  induction ps generalizing c with
  | nil => rfl
  | cons p ps ih =>
    have h1 : runProd cfg p t c.norm = ((runProd cfg p t c).1, (runProd cfg p t c).2.norm) := by
      rw [runProd_eq, runProd_eq]
      exact handle_norm _ _ { c with builder := applyEv cfg.builder c.builder (p.ev t), log := c.log ++ [p.ev t] }
    unfold runProds
    rw [h1]
    rcases runProd cfg p t c with ⟨r, c1⟩
    cases r with
    | ok u => exact ih c1
    | error x => rfl

end

/-! ### Pending lines -/

/-- The lines a scanner will deliver, up to and including the first end of file. -/
def Scanner.rest (s : Scanner) : List Line :=
  (s.lines.zipIdx (s.lineNumber + 1)).map (fun p => (⟨p.1, p.2⟩ : Line)) ++ [⟨[], s.lineNumber + s.lines.length + 1⟩]

/-- The columns a token can carry before it is processed. -/
def ColOK (t : Token) (l : Line) : Prop :=
  t.loc.column = none ∨ (l.isEof = false ∧ t.loc.column = some (l.indent + 1)) ∨
  (l.isEof = false ∧ (l.isBlank = true ∨ l.startsWith ['#'] = true) ∧ t.loc.column = some 1)

/-- The queue is empty, or it holds skippable lines followed by one line that stops every look-ahead; with the scanner it
delivers `rest`. -/
structure PInv {σ : Type} (rest : List Line) (c : Ctx CState σ) : Prop where
  toks : ∀ u ∈ c.queue, u.Of u.line ∧ ColOK u u.line
  lines : ∀ s ∈ c.scanner.lines, s ≠ []
  shape : (c.queue = [] ∧ rest = c.scanner.rest) ∨
    ∃ ts u, c.queue = ts ++ [u] ∧ (∀ x ∈ ts, x.line.isSkip = true ∧ x.eof = false) ∧
      (u.eof = true ∨ u.line.isSkip = false) ∧
      rest = c.queue.map (·.line) ++ (if u.eof then [] else c.scanner.rest)

/-- No error shares its location with a line to come. -/
def NoAlias (rest : List Line) (es : List Err) : Prop := ∀ e ∈ es, ∀ x ∈ rest, e.aliasOf ≠ some x.number

theorem sync_noalias {es : List Err} {t : Token} (h : ∀ e ∈ es, e.aliasOf ≠ some t.line.number) : syncErrors t es = es := by
  unfold syncErrors
  conv => rhs; rw [← List.map_id es]
  apply List.map_congr_left
  intro e he
  rw [if_neg (h e he)]; rfl

section
variable {σ ρ : Type} {B : Builder σ ρ} {stop : Bool}

/-- Kinds tried by a look-ahead. -/
def LaKind (k : Kind) : Prop := k = .scenarioLine ∨ k = .examplesLine ∨ k = .empty ∨ k = .comment ∨ k = .tagLine

theorem LA.expected_laKind (la : LA) : LaKind la.expected := by cases la <;> simp [LA.expected, LaKind]

/-- One match of a look-ahead. -/
theorem matchTok_la {k : Kind} (hk : LaKind k) {t : Token} {l : Line} (ht : t.Of l) (he : l.isEof = false)
    {c : Ctx CState σ} (ha : ∀ e ∈ c.errors, e.aliasOf ≠ some l.number) :
    matchTok (classicCfg B stop) k t c =
      match Classic.matchKind k (Token.fresh l) c.matcher with
      | (.ok true, t', _) => (.ok true, t', c)
      | (.ok false, _, _) => (.ok false, t, c)
      | (.error (.crash x), _, _) => (.error (.crash x), t, c)
      | (.error (.parser _), t', _) => (.ok false, t', c) := by
  have hkl : k ≠ .language := by rintro rfl; simp [LaKind] at hk
  have hkd : k ≠ .docStringSeparator := by rintro rfl; simp [LaKind] at hk
  have hi := Classic.indep k ht c.matcher
  have hs := Classic.matchKind_state hkl hkd t c.matcher
  have hnp := Classic.matchKind_noparser hkl t c.matcher
  have hl := (Classic.matchKind_good k t c.matcher).line
  have hf := @Classic.matchKind_false k t c.matcher
  have hcr : ∀ x, (Classic.matchKind k t c.matcher).1 = .error (.crash x) → (Classic.matchKind k t c.matcher).2.1 = t := by
    intro x
    rcases hk with rfl | rfl | rfl | rfl | rfl <;>
      simp only [Classic.matchKind, Classic.matchTitle, Classic.matchEmpty, Classic.matchComment, Classic.matchTagLine] <;>
      (repeat' split) <;> simp
  have heof : t.eof = false := by simp [Token.eof, ht.1, he]
  unfold matchTok
  rw [if_neg (by simp [heof])]
  simp only [classicCfg, classic]
  rcases hm : Classic.matchKind k t c.matcher with ⟨r, t', m'⟩
  rcases hm0 : Classic.matchKind k (Token.fresh l) c.matcher with ⟨r0, t0', m0'⟩
  have i1 := hi.res
  have i2 := hi.tokTrue
  rw [hm, hm0] at i1 i2
  rw [hm] at hs hnp hl hf hcr
  simp only at i1 i2 hs hnp hl hf hcr
  subst i1
  subst hs
  have hsync : syncErrors t' c.errors = c.errors := by
    apply sync_noalias
    intro e he
    rw [hl, ht.1]
    exact ha e he
  rw [hsync]
  have hctx : { c with matcher := c.matcher, errors := c.errors } = c := rfl
  cases r with
  | ok b =>
    cases b with
    | true => simp [handle, i2 rfl]
    | false => simp [handle, (hf rfl).1]
  | error x =>
    cases x with
    | crash x => simp [handle, hcr x rfl]
    | parser e => exact absurd rfl (hnp e)

theorem startsWith_char (l : Line) (x : Char) : l.startsWith [x] = true ↔ ∃ rest, l.trimmed = x :: rest := by
  unfold Line.startsWith startsWith
  cases l.trimmed with
  | nil => simp
  | cons c cs => simp; exact eq_comm

/-- Skippable lines are no scenario or examples lines. -/
theorem skip_not_title {la : LA} {l : Line} {m : CState} (hm : m.Valid) (hs : l.isSkip = true) :
    Classic.matchKind la.expected (Token.fresh l) m = (.ok false, Token.fresh l, m) := by
  have key : ∀ k kws, (∀ kw ∈ kws, kw ∈ m.dialect.titles k) →
      Classic.matchTitle k kws (Token.fresh l) m = (.ok false, Token.fresh l, m) := by
    intro k kws hkw
    unfold Classic.matchTitle
    have : kws.find? (fun kw => (Token.fresh l).line.startsWithTitle kw) = none := by
      rw [List.find?_eq_none]
      intro kw hk hst
      have hh := headOk_colon (hm.known.title_head (hkw kw hk))
      obtain ⟨c, rest, hc, hmk⟩ := startsWith_head hst hh
      have htr : l.trimmed = c :: rest := hc
      unfold Line.isSkip at hs
      simp only [Bool.or_eq_true] at hs
      unfold isMarker at hmk
      rcases hs with (hs | hs) | hs
      · simp [Line.isBlank, htr] at hs
      · rw [startsWith_char] at hs
        obtain ⟨r, hr⟩ := hs
        rw [htr] at hr; cases hr; simp at hmk
      · rw [startsWith_char] at hs
        obtain ⟨r, hr⟩ := hs
        rw [htr] at hr; cases hr; simp at hmk
    rw [this]
  cases la with
  | la0 => exact key .scenarioLine _ (fun kw h => h)
  | la1 => exact key .examplesLine _ (fun kw h => h)

theorem fresh_matched_col {l : Line} (he : l.isEof = false) {k : Kind} {m m' : CState} {t' : Token}
    (hk : k = .scenarioLine ∨ k = .examplesLine ∨ k = .tagLine)
    (h : Classic.matchKind k (Token.fresh l) m = (.ok true, t', m')) : t'.Of l ∧ t'.loc.column = some (l.indent + 1) := by
  have : ∀ d x y z its kk, (setMatched d (Token.fresh l) kk x y z none its).Of l ∧
      (setMatched d (Token.fresh l) kk x y z none its).loc.column = some (l.indent + 1) := by
    intro d x y z its kk
    refine ⟨⟨rfl, rfl⟩, ?_⟩
    simp [setMatched, Token.fresh, he]
  rcases hk with rfl | rfl | rfl <;>
    simp only [Classic.matchKind, Classic.matchTitle, Classic.matchTagLine] at h <;>
    (repeat' split at h) <;> simp at h <;> (obtain ⟨rfl, _⟩ := h; exact this _ _ _ _ _ _)

/-- The kinds a look-ahead skips, on one token. -/
theorem matchAny_skip {t : Token} {l : Line} (ht : t.Of l) (hcol : ColOK t l) (he : l.isEof = false) {c : Ctx CState σ}
    (ha : ∀ e ∈ c.errors, e.aliasOf ≠ some l.number) :
    (l.isSkip = false ∧ matchAny (classicCfg B stop) skipKinds t c = (.ok false, t, c)) ∨
    ((l.isBlank = true ∨ l.startsWith ['#'] = true ∨ (l.startsWith ['@'] = true ∧ ∃ x, l.tags = .ok x)) ∧ ∃ t',
      t'.Of l ∧ ColOK t' l ∧ matchAny (classicCfg B stop) skipKinds t c = (.ok true, t', c)) ∨
    (l.isBlank = false ∧ l.startsWith ['#'] = false ∧ l.startsWith ['@'] = true ∧ ∃ x, l.tags = .error x ∧
      matchAny (classicCfg B stop) skipKinds t c = (.error (.crash x), t, c)) := by
  have hline : (Token.fresh l).line = l := rfl
  have h1 := matchTok_la (B := B) (stop := stop) (k := .empty) (by simp [LaKind]) ht he ha
  have h2 := matchTok_la (B := B) (stop := stop) (k := .comment) (by simp [LaKind]) ht he ha
  have h3 := matchTok_la (B := B) (stop := stop) (k := .tagLine) (by simp [LaKind]) ht he ha
  simp only [Classic.matchKind, Classic.matchEmpty, hline] at h1
  simp only [Classic.matchKind, Classic.matchComment, hline] at h2
  simp only [Classic.matchKind, Classic.matchTagLine, hline] at h3
  unfold skipKinds matchAny matchAny matchAny matchAny
  by_cases hb : l.isBlank = true
  · right; left
    simp only [hb, if_true] at h1
    rw [h1]
    refine ⟨.inl hb, _, ⟨rfl, rfl⟩, .inr (.inr ⟨he, .inl hb, rfl⟩), rfl⟩
  · simp only [hb] at h1
    rw [h1]
    simp only [if_false, Bool.false_eq_true]
    by_cases hc : l.startsWith ['#'] = true
    · right; left
      simp only [hc, if_true] at h2
      rw [h2]
      refine ⟨.inr (.inl hc), _, ⟨rfl, rfl⟩, .inr (.inr ⟨he, .inr hc, rfl⟩), rfl⟩
    · simp only [hc] at h2
      rw [h2]
      simp only [if_false, Bool.false_eq_true]
      by_cases hg : l.startsWith ['@'] = true
      · simp only [hg, if_true] at h3
        cases htg : l.tags with
        | ok x =>
          right; left
          rw [htg] at h3
          rw [h3]
          refine ⟨.inr (.inr ⟨hg, x, rfl⟩), _, ⟨rfl, rfl⟩, .inr (.inl ⟨he, ?_⟩), rfl⟩
          simp [setMatched, Token.fresh, he]
        | error x =>
          right; right
          rw [htg] at h3
          rw [h3]
          exact ⟨by simpa using hb, by simpa using hc, hg, x, rfl, rfl⟩
      · left
        simp only [hg] at h3
        rw [h3]
        refine ⟨by simp [Line.isSkip, hb, hc, hg], ?_⟩
        simp

theorem matchTok_expected {la : LA} {t : Token} {l : Line} (ht : t.Of l) (hcol : ColOK t l) (he : l.isEof = false)
    {c : Ctx CState σ} (hv : c.matcher.Valid) (ha : ∀ e ∈ c.errors, e.aliasOf ≠ some l.number) :
    (matchTok (classicCfg B stop) la.expected t c = (.ok false, t, c) ∧
      (Classic.matchKind la.expected (Token.fresh l) c.matcher).1 = .ok false) ∨
    (l.isSkip = false ∧ (Classic.matchKind la.expected (Token.fresh l) c.matcher).1 = .ok true ∧ ∃ t', t'.Of l ∧ ColOK t' l ∧
      matchTok (classicCfg B stop) la.expected t c = (.ok true, t', c)) := by
  have h := matchTok_la (B := B) (stop := stop) la.expected_laKind ht he ha
  rcases hm : Classic.matchKind la.expected (Token.fresh l) c.matcher with ⟨r, t', m'⟩
  rw [hm] at h
  have hcases : r = .ok true ∨ r = .ok false := by
    have : r = (Classic.matchKind la.expected (Token.fresh l) c.matcher).1 := by rw [hm]
    rw [this]
    cases la <;> simp only [LA.expected, Classic.matchKind, Classic.matchTitle] <;> split <;> simp
  rcases hcases with rfl | rfl
  · right
    have hcol' := fresh_matched_col he (by cases la <;> simp [LA.expected]) hm
    refine ⟨?_, rfl, t', hcol'.1, .inr (.inl ⟨he, hcol'.2⟩), h⟩
    cases hs : l.isSkip with
    | false => rfl
    | true =>
      have := skip_not_title (la := la) hv hs
      rw [hm] at this
      cases this
  · left; exact ⟨h, rfl⟩

theorem scanner_rest_cons {x : Str} {ls : List Str} {n : Nat} :
    Scanner.rest ⟨x :: ls, n⟩ = ⟨x, n + 1⟩ :: Scanner.rest ⟨ls, n + 1⟩ := by
  simp [Scanner.rest, List.zipIdx_cons]; omega

/-- Reading one token from well-formed pending lines. -/
theorem readToken_pinv {rest : List Line} {c : Ctx CState σ} (h : PInv rest c) :
    ∃ l rest' t c1, rest = l :: rest' ∧ readToken c = (t, c1) ∧ t.Of l ∧ ColOK t l ∧ c1.norm = c.norm ∧
      c1.queue.length + c1.scanner.lines.length ≤ c.queue.length + c.scanner.lines.length ∧
      (l.isEof = false → PInv rest' c1 ∧
        c1.queue.length + c1.scanner.lines.length < c.queue.length + c.scanner.lines.length) ∧
      ((l.isEof = true ∨ l.isSkip = false) → c1.queue = [] ∧ (∀ s ∈ c1.scanner.lines, s ≠ []) ∧
        rest' = (if l.isEof then [] else c1.scanner.rest)) := by
  rcases h.shape with ⟨hq, hr⟩ | ⟨ts, u, hq, hts, hu, hr⟩
  · rcases readToken_cases c with ⟨t', q, hq', hc⟩ | ⟨x, ls, _, hl, hc⟩ | ⟨_, hl, hc⟩
    · rw [hq] at hq'; cases hq'
    · have hsc : c.scanner = ⟨x :: ls, c.scanner.lineNumber⟩ := by rw [← hl]
      have hne : x ≠ [] := h.lines x (by rw [hl]; simp)
      have hls : ∀ s ∈ ls, s ≠ [] := fun s hs => h.lines s (by rw [hl]; simp [hs])
      rw [hsc, scanner_rest_cons] at hr
      have hef : (⟨x, c.scanner.lineNumber + 1⟩ : Line).isEof = false := by
        cases x with
        | nil => exact absurd rfl hne
        | cons a b => rfl
      refine ⟨_, _, _, _, hr, hc, Token.fresh_of _, .inl rfl, rfl, by simp [hl], ?_, ?_⟩
      · intro _
        refine ⟨⟨by simp [hq], hls, .inl ⟨hq, rfl⟩⟩, by simp [hq, hl]⟩
      · intro _
        exact ⟨hq, hls, by rw [hef]; rfl⟩
    · have hsc : c.scanner = ⟨[], c.scanner.lineNumber⟩ := by rw [← hl]
      rw [hsc] at hr
      have : Scanner.rest ⟨[], c.scanner.lineNumber⟩ = [⟨[], c.scanner.lineNumber + 1⟩] := by simp [Scanner.rest]
      rw [this] at hr
      refine ⟨_, _, _, _, hr, hc, Token.fresh_of _, .inl rfl, rfl, by simp [hl], ?_, ?_⟩
      · intro h; simp [Line.isEof] at h
      · intro _; exact ⟨hq, by simp, by simp [Line.isEof]⟩
  · cases ts with
    | nil =>
      simp at hq
      have hc : readToken c = (u, { c with queue := [] }) := by unfold readToken; rw [hq]
      rw [hq] at hr
      have hu1 := h.toks u (by rw [hq]; simp)
      refine ⟨u.line, _, u, _, by rw [hr]; rfl, hc, hu1.1, hu1.2, rfl, by simp, ?_, ?_⟩
      · intro hef
        have hef' : u.eof = false := hef
        refine ⟨⟨by simp, h.lines, .inl ⟨rfl, by simp [hef']⟩⟩, by simp [hq]⟩
      · intro _
        exact ⟨rfl, h.lines, rfl⟩
    | cons x ts =>
      have hc : readToken c = (x, { c with queue := ts ++ [u] }) := by unfold readToken; rw [hq]; rfl
      have hx1 := h.toks x (by rw [hq]; simp)
      have hx2 := hts x (by simp)
      refine ⟨x.line, _, x, _, by rw [hr, hq]; rfl, hc, hx1.1, hx1.2, rfl, by simp [hq], ?_, ?_⟩
      · intro _
        refine ⟨⟨?_, h.lines, .inr ⟨ts, u, rfl, fun y hy => hts y (by simp [hy]), hu, rfl⟩⟩, by simp [hq]⟩
        intro y hy
        exact h.toks y (by rw [hq]; simp at hy ⊢; exact .inr hy)
      · intro hh
        have : x.eof = x.line.isEof := rfl
        rcases hh with hh | hh
        · rw [← this, hx2.2] at hh; simp at hh
        · rw [hx2.1] at hh; simp at hh

theorem peek_skip {la : LA} {m : CState} {l : Line} {rest : List Line} (he : l.isEof = false)
    (h : (Classic.matchKind la.expected (Token.fresh l) m).1 = .ok false)
    (k : l.isBlank = true ∨ l.startsWith ['#'] = true ∨ (l.startsWith ['@'] = true ∧ ∃ x, l.tags = .ok x)) :
    Pure.peek la m (l :: rest) = Pure.peek la m rest := by
  rw [Pure.peek]
  simp only [he, h, Bool.false_eq_true, if_false]
  split
  · rfl
  · rename_i hns
    simp only [Bool.or_eq_true, not_or] at hns
    rcases k with k1 | k1 | ⟨k1, x, k1'⟩
    · exact absurd k1 hns.1
    · exact absurd k1 hns.2
    · simp [k1, k1']

theorem peek_stop {la : LA} {m : CState} {l : Line} {rest : List Line} (he : l.isEof = false)
    (h : (Classic.matchKind la.expected (Token.fresh l) m).1 = .ok false) (k : l.isSkip = false) :
    Pure.peek la m (l :: rest) = .ok false := by
  unfold Line.isSkip at k
  simp only [Bool.or_eq_false_iff] at k
  rw [Pure.peek]
  simp [he, h, k]

theorem peek_crash {la : LA} {m : CState} {l : Line} {rest : List Line} {x : Crash} (he : l.isEof = false)
    (h : (Classic.matchKind la.expected (Token.fresh l) m).1 = .ok false) (k1 : l.isBlank = false)
    (k2 : l.startsWith ['#'] = false) (k3 : l.startsWith ['@'] = true) (k4 : l.tags = .error x) :
    Pure.peek la m (l :: rest) = .error x := by
  rw [Pure.peek]
  simp [he, h, k1, k2, k3, k4]

theorem peek_true {la : LA} {m : CState} {l : Line} {rest : List Line} (he : l.isEof = false)
    (h : (Classic.matchKind la.expected (Token.fresh l) m).1 = .ok true) :
    Pure.peek la m (l :: rest) = .ok true := by
  rw [Pure.peek]
  simp [he, h]

theorem laLoop_sim {la : LA} {fuel : Nat} : ∀ {rest : List Line} {acc : List Token} {c : Ctx CState σ}, PInv rest c →
    c.matcher.Valid → NoAlias rest c.errors → c.queue.length + c.scanner.lines.length < fuel →
    match Pure.peek la c.matcher rest with
    | .error x => ∃ c', laLoop (classicCfg B stop) la fuel acc c = (.error (.crash x), c') ∧ c'.norm = c.norm
    | .ok b => ∃ ts c', laLoop (classicCfg B stop) la fuel acc c = (.ok (b, acc ++ ts), c') ∧ c'.norm = c.norm ∧
        c'.queue = [] ∧ ts ≠ [] ∧ PInv rest { c' with queue := ts } := by
  induction fuel with
  | zero => intro rest acc c _ _ _ h; omega
  | succ fuel ih =>
    intro rest acc c hP hv hA hfuel
    obtain ⟨l, rest', t, c1, hrest, hread, htO, htC, hnorm, hle, hcont, hstop⟩ := readToken_pinv hP
    subst hrest
    have hm1 : c1.matcher = c.matcher := by have := congrArg Ctx.matcher hnorm; exact this
    have he1 : c1.errors = c.errors := by have := congrArg Ctx.errors hnorm; exact this
    have hal : ∀ e ∈ c1.errors, e.aliasOf ≠ some l.number := by
      rw [he1]; intro e he; exact hA e he l (by simp)
    -- the token list after a stop
    have stopP : ∀ t' : Token, t'.Of l → ColOK t' l → (l.isEof = true ∨ l.isSkip = false) →
        PInv (l :: rest') { c1 with queue := [t'] } := by
      intro t' ho hc hs
      obtain ⟨_, h2, h3⟩ := hstop hs
      refine ⟨?_, h2, .inr ⟨[], t', rfl, by simp, ?_, ?_⟩⟩
      · intro u hu; simp at hu; subst hu
        rw [ho.1]; exact ⟨by simpa [ho.1] using ho, hc⟩
      · rw [Token.eof, ho.1]; exact hs
      · rw [Token.eof, ho.1]
        simp [ho.1, h3]
    unfold laLoop
    rw [hread]
    simp only
    cases he : l.isEof with
    | true =>
      have hte : t.eof = true := by simp [Token.eof, htO.1, he]
      have hexp : la.expected ≠ .eof := by cases la <;> simp [LA.expected]
      rw [matchTok_eof hexp hte]
      simp only
      rw [matchAny_eof (by decide) hte]
      simp only [Pure.peek, he, if_true]
      exact ⟨[t], c1, rfl, hnorm, (hstop (.inl he)).1, by simp, stopP t htO htC (.inl he)⟩
    | false =>
      rcases matchTok_expected (B := B) (stop := stop) (la := la) htO htC he (hm1 ▸ hv) hal with ⟨h1, h2⟩ | ⟨h1, h2, t', h3, h4, h5⟩
      · rw [h1]
        rw [hm1] at h2
        simp only
        rcases matchAny_skip (B := B) (stop := stop) htO htC he hal with ⟨k1, k2⟩ | ⟨k1, t', k2, k3, k4⟩ | ⟨k1, k2, k3, x, k4, k5⟩
        · rw [k2]
          rw [peek_stop he h2 k1]
          exact ⟨[t], c1, rfl, hnorm, (hstop (.inr k1)).1, by simp, stopP t htO htC (.inr k1)⟩
        · rw [k4]
          obtain ⟨hP', hlt⟩ := hcont he
          have hrec := ih (acc := acc ++ [t']) hP' (hm1 ▸ hv) (by
            rw [he1]; intro e hh x hx; exact hA e hh x (by simp [hx])) (by omega)
          rw [peek_skip he h2 k1, ← hm1]
          simp only
          have hskip : l.isSkip = true := by
            unfold Line.isSkip
            rcases k1 with k1 | k1 | ⟨k1, _⟩ <;> simp [k1]
          cases hpe : Pure.peek la c1.matcher rest' with
          | error x =>
            rw [hpe] at hrec
            simp only at hrec ⊢
            obtain ⟨c', r1, r2⟩ := hrec
            exact ⟨c', r1, r2.trans hnorm⟩
          | ok b =>
            rw [hpe] at hrec
            simp only at hrec ⊢
            obtain ⟨ts, c', r1, r2, r3, r4, r5⟩ := hrec
            refine ⟨t' :: ts, c', by rw [r1]; simp, r2.trans hnorm, r3, by simp, ?_⟩
            refine ⟨?_, r5.lines, .inr ?_⟩
            · intro u hu
              simp at hu
              rcases hu with rfl | hu
              · rw [k2.1]; exact ⟨by simpa [k2.1] using k2, k3⟩
              · exact r5.toks u hu
            · rcases r5.shape with ⟨s1, _⟩ | ⟨us, u, s1, s2, s3, s4⟩
              · exact absurd s1 r4
              · simp only at s1 s4 ⊢
                refine ⟨t' :: us, u, by rw [s1]; rfl, ?_, s3, ?_⟩
                · intro y hy
                  simp at hy
                  rcases hy with rfl | hy
                  · exact ⟨by rw [k2.1]; exact hskip, by rw [Token.eof, k2.1]; exact he⟩
                  · exact s2 y hy
                · rw [s4]; simp [k2.1]
        · rw [k5]
          rw [peek_crash he h2 k1 k2 k3 k4]
          exact ⟨c1, rfl, hnorm⟩
      · rw [h5]
        rw [hm1] at h2
        rw [peek_true he h2]
        exact ⟨[t'], c1, rfl, hnorm, (hstop (.inr h1)).1, by simp, stopP t' h3 h4 (.inr h1)⟩

/-- A look-ahead answers what the lines to come say, and keeps them. -/
theorem lookahead_sim {la : LA} {rest : List Line} {c : Ctx CState σ} (hP : PInv rest c) (hv : c.matcher.Valid)
    (hA : NoAlias rest c.errors) :
    match Pure.peek la c.matcher rest with
    | .error x => ∃ c', lookahead (classicCfg B stop) la c = (.error (.crash x), c') ∧ c'.norm = c.norm
    | .ok b => ∃ c', lookahead (classicCfg B stop) la c = (.ok b, c') ∧ c'.norm = c.norm ∧ PInv rest c' := by
  have h := laLoop_sim (B := B) (stop := stop) (la := la) (fuel := c.queue.length + c.scanner.lines.length + 1)
    (acc := []) hP hv hA (by omega)
  unfold lookahead
  cases hp : Pure.peek la c.matcher rest with
  | error x =>
    rw [hp] at h
    simp only at h ⊢
    obtain ⟨c', h1, h2⟩ := h
    rw [h1]
    exact ⟨c', rfl, h2⟩
  | ok b =>
    rw [hp] at h
    simp only at h ⊢
    obtain ⟨ts, c', h1, h2, h3, h4, h5⟩ := h
    rw [h1]
    simp only [List.nil_append]
    refine ⟨_, rfl, h2, ?_⟩
    rw [h3]; exact h5

end

end Gherkin
