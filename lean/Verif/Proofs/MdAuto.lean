import Verif.Proofs.Builds
import Verif.Proofs.MdLines

/-! The Markdown parser on texts without errors, as an automaton over lines: no token queue, no builder, no error list. -/

namespace Gherkin

namespace Md

/-- Answer and state of a match depend only on the token's line; so does the token of a successful match. -/
structure Indep (f : Token → MdState → Except MExc Bool × Token × MdState) (t t0 : Token) (l : Line) (m : MdState) : Prop where
  res : (f t m).1 = (f t0 m).1
  st : (f t m).2.2 = (f t0 m).2.2
  tokTrue : (f t m).1 = .ok true → (f t m).2.1 = (f t0 m).2.1
  of : (f t m).2.1.Of l
  of0 : (f t0 m).2.1.Of l

theorem setMatched_same {t t0 : Token} {l : Line} (h : t.Of l) (h0 : t0.Of l) (d : Str) (k : Option Kind) (x : Option Str) (kw : Option Str)
    (kt : Option KType) (i : Option Nat) (its : List MItem) : setMatched d t k x kw kt i its = setMatched d t0 k x kw kt i its := by
  rw [setMatched_of h, setMatched_of h0]

theorem indep_simple {k : Kind} (hk : k ≠ .empty) {t t0 : Token} {l : Line} (h : t.Of l) (h0 : t0.Of l) (m : MdState) :
    Indep (matchKind k) t t0 l m := by
  have h1 : t.line = l := h.1
  have h2 : t0.line = l := h0.1
  have h3 : t.loc.line = l.number := h.2
  have h4 : t0.loc.line = l.number := h0.2
  have e := setMatched_same h h0
  have o : (matchKind k t m).2.1.Of l := ⟨by rw [show (matchKind k t m).2.1.line = t.line from markdown_lawful.line k t m, h1], by
    rw [show (matchKind k t m).2.1.loc.line = t.loc.line from markdown_lawful.locLine k t m, h3]⟩
  have o0 : (matchKind k t0 m).2.1.Of l := ⟨by rw [show (matchKind k t0 m).2.1.line = t0.line from markdown_lawful.line k t0 m, h2], by
    rw [show (matchKind k t0 m).2.1.loc.line = t0.loc.line from markdown_lawful.locLine k t0 m, h4]⟩
  refine ⟨?_, ?_, ?_, o, o0⟩ <;> clear o o0 <;> cases hs : searchTitle (headerPrefix l.lineText) m.dialect.scenario [':'] <;>
    cases hf : searchTitle (headerPrefix l.lineText) m.dialect.feature [':']
  all_goals
    cases k
    case empty => exact absurd rfl hk
    all_goals
      simp only [matchKind, matchEof, matchComment, matchTagLine, matchTitle, matchFeature, matchScenario, matchHeaded, matchStep, matchDocSep,
        matchSep, matchTableRow, matchLanguage, matchOther, Token.eof, h1, h2, e, hs, hf]
      (try (repeat' split) <;> simp_all)

theorem probe_kinds : ∀ k ∈ probeKinds, k ≠ .empty := by decide

theorem indep_orElse {l : Line} : ∀ {ks : List Kind}, (∀ k ∈ ks, k ≠ .empty) → ∀ {t t0 : Token} (m : MdState), t.Of l → t0.Of l →
    Indep (orElse (ks.map matchKind)) t t0 l m := by
  intro ks
  induction ks with
  | nil => intro _ t t0 m h h0; exact ⟨rfl, rfl, by simp [orElse], h, h0⟩
  | cons k ks ih =>
    intro hk t t0 m h h0
    have i := indep_simple (hk k (by simp)) h h0 m
    have e1 := i.res; have e2 := i.st; have e3 := i.tokTrue; have e4 := i.of; have e5 := i.of0
    rcases hm : matchKind k t m with ⟨r, t1, m1⟩
    rcases hm0 : matchKind k t0 m with ⟨r0, t2, m2⟩
    rw [hm, hm0] at e1 e2 e3
    rw [hm] at e4
    rw [hm0] at e5
    simp only at e1 e2 e3 e4 e5
    subst e1; subst e2
    have g : ∀ t m, orElse (List.map matchKind (k :: ks)) t m = match matchKind k t m with
      | (.ok false, t', m') => orElse (ks.map matchKind) t' m' | r => r := fun _ _ => rfl
    cases r with
    | error e => refine ⟨?_, ?_, ?_, ?_, ?_⟩ <;> simp only [g, hm, hm0] <;> first | exact e4 | exact e5 | simp
    | ok b =>
      cases b with
      | true =>
        refine ⟨?_, ?_, ?_, ?_, ?_⟩ <;> simp only [g, hm, hm0] <;> first | exact e4 | exact e5 | simp
        exact e3 rfl
      | false =>
        have j := ih (fun x hx => hk x (by simp [hx])) m1 e4 e5
        refine ⟨?_, ?_, ?_, ?_, ?_⟩ <;> simp only [g, hm, hm0]
        · exact j.res
        · exact j.st
        · exact j.tokTrue
        · exact j.of
        · exact j.of0

theorem indep (k : Kind) {t : Token} {l : Line} (h : t.Of l) (m : MdState) : Indep (matchKind k) t (Token.fresh l) l m := by
  by_cases hk : k = .empty
  · subst hk
    have i := indep_orElse probe_kinds m h (Token.fresh_of l)
    rw [← probes_eq] at i
    have e1 := i.res; have e2 := i.st; have e3 := i.tokTrue; have e4 := i.of; have e5 := i.of0
    have hl : t.line = l := h.1
    have hl0 : (Token.fresh l).line = l := rfl
    rcases hm : orElse emptyProbes t m with ⟨r, t1, m1⟩
    rcases hm0 : orElse emptyProbes (Token.fresh l) m with ⟨r0, t2, m2⟩
    rw [hm, hm0] at e1 e2 e3
    rw [hm] at e4
    rw [hm0] at e5
    simp only at e1 e2 e3 e4 e5
    subst e1; subst e2
    have o : ∀ {t : Token} (m : MdState), t.Of l → (matchKind .empty t m).2.1.Of l := by
      intro t m ⟨a, b⟩
      exact ⟨by rw [show (matchKind .empty t m).2.1.line = t.line from markdown_lawful.line .empty t m, a], by
        rw [show (matchKind .empty t m).2.1.loc.line = t.loc.line from markdown_lawful.locLine .empty t m, b]⟩
    have s := setMatched_same e4 e5
    refine ⟨?_, ?_, ?_, o m h, o m (Token.fresh_of l)⟩ <;> simp only [matchKind, matchEmpty, hm, hm0, hl, hl0]
    · cases r <;> simp only
      split <;> rfl
    · cases r <;> simp only
      split <;> rfl
    · cases r <;> simp only [s]
      · simp
      · split <;> simp
  · exact indep_simple hk h (Token.fresh_of l) m

end Md

namespace MdAuto

/-- One test on a line: the answer and the matcher afterwards. -/
def test (k : Kind) (l : Line) (m : MdState) : Except MExc Bool × Token × MdState :=
  if k ≠ .eof ∧ l.isEof = true then (.ok false, Token.fresh l, m) else Md.matchKind k (Token.fresh l) m

/-- The kinds a look-ahead skips, tried one after the other. -/
def any : List Kind → Line → MdState → Option (Bool × MdState)
  | [], _, m => some (false, m)
  | k :: ks, l, m =>
    match test k l m with
    | (.ok true, _, m') => some (true, m')
    | (.ok false, _, m') => any ks l m'
    | (.error _, _, _) => none

/-- The answer of a look-ahead, given the lines to come; `sk` tells which lines are skipped. -/
def peek (sk : Line → Bool) (la : LA) : List Line → MdState → Option (Bool × MdState)
  | [], _ => none
  | l :: rest, m =>
    match test la.expected l m with
    | (.ok true, _, m') => if sk l then none else some (true, m')
    | (.error _, _, _) => none
    | (.ok false, _, m') =>
      match any skipKinds l m' with
      | none => none
      | some (false, m'') => if sk l then none else some (false, m'')
      | some (true, m'') => if sk l then peek sk la rest m'' else none

/-- The first transition whose test succeeds. -/
def pick (sk : Line → Bool) : List Trans → Line → List Line → MdState → Option (Trans × Token × MdState)
  | [], _, _, _ => none
  | tr :: trs, l, rest, m =>
    match test tr.kind l m with
    | (.ok true, t, m') =>
      match tr.la with
      | none => some (tr, t, m')
      | some la =>
        match peek sk la rest m' with
        | some (true, m'') => some (tr, t, m'')
        | some (false, m'') => pick sk trs l rest m''
        | none => none
    | (.ok false, _, m') => pick sk trs l rest m'
    | (.error _, _, _) => none

def step (sk : Line → Bool) (q : Nat) (l : Line) (rest : List Line) (m : MdState) : Option (Trans × Token × MdState) :=
  match table q with
  | none => none
  | some row => pick sk row.trans l rest m

/-- A run over lines. -/
inductive Run (sk : Line → Bool) : Nat → MdState → List Line → List Auto.Move → Nat → MdState → Prop
  | last {q m l rest tr t m'} : step sk q l rest m = some (tr, t, m') → l.isEof = true →
      Run sk q m (l :: rest) [⟨q, tr, t⟩] tr.target m'
  | cons {q m l rest tr t m' mv q' m''} : step sk q l rest m = some (tr, t, m') → l.isEof = false →
      Run sk tr.target m' rest mv q' m'' → Run sk q m (l :: rest) (⟨q, tr, t⟩ :: mv) q' m''

end MdAuto

section
variable {σ ρ : Type} {B : Builder σ ρ} {stop : Bool}

abbrev mdCfg (B : Builder σ ρ) (stop : Bool) : Config MdState σ ρ := ⟨markdown, B, stop⟩

/-- A clean match. -/
theorem mdAuto_matchTok {k : Kind} {t t0 : Token} {l : Line} (ht : t.Of l) {c : Ctx MdState σ} (hc : c.errors = []) {b : Bool} {m' : MdState}
    (h : MdAuto.test k l c.matcher = (.ok b, t0, m')) :
    ∃ t', matchTok (mdCfg B stop) k t c = (.ok b, t', { c with matcher := m' }) ∧ t'.Of l ∧ (b = true → t' = t0) := by
  unfold MdAuto.test at h
  unfold matchTok
  have hte : t.eof = l.isEof := by rw [Token.eof, ht.1]
  rw [hte]
  by_cases hk : k ≠ .eof ∧ l.isEof = true
  · rw [if_pos hk] at h ⊢
    simp only [Prod.mk.injEq, Except.ok.injEq] at h
    obtain ⟨rfl, _, rfl⟩ := h
    exact ⟨t, rfl, ht, by simp⟩
  · rw [if_neg hk] at h ⊢
    have i := Md.indep k ht c.matcher
    have e1 := i.res; have e2 := i.st; have e3 := i.tokTrue; have e4 := i.of
    simp only [mdCfg, markdown]
    rcases hm : Md.matchKind k t c.matcher with ⟨r, t1, m1⟩
    rw [hm, h] at e1 e2 e3
    rw [hm] at e4
    simp only at e1 e2 e3 e4
    subst e1; subst e2
    simp only [hc, syncErrors, List.map_nil, handle]
    refine ⟨t1, ?_, e4, fun hb => e3 (by rw [hb])⟩
    cases c; simp only at hc; subst hc; rfl

theorem mdAuto_matchAny {l : Line} : ∀ {ks : List Kind} {t : Token} {c : Ctx MdState σ} {b : Bool} {m' : MdState}, t.Of l → c.errors = [] →
    MdAuto.any ks l c.matcher = some (b, m') →
    ∃ t', matchAny (mdCfg B stop) ks t c = (.ok b, t', { c with matcher := m' }) ∧ t'.Of l := by
  intro ks
  induction ks with
  | nil =>
    intro t c b m' ht hc h
    simp only [MdAuto.any, Option.some.injEq, Prod.mk.injEq] at h
    obtain ⟨rfl, rfl⟩ := h
    exact ⟨t, rfl, ht⟩
  | cons k ks ih =>
    intro t c b m' ht hc h
    simp only [MdAuto.any] at h
    rcases ht0 : MdAuto.test k l c.matcher with ⟨r, t0, m1⟩
    rw [ht0] at h
    cases r with
    | error e => simp at h
    | ok b0 =>
      obtain ⟨t', h1, h2, _⟩ := mdAuto_matchTok (B := B) (stop := stop) ht hc ht0
      simp only [matchAny, h1]
      cases b0 with
      | true =>
        simp only [Option.some.injEq, Prod.mk.injEq] at h
        obtain ⟨rfl, rfl⟩ := h
        exact ⟨t', rfl, h2⟩
      | false =>
        simp only at h ⊢
        obtain ⟨t2, h3, h4⟩ := ih (c := { c with matcher := m1 }) h2 hc h
        exact ⟨t2, h3, h4⟩

/-- The queue is empty, or it holds skipped lines followed by one line that is not; with the scanner it delivers `rest`. -/
structure MdP (sk : Line → Bool) (rest : List Line) (c : Ctx MdState σ) : Prop where
  toks : ∀ u ∈ c.queue, u.Of u.line
  lines : ∀ s ∈ c.scanner.lines, s ≠ []
  shape : (c.queue = [] ∧ rest = c.scanner.rest) ∨
    ∃ (ts : List Token) (u : Token), c.queue = ts ++ [u] ∧ (∀ x ∈ ts, sk x.line = true ∧ x.eof = false) ∧
      (u.eof = true ∨ sk u.line = false) ∧
      rest = c.queue.map (·.line) ++ (if u.eof then [] else c.scanner.rest)

theorem MdP.congr {sk : Line → Bool} {rest : List Line} {c c' : Ctx MdState σ} (h : MdP sk rest c) (hq : c'.queue = c.queue)
    (hs : c'.scanner = c.scanner) : MdP sk rest c' := ⟨by rw [hq]; exact h.toks, by rw [hs]; exact h.lines, by rw [hq, hs]; exact h.shape⟩

theorem readToken_mdp {sk : Line → Bool} {rest : List Line} {c : Ctx MdState σ} (h : MdP sk rest c) :
    ∃ l rest' t c1, rest = l :: rest' ∧ readToken c = (t, c1) ∧ t.Of l ∧ c1.norm = c.norm ∧
      c1.queue.length + c1.scanner.lines.length ≤ c.queue.length + c.scanner.lines.length ∧
      (l.isEof = false → MdP sk rest' c1 ∧
        c1.queue.length + c1.scanner.lines.length < c.queue.length + c.scanner.lines.length) ∧
      ((l.isEof = true ∨ sk l = false) → c1.queue = [] ∧ (∀ s ∈ c1.scanner.lines, s ≠ []) ∧
        rest' = (if l.isEof then [] else c1.scanner.rest)) := by
  rcases h.shape with ⟨hq, hr⟩ | ⟨ts, u, hq, hts, hu, hr⟩
  · rcases readToken_cases c with ⟨t', q, hq', hc⟩ | ⟨x, ls, _, hl, hc⟩ | ⟨_, hl, hc⟩
    · rw [hq] at hq'; cases hq'
    · have hsc : c.scanner = ⟨x :: ls, c.scanner.lineNumber⟩ := by rw [← hl]
      have hne : x ≠ [] := h.lines x (by rw [hl]; simp)
      have hls : ∀ s ∈ ls, s ≠ [] := fun s hs => h.lines s (by rw [hl]; simp [hs])
      rw [hsc, scanner_rest_cons] at hr
      have hef : (⟨x, c.scanner.lineNumber + 1⟩ : Line).isEof = false := by
        cases x with
        | nil => exact absurd rfl hne
        | cons a b => rfl
      refine ⟨_, _, _, _, hr, hc, Token.fresh_of _, rfl, by simp [hl], ?_, ?_⟩
      · intro _
        refine ⟨⟨by simp [hq], hls, .inl ⟨hq, rfl⟩⟩, by simp [hq, hl]⟩
      · intro _
        exact ⟨hq, hls, by rw [hef]; rfl⟩
    · have hsc : c.scanner = ⟨[], c.scanner.lineNumber⟩ := by rw [← hl]
      rw [hsc] at hr
      have : Scanner.rest ⟨[], c.scanner.lineNumber⟩ = [⟨[], c.scanner.lineNumber + 1⟩] := by simp [Scanner.rest]
      rw [this] at hr
      refine ⟨_, _, _, _, hr, hc, Token.fresh_of _, rfl, by simp [hl], ?_, ?_⟩
      · intro h; simp [Line.isEof] at h
      · intro _; exact ⟨hq, by simp, by simp [Line.isEof]⟩
  · cases ts with
    | nil =>
      simp at hq
      have hc : readToken c = (u, { c with queue := [] }) := by unfold readToken; rw [hq]
      rw [hq] at hr
      have hu1 := h.toks u (by rw [hq]; simp)
      refine ⟨u.line, _, u, _, by rw [hr]; rfl, hc, hu1, rfl, by simp, ?_, ?_⟩
      · intro hef
        have hef' : u.eof = false := hef
        refine ⟨⟨by simp, h.lines, .inl ⟨rfl, by simp [hef']⟩⟩, by simp [hq]⟩
      · intro _
        exact ⟨rfl, h.lines, rfl⟩
    | cons x ts =>
      have hc : readToken c = (x, { c with queue := ts ++ [u] }) := by unfold readToken; rw [hq]; rfl
      have hx1 := h.toks x (by rw [hq]; simp)
      have hx2 := hts x (by simp)
      refine ⟨x.line, _, x, _, by rw [hr, hq]; rfl, hc, hx1, rfl, by simp [hq], ?_, ?_⟩
      · intro _
        refine ⟨⟨?_, h.lines, .inr ⟨ts, u, rfl, fun y hy => hts y (by simp [hy]), hu, rfl⟩⟩, by simp [hq]⟩
        intro y hy
        exact h.toks y (by rw [hq]; simp at hy ⊢; exact .inr hy)
      · intro hh
        have : x.eof = x.line.isEof := rfl
        rcases hh with hh | hh
        · rw [← this, hx2.2] at hh; simp at hh
        · rw [hx2.1] at hh; simp at hh

theorem any_eof {l : Line} (he : l.isEof = true) {ks : List Kind} (hk : .eof ∉ ks) (m : MdState) : MdAuto.any ks l m = some (false, m) := by
  induction ks generalizing m with
  | nil => rfl
  | cons k ks ih =>
    have : k ≠ .eof := by rintro rfl; simp at hk
    simp only [MdAuto.any, MdAuto.test, he]
    rw [if_pos ⟨this, trivial⟩]
    exact ih (by intro h; exact hk (by simp [h])) m

theorem laLoop_mdp {sk : Line → Bool} {la : LA} {fuel : Nat} : ∀ {rest : List Line} {acc : List Token} {c : Ctx MdState σ} {b : Bool} {m' : MdState},
    MdP sk rest c → c.errors = [] → MdAuto.peek sk la rest c.matcher = some (b, m') → c.queue.length + c.scanner.lines.length < fuel →
    ∃ ts c', laLoop (mdCfg B stop) la fuel acc c = (.ok (b, acc ++ ts), c') ∧ c'.norm = { c.norm with matcher := m' } ∧
        c'.queue = [] ∧ ts ≠ [] ∧ MdP sk rest { c' with queue := ts } := by
  induction fuel with
  | zero => intro rest acc c b m' _ _ _ h; omega
  | succ fuel ih =>
    intro rest acc c b m' hP hc0 hpk hfuel
    obtain ⟨l, rest', t, c1, hrest, hread, htO, hnorm, hle, hcont, hstop⟩ := readToken_mdp hP
    subst hrest
    have hm1 : c1.matcher = c.matcher := by have := congrArg Ctx.matcher hnorm; exact this
    have he1 : c1.errors = [] := by have := congrArg Ctx.errors hnorm; rw [← hc0]; exact this
    have stopP : ∀ (t' : Token) (m2 : MdState), t'.Of l → (l.isEof = true ∨ sk l = false) →
        MdP sk (l :: rest') { c1 with matcher := m2, queue := [t'] } := by
      intro t' m2 ho hs
      obtain ⟨_, h2, h3⟩ := hstop hs
      refine ⟨?_, h2, .inr ⟨[], t', rfl, by simp, ?_, ?_⟩⟩
      · intro u hu; simp at hu; subst hu
        rw [ho.1]; simpa [ho.1] using ho
      · rw [Token.eof, ho.1]; exact hs
      · rw [Token.eof, ho.1]
        simp [ho.1, h3]
    have normM : ∀ m2 : MdState, Ctx.norm { c1 with matcher := m2 } = { c.norm with matcher := m2 } := by
      intro m2; rw [← hnorm]; rfl
    unfold laLoop
    rw [hread]
    simp only
    simp only [MdAuto.peek] at hpk
    rcases htest : MdAuto.test la.expected l c.matcher with ⟨r, t0, m1⟩
    rw [htest] at hpk
    cases r with
    | error e => simp at hpk
    | ok b0 =>
      obtain ⟨t1, k1, k2, k3⟩ := mdAuto_matchTok (B := B) (stop := stop) (c := c1) htO he1 (by rw [hm1]; exact htest)
      rw [k1]
      cases b0 with
      | true =>
        simp only at hpk ⊢
        cases hsk : sk l with
        | true => rw [hsk] at hpk; simp at hpk
        | false =>
          rw [hsk] at hpk
          simp only [Bool.false_eq_true, if_false, Option.some.injEq, Prod.mk.injEq] at hpk
          obtain ⟨rfl, rfl⟩ := hpk
          exact ⟨[t1], _, rfl, normM _, (hstop (.inr hsk)).1, by simp, stopP t1 _ k2 (.inr hsk)⟩
      | false =>
        simp only at hpk ⊢
        cases hany : MdAuto.any skipKinds l m1 with
        | none => rw [hany] at hpk; simp at hpk
        | some bm =>
          obtain ⟨b1, m2⟩ := bm
          rw [hany] at hpk
          obtain ⟨t2, j1, j2⟩ := mdAuto_matchAny (B := B) (stop := stop) (c := { c1 with matcher := m1 }) k2 he1 hany
          rw [j1]
          cases b1 with
          | false =>
            simp only at hpk ⊢
            cases hsk : sk l with
            | true => rw [hsk] at hpk; simp at hpk
            | false =>
              rw [hsk] at hpk
              simp only [Bool.false_eq_true, if_false, Option.some.injEq, Prod.mk.injEq] at hpk
              obtain ⟨rfl, rfl⟩ := hpk
              exact ⟨[t2], _, rfl, normM _, (hstop (.inr hsk)).1, by simp, stopP t2 _ j2 (.inr hsk)⟩
          | true =>
            simp only at hpk ⊢
            cases hsk : sk l with
            | false => rw [hsk] at hpk; simp at hpk
            | true =>
              rw [hsk] at hpk
              simp only [if_true] at hpk
              have he : l.isEof = false := by
                cases he : l.isEof with
                | false => rfl
                | true => rw [any_eof he (by decide)] at hany; simp at hany
              obtain ⟨hP', hlt⟩ := hcont he
              obtain ⟨ts, c', r1, r2, r3, r4, r5⟩ := ih (acc := acc ++ [t2]) (c := { c1 with matcher := m2 }) (hP'.congr rfl rfl) he1 hpk (by simp only; omega)
              refine ⟨t2 :: ts, c', by rw [r1]; simp, ?_, r3, by simp, ?_⟩
              · rw [r2, normM]
              · refine ⟨?_, r5.lines, .inr ?_⟩
                · intro u hu
                  simp at hu
                  rcases hu with rfl | hu
                  · rw [j2.1]; simpa [j2.1] using j2
                  · exact r5.toks u hu
                · rcases r5.shape with ⟨s1, _⟩ | ⟨us, u, s1, s2, s3, s4⟩
                  · exact absurd s1 r4
                  · simp only at s1 s4 ⊢
                    refine ⟨t2 :: us, u, by rw [s1]; rfl, ?_, s3, ?_⟩
                    · intro y hy
                      simp at hy
                      rcases hy with rfl | hy
                      · exact ⟨by rw [j2.1]; exact hsk, by rw [Token.eof, j2.1]; exact he⟩
                      · exact s2 y hy
                    · rw [s4]; simp [j2.1]

theorem lookahead_mdp {sk : Line → Bool} {la : LA} {rest : List Line} {c : Ctx MdState σ} {b : Bool} {m' : MdState} (hP : MdP sk rest c)
    (hc : c.errors = []) (h : MdAuto.peek sk la rest c.matcher = some (b, m')) :
    ∃ c', lookahead (mdCfg B stop) la c = (.ok b, c') ∧ c'.norm = { c.norm with matcher := m' } ∧ MdP sk rest c' := by
  obtain ⟨ts, c', h1, h2, h3, h4, h5⟩ := laLoop_mdp (B := B) (stop := stop) (acc := []) hP hc h (Nat.lt_succ_self _)
  unfold lookahead
  rw [h1]
  simp only [List.nil_append]
  refine ⟨_, rfl, h2, ?_⟩
  rw [h3]; exact h5

theorem handle_cleanMd {α : Type} (d a : α) (c : Ctx MdState σ) : handle (mdCfg B stop) d (.ok a) c = (.ok a, c) := rfl

theorem runProds_cleanMd {t : Token} : ∀ {ps : List Prod} {c : Ctx MdState σ}, BuildsOk B c.builder (ps.map (Prod.ev t)) →
    runProds (mdCfg B stop) ps t c = (.ok (), { c with
      builder := (ps.map (Prod.ev t)).foldl (applyEv B) c.builder, log := c.log ++ ps.map (Prod.ev t) }) := by
  intro ps
  induction ps with
  | nil => intro c _; simp [runProds]
  | cons p ps ih =>
    intro c h
    simp only [List.map_cons, BuildsOk] at h
    simp only [runProds, runProd_eq]
    rw [h.1, handle_cleanMd]
    simp only
    rw [ih (by exact h.2)]
    simp

/-- What a context becomes when the events of a move are done. -/
def Ctx.after (B : Builder σ ρ) (c : Ctx MdState σ) (m' : MdState) (es : List Ev) : Ctx MdState σ :=
  { c.norm with matcher := m', log := c.log ++ es, builder := es.foldl (applyEv B) c.builder }

theorem tryTrans_mdp {sk : Line → Bool} {rest : List Line} {l : Line} : ∀ {rows : List Trans} {t t' : Token} {c : Ctx MdState σ} {tr : Trans} {m' : MdState},
    t.Of l → c.errors = [] → (l.isEof = false → MdP sk rest c) → (∀ tr ∈ rows, tr.la ≠ none → tr.kind ≠ .eof) →
    MdAuto.pick sk rows l rest c.matcher = some (tr, t', m') →
    BuildsOk B c.builder (tr.prods.map (Prod.ev t')) →
    ∃ t2 c', tryTrans (mdCfg B stop) rows t c = (.ok (some tr.target), t2, c') ∧ c'.norm = c.after B m' (tr.prods.map (Prod.ev t')) ∧
      (l.isEof = false → MdP sk rest c') := by
  intro rows
  induction rows with
  | nil => intro t t' c tr m' _ _ _ _ h; simp [MdAuto.pick] at h
  | cons tr0 trs ih =>
    intro t t' c tr m' ht hc hP hla0 h hb
    simp only [MdAuto.pick] at h
    have hlas : ∀ tr ∈ trs, tr.la ≠ none → tr.kind ≠ .eof := fun x hx => hla0 x (by simp [hx])
    have fin : ∀ {c1 : Ctx MdState σ}, c1.errors = [] → c1.norm = { c.norm with matcher := m' } → (l.isEof = false → MdP sk rest c1) →
        ∃ c', runProds (mdCfg B stop) tr.prods t' c1 = (.ok (), c') ∧
          c'.norm = c.after B m' (tr.prods.map (Prod.ev t')) ∧ (l.isEof = false → MdP sk rest c') := by
      intro c1 e1 e2 e3
      have eb : c1.builder = c.builder := by have := congrArg Ctx.builder e2; exact this
      have el : c1.log = c.log := by have := congrArg Ctx.log e2; exact this
      have em : c1.matcher = m' := by have := congrArg Ctx.matcher e2; exact this
      rw [runProds_cleanMd (by rw [eb]; exact hb)]
      refine ⟨_, rfl, ?_, fun hh => (e3 hh).congr rfl rfl⟩
      simp only [Ctx.norm, Ctx.after, eb, el, em, e1, hc]
    simp only [tryTrans, testTrans]
    rcases htest : MdAuto.test tr0.kind l c.matcher with ⟨r, t0, m1⟩
    rw [htest] at h
    cases r with
    | error e => simp at h
    | ok b0 =>
      obtain ⟨t1, k1, k2, k3⟩ := mdAuto_matchTok (B := B) (stop := stop) (c := c) ht hc htest
      rw [k1]
      cases b0 with
      | false =>
        simp only at h ⊢
        obtain ⟨t2, c', r1, r2, r3⟩ := ih (c := { c with matcher := m1 }) k2 hc (fun hh => (hP hh).congr rfl rfl) hlas h hb
        exact ⟨t2, c', r1, by rw [r2]; rfl, r3⟩
      | true =>
        have k3 := k3 rfl
        subst k3
        simp only at h ⊢
        cases hla : tr0.la with
        | none =>
          rw [hla] at h
          simp only [Option.some.injEq, Prod.mk.injEq] at h
          obtain ⟨rfl, rfl, rfl⟩ := h
          simp only
          obtain ⟨c', f1, f2, f3⟩ := fin (c1 := { c with matcher := m1 }) hc rfl (fun hh => (hP hh).congr rfl rfl)
          rw [f1]
          exact ⟨t1, c', rfl, f2, f3⟩
        | some la =>
          rw [hla] at h
          have he : l.isEof = false := by
            cases he : l.isEof with
            | false => rfl
            | true =>
              have := hla0 tr0 (by simp) (by rw [hla]; simp)
              unfold MdAuto.test at htest
              rw [if_pos ⟨this, he⟩] at htest
              simp at htest
          simp only at h ⊢
          cases hpk : MdAuto.peek sk la rest m1 with
          | none => rw [hpk] at h; simp at h
          | some bm =>
            obtain ⟨b1, m2⟩ := bm
            obtain ⟨c2, l1, l2, l3⟩ := lookahead_mdp (B := B) (stop := stop) (c := { c with matcher := m1 }) ((hP he).congr rfl rfl) hc hpk
            have l4 : c2.errors = [] := by have := congrArg Ctx.errors l2; rw [← hc]; exact this
            have l5 : c2.builder = c.builder := by have := congrArg Ctx.builder l2; exact this
            have l6 : c2.log = c.log := by have := congrArg Ctx.log l2; exact this
            have l7 : c2.matcher = m2 := by have := congrArg Ctx.matcher l2; exact this
            rw [hpk] at h
            rw [l1]
            cases b1 with
            | false =>
              simp only at h ⊢
              obtain ⟨t2, c', r1, r2, r3⟩ := ih (c := c2) k2 l4 (fun _ => l3) hlas (by rw [l7]; exact h) (by rw [l5]; exact hb)
              refine ⟨t2, c', r1, ?_, r3⟩
              rw [r2]
              simp only [Ctx.after, Ctx.norm, l4, l5, l6, hc]
            | true =>
              simp only [Option.some.injEq, Prod.mk.injEq] at h
              obtain ⟨rfl, rfl, rfl⟩ := h
              simp only
              obtain ⟨c', f1, f2, f3⟩ := fin l4 (by rw [l2]; rfl) (fun _ => l3)
              rw [f1]
              exact ⟨t1, c', rfl, f2, f3⟩

/-- Look-aheads belong to tag lines. -/
theorem rows_la : ∀ q ∈ allStates, (match table q with | none => true | some row => row.trans.all fun tr => decide (tr.la ≠ none → tr.kind ≠ .eof)) = true := by
  decide +kernel

theorem one_mdp {sk : Line → Bool} {q : Nat} {l : Line} {rest : List Line} {m m' : MdState} {tr : Trans} {t : Token} {c1 : Ctx MdState σ} {t0 : Token}
    (h : MdAuto.step sk q l rest m = some (tr, t, m')) (ht : t0.Of l) (hm : c1.matcher = m) (hc : c1.errors = [])
    (hP : l.isEof = false → MdP sk rest c1) (hb : BuildsOk B c1.builder (Auto.Move.evs ⟨q, tr, t⟩)) :
    ∃ c2, matchToken (mdCfg B stop) q t0 { c1 with log := c1.log ++ [.take t0.line] } = (.ok tr.target, c2) ∧
      c2.norm = c1.after B m' (Auto.Move.evs ⟨q, tr, t⟩) ∧ (l.isEof = false → MdP sk rest c2) ∧ t.line = l := by
  subst hm
  unfold MdAuto.step at h
  unfold matchToken
  cases hq : table q with
  | none => rw [hq] at h; simp at h
  | some row =>
    rw [hq] at h
    simp only at h ⊢
    have hln : ∀ {rows : List Trans} {m : MdState}, MdAuto.pick sk rows l rest m = some (tr, t, m') → t.line = l := by
      intro rows
      induction rows with
      | nil => intro m h; simp [MdAuto.pick] at h
      | cons tr0 trs ih =>
        intro m h
        simp only [MdAuto.pick] at h
        have ho : (MdAuto.test tr0.kind l m).2.1.Of l := by
          unfold MdAuto.test
          split
          · exact Token.fresh_of l
          · exact (Md.indep tr0.kind (Token.fresh_of l) m).of
        rcases htest : MdAuto.test tr0.kind l m with ⟨r, t0, m1⟩
        rw [htest] at h ho
        have fin : some (tr0, t0, m1) = some (tr, t, m') → t.line = l := by
          intro hh; simp only [Option.some.injEq, Prod.mk.injEq] at hh; rw [← hh.2.1]; exact ho.1
        cases r with
        | error e => simp at h
        | ok b =>
          cases b with
          | false => exact ih h
          | true =>
            simp only at h
            cases hla : tr0.la with
            | none => rw [hla] at h; exact fin h
            | some la =>
              rw [hla] at h
              simp only at h
              cases hp : MdAuto.peek sk la rest m1 with
              | none => rw [hp] at h; simp at h
              | some bm =>
                obtain ⟨b1, m2⟩ := bm
                rw [hp] at h
                cases b1 with
                | false => exact ih h
                | true =>
                  simp only [Option.some.injEq, Prod.mk.injEq] at h
                  rw [← h.2.1]; exact ho.1
    have hline := hln h
    have hla : ∀ tr ∈ row.trans, tr.la ≠ none → tr.kind ≠ .eof := by
      intro x hx
      have := rows_la q (mem_allStates hq)
      rw [hq] at this
      simp only [List.all_eq_true, decide_eq_true_eq] at this
      exact this x hx
    simp only [Auto.Move.evs, BuildsOk, evAnswer, applyEv] at hb
    obtain ⟨t2, c', r1, r2, r3⟩ := tryTrans_mdp (B := B) (stop := stop) (c := { c1 with log := c1.log ++ [.take t0.line] }) ht hc (fun hh => (hP hh).congr rfl rfl) hla h
      (by exact hb.2)
    rw [r1]
    refine ⟨c', rfl, ?_, r3, hline⟩
    rw [r2]
    simp [Ctx.after, Ctx.norm, Auto.Move.evs, applyEv, hline, ht.1]

theorem loop_mdp {sk : Line → Bool} {q q' : Nat} {m m' : MdState} {lines : List Line} {mv : List Auto.Move} (h : MdAuto.Run sk q m lines mv q' m') :
    ∀ {fuel : Nat} {c : Ctx MdState σ}, c.matcher = m → c.errors = [] → MdP sk lines c → BuildsOk B c.builder (mv.flatMap Auto.Move.evs) →
    lines.length ≤ fuel →
    ∃ c', parseLoop (mdCfg B stop) fuel q c = (.ok (), c') ∧ c'.norm = c.after B m' (mv.flatMap Auto.Move.evs) := by
  induction h with
  | @last q m l rest tr t m' hs he =>
    intro fuel c hm hc hP hb hf
    cases fuel with
    | zero => simp at hf
    | succ fuel =>
      obtain ⟨l2, rest', t0, c1, hrest, hread, htO, hnorm, hle, hcont, hstop⟩ := readToken_mdp hP
      cases hrest
      have n1 : c1.matcher = c.matcher := by have := congrArg Ctx.matcher hnorm; exact this
      have n2 : c1.errors = c.errors := by have := congrArg Ctx.errors hnorm; exact this
      have n3 : c1.builder = c.builder := by have := congrArg Ctx.builder hnorm; exact this
      have n4 : c1.log = c.log := by have := congrArg Ctx.log hnorm; exact this
      simp only [List.flatMap_cons, List.flatMap_nil, List.append_nil] at hb ⊢
      obtain ⟨c2, k1, k2, _, _⟩ := one_mdp (B := B) (stop := stop) hs htO (by rw [n1, hm]) (by rw [n2, hc]) (by rw [he]; intro h; cases h) (by rw [n3]; exact hb)
      unfold parseLoop
      rw [hread]
      simp only
      rw [k1]
      have : t0.eof = true := by rw [Token.eof, htO.1]; exact he
      simp only [this, if_true]
      refine ⟨c2, rfl, ?_⟩
      rw [k2]
      simp only [Ctx.after, Ctx.norm, n2, n3, n4]
  | @cons q m l rest tr t m' mv q' m'' hs he hr ih =>
    intro fuel c hm hc hP hb hf
    cases fuel with
    | zero => simp at hf
    | succ fuel =>
      obtain ⟨l2, rest', t0, c1, hrest, hread, htO, hnorm, hle, hcont, hstop⟩ := readToken_mdp hP
      cases hrest
      have n1 : c1.matcher = c.matcher := by have := congrArg Ctx.matcher hnorm; exact this
      have n2 : c1.errors = c.errors := by have := congrArg Ctx.errors hnorm; exact this
      have n3 : c1.builder = c.builder := by have := congrArg Ctx.builder hnorm; exact this
      have n4 : c1.log = c.log := by have := congrArg Ctx.log hnorm; exact this
      rw [List.flatMap_cons, BuildsOk_append] at hb
      obtain ⟨hP1, hlt⟩ := hcont he
      obtain ⟨c2, k1, k2, k3, _⟩ := one_mdp (B := B) (stop := stop) hs htO (by rw [n1, hm]) (by rw [n2, hc]) (fun _ => hP1) (by rw [n3]; exact hb.1)
      unfold parseLoop
      rw [hread]
      simp only
      rw [k1]
      have : t0.eof = false := by rw [Token.eof, htO.1]; exact he
      simp only [this, Bool.false_eq_true, if_false]
      have p1 : c2.matcher = m' := by have := congrArg Ctx.matcher k2; exact this
      have p2 : c2.errors = [] := by have := congrArg Ctx.errors k2; rw [← hc, ← n2]; exact this
      have p3 : c2.builder = (Auto.Move.evs ⟨q, tr, t⟩).foldl (applyEv B) c.builder := by have := congrArg Ctx.builder k2; rw [← n3]; exact this
      have p4 : c2.log = c.log ++ Auto.Move.evs ⟨q, tr, t⟩ := by have := congrArg Ctx.log k2; rw [← n4]; exact this
      obtain ⟨c', r1, r2⟩ := ih (c := c2) p1 p2 (k3 he) (by rw [p3]; exact hb.2) (by simpa using hf)
      refine ⟨c', r1, ?_⟩
      rw [r2]
      simp only [Ctx.after, Ctx.norm, p2, p3, p4, hc, List.flatMap_cons, List.foldl_append, List.append_assoc]

/-- A Markdown run that the builder accepts is a parse that returns the builder's result. -/
theorem md_run_accepted {sk : Line → Bool} {text : Str} {m : MdState} {b : σ} {r : ρ} {mv : List Auto.Move} {q : Nat} {m' : MdState}
    (h : MdAuto.Run sk 0 (Md.reset m) (tokenLines text) mv q m') (hb : BuildsOk B (B.reset b) (allEvs mv))
    (hr : B.result ((allEvs mv).foldl (applyEv B) (B.reset b)) = .ok r) :
    (parse (mdCfg B stop) text m b).1 = .ok r ∧ (parse (mdCfg B stop) text m b).2.log = allEvs mv := by
  simp only [allEvs, BuildsOk] at hb
  rw [BuildsOk_append] at hb
  obtain ⟨b0, b1, b2⟩ := hb
  have e0 : evAnswer (mdCfg B stop).builder (Ctx.init (mdCfg B stop) text m b).builder
      (Prod.ev (Token.fresh ⟨[], 0⟩) (.start .gherkinDocument)) = .ok () := b0
  unfold parse
  rw [runProd_eq]
  simp only
  rw [e0, handle_cleanMd]
  simp only
  have hlen : (tokenLines text).length = (Ctx.init (mdCfg B stop) text m b).scanner.lines.length + 1 := by
    simp [tokenLines, sourceLines, Ctx.init, Scanner.ofStr]
  obtain ⟨c', k1, k2⟩ := loop_mdp (B := B) (stop := stop) h (fuel := (Ctx.init (mdCfg B stop) text m b).scanner.lines.length + 1)
    (c := { Ctx.init (mdCfg B stop) text m b with
      builder := applyEv (mdCfg B stop).builder (Ctx.init (mdCfg B stop) text m b).builder (Prod.ev (Token.fresh ⟨[], 0⟩) (.start .gherkinDocument)),
      log := (Ctx.init (mdCfg B stop) text m b).log ++ [Prod.ev (Token.fresh ⟨[], 0⟩) (.start .gherkinDocument)] }) rfl rfl
    ⟨by simp [Ctx.init], by simpa [Ctx.init, Scanner.ofStr] using splitLines_ne_nil text, .inl ⟨rfl, by simp [tokenLines, sourceLines, eofLine, Ctx.init, Scanner.ofStr, Scanner.rest]⟩⟩ b1 (by rw [hlen]; exact Nat.le_refl _)
  rw [k1]
  simp only
  have p2 : c'.errors = [] := by have := congrArg Ctx.errors k2; exact this
  have p3 := congrArg Ctx.builder k2
  have p4 := congrArg Ctx.log k2
  simp only [Ctx.after, Ctx.norm, Ctx.init, Prod.ev] at p3 p4
  rw [runProd_eq]
  have e1 : evAnswer (mdCfg B stop).builder c'.builder (Prod.ev (Token.fresh ⟨[], 0⟩) (.stop .gherkinDocument)) = .ok () := by rw [p3]; exact b2.1
  rw [e1, handle_cleanMd]
  simp only [p2, ne_eq, not_true_eq_false, if_false]
  have : (allEvs mv).foldl (applyEv B) (B.reset b) = applyEv B ((mv.flatMap Auto.Move.evs).foldl (applyEv B)
      (applyEv B (B.reset b) (.start .gherkinDocument))) (.stop .gherkinDocument) := by
    simp [allEvs, List.foldl_append]
  rw [this] at hr
  simp only [mdCfg, Prod.ev] at p3 ⊢
  rw [p3, hr]
  exact ⟨rfl, by rw [p4]; simp [allEvs]⟩

end

end Gherkin
