import Verif.Proofs.RunFacts

/-! One step of the classic parser with errors on record: everything that can happen. -/

namespace Gherkin

open Auto

/-- The matcher refuses the line's language header. -/
def LangErr (l : Line) (m : CState) (e : Err) : Prop := (Classic.matchKind .language (Token.fresh l) m).1 = .error (.parser e)

/-- Reading this line as a token of this kind is a Python exception. -/
def BadAs (k : Kind) (l : Line) (x : Crash) : Prop := ∃ m, (Classic.matchKind k (Token.fresh l) m).1 = .error (.crash x)

/-- A line of the text that cannot be read: a tag line or a table row. -/
def BadLine (l : Line) (x : Crash) : Prop := (l.startsWith ['@'] = true ∧ l.tags = .error x) ∨ (l.startsWith ['|'] = true ∧ l.tableCells = .error x)

theorem badAs_line {k : Kind} {l : Line} {x : Crash} (h : BadAs k l x) : BadLine l x := by
  obtain ⟨m, h⟩ := h
  revert h
  have hl : (Token.fresh l).line = l := rfl
  cases k <;>
    simp only [Classic.matchKind, Classic.matchEof, Classic.matchEmpty, Classic.matchComment, Classic.matchTagLine, Classic.matchTitle,
      Classic.matchStep, Classic.matchDocSep, Classic.matchSep, Classic.matchTableRow, Classic.matchLanguage, Classic.matchOther, hl] <;>
    (repeat' split) <;> simp
  · rintro rfl; rename_i h1 _ _ h2; exact .inl ⟨h1, h2⟩
  · rintro rfl; rename_i h1 _ _ h2; exact .inr ⟨h1, h2⟩

theorem peek_bad {la : LA} {m : CState} : ∀ {rest : List Line} {x : Crash}, Pure.peek la m rest = .error x →
    ∃ l ∈ rest, BadLine l x := by
  intro rest
  induction rest with
  | nil => intro x h; simp [Pure.peek] at h
  | cons l rest ih =>
    intro x h
    simp only [Pure.peek] at h
    split at h
    · simp at h
    · split at h
      · simp at h
      · split at h
        · obtain ⟨l', h1, h2⟩ := ih h; exact ⟨l', by simp [h1], h2⟩
        · split at h
          · rename_i ha
            split at h
            · obtain ⟨l', h1, h2⟩ := ih h; exact ⟨l', by simp [h1], h2⟩
            · rename_i y hy
              simp at h; subst h
              exact ⟨l, by simp, .inl ⟨ha, hy⟩⟩
          · simp at h

/-- A property of errors that may be on record while line `l` is read. -/
structure ErrClosed (Q : Err → Prop) (l : Line) : Prop where
  sync : ∀ (e : Err) (t : Token), Q e → e.aliasOf = some t.line.number → t.Of l →
    (t.loc.column = some 1 ∨ t.loc.column = some (l.indent + 1)) → Q { e with loc := t.loc }
  lang : ∀ m e, LangErr l m e → Q e

section
variable {σ ρ : Type} {B : Builder σ ρ} {stop : Bool} {Q : Err → Prop}

/-- No error on record shares its location with a token of this line. -/
def NotShared (l : Line) (es : List Err) : Prop := ∀ e ∈ es, e.aliasOf ≠ some l.number

theorem ErrClosed.syncs {l : Line} (h : ErrClosed Q l) {t : Token} (ht : t.Of l) {es : List Err}
    (hcol : (t.loc.column = some 1 ∨ t.loc.column = some (l.indent + 1)) ∨ NotShared l es) (hs : ∀ e ∈ es, Q e) :
    ∀ e ∈ syncErrors t es, Q e := by
  intro e he
  simp only [syncErrors, List.mem_map] at he
  obtain ⟨e0, h0, rfl⟩ := he
  split
  · rename_i ha
    rcases hcol with hcol | hcol
    · exact h.sync e0 t (hs e0 h0) ha ht hcol
    · rw [ht.1] at ha; exact absurd ha (hcol e0 h0)
  · exact hs e0 h0

theorem NotShared.sync {l : Line} {t : Token} (ht : t.Of l) {es : List Err} (h : NotShared l es) : syncErrors t es = es := by
  simp only [syncErrors]
  conv => rhs; rw [← List.map_id es]
  refine List.map_congr_left fun e he => ?_
  rw [if_neg]; rfl
  rw [ht.1]; exact h e he

/-- The column of a matched token. -/
theorem matched_column {k : Kind} {l : Line} {m m' : CState} {t : Token} (h : Classic.matchKind k (Token.fresh l) m = (.ok true, t, m')) :
    t.loc.column = some 1 ∨ t.loc.column = some (l.indent + 1) := by
  have hl : (Token.fresh l).line = l := rfl
  have he : l.isEof = true → l.indent = 0 := by
    intro h
    simp only [Line.isEof, List.isEmpty_iff] at h
    simp [Line.indent, Line.trimmed, h, lstrip, lstripBy]
  revert h
  cases k <;>
    simp only [Classic.matchKind, Classic.matchEof, Classic.matchEmpty, Classic.matchComment, Classic.matchTagLine, Classic.matchTitle,
      Classic.matchStep, Classic.matchDocSep, Classic.matchSep, Classic.matchTableRow, Classic.matchLanguage, Classic.matchOther, hl] <;>
    (repeat' split) <;> simp <;> (try (intro h _; rw [← h]; simp [setMatched, hl])) <;>
    (try (cases hh : l.isEof <;> simp [he, hh]))

theorem addError_all {e : Err} {c : Ctx CState σ} (he : Q e) (hs : ∀ e ∈ c.errors, Q e) :
    ∃ es, (∀ e ∈ es, Q e) ∧ (addError e c = (.ok (), { c with errors := es }) ∨
      addError e c = (.error (.composite es), { c with errors := es })) := by
  rcases addError_cases e c with ⟨_, h1⟩ | ⟨_, _, h1⟩ | ⟨_, _, h1⟩
  · exact ⟨c.errors, hs, .inl (by rw [h1])⟩
  · exact ⟨_, fun e' h' => by
      rcases List.mem_append.1 h' with h' | h'
      · exact hs e' h'
      · simp at h'; rw [h']; exact he, .inl h1⟩
  · exact ⟨_, fun e' h' => by
      rcases List.mem_append.1 h' with h' | h'
      · exact hs e' h'
      · simp at h'; rw [h']; exact he, .inr h1⟩

/-- Where a token's column can stand while its line is read. -/
def Token.At (t : Token) (l : Line) : Prop := t.Of l ∧ (t = Token.fresh l ∨ (l.isEof = false ∧ t.loc.column = some (l.indent + 1)))

/-- What a single match does. -/
theorem matchTok_cases {k : Kind} {t : Token} {l : Line} (hat : t.At l) (hQ : ErrClosed Q l) {c : Ctx CState σ}
    (hc : ∀ e ∈ c.errors, Q e) (hfr : t = Token.fresh l → NotShared l c.errors) :
    (matchTok (classicCfg B stop) k t c = (.ok false, t, c) ∧ k ≠ .eof ∧ l.isEof = true) ∨
    (k = .eof ∨ l.isEof = false) ∧
    ((∃ es t' m', Classic.matchKind k (Token.fresh l) c.matcher = (.ok true, t', m') ∧ (∀ e ∈ es, Q e) ∧ (c.errors = [] → es = []) ∧
        matchTok (classicCfg B stop) k t c = (.ok true, t', { c with matcher := m', errors := es })) ∨
     (∃ es, (Classic.matchKind k (Token.fresh l) c.matcher).1 = .ok false ∧ (∀ e ∈ es, Q e) ∧ (c.errors = [] → es = []) ∧ (t = Token.fresh l → NotShared l es) ∧
        matchTok (classicCfg B stop) k t c = (.ok false, t, { c with errors := es })) ∨
     (∃ x c', BadAs k l x ∧ matchTok (classicCfg B stop) k t c = (.error (.crash x), t, c')) ∨
     (∃ e t', k = .language ∧ LangErr l c.matcher e ∧ t'.Of l ∧ t'.loc.column = some (l.indent + 1) ∧
        ((stop = true ∧ ∃ c', matchTok (classicCfg B stop) k t c = (.error (.single e), t', c')) ∨
         (stop = false ∧ ∃ es, (∀ e ∈ es, Q e) ∧ (c.errors = [] → es = [e]) ∧
            (matchTok (classicCfg B stop) k t c = (.ok false, t', { c with errors := es }) ∨
             matchTok (classicCfg B stop) k t c = (.error (.composite es), t', { c with errors := es })))))) := by
  have ht := hat.1
  have hI := Classic.indep k ht c.matcher
  have hte : t.eof = l.isEof := by rw [Token.eof, ht.1]
  have hF := @Classic.matchKind_false k t c.matcher
  by_cases hk : k ≠ .eof ∧ l.isEof = true
  · left
    refine ⟨?_, hk⟩
    unfold matchTok
    rw [hte, if_pos hk]
  · right
    refine ⟨?_, ?_⟩
    · by_cases h1 : k = .eof
      · exact .inl h1
      · exact .inr (by simpa [h1] using hk)
    unfold matchTok
    rw [hte, if_neg hk]
    simp only [classicCfg, classic]
    rcases hm : Classic.matchKind k t c.matcher with ⟨r, t1, m1⟩
    rcases hm0 : Classic.matchKind k (Token.fresh l) c.matcher with ⟨r0, t0, m0⟩
    have e1 := hI.res; have e2 := hI.st; have e3 := hI.tokTrue; have e4 := hI.tokErr
    rw [hm, hm0] at e1 e2 e3 e4
    rw [hm] at hF
    simp only at e1 e2 e3 e4 hF
    subst e1; subst e2
    have hof : ∀ {k}, (Classic.matchKind k (Token.fresh l) c.matcher).2.1.Of l := by
      intro k
      have h1 := classic_lawful.line k (Token.fresh l) c.matcher
      have h2 := classic_lawful.locLine k (Token.fresh l) c.matcher
      exact ⟨h1, h2⟩
    cases r with
    | ok b =>
      cases b with
      | true =>
        left
        have h1 := e3 rfl
        subst h1
        have hof' := hof (k := k)
        rw [hm0] at hof'
        exact ⟨_, _, _, rfl, hQ.syncs (by exact hof') (.inl (matched_column hm0)) hc, fun h => by rw [h]; rfl, by simp only [handle]⟩
      | false =>
        right; left
        obtain ⟨f1, f2⟩ := hF rfl
        subst f1; subst f2
        refine ⟨_, rfl, hQ.syncs ht ?_ hc, fun h => by rw [h]; rfl, ?_, by simp only [handle]⟩
        · rcases hat.2 with h | ⟨_, h⟩
          · exact .inr (hfr h)
          · exact .inl (.inr h)
        · intro h; rw [(hfr h).sync ht]; exact hfr h
    | error x =>
      cases x with
      | crash x =>
        right; right; left
        refine ⟨x, { c with matcher := m1, errors := syncErrors t1 c.errors }, ⟨c.matcher, by rw [hm0]⟩, ?_⟩
        · have : t1 = t := by
            revert hm
            cases k <;>
              simp only [Classic.matchKind, Classic.matchEof, Classic.matchEmpty, Classic.matchComment, Classic.matchTagLine,
                Classic.matchTitle, Classic.matchStep, Classic.matchDocSep, Classic.matchSep, Classic.matchTableRow,
                Classic.matchLanguage, Classic.matchOther] <;>
              (repeat' split) <;> simp <;> (try (intro _ h _; exact h.symm))
          subst this
          simp only [handle]
      | parser e =>
        right; right; right
        have hkl : k = .language := by
          by_cases h : k = .language
          · exact h
          · exact absurd (by rw [hm]) (Classic.matchKind_noparser h t c.matcher e)
        subst hkl
        have h1 := e4 e rfl
        subst h1
        have hof' := hof (k := .language)
        rw [hm0] at hof'
        simp only at hof'
        have hcol : t1.loc.column = some (l.indent + 1) := by
          revert hm0
          simp only [Classic.matchKind, Classic.matchLanguage]
          have hle : l.isEof = false := by
            cases hh : l.isEof
            · rfl
            · exact absurd ⟨by simp, hh⟩ hk
          (repeat' split) <;> simp
          intro _ h _
          rw [← h]
          simp [setMatched, Token.fresh, hle]
        have hme : m1 = c.matcher := by
          revert hm0
          simp only [Classic.matchKind, Classic.matchLanguage]
          (repeat' split) <;> simp
          intro _ _ h; exact h.symm
        subst hme
        have hL : LangErr l c.matcher e := by unfold LangErr; rw [hm0]
        refine ⟨e, t1, rfl, hL, hof', hcol, ?_⟩
        cases stop with
        | true => left; exact ⟨rfl, _, by simp only [handle]; rfl⟩
        | false =>
          right
          obtain ⟨es, h2, h3⟩ := addError_all (c := { c with errors := syncErrors t1 c.errors }) (hQ.lang _ _ hL)
            (by exact hQ.syncs hof' (.inl (.inr hcol)) hc)
          refine ⟨rfl, es, h2, ?_, ?_⟩
          · intro h0
            have := addError_cases e { c with errors := syncErrors t1 c.errors }
            rw [h0] at this h3
            simp only [syncErrors_nil, List.map_nil, List.not_mem_nil, false_and, List.length_nil, Nat.zero_lt_succ, true_and,
              not_false_eq_true, List.nil_append, false_or, Nat.le_zero_eq, reduceCtorEq, or_false] at this h3
            rcases h3 with h3 | h3 <;> rw [this] at h3 <;> simp at h3
            exact h3.symm
          · rcases h3 with h3 | h3
            · left; simp only [handle, Bool.false_eq_true, if_false, h3]
            · right; simp only [handle, Bool.false_eq_true, if_false, h3]

/-- Why a transition was not taken, with errors. -/
def PassedE (l : Line) (rest : List Line) (m : CState) (x : Trans) : Prop :=
  Passed l rest m x ∨ (x.kind = .language ∧ ∃ e, LangErr l m e)

/-- What the chain of tests can do. -/
inductive TryE (B : Builder σ ρ) (stop : Bool) (Q : Err → Prop) (rows : List Trans) (l : Line) (rest : List Line) (c : Ctx CState σ) :
    Except Exc (Option Nat) → Token → Ctx CState σ → Prop
  | crash {x t' c'} : (BadLine l x ∨ ∃ l' ∈ rest, BadLine l' x) → TryE B stop Q rows l rest c (.error (.crash x)) t' c'
  | single {e t' c'} : stop = true → LangErr l c.matcher e → TryE B stop Q rows l rest c (.error (.single e)) t' c'
  | composite {es t' c'} : stop = false → (∀ e ∈ es, Q e) → TryE B stop Q rows l rest c (.error (.composite es)) t' c'
  | none {t' es} : t'.At l → (∀ e ∈ es, Q e) → (∀ x ∈ rows, PassedE l rest c.matcher x) →
      TryE B stop Q rows l rest c (.ok none) t' { c with errors := es }
  | taken {pre tr post t' m' es r c'} : rows = pre ++ tr :: post →
      Classic.matchKind tr.kind (Token.fresh l) c.matcher = (.ok true, t', m') → (tr.kind = .eof ∨ l.isEof = false) →
      (∀ la, tr.la = some la → Pure.peek la c.matcher rest = .ok true) → (∀ x ∈ pre, PassedE l rest c.matcher x) → (∀ e ∈ es, Q e) →
      (r = .ok (some tr.target) ∧ runProds (classicCfg B stop) tr.prods t' { c with matcher := m', errors := es } = (.ok (), c') ∨
        ∃ x, r = .error x ∧ runProds (classicCfg B stop) tr.prods t' { c with matcher := m', errors := es } = (.error x, c')) →
      TryE B stop Q rows l rest c r t' c'

theorem tagLine_column {l : Line} (hl : l.isEof = false) {m m' : CState} {t : Token}
    (h : Classic.matchKind .tagLine (Token.fresh l) m = (.ok true, t, m')) : t.loc.column = some (l.indent + 1) := by
  revert h
  have hf : (Token.fresh l).line = l := rfl
  simp only [Classic.matchKind, Classic.matchTagLine]
  (repeat' split) <;> simp
  intro h _
  rw [← h]
  simp [setMatched, hf, hl]

theorem try_cases {rest : List Line} {l : Line} (hQ : ErrClosed Q l) : ∀ {rows : List Trans} {t : Token} {c : Ctx CState σ},
    laOnTags rows = true → t.At l → (∀ e ∈ c.errors, Q e) → (t = Token.fresh l → NotShared l c.errors) →
    TryE B stop Q rows l rest c (Pure.try_ (classicCfg B stop) rows t rest c).1 (Pure.try_ (classicCfg B stop) rows t rest c).2.1
      (Pure.try_ (classicCfg B stop) rows t rest c).2.2 := by
  intro rows
  induction rows with
  | nil => intro t c _ ht hc _; exact .none ht hc (by simp)
  | cons tr trs ih =>
    intro t c hla ht hc hfr
    simp only [laOnTags, List.all_cons, Bool.and_eq_true] at hla
    -- the test failed
    have cont : ∀ t1 es, t1.At l → (∀ e ∈ es, Q e) → (t1 = Token.fresh l → NotShared l es) → PassedE l rest c.matcher tr →
        TryE B stop Q (tr :: trs) l rest c (Pure.try_ (classicCfg B stop) trs t1 rest { c with errors := es }).1
          (Pure.try_ (classicCfg B stop) trs t1 rest { c with errors := es }).2.1
          (Pure.try_ (classicCfg B stop) trs t1 rest { c with errors := es }).2.2 := by
      intro t1 es h1 h2 hn h3
      have := ih (c := { c with errors := es }) hla.2 h1 h2 hn
      rcases hx : Pure.try_ (classicCfg B stop) trs t1 rest { c with errors := es } with ⟨r, t', c'⟩
      rw [hx] at this
      simp only at this ⊢
      cases this with
      | crash h => exact .crash h
      | single h h' => exact .single h h'
      | composite h h' => exact .composite h h'
      | none k1 k2 k3 =>
        exact .none k1 k2 (by
          intro x hx
          rcases List.mem_cons.1 hx with rfl | hx
          · exact h3
          · exact k3 x hx)
      | taken k1 k2 k3 k4 k5 k6 k7 =>
        rename_i pre tr' post m' es'
        exact .taken (pre := tr :: pre) (by rw [k1]; rfl) k2 k3 k4 (by
          intro x hx
          rcases List.mem_cons.1 hx with rfl | hx
          · exact h3
          · exact k5 x hx) k6 k7
    simp only [Pure.try_, Pure.test]
    rcases matchTok_cases (B := B) (stop := stop) (k := tr.kind) ht hQ hc hfr with ⟨h0, h1⟩ | ⟨hek, h⟩
    · rw [h0]
      simp only
      exact cont t c.errors ht hc hfr (.inl (.inl h1))
    · rcases h with ⟨es, t', m', h1, h2, _, h3⟩ | ⟨es, h1, h2, _, hn, h3⟩ | ⟨x, c', h1, h3⟩ | ⟨e, t', hk, h1, h2, hcol, h3⟩
      · rw [h3]
        simp only
        cases hl : tr.la with
        | none =>
          simp only
          rcases hr : runProds (classicCfg B stop) tr.prods t' { c with matcher := m', errors := es } with ⟨y, c2⟩
          cases y with
          | ok u => exact .taken (pre := []) rfl h1 hek (by simp [hl]) (by simp) h2 (.inl ⟨rfl, hr⟩)
          | error x => exact .taken (pre := []) rfl h1 hek (by simp [hl]) (by simp) h2 (.inr ⟨x, rfl, hr⟩)
        | some la =>
          have htag : tr.kind = .tagLine := by simpa [hl] using hla.1
          have hmm : m' = c.matcher := by
            have := Classic.matchKind_state (k := tr.kind) (by rw [htag]; simp) (by rw [htag]; simp) (Token.fresh l) c.matcher
            rw [h1] at this; exact this
          subst hmm
          simp only
          cases hp : Pure.peek la c.matcher rest with
          | error x => exact .crash (.inr (peek_bad hp))
          | ok b =>
            cases b with
            | false =>
              simp only
              have hle : l.isEof = false := by
                rcases hek with h | h
                · rw [htag] at h; simp at h
                · exact h
              refine cont t' es ⟨matched_of h1, .inr ⟨hle, tagLine_column (m := c.matcher) hle (by rw [← htag]; exact h1)⟩⟩ h2
                (fun h => by
                  have := tagLine_column (m := c.matcher) hle (by rw [← htag]; exact h1)
                  rw [h] at this; simp [Token.fresh] at this)
                (.inl (.inr (.inr ⟨la, hl, hp, by rw [h1]⟩)))
            | true =>
              simp only
              rcases hr : runProds (classicCfg B stop) tr.prods t' { c with errors := es } with ⟨y, c2⟩
              cases y with
              | ok u =>
                exact .taken (pre := []) (es := es) rfl h1 hek (by intro la' h'; rw [hl] at h'; cases h'; exact hp) (by simp) h2 (.inl ⟨rfl, hr⟩)
              | error x =>
                exact .taken (pre := []) (es := es) rfl h1 hek (by intro la' h'; rw [hl] at h'; cases h'; exact hp) (by simp) h2 (.inr ⟨x, rfl, hr⟩)
      · rw [h3]
        simp only
        exact cont t es ht h2 hn (.inl (.inr (.inl h1)))
      · rw [h3]
        exact .crash (.inl (badAs_line h1))
      · rcases h3 with ⟨hs, c', h3⟩ | ⟨hs, es, h4, _, h3 | h3⟩
        · rw [h3]; exact .single hs h1
        · rw [h3]
          simp only
          have hle : l.isEof = false := by
            rcases hek with h | h
            · rw [hk] at h; simp at h
            · exact h
          exact cont t' es ⟨h2, .inr ⟨hle, hcol⟩⟩ h4 (fun h => by rw [h] at hcol; simp [Token.fresh] at hcol) (.inr ⟨hk, e, h1⟩)
        · rw [h3]; exact .composite hs h4

end

end Gherkin
