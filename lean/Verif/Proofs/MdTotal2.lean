import Verif.Proofs.MdTotal
import Verif.Proofs.ErrAll
import Verif.Proofs.MdErrForms

/-! The Markdown parser with the AST builder: everything that can come out, continued. -/

namespace Gherkin

open AstNode Auto

section
variable {μ : Type} {M : Matcher μ} {stop : Bool} {Q : Err → Prop} {P : Token → Prop}

theorem addError_all' {σ : Type} {e : Err} {c : Ctx μ σ} (he : Q e) (hs : ∀ e ∈ c.errors, Q e) :
    ∃ es, (∀ e ∈ es, Q e) ∧ (addError e c = (.ok (), { c with errors := es }) ∨
      addError e c = (.error (.composite es), { c with errors := es })) := by
  have key : ∀ e' ∈ c.errors ++ [e], Q e' := by
    intro e' h'
    rcases List.mem_append.1 h' with h' | h'
    · exact hs e' h'
    · simp at h'; rw [h']; exact he
  rcases addError_cases e c with ⟨_, h1⟩ | ⟨_, _, h1⟩ | ⟨_, _, h1⟩
  · exact ⟨c.errors, hs, .inl (by rw [h1])⟩
  · exact ⟨_, key, .inl h1⟩
  · exact ⟨_, key, .inr h1⟩

/-- What running productions of the AST builder can give. -/
inductive RunOut (Q : Err → Prop) (P : Token → Prop) (stop : Bool) (a' : AStack) : Except Exc Unit → Ctx μ BState → Prop
  | ok {c'} : StackOk P a' c'.builder.stack → (∀ e ∈ c'.errors, Q e) → RunOut Q P stop a' (.ok ()) c'
  | single {e c'} : stop = true → Q e → RunOut Q P stop a' (.error (.single e)) c'
  | composite {es c'} : stop = false → (∀ e ∈ es, Q e) → RunOut Q P stop a' (.error (.composite es)) c'

theorem handle_out' {r : Except MExc Unit} {c : Ctx μ BState} (hr : AnswerOk P r) (hQ : ∀ e, RowErr P e → Q e)
    (hc : ∀ e ∈ c.errors, Q e) :
    (∃ es, handle (⟨M, astBuilder, stop⟩ : Config μ BState _) () r c = (.ok (), { c with errors := es }) ∧ (∀ e ∈ es, Q e)) ∨
    (∃ e c', handle (⟨M, astBuilder, stop⟩ : Config μ BState _) () r c = (.error (.single e), c') ∧ stop = true ∧ Q e) ∨
    (∃ es c', handle (⟨M, astBuilder, stop⟩ : Config μ BState _) () r c = (.error (.composite es), c') ∧ stop = false ∧ (∀ e ∈ es, Q e)) := by
  rcases hr with rfl | ⟨e, rfl, he⟩
  · exact .inl ⟨c.errors, rfl, hc⟩
  · cases stop with
    | true => right; left; exact ⟨e, c, rfl, rfl, hQ e he⟩
    | false =>
      obtain ⟨es, h1, h2 | h2⟩ := addError_all' (hQ e he) hc
      · left; exact ⟨es, by simp only [handle, Bool.false_eq_true, if_false, h2], h1⟩
      · right; right; exact ⟨es, { c with errors := es }, by simp only [handle, Bool.false_eq_true, if_false, h2], rfl, h1⟩

theorem runProds_out {k : Kind} {t : Token} (hQ : ∀ e, RowErr P e → Q e) : ∀ {ps : List Prod} {a a' : AStack} {c : Ctx μ BState},
    StackOk P a c.builder.stack → absRun k ps a = some a' → (∀ e ∈ c.errors, Q e) →
    TokOk P k t (a.pend .description ps) (a.pend .docString ps) →
    RunOut Q P stop a' (runProds ⟨M, astBuilder, stop⟩ ps t c).1 (runProds ⟨M, astBuilder, stop⟩ ps t c).2 := by
  intro ps
  induction ps with
  | nil =>
    intro a a' c hs ha hc ht
    simp only [absRun, Option.some.injEq] at ha
    subst ha
    exact .ok hs hc
  | cons p ps ih =>
    intro a a' c hs ha hc ht
    simp only [absRun, Option.bind_eq_some_iff] at ha
    obtain ⟨a1, ha1, ha2⟩ := ha
    obtain ⟨h1, h2⟩ := prod_ok hs ha1 (ht.mono (by intro h; simp [AStack.pend, h]) (by intro h; simp [AStack.pend, h]))
    simp only [runProds]
    rw [runProd_eq]
    rcases handle_out' (M := M) (stop := stop) (Q := Q)
      (c := { c with builder := applyEv astBuilder c.builder (p.ev t), log := c.log ++ [p.ev t] }) h1 hQ hc with
      ⟨es, e1, e2⟩ | ⟨e, c', e1, e2, e3⟩ | ⟨es, c', e1, e2, e3⟩
    · rw [e1]
      simp only
      exact ih (c := { c with builder := applyEv astBuilder c.builder (p.ev t), log := c.log ++ [p.ev t], errors := es }) (a := a1)
        h2 ha2 e2 (ht.mono (pend_step ha1) (pend_step ha1))
    · rw [e1]; exact .single e2 e3
    · rw [e1]; exact .composite e2 e3

end

/-! ### Texts of tokens -/

theorem replaceGo_cases (old new : Str) : ∀ s : Str, replaceGo old new 0 s = s ∨ ∀ c ∈ new, c ∈ replaceGo old new 0 s := by
  intro s
  induction s with
  | nil => left; rfl
  | cons c cs ih =>
    simp only [replaceGo]
    split
    · right; intro x hx; simp [hx]
    · rcases ih with ih | ih
      · left; rw [ih]
      · right; intro x hx; simp [ih x hx]

/-- Unescaping keeps some character that is not white space. -/
theorem unescapeDoc_solid {a : Option Str} {s : Str} (h : ∃ c ∈ s, isSpace c = false) :
    ∃ c ∈ Classic.unescapeDoc a s, isSpace c = false := by
  have key : ∀ old new : Str, (∃ c ∈ new, isSpace c = false) → ∃ c ∈ replaceAll old new s, isSpace c = false := by
    intro old new ⟨x, hx, hs⟩
    rcases replaceGo_cases old new s with h' | h'
    · unfold replaceAll; rw [h']; exact h
    · exact ⟨x, h' x hx, hs⟩
  unfold Classic.unescapeDoc
  split
  · exact key _ _ ⟨'"', by decide, by decide⟩
  · split
    · exact key _ _ ⟨'`', by decide, by decide⟩
    · exact h

theorem rstripEol_solid {s : Str} (h : ∃ c ∈ s, isSpace c = false) : rstripEol s ≠ [] := by
  obtain ⟨c, c1, c2⟩ := h
  unfold rstripEol rstripBy
  intro h1
  rw [List.reverse_eq_nil_iff] at h1
  refine dropWhile_ne_nil (x := c) (by simpa using c1) ?_ h1
  cases hc : isEol c
  · rfl
  · exfalso
    simp only [isEol, Bool.or_eq_true, beq_iff_eq] at hc
    rcases hc with rfl | rfl <;> revert c2 <;> decide

theorem trimmed_solid {l : Line} (h : l.isBlank = false) : ∃ c ∈ l.trimmed, isSpace c = false := by
  obtain ⟨ws, a1, a2, a3, a4⟩ := trimmed_spec l
  cases ht : l.trimmed with
  | nil => simp [Line.isBlank, ht] at h
  | cons x xs =>
    refine ⟨x, by simp, ?_⟩
    have := a3
    rw [ht] at this
    exact this x rfl


theorem lineTextFrom_solid {l : Line} {n : Nat} (h : l.isBlank = false) : ∃ c ∈ l.lineTextFrom n, isSpace c = false := by
  obtain ⟨c, c1, c2⟩ := trimmed_solid h
  unfold Line.lineTextFrom
  split
  · exact ⟨c, c1, c2⟩
  · rename_i hn
    obtain ⟨ws, _, a2, _, a4⟩ := trimmed_spec l
    refine ⟨c, ?_, c2⟩
    rw [a2, List.drop_append]
    have : n - ws.length = 0 := by omega
    rw [this]
    simp [c1]

namespace Md

/-- A line that is not refused as an empty line is blank, so a refused one is not. -/
theorem empty_refused {t t' : Token} {m m' : MdState} (h : matchKind .empty t m = (.ok false, t', m')) : t.line.isBlank = false := by
  simp only [matchKind, matchEmpty] at h
  split at h
  · simp at h
  · rename_i found _ _ _
    split at h
    · simp at h
    · rename_i hb
      simp only [Bool.or_eq_true, not_or] at hb
      simpa using hb.1

theorem other_solid {t t' : Token} {m m' : MdState} (hb : t.line.isBlank = false) (h : matchKind .other t m = (.ok true, t', m')) :
    ∃ s, t'.text = some s ∧ s ≠ [] := by
  simp only [matchKind, matchOther, setMatched, Prod.mk.injEq] at h
  refine ⟨_, by rw [← h.2.1]; rfl, ?_⟩
  exact rstripEol_solid (unescapeDoc_solid (lineTextFrom_solid hb))

theorem other_some {t t' : Token} {m m' : MdState} (h : matchKind .other t m = (.ok true, t', m')) : t'.text.isSome = true := by
  simp only [matchKind, matchOther, setMatched, Prod.mk.injEq] at h
  rw [← h.2.1]; rfl

theorem sep_some {t t' : Token} {m m' : MdState} (h : matchKind .docStringSeparator t m = (.ok true, t', m')) : t'.text.isSome = true := by
  have key : ∀ s o, matchSep s o t m = (.ok true, t', m') → t'.text.isSome = true := by
    intro s o h
    unfold matchSep at h
    repeat' split at h
    all_goals simp only [setMatched, Prod.mk.injEq] at h
    · rw [← h.2.1]; rfl
    · rw [← h.2.1]; rfl
    · simp at h
  simp only [matchKind, matchDocSep] at h
  repeat' split at h
  all_goals exact key _ _ h

theorem row_some {t t' : Token} {m m' : MdState} (h : matchKind .tableRow t m = (.ok true, t', m')) :
    t'.loc = ⟨t.loc.line, some (t.line.indent + 1)⟩ ∧ firstIs '|' t.line = true ∧ t.line.tableCells = .ok t'.items := by
  simp only [matchKind, matchTableRow] at h
  split at h
  · rename_i hs
    simp only [Bool.and_eq_true] at hs
    have hf : firstIs '|' t.line = true := by
      have h1 := hs.2
      unfold Line.startsWith Line.trimmed at h1
      unfold firstIs
      cases hx : lstrip t.line.text with
      | nil => rw [hx] at h1; simp [Gherkin.startsWith] at h1
      | cons y ys => rw [hx] at h1; simp [Gherkin.startsWith] at h1; simp [← h1]
    have hne : t.line.isEof = false := by
      cases he : t.line.isEof with
      | false => rfl
      | true =>
        have : t.line.text = [] := by simpa [Line.isEof] using he
        rw [firstIs, this] at hf
        simp [lstrip, lstripBy] at hf
    split at h
    · rename_i cells hc
      split at h
      · simp at h
      · simp only [setMatched, Prod.mk.injEq, true_and, hne] at h
        refine ⟨?_, hf, ?_⟩
        · rw [← h.1]; rfl
        · rw [← h.1]; exact hc
    · simp at h
  · simp at h

end Md

/-! ### The states before the feature line -/

section
variable {σ ρ : Type} {B : Builder σ ρ} {stop : Bool}

/-- Whether the feature line has been seen, as far as the state says. -/
def Featured (q : Nat) (m : MdState) : Prop := (q ≤ 2 ∧ m.matchedFeature = false) ∨ (2 < q ∧ m.matchedFeature = true)

theorem mdTok_run {k : Kind} {t t1 : Token} {c : Ctx MdState σ} {m1 : MdState} {b : Bool} (he : t.eof = false)
    (h : Md.matchKind k t c.matcher = (.ok b, t1, m1)) : ∃ c1, matchTok ⟨markdown, B, stop⟩ k t c = (.ok b, t1, c1) ∧ c1.matcher = m1 := by
  unfold matchTok
  rw [if_neg (by simp [he])]
  simp only [markdown, h, handle]
  exact ⟨_, rfl, rfl⟩

theorem tryTrans_no {tr : Trans} {trs : List Trans} {t t1 : Token} {c c1 : Ctx MdState σ}
    (h : matchTok ⟨markdown, B, stop⟩ tr.kind t c = (.ok false, t1, c1)) :
    tryTrans ⟨markdown, B, stop⟩ (tr :: trs) t c = tryTrans ⟨markdown, B, stop⟩ trs t1 c1 := by
  rw [tryTrans]
  simp only [testTrans, h]

theorem tryTrans_yes {tr : Trans} {trs : List Trans} {t t1 : Token} {c c1 : Ctx MdState σ} (hla : tr.la = none)
    (h : matchTok ⟨markdown, B, stop⟩ tr.kind t c = (.ok true, t1, c1)) :
    (tryTrans ⟨markdown, B, stop⟩ (tr :: trs) t c).1 ≠ .ok none ∧
    ∀ q t' c', tryTrans ⟨markdown, B, stop⟩ (tr :: trs) t c = (.ok (some q), t', c') → q = tr.target ∧ c'.matcher = c1.matcher := by
  rw [tryTrans]
  simp only [testTrans, h, hla]
  have hf := (runProds_frame (cfg := ⟨markdown, B, stop⟩) tr.prods t1 c1).2.2
  rcases hr : runProds ⟨markdown, B, stop⟩ tr.prods t1 c1 with ⟨r, c2⟩
  rw [hr] at hf
  rcases r with x | u
  · exact ⟨by simp, by simp⟩
  · refine ⟨by simp, fun q t' c' h => ?_⟩
    simp only [Prod.mk.injEq, Except.ok.injEq, Option.some.injEq] at h
    obtain ⟨rfl, rfl, rfl⟩ := h
    exact ⟨rfl, hf⟩

theorem md_tagFeature {p1 p2 : List Prod} {trs : List Trans} {t : Token} {c : Ctx MdState σ} (he : t.eof = false)
    (hm : c.matcher.matchedFeature = false) :
    (tryTrans ⟨markdown, B, stop⟩ (⟨.tagLine, none, p1, 2⟩ :: ⟨.featureLine, none, p2, 3⟩ :: trs) t c).1 ≠ .ok none ∧
    ∀ q t' c', tryTrans ⟨markdown, B, stop⟩ (⟨.tagLine, none, p1, 2⟩ :: ⟨.featureLine, none, p2, 3⟩ :: trs) t c = (.ok (some q), t', c') →
      Featured q c'.matcher := by
  have htag := Md.tag_state t c.matcher
  have hline := markdown_lawful.line .tagLine t c.matcher
  simp only [markdown] at hline
  rcases hx : Md.matchKind .tagLine t c.matcher with ⟨r, t1, m1⟩
  rw [show Md.matchTagLine t c.matcher = (r, t1, m1) from hx] at htag
  rw [hx] at hline
  simp only at htag hline
  obtain ⟨rfl, rfl⟩ := htag
  obtain ⟨c1, h1, h2⟩ := mdTok_run (B := B) (stop := stop) he hx
  cases hb : !(Md.findTags t.line.lineText 0 0).isEmpty with
  | true =>
    rw [hb] at h1
    obtain ⟨a1, a2⟩ := tryTrans_yes (tr := ⟨.tagLine, none, p1, 2⟩) (trs := ⟨.featureLine, none, p2, 3⟩ :: trs) rfl h1
    refine ⟨a1, fun q t' c' h => ?_⟩
    obtain ⟨rfl, h3⟩ := a2 q t' c' h
    exact .inl ⟨by simp, by rw [h3, h2]; exact hm⟩
  | false =>
    rw [hb] at h1
    rw [tryTrans_no (tr := ⟨.tagLine, none, p1, 2⟩) h1]
    have hf : ∃ t2 m2, Md.matchKind .featureLine t1 c1.matcher = (.ok true, t2, m2) ∧ m2.matchedFeature = true := by
      simp only [Md.matchKind, Md.matchFeature]
      rw [if_neg (by rw [h2, hm]; simp)]
      split
      · exact ⟨_, _, rfl, rfl⟩
      · exact ⟨_, _, rfl, rfl⟩
    obtain ⟨t2, m2, hf, hf2⟩ := hf
    obtain ⟨c2, h3, h4⟩ := mdTok_run (B := B) (stop := stop) (t := t1) (by rw [Token.eof, hline]; exact he) hf
    obtain ⟨a1, a2⟩ := tryTrans_yes (tr := ⟨.featureLine, none, p2, 3⟩) (trs := trs) rfl h3
    refine ⟨a1, fun q t' c' h => ?_⟩
    obtain ⟨rfl, h5⟩ := a2 q t' c' h
    exact .inr ⟨by simp, by rw [h5, h4]; exact hf2⟩

/-- Before the feature line every line is taken. -/
theorem md_first {q : Nat} (hq : q ≤ 2) {t : Token} {c : Ctx MdState σ} (he : t.eof = false) (hm : c.matcher.matchedFeature = false) :
    ∃ row, table q = some row ∧ (tryTrans ⟨markdown, B, stop⟩ row.trans t c).1 ≠ .ok none ∧
    ∀ q' c', matchToken ⟨markdown, B, stop⟩ q t c = (.ok q', c') → Featured q' c'.matcher := by
  have key : ∀ row, table q = some row → ((tryTrans ⟨markdown, B, stop⟩ row.trans t c).1 ≠ .ok none ∧
      ∀ q t' c', tryTrans ⟨markdown, B, stop⟩ row.trans t c = (.ok (some q), t', c') → Featured q c'.matcher) →
      ∃ row, table q = some row ∧ (tryTrans ⟨markdown, B, stop⟩ row.trans t c).1 ≠ .ok none ∧
        ∀ q' c', matchToken ⟨markdown, B, stop⟩ q t c = (.ok q', c') → Featured q' c'.matcher := by
    rintro row hrow ⟨h1, h2⟩
    refine ⟨row, hrow, h1, fun q' c' h => ?_⟩
    simp only [matchToken, hrow] at h
    rcases hx : tryTrans ⟨markdown, B, stop⟩ row.trans t c with ⟨r, t', c1⟩
    rw [hx] at h h1 h2
    rcases r with x | _ | q1
    · simp at h
    · exact absurd rfl h1
    · simp only [Prod.mk.injEq, Except.ok.injEq] at h
      obtain ⟨rfl, rfl⟩ := h
      exact h2 _ _ _ rfl
  match q, hq with
  | 0, _ =>
    refine key _ rfl ?_
    obtain ⟨c1, h1, h2⟩ := mdTok_run (B := B) (stop := stop) (k := .eof) (t := t) (c := c) (t1 := t) (m1 := c.matcher) (b := false) he
      (by simp [Md.matchKind, Md.matchEof, he])
    obtain ⟨c2, h3, h4⟩ := mdTok_run (B := B) (stop := stop) (k := .language) (t := t) (c := c1) (t1 := t) (m1 := c1.matcher) (b := false) he
      (by simp [Md.matchKind, Md.matchLanguage])
    rw [state0]
    simp only
    rw [tryTrans_no h1, tryTrans_no h3]
    exact md_tagFeature he (by rw [h4, h2]; exact hm)
  | 1, _ => exact key _ rfl (md_tagFeature he hm)
  | 2, _ => exact key _ rfl (md_tagFeature he hm)

end

/-! ### The main loop -/

/-- The errors on record. -/
def MdQ (d : Dialect) (text : Str) (e : Err) : Prop := e.aliasOf = none ∧ MdErrorAt d text e

theorem rowErr_md {d : Dialect} {text : Str} {e : Err} (h : RowErr (PAt text) e) : MdQ d text e := by
  obtain ⟨t, t0, h1, h2, h3, h4, h5, rfl⟩ := h
  obtain ⟨l, k1, k2, k3, k4⟩ := h1 h2
  obtain ⟨l0, j1, j2, j3, j4⟩ := h3 h4
  refine ⟨by simp [Err.mkAst], ?_⟩
  simp only [MdErrorAt, Err.mkAst]
  rw [k2]
  refine ⟨l, k1, by rw [firstColumn_eq], k3, ⟨l0, j1, j3, _, _, k4, j4, h5⟩, ?_⟩
  rw [firstColumn_eq, posText_eq]

/-- Every state refuses some line only after it refused it as an empty line, or takes any line. -/
def emptyOrOther (q : Nat) : Bool :=
  match table q with
  | some row => row.trans.any fun tr => tr.la == none && (tr.kind == .empty || tr.kind == .other)
  | none => true

theorem rows_emptyOrOther : ∀ q ∈ allStates, emptyOrOther q = true := by decide +kernel

/-- After the feature line no state expects a feature line or leads back. -/
def afterFeature (q : Nat) : Bool :=
  match table q with
  | some row => q ≤ 2 || (!row.expected.contains .featureLine && row.trans.all fun tr => decide (2 < tr.target))
  | none => true

theorem rows_afterFeature : ∀ q ∈ allStates, afterFeature q = true := by decide +kernel

theorem after_row {q : Nat} {row : StateRow} (h : table q = some row) (h2 : 2 < q) :
    .featureLine ∉ row.expected ∧ ∀ tr ∈ row.trans, 2 < tr.target := by
  have := rows_afterFeature q (mem_allStates h)
  unfold afterFeature at this
  rw [h] at this
  simp only [Bool.or_eq_true, decide_eq_true_eq, Bool.and_eq_true, Bool.not_eq_true', List.all_eq_true] at this
  rcases this with h' | ⟨h3, h4⟩
  · omega
  · exact ⟨by simpa using h3, h4⟩

/-- What can come out of the Markdown parser. -/
inductive MdOut (d : Dialect) (text : Str) (stop : Bool) {α : Type} : Except Exc α → Prop
  | ok {a} : MdOut d text stop (.ok a)
  | crash {x} : RowCrash text x → MdOut d text stop (.error x)
  | single {e} : stop = true → MdQ d text e → MdOut d text stop (.error (.single e))
  | composite {es} : (∀ e ∈ es, MdQ d text e) → MdOut d text stop (.error (.composite es))

section
variable {stop : Bool} {text lang : Str} {d : Dialect}

structure MdLoop (lang : Str) (d : Dialect) (text : Str) (q : Nat) (c : Ctx MdState BState) : Prop where
  fenced : Md.Fenced lang d c.matcher
  stack : StackOk (PAt text) (absAt q) c.builder.stack
  errors : ∀ e ∈ c.errors, MdQ d text e

theorem md_unexpected {q : Nat} {row : StateRow} (hrow : table q = some row) {t t' : Token} (ht : TokSrc text t) (hl : t'.line = t.line)
    (hll : t'.loc.line = t.loc.line)
    (hfe : t.eof = false → 2 < q)
    (hp : ∀ tr ∈ row.trans, tr.la = none → ∃ (t0 t1 : Token) (c0 c1 : Ctx MdState BState), t0.line = t.line ∧
      (t.eof = false → Md.After lang d c0.matcher) ∧
      matchTok ⟨markdown, astBuilder, stop⟩ tr.kind t0 c0 = (.ok false, t1, c1)) :
    MdQ d text (unexpected row.expected t') := by
  obtain ⟨x1, x2⟩ := expected_row hrow
  have hte : t'.eof = t.eof := by rw [Token.eof, Token.eof, hl]
  unfold unexpected
  rw [hte]
  cases he : t.eof with
  | true =>
    simp only [if_true]
    have hle := mem_eof ht.1 (by simpa [Token.eof] using he)
    have hn : t'.loc.line = (sourceLines text).length + 1 := by
      rw [hll, ht.2, hle]; simp [sourceLines, eofLine]
    refine ⟨rfl, ?_⟩
    simp only [MdErrorAt, Err.mkUnexpectedEof]
    refine ⟨hn, x1, ?_, ?_⟩
    · intro hk
      obtain ⟨tr, y1, y2, y3⟩ := x2 _ hk
      obtain ⟨t0, t1, c0, c1, z1, zA, z2⟩ := hp tr y1 y3
      rw [y2] at z2
      obtain ⟨_, _, h | h⟩ := mdTok_ok z2
      · exact absurd rfl h.1
      · simp only [Md.matchKind, Md.matchEof] at h
        have : t0.eof = true := by simpa [Token.eof, z1] using he
        rw [if_pos this] at h
        simp at h
    · rw [List.append_assoc, ← hn]
      rcases t'.loc with ⟨n, c⟩
      cases c <;> rfl
  | false =>
    simp only [Bool.false_eq_true, if_false]
    have hle : t.line.isEof = false := by simpa [Token.eof] using he
    have hval : strip t'.value = strip t.line.text := by
      have : t'.eof = false := by rw [hte, he]
      simp [Token.value, this, hl, Line.lineText, Line.trimmed, strip, lstrip_lstrip]
    have hblank : t.line.isBlank = false := by
      have := rows_emptyOrOther q (mem_allStates hrow)
      unfold emptyOrOther at this
      rw [hrow] at this
      simp only [List.any_eq_true, Bool.and_eq_true, Bool.or_eq_true, beq_iff_eq] at this
      obtain ⟨tr, y1, y2, y3⟩ := this
      obtain ⟨t0, t1, c0, c1, z1, zA, z2⟩ := hp tr y1 y2
      have hne : t0.eof = false := by simpa [Token.eof, z1] using he
      obtain ⟨_, _, h | h⟩ := mdTok_ok z2
      · rw [hne] at h; simp at h
      · rcases y3 with y3 | y3
        · rw [y3] at h; rw [← z1]; exact Md.empty_refused h
        · rw [y3] at h; simp [Md.matchKind, Md.matchOther] at h
    have hgot : strip t.line.text ≠ [] := by
      intro h0
      obtain ⟨c, c1, c2⟩ := trimmed_solid hblank
      have h0' : (rstripBy isSpace t.line.trimmed) = [] := h0
      unfold rstripBy at h0'
      rw [List.reverse_eq_nil_iff] at h0'
      exact dropWhile_ne_nil (x := c) (by simpa using c1) c2 h0'
    have hno : ∀ f, Markdown.HasForm d t.line.text f → f.called ∉ row.expected := by
      intro f hf hk
      obtain ⟨tr, y1, y2, y3⟩ := x2 _ hk
      obtain ⟨t0, t1, c0, c1, z1, zA, z2⟩ := hp tr y1 y3
      rw [y2] at z2
      have hne : t0.eof = false := by simpa [Token.eof, z1] using he
      obtain ⟨_, _, h | h⟩ := mdTok_ok z2
      · rw [hne] at h; simp at h
      · exact refused_noForm (zA he).1.1 h (by rw [z1]; exact hf)
    have hgh : GherkinLine d t.line.text := by
      have := rows_emptyOrOther q (mem_allStates hrow)
      unfold emptyOrOther at this
      rw [hrow] at this
      simp only [List.any_eq_true, Bool.and_eq_true, Bool.or_eq_true, beq_iff_eq] at this
      obtain ⟨tr, y1, y2, y3⟩ := this
      obtain ⟨t0, t1, c0, c1, z1, zA, z2⟩ := hp tr y1 y2
      have hne : t0.eof = false := by simpa [Token.eof, z1] using he
      obtain ⟨_, _, h | h⟩ := mdTok_ok z2
      · rw [hne] at h; simp at h
      · rcases y3 with y3 | y3
        · rw [y3] at h; rw [← z1]; exact refused_gherkin (zA he) hne h
        · rw [y3] at h; simp [Md.matchKind, Md.matchOther] at h
    have hff := (after_row hrow (hfe he)).1
    refine ⟨rfl, ?_⟩
    simp only [MdErrorAt, Err.mkUnexpectedToken, hval]
    have hmem := mem_source ht.1 hle
    have hn : t'.loc.line = t.line.number := by rw [hll, ht.2]
    split
    · rename_i c hc
      refine ⟨t.line, hmem, c + 1, by rw [hn], by omega, rfl, hgot, x1, hgh, hno, hff, ?_⟩
      rw [posText_eq, kindsText_eq, hn]; simp only [List.append_assoc]
    · refine ⟨t.line, hmem, t'.line.indent + 1, by rw [hn], by omega, rfl, hgot, x1, hgh, hno, hff, ?_⟩
      rw [posText_eq, kindsText_eq, hn]; simp only [List.append_assoc]

theorem md_round {q : Nat} (hq : q ∈ allStates) {t : Token} {c : Ctx MdState BState} (ht : TokSrc text t) (hw : TokW text t)
    (hcw : CtxW text c) (hc : MdLoop lang d text q c) (hF : Featured q c.matcher) :
    (∀ q' c', matchToken ⟨markdown, astBuilder, stop⟩ q t c = (.ok q', c') →
      MdLoop lang d text q' c' ∧ q' ∈ 42 :: allStates ∧ (q' ∉ allStates → t.eof = true) ∧ CtxW text c' ∧ (SrcInv text [] c → SrcInv text [] c') ∧
      (t.eof = false → Featured q' c'.matcher)) ∧
    (∀ x c', matchToken ⟨markdown, astBuilder, stop⟩ q t c = (.error x, c') → MdOut d text stop (.error x : Except Exc Unit)) := by
  have hT := targets_ok q hq
  have hA := rows_okT q (by simp [hq])
  unfold targetsOk at hT
  unfold rowOkT at hA
  have hal : ∀ e ∈ c.errors, e.aliasOf = none := fun e he => (hc.errors e he).1
  have h := matchToken_casesT markdown_lawful (closed_md (B := astBuilder) (stop := stop) text) q t hw c
  rcases hm : matchToken ⟨markdown, astBuilder, stop⟩ q t c with ⟨r, c'⟩
  rw [hm] at h
  simp only at h
  cases h with
  | noState h => rw [h] at hT; simp at hT
  | matchExc h1 h2 =>
    refine ⟨by simp, fun x c'' h => ?_⟩
    cases h
    exact .crash (h2 hcw)
  | @unexpected row t' c1 _ _ h1 hnone h2 h3 h4 h5 h6 =>
    have hafter : t.eof = false → 2 < q := by
      intro he
      rcases hF with ⟨hF1, hF2⟩ | ⟨hF1, hF2⟩
      · obtain ⟨row', r1, r2, _⟩ := md_first (B := astBuilder) (stop := stop) hF1 he hF2
        rw [h1] at r1
        cases r1
        exact absurd hnone r2
      · exact hF1
    have hmf : t.eof = false → Md.After lang d c.matcher := by
      intro he
      refine ⟨hc.fenced, ?_⟩
      rcases hF with ⟨hF1, hF2⟩ | ⟨hF1, hF2⟩
      · have := hafter he; omega
      · exact hF2
    have hQ : MdQ d text (unexpected row.expected t') := md_unexpected (stop := stop) (lang := lang) h1 ht h3 h4 hafter (fun tr y1 y2 => by
      obtain ⟨t0, t1, c0, c1, z0, z1, z2⟩ := h5 tr y1 y2
      exact ⟨t0, t1, c0, c1, z1, fun he => z0.keep _ Md.after_keep (hmf he), z2⟩)
    rw [h1] at hA
    simp only [List.all_eq_true, Bool.and_eq_true, beq_iff_eq] at hA
    have hstay := hA.2.1
    have hes := h2.errors hal
    have hc1 : ∀ e ∈ c1.errors, MdQ d text e := by rw [hes]; exact hc.errors
    rcases h6 with ⟨hs, rfl, rfl⟩ | ⟨hs, rfl, ha⟩ | ⟨hs, x, rfl, ha⟩
    · refine ⟨by simp, fun x c'' h => ?_⟩
      cases h
      exact .single hs hQ
    · refine ⟨fun q' c'' h => ?_, by simp⟩
      cases h
      obtain ⟨es, e1, e2 | e2⟩ := addError_all' hQ hc1
      · rw [ha] at e2
        simp only [Prod.mk.injEq, true_and] at e2
        subst e2
        rw [hstay]
        refine ⟨⟨h2.keep _ fenced_keep hc.fenced, by simp only; rw [h2.builder]; exact hc.stack, e1⟩, by simp [hq], fun h => absurd hq h,
          (h2.w hcw).congr rfl rfl, fun hs => (h2.src hs).congr rfl rfl, fun he => .inr ⟨hafter he, (h2.keep _ Md.after_keep (hmf he)).2⟩⟩
      · rw [ha] at e2; simp at e2
    · refine ⟨by simp, fun y c'' h => ?_⟩
      cases h
      obtain ⟨es, e1, e2 | e2⟩ := addError_all' hQ hc1
      · rw [ha] at e2; simp at e2
      · rw [ha] at e2
        simp only [Prod.mk.injEq, Except.error.injEq] at e2
        rw [e2.1]
        exact .composite e1
  | @taken row pre tr post t0 t' c0 c1 c2 _ _ h1 h2 hj0 hj1 h4 h5 h6 h7 h8 h9 hj2 h11 h12 =>
    rw [h1] at hT hA
    simp only [List.all_eq_true, Bool.and_eq_true] at hT hA
    obtain ⟨_, hstay, hA⟩ := hA
    have htr : tr ∈ row.trans := by rw [h2]; simp
    obtain ⟨⟨hdesc, hsep⟩, habs⟩ := hA tr htr
    have hTt := hT tr htr
    have htype : t'.type = some tr.kind := matchTok_true_type markdown_lawful h7
    have hkeof : tr.kind = .eof ↔ t.eof = true := by
      have := matchTok_true_eof markdown_lawful h7
      rw [this]; simp [Token.eof, h4]
    have hmk : Md.matchKind tr.kind t0 c0.matcher = (.ok true, t', c1.matcher) := by
      obtain ⟨_, _, h | h⟩ := mdTok_ok h7
      · simp at h
      · exact h
    cases hab : absRun tr.kind tr.prods (absAt q) with
    | none => rw [hab] at habs; simp at habs
    | some a' =>
      rw [hab] at habs
      simp only at habs
      have hdp := docPending (q := q) (by simp [hq])
      have htok : TokOk (PAt text) tr.kind t' ((absAt q).pend .description tr.prods) ((absAt q).pend .docString tr.prods) := by
        refine ⟨htype, ?_, ?_, ?_, ?_⟩
        · intro hk
          rw [htype] at hk
          simp only [Option.some.injEq] at hk
          have hmk' := hmk
          rw [hk] at hmk'
          obtain ⟨r1, r2, r3⟩ := Md.row_some hmk'
          have hne : t.line.isEof = false := by
            cases he : t.line.isEof with
            | false => rfl
            | true => have := hkeof.2 (by simpa [Token.eof] using he); rw [hk] at this; simp at this
          rw [h4] at r1 r2 r3
          refine ⟨t.line, mem_source ht.1 hne, ?_, r2, r3⟩
          have hn : t'.loc.line = t.line.number := h6.trans ht.2
          rw [r1] at hn
          rw [r1]
          simp only at hn
          rw [hn]
        · intro hk; rw [hk] at hmk; exact Md.other_some hmk
        · intro hk hd
          simp only [AStack.pend, hdp.1, Bool.false_or] at hd
          rw [hd] at hdesc
          simp only [Bool.not_true, Bool.false_or, Bool.and_eq_true, beq_iff_eq, List.all_eq_true, List.any_eq_true] at hdesc
          obtain ⟨⟨_, hlast⟩, x, x1, x2, x3⟩ := hdesc
          have hpost : post = [] := by
            by_cases hp : post = []
            · exact hp
            · exfalso
              have := hlast tr (by rw [h2]; exact dropLast_mem hp)
              rw [hk] at this; simp at this
          subst hpost
          have hxp : x ∈ pre := by
            rw [h2] at x1
            rcases List.mem_append.1 x1 with h | h
            · exact h
            · simp at h; subst h; rw [hk] at x2; simp at x2
          obtain ⟨u0, u1, d0, d1, _, z1, z2⟩ := h11 x hxp x3
          have hne : t.eof = false := by
            cases he : t.eof with
            | false => rfl
            | true => have := hkeof.2 he; rw [hk] at this; simp at this
          rw [x2] at z2
          have hb : t.line.isBlank = false := by
            obtain ⟨_, _, h | h⟩ := mdTok_ok z2
            · have : u0.eof = false := by simpa [Token.eof, z1] using hne
              rw [this] at h; simp at h
            · rw [← z1]; exact Md.empty_refused h
          rw [hk] at hmk
          exact Md.other_solid (by rw [h4]; exact hb) hmk
        · intro hk _; rw [hk] at hmk; exact Md.sep_some hmk
      have hes := hj2.errors hal
      have hrun := runProds_out (M := markdown) (stop := stop) (k := tr.kind) (t := t') (fun e => rowErr_md (d := d) (text := text) (e := e)) (c := c2)
        (by rw [hj2.builder]; exact hc.stack) hab (by rw [hes]; exact hc.errors) htok
      have hq' : tr.target ∈ 42 :: allStates ∧ (tr.target ∉ allStates → t.eof = true) := by
        simp only [Bool.or_eq_true, Bool.and_eq_true, beq_iff_eq, List.contains_iff_mem] at hTt
        rcases hTt with h | ⟨h, hk⟩
        · exact ⟨by simp [h], fun h' => absurd h h'⟩
        · exact ⟨by simp [h], fun _ => hkeof.1 hk⟩
      have pf := runProds_frame (cfg := ⟨markdown, astBuilder, stop⟩) tr.prods t' c2
      rcases h12 with ⟨rfl, hp⟩ | ⟨x, rfl, hp⟩
      · rw [hp] at hrun pf
        refine ⟨fun q' c'' h => ?_, by simp⟩
        cases h
        cases hrun with
        | ok k1 k2 =>
          refine ⟨⟨by rw [pf.2.2]; exact hj2.keep _ fenced_keep hc.fenced, k1.weaken habs (docPending hq'.1).2.1, k2⟩, hq'.1, hq'.2,
            (hj2.w hcw).congr pf.1 pf.2.1, fun hs => (hj2.src hs).congr pf.1 pf.2.1, fun he => ?_⟩
          rcases hF with ⟨hF1, hF2⟩ | ⟨hF1, hF2⟩
          · obtain ⟨_, _, _, r3⟩ := md_first (B := astBuilder) (stop := stop) hF1 he hF2
            exact r3 _ _ hm
          · refine .inr ⟨(after_row h1 hF1).2 tr htr, ?_⟩
            rw [pf.2.2]
            exact (hj2.keep _ Md.after_keep ⟨hc.fenced, hF2⟩).2
      · rw [hp] at hrun
        refine ⟨by simp, fun y c'' h => ?_⟩
        cases h
        cases hrun with
        | single k1 k2 => exact .single k1 k2
        | composite k1 k2 => exact .composite k2


theorem md_rounds {c : Ctx MdState BState} (hc : MdLoop lang d text 0 c) (hF : c.matcher.matchedFeature = false) (hw : CtxW text c) (hs : SrcInv text [] c) (fuel : Nat) :
    (∀ c', parseLoop ⟨markdown, astBuilder, stop⟩ fuel 0 c = (.ok (), c') → ∃ q, q ∈ 42 :: allStates ∧ MdLoop lang d text q c') ∧
    (∀ x c', parseLoop ⟨markdown, astBuilder, stop⟩ fuel 0 c = (.error x, c') → x ≠ .outOfFuel → MdOut d text stop (.error x : Except Exc Unit)) := by
  refine parseLoop_ind (cfg := ⟨markdown, astBuilder, stop⟩)
    (I := fun q c => q ∈ allStates ∧ MdLoop lang d text q c ∧ CtxW text c ∧ SrcInv text [] c ∧ Featured q c.matcher)
    (F := fun q c => q ∈ 42 :: allStates ∧ MdLoop lang d text q c) (Q := fun x _ => MdOut d text stop (.error x : Except Exc Unit)) ?_
    fuel 0 c ⟨by decide, hc, hw, hs, .inl ⟨by simp, hF⟩⟩
  rintro q c t c1 ⟨hq, hI, hw, hs, hF⟩ hr
  obtain ⟨ht, hs1⟩ := readToken_src (extra := []) (by simp) hs hr
  obtain ⟨htw, hw1⟩ := readToken_W hw hr
  have hc1 : c1.builder = c.builder ∧ c1.matcher = c.matcher ∧ c1.errors = c.errors := by
    rcases readToken_cases c with ⟨t', q, hq, hc⟩ | ⟨l, ls, hq, hl, hc⟩ | ⟨hq, hl, hc⟩ <;>
      (rw [hr] at hc; cases hc; exact ⟨rfl, rfl, rfl⟩)
  have hst := md_round (stop := stop) hq (c := { c1 with log := c1.log ++ [.take t.line] }) ht htw (hw1.congr rfl rfl)
    ⟨by simp only; rw [hc1.2.1]; exact hI.fenced, by simp only; rw [hc1.1]; exact hI.stack, by simp only; rw [hc1.2.2]; exact hI.errors⟩
    (by simp only; rw [hc1.2.1]; exact hF)
  refine ⟨fun q' c' hm => ?_, fun x c' hm => hst.2 x c' hm⟩
  obtain ⟨a1, a2, a3, a4, a5, a6⟩ := hst.1 q' c' hm
  refine ⟨fun _ => ⟨a2, a1⟩, fun he => ⟨?_, a1, a4, a5 ?_, a6 he⟩⟩
  · by_cases h : q' ∈ allStates
    · exact h
    · have := a3 h; rw [he] at this; simp at this
  · refine ⟨fun u hu => hs1.queue u (by simpa using .inr hu), ?_⟩
    rcases hs1.scanner with h | ⟨h, u, hu, hu'⟩
    · exact .inl h
    · refine .inr ⟨h, u, ?_, hu'⟩
      simp at hu ⊢
      rcases hu with rfl | hu
      · rw [he] at hu'; simp at hu'
      · exact hu

/-- Every outcome of the Markdown parser. -/
theorem md_parse_out (stop : Bool) (text : Str) (m : MdState) (hm : Md.Fenced lang d (Md.reset m)) (b : BState) :
    MdOut d text stop (parse ⟨markdown, astBuilder, stop⟩ text m b).1 := by
  have hnf := parse_ne_fuel (cfg := ⟨markdown, astBuilder, stop⟩) markdown_lawful text m b
  unfold parse at hnf ⊢
  rw [runProd_eq] at hnf ⊢
  simp only [Prod.ev, evAnswer, applyEv, astBuilder, AstB.startRule, handle] at hnf ⊢
  generalize hc0 : ({ scanner := _, matcher := _, queue := _, errors := _, builder := _, log := _ } : Ctx MdState BState) = c0 at hnf ⊢
  have h0 : MdLoop lang d text 0 c0 := by
    subst hc0
    refine ⟨hm, ?_, by simp [Ctx.init]⟩
    exact .cons ⟨by simp, by simp, by simp⟩ (.cons ⟨by simp, by simp, by simp⟩ .nil)
  have hw : CtxW text c0 := by
    subst hc0
    exact ⟨by simp [Ctx.init], by simp [Ctx.init, Scanner.ofStr]⟩
  have hs : SrcInv text [] c0 := by
    subst hc0
    exact ⟨by simp [Ctx.init], .inl (by simp [Ctx.init, Scanner.ofStr])⟩
  generalize (Ctx.init _ text m b).scanner.lines.length + 1 = fuel at hnf ⊢
  have hF : c0.matcher.matchedFeature = false := by
    subst hc0; rfl
  have hl := md_rounds (stop := stop) h0 hF hw hs fuel
  simp only [astBuilder] at hl
  rcases hx : parseLoop (⟨markdown, astBuilder, stop⟩ : Config MdState BState _) fuel 0 c0 with ⟨r, c1⟩
  simp only [astBuilder] at hx
  rw [hx] at hl hnf ⊢
  rcases r with x | u
  · have := hl.2 x c1 rfl (by rintro rfl; simp at hnf)
    cases this with
    | crash h => exact .crash h
    | single h h' => exact .single h h'
    | composite h => exact .composite h
  · obtain ⟨q, hq, hloop⟩ := hl.1 c1 rfl
    simp only at hnf ⊢
    have hc := close_ok (P := PAt text) hloop.stack (docPending hq).2.2
    rw [runProd_eq] at hnf ⊢
    simp only [Prod.ev, evAnswer, applyEv] at hnf ⊢
    generalize hc1 : ({ c1 with builder := _, log := _ } : Ctx MdState BState) = c2 at hnf ⊢
    have hc1e : c2.errors = c1.errors := by rw [← hc1]
    have hc1b : c2.builder = (AstB.endRule .gherkinDocument c1.builder).2 := by rw [← hc1]
    have hh := handle_out' (M := markdown) (stop := stop) (c := c2) hc.1 (fun e => rowErr_md (d := d) (text := text) (e := e)) (by rw [hc1e]; exact hloop.errors)
    simp only [astBuilder] at hh
    rcases hh with ⟨es, e1, e2⟩ | ⟨e, c3, e1, e2, e3⟩ | ⟨es, c3, e1, e2, e3⟩
    · rw [e1]
      simp only
      split
      · rename_i hne
        exact .composite e2
      · simp only [AstB.result]
        split
        · exact .ok
        · rename_i k hk
          exfalso
          split at hk
          · rename_i hn; rw [← hc1b] at hc; exact hc.2 hn
          · split at hk <;> simp at hk
        · rename_i e hk
          split at hk
          · simp at hk
          · split at hk <;> simp at hk
    · rw [e1]; exact .single e2 e3
    · rw [e1]; exact .composite e3

end

end Gherkin
