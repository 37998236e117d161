import Verif.Proofs.LayTags
import Verif.Proofs.LayFile
import Verif.Proofs.Noise
import Verif.Spec.FirstError

/-! Where the parser stops at a syntax error: the run up to there, and what it depends on. -/

namespace Gherkin

open Auto

/-- A builder whose own complaints are of a kind of their own. -/
structure Builder.Apart {σ ρ : Type} (B : Builder σ ρ) : Prop where
  ev : ∀ b ev e, evAnswer B b ev = .error (.parser e) → e.kind = .astBuilder
  res : ∀ b e, B.result b ≠ .error (.parser e)

theorem not_unexpected {e : Err} (h : e.kind = .astBuilder ∨ ∃ n, e.kind = .noSuchLanguage n) : ¬ e.Unexpected := by
  rintro (⟨_, _, h'⟩ | ⟨_, h'⟩) <;> rcases h with h | ⟨n, h⟩ <;> rw [h'] at h <;> simp at h

theorem match_err_kind {k : Kind} {t : Token} {m : CState} {e : Err} (h : (Classic.matchKind k t m).1 = .error (.parser e)) :
    ∃ n, e.kind = .noSuchLanguage n := by
  by_cases hk : k = .language
  · subst hk
    revert h
    simp only [Classic.matchKind, Classic.matchLanguage]
    split
    · simp
    · split
      · simp
      · intro h; simp only [Except.error.injEq, MExc.parser.injEq] at h; rw [← h]; exact ⟨_, rfl⟩
  · exact absurd h (Classic.matchKind_noparser hk t m e)

section
variable {σ ρ : Type} {B : Builder σ ρ}

theorem runProds_stop (hB : B.Apart) {t : Token} : ∀ {ps : List Prod} {c c' : Ctx CState σ} {r : Except Exc Unit},
    runProds (classicCfg B true) ps t c = (r, c') → (r = .ok () → c'.errors = c.errors) ∧ ∀ e, r = .error (.single e) → ¬ e.Unexpected := by
  intro ps
  induction ps with
  | nil => intro c c' r h; simp [runProds] at h; obtain ⟨rfl, rfl⟩ := h; simp
  | cons p ps ih =>
    intro c c' r h
    simp only [runProds, runProd_eq] at h
    cases ha : evAnswer B c.builder (p.ev t) with
    | ok u =>
      rw [show evAnswer (classicCfg B true).builder c.builder (p.ev t) = .ok u from ha] at h
      simp only [handle] at h
      have := ih h
      exact this
    | error x =>
      rw [show evAnswer (classicCfg B true).builder c.builder (p.ev t) = .error x from ha] at h
      cases x with
      | crash k => simp only [handle, Prod.mk.injEq] at h; obtain ⟨rfl, rfl⟩ := h; simp
      | parser e =>
        simp only [handle, if_true, Prod.mk.injEq] at h
        obtain ⟨rfl, rfl⟩ := h
        refine ⟨by simp, ?_⟩
        rintro e' h; cases h
        exact not_unexpected (.inl (hB.ev _ _ _ ha))

theorem tag_keeps {l : Line} {m m' : CState} {t : Token} {b : Bool} (h : Classic.matchKind .tagLine (Token.fresh l) m = (.ok b, t, m')) : m' = m := by
  revert h
  simp only [Classic.matchKind, Classic.matchTagLine]
  split
  · split <;> (intro h; simp only [Prod.mk.injEq] at h; exact h.2.2.symm)
  · intro h; simp only [Prod.mk.injEq] at h; exact h.2.2.symm

/-- What the attempts of one state come to in stop mode. -/
theorem try_stop (hB : B.Apart) {rest : List Line} {l : Line} : ∀ {rows : List Trans} {t t' : Token} {c c' : Ctx CState σ}
    {r : Except Exc (Option Nat)}, t.Of l → c.errors = [] → laOnTags rows = true →
    Pure.try_ (classicCfg B true) rows t rest c = (r, t', c') →
    (r = .ok none → t'.Of l ∧ ∀ tr ∈ rows, Passed l rest c.matcher tr) ∧ (∀ q, r = .ok (some q) → c'.errors = []) ∧
      ∀ e, r = .error (.single e) → ¬ e.Unexpected := by
  intro rows
  induction rows with
  | nil => intro t t' c c' r ht hc _ h; simp [Pure.try_] at h; obtain ⟨rfl, rfl, rfl⟩ := h; simp [ht]
  | cons tr trs ih =>
    intro t t' c c' r ht hc hla h
    simp only [laOnTags, List.all_cons, Bool.and_eq_true] at hla
    simp only [Pure.try_, Pure.test, matchTok_clean tr.kind ht hc] at h
    have lift : ∀ {t1 : Token} {c1 : Ctx CState σ}, t1.Of l → c1.errors = [] → c1.matcher = c.matcher → Passed l rest c.matcher tr →
        Pure.try_ (classicCfg B true) trs t1 rest c1 = (r, t', c') →
        (r = .ok none → t'.Of l ∧ ∀ tr' ∈ tr :: trs, Passed l rest c.matcher tr') ∧ (∀ q, r = .ok (some q) → c'.errors = []) ∧
          ∀ e, r = .error (.single e) → ¬ e.Unexpected := by
      intro t1 c1 h1 h2 h3 h4 h5
      obtain ⟨k1, k2, k3⟩ := ih h1 h2 hla.2 h5
      refine ⟨fun e => ⟨(k1 e).1, ?_⟩, k2, k3⟩
      intro tr' htr
      rcases List.mem_cons.1 htr with rfl | htr
      · exact h4
      · rw [← h3]; exact (k1 e).2 tr' htr
    by_cases hk : tr.kind ≠ .eof ∧ l.isEof = true
    · rw [if_pos hk] at h
      exact lift ht hc rfl (.inl hk) h
    · rw [if_neg hk] at h
      rcases hm : Classic.matchKind tr.kind (Token.fresh l) c.matcher with ⟨r0, t0, m0⟩
      rw [hm] at h
      cases r0 with
      | error x =>
        cases x with
        | crash k => simp only [handle, Prod.mk.injEq] at h; obtain ⟨rfl, _, _⟩ := h; simp
        | parser e =>
          simp only [handle, if_true, Prod.mk.injEq] at h
          obtain ⟨rfl, _, _⟩ := h
          refine ⟨by simp, by simp, ?_⟩
          intro e' h; cases h
          exact not_unexpected (.inr (match_err_kind (by rw [hm])))
      | ok b =>
        cases b with
        | false =>
          simp only at h
          exact lift ht hc rfl (.inr (.inl (by rw [hm]))) h
        | true =>
          simp only at h
          have fin : (match runProds (classicCfg B true) tr.prods t0 { c with matcher := m0 } with
            | (.ok (), c'') => ((.ok (some tr.target) : Except Exc (Option Nat)), t0, c'')
            | (.error x, c'') => (.error x, t0, c'')) = (r, t', c') →
              (r = .ok none → t'.Of l ∧ ∀ tr' ∈ tr :: trs, Passed l rest c.matcher tr') ∧ (∀ q, r = .ok (some q) → c'.errors = []) ∧
              ∀ e, r = .error (.single e) → ¬ e.Unexpected := by
            intro h
            rcases hr : runProds (classicCfg B true) tr.prods t0 { c with matcher := m0 } with ⟨y, c2⟩
            rw [hr] at h
            obtain ⟨g1, g2⟩ := runProds_stop hB hr
            cases y with
            | error e =>
              simp only [Prod.mk.injEq] at h
              obtain ⟨rfl, _, _⟩ := h
              exact ⟨by simp, by simp, fun e' h => g2 e' (by cases h; rfl)⟩
            | ok u =>
              simp only [Prod.mk.injEq] at h
              obtain ⟨rfl, _, rfl⟩ := h
              exact ⟨by simp, fun _ _ => by rw [g1 rfl]; exact hc, by simp⟩
          cases hl : tr.la with
          | none => rw [hl] at h; exact fin h
          | some la =>
            rw [hl] at h
            simp only at h
            have hkt : tr.kind = .tagLine := by
              have := hla.1; rw [hl] at this; simpa using this
            have hmm : m0 = c.matcher := tag_keeps (by rw [hkt] at hm; exact hm)
            cases hp : Pure.peek la m0 rest with
            | error x =>
              rw [hp] at h
              simp only [Prod.mk.injEq] at h
              obtain ⟨rfl, _, _⟩ := h; simp
            | ok b =>
              rw [hp] at h
              cases b with
              | false =>
                simp only at h
                exact lift (matched_of hm) (by exact hc) hmm (.inr (.inr ⟨la, hl, by rw [← hmm]; exact hp, by rw [hm]⟩)) h
              | true => exact fin h

/-! ### The lines the look-aheads see -/

/-- A look-ahead does not see behind a line that is neither blank nor a comment nor a tag line. -/
theorem peek_upto {la : LA} {m : CState} {s s' : List Line} : ∀ {b : List Line}, (∃ x ∈ b, x.isSkip = false) →
    Pure.peek la m (b ++ s) = Pure.peek la m (b ++ s')
  | [], h => by obtain ⟨x, hx, _⟩ := h; simp at hx
  | y :: b, h => by
    simp only [List.cons_append]
    by_cases hy : y.isSkip = false
    · have hy' := hy
      unfold Line.isSkip at hy'
      simp only [Bool.or_eq_false_iff] at hy'
      simp only [Pure.peek, hy'.1.1, hy'.1.2, hy'.2]
      simp
    · refine peek_cons (peek_upto ?_)
      obtain ⟨x, hx, hs⟩ := h
      rcases List.mem_cons.1 hx with rfl | hx
      · exact absurd hs hy
      · exact ⟨x, hx, hs⟩

/-- The attempts of a state depend on the lines to come only through the look-aheads. -/
theorem try_rest {cfg : Config CState σ ρ} {rest rest' : List Line} (hp : ∀ la m, Pure.peek la m rest = Pure.peek la m rest') :
    ∀ {rows : List Trans} {t : Token} {c : Ctx CState σ}, Pure.try_ cfg rows t rest c = Pure.try_ cfg rows t rest' c
  | [], _, _ => rfl
  | tr :: trs, t, c => by
    have ih := fun {t c} => try_rest (cfg := cfg) hp (rows := trs) (t := t) (c := c)
    simp only [Pure.try_, Pure.test, hp, ih]

theorem step_rest {cfg : Config CState σ ρ} {rest rest' : List Line} (hp : ∀ la m, Pure.peek la m rest = Pure.peek la m rest')
    {q : Nat} {l : Line} {c : Ctx CState σ} : Pure.step cfg q l rest c = Pure.step cfg q l rest' c := by
  simp only [Pure.step, try_rest hp]

theorem nonskip_tag {l : Line} (hl : l.isSkip = false) (m : CState) : Classic.matchKind .tagLine (Token.fresh l) m = (.ok false, Token.fresh l, m) := by
  unfold Line.isSkip at hl
  simp only [Bool.or_eq_false_iff] at hl
  have : (Token.fresh l).line = l := rfl
  simp only [Classic.matchKind, Classic.matchTagLine, this, hl.2]
  simp

/-- A line that is no tag line is tried without looking ahead. -/
theorem try_here {rest rest' : List Line} {l : Line} (hl : l.isSkip = false) :
    ∀ {rows : List Trans} {t : Token} {c : Ctx CState σ}, t.Of l → c.errors = [] → laOnTags rows = true →
    Pure.try_ (classicCfg B true) rows t rest c = Pure.try_ (classicCfg B true) rows t rest' c
  | [], _, _, _, _, _ => rfl
  | tr :: trs, t, c, ht, hc, hla => by
    simp only [laOnTags, List.all_cons, Bool.and_eq_true] at hla
    simp only [Pure.try_, Pure.test, matchTok_clean tr.kind ht hc]
    by_cases hk : tr.kind ≠ .eof ∧ l.isEof = true
    · rw [if_pos hk]
      exact try_here hl ht hc hla.2
    · rw [if_neg hk]
      rcases hm : Classic.matchKind tr.kind (Token.fresh l) c.matcher with ⟨r0, t0, m0⟩
      cases r0 with
      | error x => cases x <;> simp only [handle, if_true]
      | ok b =>
        cases b with
        | false => exact try_here hl ht hc hla.2
        | true =>
          cases hla' : tr.la with
          | none => rfl
          | some la =>
            have hkt : tr.kind = .tagLine := by
              have := hla.1; rw [hla'] at this; simpa using this
            rw [hkt, nonskip_tag hl] at hm
            simp at hm

/-- No syntax error is at a blank line, a comment or a tag line. -/
def rowOkQ (q : Nat) : Bool :=
  match table q with
  | some row =>
    let has := fun k => row.trans.any fun tr => tr.kind == k && tr.la == none
    has .other || (has .empty && has .comment && has .tagLine)
  | none => true

theorem rows_okQ : ∀ q ∈ allStates, rowOkQ q = true := by decide +kernel

theorem error_line {q : Nat} {row : StateRow} (h : table q = some row) {l : Line} {rest : List Line} {m : CState}
    (hp : ∀ tr ∈ row.trans, Passed l rest m tr) (he : l.isEof = false) : l.isSkip = false := by
  have hq := rows_okQ q (mem_allStates h)
  unfold rowOkQ at hq
  rw [h] at hq
  simp only [Bool.or_eq_true, Bool.and_eq_true, List.any_eq_true, beq_iff_eq] at hq
  have key : ∀ tr ∈ row.trans, tr.la = none → (Classic.matchKind tr.kind (Token.fresh l) m).1 = .ok false := by
    intro tr htr hla
    rcases hp tr htr with ⟨_, h⟩ | h | ⟨la, h, _⟩
    · rw [he] at h; simp at h
    · exact h
    · rw [hla] at h; simp at h
  have hfl : (Token.fresh l).line = l := rfl
  rcases hq with ⟨tr, h1, h2, h3⟩ | ⟨⟨⟨a, a1, a2, a3⟩, b, b1, b2, b3⟩, c, c1, c2, c3⟩
  · have := key tr h1 h3
    rw [h2] at this
    simp [Classic.matchKind, Classic.matchOther] at this
  · have ka := key a a1 a3
    have kb := key b b1 b3
    have kc := key c c1 c3
    rw [a2] at ka; rw [b2] at kb; rw [c2] at kc
    simp only [Classic.matchKind, Classic.matchEmpty, Classic.matchComment, Classic.matchTagLine, hfl] at ka kb kc
    unfold Line.isSkip
    cases hb : l.isBlank with
    | true => rw [hb] at ka; simp at ka
    | false =>
      cases hc : l.startsWith ['#'] with
      | true => rw [hc] at kb; simp at kb
      | false =>
        cases hd : l.startsWith ['@'] with
        | true => rw [hd] at kc; simp only [if_true] at kc; split at kc <;> simp at kc
        | false => rfl

/-! ### The run up to the error -/

end

namespace Auto

/-- A run over the first lines, given the lines after them. -/
inductive Reach (suf : List Line) : Nat → CState → List Line → List Move → Nat → CState → Prop
  | nil (q m) : Reach suf q m [] [] q m
  | cons {q m l pre tr t m' mv q' m''} : step q l (pre ++ suf) m = some (tr, t, m') → l.isEof = false →
      Reach suf tr.target m' pre mv q' m'' → Reach suf q m (l :: pre) (⟨q, tr, t⟩ :: mv) q' m''

theorem Reach.run {suf : List Line} {q : Nat} {m : CState} {pre : List Line} {mv : List Move} {q1 : Nat} {m1 : CState}
    (h : Reach suf q m pre mv q1 m1) {mv2 : List Move} {q2 : Nat} {m2 : CState} (h2 : Run q1 m1 suf mv2 q2 m2) :
    Run q m (pre ++ suf) (mv ++ mv2) q2 m2 := by
  induction h with
  | nil => exact h2
  | cons hs he _ ih => exact .cons hs he (ih h2)

theorem Reach.inv {suf : List Line} {q : Nat} {m : CState} {pre : List Line} {mv : List Move} {q1 : Nat} {m1 : CState}
    (h : Reach suf q m pre mv q1 m1) (hi : Inv q m) : Inv q1 m1 := by
  induction h with
  | nil => exact hi
  | cons hs _ _ ih => exact ih (inv_step hi (step_spec hs))

end Auto

section
variable {σ ρ : Type} {B : Builder σ ρ}

/-- A syntax error in stop mode: the lines before it are a run, the line is refused by every transition, and nothing after it matters. -/
theorem loop_unexpected (hB : B.Apart) : ∀ {lines : List Line} {q : Nat} {c c' : Ctx CState σ} {e : Err}, c.errors = [] → e.Unexpected →
    Pure.loop (classicCfg B true) lines q c = (.error (.single e), c') →
    ∃ pre l rest mv q' m' row t', lines = pre ++ l :: rest ∧ Reach (l :: rest) q c.matcher pre mv q' m' ∧ table q' = some row ∧
      t'.Of l ∧ e = unexpected row.expected t' ∧ (∀ tr ∈ row.trans, Passed l rest m' tr) ∧
      (l.isEof = false → ∀ rest', Pure.loop (classicCfg B true) (pre ++ l :: rest') q c = (.error (.single e), c')) := by
  intro lines
  induction lines with
  | nil => intro q c c' e _ _ h; simp [Pure.loop] at h
  | cons l rest ih =>
    intro q c c' e hc hu h
    simp only [Pure.loop] at h
    rcases hs : Pure.step (classicCfg B true) q l rest { c with log := c.log ++ [.take l] } with ⟨y, c2⟩
    rw [hs] at h
    cases y with
    | error x =>
      simp only [Prod.mk.injEq, Except.error.injEq] at h
      obtain ⟨rfl, rfl⟩ := h
      unfold Pure.step at hs
      cases hq : table q with
      | none => rw [hq] at hs; simp at hs
      | some row =>
        rw [hq] at hs
        simp only at hs
        rcases ht : Pure.try_ (classicCfg B true) row.trans (Token.fresh l) rest { c with log := c.log ++ [.take l] } with ⟨z, t', c3⟩
        rw [ht] at hs
        have hla := (row_facts hq).1
        have ho : (Token.fresh l).Of l := Token.fresh_of l
        obtain ⟨k1, k2, k3⟩ := try_stop hB ho (by exact hc) hla ht
        cases z with
        | error x =>
          simp only [Prod.mk.injEq, Except.error.injEq] at hs
          obtain ⟨rfl, rfl⟩ := hs
          exact absurd hu (k3 e rfl)
        | ok o =>
          cases o with
          | some target => simp at hs
          | none =>
            simp only [if_true, Prod.mk.injEq, Except.error.injEq, Exc.single.injEq] at hs
            obtain ⟨rfl, rfl⟩ := hs
            obtain ⟨ho', hp⟩ := k1 rfl
            refine ⟨[], l, rest, [], q, c.matcher, row, t', rfl, .nil _ _, hq, ho', rfl, hp, ?_⟩
            intro he rest'
            have hsk := error_line hq hp he
            simp only [List.nil_append, Pure.loop, Pure.step, hq]
            rw [try_here (rest' := rest) hsk ho (by exact hc) hla, ht]
            simp
    | ok q2 =>
      simp only at h
      split at h
      · simp at h
      · rename_i he
        simp only [Bool.not_eq_true] at he
        -- the step
        have key : c2.errors = [] ∧ ∃ tr t m', Auto.step q l rest c.matcher = some (tr, t, m') ∧ tr.target = q2 ∧ c2.matcher = m' := by
          unfold Pure.step at hs
          cases hq : table q with
          | none => rw [hq] at hs; simp at hs
          | some row =>
            rw [hq] at hs
            simp only at hs
            rcases ht : Pure.try_ (classicCfg B true) row.trans (Token.fresh l) rest { c with log := c.log ++ [.take l] } with ⟨z, t', c3⟩
            rw [ht] at hs
            have ho : (Token.fresh l).Of l := Token.fresh_of l
            obtain ⟨k1, k2, k3⟩ := try_stop hB ho (by exact hc) (row_facts hq).1 ht
            cases z with
            | error x => simp at hs
            | ok o =>
              cases o with
              | none => simp at hs
              | some target =>
                simp only [Prod.mk.injEq, Except.ok.injEq] at hs
                obtain ⟨rfl, rfl⟩ := hs
                have hc3 := k2 _ rfl
                obtain ⟨tr, m', p1, p2, p3⟩ := try_sound ho (by exact hc) ht hc3
                have hm := runProds_matcher p3
                exact ⟨hc3, tr, t', m', by unfold Auto.step; rw [hq]; exact p1, p2, hm⟩
        obtain ⟨hc2, tr, t, m', k1, rfl, k3⟩ := key
        obtain ⟨pre, l', rest', mv, q', mm, row, t', e1, e2, e3, e4, e5, e6, e7⟩ := ih hc2 hu h
        subst e1
        refine ⟨l :: pre, l', rest', ⟨q, tr, t⟩ :: mv, q', mm, row, t', rfl, ?_, e3, e4, e5, e6, ?_⟩
        · rw [k3] at e2
          exact .cons k1 he e2
        · intro he' r'
          have hsk := error_line e3 e6 he'
          simp only [List.cons_append, Pure.loop]
          rw [step_rest (rest' := pre ++ l' :: rest') ?_, hs]
          · simp only [he]
            exact e7 he' r'
          · intro la m
            have h1 := peek_upto (la := la) (m := m) (s := r') (s' := rest') (b := pre ++ [l']) ⟨l', by simp, hsk⟩
            simpa using h1

end

end Gherkin
