import Verif.Proofs.Total2

/-! The classic parser with the AST builder: everything that can come out. -/

namespace Gherkin

open AstNode Auto

/-- What must be known about a set of errors `Q` (those that may be on record after line `n`), of tokens `P` and of matcher states `M` to
conclude that all reported errors are in `Q`. -/
structure Reports (Q : Nat → Err → Prop) (P : Token → Prop) (M : CState → Prop) (lines : List Line) : Prop where
  closed : ∀ l ∈ lines, ErrClosed (Q l.number) l
  mono : ∀ n n' e, n ≤ n' → Q n e → Q n' e
  below : ∀ n e k, Q n e → e.aliasOf = some k → k ≤ n
  row : ∀ e, RowErr P e → Q 0 e
  tok : ∀ l ∈ lines, ∀ k m m' t, Classic.matchKind k (Token.fresh l) m = (.ok true, t, m') → (k = .eof ∨ l.isEof = false) → P t
  keep : ∀ l ∈ lines, ∀ k m m' t, M m → Classic.matchKind k (Token.fresh l) m = (.ok true, t, m') → (k = .eof ∨ l.isEof = false) → M m'
  unexp : ∀ q row l rest m t, table q = some row → Inv q m → M m → l :: rest <:+ lines → t.At l →
    (∀ x ∈ row.trans, PassedE l rest m x) → Q 0 (unexpected row.expected t)

/-- What can come out. -/
inductive Out (Q : Nat → Err → Prop) (lines : List Line) (stop : Bool) {α : Type} : Except Exc α → Prop
  | ok {a} : Out Q lines stop (.ok a)
  | crash {x} : (∃ l ∈ lines, BadLine l x) → Out Q lines stop (.error (.crash x))
  | single {e} : stop = true → (∃ n, Q n e) → Out Q lines stop (.error (.single e))
  | composite {es} : (∀ e ∈ es, ∃ n, Q n e) → Out Q lines stop (.error (.composite es))

def targetsOk (q : Nat) : Bool :=
  match table q with
  | some row => row.trans.all fun tr => allStates.contains tr.target || (tr.target == 42 && tr.kind == .eof)
  | none => false

theorem targets_ok : ∀ q ∈ allStates, targetsOk q = true := by decide +kernel

theorem nonblank_text {l : Line} {m m' : CState} {t : Token} (ha : m.active = none) (hi : m.indentToRemove = 0) (hb : l.isBlank = false)
    (h : Classic.matchKind .other (Token.fresh l) m = (.ok true, t, m')) : ∃ s, t.text = some s ∧ s ≠ [] := by
  have h0 := other_plain (l := l) ha hi
  simp only [Classic.matchKind] at h
  rw [h] at h0
  have hs : t.text.isSome = true := by
    simp only [Classic.matchOther, Prod.mk.injEq] at h
    rw [← h.2.1]; rfl
  obtain ⟨s, hs⟩ := Option.isSome_iff_exists.1 hs
  refine ⟨s, hs, ?_⟩
  simp only [Cst.textOf, hs, Option.getD_some] at h0
  rw [h0]
  intro h1
  rw [← isBlankLine_iff] at hb
  unfold chomp rstripEol rstripBy at h1
  rw [List.reverse_eq_nil_iff] at h1
  simp only [isBlankLine, List.all_eq_false] at hb
  obtain ⟨c, c1, c2⟩ := hb
  refine dropWhile_ne_nil (x := c) (by simpa using c1) ?_ h1
  cases hc : isEol c
  · rfl
  · exfalso; apply c2
    simp only [isEol, Bool.or_eq_true, beq_iff_eq] at hc
    rcases hc with rfl | rfl <;> decide

/-- Line numbers grow, starting above `n`. -/
def NumberedFrom : Nat → List Line → Prop
  | _, [] => True
  | n, l :: ls => n < l.number ∧ NumberedFrom l.number ls

section
variable {stop : Bool} {Q : Nat → Err → Prop} {P : Token → Prop} {M : CState → Prop}

/-- The state of the loop. -/
structure LoopOk (Q : Nat → Err → Prop) (P : Token → Prop) (M : CState → Prop) (n : Nat) (q : Nat) (c : Ctx CState BState) : Prop where
  inv : Inv q c.matcher
  mat : M c.matcher
  stack : StackOk P (absAt q) c.builder.stack
  errs : ∀ e ∈ c.errors, Q n e

theorem docPending {q : Nat} (h : q ∈ 42 :: allStates) : (absAt q).pending .description = false ∧ (absAt q).pending .docString = false ∧
    (absAt q).closable = true := by
  have := rows_okT q h
  unfold rowOkT at this
  simp only [Bool.and_eq_true, Bool.not_eq_true'] at this
  exact ⟨this.1.1.2, this.1.2, this.1.1.1⟩

theorem dropLast_mem {α : Type} {x : α} {pre post : List α} (h : post ≠ []) : x ∈ (pre ++ x :: post).dropLast := by
  rw [List.dropLast_append_of_ne_nil (by simp)]
  cases post with
  | nil => exact absurd rfl h
  | cons y ys => simp

theorem step_out {lines : List Line} (hR : Reports Q P M lines) {q : Nat} (hq : q ∈ allStates) {l : Line} {rest : List Line}
    (hl : l :: rest <:+ lines) {c : Ctx CState BState} {n : Nat} (hn : n < l.number) (hc : LoopOk Q P M n q c) :
    (∃ q' c', Pure.step (classicCfg astBuilder stop) q l rest c = (.ok q', c') ∧ LoopOk Q P M l.number q' c' ∧ q' ∈ 42 :: allStates ∧
      (q' ∉ allStates → l.isEof = true)) ∨
    (∃ x c', Pure.step (classicCfg astBuilder stop) q l rest c = (.error x, c') ∧ Out Q lines stop (.error x : Except Exc Unit)) := by
  have hlm : l ∈ lines := hl.subset (by simp)
  have hT := targets_ok q hq
  have hA := rows_okT q (by simp [hq])
  unfold targetsOk at hT
  unfold rowOkT at hA
  cases hrow : table q with
  | none => rw [hrow] at hT; simp at hT
  | some row =>
    rw [hrow] at hT hA
    simp only [List.all_eq_true, Bool.and_eq_true] at hT hA
    obtain ⟨_, hstay, hA⟩ := hA
    obtain ⟨f1, f2⟩ := row_facts hrow
    have hcase := try_cases (B := astBuilder) (stop := stop) (rest := rest) (hR.closed l hlm) f1 (t := Token.fresh l) (c := c)
      ⟨Token.fresh_of l, .inl rfl⟩ (fun e he => hR.mono _ _ e (Nat.le_of_lt hn) (hc.errs e he))
      (fun _ e he ha => by have := hR.below _ _ _ (hc.errs e he) ha; omega)
    unfold Pure.step
    rw [hrow]
    simp only
    rcases hx : Pure.try_ (classicCfg astBuilder stop) row.trans (Token.fresh l) rest c with ⟨r, t', c'⟩
    rw [hx] at hcase
    simp only at hcase ⊢
    cases hcase with
    | crash h =>
      right
      refine ⟨_, _, rfl, .crash ?_⟩
      rcases h with h | ⟨l', h1, h2⟩
      · exact ⟨l, hlm, h⟩
      · exact ⟨l', hl.subset (by simp [h1]), h2⟩
    | single h h' => right; exact ⟨_, _, rfl, .single h ⟨_, (hR.closed l hlm).lang _ _ h'⟩⟩
    | composite h h' => right; exact ⟨_, _, rfl, .composite fun e he => ⟨_, h' e he⟩⟩
    | @none _ es h1 h2 h3 =>
      have hQ := hR.mono 0 l.number _ (Nat.zero_le _) (hR.unexp q row l rest c.matcher t' hrow hc.inv hc.mat hl h1 h3)
      simp only
      cases hs : stop with
      | true => right; exact ⟨_, _, by simp only [if_true]; rfl, .single rfl ⟨_, hQ⟩⟩
      | false =>
        simp only [Bool.false_eq_true, if_false]
        obtain ⟨es', e1, e2 | e2⟩ := addError_all (c := { c with errors := es }) hQ h2
        · left
          simp only [beq_iff_eq] at hstay
          rw [e2]
          refine ⟨row.stay, _, rfl, ?_, ?_, ?_⟩
          · rw [hstay]; exact ⟨hc.inv, hc.mat, hc.stack, e1⟩
          · rw [hstay]; simp [hq]
          · rw [hstay]; intro h; exact absurd hq h
        · right
          rw [e2]
          exact ⟨_, _, rfl, .composite fun e he => ⟨_, e1 e he⟩⟩
    | @taken pre tr post _ m' es _ _ h1 h2 h3 h4 h5 h6 h7 =>
      have htr : tr ∈ row.trans := by rw [h1]; simp
      have hAt := hA tr htr
      have hTt := hT tr htr
      obtain ⟨⟨hdesc, hsep⟩, habs⟩ := hAt
      have hf := f2 tr htr
      have hinv := inv_next hc.inv h2 hf
      cases hab : absRun tr.kind tr.prods (absAt q) with
      | none => rw [hab] at habs; simp at habs
      | some a' =>
        rw [hab] at habs
        simp only at habs
        have hdp := docPending (q := q) (by simp [hq])
        have htok : TokOk P tr.kind t' ((absAt q).pend .description tr.prods) ((absAt q).pend .docString tr.prods) := by
          refine ⟨matched_type h2, hR.tok l hlm _ _ _ _ h2 h3, ?_, ?_, ?_⟩
          · intro hk
            rw [hk] at h2
            simp only [Classic.matchKind, Classic.matchOther, Prod.mk.injEq] at h2
            rw [← h2.2.1]; rfl
          · intro hk hd
            simp only [AStack.pend, hdp.1, Bool.false_or] at hd
            rw [hd] at hdesc
            simp only [Bool.not_true, Bool.false_or, Bool.and_eq_true, beq_iff_eq, List.all_eq_true, List.any_eq_true] at hdesc
            obtain ⟨⟨_, hlast⟩, x, x1, x2, x3⟩ := hdesc
            have hpost : post = [] := by
              by_cases hp : post = []
              · exact hp
              · exfalso
                have := hlast tr (by rw [h1]; exact dropLast_mem hp)
                rw [hk] at this; simp at this
            subst hpost
            have hxp : x ∈ pre := by
              rw [h1] at x1
              rcases List.mem_append.1 x1 with h | h
              · exact h
              · simp at h; subst h; rw [hk] at x2; simp at x2
            have hle : l.isEof = false := by
              rcases h3 with h3 | h3
              · rw [hk] at h3; simp at h3
              · exact h3
            have hb : l.isBlank = false := by
              rcases h5 x hxp with h | ⟨h, _⟩
              · rcases h with ⟨_, h⟩ | h | ⟨la, h, _⟩
                · rw [hle] at h; simp at h
                · rw [x2] at h
                  simp only [Classic.matchKind, Classic.matchEmpty] at h
                  split at h
                  · simp at h
                  · rename_i hh; simpa [Token.fresh] using hh
                · rw [x3] at h; simp at h
              · rw [x2] at h; simp at h
            have hact : c.matcher.active = none := by
              have : q ∉ openStates := by
                intro hh
                have hff := f2 x (by rw [h1]; simp [hxp])
                rcases hff.inside hh with h | ⟨h, _⟩ <;> rw [x2] at h <;> simp at h
              rw [hc.inv.active] at this
              simpa using this
            rw [hk] at h2
            exact nonblank_text hact (hc.inv.indent hact) hb h2
          · intro hk hd
            simp only [AStack.pend, hdp.2.1, Bool.false_or] at hd
            rw [hd] at hsep
            simp only [Bool.not_true, Bool.false_or, Bool.and_eq_true, Bool.not_eq_true'] at hsep
            have hqo : q ∉ openStates := by simpa using hsep.2
            rw [hc.inv.active] at hqo
            rw [hk] at h2
            rcases docSep_cases hc.inv.sep h2 with ⟨_, s, _, _, _, e⟩ | ⟨s, e, _⟩
            · rw [e]; rfl
            · rw [e] at hqo; simp at hqo
        have hrow' : ∀ e, RowErr P e → Q l.number e := fun e he => hR.mono 0 _ _ (Nat.zero_le _) (hR.row e he)
        have hrun := prods_ok (stop := stop) (k := tr.kind) (t := t') hrow' (c := { c with matcher := m', errors := es }) hc.stack hab h6 htok
        have hq' : tr.target ∈ 42 :: allStates ∧ (tr.target ∉ allStates → l.isEof = true) := by
          simp only [Bool.or_eq_true, Bool.and_eq_true, beq_iff_eq, List.contains_iff_mem] at hTt
          rcases hTt with h | ⟨h, hk⟩
          · exact ⟨by simp [h], fun h' => absurd h h'⟩
          · refine ⟨by simp [h], fun _ => ?_⟩
            rw [hk] at h2
            simp only [Classic.matchKind, Classic.matchEof] at h2
            split at h2
            · rename_i hh; simpa [Token.eof, Token.fresh] using hh
            · simp at h2
        rcases h7 with ⟨rfl, h7⟩ | ⟨x, rfl, h7⟩
        · rw [h7] at hrun
          cases hrun with
          | ok k1 k2 k3 =>
            left
            refine ⟨tr.target, _, rfl, ⟨?_, ?_, ?_, k2⟩, hq'⟩
            · rw [k3]; exact hinv
            · rw [k3]; exact hR.keep l hlm _ _ _ _ hc.mat h2 h3
            · exact k1.weaken habs (docPending hq'.1).2.1
        · rw [h7] at hrun
          right
          cases hrun with
          | single k1 k2 => exact ⟨_, _, rfl, .single k1 ⟨_, hR.row _ k2⟩⟩
          | composite k1 k2 => exact ⟨_, _, rfl, .composite fun e he => ⟨_, k2 e he⟩⟩

theorem loop_out {lines : List Line} (hR : Reports Q P M lines) : ∀ {ls : List Line} {n q : Nat} {c : Ctx CState BState}, q ∈ allStates →
    ls <:+ lines → NumberedFrom n ls → LoopOk Q P M n q c →
    (∃ n' q' c', Pure.loop (classicCfg astBuilder stop) ls q c = (.ok q', c') ∧ LoopOk Q P M n' q' c' ∧ q' ∈ 42 :: allStates) ∨
    (∃ x c', Pure.loop (classicCfg astBuilder stop) ls q c = (.error x, c') ∧ Out Q lines stop (.error x : Except Exc Unit)) := by
  intro ls
  induction ls with
  | nil => intro n q c hq _ _ hc; exact .inl ⟨n, q, c, rfl, hc, by simp [hq]⟩
  | cons l rest ih =>
    intro n q c hq hl hnum hc
    simp only [Pure.loop]
    rcases step_out (stop := stop) hR hq hl hnum.1 (c := { c with log := c.log ++ [.take l] }) ⟨hc.inv, hc.mat, hc.stack, hc.errs⟩ with
      ⟨q', c', h1, h2, h3, h4⟩ | ⟨x, c', h1, h2⟩
    · rw [h1]
      simp only
      by_cases he : l.isEof = true
      · rw [if_pos he]; exact .inl ⟨_, q', c', rfl, h2, h3⟩
      · rw [if_neg he]
        have hq' : q' ∈ allStates := by
          by_cases hh : q' ∈ allStates
          · exact hh
          · exact absurd (h4 hh) he
        exact ih hq' ((List.suffix_cons l rest).trans hl) hnum.2 h2
    · rw [h1]; exact .inr ⟨x, c', rfl, h2⟩

theorem close_ok {a : AStack} {b : BState} (hs : StackOk P a b.stack) (ha : a.closable = true) :
    AnswerOk P (AstB.endRule .gherkinDocument b).1 ∧ (AstB.endRule .gherkinDocument b).2.stack ≠ [] := by
  unfold AstB.endRule
  rcases hb : b.stack with _ | ⟨⟨r, items⟩, _ | ⟨⟨pr, pitems⟩, st⟩⟩
  · rw [hb] at hs; cases hs; simp [AStack.closable] at ha
  · rw [hb] at hs
    cases hs with
    | cons hf hrest => cases hrest; simp [AStack.closable] at ha
  · rw [hb] at hs
    cases hs with
    | @cons _ bb _ _ _ hf hrest =>
      cases hrest with
      | @cons _ pb _ a0 _ hpf hrest =>
        simp only [AStack.closable, Bool.or_eq_true] at ha
        have key : (∃ i, (AstB.transform r items b.comments b.nextId).1 = .ok i) ∨
            (∃ e, (AstB.transform r items b.comments b.nextId).1 = .error (.parser e) ∧ RowErr P e) := by
          rcases ha with ha | ha
          · have hT := transform_ok (cm := b.comments) (n := b.nextId) hf (by
              intro h
              rcases ha with ha | ha
              · exact ha
              · simp at ha; rw [ha] at h; simp at h)
            rcases hT with ⟨i, h1, _⟩ | ⟨e, h1, _, h2⟩
            · exact .inl ⟨i, h1⟩
            · exact .inr ⟨e, h1, h2.row hf.all⟩
          · left
            simp only [List.contains_iff_mem, List.mem_cons, List.not_mem_nil, or_false] at ha
            rcases ha with rfl | rfl | rfl | rfl | rfl <;> exact ⟨_, rfl⟩
        rcases hx : AstB.transform r items b.comments b.nextId with ⟨res, n'⟩
        rw [hx] at key
        rcases key with ⟨i, h1⟩ | ⟨e, h1, h2⟩
        · simp only at h1; subst h1
          simp only [hx]
          exact ⟨.inl rfl, by simp⟩
        · simp only at h1; subst h1
          simp only [hx]
          exact ⟨.inr ⟨e, rfl, h2⟩, by simp⟩

/-- The classic parser on the lines of a text: either a document, or errors in `Q`, or a crash because of a line that cannot be read. -/
theorem pure_out {lines : List Line} (hR : Reports Q P M lines) (hnum : NumberedFrom 0 lines) {m : CState} (hm : m.Valid)
    (hM : M (Classic.reset m)) {b : BState} :
    Out Q lines stop (Pure.parse (classicCfg astBuilder stop) lines m b).1 := by
  unfold Pure.parse
  rw [runProd_eq]
  simp only [Prod.ev, evAnswer, applyEv, astBuilder, AstB.startRule, handle]
  have hst : ∀ c : Ctx CState BState, c.matcher = Classic.reset m → c.errors = [] →
      c.builder.stack = [(.gherkinDocument, []), (.none, [])] → LoopOk Q P M 0 0 c := by
    intro c c1 c2 c3
    refine ⟨by rw [c1]; exact inv_start hm, by rw [c1]; exact hM, ?_, by simp [c2]⟩
    rw [c3]
    exact .cons ⟨by simp, by simp, by simp⟩ (.cons ⟨by simp, by simp, by simp⟩ .nil)
  generalize hc0 : ({ scanner := _, matcher := _, queue := _, errors := _, builder := _, log := _ } : Ctx CState BState) = c0
  have h0 : LoopOk Q P M 0 0 c0 := by subst hc0; exact hst _ rfl rfl rfl
  rcases loop_out (stop := stop) hR (by decide) (List.suffix_refl lines) hnum h0 with ⟨n', q', c', h1, h2, h3⟩ | ⟨x, c', h1, h2⟩
  · simp only [astBuilder, List.nil_append] at h1 ⊢
    simp only [classicCfg, classic] at h1 ⊢
    rw [h1]
    simp only
    have hc := close_ok (P := P) h2.stack (docPending h3).2.2
    rw [runProd_eq]
    simp only [Prod.ev, evAnswer, applyEv]
    generalize hc1 : ({ c' with builder := _, log := _ } : Ctx CState BState) = c1
    have hc1e : c1.errors = c'.errors := by rw [← hc1]
    have hc1b : c1.builder = (AstB.endRule .gherkinDocument c'.builder).2 := by rw [← hc1]
    have hrow' : ∀ e, RowErr P e → Q n' e := fun e he => hR.mono 0 _ _ (Nat.zero_le _) (hR.row e he)
    have hh := handle_out (stop := stop) (c := c1) hc.1 hrow' (by rw [hc1e]; exact h2.errs)
    simp only [classicCfg, classic, astBuilder] at hh
    rcases hh with ⟨es, e1, e2⟩ | ⟨e, c2, e1, e2, e3⟩ | ⟨es, c2, e1, e2, e3⟩
    · rw [e1]
      simp only
      split
      · rename_i hne
        exact .composite fun e he => ⟨_, e2 e he⟩
      · simp only [AstB.result]
        split
        · rename_i a ha
          exact .ok
        · rename_i k hk
          exfalso
          split at hk
          · rename_i hn; rw [← hc1b] at hc; exact hc.2 hn
          · split at hk <;> simp at hk
        · rename_i e hk
          split at hk
          · simp at hk
          · split at hk <;> simp at hk
    · rw [e1]; exact .single e2 ⟨_, hR.row _ e3⟩
    · rw [e1]; exact .composite fun e he => ⟨_, e3 e he⟩
  · simp only [astBuilder, List.nil_append] at h1 ⊢
    simp only [classicCfg, classic] at h1 ⊢
    rw [h1]
    cases h2 with
    | crash h => exact .crash h
    | single h h' => exact .single h h'
    | composite h => exact .composite h

end

end Gherkin
