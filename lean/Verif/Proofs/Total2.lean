import Verif.Proofs.Total

/-! Running the productions of a transition on the AST builder. -/

namespace Gherkin

open AstNode Auto

theorem needed_append {r : Rule} {items : List Item} (x : List Item) (h : Needed r items) : Needed r (items ++ x) := by
  have hk : (∀ k, needKey r = some k → ∃ i ∈ items, i.key = k) → ∀ k, needKey r = some k → ∃ i ∈ items ++ x, i.key = k := by
    intro h k hk
    obtain ⟨i, h1, h2⟩ := h k hk
    exact ⟨i, by simp [h1], h2⟩
  cases r
  case description =>
    obtain ⟨t, h1, h2⟩ := h
    exact ⟨t, by simp [h1], h2⟩
  case docString =>
    obtain ⟨t, ts, h1, h2⟩ := h
    refine ⟨t, ts ++ getTokens x .docStringSeparator, ?_, h2⟩
    have : getTokens (items ++ x) .docStringSeparator = getTokens items .docStringSeparator ++ getTokens x .docStringSeparator := by
      simp [getTokens, getItems]
    rw [this, h1]; rfl
  all_goals exact hk h

theorem getTokens_append_other {items : List Item} {x : Item} {k : Kind} (h : x.key ≠ .t k) : getTokens (items ++ [x]) k = getTokens items k := by
  simp [getTokens, getItems, h]

/-- What the token being built must satisfy. -/
structure TokOk (P : Token → Prop) (k : Kind) (t : Token) (desc sep : Bool) : Prop where
  type : t.type = some k
  prop : P t
  text : k = .other → t.text.isSome = true
  desc : k = .other → desc = true → ∃ s, t.text = some s ∧ s ≠ []
  sep : k = .docStringSeparator → sep = true → t.text.isSome = true

theorem TokOk.mono {P : Token → Prop} {k : Kind} {t : Token} {d d' s s' : Bool} (h : TokOk P k t d s) (hd : d' = true → d = true)
    (hs : s' = true → s = true) : TokOk P k t d' s' :=
  ⟨h.type, h.prop, h.text, fun a b => h.desc a (hd b), fun a b => h.sep a (hs b)⟩

/-- A complaint about a row token with property `P`. -/
def RowErr (P : Token → Prop) (e : Err) : Prop :=
  ∃ t t0, P t ∧ t.type = some .tableRow ∧ P t0 ∧ t0.type = some .tableRow ∧ t.items.length ≠ t0.items.length ∧
    e = Err.mkAst py"inconsistent cell count within the table" t.loc

/-- The builder's answers. -/
def AnswerOk (P : Token → Prop) (r : Except MExc Unit) : Prop := r = .ok () ∨ ∃ e, r = .error (.parser e) ∧ RowErr P e

theorem RaggedAt.row {P : Token → Prop} {items : List Item} {e : Err} (h : RaggedAt items e) (hi : ∀ i ∈ items, ItemOk P i) : RowErr P e := by
  obtain ⟨t, t0, h1, h2, h3, h4, h5⟩ := h
  exact ⟨t, t0, (hi _ h1).1, h2, (hi _ h3).1, h4, h5⟩

theorem prod_ok {P : Token → Prop} {k : Kind} {p : Prod} {a a' : AStack} {b : BState} {t : Token} (hs : StackOk P a b.stack)
    (ha : absProd k p a = some a') (ht : TokOk P k t (a.pending .description) (a.pending .docString)) :
    AnswerOk P (evAnswer astBuilder b (p.ev t)) ∧ StackOk P a' (applyEv astBuilder b (p.ev t)).stack := by
  cases p with
  | start r =>
    simp only [absProd, Option.some.injEq] at ha
    subst ha
    refine ⟨.inl rfl, ?_⟩
    simp only [Prod.ev, applyEv, astBuilder, AstB.startRule]
    exact .cons ⟨by simp, by simp, by intros; rfl⟩ hs
  | build =>
    simp only [Prod.ev, applyEv, evAnswer, astBuilder, AstB.build]
    rw [ht.type]
    cases hb : b.stack with
    | nil => rw [hb] at hs; cases hs; simp [absProd] at ha
    | cons f st =>
      rw [hb] at hs
      cases hs with
      | @cons r bb items a0 s0 hf hrest =>
        simp only [absProd] at ha
        by_cases hk : k = .comment
        · subst hk
          simp only [if_true, Option.some.injEq] at ha ⊢
          subst ha
          exact ⟨.inl rfl, .cons hf hrest⟩
        · have hk' : (some k : Option Kind) ≠ some .comment := by simpa using hk
          rw [if_neg hk] at ha
          rw [if_neg hk']
          simp only [Option.some.injEq] at ha
          subst ha
          refine ⟨.inl rfl, .cons ⟨?_, ?_, ?_⟩ hrest⟩
          · intro i hi
            rcases List.mem_append.1 hi with hi | hi
            · exact hf.all i hi
            · simp at hi; subst hi
              exact ⟨ht.prop, fun h => ht.text (by rw [ht.type] at h; simpa using h)⟩
          · simp only
            intro h
            cases hbb : bb with
            | true => subst hbb; exact needed_append _ (hf.needed rfl)
            | false =>
              subst hbb
              simp only [Bool.false_or, beq_iff_eq] at h
              have gen : ∀ k', needKey r = some k' → ∃ i ∈ items ++ [Item.tok t], i.key = k' := by
                intro k' h'
                rw [h] at h'
                simp at h'
                exact ⟨.tok t, by simp, by simp [Item.key, ht.type, h']⟩
              cases r
              case description =>
                have : k = .other := by simpa [needKey] using h.symm
                obtain ⟨s, s1, s2⟩ := ht.desc this (by simp [AStack.pending])
                exact ⟨t, by simp, by rw [ht.type, this], s, s1, s2⟩
              case docString =>
                have hk2 : k = .docStringSeparator := by simpa [needKey] using h.symm
                refine ⟨t, [], ?_, ht.sep hk2 (by simp [AStack.pending])⟩
                have h0 := hf.fresh rfl rfl
                have : getTokens (items ++ [Item.tok t]) .docStringSeparator = getTokens items .docStringSeparator ++ [t] := by
                  simp [getTokens, getItems, Item.key, ht.type, hk2]
                rw [this, h0]; rfl
              all_goals exact gen
          · simp only
            intro hr hbf
            simp only [Bool.or_eq_false_iff, beq_eq_false_iff_ne] at hbf
            rw [getTokens_append_other]
            · exact hf.fresh hr hbf.1
            · subst hr
              simp only [Item.key, ht.type]
              intro h
              exact hbf.2 (by simp [needKey, h])
  | stop r' =>
    simp only [Prod.ev, applyEv, evAnswer, astBuilder, AstB.endRule]
    rcases hb : b.stack with _ | ⟨⟨r, items⟩, _ | ⟨⟨pr, pitems⟩, st⟩⟩
    · rw [hb] at hs; cases hs; simp [absProd] at ha
    · rw [hb] at hs
      cases hs with
      | cons hf hrest => cases hrest; simp [absProd] at ha
    · rw [hb] at hs
      cases hs with
      | @cons _ bb _ _ _ hf hrest =>
        cases hrest with
        | @cons _ pb _ a0 _ hpf hrest =>
          simp only [absProd] at ha
          split at ha
          · simp at ha
          · rename_i hne
            have hT := transform_ok (cm := b.comments) (n := b.nextId) hf (by
              intro h; rw [h] at hne; simpa using hne)
            rcases hx : AstB.transform r items b.comments b.nextId with ⟨res, n'⟩
            rw [hx] at hT
            simp only at hT
            -- the parent after taking the item
            have add : ∀ i, i.key = .r r → ItemOk P i → FrameOk P (pr, pb || needKey pr == some (.r r)) (pitems ++ [i]) := by
              intro i h1 h2
              refine ⟨?_, ?_, ?_⟩
              · intro j hj
                rcases List.mem_append.1 hj with hj | hj
                · exact hpf.all j hj
                · simp at hj; subst hj; exact h2
              · simp only
                intro h
                cases hpb : pb with
                | true => subst hpb; exact needed_append _ (hpf.needed rfl)
                | false =>
                  subst hpb
                  simp only [Bool.false_or, beq_iff_eq] at h
                  have gen : ∀ k', needKey pr = some k' → ∃ j ∈ pitems ++ [i], j.key = k' := by
                    intro k' h'
                    rw [h] at h'
                    simp at h'
                    exact ⟨i, by simp, by rw [h1, h']⟩
                  cases pr
                  case description => simp [needKey] at h
                  case docString => simp [needKey] at h
                  all_goals exact gen
              · simp only
                intro hr hbf
                simp only [Bool.or_eq_false_iff] at hbf
                rw [getTokens_append_other (by rw [h1]; simp)]
                exact hpf.fresh hr hbf.1
            have same : ∀ i, i.key = .r r → ItemOk P i → FrameOk P (pr, pb) (pitems ++ [i]) := by
              intro i h1 h2
              have hh := add i h1 h2
              refine ⟨hh.all, fun h => hh.needed (by simp only at h ⊢; rw [h]; rfl), ?_⟩
              simp only
              intro hr hbf
              rw [getTokens_append_other (by rw [h1]; simp)]
              exact hpf.fresh hr hbf
            rcases hT with ⟨i, h1, h2, h3⟩ | ⟨e, h1, h2, h3⟩
            · subst h1
              simp only [hx]
              refine ⟨.inl rfl, ?_⟩
              split at ha
              · simp only [Option.some.injEq] at ha; subst ha
                exact .cons (same i h2 h3) hrest
              · simp only [Option.some.injEq] at ha; subst ha
                exact .cons (add i h2 h3) hrest
            · subst h1
              simp only [hx]
              rw [if_pos h2] at ha
              simp only [Option.some.injEq] at ha; subst ha
              exact ⟨.inr ⟨e, rfl, h3.row hf.all⟩, .cons hpf hrest⟩

/-- A rule that is open or about to be opened without its needs. -/
def AStack.pend (r : Rule) (a : AStack) (ps : List Prod) : Bool := a.pending r || ps.contains (.start r)

theorem pend_step {r : Rule} {k : Kind} {p : Prod} {ps : List Prod} {a a' : AStack} (ha : absProd k p a = some a')
    (h : a'.pend r ps = true) : a.pend r (p :: ps) = true := by
  simp only [AStack.pend, Bool.or_eq_true, List.contains_cons] at h ⊢
  rcases h with h | h
  swap
  · exact .inr (.inr h)
  simp only [AStack.pending, List.any_eq_true, Bool.and_eq_true, beq_iff_eq, Bool.not_eq_true'] at h ⊢
  obtain ⟨⟨r', b⟩, h1, h2, h3⟩ := h
  simp only at h2 h3
  subst h2; subst h3
  cases p with
  | start r0 =>
    simp only [absProd, Option.some.injEq] at ha
    subst ha
    rcases List.mem_cons.1 h1 with h1 | h1
    · simp at h1; right; left; rw [h1]
    · exact .inl ⟨_, h1, rfl, rfl⟩
  | build =>
    rcases a with _ | ⟨⟨x, xb⟩, rest⟩
    · simp [absProd] at ha
    · simp only [absProd] at ha
      left
      split at ha <;> simp only [Option.some.injEq] at ha <;> subst ha
      · exact ⟨_, h1, rfl, rfl⟩
      · rcases List.mem_cons.1 h1 with h1 | h1
        · simp only [Prod.mk.injEq] at h1
          obtain ⟨rfl, h1⟩ := h1
          have : xb = false := by cases xb with
            | true => simp at h1
            | false => rfl
          exact ⟨(r', xb), by simp, rfl, this⟩
        · exact ⟨(r', false), by simp_all, rfl, rfl⟩
  | stop r0 =>
    left
    rcases a with _ | ⟨⟨x, xb⟩, _ | ⟨⟨y, yb⟩, rest⟩⟩
    · simp [absProd] at ha
    · simp [absProd] at ha
    · simp only [absProd] at ha
      split at ha
      · simp at ha
      · split at ha <;> simp only [Option.some.injEq] at ha <;> subst ha
        · exact ⟨(r', false), List.mem_cons_of_mem _ h1, rfl, rfl⟩
        · rcases List.mem_cons.1 h1 with h1 | h1
          · simp only [Prod.mk.injEq] at h1
            obtain ⟨rfl, h1⟩ := h1
            have : yb = false := by cases yb with
              | true => simp at h1
              | false => rfl
            exact ⟨(r', yb), by simp, rfl, this⟩
          · exact ⟨(r', false), by simp_all, rfl, rfl⟩

section
variable {stop : Bool} {Q : Err → Prop} {P : Token → Prop}

/-- Errors raised while the productions run. -/
inductive ProdsOut (Q : Err → Prop) (P : Token → Prop) (stop : Bool) (c : Ctx CState BState) (a' : AStack) :
    Except Exc Unit → Ctx CState BState → Prop
  | ok {c'} : StackOk P a' c'.builder.stack → (∀ e ∈ c'.errors, Q e) → c'.matcher = c.matcher → ProdsOut Q P stop c a' (.ok ()) c'
  | single {e c'} : stop = true → RowErr P e → ProdsOut Q P stop c a' (.error (.single e)) c'
  | composite {es c'} : stop = false → (∀ e ∈ es, Q e) → ProdsOut Q P stop c a' (.error (.composite es)) c'

theorem handle_out {r : Except MExc Unit} {c : Ctx CState BState} (hr : AnswerOk P r) (hQ : ∀ e, RowErr P e → Q e)
    (hc : ∀ e ∈ c.errors, Q e) :
    (∃ es, handle (classicCfg astBuilder stop) () r c = (.ok (), { c with errors := es }) ∧ (∀ e ∈ es, Q e)) ∨
    (∃ e c', handle (classicCfg astBuilder stop) () r c = (.error (.single e), c') ∧ stop = true ∧ RowErr P e) ∨
    (∃ es c', handle (classicCfg astBuilder stop) () r c = (.error (.composite es), c') ∧ stop = false ∧ (∀ e ∈ es, Q e)) := by
  rcases hr with rfl | ⟨e, rfl, he⟩
  · exact .inl ⟨c.errors, rfl, hc⟩
  · cases stop with
    | true => right; left; exact ⟨e, c, rfl, rfl, he⟩
    | false =>
      obtain ⟨es, h1, h2 | h2⟩ := addError_all (hQ e he) hc
      · left; exact ⟨es, by simp only [handle, Bool.false_eq_true, if_false, h2], h1⟩
      · right; right; exact ⟨es, { c with errors := es }, by simp only [handle, Bool.false_eq_true, if_false, h2], rfl, h1⟩

theorem prods_ok {k : Kind} {t : Token} (hQ : ∀ e, RowErr P e → Q e) : ∀ {ps : List Prod} {a a' : AStack} {c : Ctx CState BState},
    StackOk P a c.builder.stack → absRun k ps a = some a' → (∀ e ∈ c.errors, Q e) →
    TokOk P k t (a.pend .description ps) (a.pend .docString ps) →
    ProdsOut Q P stop c a' (runProds (classicCfg astBuilder stop) ps t c).1 (runProds (classicCfg astBuilder stop) ps t c).2 := by
  intro ps
  induction ps with
  | nil =>
    intro a a' c hs ha hc ht
    simp only [absRun, Option.some.injEq] at ha
    subst ha
    exact .ok hs hc rfl
  | cons p ps ih =>
    intro a a' c hs ha hc ht
    simp only [absRun, Option.bind_eq_some_iff] at ha
    obtain ⟨a1, ha1, ha2⟩ := ha
    obtain ⟨h1, h2⟩ := prod_ok hs ha1 (ht.mono (by intro h; simp [AStack.pend, h]) (by intro h; simp [AStack.pend, h]))
    simp only [runProds]
    rw [runProd_eq]
    rcases handle_out (stop := stop) (Q := Q)
      (c := { c with builder := applyEv astBuilder c.builder (p.ev t), log := c.log ++ [p.ev t] }) h1 hQ hc with
      ⟨es, e1, e2⟩ | ⟨e, c', e1, e2, e3⟩ | ⟨es, c', e1, e2, e3⟩
    · rw [e1]
      simp only
      have := ih (c := { c with builder := applyEv astBuilder c.builder (p.ev t), log := c.log ++ [p.ev t], errors := es }) (a := a1)
        h2 ha2 e2 (ht.mono (pend_step ha1) (pend_step ha1))
      rcases hx : runProds (classicCfg astBuilder stop) ps t
        { c with builder := applyEv astBuilder c.builder (p.ev t), log := c.log ++ [p.ev t], errors := es } with ⟨r, c'⟩
      rw [hx] at this
      cases this with
      | ok h1 h2 h3 => exact .ok h1 h2 h3
      | single h1 h2 => exact .single h1 h2
      | composite h1 h2 => exact .composite h1 h2
    · rw [e1]; exact .single e2 e3
    · rw [e1]; exact .composite e2 e3

end

end Gherkin
