import Verif.Proofs.Total3
import Verif.Proofs.MdOrder
import Verif.Proofs.Bad

/-! The driver with any matcher, for tokens of the text only: the cases of one step. -/

namespace Gherkin

section
variable {μ σ ρ : Type} {cfg : Config μ σ ρ} {T : Token → Prop}

/-- Like `MatchClosed`, for tokens with property `T` only. -/
structure MatchClosedT (cfg : Config μ σ ρ) (T : Token → Prop) (J : Ctx μ σ → Ctx μ σ → Prop) (E : Ctx μ σ → Exc → Ctx μ σ → Prop) :
    Prop where
  keep : ∀ {t t'}, T t → t'.line = t.line → t'.loc.line = t.loc.line → T t'
  refl : ∀ c, J c c
  trans : ∀ {a b c}, J a b → J b c → J a c
  transE : ∀ {a b x c}, J a b → E b x c → E a x c
  tok : ∀ {k t c b t' c'}, T t → matchTok cfg k t c = (.ok b, t', c') → J c c'
  tokE : ∀ {k t c x t' c'}, T t → matchTok cfg k t c = (.error x, t', c') → E c x c'
  la : ∀ {l c b c'}, lookahead cfg l c = (.ok b, c') → J c c'
  laE : ∀ {l c x c'}, lookahead cfg l c = (.error x, c') → E c x c'

theorem tryTrans_casesT (hL : cfg.matcher.Lawful) {J : Ctx μ σ → Ctx μ σ → Prop} {E : Ctx μ σ → Exc → Ctx μ σ → Prop}
    (hJ : MatchClosedT cfg T J E) (rows : List Trans) (t : Token) (hT : T t) (c : Ctx μ σ) :
    TryResult cfg J E rows t c (tryTrans cfg rows t c).1 (tryTrans cfg rows t c).2.1 (tryTrans cfg rows t c).2.2 := by
  induction rows generalizing t c with
  | nil => exact .none (hJ.refl c) rfl rfl (by simp)
  | cons tr trs ih =>
    -- the transition's test failed: go on
    have cont : ∀ t1 c1, J c c1 → t1.line = t.line → t1.loc.line = t.loc.line →
        (tr.la = none → ∃ t0 t1 c0 c1, J c c0 ∧ t0.line = t.line ∧ matchTok cfg tr.kind t0 c0 = (.ok false, t1, c1)) →
        TryResult cfg J E (tr :: trs) t c (tryTrans cfg trs t1 c1).1 (tryTrans cfg trs t1 c1).2.1
          (tryTrans cfg trs t1 c1).2.2 := by
      intro t1 c1 hj hl hll hf
      have := ih t1 (hJ.keep hT hl hll) c1
      rcases htr : tryTrans cfg trs t1 c1 with ⟨r', t', c'⟩
      rw [htr] at this
      simp only at this ⊢
      cases this with
      | fail h => exact .fail (hJ.transE hj h)
      | none h1 h2 h3 h4 =>
        refine .none (hJ.trans hj h1) (h2.trans hl) (h3.trans hll) ?_
        intro tr' htr' hla
        rcases List.mem_cons.1 htr' with h | h
        · subst h; exact hf hla
        · obtain ⟨a, b, d, e, ha, hb, hc⟩ := h4 tr' h hla
          exact ⟨a, b, d, e, hJ.trans hj ha, hb.trans hl, hc⟩
      | taken h1 h2 h3 h4 h5 h6 h7 h8 h9 h10 h11 h12 =>
        rename_i pre tr' post t0 c0 c2 c3
        refine .taken (pre := tr :: pre) (by rw [h1]; rfl) (hJ.trans hj h2) (hJ.trans hj h3) (h4.trans hl)
          (h5.trans hl) (h6.trans hll) h7 h8 h9 (hJ.trans hj h10) ?_ h12
        intro tr'' htr' hla
        rcases List.mem_cons.1 htr' with h | h
        · subst h; exact hf hla
        · obtain ⟨a, b, d, e, ha, hb, hc⟩ := h11 tr'' h hla
          exact ⟨a, b, d, e, hJ.trans hj ha, hb.trans hl, hc⟩
    have hline := matchTok_line hL tr.kind t c
    have hlocl := matchTok_locLine hL tr.kind t c
    rcases hm : matchTok cfg tr.kind t c with ⟨r, t1, c1⟩
    rw [hm] at hline hlocl
    unfold tryTrans testTrans
    rw [hm]
    cases r with
    | error x => exact .fail (hJ.tokE hT hm)
    | ok b =>
      have hj1 := hJ.tok hT hm
      cases b with
      | false => exact cont t1 c1 hj1 hline hlocl (fun _ => ⟨t, t1, c, c1, hJ.refl c, rfl, hm⟩)
      | true =>
        cases hla : tr.la with
        | none =>
          simp only
          rcases hp : runProds cfg tr.prods t1 c1 with ⟨r, c2⟩
          cases r with
          | ok u =>
            simp only
            exact .taken (pre := []) rfl (hJ.refl c) hj1 rfl hline hlocl hm (by simp [hla]) (fun _ => rfl) hj1 (by simp)
              (.inl ⟨rfl, hp⟩)
          | error x =>
            simp only
            exact .taken (pre := []) rfl (hJ.refl c) hj1 rfl hline hlocl hm (by simp [hla]) (fun _ => rfl) hj1 (by simp)
              (.inr ⟨x, rfl, hp⟩)
        | some l =>
          simp only
          rcases hl : lookahead cfg l c1 with ⟨r, c2⟩
          cases r with
          | error x => exact .fail (hJ.transE hj1 (hJ.laE hl))
          | ok b =>
            have hj2 := hJ.trans hj1 (hJ.la hl)
            cases b with
            | false => exact cont t1 c2 hj2 hline hlocl (by simp [hla])
            | true =>
              simp only
              rcases hp : runProds cfg tr.prods t1 c2 with ⟨r, c3⟩
              cases r with
              | ok u =>
                simp only
                exact .taken (pre := []) rfl (hJ.refl c) hj1 rfl hline hlocl hm
                  (by intro l' h'; rw [hla] at h'; cases h'; exact hl) (by simp [hla]) hj2 (by simp) (.inl ⟨rfl, hp⟩)
              | error x =>
                simp only
                exact .taken (pre := []) rfl (hJ.refl c) hj1 rfl hline hlocl hm
                  (by intro l' h'; rw [hla] at h'; cases h'; exact hl) (by simp [hla]) hj2 (by simp)
                  (.inr ⟨x, rfl, hp⟩)

/-- Like `StepResult`; an unexpected token is one for which no transition was taken. -/
inductive StepResultT (cfg : Config μ σ ρ) (J : Ctx μ σ → Ctx μ σ → Prop) (E : Ctx μ σ → Exc → Ctx μ σ → Prop)
    (q : Nat) (t : Token) (c : Ctx μ σ) : Except Exc Nat → Ctx μ σ → Prop
  | noState : table q = none → StepResultT cfg J E q t c (.error (.crash .runtimeError)) c
  | matchExc {row x c'} : table q = some row → E c x c' → StepResultT cfg J E q t c (.error x) c'
  | taken {row pre tr post t0 t' c0 c1 c2 c' r} : table q = some row → row.trans = pre ++ tr :: post →
      J c c0 → J c c1 → t0.line = t.line → t'.line = t.line → t'.loc.line = t.loc.line →
      matchTok cfg tr.kind t0 c0 = (.ok true, t', c1) →
      (∀ l, tr.la = some l → lookahead cfg l c1 = (.ok true, c2)) → (tr.la = Option.none → c2 = c1) → J c c2 →
      (∀ tr' ∈ pre, tr'.la = none → ∃ t0 t1 c0 c1, J c c0 ∧ t0.line = t.line ∧
        matchTok cfg tr'.kind t0 c0 = (.ok false, t1, c1)) →
      (r = .ok tr.target ∧ runProds cfg tr.prods t' c2 = (.ok (), c') ∨
        ∃ x, r = .error x ∧ runProds cfg tr.prods t' c2 = (.error x, c')) →
      StepResultT cfg J E q t c r c'
  | unexpected {row t' c1 c' r} : table q = some row → (tryTrans cfg row.trans t c).1 = .ok none → J c c1 → t'.line = t.line → t'.loc.line = t.loc.line →
      (∀ tr ∈ row.trans, tr.la = none → ∃ t0 t1 c0 c1, J c c0 ∧ t0.line = t.line ∧
        matchTok cfg tr.kind t0 c0 = (.ok false, t1, c1)) →
      (cfg.stop = true ∧ r = .error (.single (Gherkin.unexpected row.expected t')) ∧ c' = c1 ∨
       cfg.stop = false ∧ r = .ok row.stay ∧ addError (Gherkin.unexpected row.expected t') c1 = (.ok (), c') ∨
       cfg.stop = false ∧ ∃ x, r = .error x ∧ addError (Gherkin.unexpected row.expected t') c1 = (.error x, c')) →
      StepResultT cfg J E q t c r c'

theorem matchToken_casesT (hL : cfg.matcher.Lawful) {J : Ctx μ σ → Ctx μ σ → Prop} {E : Ctx μ σ → Exc → Ctx μ σ → Prop}
    (hJ : MatchClosedT cfg T J E) (q : Nat) (t : Token) (hT : T t) (c : Ctx μ σ) :
    StepResultT cfg J E q t c (matchToken cfg q t c).1 (matchToken cfg q t c).2 := by
  unfold matchToken
  split
  · rename_i h; exact .noState h
  · rename_i row hrow
    have h := tryTrans_casesT hL hJ row.trans t hT c
    rcases htr : tryTrans cfg row.trans t c with ⟨r, t', c'⟩
    rw [htr] at h
    simp only at h ⊢
    cases h with
    | fail h => exact .matchExc hrow h
    | none h1 h2 h3 h4 =>
      simp only
      split
      · rename_i hs
        exact .unexpected hrow (by rw [htr]) h1 h2 h3 h4 (.inl ⟨hs, rfl, rfl⟩)
      · rename_i hs
        simp at hs
        rcases ha : addError (unexpected row.expected t') c' with ⟨z, c2⟩
        cases z with
        | ok u => exact .unexpected hrow (by rw [htr]) h1 h2 h3 h4 (.inr (.inl ⟨hs, rfl, ha⟩))
        | error x => exact .unexpected hrow (by rw [htr]) h1 h2 h3 h4 (.inr (.inr ⟨hs, x, rfl, ha⟩))
    | taken h1 h2 h3 h4 h5 h6 h7 h8 h9 h10 h11 h12 =>
      rcases h12 with ⟨rfl, hp⟩ | ⟨x, rfl, hp⟩
      · exact .taken hrow h1 h2 h3 h4 h5 h6 h7 h8 h9 h10 h11 (.inl ⟨rfl, hp⟩)
      · exact .taken hrow h1 h2 h3 h4 h5 h6 h7 h8 h9 h10 h11 (.inr ⟨x, rfl, hp⟩)

end

end Gherkin
