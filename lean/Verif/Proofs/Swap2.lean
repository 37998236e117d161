import Verif.Proofs.Swap

/-! Two parses of the same text with the same matcher and different builders: the whole parse, and the two builders of this project. -/

namespace Gherkin

namespace Swap

section
variable {μ σ₁ σ₂ ρ₁ ρ₂ : Type} {M : Matcher μ} {B₁ : Builder σ₁ ρ₁} {B₂ : Builder σ₂ ρ₂} {K : Crash → Prop} {J : σ₂ → Prop}

/-- Both ends of the two parses. -/
inductive Ends (K : Crash → Prop) : Except Exc ρ₁ → Except Exc ρ₂ → Prop
  | ok {d l} : Ends K (.ok d) (.ok l)
  | only {es l} : es ≠ [] → es.length ≤ 10 → others es = [] → Ends K (.error (.composite es)) (.ok l)
  | both {es} : es.length ≤ 10 → others es ≠ [] → Ends K (.error (.composite es)) (.error (.composite (others es)))
  | full {es r₂} : es.length = 11 → (∀ e ∈ es, Own e) ∨ (∃ x, r₂ = .error x) → Ends K (.error (.composite es)) r₂
  | own {x r₂} : K x → Ends K (.error (.crash x)) r₂
  | crash {x} : Ends K (.error (.crash x)) (.error (.crash x))
  | fuel : Ends K (.error .outOfFuel) (.error .outOfFuel)

def fin {σ ρ : Type} (B : Builder σ ρ) (c : Ctx μ σ) : Except Exc ρ × Ctx μ σ :=
  if c.errors ≠ [] then (.error (.composite c.errors), c)
  else match B.result c.builder with
    | .ok r => (.ok r, c)
    | .error (.crash k) => (.error (.crash k), c)
    | .error (.parser e) => (.error (.single e), c)

theorem swap_parse (hL : M.Lawful) (hM : Matches M) (h1 : Complains K B₁) (h2 : Silent J B₂) (text : Str) (m : μ) (b₁ : σ₁) (b₂ : σ₂) :
    Ends K (parse ⟨M, B₁, false⟩ text m b₁).1 (parse ⟨M, B₂, false⟩ text m b₂).1 := by
  have body : ∀ n, Both K J (fun _ => True)
      (fun c : Ctx μ σ₁ => bnd (runProd ⟨M, B₁, false⟩ (.start .gherkinDocument) (Token.fresh ⟨[], 0⟩) c) fun _ c =>
        bnd (parseLoop ⟨M, B₁, false⟩ n 0 c) fun _ c => runProd ⟨M, B₁, false⟩ (.stop .gherkinDocument) (Token.fresh ⟨[], 0⟩) c)
      (fun c : Ctx μ σ₂ => bnd (runProd ⟨M, B₂, false⟩ (.start .gherkinDocument) (Token.fresh ⟨[], 0⟩) c) fun _ c =>
        bnd (parseLoop ⟨M, B₂, false⟩ n 0 c) fun _ c => runProd ⟨M, B₂, false⟩ (.stop .gherkinDocument) (Token.fresh ⟨[], 0⟩) c) := fun n =>
    (runProd_both h1 h2 _ _ (.inr (by simp))).bnd fun _ _ => (parseLoop_both hL hM h1 h2 n 0).bnd fun _ _ => runProd_both h1 h2 _ _ (.inr (by simp))
  have e1 : ∀ {σ ρ : Type} (B : Builder σ ρ) (b : σ), parse ⟨M, B, false⟩ text m b =
      bnd (bnd (runProd ⟨M, B, false⟩ (.start .gherkinDocument) (Token.fresh ⟨[], 0⟩) (Ctx.init ⟨M, B, false⟩ text m b)) fun _ c =>
        bnd (parseLoop ⟨M, B, false⟩ ((Ctx.init ⟨M, B, false⟩ text m b).scanner.lines.length + 1) 0 c) fun _ c =>
          runProd ⟨M, B, false⟩ (.stop .gherkinDocument) (Token.fresh ⟨[], 0⟩) c) fun _ c => fin B c := by
    intro σ ρ B b
    unfold parse
    have hsc : ∀ c', (runProd ⟨M, B, false⟩ (.start .gherkinDocument) (Token.fresh ⟨[], 0⟩) (Ctx.init ⟨M, B, false⟩ text m b)) = (.ok (), c') →
        c'.scanner = (Ctx.init ⟨M, B, false⟩ text m b).scanner := by
      intro c' h
      rw [runProd_eq] at h
      generalize evAnswer _ _ _ = r at h
      cases r with
      | ok u => simp only [handle, Prod.mk.injEq] at h; rw [← h.2]
      | error x =>
        cases x with
        | crash k => simp [handle] at h
        | parser e =>
          simp only [handle, Bool.false_eq_true, if_false] at h
          generalize hc : ({ Ctx.init (Config.mk M B false) text m b with builder := _, log := _ } : Ctx μ σ) = c at h
          have : c.scanner = (Ctx.init ⟨M, B, false⟩ text m b).scanner := by rw [← hc]
          rcases addError_cases e c with ⟨_, k⟩ | ⟨_, _, k⟩ | ⟨_, _, k⟩ <;> rw [k] at h <;> simp at h <;> rw [← h] <;> exact this
    rcases hr : runProd ⟨M, B, false⟩ (.start .gherkinDocument) (Token.fresh ⟨[], 0⟩) (Ctx.init ⟨M, B, false⟩ text m b) with ⟨x | u, c⟩
    · rfl
    · simp only [bnd]
      rw [hsc c hr]
      rcases parseLoop ⟨M, B, false⟩ _ 0 c with ⟨x | u, c2⟩
      · rfl
      · simp only
        rcases runProd ⟨M, B, false⟩ (.stop .gherkinDocument) (Token.fresh ⟨[], 0⟩) c2 with ⟨x | u, c3⟩
        · rfl
        · rfl
  have hsim : Sim J (Ctx.init ⟨M, B₁, false⟩ text m b₁) (Ctx.init ⟨M, B₂, false⟩ text m b₂) :=
    ⟨rfl, rfl, rfl, rfl, (fun e he => by cases he), Nat.zero_le _, h2.start b₂⟩
  have hl := (body ((Ctx.init ⟨M, B₁, false⟩ text m b₁).scanner.lines.length + 1)).lock _ _ hsim
  rw [e1, e1, show (Ctx.init ⟨M, B₂, false⟩ text m b₂).scanner = (Ctx.init ⟨M, B₁, false⟩ text m b₁).scanner from rfl]
  revert hl
  generalize bnd _ _ = p
  generalize bnd _ _ = q
  intro hl
  cases hl with
  | @ok a c₁ c₂ hs =>
    simp only [bnd, fin]
    by_cases h0 : c₁.errors = []
    · have h0' : c₂.errors = [] := by rw [hs.errs, h0]; rfl
      rw [if_neg (by simp [h0]), if_neg (by simp [h0'])]
      obtain ⟨r, hr⟩ := h2.res _ hs.good
      rw [hr]
      cases ha : B₁.result c₁.builder with
      | ok d => exact .ok
      | error x =>
        cases x with
        | crash x => exact .own (h1.resCrash _ _ ha)
        | parser e => exact absurd ha (h1.res _ _)
    · rw [if_pos h0]
      by_cases h0' : c₂.errors = []
      · rw [if_neg (by simp [h0'])]
        obtain ⟨r, hr⟩ := h2.res _ hs.good
        rw [hr]
        exact .only h0 hs.few (by rw [← hs.errs, h0'])
      · rw [if_pos h0', hs.errs]
        exact .both hs.few (by rw [← hs.errs]; exact h0')
  | crash => exact .crash
  | own hk => exact .own hk
  | @full es c₁ _ he hf =>
    refine .full he ?_
    rcases hf with hf | hf
    · exact .inl hf
    · right
      rcases q with ⟨x | u, c⟩
      · exact ⟨x, rfl⟩
      · rcases hf with ⟨x, hx⟩ | hf
        · simp at hx
        · exact ⟨_, by simp only [bnd, fin]; rw [if_pos hf]⟩
  | fuel => exact .fuel

end

/-! ### The formatter -/

theorem formatter_silent : Silent (fun ts : List Token => ∀ t ∈ ts, t.type ≠ none) formatter := by
  refine ⟨?_, ?_, ?_, ?_⟩
  · intro b ev; cases ev <;> rfl
  · intro b p t hb ht
    cases p with
    | start r => exact hb
    | stop r => exact hb
    | build =>
      intro x hx
      simp only [Prod.ev, applyEv, formatter, List.mem_append, List.mem_singleton] at hx
      rcases hx with hx | rfl
      · exact hb x hx
      · rcases ht with ht | ht
        · exact ht
        · exact absurd rfl ht
  · intro b hb
    have : ∃ ls, b.mapM Fmt.formatToken = .ok ls := by
      induction b with
      | nil => exact ⟨[], rfl⟩
      | cons t b ih =>
        obtain ⟨ls, h⟩ := ih fun x hx => hb x (by simp [hx])
        have h1 : ∃ s, Fmt.formatToken t = .ok s := by
          unfold Fmt.formatToken
          by_cases he : t.eof = true
          · exact ⟨_, by rw [if_pos he]⟩
          · rw [if_neg he]
            cases ht : t.type with
            | none => exact absurd ht (hb t (by simp))
            | some k => exact ⟨_, rfl⟩
        obtain ⟨s, h1⟩ := h1
        exact ⟨s :: ls, by simp only [List.mapM_cons, h1, h]; rfl⟩
    obtain ⟨ls, h⟩ := this
    exact ⟨joinStr py"\n" ls, by show Fmt.result b = _; rw [Fmt.result, h]⟩
  · intro b x hx; cases hx

/-! ### The builder of documents -/

theorem getTableRows_err {items : List Item} {n : Nat} {x : MExc} {k : Nat} (h : AstB.getTableRows items n = (.error x, k)) :
    ∃ e, x = .parser e ∧ Worded e ∧ Own e := by
  unfold AstB.getTableRows at h
  simp only at h
  split at h
  · simp only [Prod.mk.injEq, Except.error.injEq] at h
    refine ⟨_, h.1.symm, ⟨_, py"inconsistent cell count within the table", rfl, fun _ => ⟨rfl, rfl⟩, fun hn => absurd rfl hn⟩, rfl⟩
  · simp at h

theorem transform_err {r : Rule} {items : List Item} {cs : List Comment} {n k : Nat} {x : MExc} (h : AstB.transform r items cs n = (.error x, k)) :
    (∃ e, x = .parser e ∧ Worded e ∧ Own e) ∨ ∃ c, x = .crash c ∧ c ≠ .runtimeError := by
  cases r <;> simp only [AstB.transform] at h
  case dataTable =>
    unfold AstB.mkDataTable at h
    split at h
    · rename_i e' n' he
      simp only [Prod.mk.injEq, Except.error.injEq] at h
      rw [← h.1]; exact .inl (getTableRows_err he)
    · simp only [Prod.mk.injEq, Except.error.injEq] at h; exact .inr ⟨_, h.1.symm, by simp⟩
    · simp at h
  case examplesTable =>
    unfold AstB.mkExamplesTable at h
    split at h
    · rename_i e' n' he
      simp only [Prod.mk.injEq, Except.error.injEq] at h
      rw [← h.1]; exact .inl (getTableRows_err he)
    all_goals first | (simp at h; done) | (simp only [Prod.mk.injEq, Except.error.injEq] at h; exact .inr ⟨_, h.1.symm, by simp⟩)
  all_goals right
  case step => unfold AstB.mkStep at h; repeat' (first | (simp at h; done) | (simp only [Prod.mk.injEq, Except.error.injEq] at h; exact ⟨_, h.1.symm, by simp⟩) | split at h)
  case docString => unfold AstB.mkDocString at h; repeat' (first | (simp at h; done) | (simp only [Prod.mk.injEq, Except.error.injEq] at h; exact ⟨_, h.1.symm, by simp⟩) | split at h)
  case background => unfold AstB.mkBackground at h; repeat' (first | (simp at h; done) | (simp only [Prod.mk.injEq, Except.error.injEq] at h; exact ⟨_, h.1.symm, by simp⟩) | split at h)
  case scenarioDefinition => unfold AstB.mkScenario at h; repeat' (first | (simp at h; done) | (simp only [Prod.mk.injEq, Except.error.injEq] at h; exact ⟨_, h.1.symm, by simp⟩) | split at h)
  case examplesDefinition => unfold AstB.mkExamples at h; repeat' (first | (simp at h; done) | (simp only [Prod.mk.injEq, Except.error.injEq] at h; exact ⟨_, h.1.symm, by simp⟩) | split at h)
  case description => unfold AstB.mkDescription at h; repeat' (first | (simp at h; done) | (simp only [Prod.mk.injEq, Except.error.injEq] at h; exact ⟨_, h.1.symm, by simp⟩) | split at h)
  case rule => unfold AstB.mkRule at h; repeat' (first | (simp at h; done) | (simp only [Prod.mk.injEq, Except.error.injEq] at h; exact ⟨_, h.1.symm, by simp⟩) | split at h)
  case feature => unfold AstB.mkFeature at h; repeat' (first | (simp at h; done) | (simp only [Prod.mk.injEq, Except.error.injEq] at h; exact ⟨_, h.1.symm, by simp⟩) | split at h)
  all_goals simp at h

theorem astBuilder_complains : Complains (fun x => x ≠ .runtimeError) astBuilder := by
  have main : ∀ b ev x, evAnswer astBuilder b ev = .error x → (∃ e, x = .parser e ∧ Worded e ∧ Own e) ∨ ∃ c, x = .crash c ∧ c ≠ .runtimeError := by
    intro b ev x h
    cases ev with
    | take l => simp [evAnswer] at h
    | start r => simp [evAnswer, astBuilder, AstB.startRule] at h
    | stop r =>
      simp only [evAnswer, astBuilder, AstB.endRule] at h
      split at h
      · simp only [Except.error.injEq] at h; exact .inr ⟨_, h.symm, by simp⟩
      · simp only [Except.error.injEq] at h; exact .inr ⟨_, h.symm, by simp⟩
      · split at h
        · simp at h
        · rename_i e' n' he
          simp only [Except.error.injEq] at h
          subst h
          exact transform_err he
    | build t =>
      simp only [evAnswer, astBuilder, AstB.build] at h
      split at h
      · simp at h
      · split at h
        all_goals first | (simp at h; done) | (simp only [Except.error.injEq] at h; exact .inr ⟨_, h.symm, by simp⟩)
  refine ⟨?_, ?_, astBuilder_apart.res, ?_⟩
  · intro b ev e h
    rcases main b ev _ h with ⟨e', h1, h2⟩ | ⟨c, h1, _⟩
    · simp only [MExc.parser.injEq] at h1; rw [h1]; exact h2
    · simp at h1
  · intro b ev x h
    rcases main b ev _ h with ⟨e', h1, h2⟩ | ⟨c, h1, h2⟩
    · simp at h1
    · simp only [MExc.crash.injEq] at h1; rw [h1]; exact h2
  · intro b x h
    simp only [astBuilder, AstB.result] at h
    repeat' (first | (simp at h; done) | (simp only [Except.error.injEq, MExc.crash.injEq] at h; rw [← h]; simp; done) | split at h)

/-! ### The matchers -/

theorem classic_matches : Matches classic := by
  intro k t m e h
  have h : (Classic.matchKind k t m).1 = .error (.parser e) := h
  have : ∃ n l a, e = Err.mkNoSuchLanguage n l a := by
    by_cases hk : k = .language
    · subst hk
      revert h
      simp only [Classic.matchKind, Classic.matchLanguage]
      split
      · simp
      · split
        · simp
        · intro h; simp only [Except.error.injEq, MExc.parser.injEq] at h; exact ⟨_, _, _, h.symm⟩
    · exact absurd h (Classic.matchKind_noparser hk t m e)
  obtain ⟨n, l, a, rfl⟩ := this
  have hn : ¬ Own (Err.mkNoSuchLanguage n l a) := by simp [Own, Err.mkNoSuchLanguage]
  exact ⟨⟨_, _, rfl, fun h => absurd h hn, fun _ => by simp⟩, hn⟩

theorem markdown_matches : Matches markdown := fun k t m e h => absurd h (Md.matchKind_noparser k t m e)

end Swap

end Gherkin
