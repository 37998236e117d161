import Verif.Proofs.Refine3

/-! The lines taken by the classic parser. -/

namespace Gherkin

section
variable {σ ρ : Type} {cfg : Config CState σ ρ}

theorem addError_log {μ : Type} (e : Err) (c : Ctx μ σ) : (addError e c).2.log = c.log := by
  rcases addError_cases e c with ⟨_, h⟩ | ⟨_, _, h⟩ | ⟨_, _, h⟩ <;> rw [h]

theorem pure_try_takes (rows : List Trans) (t : Token) (rest : List Line) (c : Ctx CState σ) :
    takes (Pure.try_ cfg rows t rest c).2.2.log = takes c.log := by
  induction rows generalizing t c with
  | nil => rfl
  | cons tr trs ih =>
    unfold Pure.try_ Pure.test
    have hm := (matchTok_frame (cfg := cfg) tr.kind t c)
    rcases hm' : matchTok cfg tr.kind t c with ⟨r, t1, c1⟩
    rw [hm'] at hm
    have hlog : c1.log = c.log := by have := hm.2.2.2; simpa using this
    have hp := runProds_takes (cfg := cfg) tr.prods t1 c1
    cases r with
    | error x => simp only; rw [hlog]
    | ok b =>
      cases b with
      | false => simp only; rw [ih, hlog]
      | true =>
        cases tr.la with
        | none =>
          simp only
          rcases hr : runProds cfg tr.prods t1 c1 with ⟨r, c2⟩
          rw [hr, hlog] at hp
          cases r <;> exact hp
        | some la =>
          simp only
          cases Pure.peek la c1.matcher rest with
          | error x => simp only; rw [hlog]
          | ok b =>
            cases b with
            | false => simp only; rw [ih, hlog]
            | true =>
              simp only
              rcases hr : runProds cfg tr.prods t1 c1 with ⟨r, c2⟩
              rw [hr, hlog] at hp
              cases r <;> exact hp

theorem pure_step_takes (q : Nat) (l : Line) (rest : List Line) (c : Ctx CState σ) :
    takes (Pure.step cfg q l rest c).2.log = takes c.log := by
  unfold Pure.step
  cases table q with
  | none => rfl
  | some row =>
    simp only
    have h := pure_try_takes (cfg := cfg) row.trans (Token.fresh l) rest c
    rcases hm : Pure.try_ cfg row.trans (Token.fresh l) rest c with ⟨r, t1, c1⟩
    rw [hm] at h
    cases r with
    | error x => exact h
    | ok o =>
      cases o with
      | some x => exact h
      | none =>
        simp only
        split
        · exact h
        · have ha := addError_log (unexpected row.expected t1) c1
          rcases hae : addError (unexpected row.expected t1) c1 with ⟨z, c2⟩
          rw [hae] at ha
          simp only at ha
          cases z <;> (simp only; rw [ha]; exact h)

theorem pure_loop_takes (lines : List Line) : ∀ (q : Nat) (c : Ctx CState σ), (lines = [] ∨ Numbered lines) →
    ∃ done, done <+: lines ∧ takes (Pure.loop cfg lines q c).2.log = takes c.log ++ done ∧
      (∀ q', (Pure.loop cfg lines q c).1 = .ok q' → done = lines) := by
  induction lines with
  | nil => intro q c _; exact ⟨[], by simp, by simp [Pure.loop], by simp⟩
  | cons l rest ih =>
    intro q c hn
    have hn : Numbered (l :: rest) := by rcases hn with h | h; · simp at h
                                         · exact h
    unfold Pure.loop
    have hs := pure_step_takes (cfg := cfg) q l rest { c with log := c.log ++ [.take l] }
    rcases hm : Pure.step cfg q l rest { c with log := c.log ++ [.take l] } with ⟨r, c2⟩
    rw [hm] at hs
    have hs' : takes c2.log = takes c.log ++ [l] := by simpa [takes_append, takes] using hs
    clear hs
    cases r with
    | error x => exact ⟨[l], by simp, hs', by simp⟩
    | ok q' =>
      simp only
      cases he : l.isEof with
      | true =>
        simp only [if_true]
        refine ⟨[l], by simp, hs', ?_⟩
        intro _ _
        cases rest with
        | nil => rfl
        | cons a b =>
          have := hn.eof l (by simp)
          rw [he] at this; simp at this
      | false =>
        simp only [Bool.false_eq_true, if_false]
        obtain ⟨done, h1, h2, h3⟩ := ih q' c2 (.inr (hn.tail he))
        refine ⟨l :: done, by simpa using h1, by rw [h2, hs']; simp, ?_⟩
        intro q'' h
        rw [h3 q'' h]

/-- A composite exception raised in the middle of a parse holds more than ten errors. -/
def Big (x : Exc) : Prop := ∀ es, x = .composite es → 10 < es.length

theorem addError_big {μ : Type} {e : Err} {c c' : Ctx μ σ} {x : Exc} (h : addError e c = (.error x, c')) : Big x := by
  rcases addError_cases e c with ⟨_, h1⟩ | ⟨_, _, h1⟩ | ⟨_, h2, h1⟩ <;> rw [h1] at h
  · simp at h
  · simp at h
  · simp at h
    rw [← h.1]
    rintro es ⟨⟩
    simp; omega

theorem handle_big {μ α : Type} {cfg : Config μ σ ρ} {d : α} {r : Except MExc α} {c c' : Ctx μ σ} {x : Exc}
    (h : handle cfg d r c = (.error x, c')) : Big x := by
  unfold handle at h
  split at h
  · simp at h
  · cases h; intro es h; simp at h
  · rename_i e
    split at h
    · cases h; intro es h; simp at h
    · rcases ha : addError e c with ⟨z, c1⟩
      rw [ha] at h
      cases z with
      | ok u => simp at h
      | error y => cases h; exact addError_big ha

theorem matchTok_big {μ : Type} {cfg : Config μ σ ρ} {k : Kind} {t t' : Token} {c c' : Ctx μ σ} {x : Exc}
    (h : matchTok cfg k t c = (.error x, t', c')) : Big x := by
  unfold matchTok at h
  split at h
  · simp at h
  · simp only at h
    rcases hh : handle cfg false (cfg.matcher.match_ k t c.matcher).1
      { c with matcher := (cfg.matcher.match_ k t c.matcher).2.2,
               errors := syncErrors (cfg.matcher.match_ k t c.matcher).2.1 c.errors } with ⟨r, c1⟩
    rw [hh] at h
    cases h
    exact handle_big hh

theorem runProds_big {μ : Type} {cfg : Config μ σ ρ} {ps : List Prod} {t : Token} : ∀ {c c' : Ctx μ σ} {x : Exc},
    runProds cfg ps t c = (.error x, c') → Big x := by
  induction ps with
  | nil => intro c c' x h; simp [runProds] at h
  | cons p ps ih =>
    intro c c' x h
    unfold runProds at h
    rcases hp : runProd cfg p t c with ⟨r, c1⟩
    rw [hp] at h
    cases r with
    | ok u => exact ih h
    | error y =>
      cases h
      rw [runProd_eq] at hp
      exact handle_big hp

theorem pure_try_big {rows : List Trans} {rest : List Line} : ∀ {t t' : Token} {c c' : Ctx CState σ} {x : Exc},
    Pure.try_ cfg rows t rest c = (.error x, t', c') → Big x := by
  induction rows with
  | nil => intro t t' c c' x h; simp [Pure.try_] at h
  | cons tr trs ih =>
    intro t t' c c' x h
    unfold Pure.try_ Pure.test at h
    rcases hm : matchTok cfg tr.kind t c with ⟨r, t1, c1⟩
    rw [hm] at h
    cases r with
    | error y => cases h; exact matchTok_big hm
    | ok b =>
      cases b with
      | false => exact ih h
      | true =>
        cases hla : tr.la with
        | none =>
          rw [hla] at h
          simp only at h
          rcases hr : runProds cfg tr.prods t1 c1 with ⟨r, c2⟩
          rw [hr] at h
          cases r with
          | ok u => simp at h
          | error y => cases h; exact runProds_big hr
        | some la =>
          rw [hla] at h
          simp only at h
          cases hpk : Pure.peek la c1.matcher rest with
          | error y => rw [hpk] at h; cases h; intro es h; simp at h
          | ok b =>
            rw [hpk] at h
            cases b with
            | false => exact ih h
            | true =>
              simp only at h
              rcases hr : runProds cfg tr.prods t1 c1 with ⟨r, c2⟩
              rw [hr] at h
              cases r with
              | ok u => simp at h
              | error y => cases h; exact runProds_big hr

theorem pure_step_big {q : Nat} {l : Line} {rest : List Line} {c c' : Ctx CState σ} {x : Exc}
    (h : Pure.step cfg q l rest c = (.error x, c')) : Big x := by
  unfold Pure.step at h
  cases hq : table q with
  | none => rw [hq] at h; cases h; intro es h; simp at h
  | some row =>
    rw [hq] at h
    simp only at h
    rcases hm : Pure.try_ cfg row.trans (Token.fresh l) rest c with ⟨r, t1, c1⟩
    rw [hm] at h
    cases r with
    | error y => cases h; exact pure_try_big hm
    | ok o =>
      cases o with
      | some y => simp at h
      | none =>
        simp only at h
        split at h
        · cases h; intro es h; simp at h
        · rcases ha : addError (unexpected row.expected t1) c1 with ⟨z, c2⟩
          rw [ha] at h
          cases z with
          | ok u => simp at h
          | error y => cases h; exact addError_big ha

theorem pure_loop_big {lines : List Line} : ∀ {q : Nat} {c c' : Ctx CState σ} {x : Exc},
    Pure.loop cfg lines q c = (.error x, c') → Big x := by
  induction lines with
  | nil => intro q c c' x h; simp [Pure.loop] at h
  | cons l rest ih =>
    intro q c c' x h
    unfold Pure.loop at h
    rcases hm : Pure.step cfg q l rest { c with log := c.log ++ [.take l] } with ⟨r, c2⟩
    rw [hm] at h
    cases r with
    | error y => cases h; exact pure_step_big hm
    | ok q' =>
      simp only at h
      split at h
      · simp at h
      · exact ih h

/-- The lines the queue-free parser takes: a prefix of the lines, all of them unless the run was cut short. -/
theorem pure_parse_takes {lines : List Line} (hn : Numbered lines) (m : CState) (b : σ) :
    takes (Pure.parse cfg lines m b).2.log <+: lines ∧
    ((∃ r, (Pure.parse cfg lines m b).1 = .ok r) → takes (Pure.parse cfg lines m b).2.log = lines) ∧
    (∀ es, (Pure.parse cfg lines m b).1 = .error (.composite es) → es.length ≤ 10 →
      takes (Pure.parse cfg lines m b).2.log = lines) := by
  have key : ∀ (p : Prod) (c c' : Ctx CState σ) (r : Except Exc Unit),
      runProd cfg p (Token.fresh ⟨[], 0⟩) c = (r, c') → takes c'.log = takes c.log := by
    intro p c c' r h
    have h2 : takes (runProd cfg p (Token.fresh ⟨[], 0⟩) c).2.log = takes c.log := by
      rw [runProd_eq, (handle_ctx (cfg := cfg) _ _ _).2.2.2.2]
      simp [takes_append, takes_ev]
    rw [h] at h2; exact h2
  have big : ∀ (p : Prod) (c c' : Ctx CState σ) x, runProd cfg p (Token.fresh ⟨[], 0⟩) c = (.error x, c') → Big x := by
    intro p c c' x h
    rw [runProd_eq] at h
    exact handle_big h
  unfold Pure.parse
  rcases hr : runProd cfg (.start .gherkinDocument) (Token.fresh ⟨[], 0⟩)
    { scanner := ⟨[], 0⟩, matcher := cfg.matcher.reset m, queue := [], errors := [], builder := cfg.builder.reset b,
      log := [] } with ⟨r, c⟩
  have h0 : takes c.log = [] := key _ _ _ _ hr
  cases r with
  | error x =>
    simp only
    rw [h0]
    refine ⟨by simp, by simp, ?_⟩
    intro es h hlen
    cases h
    have := big _ _ _ _ hr es rfl
    omega
  | ok u =>
    simp only
    obtain ⟨done, h1, h2, h3⟩ := pure_loop_takes (cfg := cfg) lines 0 c (.inr hn)
    rcases hl : Pure.loop cfg lines 0 c with ⟨r1, c1⟩
    rw [hl, h0] at h2
    rw [hl] at h3
    simp only [List.nil_append] at h2 h3
    cases r1 with
    | error x =>
      simp only
      rw [h2]
      refine ⟨h1, by simp, ?_⟩
      intro es h hlen
      cases h
      have := pure_loop_big hl es rfl
      omega
    | ok q =>
      simp only
      have hd := h3 q rfl
      subst hd
      rcases hp : runProd cfg (.stop .gherkinDocument) (Token.fresh ⟨[], 0⟩) c1 with ⟨r2, c2⟩
      have h4 := key _ _ _ _ hp
      rw [h2] at h4
      cases r2 with
      | error x => simp only; rw [h4]; exact ⟨by simp, by simp, fun _ _ _ => rfl⟩
      | ok u =>
        simp only
        split
        · simp only; rw [h4]; exact ⟨by simp, by simp, fun _ _ _ => rfl⟩
        · rcases cfg.builder.result c2.builder with x | r
          · cases x <;> (simp only; rw [h4]; exact ⟨by simp, by simp, fun _ _ _ => rfl⟩)
          · simp only; rw [h4]; exact ⟨by simp, by simp, fun _ _ _ => rfl⟩

end

end Gherkin
