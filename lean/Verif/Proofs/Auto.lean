import Verif.Proofs.Order

/-! The classic parser on texts without errors, as an automaton over lines: no token queue, no builder, no error list. -/

namespace Gherkin

namespace Auto

/-- The first transition whose test succeeds on line `l`, given the lines to come; with its token and the matcher afterwards. -/
def pick : List Trans → Line → List Line → CState → Option (Trans × Token × CState)
  | [], _, _, _ => none
  | tr :: trs, l, rest, m =>
    if tr.kind ≠ .eof ∧ l.isEof = true then pick trs l rest m
    else match Classic.matchKind tr.kind (Token.fresh l) m with
      | (.ok true, t, m') =>
        match tr.la with
        | none => some (tr, t, m')
        | some la =>
          match Pure.peek la m' rest with
          | .ok true => some (tr, t, m')
          | .ok false => pick trs l rest m'
          | .error _ => none
      | (.ok false, _, _) => pick trs l rest m
      | (.error _, _, _) => none

/-- One step: state, line, lines to come, matcher. -/
def step (q : Nat) (l : Line) (rest : List Line) (m : CState) : Option (Trans × Token × CState) :=
  match table q with
  | none => none
  | some row => pick row.trans l rest m

/-- What happened to a line: the state it was read in, the transition taken, the token. -/
structure Move where
  state : Nat
  tr : Trans
  tok : Token

/-- A run over lines. -/
inductive Run : Nat → CState → List Line → List Move → Nat → CState → Prop
  | nil (q m) : Run q m [] [] q m
  | last {q m l rest tr t m'} : step q l rest m = some (tr, t, m') → l.isEof = true →
      Run q m (l :: rest) [⟨q, tr, t⟩] tr.target m'
  | cons {q m l rest tr t m' mv q' m''} : step q l rest m = some (tr, t, m') → l.isEof = false →
      Run tr.target m' rest mv q' m'' → Run q m (l :: rest) (⟨q, tr, t⟩ :: mv) q' m''

/-- The events of a move. -/
def Move.evs (mv : Move) : List Ev := .take mv.tok.line :: mv.tr.prods.map (Prod.ev mv.tok)

end Auto

section
variable {σ ρ : Type} {B : Builder σ ρ} {stop : Bool}

theorem matchTok_clean (k : Kind) {t : Token} {l : Line} (ht : t.Of l) {c : Ctx CState σ} (hc : c.errors = []) :
    matchTok (classicCfg B stop) k t c =
      if k ≠ .eof ∧ l.isEof = true then (.ok false, t, c)
      else match Classic.matchKind k (Token.fresh l) c.matcher with
        | (.ok true, t', m') => (.ok true, t', { c with matcher := m' })
        | (.ok false, _, _) => (.ok false, t, c)
        | (.error e, t', m') =>
          match handle (classicCfg B stop) false (.error e) { c with matcher := m' } with
          | (r, c') => (r, (Classic.matchKind k t c.matcher).2.1, c') := by
  have hI := Classic.indep k ht c.matcher
  have hte : t.eof = l.isEof := by rw [Token.eof, ht.1]
  have hF := @Classic.matchKind_false k t c.matcher
  unfold matchTok
  rw [hte]
  by_cases hk : k ≠ .eof ∧ l.isEof = true
  · rw [if_pos hk, if_pos hk]
  · rw [if_neg hk, if_neg hk]
    simp only [classicCfg, classic]
    rcases hm : Classic.matchKind k t c.matcher with ⟨r, t1, m1⟩
    rcases hm0 : Classic.matchKind k (Token.fresh l) c.matcher with ⟨r0, t0, m0⟩
    have e1 := hI.res; have e2 := hI.st; have e3 := hI.tokTrue
    rw [hm, hm0] at e1 e2 e3
    rw [hm] at hF
    simp only at e1 e2 e3 hF
    subst e1; subst e2
    simp only [hc, syncErrors_nil]
    cases r with
    | error e => simp only
    | ok b =>
      cases b with
      | true => simp only [handle, e3 rfl]
      | false =>
        obtain ⟨f1, f2⟩ := hF rfl
        simp only [handle, f1, f2]; cases c; simp at hc; simp [hc]

theorem handle_err_false {e : MExc} {c c' : Ctx CState σ} {b : Bool} (hc : c.errors = [])
    (h : handle (classicCfg B stop) false (.error e) c = (.ok b, c')) : b = false ∧ c'.errors ≠ [] := by
  rcases handle_ok h with ⟨h1, _⟩ | ⟨e', h1, h2, rfl, h3⟩
  · simp at h1
  · refine ⟨rfl, ?_⟩
    rcases addError_cases e' c with ⟨h4, h5⟩ | ⟨_, _, h5⟩ | ⟨_, _, h5⟩
    · rw [hc] at h4; simp at h4
    · rw [h5] at h3; cases h3; simp
    · rw [h5] at h3; simp at h3

/-- Errors only grow in `Pure.try_`. -/
theorem pure_try_errors {rest : List Line} : ∀ {rows : List Trans} {t t' : Token} {c c' : Ctx CState σ} {x : Option Nat},
    Pure.try_ (classicCfg B stop) rows t rest c = (.ok x, t', c') → Grows c.errors c'.errors := by
  intro rows
  induction rows with
  | nil => intro t t' c c' x h; simp [Pure.try_] at h; rw [h.2.2]; exact .refl _
  | cons tr trs ih =>
    intro t t' c c' x h
    simp only [Pure.try_, Pure.test] at h
    rcases hm : matchTok (classicCfg B stop) tr.kind t c with ⟨r, t1, c1⟩
    rw [hm] at h
    have hg := (matchTok_errors hm).1
    cases r with
    | error e => simp at h
    | ok b =>
      replace hg := hg b rfl
      cases b with
      | false => simp only at h; exact hg.trans (ih h)
      | true =>
        simp only at h
        have fin : ∀ {t1}, (match runProds (classicCfg B stop) tr.prods t1 c1 with
            | (.ok (), c'') => ((.ok (some tr.target) : Except Exc (Option Nat)), t1, c'')
            | (.error x, c'') => (.error x, t1, c'')) = (.ok x, t', c') → Grows c.errors c'.errors := by
          intro t1 h
          rcases hr : runProds (classicCfg B stop) tr.prods t1 c1 with ⟨y, c2⟩
          rw [hr] at h
          cases y with
          | error e => simp at h
          | ok u => simp at h; rw [← h.2.2]; exact hg.trans (runProds_spec hr).2.2.1
        cases hla : tr.la with
        | none => rw [hla] at h; exact fin h
        | some la =>
          rw [hla] at h
          simp only at h
          cases hp : Pure.peek la c1.matcher rest with
          | error e => rw [hp] at h; simp at h
          | ok b =>
            rw [hp] at h
            cases b with
            | false => simp only at h; exact hg.trans (ih h)
            | true => exact fin h

theorem matched_of {k : Kind} {l : Line} {m m' : CState} {t : Token} (h : Classic.matchKind k (Token.fresh l) m = (.ok true, t, m')) :
    t.Of l := by
  have h1 := classic_lawful.line k (Token.fresh l) m
  have h2 := classic_lawful.locLine k (Token.fresh l) m
  simp only [classic] at h1 h2
  rw [h] at h1 h2
  exact ⟨h1, h2⟩

theorem try_sound {rest : List Line} {l : Line} : ∀ {rows : List Trans} {t t' : Token} {c c' : Ctx CState σ} {q' : Nat}, t.Of l →
    c.errors = [] → Pure.try_ (classicCfg B stop) rows t rest c = (.ok (some q'), t', c') → c'.errors = [] →
    ∃ tr m', Auto.pick rows l rest c.matcher = some (tr, t', m') ∧ tr.target = q' ∧
      runProds (classicCfg B stop) tr.prods t' { c with matcher := m' } = (.ok (), c') := by
  intro rows
  induction rows with
  | nil => intro t t' c c' q' _ _ h; simp [Pure.try_] at h
  | cons tr trs ih =>
    intro t t' c c' q' ht hc h hc'
    simp only [Pure.try_, Pure.test, matchTok_clean tr.kind ht hc] at h
    simp only [Auto.pick]
    by_cases hk : tr.kind ≠ .eof ∧ l.isEof = true
    · rw [if_pos hk] at h ⊢
      exact ih ht hc h hc'
    · rw [if_neg hk] at h ⊢
      rcases hm : Classic.matchKind tr.kind (Token.fresh l) c.matcher with ⟨r, t0, m0⟩
      rw [hm] at h
      cases r with
      | error e =>
        simp only at h
        rcases hh : handle (classicCfg B stop) false (.error e) { c with matcher := m0 } with ⟨r, c1⟩
        rw [hh] at h
        simp only at h
        cases r with
        | error x => simp at h
        | ok b =>
          obtain ⟨rfl, hne⟩ := handle_err_false (by exact hc) hh
          simp only at h
          exact absurd ((pure_try_errors h).nil hc') hne
      | ok b =>
        cases b with
        | false => simp only at h ⊢; exact ih ht hc h hc'
        | true =>
          simp only at h ⊢
          have fin : (match runProds (classicCfg B stop) tr.prods t0 { c with matcher := m0 } with
            | (.ok (), c'') => ((.ok (some tr.target) : Except Exc (Option Nat)), t0, c'')
            | (.error x, c'') => (.error x, t0, c'')) = (.ok (some q'), t', c') →
              ∃ tr' m', some (tr, t0, m0) = some (tr', t', m') ∧ tr'.target = q' ∧
                runProds (classicCfg B stop) tr'.prods t' { c with matcher := m' } = (.ok (), c') := by
            intro h
            rcases hr : runProds (classicCfg B stop) tr.prods t0 { c with matcher := m0 } with ⟨y, c2⟩
            rw [hr] at h
            cases y with
            | error e => simp at h
            | ok u =>
              simp at h
              obtain ⟨h1, rfl, rfl⟩ := h
              exact ⟨tr, m0, rfl, h1, hr⟩
          cases hla : tr.la with
          | none => rw [hla] at h; exact fin h
          | some la =>
            rw [hla] at h
            simp only at h ⊢
            cases hp : Pure.peek la m0 rest with
            | error e => rw [hp] at h; simp at h
            | ok b =>
              rw [hp] at h
              cases b with
              | false => simp only at h ⊢; exact ih (matched_of hm) (by exact hc) h hc'
              | true => exact fin h

theorem try_complete {rest : List Line} {l : Line} : ∀ {rows : List Trans} {t t' : Token} {c : Ctx CState σ} {tr : Trans} {m' : CState},
    t.Of l → c.errors = [] → Auto.pick rows l rest c.matcher = some (tr, t', m') →
    Pure.try_ (classicCfg B stop) rows t rest c =
      match runProds (classicCfg B stop) tr.prods t' { c with matcher := m' } with
      | (.ok (), c'') => (.ok (some tr.target), t', c'')
      | (.error x, c'') => (.error x, t', c'') := by
  intro rows
  induction rows with
  | nil => intro t t' c tr m' _ _ h; simp [Auto.pick] at h
  | cons tr0 trs ih =>
    intro t t' c tr m' ht hc h
    simp only [Pure.try_, Pure.test, matchTok_clean tr0.kind ht hc]
    simp only [Auto.pick] at h
    by_cases hk : tr0.kind ≠ .eof ∧ l.isEof = true
    · rw [if_pos hk] at h ⊢
      exact ih ht hc h
    · rw [if_neg hk] at h ⊢
      rcases hm : Classic.matchKind tr0.kind (Token.fresh l) c.matcher with ⟨r, t0, m0⟩
      rw [hm] at h
      cases r with
      | error e => simp at h
      | ok b =>
        cases b with
        | false => simp only at h ⊢; exact ih ht hc h
        | true =>
          simp only at h ⊢
          cases hla : tr0.la with
          | none =>
            rw [hla] at h
            simp only [Option.some.injEq, Prod.mk.injEq] at h
            obtain ⟨rfl, rfl, rfl⟩ := h
            rfl
          | some la =>
            rw [hla] at h
            simp only at h ⊢
            cases hp : Pure.peek la m0 rest with
            | error e => rw [hp] at h; simp at h
            | ok b =>
              rw [hp] at h
              cases b with
              | false => simp only at h ⊢; exact ih (c := { c with matcher := m0 }) (matched_of hm) (by exact hc) h
              | true =>
                simp only [Option.some.injEq, Prod.mk.injEq] at h
                obtain ⟨rfl, rfl, rfl⟩ := h
                rfl

theorem pick_of {rest : List Line} {l : Line} : ∀ {rows : List Trans} {m m' : CState} {tr : Trans} {t : Token},
    Auto.pick rows l rest m = some (tr, t, m') →
    tr ∈ rows ∧ t.Of l ∧ (tr.kind = .eof ∨ l.isEof = false) ∧ ∃ m0, Classic.matchKind tr.kind (Token.fresh l) m0 = (.ok true, t, m') := by
  intro rows
  induction rows with
  | nil => intro m m' tr t h; simp [Auto.pick] at h
  | cons tr0 trs ih =>
    intro m m' tr t h
    have lift : ∀ {m}, Auto.pick trs l rest m = some (tr, t, m') →
      tr ∈ tr0 :: trs ∧ t.Of l ∧ (tr.kind = .eof ∨ l.isEof = false) ∧
        ∃ m0, Classic.matchKind tr.kind (Token.fresh l) m0 = (.ok true, t, m') := by
      intro m h; obtain ⟨h1, h2⟩ := ih h; exact ⟨by simp [h1], h2⟩
    simp only [Auto.pick] at h
    by_cases hk : tr0.kind ≠ .eof ∧ l.isEof = true
    · rw [if_pos hk] at h; exact lift h
    · rw [if_neg hk] at h
      have hk' : tr0.kind = .eof ∨ l.isEof = false := by
        by_cases h1 : tr0.kind = .eof
        · exact .inl h1
        · exact .inr (by simpa [h1] using hk)
      rcases hm : Classic.matchKind tr0.kind (Token.fresh l) m with ⟨r, t0, m0⟩
      rw [hm] at h
      cases r with
      | error e => simp at h
      | ok b =>
        cases b with
        | false => simp only at h; exact lift h
        | true =>
          simp only at h
          have fin : some (tr0, t0, m0) = some (tr, t, m') → tr ∈ tr0 :: trs ∧ t.Of l ∧ (tr.kind = .eof ∨ l.isEof = false) ∧
              ∃ m0, Classic.matchKind tr.kind (Token.fresh l) m0 = (.ok true, t, m') := by
            intro h
            simp only [Option.some.injEq, Prod.mk.injEq] at h
            obtain ⟨rfl, rfl, rfl⟩ := h
            exact ⟨by simp, matched_of hm, hk', m, hm⟩
          cases hla : tr0.la with
          | none => rw [hla] at h; exact fin h
          | some la =>
            rw [hla] at h
            simp only at h
            cases hp : Pure.peek la m0 rest with
            | error e => rw [hp] at h; simp at h
            | ok b =>
              rw [hp] at h
              cases b with
              | false => simp only at h; exact lift h
              | true => exact fin h

theorem handle_clean {α : Type} (d a : α) (c : Ctx CState σ) : handle (classicCfg B stop) d (.ok a) c = (.ok a, c) := rfl

/-- Productions that the builder accepts. -/
theorem runProds_clean {t : Token} : ∀ {ps : List Prod} {c : Ctx CState σ}, BuildsOk B c.builder (ps.map (Prod.ev t)) →
    runProds (classicCfg B stop) ps t c = (.ok (), { c with
      builder := (ps.map (Prod.ev t)).foldl (applyEv B) c.builder, log := c.log ++ ps.map (Prod.ev t) }) := by
  intro ps
  induction ps with
  | nil => intro c _; simp [runProds]
  | cons p ps ih =>
    intro c h
    simp only [List.map_cons, BuildsOk] at h
    simp only [runProds, runProd_eq]
    rw [h.1, handle_clean]
    simp only
    rw [ih (by exact h.2)]
    simp

theorem runProds_matcher {t : Token} {μ : Type} {cfg : Config μ σ ρ} : ∀ {ps : List Prod} {c c' : Ctx μ σ} {r : Except Exc Unit},
    runProds cfg ps t c = (r, c') → c'.matcher = c.matcher := by
  intro ps
  induction ps with
  | nil => intro c c' r h; simp [runProds] at h; rw [h.2]
  | cons p ps ih =>
    intro c c' r h
    simp only [runProds, runProd_eq] at h
    have hc := handle_ctx (cfg := cfg) () (evAnswer cfg.builder c.builder (p.ev t))
      { c with builder := applyEv cfg.builder c.builder (p.ev t), log := c.log ++ [p.ev t] }
    rcases hh : handle cfg () (evAnswer cfg.builder c.builder (p.ev t))
      { c with builder := applyEv cfg.builder c.builder (p.ev t), log := c.log ++ [p.ev t] } with ⟨y, c1⟩
    rw [hh] at h hc
    cases y with
    | error x => simp at h; rw [← h.2]; exact hc.2.1
    | ok u => simp only at h; rw [ih h]; exact hc.2.1

theorem loop_sound : ∀ {lines : List Line} {q q' : Nat} {c c' : Ctx CState σ},
    Pure.loop (classicCfg B stop) lines q c = (.ok q', c') → c'.errors = [] →
    c.errors = [] ∧ ∃ mv, Auto.Run q c.matcher lines mv q' c'.matcher ∧ c'.log = c.log ++ mv.flatMap Auto.Move.evs ∧
      c'.builder = (mv.flatMap Auto.Move.evs).foldl (applyEv B) c.builder ∧ BuildsOk B c.builder (mv.flatMap Auto.Move.evs) := by
  intro lines
  induction lines with
  | nil =>
    intro q q' c c' h hc'
    simp [Pure.loop] at h
    obtain ⟨rfl, rfl⟩ := h
    exact ⟨hc', [], .nil _ _, by simp, rfl, trivial⟩
  | cons l rest ih =>
    intro q q' c c' h hc'
    simp only [Pure.loop] at h
    rcases hs : Pure.step (classicCfg B stop) q l rest { c with log := c.log ++ [.take l] } with ⟨y, c2⟩
    rw [hs] at h
    cases y with
    | error x => simp at h
    | ok q2 =>
      simp only at h
      -- the errors after the step
      have h2 : c2.errors = [] := by
        split at h
        · simp at h; rw [h.2]; exact hc'
        · exact (ih h hc').1
      -- the step
      have key : ∃ tr t m', Auto.step q l rest c.matcher = some (tr, t, m') ∧ tr.target = q2 ∧ c.errors = [] ∧
          runProds (classicCfg B stop) tr.prods t { c with log := c.log ++ [.take l], matcher := m' } = (.ok (), c2) := by
        unfold Pure.step at hs
        cases hq : table q with
        | none => rw [hq] at hs; simp at hs
        | some row =>
          rw [hq] at hs
          simp only at hs
          rcases ht : Pure.try_ (classicCfg B stop) row.trans (Token.fresh l) rest { c with log := c.log ++ [.take l] } with ⟨z, t', c3⟩
          rw [ht] at hs
          cases z with
          | error x => simp at hs
          | ok o =>
            have hg := pure_try_errors ht
            cases o with
            | none =>
              simp only at hs
              split at hs
              · simp at hs
              · rcases addError_cases (unexpected row.expected t') c3 with ⟨h4, h5⟩ | ⟨_, _, h5⟩ | ⟨_, _, h5⟩
                · rw [h5] at hs; simp at hs; rw [hs.2] at h4; rw [h2] at h4; simp at h4
                · rw [h5] at hs; simp at hs; rw [← hs.2] at h2; simp at h2
                · rw [h5] at hs; simp at hs
            | some target =>
              simp at hs
              obtain ⟨rfl, rfl⟩ := hs
              have hc0 := hg.nil h2
              simp only at hc0
              obtain ⟨tr, m', p1, p2, p3⟩ := try_sound (Token.fresh_of l) (by exact hc0) ht h2
              exact ⟨tr, t', m', by unfold Auto.step; rw [hq]; exact p1, p2, hc0, p3⟩
      obtain ⟨tr, t, m', k1, rfl, hc0, k3⟩ := key
      have hp := runProds_spec k3
      have hm := runProds_matcher k3
      simp only at hp hm
      have hline : t.line = l := by
        unfold Auto.step at k1
        cases hq : table q with
        | none => rw [hq] at k1; simp at k1
        | some row => rw [hq] at k1; exact (pick_of k1).2.1.1
      refine ⟨hc0, ?_⟩
      split at h
      · rename_i he
        simp at h
        obtain ⟨rfl, rfl⟩ := h
        refine ⟨[⟨q, tr, t⟩], ?_, ?_, ?_, ?_⟩
        · rw [hm]; exact .last k1 he
        · simp [hp.1, Auto.Move.evs, hline]
        · simp [hp.2.1, Auto.Move.evs, applyEv]
        · simp [Auto.Move.evs, BuildsOk, evAnswer, applyEv]; exact hp.2.2.2.1 h2
      · rename_i he
        obtain ⟨_, mv, r1, r2, r3, r4⟩ := ih h hc'
        refine ⟨⟨q, tr, t⟩ :: mv, ?_, ?_, ?_, ?_⟩
        · rw [hm] at r1; exact .cons k1 (by simpa using he) r1
        · rw [r2, hp.1]; simp [Auto.Move.evs, hline]
        · rw [r3, hp.2.1]; simp [Auto.Move.evs, applyEv, List.foldl_append]
        · rw [hp.2.1] at r4
          rw [List.flatMap_cons, BuildsOk_append]
          refine ⟨?_, ?_⟩
          · simp [Auto.Move.evs, BuildsOk, evAnswer, applyEv]; exact hp.2.2.2.1 h2
          · simp only [Auto.Move.evs, List.foldl_cons, applyEv]; exact r4

theorem loop_complete : ∀ {lines : List Line} {q q' : Nat} {m m' : CState} {mv : List Auto.Move} {c : Ctx CState σ},
    Auto.Run q m lines mv q' m' → c.matcher = m → c.errors = [] → BuildsOk B c.builder (mv.flatMap Auto.Move.evs) →
    Pure.loop (classicCfg B stop) lines q c = (.ok q', { c with
      matcher := m', log := c.log ++ mv.flatMap Auto.Move.evs, builder := (mv.flatMap Auto.Move.evs).foldl (applyEv B) c.builder }) := by
  intro lines q q' m m' mv c h
  have one : ∀ {q l rest m tr t m'} {c : Ctx CState σ}, Auto.step q l rest m = some (tr, t, m') → c.matcher = m → c.errors = [] →
      BuildsOk B c.builder (Auto.Move.evs ⟨q, tr, t⟩) →
      Pure.step (classicCfg B stop) q l rest { c with log := c.log ++ [.take l] } = (.ok tr.target, { c with
        matcher := m', log := c.log ++ Auto.Move.evs ⟨q, tr, t⟩, builder := (Auto.Move.evs ⟨q, tr, t⟩).foldl (applyEv B) c.builder }) := by
    intro q l rest m tr t m' c h hm hc hb
    subst hm
    unfold Auto.step at h
    unfold Pure.step
    cases hq : table q with
    | none => rw [hq] at h; simp at h
    | some row =>
      rw [hq] at h
      simp only at h ⊢
      have hline := (pick_of h).2.1.1
      rw [try_complete (c := { c with log := c.log ++ [.take l] }) (Token.fresh_of l) (by exact hc) h]
      simp only [Auto.Move.evs, BuildsOk, evAnswer, applyEv] at hb
      rw [runProds_clean (by exact hb.2)]
      simp [Auto.Move.evs, applyEv, hline]
  induction h generalizing c with
  | nil q m => intro hm _ _; subst hm; simp [Pure.loop]
  | @last q m l rest tr t m' hs he =>
    intro hm hc hb
    simp only [List.flatMap_cons, List.flatMap_nil, List.append_nil] at hb ⊢
    simp only [Pure.loop]
    rw [one hs hm hc hb]
    simp [he]
  | @cons q m l rest tr t m' mv q' m'' hs he hr ih =>
    intro hm hc hb
    rw [List.flatMap_cons, BuildsOk_append] at hb
    simp only [Pure.loop]
    rw [one hs hm hc hb.1]
    simp only [he, Bool.false_eq_true, if_false]
    rw [ih (c := { c with matcher := m', log := c.log ++ Auto.Move.evs ⟨q, tr, t⟩, builder := (Auto.Move.evs ⟨q, tr, t⟩).foldl (applyEv B) c.builder }) rfl hc hb.2]
    simp [List.foldl_append]

/-- All events of an accepted parse. -/
def allEvs (mv : List Auto.Move) : List Ev := .start .gherkinDocument :: (mv.flatMap Auto.Move.evs ++ [.stop .gherkinDocument])

theorem pure_accepted_run {lines : List Line} {m : CState} {b : σ} {r : ρ} {c : Ctx CState σ}
    (h : Pure.parse (classicCfg B stop) lines m b = (.ok r, c)) :
    ∃ mv q m', Auto.Run 0 (Classic.reset m) lines mv q m' ∧
      c.log = allEvs mv ∧ c.matcher = m' ∧ BuildsOk B (B.reset b) (allEvs mv) ∧
      c.builder = (allEvs mv).foldl (applyEv B) (B.reset b) ∧
      B.result ((allEvs mv).foldl (applyEv B) (B.reset b)) = .ok r := by
  unfold Pure.parse at h
  rw [runProd_eq] at h
  simp only [Prod.ev] at h
  generalize hC : (Ctx.mk ⟨[], 0⟩ (classic.reset m) [] [] (applyEv B (B.reset b) (.start .gherkinDocument))
      ([] ++ [.start .gherkinDocument]) : Ctx CState σ) = C0 at h
  rcases hh : handle (classicCfg B stop) () (evAnswer B (B.reset b) (.start .gherkinDocument)) C0 with ⟨y, c0⟩
  rw [hh] at h
  have hc := handle_ctx (cfg := classicCfg B stop) () (evAnswer B (B.reset b) (.start .gherkinDocument)) C0
  rw [hh] at hc
  subst hC
  cases y with
  | error x => simp at h
  | ok u =>
    simp only at h
    have he0 := (handle_errors hh).1 u rfl
    rcases hl : Pure.loop (classicCfg B stop) lines 0 c0 with ⟨y, c1⟩
    rw [hl] at h
    cases y with
    | error x => simp at h
    | ok q =>
      simp only at h
      rw [runProd_eq] at h
      simp only [Prod.ev] at h
      generalize hC : ({ c1 with builder := applyEv B c1.builder (.stop .gherkinDocument),
                                 log := c1.log ++ [.stop .gherkinDocument] } : Ctx CState σ) = C1 at h
      have hc1 := handle_ctx (cfg := classicCfg B stop) () (evAnswer B c1.builder (.stop .gherkinDocument)) C1
      rcases hh1 : handle (classicCfg B stop) () (evAnswer B c1.builder (.stop .gherkinDocument)) C1 with ⟨y, c2⟩
      rw [hh1] at h hc1
      subst hC
      cases y with
      | error x => simp at h
      | ok u2 =>
        simp only at h
        have he1 := (handle_errors hh1).1 u2 rfl
        by_cases hne : c2.errors = []
        · have h1 : c1.errors = [] := he1.1.nil hne
          obtain ⟨h00, mv, r1, r2, r3, r4⟩ := loop_sound hl h1
          rw [if_neg (by simpa using hne)] at h
          simp only at hc hc1
          have hb0 := he0.2 h00
          have hb1 := he1.2 hne
          have hbu : c2.builder = (allEvs mv).foldl (applyEv B) (B.reset b) := by
            rw [hc1.2.2.2.1, r3, hc.2.2.2.1]
            simp [allEvs, List.foldl_append]
          have hlg : c2.log = allEvs mv := by
            rw [hc1.2.2.2.2, r2, hc.2.2.2.2]
            simp [allEvs]
          have hok : BuildsOk B (B.reset b) (allEvs mv) := by
            simp only [allEvs, BuildsOk]
            refine ⟨hb0, ?_⟩
            rw [BuildsOk_append]
            rw [hc.2.2.2.1] at r4 r3
            refine ⟨r4, ?_⟩
            simp only [BuildsOk, and_true]
            rw [r3] at hb1
            exact hb1
          have hmm : c2.matcher = c1.matcher := hc1.2.1
          rw [hc.2.1] at r1
          refine ⟨mv, q, c1.matcher, r1, ?_⟩
          rw [← hbu]
          cases hr : B.result c2.builder with
          | ok r' =>
            rw [hr] at h
            simp at h
            obtain ⟨rfl, rfl⟩ := h
            exact ⟨hlg, hmm, hok, rfl, rfl⟩
          | error e => rw [hr] at h; cases e <;> simp at h
        · rw [if_pos (by simpa using hne)] at h
          simp at h

/-- A parse that returns a result is a run of the automaton that the builder accepts. -/
theorem accepted_run (hB : B.Plain) {text : Str} {m : CState} (hm : m.Valid) {b : σ} {r : ρ}
    (h : (parse (classicCfg B stop) text m b).1 = .ok r) :
    ∃ mv q m', Auto.Run 0 (Classic.reset m) (tokenLines text) mv q m' ∧
      (parse (classicCfg B stop) text m b).2.log = allEvs mv ∧
      (parse (classicCfg B stop) text m b).2.matcher = m' ∧
      BuildsOk B (B.reset b) (allEvs mv) ∧
      (parse (classicCfg B stop) text m b).2.builder = (allEvs mv).foldl (applyEv B) (B.reset b) ∧
      B.result ((allEvs mv).foldl (applyEv B) (B.reset b)) = .ok r := by
  have hs := parse_sim (stop := stop) hB text hm b
  have hlog : (parse (classicCfg B stop) text m b).2.log = (Pure.parse (classicCfg B stop) (tokenLines text) m b).2.log := by
    have := congrArg Ctx.log hs.2; exact this
  have hmt : (parse (classicCfg B stop) text m b).2.matcher = (Pure.parse (classicCfg B stop) (tokenLines text) m b).2.matcher := by
    have := congrArg Ctx.matcher hs.2; exact this
  have hbd : (parse (classicCfg B stop) text m b).2.builder = (Pure.parse (classicCfg B stop) (tokenLines text) m b).2.builder := by
    have := congrArg Ctx.builder hs.2; exact this
  rw [hlog, hmt, hbd]
  rw [hs.1] at h
  exact pure_accepted_run (Prod.ext h rfl)

/-- A run of the automaton that the builder accepts is a parse that returns the builder's result. -/
theorem run_accepted (hB : B.Plain) {text : Str} {m : CState} (hm : m.Valid) {b : σ} {r : ρ} {mv : List Auto.Move} {q : Nat} {m' : CState}
    (h : Auto.Run 0 (Classic.reset m) (tokenLines text) mv q m') (hb : BuildsOk B (B.reset b) (allEvs mv))
    (hr : B.result ((allEvs mv).foldl (applyEv B) (B.reset b)) = .ok r) :
    (parse (classicCfg B stop) text m b).1 = .ok r := by
  rw [(parse_sim (stop := stop) hB text hm b).1]
  unfold Pure.parse
  simp only [allEvs, BuildsOk] at hb
  rw [BuildsOk_append] at hb
  obtain ⟨b0, b1, b2⟩ := hb
  have e0 : evAnswer (classicCfg B stop).builder ((classicCfg B stop).builder.reset b)
      (Prod.ev (Token.fresh ⟨[], 0⟩) (.start .gherkinDocument)) = .ok () := b0
  rw [runProd_eq]
  simp only
  rw [e0, handle_clean]
  simp only
  rw [loop_complete h rfl rfl (by exact b1)]
  simp only
  rw [runProd_eq]
  simp only
  have e1 : evAnswer (classicCfg B stop).builder ((mv.flatMap Auto.Move.evs).foldl (applyEv B) (applyEv (classicCfg B stop).builder
      ((classicCfg B stop).builder.reset b) (Prod.ev (Token.fresh ⟨[], 0⟩) (.start .gherkinDocument))))
      (Prod.ev (Token.fresh ⟨[], 0⟩) (.stop .gherkinDocument)) = .ok () := b2.1
  rw [e1, handle_clean]
  simp only [ne_eq, not_true_eq_false, if_false]
  have : (allEvs mv).foldl (applyEv B) (B.reset b) = applyEv B ((mv.flatMap Auto.Move.evs).foldl (applyEv B)
      (applyEv B (B.reset b) (.start .gherkinDocument))) (.stop .gherkinDocument) := by
    simp [allEvs, List.foldl_append]
  rw [this] at hr
  simp only [classicCfg, Prod.ev]
  rw [hr]

end

end Gherkin
