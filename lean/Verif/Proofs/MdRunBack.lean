import Verif.Proofs.MdAuto
import Verif.Proofs.MdTotal2
import Verif.Proofs.MdOrder
import Verif.Props.Errors

/-! An accepted Markdown parse is a run of the automaton of `MdAuto`: the converse of `md_run_accepted`. -/

namespace Gherkin

open Markdown

/-- Tests on these lines keep `I`. -/
def MdKeeps (I : MdState → Prop) (lines : List Line) : Prop := ∀ k l m, l ∈ lines → I m → I (MdAuto.test k l m).2.2

/-- What a look-ahead has to know: which lines it skips does not depend on the matcher, as long as the matcher meets `I`. -/
structure SkOk (sk : Line → Bool) (I : MdState → Prop) (lines : List Line) : Prop where
  keep : MdKeeps I lines
  hit : ∀ (la : LA) l m t m', l ∈ lines → I m → MdAuto.test la.expected l m = (.ok true, t, m') → sk l = false
  any : ∀ l m b m', l ∈ lines → I m → MdAuto.any skipKinds l m = some (b, m') → b = sk l

theorem MdKeeps.any_keep {I : MdState → Prop} {lines : List Line} (h : MdKeeps I lines) : ∀ {ks : List Kind} {l : Line} {m m' : MdState} {b : Bool},
    l ∈ lines → I m → MdAuto.any ks l m = some (b, m') → I m' := by
  intro ks
  induction ks with
  | nil => intro l m m' b _ hi h; simp [MdAuto.any] at h; rw [← h.2]; exact hi
  | cons k ks ih =>
    intro l m m' b hl hi ha
    have hk := h k l m hl hi
    simp only [MdAuto.any] at ha
    rcases ht : MdAuto.test k l m with ⟨r, t, m1⟩
    rw [ht] at ha hk
    cases r with
    | error e => simp at ha
    | ok b0 =>
      cases b0 with
      | true => simp at ha; rw [← ha.2]; exact hk
      | false => exact ih hl hk ha

theorem MdKeeps.peek_keep {sk : Line → Bool} {I : MdState → Prop} {lines : List Line} (h : MdKeeps I lines) {la : LA} : ∀ {rest : List Line} {m m' : MdState} {b : Bool},
    (∀ l ∈ rest, l ∈ lines) → I m → MdAuto.peek sk la rest m = some (b, m') → I m' := by
  intro rest
  induction rest with
  | nil => intro m m' b _ _ h; simp [MdAuto.peek] at h
  | cons l rest ih =>
    intro m m' b hl hi hp
    have hk := h la.expected l m (hl l (by simp)) hi
    simp only [MdAuto.peek] at hp
    rcases ht : MdAuto.test la.expected l m with ⟨r, t, m1⟩
    rw [ht] at hp hk
    cases r with
    | error e => simp at hp
    | ok b0 =>
      cases b0 with
      | true =>
        simp only at hp
        split at hp
        · simp at hp
        · simp at hp; rw [← hp.2]; exact hk
      | false =>
        simp only at hp
        cases ha : MdAuto.any skipKinds l m1 with
        | none => rw [ha] at hp; simp at hp
        | some bm =>
          obtain ⟨b1, m2⟩ := bm
          have hk2 := h.any_keep (hl l (by simp)) hk ha
          rw [ha] at hp
          cases b1 with
          | false =>
            simp only at hp
            split at hp
            · simp at hp
            · simp at hp; rw [← hp.2]; exact hk2
          | true =>
            simp only at hp
            split at hp
            · exact ih (fun x hx => hl x (by simp [hx])) hk2 hp
            · simp at hp

section
variable {σ ρ : Type} {B : Builder σ ρ}

theorem matchTok_back {k : Kind} {t t0 : Token} {l : Line} (ht : t.Of l) {c : Ctx MdState σ} {e : MExc} {m' : MdState}
    (h : MdAuto.test k l c.matcher = (.error e, t0, m')) : ∃ x t' c', matchTok (mdCfg B true) k t c = (.error x, t', c') := by
  unfold MdAuto.test at h
  unfold matchTok
  have hte : t.eof = l.isEof := by rw [Token.eof, ht.1]
  rw [hte]
  by_cases hk : k ≠ .eof ∧ l.isEof = true
  · rw [if_pos hk] at h; simp at h
  · rw [if_neg hk] at h ⊢
    have i := Md.indep k ht c.matcher
    have e1 := i.res
    simp only [mdCfg, markdown]
    rcases hm : Md.matchKind k t c.matcher with ⟨r, t1, m1⟩
    rw [hm, h] at e1
    simp only at e1
    subst e1
    cases e with
    | crash x => exact ⟨_, _, _, rfl⟩
    | parser x => exact ⟨_, _, _, rfl⟩

theorem matchAny_back {l : Line} : ∀ {ks : List Kind} {t : Token} {c : Ctx MdState σ}, t.Of l → c.errors = [] →
    MdAuto.any ks l c.matcher = none → ∃ x t' c', matchAny (mdCfg B true) ks t c = (.error x, t', c') := by
  intro ks
  induction ks with
  | nil => intro t c _ _ h; simp [MdAuto.any] at h
  | cons k ks ih =>
    intro t c ht hc h
    simp only [MdAuto.any] at h
    rcases ht0 : MdAuto.test k l c.matcher with ⟨r, t0, m1⟩
    rw [ht0] at h
    cases r with
    | error e =>
      obtain ⟨x, t', c', hx⟩ := matchTok_back (B := B) ht ht0
      exact ⟨x, t', c', by simp only [matchAny, hx]⟩
    | ok b0 =>
      obtain ⟨t', h1, h2, _⟩ := mdAuto_matchTok (B := B) (stop := true) ht hc ht0
      simp only [matchAny, h1]
      cases b0 with
      | true => simp at h
      | false => exact ih (c := { c with matcher := m1 }) h2 hc h

theorem laLoop_back {sk : Line → Bool} {I : MdState → Prop} {lines : List Line} (hS : SkOk sk I lines) {la : LA} {fuel : Nat} :
    ∀ {rest : List Line} {acc : List Token} {c : Ctx MdState σ}, MdP sk rest c → (∀ l ∈ rest, l ∈ lines) → I c.matcher → c.errors = [] →
    MdAuto.peek sk la rest c.matcher = none → ∃ x c', laLoop (mdCfg B true) la fuel acc c = (.error x, c') := by
  induction fuel with
  | zero => intro rest acc c _ _ _ _ _; exact ⟨_, _, rfl⟩
  | succ fuel ih =>
    intro rest acc c hP hsub hi hc0 hpk
    obtain ⟨l, rest', t, c1, hrest, hread, htO, hnorm, hle, hcont, hstop⟩ := readToken_mdp hP
    subst hrest
    have hm1 : c1.matcher = c.matcher := by have := congrArg Ctx.matcher hnorm; exact this
    have he1 : c1.errors = [] := by have := congrArg Ctx.errors hnorm; rw [← hc0]; exact this
    have hl := hsub l (by simp)
    unfold laLoop
    rw [hread]
    simp only
    simp only [MdAuto.peek] at hpk
    rcases htest : MdAuto.test la.expected l c.matcher with ⟨r, t0, m1⟩
    have hk := hS.keep la.expected l c.matcher hl hi
    rw [htest] at hpk hk
    cases r with
    | error e =>
      obtain ⟨x, t', c', hx⟩ := matchTok_back (B := B) (c := c1) htO (by rw [hm1]; exact htest)
      rw [hx]; exact ⟨_, _, rfl⟩
    | ok b0 =>
      obtain ⟨t1, k1, k2, k3⟩ := mdAuto_matchTok (B := B) (stop := true) (c := c1) htO he1 (by rw [hm1]; exact htest)
      rw [k1]
      cases b0 with
      | true =>
        have := hS.hit la l c.matcher t0 m1 hl hi htest
        rw [this] at hpk; simp at hpk
      | false =>
        simp only at hpk ⊢
        cases hany : MdAuto.any skipKinds l m1 with
        | none =>
          obtain ⟨x, t', c', hx⟩ := matchAny_back (B := B) (c := { c1 with matcher := m1 }) k2 he1 hany
          rw [hx]; exact ⟨_, _, rfl⟩
        | some bm =>
          obtain ⟨b1, m2⟩ := bm
          rw [hany] at hpk
          have hsk := hS.any l m1 b1 m2 hl hk hany
          obtain ⟨t2, j1, j2⟩ := mdAuto_matchAny (B := B) (stop := true) (c := { c1 with matcher := m1 }) k2 he1 hany
          rw [j1]
          cases b1 with
          | false => rw [← hsk] at hpk; simp at hpk
          | true =>
            rw [← hsk] at hpk
            simp only [if_true] at hpk ⊢
            have he : l.isEof = false := by
              cases he : l.isEof with
              | false => rfl
              | true => rw [any_eof he (by decide)] at hany; simp at hany
            obtain ⟨hP', _⟩ := hcont he
            exact ih (acc := acc ++ [t2]) (c := { c1 with matcher := m2 }) (hP'.congr rfl rfl) (fun x hx => hsub x (by simp [hx]))
              (hS.keep.any_keep hl hk hany) he1 hpk

theorem lookahead_back {sk : Line → Bool} {I : MdState → Prop} {lines : List Line} (hS : SkOk sk I lines) {la : LA} {rest : List Line} {c : Ctx MdState σ}
    (hP : MdP sk rest c) (hsub : ∀ l ∈ rest, l ∈ lines) (hi : I c.matcher) (hc : c.errors = []) (h : MdAuto.peek sk la rest c.matcher = none) :
    ∃ x c', lookahead (mdCfg B true) la c = (.error x, c') := by
  obtain ⟨x, c', h1⟩ := laLoop_back (B := B) hS (la := la) (fuel := c.queue.length + c.scanner.lines.length + 1) (acc := []) hP hsub hi hc h
  exact ⟨x, c', by unfold lookahead; rw [h1]⟩

theorem runProds_back {t : Token} : ∀ {ps : List Prod} {c c' : Ctx MdState σ}, runProds (mdCfg B true) ps t c = (.ok (), c') →
    BuildsOk B c.builder (ps.map (Prod.ev t)) := by
  intro ps
  induction ps with
  | nil => intro c c' _; trivial
  | cons p ps ih =>
    intro c c' h
    simp only [runProds, runProd_eq] at h
    simp only [List.map_cons, BuildsOk]
    cases he : evAnswer B c.builder (Prod.ev t p) with
    | error e =>
      exfalso
      rw [show evAnswer (mdCfg B true).builder c.builder (Prod.ev t p) = .error e from he] at h
      cases e <;> simp [handle] at h
    | ok u =>
      rw [show evAnswer (mdCfg B true).builder c.builder (Prod.ev t p) = .ok u from he, handle_cleanMd] at h
      exact ⟨rfl, ih h⟩

theorem tryTrans_back {sk : Line → Bool} {I : MdState → Prop} {lines : List Line} (hS : SkOk sk I lines) {rest : List Line} {l : Line} (hl : l ∈ lines)
    (hsub : ∀ x ∈ rest, x ∈ lines) : ∀ {rows : List Trans} {t t2 : Token} {c c' : Ctx MdState σ} {target : Nat},
    t.Of l → c.errors = [] → (l.isEof = false → MdP sk rest c) → (∀ tr ∈ rows, tr.la ≠ none → tr.kind ≠ .eof) →
    ((∀ tr ∈ rows, tr.la = none) ∨ I c.matcher) →
    tryTrans (mdCfg B true) rows t c = (.ok (some target), t2, c') →
    ∃ tr t' m', MdAuto.pick sk rows l rest c.matcher = some (tr, t', m') ∧ tr.target = target ∧ BuildsOk B c.builder (tr.prods.map (Prod.ev t')) := by
  intro rows
  induction rows with
  | nil => intro t t2 c c' target _ _ _ _ _ h; simp [tryTrans] at h
  | cons tr0 trs ih =>
    intro t t2 c c' target ht hc hP hla0 hI h
    have hlas : ∀ tr ∈ trs, tr.la ≠ none → tr.kind ≠ .eof := fun x hx => hla0 x (by simp [hx])
    simp only [tryTrans, testTrans] at h
    simp only [MdAuto.pick]
    rcases htest : MdAuto.test tr0.kind l c.matcher with ⟨r, t0, m1⟩
    have hk : (∀ tr ∈ trs, tr.la = none) ∨ I m1 := by
      rcases hI with hI | hI
      · exact .inl fun x hx => hI x (by simp [hx])
      · have := hS.keep tr0.kind l c.matcher hl hI
        rw [htest] at this; exact .inr this
    have hk0 : tr0.la = none ∨ I m1 := by
      rcases hI with hI | hI
      · exact .inl (hI _ (by simp))
      · have := hS.keep tr0.kind l c.matcher hl hI
        rw [htest] at this; exact .inr this
    cases r with
    | error e =>
      obtain ⟨x, t', c', hx⟩ := matchTok_back (B := B) ht htest
      rw [hx] at h; simp at h
    | ok b0 =>
      obtain ⟨t1, k1, k2, k3⟩ := mdAuto_matchTok (B := B) (stop := true) (c := c) ht hc htest
      rw [k1] at h
      cases b0 with
      | false =>
        simp only at h ⊢
        exact ih (c := { c with matcher := m1 }) k2 hc (fun hh => (hP hh).congr rfl rfl) hlas hk h
      | true =>
        have k3 := k3 rfl
        subst k3
        simp only at h ⊢
        cases hla : tr0.la with
        | none =>
          rw [hla] at h
          simp only at h ⊢
          rcases hr : runProds (mdCfg B true) tr0.prods t1 { c with matcher := m1 } with ⟨r, c2⟩
          rw [hr] at h
          cases r with
          | error e => simp at h
          | ok u =>
            simp only [Prod.mk.injEq, Except.ok.injEq, Option.some.injEq] at h
            exact ⟨tr0, t1, m1, rfl, h.1, runProds_back (c := { c with matcher := m1 }) hr⟩
        | some la =>
          rw [hla] at h
          have hI1 : I m1 := by
            rcases hk0 with h0 | h0
            · rw [hla] at h0; simp at h0
            · exact h0
          have he : l.isEof = false := by
            cases he : l.isEof with
            | false => rfl
            | true =>
              have := hla0 tr0 (by simp) (by rw [hla]; simp)
              unfold MdAuto.test at htest
              rw [if_pos ⟨this, he⟩] at htest
              simp at htest
          simp only at h ⊢
          cases hpk : MdAuto.peek sk la rest m1 with
          | none =>
            obtain ⟨x, c2, hx⟩ := lookahead_back (B := B) hS (c := { c with matcher := m1 }) ((hP he).congr rfl rfl) hsub hI1 hc hpk
            rw [hx] at h; simp at h
          | some bm =>
            obtain ⟨b1, m2⟩ := bm
            obtain ⟨c2, l1, l2, l3⟩ := lookahead_mdp (B := B) (stop := true) (c := { c with matcher := m1 }) ((hP he).congr rfl rfl) hc hpk
            have l4 : c2.errors = [] := by have := congrArg Ctx.errors l2; rw [← hc]; exact this
            have l5 : c2.builder = c.builder := by have := congrArg Ctx.builder l2; exact this
            have l7 : c2.matcher = m2 := by have := congrArg Ctx.matcher l2; exact this
            rw [l1] at h
            cases b1 with
            | false =>
              simp only at h ⊢
              obtain ⟨tr, t', m', r1, r2, r3⟩ := ih (c := c2) k2 l4 (fun _ => l3) hlas (.inr (by rw [l7]; exact hS.keep.peek_keep hsub hI1 hpk)) h
              exact ⟨tr, t', m', by rw [l7] at r1; exact r1, r2, by rw [l5] at r3; exact r3⟩
            | true =>
              simp only at h ⊢
              rcases hr : runProds (mdCfg B true) tr0.prods t1 c2 with ⟨r, c3⟩
              rw [hr] at h
              cases r with
              | error e => simp at h
              | ok u =>
                simp only [Prod.mk.injEq, Except.ok.injEq, Option.some.injEq] at h
                exact ⟨tr0, t1, m2, rfl, h.1, by rw [← l5]; exact runProds_back hr⟩


theorem MdKeeps.pick_keep {sk : Line → Bool} {I : MdState → Prop} {lines : List Line} (h : MdKeeps I lines) {l : Line} {rest : List Line} (hl : l ∈ lines)
    (hsub : ∀ x ∈ rest, x ∈ lines) : ∀ {rows : List Trans} {m m' : MdState} {tr : Trans} {t : Token}, I m →
    MdAuto.pick sk rows l rest m = some (tr, t, m') → I m' := by
  intro rows
  induction rows with
  | nil => intro m m' tr t _ h; simp [MdAuto.pick] at h
  | cons tr0 trs ih =>
    intro m m' tr t hi hp
    have hk := h tr0.kind l m hl hi
    simp only [MdAuto.pick] at hp
    rcases ht : MdAuto.test tr0.kind l m with ⟨r, t0, m1⟩
    rw [ht] at hp hk
    cases r with
    | error e => simp at hp
    | ok b =>
      cases b with
      | false => exact ih hk hp
      | true =>
        simp only at hp
        cases hla : tr0.la with
        | none => rw [hla] at hp; simp at hp; rw [← hp.2.2]; exact hk
        | some la =>
          rw [hla] at hp
          simp only at hp
          cases hpk : MdAuto.peek sk la rest m1 with
          | none => rw [hpk] at hp; simp at hp
          | some bm =>
            obtain ⟨b1, m2⟩ := bm
            have hk2 := h.peek_keep hsub hk hpk
            rw [hpk] at hp
            cases b1 with
            | false => exact ih hk2 hp
            | true => simp at hp; rw [← hp.2.2]; exact hk2

theorem mdTest_feature {l : Line} {m m' : MdState} {t : Token} (h : MdAuto.test .featureLine l m = (.ok true, t, m')) : m'.matchedFeature = true := by
  unfold MdAuto.test at h
  split at h
  · simp at h
  · simp only [Md.matchKind] at h
    unfold Md.matchFeature at h
    split at h
    · simp at h
    · split at h
      · simp only [Prod.mk.injEq] at h; rw [← h.2.2]
      · simp only [Prod.mk.injEq] at h; rw [← h.2.2]

theorem pick_feature {sk : Line → Bool} {l : Line} {rest : List Line} : ∀ {rows : List Trans} {m m' : MdState} {tr : Trans} {t : Token},
    MdAuto.pick sk rows l rest m = some (tr, t, m') → tr.kind = .featureLine → tr.la = none → m'.matchedFeature = true := by
  intro rows
  induction rows with
  | nil => intro m m' tr t h; simp [MdAuto.pick] at h
  | cons tr0 trs ih =>
    intro m m' tr t hp h1 h2
    simp only [MdAuto.pick] at hp
    rcases ht : MdAuto.test tr0.kind l m with ⟨r, t0, m1⟩
    rw [ht] at hp
    cases r with
    | error e => simp at hp
    | ok b =>
      cases b with
      | false => exact ih hp h1 h2
      | true =>
        simp only at hp
        cases hla : tr0.la with
        | none =>
          rw [hla] at hp
          simp only [Option.some.injEq, Prod.mk.injEq] at hp
          obtain ⟨rfl, rfl, rfl⟩ := hp
          rw [h1] at ht
          exact mdTest_feature ht
        | some la =>
          rw [hla] at hp
          simp only at hp
          cases hpk : MdAuto.peek sk la rest m1 with
          | none => rw [hpk] at hp; simp at hp
          | some bm =>
            obtain ⟨b1, m2⟩ := bm
            rw [hpk] at hp
            cases b1 with
            | false => exact ih hp h1 h2
            | true =>
              simp only [Option.some.injEq, Prod.mk.injEq] at hp
              rw [hp.1, h2] at hla; simp at hla

/-- The transition picked is one of the row, and its test has succeeded. -/
theorem mdPick_mem {sk : Line → Bool} {l : Line} {rest : List Line} : ∀ {rows : List Trans} {m m' : MdState} {tr : Trans} {t : Token},
    MdAuto.pick sk rows l rest m = some (tr, t, m') → tr ∈ rows ∧ ∃ m0 m1, MdAuto.test tr.kind l m0 = (.ok true, t, m1) := by
  intro rows
  induction rows with
  | nil => intro m m' tr t h; simp [MdAuto.pick] at h
  | cons tr0 trs ih =>
    intro m m' tr t hp
    simp only [MdAuto.pick] at hp
    rcases ht : MdAuto.test tr0.kind l m with ⟨r, t0, m1⟩
    rw [ht] at hp
    have more : ∀ {m}, MdAuto.pick sk trs l rest m = some (tr, t, m') → tr ∈ tr0 :: trs ∧ ∃ m0 m1, MdAuto.test tr.kind l m0 = (.ok true, t, m1) :=
      fun h => ⟨by simp [(ih h).1], (ih h).2⟩
    cases r with
    | error e => simp at hp
    | ok b =>
      cases b with
      | false => exact more hp
      | true =>
        simp only at hp
        cases hla : tr0.la with
        | none =>
          rw [hla] at hp
          simp only [Option.some.injEq, Prod.mk.injEq] at hp
          obtain ⟨rfl, rfl, rfl⟩ := hp
          exact ⟨by simp, m, m1, ht⟩
        | some la =>
          rw [hla] at hp
          simp only at hp
          cases hpk : MdAuto.peek sk la rest m1 with
          | none => rw [hpk] at hp; simp at hp
          | some bm =>
            obtain ⟨b1, m2⟩ := bm
            rw [hpk] at hp
            cases b1 with
            | false => exact more hp
            | true =>
              simp only [Option.some.injEq, Prod.mk.injEq] at hp
              obtain ⟨rfl, rfl, rfl⟩ := hp
              exact ⟨by simp, m, m1, ht⟩

/-- Before the feature line there are no look-aheads, and only the feature line or the end of the file leads on. -/
def firstOk (q : Nat) : Bool :=
  match table q with
  | some row => decide (2 < q) || row.trans.all fun tr => tr.la == none && (decide (tr.target ≤ 2) || tr.kind == .featureLine || tr.kind == .eof)
  | none => true

theorem rows_firstOk : ∀ q ∈ allStates, firstOk q = true := by decide +kernel

theorem first_row {q : Nat} {row : StateRow} (h : table q = some row) (h2 : q ≤ 2) :
    ∀ tr ∈ row.trans, tr.la = none ∧ (tr.target ≤ 2 ∨ tr.kind = .featureLine ∨ tr.kind = .eof) := by
  have := rows_firstOk q (mem_allStates h)
  unfold firstOk at this
  rw [h] at this
  simp only [Bool.or_eq_true, decide_eq_true_eq, List.all_eq_true, Bool.and_eq_true, beq_iff_eq] at this
  rcases this with h | h
  · omega
  · intro tr htr
    obtain ⟨a, b⟩ := h tr htr
    exact ⟨a, or_assoc.1 b⟩

/-- The matcher between two lines: one dialect, one fence, and after the feature line it knows. -/
def MdAt (d : Dialect) (f : Str) (q : Nat) (m : MdState) : Prop := Md.Mild d f m ∧ (2 < q → m.matchedFeature = true)

theorem mdStep_at {sk : Line → Bool} {d : Dialect} {f : Str} {lines : List Line} (h1 : MdKeeps (Md.Mild d f) lines) (h2 : MdKeeps (Md.Good d f) lines) {q : Nat} {l : Line}
    {rest : List Line} (hl : l ∈ lines) (hsub : ∀ x ∈ rest, x ∈ lines) (he : l.isEof = false) {m m' : MdState} {tr : Trans} {t : Token} (hm : MdAt d f q m)
    (h : MdAuto.step sk q l rest m = some (tr, t, m')) : MdAt d f tr.target m' := by
  unfold MdAuto.step at h
  cases hq : table q with
  | none => rw [hq] at h; simp at h
  | some row =>
    rw [hq] at h
    simp only at h
    by_cases h2q : 2 < q
    · have := h2.pick_keep hl hsub ⟨hm.1, hm.2 h2q⟩ h
      exact ⟨this.1, fun _ => this.2⟩
    · refine ⟨h1.pick_keep hl hsub hm.1 h, fun ht => ?_⟩
      obtain ⟨k1, m0, m1, k2⟩ := mdPick_mem h
      obtain ⟨k3, k4⟩ := first_row hq (by omega) tr k1
      rcases k4 with k4 | k4 | k4
      · omega
      · exact pick_feature h k4 k3
      · rw [k4] at k2
        unfold MdAuto.test at k2
        rw [if_neg (by simp)] at k2
        simp only [Md.matchKind, Md.matchEof] at k2
        rw [if_neg (by rw [show (Token.fresh l).eof = l.isEof from rfl, he]; simp)] at k2
        simp at k2

theorem loop_back {sk : Line → Bool} {d : Dialect} {f : Str} {all : List Line} (h1 : MdKeeps (Md.Mild d f) all) (hS : SkOk sk (Md.Good d f) all) {fuel : Nat} :
    ∀ {q : Nat} {lines : List Line} {c c' : Ctx MdState σ}, (∀ x ∈ lines, x ∈ all) → MdAt d f q c.matcher → c.errors = [] → MdP sk lines c →
    parseLoop (mdCfg B true) fuel q c = (.ok (), c') →
    ∃ mv q' m', MdAuto.Run sk q c.matcher lines mv q' m' ∧ BuildsOk B c.builder (mv.flatMap Auto.Move.evs) ∧ c'.norm = c.after B m' (mv.flatMap Auto.Move.evs) := by
  induction fuel with
  | zero => intro q lines c c' _ _ _ _ h; simp [parseLoop] at h
  | succ fuel ih =>
    intro q lines c c' hsub hat hc hP h
    obtain ⟨l, rest, t0, c1, hrest, hread, htO, hnorm, hle, hcont, hstop⟩ := readToken_mdp hP
    subst hrest
    have hl := hsub l (by simp)
    have hsub' : ∀ x ∈ rest, x ∈ all := fun x hx => hsub x (by simp [hx])
    have n1 : c1.matcher = c.matcher := by have := congrArg Ctx.matcher hnorm; exact this
    have n2 : c1.errors = [] := by have := congrArg Ctx.errors hnorm; rw [← hc]; exact this
    have n3 : c1.builder = c.builder := by have := congrArg Ctx.builder hnorm; exact this
    have n4 : c1.log = c.log := by have := congrArg Ctx.log hnorm; exact this
    unfold parseLoop at h
    rw [hread] at h
    simp only at h
    have key : ∃ tr t m', MdAuto.step sk q l rest c.matcher = some (tr, t, m') ∧ BuildsOk B c.builder (Auto.Move.evs ⟨q, tr, t⟩) := by
      unfold matchToken at h
      cases hq : table q with
      | none => rw [hq] at h; simp at h
      | some row =>
        rw [hq] at h
        simp only at h
        rcases hx : tryTrans (mdCfg B true) row.trans t0 { c1 with log := c1.log ++ [.take t0.line] } with ⟨r, t2, c2⟩
        rw [hx] at h
        rcases r with x | _ | target
        · simp at h
        · simp at h
        · have hla : ∀ tr ∈ row.trans, tr.la ≠ none → tr.kind ≠ .eof := by
            intro x hx
            have := rows_la q (mem_allStates hq)
            rw [hq] at this
            simp only [List.all_eq_true, decide_eq_true_eq] at this
            exact this x hx
          have hI : (∀ tr ∈ row.trans, tr.la = none) ∨ Md.Good d f c1.matcher := by
            by_cases h2q : 2 < q
            · rw [n1]; exact .inr ⟨hat.1, hat.2 h2q⟩
            · exact .inl fun tr htr => (first_row hq (by omega) tr htr).1
          obtain ⟨tr, t', m', r1, r2, r3⟩ := tryTrans_back (B := B) hS hl hsub' (c := { c1 with log := c1.log ++ [.take t0.line] }) htO n2
            (fun hh => (hcont hh).1.congr rfl rfl) hla hI hx
          refine ⟨tr, t', m', ?_, ?_⟩
          · unfold MdAuto.step; rw [hq, ← n1]; exact r1
          · simp only [Auto.Move.evs, BuildsOk, evAnswer, applyEv]
            exact ⟨trivial, by rw [← n3]; exact r3⟩
    obtain ⟨tr, t, m', hst, hb⟩ := key
    by_cases he : l.isEof = true
    · obtain ⟨c2, k1, k2⟩ := loop_mdp (B := B) (stop := true) (.last (sk := sk) hst he) (fuel := fuel + 1 + rest.length) (c := c) rfl hc hP (by simpa using hb) (by simp; omega)
      refine ⟨_, _, _, .last hst he, by simpa using hb, ?_⟩
      have : parseLoop (mdCfg B true) (fuel + 1) q c = (.ok (), c2) := by
        obtain ⟨k, hk⟩ : ∃ k, fuel + 1 + rest.length = k + 1 := ⟨fuel + rest.length, by omega⟩
        rw [hk] at k1
        unfold parseLoop at k1 ⊢
        rw [hread] at k1 ⊢
        simp only at k1 ⊢
        have : t0.eof = true := by rw [Token.eof, htO.1]; exact he
        simp only [this, if_true] at k1 ⊢
        exact k1
      have h' : parseLoop (mdCfg B true) (fuel + 1) q c = (.ok (), c') := by
        unfold parseLoop; rw [hread]; exact h
      rw [this] at h'
      simp only [Prod.mk.injEq, true_and] at h'
      rw [← h']; exact k2
    · have he : l.isEof = false := by simpa using he
      obtain ⟨c2, k1, k2, k3⟩ := one_mdp (B := B) (stop := true) hst htO n1 n2 (fun _ => (hcont he).1) (by rw [n3]; exact hb)
      rw [k1] at h
      have : t0.eof = false := by rw [Token.eof, htO.1]; exact he
      simp only [this, Bool.false_eq_true, if_false] at h
      have p1 : c2.matcher = m' := by have := congrArg Ctx.matcher k2; exact this
      have p2 : c2.errors = [] := by have := congrArg Ctx.errors k2; rw [← n2]; exact this
      have p3 : c2.builder = (Auto.Move.evs ⟨q, tr, t⟩).foldl (applyEv B) c.builder := by have := congrArg Ctx.builder k2; rw [← n3]; exact this
      have p4 : c2.log = c.log ++ Auto.Move.evs ⟨q, tr, t⟩ := by have := congrArg Ctx.log k2; rw [← n4]; exact this
      obtain ⟨mv, q', m'', r1, r2, r3⟩ := ih (c := c2) hsub' (by rw [p1]; exact mdStep_at h1 hS.keep hl hsub' he hat hst) p2 (k3.1 he) h
      refine ⟨⟨q, tr, t⟩ :: mv, q', m'', .cons hst he (by rw [← p1]; exact r1), ?_, ?_⟩
      · rw [List.flatMap_cons, BuildsOk_append]
        exact ⟨hb, by rw [← p3]; exact r2⟩
      · rw [r3]
        simp only [Ctx.after, Ctx.norm, p2, p3, p4, hc, List.flatMap_cons, List.foldl_append, List.append_assoc]


/-- Whether a look-ahead passes over the line. -/
def mdSkip (d : Dialect) (l : Line) : Bool := !l.isEof && Md.skipped d l

theorem auto_any {d : Dialect} {f : Str} {l : Line} (hf : fenceOf l.text = none ∨ fenceOf l.text = some f) (he : l.isEof = false) {ks : List Kind} (hks : .eof ∉ ks) :
    ∀ {m m' : MdState} {b : Bool}, Md.Good d f m → MdAuto.any ks l m = some (b, m') →
    b = ks.any fun k => match (Md.matchKind k (Token.fresh l) (Md.canon d)).1 with | .ok b => b | .error _ => false := by
  induction ks with
  | nil => intro m m' b _ h; simp [MdAuto.any] at h; simp [h.1]
  | cons k ks ih =>
    intro m m' b hg h
    have hs := Md.kind_settled (d := d) hf k
    have h4 := hs.answer (t := Token.fresh l) rfl (t' := Token.fresh l) rfl hg (Md.canon_good d f)
    have hk := hs.keep (t := Token.fresh l) rfl hg
    simp only [MdAuto.any, MdAuto.test] at h
    rw [if_neg (by rw [he]; simp)] at h
    rcases hm : Md.matchKind k (Token.fresh l) m with ⟨r, t1, m1⟩
    rw [hm] at h h4 hk
    simp only at h4 hk
    rw [List.any_cons, ← h4]
    cases r with
    | error e => simp at h
    | ok b0 =>
      cases b0 with
      | true => simp at h; simp [h.1]
      | false =>
        simp only [Bool.false_or] at h ⊢
        exact ih (fun hk => hks (by simp [hk])) hk h

theorem tokenLines_of {text : Str} {P : Str → Prop} (h : ∀ s ∈ splitLines text, P s) (h0 : P []) : ∀ l ∈ tokenLines text, P l.text := by
  intro l hl
  simp only [tokenLines, sourceLines, eofLine, List.mem_append, List.mem_map, List.mem_singleton] at hl
  rcases hl with ⟨⟨s, n⟩, hs, rfl⟩ | rfl
  · exact h s (List.fst_mem_of_mem_zipIdx hs)
  · exact h0

theorem mild_keeps {d : Dialect} {f : Str} {lines : List Line} (hf : ∀ l ∈ lines, fenceOf l.text = none ∨ fenceOf l.text = some f) : MdKeeps (Md.Mild d f) lines := by
  intro k l m hl hm
  unfold MdAuto.test
  split
  · exact hm
  · exact Md.mild_keep (hf l hl) k hm

theorem good_keeps {d : Dialect} {f : Str} {lines : List Line} (hf : ∀ l ∈ lines, fenceOf l.text = none ∨ fenceOf l.text = some f) : MdKeeps (Md.Good d f) lines := by
  intro k l m hl hm
  unfold MdAuto.test
  split
  · exact hm
  · exact (Md.kind_settled (hf l hl) k).keep rfl hm

theorem md_skOk {text : Str} (d : Dialect) {f : Str} (hf : ∀ s ∈ splitLines text, fenceOf s = none ∨ fenceOf s = some f) (hp : PlainHeadings text) :
    SkOk (mdSkip d) (Md.Good d f) (tokenLines text) := by
  have hfl := tokenLines_of (P := fun s => fenceOf s = none ∨ fenceOf s = some f) hf (.inl (by decide))
  have hpl := tokenLines_of (P := fun s => (lstrip s).head? = some '#' → ¬ ∃ a b, s = a ++ py"`@" ++ b) hp (by intro h; exact absurd h (by decide))
  refine ⟨good_keeps hfl, ?_, ?_⟩
  · intro la l m t m' hl hm h
    unfold MdAuto.test at h
    split at h
    · simp at h
    · have : Md.skipped d l = false := md_expected (la := la) (hfl l hl) (hpl l hl) (t := Token.fresh l) rfl hm (by rw [h])
      simp [mdSkip, this]
  · intro l m b m' hl hm h
    unfold mdSkip
    cases he : l.isEof with
    | true =>
      rw [any_eof he (by decide)] at h
      simp at h; simp [h.1]
    | false =>
      rw [auto_any (hfl l hl) he (by decide) hm h]
      rfl

theorem md_lawful_side {stop : Bool} {text : Str} {m : MdState} {b : σ} {r : ρ} (h : (parse (mdCfg B stop) text m b).1 = .ok r) :
    (parse (mdCfg B true) text m b).1 = .ok r := by
  cases stop with
  | true => exact h
  | false => exact ((C47_first_error (B := B) markdown_lawful text m b).1 r).2 h

/-- A Markdown parse that returns a result is a run that the builder accepts, if the text has one kind of fence and no tags in headings. -/
theorem md_accepted_run {stop : Bool} {text : Str} {f : Str} (hf : ∀ s ∈ splitLines text, fenceOf s = none ∨ fenceOf s = some f) (hp : PlainHeadings text)
    {m : MdState} {b : σ} {r : ρ} (h : (parse (mdCfg B stop) text m b).1 = .ok r) :
    ∃ mv q m', MdAuto.Run (mdSkip (Md.reset m).dialect) 0 (Md.reset m) (tokenLines text) mv q m' ∧ BuildsOk B (B.reset b) (allEvs mv) ∧
      B.result ((allEvs mv).foldl (applyEv B) (B.reset b)) = .ok r ∧ (parse (mdCfg B stop) text m b).2.log = allEvs mv := by
  have h' := md_lawful_side h
  have hS := md_skOk (Md.reset m).dialect hf hp
  have hfl := tokenLines_of (P := fun s => fenceOf s = none ∨ fenceOf s = some f) hf (.inl (by decide))
  have hM : MdAt (Md.reset m).dialect f 0 (Md.reset m) := ⟨⟨rfl, .inl (by simp [Md.reset])⟩, by omega⟩
  suffices ∃ mv q m', MdAuto.Run (mdSkip (Md.reset m).dialect) 0 (Md.reset m) (tokenLines text) mv q m' ∧ BuildsOk B (B.reset b) (allEvs mv) ∧
      B.result ((allEvs mv).foldl (applyEv B) (B.reset b)) = .ok r by
    obtain ⟨mv, q, m', h1, h2, h3⟩ := this
    exact ⟨mv, q, m', h1, h2, h3, (md_run_accepted (stop := stop) h1 h2 h3).2⟩
  unfold parse at h'
  rw [runProd_eq] at h'
  simp only at h'
  cases hE0 : evAnswer B (B.reset b) (.start .gherkinDocument) with
  | error e =>
    exfalso
    rw [show evAnswer (mdCfg B true).builder (Ctx.init (mdCfg B true) text m b).builder (Prod.ev (Token.fresh ⟨[], 0⟩) (.start .gherkinDocument)) = .error e from hE0] at h'
    cases e <;> simp [handle] at h'
  | ok u =>
    rw [show evAnswer (mdCfg B true).builder (Ctx.init (mdCfg B true) text m b).builder (Prod.ev (Token.fresh ⟨[], 0⟩) (.start .gherkinDocument)) = .ok u from hE0,
      handle_cleanMd] at h'
    simp only at h'
    generalize hC : ({ Ctx.init (mdCfg B true) text m b with
      builder := applyEv (mdCfg B true).builder (Ctx.init (mdCfg B true) text m b).builder (Prod.ev (Token.fresh ⟨[], 0⟩) (.start .gherkinDocument)),
      log := (Ctx.init (mdCfg B true) text m b).log ++ [Prod.ev (Token.fresh ⟨[], 0⟩) (.start .gherkinDocument)] } : Ctx MdState σ) = c0 at h'
    rcases hl : parseLoop (mdCfg B true) ((Ctx.init (mdCfg B true) text m b).scanner.lines.length + 1) 0 c0 with ⟨y, c1⟩
    have hP : MdP (mdSkip (Md.reset m).dialect) (tokenLines text) c0 := by
      subst hC
      exact ⟨by simp [Ctx.init], by simpa [Ctx.init, Scanner.ofStr] using splitLines_ne_nil text,
        .inl ⟨rfl, by simp [tokenLines, sourceLines, eofLine, Ctx.init, Scanner.ofStr, Scanner.rest]⟩⟩
    have hm0 : c0.matcher = Md.reset m := by subst hC; rfl
    have he0 : c0.errors = [] := by subst hC; rfl
    have hb0 : c0.builder = applyEv B (B.reset b) (.start .gherkinDocument) := by subst hC; rfl
    rw [hl] at h'
    cases y with
    | error x => simp at h'
    | ok u =>
      simp only at h'
      obtain ⟨mv, q, m', r1, r2, r3⟩ := loop_back (B := B) (mild_keeps hfl) hS (fun x hx => hx) (by rw [hm0]; exact hM) he0 hP hl
      rw [runProd_eq] at h'
      simp only at h'
      have e1 : c1.builder = (mv.flatMap Auto.Move.evs).foldl (applyEv B) (applyEv B (B.reset b) (.start .gherkinDocument)) := by
        have := congrArg Ctx.builder r3; rw [hb0.symm]; exact this
      have e2 : c1.errors = [] := by have := congrArg Ctx.errors r3; rw [← he0]; exact this
      refine ⟨mv, q, m', hm0 ▸ r1, ?_⟩
      cases hE1 : evAnswer B c1.builder (.stop .gherkinDocument) with
      | error e =>
        exfalso
        rw [show evAnswer (mdCfg B true).builder c1.builder (Prod.ev (Token.fresh ⟨[], 0⟩) (.stop .gherkinDocument)) = .error e from hE1] at h'
        cases e <;> simp [handle] at h'
      | ok u2 =>
        rw [show evAnswer (mdCfg B true).builder c1.builder (Prod.ev (Token.fresh ⟨[], 0⟩) (.stop .gherkinDocument)) = .ok u2 from hE1, handle_cleanMd] at h'
        simp only [e2, ne_eq, not_true_eq_false, if_false] at h'
        have e3 : applyEv B c1.builder (.stop .gherkinDocument) = (allEvs mv).foldl (applyEv B) (B.reset b) := by
          rw [e1]; simp [allEvs, List.foldl_append]
        constructor
        · simp only [allEvs, BuildsOk]
          rw [BuildsOk_append]
          refine ⟨hE0, by rw [← hb0]; exact r2, ?_, trivial⟩
          rw [← e1]; exact hE1
        · rw [show applyEv (mdCfg B true).builder c1.builder (Prod.ev (Token.fresh ⟨[], 0⟩) (.stop .gherkinDocument)) = (allEvs mv).foldl (applyEv B) (B.reset b) from e3] at h'
          cases hr : B.result ((allEvs mv).foldl (applyEv B) (B.reset b)) with
          | ok r' =>
            rw [show (mdCfg B true).builder.result ((allEvs mv).foldl (applyEv B) (B.reset b)) = .ok r' from hr] at h'
            simpa using h'
          | error e =>
            rw [show (mdCfg B true).builder.result ((allEvs mv).foldl (applyEv B) (B.reset b)) = .error e from hr] at h'
            cases e <;> simp at h'

end

end Gherkin
