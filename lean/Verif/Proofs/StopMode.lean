import Verif.Proofs.Grow

/-! `stop_at_first_error` on and off, side by side. -/

namespace Gherkin

/-- The same error; an error that shares a token's `Location` object may have had its column changed since. -/
structure Err.Like (e' e : Err) : Prop where
  kind : e'.kind = e.kind
  msg : e'.msg = e.msg
  alias : e'.aliasOf = e.aliasOf
  loc : e.aliasOf = none → e'.loc = e.loc

/-- The error list begins with this error. -/
def Starts (e : Err) (es : List Err) : Prop := ∃ e' rest, es = e' :: rest ∧ e'.Like e

theorem Starts.append {e : Err} {es : List Err} (h : Starts e es) (es' : List Err) : Starts e (es ++ es') := by
  obtain ⟨e', r, rfl, h⟩ := h; exact ⟨e', r ++ es', rfl, h⟩

theorem Starts.sync {e : Err} {es : List Err} (h : Starts e es) (t : Token) : Starts e (syncErrors t es) := by
  obtain ⟨e', r, rfl, h⟩ := h
  refine ⟨_, _, rfl, ?_⟩
  show Err.Like (if e'.aliasOf = some t.line.number then { e' with loc := t.loc } else e') e
  split
  · rename_i ha
    exact ⟨h.kind, h.msg, h.alias, fun hn => by rw [h.alias, hn] at ha; simp at ha⟩
  · exact h

theorem Starts.one (e : Err) : Starts e [e] := ⟨e, [], rfl, rfl, rfl, rfl, fun _ => rfl⟩

section
variable {μ σ ρ : Type} {cfg : Config μ σ ρ}

theorem addError_starts {e e' : Err} {c : Ctx μ σ} (h : Starts e c.errors) : Starts e (addError e' c).2.errors := by
  rcases addError_cases e' c with ⟨_, h1⟩ | ⟨_, _, h1⟩ | ⟨_, _, h1⟩ <;> rw [h1]
  · exact h
  · exact h.append _
  · exact h.append _

theorem addError_first {e : Err} {c : Ctx μ σ} (h : c.errors = []) :
    addError e c = (.ok (), { c with errors := [e] }) := by
  rcases addError_cases e c with ⟨h0, h1⟩ | ⟨_, _, h1⟩ | ⟨_, h0, h1⟩
  · rw [h] at h0; simp at h0
  · rw [h1, h]; rfl
  · rw [h] at h0; simp at h0

theorem handle_starts {α : Type} {d : α} {r : Except MExc α} {e : Err} {c : Ctx μ σ} (h : Starts e c.errors) :
    Starts e (handle cfg d r c).2.errors := by
  unfold handle
  split
  · exact h
  · exact h
  · rename_i e'
    split
    · exact h
    · have := addError_starts (e' := e') h
      rcases ha : addError e' c with ⟨z, c1⟩
      rw [ha] at this
      cases z <;> exact this

theorem matchTok_starts {k : Kind} {t : Token} {e : Err} {c : Ctx μ σ} (h : Starts e c.errors) :
    Starts e (matchTok cfg k t c).2.2.errors := by
  unfold matchTok
  split
  · exact h
  · simp only
    exact handle_starts (by exact h.sync _)

theorem closed_starts (hL : cfg.matcher.Lawful) (e : Err) : MatchClosed cfg
    (fun c c' => Starts e c.errors → Starts e c'.errors) (fun c _ c' => Starts e c.errors → Starts e c'.errors) := by
  apply MatchClosed.of_tok hL
  · intro c h; exact h
  · intro a b c h1 h2 h; exact h2 (h1 h)
  · intro a b x c h1 h2 h; exact h2 (h1 h)
  · intro k t c b t' c' h hs; have := matchTok_starts (cfg := cfg) (k := k) (t := t) hs; rw [h] at this; exact this
  · intro k t c x t' c' h hs; have := matchTok_starts (cfg := cfg) (k := k) (t := t) hs; rw [h] at this; exact this
  · intro c s q h; exact h

theorem runProds_starts {ps : List Prod} {t : Token} {e : Err} : ∀ {c : Ctx μ σ}, Starts e c.errors →
    Starts e (runProds cfg ps t c).2.errors := by
  induction ps with
  | nil => intro c h; exact h
  | cons p ps ih =>
    intro c h
    have h1 : Starts e (runProd cfg p t c).2.errors := by rw [runProd_eq]; exact handle_starts h
    simp only [runProds]
    rcases hp : runProd cfg p t c with ⟨r, c1⟩
    rw [hp] at h1
    cases r with
    | error x => exact h1
    | ok u => exact ih h1

theorem matchToken_starts (hL : cfg.matcher.Lawful) {q : Nat} {t : Token} {e : Err} {c : Ctx μ σ} (hs : Starts e c.errors) :
    Starts e (matchToken cfg q t c).2.errors := by
  have h := matchToken_cases hL (closed_starts hL e) q t c
  rcases hm : matchToken cfg q t c with ⟨r, c'⟩
  rw [hm] at h
  simp only at h ⊢
  cases h with
  | noState h => exact hs
  | matchExc h1 h2 => exact h2 hs
  | unexpected h1 h2 h3 h4 h5 h6 =>
    rename_i row t' c1
    have h0 := h2 hs
    rcases h6 with ⟨_, _, rfl⟩ | ⟨_, _, ha⟩ | ⟨_, x, _, ha⟩
    · exact h0
    · have := addError_starts (e' := unexpected row.expected t') h0; rw [ha] at this; exact this
    · have := addError_starts (e' := unexpected row.expected t') h0; rw [ha] at this; exact this
  | @taken row pre tr post t0 t' c0 c1 c2 _ _ h1 h2 hj0 hj1 h4 h5 h6 h7 h8 h9 hj2 h11 h12 =>
    rcases h12 with ⟨_, hp⟩ | ⟨x, _, hp⟩
    · have := runProds_starts (cfg := cfg) (ps := tr.prods) (t := t') (hj2 hs); rw [hp] at this; exact this
    · have := runProds_starts (cfg := cfg) (ps := tr.prods) (t := t') (hj2 hs); rw [hp] at this; exact this

theorem readToken_errors (c : Ctx μ σ) : (readToken c).2.errors = c.errors := by
  unfold readToken
  split
  · rfl
  · rcases h : c.scanner.read with ⟨l, s⟩; rfl

theorem parseLoop_starts (hL : cfg.matcher.Lawful) {e : Err} : ∀ {fuel q : Nat} {c : Ctx μ σ}, Starts e c.errors →
    Starts e (parseLoop cfg fuel q c).2.errors := by
  intro fuel
  induction fuel with
  | zero => intro q c h; exact h
  | succ fuel ih =>
    intro q c h
    unfold parseLoop
    have hr := readToken_errors c
    rcases hrd : readToken c with ⟨t, c1⟩
    rw [hrd] at hr
    simp only
    have h1 := matchToken_starts hL (q := q) (t := t) (c := { c1 with log := c1.log ++ [.take t.line] }) (e := e)
      (by simp only at hr ⊢; rw [hr]; exact h)
    rcases hm : matchToken cfg q t { c1 with log := c1.log ++ [.take t.line] } with ⟨r, c2⟩
    rw [hm] at h1
    cases r with
    | error x => exact h1
    | ok q' =>
      simp only
      split
      · exact h1
      · exact ih h1

end

/-! ### The two modes side by side -/

section
variable {μ σ ρ : Type} {M : Matcher μ} {B : Builder σ ρ}

local notation "cfgStop" => (Config.mk M B true : Config μ σ ρ)
local notation "cfgGo" => (Config.mk M B false : Config μ σ ρ)

/-- Outcomes of the two modes: equal and without errors so far, or the stopping one has raised the first error. -/
def Side {α : Type} (s : Except Exc α × Ctx μ σ) (k : Except Exc α × Ctx μ σ) : Prop :=
  (s = k ∧ s.2.errors = []) ∨ ∃ e, s.1 = .error (.single e) ∧ Starts e k.2.errors

theorem Side.same {α : Type} {s : Except Exc α × Ctx μ σ} (h : s.2.errors = []) : Side s s := .inl ⟨rfl, h⟩

theorem handle_side {α : Type} (d : α) (r : Except MExc α) {c : Ctx μ σ} (h : c.errors = []) :
    Side (handle cfgStop d r c) (handle cfgGo d r c) := by
  unfold handle
  cases r with
  | ok a => exact .same h
  | error x =>
    cases x with
    | crash k => exact .same h
    | parser e =>
      simp only [if_true, Bool.false_eq_true, if_false, addError_first h]
      exact .inr ⟨e, rfl, .one e⟩

/-- Pairs with the token in the middle. -/
def unTok {α : Type} (x : Except Exc α × Token × Ctx μ σ) : Except Exc (α × Token) × Ctx μ σ := (x.1.map (·, x.2.1), x.2.2)

theorem matchTok_side (k : Kind) (t : Token) {c : Ctx μ σ} (h : c.errors = []) :
    Side (unTok (matchTok cfgStop k t c)) (unTok (matchTok cfgGo k t c)) := by
  unfold matchTok
  split
  · exact .same h
  · simp only [unTok, h, syncErrors_nil]
    have := handle_side (M := M) (B := B) false (M.match_ k t c.matcher).1
      (c := { c with matcher := (M.match_ k t c.matcher).2.2, errors := [] }) rfl
    rcases this with ⟨h1, h2⟩ | ⟨e, h1, h2⟩
    · exact .inl ⟨by rw [h1], h2⟩
    · exact .inr ⟨e, by rw [h1]; rfl, h2⟩

theorem Side.untok {α : Type} {s k : Except Exc α × Token × Ctx μ σ} (h : Side (unTok s) (unTok k)) :
    (s.2.2.errors = [] ∧ s.2.2 = k.2.2 ∧ s.1 = k.1 ∧ ((∃ a, s.1 = .ok a) → s = k)) ∨
      ∃ e, s.1 = .error (.single e) ∧ Starts e k.2.2.errors := by
  rcases s with ⟨r, t, c⟩
  rcases k with ⟨r', t', c'⟩
  rcases h with ⟨h1, h2⟩ | ⟨e, h1, h2⟩
  · left
    simp only [unTok, Prod.mk.injEq] at h1 h2 ⊢
    obtain ⟨h1, rfl⟩ := h1
    cases r with
    | error x => cases r' with
      | error y => simp [Except.map] at h1; subst h1; exact ⟨h2, rfl, rfl, by simp⟩
      | ok b => simp [Except.map] at h1
    | ok a => cases r' with
      | error y => simp [Except.map] at h1
      | ok b => simp [Except.map] at h1; obtain ⟨rfl, rfl⟩ := h1; exact ⟨h2, rfl, rfl, by simp⟩
  · right
    simp only [unTok] at h1 h2
    cases r with
    | error x => simp [Except.map] at h1; exact ⟨e, by rw [h1], h2⟩
    | ok a => simp [Except.map] at h1

theorem matchAny_side (ks : List Kind) : ∀ (t : Token) {c : Ctx μ σ}, c.errors = [] →
    Side (unTok (matchAny cfgStop ks t c)) (unTok (matchAny cfgGo ks t c)) := by
  induction ks with
  | nil => intro t c h; exact .same h
  | cons k ks ih =>
    intro t c h
    unfold matchAny
    have h1 := (matchTok_side (M := M) (B := B) k t h).untok
    rcases hs : matchTok cfgStop k t c with ⟨r, t1, c1⟩
    rcases hk : matchTok cfgGo k t c with ⟨r', t1', c1'⟩
    rw [hs, hk] at h1
    simp only at h1
    rcases h1 with ⟨e1, rfl, rfl, e4⟩ | ⟨e, rfl, h2⟩
    · cases r with
      | error x => exact .inl ⟨by simp [unTok, Except.map], e1⟩
      | ok b =>
        have := e4 ⟨b, rfl⟩
        simp only [Prod.mk.injEq, true_and, and_true] at this
        subst this
        cases b with
        | false => exact ih t1 e1
        | true => exact .same e1
    · refine .inr ⟨e, rfl, ?_⟩
      cases r' with
      | error x => exact h2
      | ok b =>
        cases b with
        | true => exact h2
        | false =>
          simp only [unTok]
          have key : ∀ (ks : List Kind) (t : Token) (c : Ctx μ σ), Starts e c.errors → Starts e (matchAny cfgGo ks t c).2.2.errors := by
            intro ks
            induction ks with
            | nil => intro t c h; exact h
            | cons k ks ih =>
              intro t c h
              unfold matchAny
              have := matchTok_starts (cfg := cfgGo) (k := k) (t := t) h
              rcases hm : matchTok cfgGo k t c with ⟨r, t1, c1⟩
              rw [hm] at this
              cases r with
              | error x => exact this
              | ok b => cases b with
                | true => exact this
                | false => exact ih t1 c1 this
          exact key ks t1' c1' h2

theorem laLoop_starts {e : Err} (la : LA) : ∀ (fuel : Nat) (acc : List Token) (c : Ctx μ σ), Starts e c.errors →
    Starts e (laLoop cfgGo la fuel acc c).2.errors := by
  have key : ∀ (ks : List Kind) (t : Token) (c : Ctx μ σ), Starts e c.errors → Starts e (matchAny cfgGo ks t c).2.2.errors := by
    intro ks
    induction ks with
    | nil => intro t c h; exact h
    | cons k ks ih =>
      intro t c h
      unfold matchAny
      have := matchTok_starts (cfg := cfgGo) (k := k) (t := t) h
      rcases hm : matchTok cfgGo k t c with ⟨r, t1, c1⟩
      rw [hm] at this
      cases r with
      | error x => exact this
      | ok b => cases b with
        | true => exact this
        | false => exact ih t1 c1 this
  intro fuel
  induction fuel with
  | zero => intro acc c h; exact h
  | succ fuel ih =>
    intro acc c h
    unfold laLoop
    have hr := readToken_errors c
    rcases hrd : readToken c with ⟨t, c1⟩
    rw [hrd] at hr
    simp only at hr ⊢
    have h1 := matchTok_starts (cfg := cfgGo) (k := la.expected) (t := t) (c := c1) (e := e) (by rw [hr]; exact h)
    rcases hm : matchTok cfgGo la.expected t c1 with ⟨r, t2, c2⟩
    rw [hm] at h1
    cases r with
    | error x => exact h1
    | ok b =>
      cases b with
      | true => exact h1
      | false =>
        simp only
        have h2 := key skipKinds t2 c2 h1
        rcases hm2 : matchAny cfgGo skipKinds t2 c2 with ⟨r, t3, c3⟩
        rw [hm2] at h2
        cases r with
        | error x => exact h2
        | ok b =>
          cases b with
          | true => exact ih _ _ h2
          | false => exact h2

theorem laLoop_side (la : LA) : ∀ (fuel : Nat) (acc : List Token) {c : Ctx μ σ}, c.errors = [] →
    Side (laLoop cfgStop la fuel acc c) (laLoop cfgGo la fuel acc c) := by
  intro fuel
  induction fuel with
  | zero => intro acc c h; exact .same h
  | succ fuel ih =>
    intro acc c h
    unfold laLoop
    have hr := readToken_errors c
    rcases hrd : readToken c with ⟨t, c1⟩
    rw [hrd] at hr
    simp only at hr ⊢
    have h1 := (matchTok_side (M := M) (B := B) la.expected t (c := c1) (by rw [hr]; exact h)).untok
    rcases hs : matchTok cfgStop la.expected t c1 with ⟨r, t2, c2⟩
    rcases hk : matchTok cfgGo la.expected t c1 with ⟨r', t2', c2'⟩
    rw [hs, hk] at h1
    simp only at h1
    rcases h1 with ⟨e1, rfl, rfl, e4⟩ | ⟨e, rfl, h2⟩
    · cases r with
      | error x => exact .same e1
      | ok b =>
        have := e4 ⟨b, rfl⟩
        simp only [Prod.mk.injEq, true_and, and_true] at this
        subst this
        cases b with
        | true => exact .same e1
        | false =>
          simp only
          have h2 := (matchAny_side (M := M) (B := B) skipKinds t2 e1).untok
          rcases hs2 : matchAny cfgStop skipKinds t2 c2 with ⟨r, t3, c3⟩
          rcases hk2 : matchAny cfgGo skipKinds t2 c2 with ⟨r', t3', c3'⟩
          rw [hs2, hk2] at h2
          simp only at h2
          rcases h2 with ⟨e1, rfl, rfl, e4⟩ | ⟨e, rfl, h2⟩
          · cases r with
            | error x => exact .same e1
            | ok b =>
              have := e4 ⟨b, rfl⟩
              simp only [Prod.mk.injEq, true_and, and_true] at this
              subst this
              cases b with
              | true => exact ih _ e1
              | false => exact .same e1
          · refine .inr ⟨e, rfl, ?_⟩
            cases r' with
            | error x => exact h2
            | ok b =>
              cases b with
              | true => exact laLoop_starts la _ _ _ h2
              | false => exact h2
    · refine .inr ⟨e, rfl, ?_⟩
      cases r' with
      | error x => exact h2
      | ok b =>
        cases b with
        | true => exact h2
        | false =>
          have := laLoop_starts (M := M) (B := B) (e := e) la 1
          simp only
          have key : ∀ (ks : List Kind) (t : Token) (c : Ctx μ σ), Starts e c.errors → Starts e (matchAny cfgGo ks t c).2.2.errors := by
            intro ks
            induction ks with
            | nil => intro t c h; exact h
            | cons k ks ih =>
              intro t c h
              unfold matchAny
              have := matchTok_starts (cfg := cfgGo) (k := k) (t := t) h
              rcases hm : matchTok cfgGo k t c with ⟨r, t1, c1⟩
              rw [hm] at this
              cases r with
              | error x => exact this
              | ok b => cases b with
                | true => exact this
                | false => exact ih t1 c1 this
          have h3 := key skipKinds t2' c2' h2
          rcases hm2 : matchAny cfgGo skipKinds t2' c2' with ⟨r, t3, c3⟩
          rw [hm2] at h3
          cases r with
          | error x => exact h3
          | ok b =>
            cases b with
            | true => exact laLoop_starts la _ _ _ h3
            | false => exact h3

theorem lookahead_side (la : LA) {c : Ctx μ σ} (h : c.errors = []) : Side (lookahead cfgStop la c) (lookahead cfgGo la c) := by
  unfold lookahead
  have h1 := laLoop_side (M := M) (B := B) la (c.queue.length + c.scanner.lines.length + 1) [] h
  rcases hs : laLoop cfgStop la (c.queue.length + c.scanner.lines.length + 1) [] c with ⟨r, c1⟩
  rcases hk : laLoop cfgGo la (c.queue.length + c.scanner.lines.length + 1) [] c with ⟨r', c1'⟩
  rw [hs, hk] at h1
  rcases h1 with ⟨h1, h2⟩ | ⟨e, h1, h2⟩
  · simp only [Prod.mk.injEq] at h1 h2
    obtain ⟨rfl, rfl⟩ := h1
    cases r with
    | error x => exact .same h2
    | ok b => exact .same h2
  · simp only at h1 h2
    subst h1
    refine .inr ⟨e, rfl, ?_⟩
    cases r' with
    | error x => exact h2
    | ok b => exact h2

theorem runProds_side (ps : List Prod) (t : Token) : ∀ {c : Ctx μ σ}, c.errors = [] →
    Side (runProds cfgStop ps t c) (runProds cfgGo ps t c) := by
  induction ps with
  | nil => intro c h; exact .same h
  | cons p ps ih =>
    intro c h
    unfold runProds
    have h1 : Side (runProd cfgStop p t c) (runProd cfgGo p t c) := by
      rw [runProd_eq, runProd_eq]
      exact handle_side () _ (by exact h)
    rcases hs : runProd cfgStop p t c with ⟨r, c1⟩
    rcases hk : runProd cfgGo p t c with ⟨r', c1'⟩
    rw [hs, hk] at h1
    rcases h1 with ⟨h1, h2⟩ | ⟨e, h1, h2⟩
    · simp only [Prod.mk.injEq] at h1 h2
      obtain ⟨rfl, rfl⟩ := h1
      cases r with
      | error x => exact .same h2
      | ok u => exact ih h2
    · simp only at h1 h2
      subst h1
      refine .inr ⟨e, rfl, ?_⟩
      cases r' with
      | error x => exact h2
      | ok u => exact runProds_starts h2

theorem testTrans_side (hL : M.Lawful) (tr : Trans) (t : Token) {c : Ctx μ σ} (h : c.errors = []) :
    Side (unTok (testTrans cfgStop tr t c)) (unTok (testTrans cfgGo tr t c)) := by
  unfold testTrans
  have h1 := (matchTok_side (M := M) (B := B) tr.kind t h).untok
  rcases hs : matchTok cfgStop tr.kind t c with ⟨r, t1, c1⟩
  rcases hk : matchTok cfgGo tr.kind t c with ⟨r', t1', c1'⟩
  rw [hs, hk] at h1
  simp only at h1
  rcases h1 with ⟨e1, rfl, rfl, e4⟩ | ⟨e, rfl, h2⟩
  · cases r with
    | error x => exact .inl ⟨by simp [unTok, Except.map], e1⟩
    | ok b =>
      have := e4 ⟨b, rfl⟩
      simp only [Prod.mk.injEq, true_and, and_true] at this
      subst this
      cases b with
      | false => exact .same e1
      | true =>
        simp only
        cases tr.la with
        | none => exact .same e1
        | some la =>
          simp only [unTok]
          rcases lookahead_side (M := M) (B := B) la e1 with ⟨h1, h2⟩ | ⟨e, h1, h2⟩
          · exact .inl ⟨by rw [h1], h2⟩
          · exact .inr ⟨e, by rw [h1]; rfl, h2⟩
  · refine .inr ⟨e, rfl, ?_⟩
    cases r' with
    | error x => exact h2
    | ok b =>
      cases b with
      | false => exact h2
      | true =>
        simp only
        cases tr.la with
        | none => exact h2
        | some la =>
          simp only [unTok]
          have hc := closed_starts (cfg := cfgGo) hL e
          rcases hl : lookahead cfgGo la c1' with ⟨r, c2⟩
          cases r with
          | error x => exact hc.laE hl h2
          | ok b => exact hc.la hl h2

theorem testTrans_starts (hL : M.Lawful) (tr : Trans) (t : Token) {e : Err} {c : Ctx μ σ} (h : Starts e c.errors) :
    Starts e (testTrans cfgGo tr t c).2.2.errors := by
  unfold testTrans
  have h1 := matchTok_starts (cfg := cfgGo) (k := tr.kind) (t := t) h
  rcases hm : matchTok cfgGo tr.kind t c with ⟨r, t1, c1⟩
  rw [hm] at h1
  cases r with
  | error x => exact h1
  | ok b =>
    cases b with
    | false => exact h1
    | true =>
      simp only
      cases tr.la with
      | none => exact h1
      | some la =>
        simp only
        have hc := closed_starts (cfg := cfgGo) hL e
        rcases hl : lookahead cfgGo la c1 with ⟨r, c2⟩
        cases r with
        | error x => exact hc.laE hl h1
        | ok b => exact hc.la hl h1

theorem tryTrans_starts (hL : M.Lawful) (rows : List Trans) {e : Err} : ∀ (t : Token) {c : Ctx μ σ}, Starts e c.errors →
    Starts e (tryTrans cfgGo rows t c).2.2.errors := by
  induction rows with
  | nil => intro t c h; exact h
  | cons tr trs ih =>
    intro t c h
    unfold tryTrans
    have h1 := testTrans_starts (B := B) hL tr t h
    rcases hm : testTrans cfgGo tr t c with ⟨r, t1, c1⟩
    rw [hm] at h1
    cases r with
    | error x => exact h1
    | ok b =>
      cases b with
      | false => exact ih t1 h1
      | true =>
        simp only
        have h2 := runProds_starts (cfg := cfgGo) (ps := tr.prods) (t := t1) h1
        rcases hp : runProds cfgGo tr.prods t1 c1 with ⟨y, c2⟩
        rw [hp] at h2
        cases y <;> exact h2

theorem tryTrans_side (hL : M.Lawful) (rows : List Trans) : ∀ (t : Token) {c : Ctx μ σ}, c.errors = [] →
    Side (unTok (tryTrans cfgStop rows t c)) (unTok (tryTrans cfgGo rows t c)) := by
  induction rows with
  | nil => intro t c h; exact .same h
  | cons tr trs ih =>
    intro t c h
    unfold tryTrans
    have h1 := (testTrans_side (M := M) (B := B) hL tr t h).untok
    rcases hs : testTrans cfgStop tr t c with ⟨r, t1, c1⟩
    rcases hk : testTrans cfgGo tr t c with ⟨r', t1', c1'⟩
    rw [hs, hk] at h1
    simp only at h1
    rcases h1 with ⟨e1, rfl, rfl, e4⟩ | ⟨e, rfl, h2⟩
    · cases r with
      | error x => exact .inl ⟨by simp [unTok, Except.map], e1⟩
      | ok b =>
        have := e4 ⟨b, rfl⟩
        simp only [Prod.mk.injEq, true_and, and_true] at this
        subst this
        cases b with
        | false => exact ih t1 e1
        | true =>
          simp only
          have hp := runProds_side (M := M) (B := B) tr.prods t1 e1
          rcases hs2 : runProds cfgStop tr.prods t1 c1 with ⟨y, c2⟩
          rcases hk2 : runProds cfgGo tr.prods t1 c1 with ⟨y', c2'⟩
          rw [hs2, hk2] at hp
          rcases hp with ⟨h1, h2⟩ | ⟨e, h1, h2⟩
          · simp only [Prod.mk.injEq] at h1 h2
            obtain ⟨rfl, rfl⟩ := h1
            cases y <;> exact .same h2
          · simp only at h1 h2
            subst h1
            refine .inr ⟨e, rfl, ?_⟩
            cases y' <;> exact h2
    · refine .inr ⟨e, rfl, ?_⟩
      cases r' with
      | error x => exact h2
      | ok b =>
        cases b with
        | false => exact tryTrans_starts hL trs t1' h2
        | true =>
          simp only [unTok]
          have h3 := runProds_starts (cfg := cfgGo) (ps := tr.prods) (t := t1') h2
          rcases hp : runProds cfgGo tr.prods t1' c1' with ⟨y, c2⟩
          rw [hp] at h3
          cases y <;> exact h3

theorem matchToken_side (hL : M.Lawful) (q : Nat) (t : Token) {c : Ctx μ σ} (h : c.errors = []) :
    Side (matchToken cfgStop q t c) (matchToken cfgGo q t c) := by
  unfold matchToken
  cases table q with
  | none => exact .same h
  | some row =>
    simp only
    have h1 := (tryTrans_side (M := M) (B := B) hL row.trans t h).untok
    rcases hs : tryTrans cfgStop row.trans t c with ⟨r, t1, c1⟩
    rcases hk : tryTrans cfgGo row.trans t c with ⟨r', t1', c1'⟩
    rw [hs, hk] at h1
    simp only at h1
    rcases h1 with ⟨e1, rfl, rfl, e4⟩ | ⟨e, rfl, h2⟩
    · cases r with
      | error x => exact .same e1
      | ok b =>
        have := e4 ⟨b, rfl⟩
        simp only [Prod.mk.injEq, true_and, and_true] at this
        subst this
        cases b with
        | some q' => exact .same e1
        | none =>
          simp only [if_true, Bool.false_eq_true, if_false, addError_first e1]
          exact .inr ⟨_, rfl, .one _⟩
    · refine .inr ⟨e, rfl, ?_⟩
      cases r' with
      | error x => exact h2
      | ok b =>
        cases b with
        | some q' => exact h2
        | none =>
          simp only [Bool.false_eq_true, if_false]
          have := addError_starts (e' := unexpected row.expected t1') h2
          rcases ha : addError (unexpected row.expected t1') c1' with ⟨y, c2⟩
          rw [ha] at this
          cases y <;> exact this

theorem parseLoop_side (hL : M.Lawful) : ∀ (fuel q : Nat) {c : Ctx μ σ}, c.errors = [] →
    Side (parseLoop cfgStop fuel q c) (parseLoop cfgGo fuel q c) := by
  intro fuel
  induction fuel with
  | zero => intro q c h; exact .same h
  | succ fuel ih =>
    intro q c h
    unfold parseLoop
    have hr := readToken_errors c
    rcases hrd : readToken c with ⟨t, c1⟩
    rw [hrd] at hr
    simp only at hr ⊢
    have h1 := matchToken_side (M := M) (B := B) hL q t (c := { c1 with log := c1.log ++ [.take t.line] })
      (by rw [← hr] at h; exact h)
    rcases hs : matchToken cfgStop q t { c1 with log := c1.log ++ [.take t.line] } with ⟨r, c2⟩
    rcases hk : matchToken cfgGo q t { c1 with log := c1.log ++ [.take t.line] } with ⟨r', c2'⟩
    rw [hs, hk] at h1
    rcases h1 with ⟨h1, h2⟩ | ⟨e, h1, h2⟩
    · simp only [Prod.mk.injEq] at h1 h2
      obtain ⟨rfl, rfl⟩ := h1
      cases r with
      | error x => exact .same h2
      | ok q' =>
        simp only
        split
        · exact .same h2
        · exact ih q' h2
    · simp only at h1 h2
      subst h1
      refine .inr ⟨e, rfl, ?_⟩
      cases r' with
      | error x => exact h2
      | ok q' =>
        simp only
        split
        · exact h2
        · exact parseLoop_starts (cfg := cfgGo) hL h2

/-- The end of `parse`, after the loop. -/
def finish (cfg : Config μ σ ρ) (c : Ctx μ σ) : Except Exc ρ × Ctx μ σ :=
  match runProd cfg (.stop .gherkinDocument) (Token.fresh ⟨[], 0⟩) c with
  | (.error x, c) => (.error x, c)
  | (.ok (), c) =>
    if c.errors ≠ [] then (.error (.composite c.errors), c)
    else match cfg.builder.result c.builder with
      | .ok r => (.ok r, c)
      | .error (.crash k) => (.error (.crash k), c)
      | .error (.parser e) => (.error (.single e), c)

theorem finish_starts {e : Err} {c : Ctx μ σ} (h : Starts e c.errors) : Starts e (finish cfgGo c).2.errors := by
  unfold finish
  have h1 : Starts e (runProd cfgGo (.stop .gherkinDocument) (Token.fresh ⟨[], 0⟩) c).2.errors := by
    rw [runProd_eq]; exact handle_starts h
  rcases hp : runProd cfgGo (.stop .gherkinDocument) (Token.fresh ⟨[], 0⟩) c with ⟨r, c1⟩
  rw [hp] at h1
  cases r with
  | error x => exact h1
  | ok u =>
    simp only
    split
    · exact h1
    · rename_i h0
      obtain ⟨e', rest, h2, _⟩ := h1
      simp only at h2
      rw [h2] at h0; simp at h0

theorem finish_side {c : Ctx μ σ} (h : c.errors = []) : Side (finish cfgStop c) (finish cfgGo c) := by
  unfold finish
  have h1 : Side (runProd cfgStop (.stop .gherkinDocument) (Token.fresh ⟨[], 0⟩) c)
      (runProd cfgGo (.stop .gherkinDocument) (Token.fresh ⟨[], 0⟩) c) := by
    rw [runProd_eq, runProd_eq]
    exact handle_side () _ (by exact h)
  rcases hs : runProd cfgStop (.stop .gherkinDocument) (Token.fresh ⟨[], 0⟩) c with ⟨r, c1⟩
  rcases hk : runProd cfgGo (.stop .gherkinDocument) (Token.fresh ⟨[], 0⟩) c with ⟨r', c1'⟩
  rw [hs, hk] at h1
  rcases h1 with ⟨h1, h2⟩ | ⟨e, h1, h2⟩
  · simp only [Prod.mk.injEq] at h1 h2
    obtain ⟨rfl, rfl⟩ := h1
    cases r with
    | error x => exact .same h2
    | ok u =>
      simp only [h2, ne_eq, not_true_eq_false, if_false]
      rcases B.result c1.builder with x | r
      · cases x <;> exact .same h2
      · exact .same h2
  · simp only at h1 h2
    subst h1
    refine .inr ⟨e, rfl, ?_⟩
    cases r' with
    | error x => exact h2
    | ok u =>
      obtain ⟨e', rest, h3, h4⟩ := h2
      simp only [h3, ne_eq, reduceCtorEq, not_false_eq_true, if_true]
      exact ⟨e', rest, rfl, h4⟩

theorem parse_side (hL : M.Lawful) (text : Str) (m : μ) (b : σ) :
    Side (parse cfgStop text m b) (parse cfgGo text m b) := by
  have e1 : ∀ stop, parse (Config.mk M B stop) text m b =
      match runProd (Config.mk M B stop) (.start .gherkinDocument) (Token.fresh ⟨[], 0⟩) (Ctx.init (Config.mk M B stop) text m b) with
      | (.error x, c) => (.error x, c)
      | (.ok (), c) => match parseLoop (Config.mk M B stop) (c.scanner.lines.length + 1) 0 c with
        | (.error x, c) => (.error x, c)
        | (.ok (), c) => finish (Config.mk M B stop) c := by
    intro stop; rfl
  rw [e1, e1]
  have h1 : Side (runProd cfgStop (.start .gherkinDocument) (Token.fresh ⟨[], 0⟩) (Ctx.init cfgStop text m b))
      (runProd cfgGo (.start .gherkinDocument) (Token.fresh ⟨[], 0⟩) (Ctx.init cfgGo text m b)) := by
    rw [runProd_eq, runProd_eq]
    exact handle_side () _ rfl
  have hl : ∀ (e : Err) (c : Ctx μ σ), Starts e c.errors → Starts e
      (match parseLoop cfgGo (c.scanner.lines.length + 1) 0 c with
        | (.error x, c) => ((.error x, c) : Except Exc ρ × Ctx μ σ)
        | (.ok (), c) => finish cfgGo c).2.errors := by
    intro e c h
    have := parseLoop_starts (cfg := cfgGo) hL (fuel := c.scanner.lines.length + 1) (q := 0) h
    rcases hp : parseLoop cfgGo (c.scanner.lines.length + 1) 0 c with ⟨r, c1⟩
    rw [hp] at this
    cases r with
    | error x => exact this
    | ok u => exact finish_starts this
  rcases hs : runProd cfgStop (.start .gherkinDocument) (Token.fresh ⟨[], 0⟩) (Ctx.init cfgStop text m b) with ⟨r, c1⟩
  rcases hk : runProd cfgGo (.start .gherkinDocument) (Token.fresh ⟨[], 0⟩) (Ctx.init cfgGo text m b) with ⟨r', c1'⟩
  rw [hs, hk] at h1
  rcases h1 with ⟨h1, h2⟩ | ⟨e, h1, h2⟩
  · simp only [Prod.mk.injEq] at h1 h2
    obtain ⟨rfl, rfl⟩ := h1
    cases r with
    | error x => exact .same h2
    | ok u =>
      simp only
      have h3 := parseLoop_side (M := M) (B := B) hL (c1.scanner.lines.length + 1) 0 h2
      rcases hs2 : parseLoop cfgStop (c1.scanner.lines.length + 1) 0 c1 with ⟨y, c2⟩
      rcases hk2 : parseLoop cfgGo (c1.scanner.lines.length + 1) 0 c1 with ⟨y', c2'⟩
      rw [hs2, hk2] at h3
      rcases h3 with ⟨h1, h2⟩ | ⟨e, h1, h2⟩
      · simp only [Prod.mk.injEq] at h1 h2
        obtain ⟨rfl, rfl⟩ := h1
        cases y with
        | error x => exact .same h2
        | ok u => exact finish_side h2
      · simp only at h1 h2
        subst h1
        refine .inr ⟨e, rfl, ?_⟩
        cases y' with
        | error x => exact h2
        | ok u => exact finish_starts h2
  · simp only at h1 h2
    subst h1
    refine .inr ⟨e, rfl, ?_⟩
    cases r' with
    | error x => exact h2
    | ok u => exact hl e c1' h2

end

end Gherkin
