import Verif.Parser

/-! Generic facts about the parser driver, for every lawful matcher and every builder. -/

namespace Gherkin

/-- What the driver relies on in a matcher. -/
structure Matcher.Lawful {μ : Type} (M : Matcher μ) : Prop where
  line : ∀ k t m, (M.match_ k t m).2.1.line = t.line
  locLine : ∀ k t m, (M.match_ k t m).2.1.loc.line = t.loc.line
  type : ∀ k t m, (M.match_ k t m).1 = .ok true → (M.match_ k t m).2.1.type = some k
  column : ∀ k t m, (M.match_ k t m).1 = .ok true → (M.match_ k t m).2.1.loc.column.isSome
  eof : ∀ t m, (M.match_ .eof t m).1 = .ok true ↔ t.eof = true

section
variable {μ σ ρ : Type} {cfg : Config μ σ ρ}

/-! ### matchTok, matchAny -/

theorem addError_cases (e : Err) (c : Ctx μ σ) :
    (e.msg ∈ c.errors.map (·.msg) ∧ addError e c = (.ok (), c)) ∨
    (e.msg ∉ c.errors.map (·.msg) ∧ c.errors.length < 10 ∧
      addError e c = (.ok (), { c with errors := c.errors ++ [e] })) ∨
    (e.msg ∉ c.errors.map (·.msg) ∧ 10 ≤ c.errors.length ∧
      addError e c = (.error (.composite (c.errors ++ [e])), { c with errors := c.errors ++ [e] })) := by
  by_cases h1 : e.msg ∈ c.errors.map (·.msg)
  · exact .inl ⟨h1, by unfold addError; rw [if_pos h1]⟩
  · right
    by_cases h2 : (c.errors ++ [e]).length > 10
    · refine .inr ⟨h1, by simp at h2; omega, ?_⟩
      unfold addError; rw [if_neg h1]; simp only [h2, if_true]
    · refine .inl ⟨h1, by simp at h2; omega, ?_⟩
      unfold addError; rw [if_neg h1]; simp only [h2, if_false]

theorem handle_ctx {α : Type} (d : α) (r : Except MExc α) (c : Ctx μ σ) :
    (handle cfg d r c).2.scanner = c.scanner ∧ (handle cfg d r c).2.matcher = c.matcher ∧
    (handle cfg d r c).2.queue = c.queue ∧ (handle cfg d r c).2.builder = c.builder ∧
    (handle cfg d r c).2.log = c.log := by
  unfold handle
  split
  · simp
  · simp
  · rename_i e
    split
    · simp
    · rcases addError_cases e c with ⟨_, h⟩ | ⟨_, _, h⟩ | ⟨_, _, h⟩ <;> rw [h] <;> simp

theorem handle_ok {α : Type} {d : α} {r : Except MExc α} {c c' : Ctx μ σ} {a : α}
    (h : handle cfg d r c = (.ok a, c')) :
    (r = .ok a ∧ c' = c) ∨
    (∃ e, r = .error (.parser e) ∧ cfg.stop = false ∧ a = d ∧ addError e c = (.ok (), c')) := by
  unfold handle at h
  split at h
  · simp at h; exact .inl ⟨by simp [h.1], h.2.symm⟩
  · simp at h
  · rename_i e
    split at h
    · simp at h
    · rename_i hs
      rcases ha : addError e c with ⟨x, c1⟩
      rw [ha] at h
      cases x with
      | ok u => simp at h; exact .inr ⟨e, rfl, by simpa using hs, h.1.symm, by simp [ha, h.2]⟩
      | error x => simp at h

theorem matchTok_line (hL : cfg.matcher.Lawful) (k : Kind) (t : Token) (c : Ctx μ σ) :
    (matchTok cfg k t c).2.1.line = t.line := by
  unfold matchTok
  split
  · rfl
  · exact hL.line k t c.matcher

theorem matchTok_locLine (hL : cfg.matcher.Lawful) (k : Kind) (t : Token) (c : Ctx μ σ) :
    (matchTok cfg k t c).2.1.loc.line = t.loc.line := by
  unfold matchTok
  split
  · rfl
  · exact hL.locLine k t c.matcher

theorem matchTok_frame (k : Kind) (t : Token) (c : Ctx μ σ) :
    (matchTok cfg k t c).2.2.scanner = c.scanner ∧ (matchTok cfg k t c).2.2.queue = c.queue ∧
    (matchTok cfg k t c).2.2.builder = c.builder ∧ (matchTok cfg k t c).2.2.log = c.log := by
  unfold matchTok
  split
  · simp
  · have h := handle_ctx (cfg := cfg) false (cfg.matcher.match_ k t c.matcher).1
      { c with matcher := (cfg.matcher.match_ k t c.matcher).2.2,
               errors := syncErrors (cfg.matcher.match_ k t c.matcher).2.1 c.errors }
    exact ⟨h.1, h.2.2.1, h.2.2.2.1, h.2.2.2.2⟩

/-- A successful match: the matcher itself answered True. -/
theorem matchTok_true {k : Kind} {t t' : Token} {c c' : Ctx μ σ}
    (h : matchTok cfg k t c = (.ok true, t', c')) :
    (k = .eof ∨ t.eof = false) ∧ cfg.matcher.match_ k t c.matcher = (.ok true, t', c'.matcher) ∧
    c' = { c with matcher := c'.matcher, errors := syncErrors t' c.errors } := by
  unfold matchTok at h
  split at h
  · simp at h
  · rename_i hk
    rcases hm : cfg.matcher.match_ k t c.matcher with ⟨r, t1, m1⟩
    rw [hm] at h
    simp only at h
    rcases hh : handle cfg false r { c with matcher := m1, errors := syncErrors t1 c.errors } with ⟨r', c1⟩
    rw [hh] at h
    simp only [Prod.mk.injEq] at h
    obtain ⟨h1, h2, h3⟩ := h
    subst h1; subst h2; subst h3
    refine ⟨?_, ?_⟩
    · by_cases hke : k = .eof
      · exact .inl hke
      · right
        cases hb : t.eof <;> simp_all
    · rcases handle_ok hh with ⟨hr, hc⟩ | ⟨e, _, _, hd, _⟩
      · subst hc; simp [hr]
      · simp at hd

theorem matchTok_true_type (hL : cfg.matcher.Lawful) {k : Kind} {t t' : Token} {c c' : Ctx μ σ}
    (h : matchTok cfg k t c = (.ok true, t', c')) : t'.type = some k := by
  have h1 := (matchTok_true h).2.1
  have := hL.type k t c.matcher
  rw [h1] at this
  exact this rfl

theorem matchTok_true_eof (hL : cfg.matcher.Lawful) {k : Kind} {t t' : Token} {c c' : Ctx μ σ}
    (h : matchTok cfg k t c = (.ok true, t', c')) : k = .eof ↔ t.eof = true := by
  have h1 := matchTok_true h
  constructor
  · intro hk; subst hk
    have := hL.eof t c.matcher
    rw [h1.2.1] at this
    exact this.1 rfl
  · intro ht
    rcases h1.1 with h | h
    · exact h
    · simp [ht] at h

/-- On the end-of-file token every kind but `EOF` is refused without any effect. -/
theorem matchTok_eof {k : Kind} (hk : k ≠ .eof) {t : Token} (ht : t.eof = true) (c : Ctx μ σ) :
    matchTok cfg k t c = (.ok false, t, c) := by
  unfold matchTok; simp [hk, ht]

theorem matchAny_line (hL : cfg.matcher.Lawful) (ks : List Kind) (t : Token) (c : Ctx μ σ) :
    (matchAny cfg ks t c).2.1.line = t.line ∧ (matchAny cfg ks t c).2.1.loc.line = t.loc.line := by
  induction ks generalizing t c with
  | nil => exact ⟨rfl, rfl⟩
  | cons k ks ih =>
    have h := matchTok_line hL k t c
    have h2 := matchTok_locLine hL k t c
    unfold matchAny
    split
    · rename_i t' c' hm
      rw [hm] at h h2
      have := ih t' c'
      exact ⟨this.1.trans h, this.2.trans h2⟩
    · rename_i hm
      exact ⟨h, h2⟩

theorem matchAny_frame (ks : List Kind) (t : Token) (c : Ctx μ σ) :
    (matchAny cfg ks t c).2.2.scanner = c.scanner ∧ (matchAny cfg ks t c).2.2.queue = c.queue ∧
    (matchAny cfg ks t c).2.2.builder = c.builder ∧ (matchAny cfg ks t c).2.2.log = c.log := by
  induction ks generalizing t c with
  | nil => exact ⟨rfl, rfl, rfl, rfl⟩
  | cons k ks ih =>
    have h := matchTok_frame (cfg := cfg) k t c
    unfold matchAny
    split
    · rename_i t' c' hm
      rw [hm] at h
      have := ih t' c'
      exact ⟨this.1.trans h.1, this.2.1.trans h.2.1, this.2.2.1.trans h.2.2.1, this.2.2.2.trans h.2.2.2⟩
    · exact h

theorem matchAny_eof {ks : List Kind} (hk : .eof ∉ ks) {t : Token} (ht : t.eof = true) (c : Ctx μ σ) :
    matchAny cfg ks t c = (.ok false, t, c) := by
  induction ks with
  | nil => rfl
  | cons k ks ih =>
    unfold matchAny
    rw [matchTok_eof (by intro h; exact hk (by simp [h])) ht]
    exact ih (fun h => hk (by simp [h]))

/-! ### Relations between contexts that matching respects -/

/-- `J c c'`: a relation between contexts kept by every match and look-ahead; `E c x c'`: the same for a match or
look-ahead that ends in exception `x`. -/
structure MatchClosed (cfg : Config μ σ ρ) (J : Ctx μ σ → Ctx μ σ → Prop) (E : Ctx μ σ → Exc → Ctx μ σ → Prop) :
    Prop where
  refl : ∀ c, J c c
  trans : ∀ {a b c}, J a b → J b c → J a c
  transE : ∀ {a b x c}, J a b → E b x c → E a x c
  tok : ∀ {k t c b t' c'}, matchTok cfg k t c = (.ok b, t', c') → J c c'
  tokE : ∀ {k t c x t' c'}, matchTok cfg k t c = (.error x, t', c') → E c x c'
  la : ∀ {l c b c'}, lookahead cfg l c = (.ok b, c') → J c c'
  laE : ∀ {l c x c'}, lookahead cfg l c = (.error x, c') → E c x c'

/-- The outcome of the chain of `if` blocks. -/
inductive TryResult (cfg : Config μ σ ρ) (J : Ctx μ σ → Ctx μ σ → Prop) (E : Ctx μ σ → Exc → Ctx μ σ → Prop)
    (rows : List Trans) (t : Token) (c : Ctx μ σ) : Except Exc (Option Nat) → Token → Ctx μ σ → Prop
  /-- an exception while matching -/
  | fail {x t' c'} : E c x c' → TryResult cfg J E rows t c (.error x) t' c'
  /-- nothing matched -/
  | none {t' c'} : J c c' → t'.line = t.line → t'.loc.line = t.loc.line →
      (∀ tr ∈ rows, tr.la = none → ∃ t0 t1 c0 c1, J c c0 ∧ t0.line = t.line ∧
        matchTok cfg tr.kind t0 c0 = (.ok false, t1, c1)) →
      TryResult cfg J E rows t c (.ok none) t' c'
  /-- transition `tr` was taken; `t0`, `c0` are token and context before the successful match, `t'`, `c1` after it -/
  | taken {pre tr post t0 t' c0 c1 c2 c' r} : rows = pre ++ tr :: post → J c c0 → J c c1 → t0.line = t.line →
      t'.line = t.line → t'.loc.line = t.loc.line →
      matchTok cfg tr.kind t0 c0 = (.ok true, t', c1) →
      (∀ l, tr.la = some l → lookahead cfg l c1 = (.ok true, c2)) → (tr.la = Option.none → c2 = c1) → J c c2 →
      (∀ tr' ∈ pre, tr'.la = Option.none → ∃ t0 t1 c0 c1, J c c0 ∧ t0.line = t.line ∧
        matchTok cfg tr'.kind t0 c0 = (.ok false, t1, c1)) →
      (r = .ok (some tr.target) ∧ runProds cfg tr.prods t' c2 = (.ok (), c') ∨
        ∃ x, r = .error x ∧ runProds cfg tr.prods t' c2 = (.error x, c')) →
      TryResult cfg J E rows t c r t' c'

theorem tryTrans_cases (hL : cfg.matcher.Lawful) {J : Ctx μ σ → Ctx μ σ → Prop} {E : Ctx μ σ → Exc → Ctx μ σ → Prop}
    (hJ : MatchClosed cfg J E) (rows : List Trans) (t : Token) (c : Ctx μ σ) :
    TryResult cfg J E rows t c (tryTrans cfg rows t c).1 (tryTrans cfg rows t c).2.1 (tryTrans cfg rows t c).2.2 := by
  induction rows generalizing t c with
  | nil => exact .none (hJ.refl c) rfl rfl (by simp)
  | cons tr trs ih =>
    -- the transition's test failed: go on
    have cont : ∀ t1 c1, J c c1 → t1.line = t.line → t1.loc.line = t.loc.line →
        (tr.la = none → ∃ t0 t1 c0 c1, J c c0 ∧ t0.line = t.line ∧ matchTok cfg tr.kind t0 c0 = (.ok false, t1, c1)) →
        TryResult cfg J E (tr :: trs) t c (tryTrans cfg trs t1 c1).1 (tryTrans cfg trs t1 c1).2.1
          (tryTrans cfg trs t1 c1).2.2 := by
      intro t1 c1 hj hl hll hf
      have := ih t1 c1
      rcases htr : tryTrans cfg trs t1 c1 with ⟨r', t', c'⟩
      rw [htr] at this
      simp only at this ⊢
      cases this with
      | fail h => exact .fail (hJ.transE hj h)
      | none h1 h2 h3 h4 =>
        refine .none (hJ.trans hj h1) (h2.trans hl) (h3.trans hll) ?_
        intro tr' htr' hla
        rcases List.mem_cons.1 htr' with h | h
        · subst h; exact hf hla
        · obtain ⟨a, b, d, e, ha, hb, hc⟩ := h4 tr' h hla
          exact ⟨a, b, d, e, hJ.trans hj ha, hb.trans hl, hc⟩
      | taken h1 h2 h3 h4 h5 h6 h7 h8 h9 h10 h11 h12 =>
        rename_i pre tr' post t0 c0 c2 c3
        refine .taken (pre := tr :: pre) (by rw [h1]; rfl) (hJ.trans hj h2) (hJ.trans hj h3) (h4.trans hl)
          (h5.trans hl) (h6.trans hll) h7 h8 h9 (hJ.trans hj h10) ?_ h12
        intro tr'' htr' hla
        rcases List.mem_cons.1 htr' with h | h
        · subst h; exact hf hla
        · obtain ⟨a, b, d, e, ha, hb, hc⟩ := h11 tr'' h hla
          exact ⟨a, b, d, e, hJ.trans hj ha, hb.trans hl, hc⟩
    have hline := matchTok_line hL tr.kind t c
    have hlocl := matchTok_locLine hL tr.kind t c
    rcases hm : matchTok cfg tr.kind t c with ⟨r, t1, c1⟩
    rw [hm] at hline hlocl
    unfold tryTrans testTrans
    rw [hm]
    cases r with
    | error x => exact .fail (hJ.tokE hm)
    | ok b =>
      have hj1 := hJ.tok hm
      cases b with
      | false => exact cont t1 c1 hj1 hline hlocl (fun _ => ⟨t, t1, c, c1, hJ.refl c, rfl, hm⟩)
      | true =>
        cases hla : tr.la with
        | none =>
          simp only
          rcases hp : runProds cfg tr.prods t1 c1 with ⟨r, c2⟩
          cases r with
          | ok u =>
            simp only
            exact .taken (pre := []) rfl (hJ.refl c) hj1 rfl hline hlocl hm (by simp [hla]) (fun _ => rfl) hj1 (by simp)
              (.inl ⟨rfl, hp⟩)
          | error x =>
            simp only
            exact .taken (pre := []) rfl (hJ.refl c) hj1 rfl hline hlocl hm (by simp [hla]) (fun _ => rfl) hj1 (by simp)
              (.inr ⟨x, rfl, hp⟩)
        | some l =>
          simp only
          rcases hl : lookahead cfg l c1 with ⟨r, c2⟩
          cases r with
          | error x => exact .fail (hJ.transE hj1 (hJ.laE hl))
          | ok b =>
            have hj2 := hJ.trans hj1 (hJ.la hl)
            cases b with
            | false => exact cont t1 c2 hj2 hline hlocl (by simp [hla])
            | true =>
              simp only
              rcases hp : runProds cfg tr.prods t1 c2 with ⟨r, c3⟩
              cases r with
              | ok u =>
                simp only
                exact .taken (pre := []) rfl (hJ.refl c) hj1 rfl hline hlocl hm
                  (by intro l' h'; rw [hla] at h'; cases h'; exact hl) (by simp [hla]) hj2 (by simp) (.inl ⟨rfl, hp⟩)
              | error x =>
                simp only
                exact .taken (pre := []) rfl (hJ.refl c) hj1 rfl hline hlocl hm
                  (by intro l' h'; rw [hla] at h'; cases h'; exact hl) (by simp [hla]) hj2 (by simp)
                  (.inr ⟨x, rfl, hp⟩)

end

end Gherkin
