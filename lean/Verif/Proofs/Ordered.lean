import Verif.Proofs.Order

/-! Lines are processed in source order whenever a look-ahead's answer about a line does not depend on when it is asked. For any matcher. -/

namespace Gherkin

section
variable {μ σ ρ : Type} {cfg : Config μ σ ρ} {ls : List Line} {H G : μ → Prop} {skips : Line → Bool}

/-- On the lines `ls`: `H` and `G` are kept by every match, accepting a feature line makes `G` true, and while `G` holds a look-ahead skips a line
if and only if `skips` says so. -/
structure Steady (cfg : Config μ σ ρ) (ls : List Line) (H G : μ → Prop) (skips : Line → Bool) : Prop where
  lawful : cfg.matcher.Lawful
  sub : ∀ {m}, G m → H m
  keepH : ∀ {k t m}, t.line ∈ ls → H m → H (cfg.matcher.match_ k t m).2.2
  keepG : ∀ {k t m}, t.line ∈ ls → G m → G (cfg.matcher.match_ k t m).2.2
  feature : ∀ {t m}, t.line ∈ ls → H m → (cfg.matcher.match_ .featureLine t m).1 = .ok true → G (cfg.matcher.match_ .featureLine t m).2.2
  expected : ∀ {la t t'} {c c' : Ctx μ σ}, t.line ∈ ls → t.eof = false → G c.matcher → matchTok cfg (LA.expected la) t c = (.ok true, t', c') →
    skips t.line = false
  any : ∀ {t b t'} {c c' : Ctx μ σ}, t.line ∈ ls → t.eof = false → G c.matcher → matchAny cfg skipKinds t c = (.ok b, t', c') → b = skips t.line

/-- What is in the queue and the scanner delivers `rest`. -/
structure OInv (skips : Line → Bool) (rest : List Line) (c : Ctx μ σ) : Prop where
  lines : ∀ s ∈ c.scanner.lines, s ≠ []
  shape : (c.queue = [] ∧ rest = c.scanner.rest) ∨
    ∃ ts u, c.queue = ts ++ [u] ∧ (∀ x ∈ ts, skips x.line = true ∧ x.eof = false) ∧
      (u.eof = true ∨ skips u.line = false) ∧
      rest = c.queue.map (·.line) ++ (if u.eof then [] else c.scanner.rest)

theorem OInv.congr {rest : List Line} {c c' : Ctx μ σ} (h : OInv skips rest c) (hq : c'.queue = c.queue)
    (hs : c'.scanner = c.scanner) : OInv skips rest c' :=
  ⟨by rw [hs]; exact h.lines, by rw [hq, hs]; exact h.shape⟩

theorem readToken_oinv {rest : List Line} {c : Ctx μ σ} (h : OInv skips rest c) :
    ∃ l rest' t c1, rest = l :: rest' ∧ readToken c = (t, c1) ∧ t.line = l ∧ c1.norm = c.norm ∧
      (l.isEof = false → OInv skips rest' c1) ∧
      ((l.isEof = true ∨ skips l = false) → c1.queue = [] ∧ (∀ s ∈ c1.scanner.lines, s ≠ []) ∧
        rest' = (if l.isEof then [] else c1.scanner.rest)) := by
  rcases h.shape with ⟨hq, hr⟩ | ⟨ts, u, hq, hts, hu, hr⟩
  · rcases readToken_cases c with ⟨t', q, hq', hc⟩ | ⟨x, ls, _, hl, hc⟩ | ⟨_, hl, hc⟩
    · rw [hq] at hq'; cases hq'
    · have hsc : c.scanner = ⟨x :: ls, c.scanner.lineNumber⟩ := by rw [← hl]
      have hne : x ≠ [] := h.lines x (by rw [hl]; simp)
      have hls : ∀ s ∈ ls, s ≠ [] := fun s hs => h.lines s (by rw [hl]; simp [hs])
      rw [hsc, scanner_rest_cons] at hr
      have hef : (⟨x, c.scanner.lineNumber + 1⟩ : Line).isEof = false := by
        cases x with
        | nil => exact absurd rfl hne
        | cons a b => rfl
      refine ⟨_, _, _, _, hr, hc, rfl, rfl, ?_, ?_⟩
      · intro _
        exact ⟨hls, .inl ⟨hq, rfl⟩⟩
      · intro _
        exact ⟨hq, hls, by rw [hef]; rfl⟩
    · have hsc : c.scanner = ⟨[], c.scanner.lineNumber⟩ := by rw [← hl]
      rw [hsc] at hr
      have : Scanner.rest ⟨[], c.scanner.lineNumber⟩ = [⟨[], c.scanner.lineNumber + 1⟩] := by simp [Scanner.rest]
      rw [this] at hr
      refine ⟨_, _, _, _, hr, hc, rfl, rfl, ?_, ?_⟩
      · intro h; simp [Line.isEof] at h
      · intro _; exact ⟨hq, by simp, by simp [Line.isEof]⟩
  · cases ts with
    | nil =>
      simp at hq
      have hc : readToken c = (u, { c with queue := [] }) := by unfold readToken; rw [hq]
      rw [hq] at hr
      refine ⟨u.line, _, u, _, by rw [hr]; rfl, hc, rfl, rfl, ?_, ?_⟩
      · intro hef
        have hef' : u.eof = false := hef
        exact ⟨h.lines, .inl ⟨rfl, by simp [hef']⟩⟩
      · intro _
        exact ⟨rfl, h.lines, rfl⟩
    | cons x ts =>
      have hc : readToken c = (x, { c with queue := ts ++ [u] }) := by unfold readToken; rw [hq]; rfl
      have hx2 := hts x (by simp)
      refine ⟨x.line, _, x, _, by rw [hr, hq]; rfl, hc, rfl, rfl, ?_, ?_⟩
      · intro _
        exact ⟨h.lines, .inr ⟨ts, u, rfl, fun y hy => hts y (by simp [hy]), hu, rfl⟩⟩
      · intro hh
        have : x.eof = x.line.isEof := rfl
        rcases hh with hh | hh
        · rw [← this, hx2.2] at hh; simp at hh
        · rw [hx2.1] at hh; simp at hh

theorem matchTok_keep {P : μ → Prop} (hP : ∀ {k t m}, t.line ∈ ls → P m → P (cfg.matcher.match_ k t m).2.2) {k : Kind} {t : Token} {c : Ctx μ σ}
    (ht : t.line ∈ ls) (h : P c.matcher) : P (matchTok cfg k t c).2.2.matcher := by
  unfold matchTok
  split
  · exact h
  · have := (handle_ctx (cfg := cfg) false (cfg.matcher.match_ k t c.matcher).1
      { c with matcher := (cfg.matcher.match_ k t c.matcher).2.2,
               errors := syncErrors (cfg.matcher.match_ k t c.matcher).2.1 c.errors }).2.1
    simp only
    rw [this]; exact hP ht h

theorem matchAny_keep {P : μ → Prop} (hL : cfg.matcher.Lawful) (hP : ∀ {k t m}, t.line ∈ ls → P m → P (cfg.matcher.match_ k t m).2.2) {ks : List Kind} :
    ∀ {t : Token} {c : Ctx μ σ}, t.line ∈ ls → P c.matcher → P (matchAny cfg ks t c).2.2.matcher := by
  induction ks with
  | nil => intro t c _ h; exact h
  | cons k ks ih =>
    intro t c ht h
    unfold matchAny
    have h1 := matchTok_keep (cfg := cfg) hP (k := k) ht h
    have h2 := matchTok_line hL k t c
    rcases hm : matchTok cfg k t c with ⟨r, t1, c1⟩
    rw [hm] at h1 h2
    rcases r with x | b
    · exact h1
    · cases b
      · exact ih (by simp only at h2; rw [h2]; exact ht) h1
      · exact h1

theorem laLoop_order (hS : Steady cfg ls H G skips) {la : LA} {fuel : Nat} : ∀ {rest : List Line} {acc : List Token} {c c' : Ctx μ σ} {b : Bool} {us : List Token},
    OInv skips rest c → G c.matcher → (∀ l ∈ rest, l ∈ ls) → laLoop cfg la fuel acc c = (.ok (b, us), c') →
    ∃ ts, us = acc ++ ts ∧ G c'.matcher ∧ c'.log = c.log ∧ c'.queue = [] ∧ ts ≠ [] ∧ OInv skips rest { c' with queue := ts } := by
  induction fuel with
  | zero => intro rest acc c c' b us _ _ _ h; simp [laLoop] at h
  | succ fuel ih =>
    intro rest acc c c' b us hO hG hR h
    obtain ⟨l, rest', t, c1, hrest, hread, htl, hnorm, hcont, hstop⟩ := readToken_oinv hO
    subst hrest
    have hm1 : c1.matcher = c.matcher := by have := congrArg Ctx.matcher hnorm; exact this
    have hl1 : c1.log = c.log := by have := congrArg Ctx.log hnorm; exact this
    have hmem : l ∈ ls := hR l (by simp)
    have stopP : ∀ (t' : Token) (c2 : Ctx μ σ), t'.line = l → c2.scanner = c1.scanner → c2.queue = c1.queue → (l.isEof = true ∨ skips l = false) →
        c2.queue = [] ∧ OInv skips (l :: rest') { c2 with queue := [t'] } := by
      intro t' c2 ho hs hq hk
      obtain ⟨h1, h2, h3⟩ := hstop hk
      refine ⟨by rw [hq, h1], by simp only; rw [hs]; exact h2, .inr ⟨[], t', rfl, by simp, ?_, ?_⟩⟩
      · rw [Token.eof, ho]; exact hk
      · rw [Token.eof, ho]
        simp [ho, h3, hs]
    unfold laLoop at h
    rw [hread] at h
    simp only at h
    have k1 := matchTok_keep (cfg := cfg) hS.keepG (k := la.expected) (t := t) (c := c1) (htl ▸ hmem) (hm1 ▸ hG)
    have k2 := matchTok_line hS.lawful la.expected t c1
    have k3 := matchTok_frame (cfg := cfg) la.expected t c1
    have k4 := @Steady.expected _ _ _ _ _ _ _ _ hS la t
    rcases hm : matchTok cfg la.expected t c1 with ⟨r, t2, c2⟩
    rw [hm] at h k1 k2 k3
    simp only at h k1 k2 k3
    rcases r with x | r
    · simp at h
    · cases r with
      | true =>
        simp only [Prod.mk.injEq, Except.ok.injEq] at h
        obtain ⟨⟨rfl, rfl⟩, rfl⟩ := h
        have hne : t.eof = false := by
          rcases (matchTok_true hm).1 with h | h
          · cases la <;> simp [LA.expected] at h
          · exact h
        have := k4 (htl ▸ hmem) hne (hm1 ▸ hG) hm
        rw [htl] at this
        obtain ⟨g1, g2⟩ := stopP t2 c2 (k2.trans htl) k3.1 k3.2.1 (.inr this)
        exact ⟨[t2], rfl, k1, k3.2.2.2.trans hl1, g1, by simp, g2⟩
      | false =>
        simp only at h
        have j1 := matchAny_keep (cfg := cfg) hS.lawful hS.keepG (ks := skipKinds) (t := t2) (c := c2) (by rw [k2, htl]; exact hmem) k1
        have j2 := (matchAny_line hS.lawful skipKinds t2 c2).1
        have j3 := matchAny_frame (cfg := cfg) skipKinds t2 c2
        have j4 := matchAny_eof (cfg := cfg) (ks := skipKinds) (by decide) (t := t2) (c := c2)
        rcases hm' : matchAny cfg skipKinds t2 c2 with ⟨r, t3, c3⟩
        rw [hm'] at h j1 j2 j3 j4
        simp only at h j1 j2 j3
        have hl3 : t3.line = l := j2.trans (k2.trans htl)
        have he2 : t2.eof = l.isEof := by rw [Token.eof, k2, htl]
        rcases r with x | r
        · simp at h
        · cases r with
          | false =>
            simp only [Prod.mk.injEq, Except.ok.injEq] at h
            obtain ⟨⟨rfl, rfl⟩, rfl⟩ := h
            have hk : l.isEof = true ∨ skips l = false := by
              cases he : l.isEof with
              | true => exact .inl rfl
              | false =>
                have := hS.any (by rw [k2, htl]; exact hmem) (by rw [he2]; exact he) k1 hm'
                rw [k2, htl] at this
                exact .inr this.symm
            obtain ⟨g1, g2⟩ := stopP t3 c3 hl3 (j3.1.trans k3.1) (j3.2.1.trans k3.2.1) hk
            exact ⟨[t3], rfl, j1, j3.2.2.2.trans (k3.2.2.2.trans hl1), g1, by simp, g2⟩
          | true =>
            simp only at h
            have he : l.isEof = false := by
              cases he : l.isEof with
              | false => rfl
              | true =>
                have := j4 (by rw [he2]; exact he)
                simp at this
            have hsk : skips l = true := by
              have := hS.any (by rw [k2, htl]; exact hmem) (by rw [he2]; exact he) k1 hm'
              rw [k2, htl] at this
              exact this.symm
            obtain ⟨ts, r1, r2, r3, r4, r5, r6⟩ := ih ((hcont he).congr (j3.2.1.trans k3.2.1) (j3.1.trans k3.1)) j1
              (fun l hl => hR l (by simp [hl])) h
            refine ⟨t3 :: ts, by rw [r1]; simp, r2, r3.trans (j3.2.2.2.trans (k3.2.2.2.trans hl1)), r4, by simp, r6.lines, .inr ?_⟩
            rcases r6.shape with ⟨s1, _⟩ | ⟨us, u, s1, s2, s3, s4⟩
            · exact absurd s1 r5
            · simp only at s1 s4 ⊢
              refine ⟨t3 :: us, u, by rw [s1]; rfl, ?_, s3, ?_⟩
              · intro y hy
                simp at hy
                rcases hy with rfl | hy
                · exact ⟨by rw [hl3]; exact hsk, by rw [Token.eof, hl3]; exact he⟩
                · exact s2 y hy
              · rw [s4]; simp [hl3]

theorem lookahead_order (hS : Steady cfg ls H G skips) {la : LA} {rest : List Line} {c c' : Ctx μ σ} {b : Bool} (hO : OInv skips rest c)
    (hG : G c.matcher) (hR : ∀ l ∈ rest, l ∈ ls) (h : lookahead cfg la c = (.ok b, c')) :
    G c'.matcher ∧ OInv skips rest c' := by
  unfold lookahead at h
  rcases hm : laLoop cfg la (c.queue.length + c.scanner.lines.length + 1) [] c with ⟨r, c1⟩
  rw [hm] at h
  rcases r with x | ⟨b', us⟩
  · simp at h
  · simp only [Prod.mk.injEq, Except.ok.injEq] at h
    obtain ⟨rfl, rfl⟩ := h
    obtain ⟨ts, h1, h2, h3, h4, h5, h6⟩ := laLoop_order hS hO hG hR hm
    refine ⟨h2, ?_⟩
    rw [h4]
    simp only [List.nil_append] at h1 ⊢
    subst h1
    exact h6

/-- One of the transitions is tried after the other. -/
theorem tryTrans_order (hS : Steady cfg ls H G skips) {rest : List Line} (hR : ∀ l ∈ rest, l ∈ ls) {rows : List Trans} :
    ∀ {t t' : Token} {c c' : Ctx μ σ} {y : Option Nat}, t.line ∈ ls → OInv skips rest c → (((∀ tr ∈ rows, tr.la = none) ∧ H c.matcher) ∨ G c.matcher) →
    tryTrans cfg rows t c = (.ok y, t', c') →
    OInv skips rest c' ∧ (H c'.matcher) ∧ (G c.matcher → G c'.matcher) ∧
      ∀ q, y = some q → ∃ tr ∈ rows, q = tr.target ∧ (tr.kind = .featureLine → G c'.matcher) ∧ (tr.kind = .eof → t.eof = true) := by
  induction rows with
  | nil =>
    intro t t' c c' y ht hO hg h
    simp only [tryTrans, Prod.mk.injEq, Except.ok.injEq] at h
    obtain ⟨rfl, rfl, rfl⟩ := h
    refine ⟨hO, ?_, fun h => h, by simp⟩
    rcases hg with hg | hg
    · exact hg.2
    · exact hS.sub hg
  | cons tr trs ih =>
    intro t t' c c' y ht hO hg h
    have hH : H c.matcher := by
      rcases hg with hg | hg
      · exact hg.2
      · exact hS.sub hg
    unfold tryTrans testTrans at h
    have a1 := matchTok_keep (cfg := cfg) (P := G) hS.keepG (k := tr.kind) (t := t) (c := c) ht
    have a1' := matchTok_keep (cfg := cfg) hS.keepH (k := tr.kind) (t := t) (c := c) ht hH
    have a2 := matchTok_line hS.lawful tr.kind t c
    have a3 := matchTok_frame (cfg := cfg) tr.kind t c
    have a4 := @matchTok_true_eof _ _ _ cfg hS.lawful tr.kind t
    have a5 := @matchTok_true _ _ _ cfg tr.kind t
    rcases hm : matchTok cfg tr.kind t c with ⟨r, t1, c1⟩
    rw [hm] at h a1 a1' a2 a3
    simp only at a1 a1' a2 a3
    have goOn : ∀ (t2 : Token) (c2 : Ctx μ σ), t2.line = t.line → OInv skips rest c2 → (G c.matcher → G c2.matcher) → H c2.matcher →
        tryTrans cfg trs t2 c2 = (.ok y, t', c') →
        OInv skips rest c' ∧ (H c'.matcher) ∧ (G c.matcher → G c'.matcher) ∧
      ∀ q, y = some q → ∃ tr' ∈ tr :: trs, q = tr'.target ∧ (tr'.kind = .featureLine → G c'.matcher) ∧ (tr'.kind = .eof → t.eof = true) := by
      intro t2 c2 b1 b2 b3 b4 b5
      obtain ⟨i1, i2, i3, i4⟩ := ih (by rw [b1]; exact ht) b2 (by
        rcases hg with hg | hg
        · exact .inl ⟨fun x hx => hg.1 x (by simp [hx]), b4⟩
        · exact .inr (b3 hg)) b5
      refine ⟨i1, i2, fun h => i3 (b3 h), fun q hq => ?_⟩
      obtain ⟨tr', k1, k2, k3, k4⟩ := i4 q hq
      exact ⟨tr', by simp [k1], k2, k3, fun h => by rw [Token.eof, ← b1]; exact k4 h⟩
    have finish : ∀ (t2 : Token) (c2 : Ctx μ σ), OInv skips rest c2 → (G c.matcher → G c2.matcher) → H c2.matcher → (tr.kind = .featureLine → G c2.matcher) →
        (tr.kind = .eof → t.eof = true) →
        (match runProds cfg tr.prods t2 c2 with
          | (.ok (), c'') => (.ok (some tr.target), t2, c'')
          | (.error x, c'') => (.error x, t2, c'')) = ((.ok y, t', c') : Except Exc (Option Nat) × Token × Ctx μ σ) →
        OInv skips rest c' ∧ (H c'.matcher) ∧ (G c.matcher → G c'.matcher) ∧
      ∀ q, y = some q → ∃ tr' ∈ tr :: trs, q = tr'.target ∧ (tr'.kind = .featureLine → G c'.matcher) ∧ (tr'.kind = .eof → t.eof = true) := by
      intro t2 c2 b1 b2 b3 b4 b5 b6
      have hf := runProds_frame (cfg := cfg) tr.prods t2 c2
      rcases hr : runProds cfg tr.prods t2 c2 with ⟨r, c3⟩
      rw [hr] at b6 hf
      rcases r with x | u
      · simp at b6
      · simp only [Prod.mk.injEq, Except.ok.injEq] at b6
        obtain ⟨rfl, rfl, rfl⟩ := b6
        have hmm : c3.matcher = c2.matcher := hf.2.2
        refine ⟨b1.congr hf.2.1 hf.1, by rw [hmm]; exact b3, fun h => by rw [hmm]; exact b2 h, fun q hq => ?_⟩
        simp only [Option.some.injEq] at hq
        exact ⟨tr, by simp, hq.symm, fun h => by rw [hmm]; exact b4 h, b5⟩
    rcases r with x | r
    · simp at h
    · cases r with
      | false => exact goOn t1 c1 a2 (hO.congr a3.2.1 a3.1) a1 a1' h
      | true =>
        have hfe : tr.kind = .featureLine → G c1.matcher := by
          intro hk
          obtain ⟨_, q2, _⟩ := a5 hm
          rw [hk] at q2
          have := hS.feature (t := t) (m := c.matcher) ht hH (by rw [q2])
          rw [q2] at this
          exact this
        have hee : tr.kind = .eof → t.eof = true := (a4 hm).1
        simp only at h
        cases hla : tr.la with
        | none =>
          rw [hla] at h
          exact finish t1 c1 (hO.congr a3.2.1 a3.1) a1 a1' hfe hee h
        | some la =>
          rw [hla] at h
          simp only at h
          have hGc : G c.matcher := by
            rcases hg with hg | hg
            · have := hg.1 tr (by simp); rw [hla] at this; simp at this
            · exact hg
          rcases hlk : lookahead cfg la c1 with ⟨r2, c2⟩
          rw [hlk] at h
          rcases r2 with x | r2
          · simp at h
          · obtain ⟨l1, l2⟩ := lookahead_order hS (hO.congr a3.2.1 a3.1) (a1 hGc) hR hlk
            cases r2 with
            | false => exact goOn t1 c2 a2 l2 (fun _ => l1) (hS.sub l1) h
            | true => exact finish t1 c2 l2 (fun _ => l1) (hS.sub l1) (fun _ => l1) hee h

/-- Before the feature line there are no look-aheads, and only it or the end of the text leads away. -/
def earlyOk (q : Nat) : Bool :=
  match table q with
  | some row => row.stay ≤ 2 && row.trans.all fun tr => tr.la == none && (decide (tr.target ≤ 2) || tr.kind == .featureLine || tr.kind == .eof)
  | none => true

theorem early_ok : ∀ q, q ≤ 2 → earlyOk q = true := by
  intro q hq
  have : q = 0 ∨ q = 1 ∨ q = 2 := by omega
  rcases this with rfl | rfl | rfl <;> decide +kernel

theorem addError_frame {e : Err} {c : Ctx μ σ} : (addError e c).2.queue = c.queue ∧ (addError e c).2.scanner = c.scanner ∧ (addError e c).2.matcher = c.matcher := by
  rcases addError_cases e c with ⟨_, h⟩ | ⟨_, _, h⟩ | ⟨_, _, h⟩ <;> rw [h] <;> exact ⟨rfl, rfl, rfl⟩

theorem matchToken_order (hS : Steady cfg ls H G skips) {rest : List Line} (hR : ∀ l ∈ rest, l ∈ ls) {q q' : Nat} {t : Token} {c c' : Ctx μ σ}
    (ht : t.line ∈ ls) (he : t.eof = false) (hO : OInv skips rest c) (hg : (q ≤ 2 ∧ H c.matcher) ∨ G c.matcher)
    (h : matchToken cfg q t c = (.ok q', c')) : OInv skips rest c' ∧ ((q' ≤ 2 ∧ H c'.matcher) ∨ G c'.matcher) := by
  unfold matchToken at h
  cases hq : table q with
  | none => rw [hq] at h; simp at h
  | some row =>
    rw [hq] at h
    simp only at h
    have hpre : ((∀ tr ∈ row.trans, tr.la = none) ∧ H c.matcher) ∨ G c.matcher := by
      rcases hg with ⟨h1, h2⟩ | hg
      · have := early_ok q h1
        simp only [earlyOk, hq, Bool.and_eq_true, List.all_eq_true, beq_iff_eq] at this
        exact .inl ⟨fun tr htr => (this.2 tr htr).1, h2⟩
      · exact .inr hg
    rcases hm : tryTrans cfg row.trans t c with ⟨r, t1, c1⟩
    rw [hm] at h
    rcases r with x | y
    · simp at h
    · obtain ⟨k1, k2, k3, k4⟩ := tryTrans_order hS hR ht hO hpre hm
      cases y with
      | some q1 =>
        simp only [Prod.mk.injEq, Except.ok.injEq] at h
        obtain ⟨rfl, rfl⟩ := h
        refine ⟨k1, ?_⟩
        rcases hg with ⟨h1, h2⟩ | hg
        · have := early_ok q h1
          simp only [earlyOk, hq, Bool.and_eq_true, List.all_eq_true, beq_iff_eq] at this
          obtain ⟨tr, j1, j2, j3, j4⟩ := k4 _ rfl
          have h3 := (this.2 tr j1).2
          simp only [Bool.or_eq_true, decide_eq_true_eq, beq_iff_eq] at h3
          rcases h3 with (h3 | h3) | h3
          · exact .inl ⟨j2 ▸ h3, k2⟩
          · exact .inr (j3 h3)
          · have := j4 h3; rw [he] at this; simp at this
        · exact .inr (k3 hg)
      | none =>
        simp only at h
        split at h
        · simp at h
        · have hf := addError_frame (e := unexpected row.expected t1) (c := c1)
          rcases ha : addError (unexpected row.expected t1) c1 with ⟨z, c2⟩
          rw [ha] at h hf
          rcases z with x | u
          · simp at h
          · simp only [Prod.mk.injEq, Except.ok.injEq] at h
            obtain ⟨rfl, rfl⟩ := h
            refine ⟨k1.congr hf.1 hf.2.1, ?_⟩
            have hmm : c2.matcher = c1.matcher := hf.2.2
            rcases hg with ⟨h1, h2⟩ | hg
            · have := early_ok q h1
              simp only [earlyOk, hq, Bool.and_eq_true, decide_eq_true_eq] at this
              exact .inl ⟨this.1, by rw [hmm]; exact k2⟩
            · exact .inr (by rw [hmm]; exact k3 hg)

theorem parseLoop_order (hS : Steady cfg ls H G skips) {fuel : Nat} : ∀ {rest : List Line} {q : Nat} {c : Ctx μ σ}, Numbered rest → (∀ l ∈ rest, l ∈ ls) →
    OInv skips rest c → ((q ≤ 2 ∧ H c.matcher) ∨ G c.matcher) →
    ∃ done, done <+: rest ∧ takes (parseLoop cfg fuel q c).2.log = takes c.log ++ done ∧
      ((parseLoop cfg fuel q c).1 = .ok () → done = rest) := by
  induction fuel with
  | zero => intro rest q c _ _ _ _; exact ⟨[], by simp, by simp [parseLoop], by simp [parseLoop]⟩
  | succ fuel ih =>
    intro rest q c hn hR hO hg
    obtain ⟨l, rest', t, c1, hrest, hread, htl, hnorm, hcont, hstop⟩ := readToken_oinv hO
    subst hrest
    have hm1 : c1.matcher = c.matcher := by have := congrArg Ctx.matcher hnorm; exact this
    have hl1 : c1.log = c.log := by have := congrArg Ctx.log hnorm; exact this
    have hmem : l ∈ ls := hR l (by simp)
    unfold parseLoop
    rw [hread]
    simp only
    have hk := matchToken_takes hS.lawful q t { c1 with log := c1.log ++ [.take t.line] }
    rcases hm : matchToken cfg q t { c1 with log := c1.log ++ [.take t.line] } with ⟨r, c2⟩
    rw [hm] at hk
    simp only [takes_append, hl1] at hk
    have hk' : takes c2.log = takes c.log ++ [l] := by rw [hk, htl]; simp [takes]
    have hef : t.eof = l.isEof := by rw [Token.eof, htl]
    rcases r with x | q'
    · exact ⟨[l], by simp, hk', by simp⟩
    · simp only
      cases he : l.isEof with
      | true =>
        rw [hef, he]
        simp only [if_true]
        refine ⟨[l], by simp, hk', fun _ => ?_⟩
        cases rest' with
        | nil => rfl
        | cons a b =>
          have := hn.eof l (by simp)
          rw [he] at this; simp at this
      | false =>
        rw [hef, he]
        simp only [Bool.false_eq_true, if_false]
        obtain ⟨j1, j2⟩ := matchToken_order hS (c := { c1 with log := c1.log ++ [.take t.line] }) (fun l hl => hR l (by simp [hl])) (htl ▸ hmem) (hef.trans he)
          (OInv.congr (c := c1) (hcont he) rfl rfl) (show (q ≤ 2 ∧ H c1.matcher) ∨ G c1.matcher by rw [hm1]; exact hg) hm
        obtain ⟨done, h1, h2, h3⟩ := ih (q := q') (c := c2) (hn.tail he) (fun l hl => hR l (by simp [hl])) j1 j2
        refine ⟨l :: done, by simpa using h1, by rw [h2, hk']; simp, fun h => by rw [h3 h]⟩

/-! Exceptions from inside the loop. -/

theorem matchAny_big {ks : List Kind} : ∀ {t t' : Token} {c c' : Ctx μ σ} {x : Exc}, matchAny cfg ks t c = (.error x, t', c') → Big x := by
  induction ks with
  | nil => intro t t' c c' x h; simp [matchAny] at h
  | cons k ks ih =>
    intro t t' c c' x h
    unfold matchAny at h
    rcases hm : matchTok cfg k t c with ⟨r, t1, c1⟩
    rw [hm] at h
    rcases r with y | b
    · cases h; exact matchTok_big hm
    · cases b
      · exact ih h
      · simp at h

theorem laLoop_big {la : LA} {fuel : Nat} : ∀ {acc : List Token} {c c' : Ctx μ σ} {x : Exc}, laLoop cfg la fuel acc c = (.error x, c') → Big x := by
  induction fuel with
  | zero => intro acc c c' x h; simp only [laLoop, Prod.mk.injEq, Except.error.injEq] at h; rw [← h.1]; intro es h; simp at h
  | succ fuel ih =>
    intro acc c c' x h
    unfold laLoop at h
    rcases hr : readToken c with ⟨t, c1⟩
    rw [hr] at h
    simp only at h
    rcases hm : matchTok cfg la.expected t c1 with ⟨r, t2, c2⟩
    rw [hm] at h
    rcases r with y | b
    · cases h; exact matchTok_big hm
    · cases b with
      | true => simp at h
      | false =>
        simp only at h
        rcases hm' : matchAny cfg skipKinds t2 c2 with ⟨r, t3, c3⟩
        rw [hm'] at h
        rcases r with y | b
        · cases h; exact matchAny_big hm'
        · cases b with
          | true => exact ih h
          | false => simp at h

theorem tryTrans_big {rows : List Trans} : ∀ {t t' : Token} {c c' : Ctx μ σ} {x : Exc}, tryTrans cfg rows t c = (.error x, t', c') → Big x := by
  induction rows with
  | nil => intro t t' c c' x h; simp [tryTrans] at h
  | cons tr trs ih =>
    intro t t' c c' x h
    unfold tryTrans testTrans at h
    have fin : ∀ (t2 : Token) (c2 : Ctx μ σ), (match runProds cfg tr.prods t2 c2 with
          | (.ok (), c'') => (.ok (some tr.target), t2, c'')
          | (.error x, c'') => (.error x, t2, c'')) = ((.error x, t', c') : Except Exc (Option Nat) × Token × Ctx μ σ) → Big x := by
      intro t2 c2 h
      rcases hr : runProds cfg tr.prods t2 c2 with ⟨r, c3⟩
      rw [hr] at h
      rcases r with y | u
      · cases h; exact runProds_big hr
      · simp at h
    rcases hm : matchTok cfg tr.kind t c with ⟨r, t1, c1⟩
    rw [hm] at h
    rcases r with y | b
    · cases h; exact matchTok_big hm
    · cases b with
      | false => exact ih h
      | true =>
        simp only at h
        cases hla : tr.la with
        | none => rw [hla] at h; exact fin _ _ h
        | some la =>
          rw [hla] at h
          simp only at h
          unfold lookahead at h
          rcases hlk : laLoop cfg la (c1.queue.length + c1.scanner.lines.length + 1) [] c1 with ⟨r2, c2⟩
          rw [hlk] at h
          rcases r2 with y | ⟨b, ts⟩
          · cases h; exact laLoop_big hlk
          · cases b with
            | false => exact ih h
            | true => exact fin _ _ h

theorem parseLoop_big {fuel : Nat} : ∀ {q : Nat} {c c' : Ctx μ σ} {x : Exc}, parseLoop cfg fuel q c = (.error x, c') → Big x := by
  induction fuel with
  | zero => intro q c c' x h; simp only [parseLoop, Prod.mk.injEq, Except.error.injEq] at h; rw [← h.1]; rintro es ⟨⟩
  | succ fuel ih =>
    intro q c c' x h
    unfold parseLoop at h
    rcases hr : readToken c with ⟨t, c1⟩
    rw [hr] at h
    simp only at h
    rcases hm : matchToken cfg q t { c1 with log := c1.log ++ [.take t.line] } with ⟨r, c2⟩
    rw [hm] at h
    rcases r with y | q'
    · cases h
      unfold matchToken at hm
      cases hq : table q with
      | none => rw [hq] at hm; cases hm; rintro es ⟨⟩
      | some row =>
        rw [hq] at hm
        simp only at hm
        rcases hm' : tryTrans cfg row.trans t { c1 with log := c1.log ++ [.take t.line] } with ⟨r, t1, c3⟩
        rw [hm'] at hm
        rcases r with y | y
        · cases hm; exact tryTrans_big hm'
        · cases y with
          | some q1 => simp at hm
          | none =>
            simp only at hm
            split at hm
            · simp only [Prod.mk.injEq, Except.error.injEq] at hm; rw [← hm.1]; intro es h; simp at h
            · rcases ha : addError (unexpected row.expected t1) c3 with ⟨z, c4⟩
              rw [ha] at hm
              rcases z with y | u
              · cases hm; exact addError_big ha
              · simp at hm
    · simp only at h
      split at h
      · simp at h
      · exact ih h

/-- The whole parse. -/
theorem parse_order {text : Str} (hS : Steady cfg (tokenLines text) H G skips) (m : μ) (b : σ) (hm : H (cfg.matcher.reset m)) :
    takes (parse cfg text m b).2.log <+: tokenLines text ∧
    (∀ r, (parse cfg text m b).1 = .ok r → takes (parse cfg text m b).2.log = tokenLines text) ∧
    (∀ es, (parse cfg text m b).1 = .error (.composite es) → es.length ≤ 10 → takes (parse cfg text m b).2.log = tokenLines text) := by
  have key : ∀ (p : Prod) (c c' : Ctx μ σ) (r : Except Exc Unit),
      runProd cfg p (Token.fresh ⟨[], 0⟩) c = (r, c') → takes c'.log = takes c.log := by
    intro p c c' r h
    have h2 : takes (runProd cfg p (Token.fresh ⟨[], 0⟩) c).2.log = takes c.log := by
      rw [runProd_eq, (handle_ctx (cfg := cfg) _ _ _).2.2.2.2]
      simp [takes_append, takes_ev]
    rw [h] at h2; exact h2
  have big : ∀ (p : Prod) (c c' : Ctx μ σ) x, runProd cfg p (Token.fresh ⟨[], 0⟩) c = (.error x, c') → Big x := by
    intro p c c' x h
    rw [runProd_eq] at h
    exact handle_big h
  unfold parse
  have hf := runProd_frame (cfg := cfg) (.start .gherkinDocument) (Token.fresh ⟨[], 0⟩) (Ctx.init cfg text m b)
  rcases hr : runProd cfg (.start .gherkinDocument) (Token.fresh ⟨[], 0⟩) (Ctx.init cfg text m b) with ⟨r, c⟩
  rw [hr] at hf
  have h0 : takes c.log = [] := key _ _ _ _ hr
  cases r with
  | error x =>
    simp only
    rw [h0]
    refine ⟨by simp, by simp, ?_⟩
    intro es h hlen
    cases h
    have := big _ _ _ _ hr es rfl
    omega
  | ok u =>
    simp only
    have hO : OInv skips (tokenLines text) c := by
      refine OInv.congr (c := Ctx.init cfg text m b) ⟨splitLines_ne_nil text, .inl ⟨rfl, (rest_ofStr text).symm⟩⟩ hf.2.1 hf.1
    obtain ⟨done, h1, h2, h3⟩ := parseLoop_order hS (fuel := c.scanner.lines.length + 1) (q := 0) (c := c) (tokenLines_numbered text) (fun _ h => h) hO
      (.inl ⟨by omega, by have : c.matcher = _ := hf.2.2; rw [this]; exact hm⟩)
    rcases hl : parseLoop cfg (c.scanner.lines.length + 1) 0 c with ⟨r1, c1⟩
    rw [hl, h0] at h2
    rw [hl] at h3
    simp only [List.nil_append] at h2 h3
    cases r1 with
    | error x =>
      simp only
      rw [h2]
      refine ⟨h1, by simp, ?_⟩
      intro es h hlen
      cases h
      have := parseLoop_big hl es rfl
      omega
    | ok q =>
      simp only
      have hd := h3 rfl
      subst hd
      rcases hp : runProd cfg (.stop .gherkinDocument) (Token.fresh ⟨[], 0⟩) c1 with ⟨r2, c2⟩
      have h4 := key _ _ _ _ hp
      rw [h2] at h4
      cases r2 with
      | error x => simp only; rw [h4]; exact ⟨by simp, by simp, fun _ _ _ => rfl⟩
      | ok u =>
        simp only
        split
        · simp only; rw [h4]; exact ⟨by simp, by simp, fun _ _ _ => rfl⟩
        · rcases cfg.builder.result c2.builder with x | r
          · cases x <;> (simp only; rw [h4]; exact ⟨by simp, by simp, fun _ _ _ => rfl⟩)
          · simp only; rw [h4]; exact ⟨by simp, by simp, fun _ _ _ => rfl⟩

end

end Gherkin
