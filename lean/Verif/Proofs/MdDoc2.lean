import Verif.Proofs.MdDoc

/-! The open fence of the Markdown matcher while lines are read. -/

namespace Gherkin

open Markdown Cst

section
variable {σ ρ : Type} {B : Builder σ ρ} {stop : Bool} {ls : List Line} {d : Dialect} {f : Str}

/-- A fence that no tag hides is ahead, behind lines a look-ahead skips. -/
def Stuck (d : Dialect) (rest : List Line) : Prop :=
  ∃ as x more, rest = as ++ x :: more ∧ (∀ y ∈ as, Md.skipped d y = true ∧ y.isEof = false) ∧ ¬ Md.quiet x

theorem Stuck.cons {l : Line} {rest : List Line} (h : Stuck d rest) (hl : Md.skipped d l = true) (he : l.isEof = false) : Stuck d (l :: rest) := by
  obtain ⟨as, x, more, rfl, h1, h2⟩ := h
  refine ⟨l :: as, x, more, rfl, ?_, h2⟩
  intro y hy
  rcases List.mem_cons.1 hy with rfl | hy
  · exact ⟨hl, he⟩
  · exact h1 y hy

theorem tok_active {k : Kind} {t t' : Token} {c c' : Ctx MdState σ} {r : Except Exc Bool} (hk : k ≠ .docStringSeparator) (hq : k = .empty → Md.quiet t.line)
    (hm : Md.Mild d f c.matcher) (h : matchTok ⟨markdown, B, stop⟩ k t c = (r, t', c')) : c'.matcher.active = c.matcher.active := by
  unfold matchTok at h
  split at h
  · cases h; rfl
  · have hc := (handle_ctx (cfg := (⟨markdown, B, stop⟩ : Config MdState σ ρ)) false (Md.matchKind k t c.matcher).1
      { c with matcher := (Md.matchKind k t c.matcher).2.2, errors := syncErrors (Md.matchKind k t c.matcher).2.1 c.errors }).2.1
    simp only [markdown] at h hc
    simp only [Prod.mk.injEq] at h
    rw [← h.2.2, hc]
    exact Md.quiet_active hk hq hm

theorem any_active {ks : List Kind} (hks : .docStringSeparator ∉ ks) : ∀ {t t' : Token} {c c' : Ctx MdState σ} {r : Except Exc Bool},
    (fenceOf t.line.text = none ∨ fenceOf t.line.text = some f) → Md.quiet t.line → Md.Mild d f c.matcher →
    matchAny ⟨markdown, B, stop⟩ ks t c = (r, t', c') → c'.matcher.active = c.matcher.active := by
  induction ks with
  | nil => intro t t' c c' r _ _ _ h; cases h; rfl
  | cons k ks ih =>
    intro t t' c c' r hf hq hm h
    unfold matchAny at h
    have h2 := matchTok_line (cfg := (⟨markdown, B, stop⟩ : Config MdState σ ρ)) markdown_lawful k t c
    have h3 := matchTok_keep (cfg := (⟨markdown, B, stop⟩ : Config MdState σ ρ)) (ls := [t.line]) (P := Md.Mild d f) (k := k) (t := t) (c := c)
      (by intro k t' m ht hm; exact Md.mild_keep (by rw [List.mem_singleton.1 ht]; exact hf) k hm) (by simp) hm
    rcases hx : matchTok ⟨markdown, B, stop⟩ k t c with ⟨r1, t1, c1⟩
    have h1 := tok_active (by intro e; exact hks (by simp [e])) (fun _ => hq) hm hx
    rw [hx] at h h2 h3
    simp only at h2 h3
    rcases r1 with x | b
    · cases h; exact h1
    · cases b with
      | true => cases h; exact h1
      | false => exact (ih (by intro e; exact hks (by simp [e])) (by rw [h2]; exact hf) (by rw [h2]; exact hq) h3 h).trans h1

theorem la_active (hfl : ∀ l ∈ ls, fenceOf l.text = none ∨ fenceOf l.text = some f)
    (hS : Steady (⟨markdown, B, stop⟩ : Config MdState σ ρ) ls (Md.Mild d f) (Md.Good d f) (Md.skipped d)) {la : LA} {fuel : Nat} :
    ∀ {rest : List Line} {acc : List Token} {c c' : Ctx MdState σ} {b : Bool} {us : List Token},
    OInv (Md.skipped d) rest c → Md.Good d f c.matcher → c.matcher.active = none → (∀ l ∈ rest, l ∈ ls) →
    laLoop ⟨markdown, B, stop⟩ la fuel acc c = (.ok (b, us), c') → c'.matcher.active = none ∨ Stuck d rest := by
  induction fuel with
  | zero => intro rest acc c c' b us _ _ _ _ h; simp [laLoop] at h
  | succ fuel ih =>
    intro rest acc c c' b us hO hG hA hR h
    obtain ⟨l, rest', t, c1, hrest, hread, htl, hnorm, hcont, hstop⟩ := readToken_oinv hO
    subst hrest
    have hm1 : c1.matcher = c.matcher := by have := congrArg Ctx.matcher hnorm; exact this
    have hmem : l ∈ ls := hR l (by simp)
    by_cases hq : Md.quiet l
    rotate_left
    · exact .inr ⟨[], l, rest', rfl, by simp, hq⟩
    unfold laLoop at h
    rw [hread] at h
    simp only at h
    have k1 := matchTok_keep (cfg := (⟨markdown, B, stop⟩ : Config MdState σ ρ)) hS.keepG (k := la.expected) (t := t) (c := c1) (htl ▸ hmem) (hm1 ▸ hG)
    have k2 := matchTok_line (cfg := (⟨markdown, B, stop⟩ : Config MdState σ ρ)) hS.lawful la.expected t c1
    have k3 := matchTok_frame (cfg := (⟨markdown, B, stop⟩ : Config MdState σ ρ)) la.expected t c1
    rcases hm : matchTok ⟨markdown, B, stop⟩ la.expected t c1 with ⟨r, t2, c2⟩
    have a1 := tok_active (by cases la <;> simp [LA.expected]) (by cases la <;> simp [LA.expected]) (hm1 ▸ hG).1 hm
    rw [hm1, hA] at a1
    rw [hm] at h k1 k2 k3
    simp only at h k1 k2 k3
    rcases r with x | r
    · simp at h
    · cases r with
      | true => cases h; exact .inl a1
      | false =>
        simp only at h
        have hl2 : t2.line = l := k2.trans htl
        have j1 := matchAny_keep (cfg := (⟨markdown, B, stop⟩ : Config MdState σ ρ)) hS.lawful hS.keepG (ks := skipKinds) (t := t2) (c := c2) (by rw [hl2]; exact hmem) k1
        have j3 := matchAny_frame (cfg := (⟨markdown, B, stop⟩ : Config MdState σ ρ)) skipKinds t2 c2
        have j4 := matchAny_eof (cfg := (⟨markdown, B, stop⟩ : Config MdState σ ρ)) (ks := skipKinds) (by decide) (t := t2) (c := c2)
        rcases hm' : matchAny ⟨markdown, B, stop⟩ skipKinds t2 c2 with ⟨r, t3, c3⟩
        have a2 := any_active (by decide) (by rw [hl2]; exact hfl l hmem) (by rw [hl2]; exact hq) k1.1 hm'
        rw [a1] at a2
        rw [hm'] at h j1 j3 j4
        simp only at h j1 j3
        have he2 : t2.eof = l.isEof := by rw [Token.eof, hl2]
        rcases r with x | r
        · simp at h
        · cases r with
          | false => cases h; exact .inl a2
          | true =>
            simp only at h
            have he : l.isEof = false := by
              cases he : l.isEof with
              | false => rfl
              | true =>
                have := j4 (by rw [he2]; exact he)
                simp at this
            have hsk : Md.skipped d l = true := by
              have := hS.any (by rw [hl2]; exact hmem) (by rw [he2]; exact he) k1 hm'
              rw [hl2] at this
              exact this.symm
            rcases ih ((hcont he).congr (j3.2.1.trans k3.2.1) (j3.1.trans k3.1)) j1 a2 (fun l hl => hR l (by simp [hl])) h with h | h
            · exact .inl h
            · exact .inr (h.cons hsk he)

theorem lookahead_active (hfl : ∀ l ∈ ls, fenceOf l.text = none ∨ fenceOf l.text = some f)
    (hS : Steady (⟨markdown, B, stop⟩ : Config MdState σ ρ) ls (Md.Mild d f) (Md.Good d f) (Md.skipped d)) {la : LA} {rest : List Line}
    {c c' : Ctx MdState σ} {b : Bool} (hO : OInv (Md.skipped d) rest c) (hG : Md.Good d f c.matcher) (hA : c.matcher.active = none)
    (hR : ∀ l ∈ rest, l ∈ ls) (h : lookahead ⟨markdown, B, stop⟩ la c = (.ok b, c')) : c'.matcher.active = none ∨ Stuck d rest := by
  unfold lookahead at h
  rcases hm : laLoop ⟨markdown, B, stop⟩ la (c.queue.length + c.scanner.lines.length + 1) [] c with ⟨r, c1⟩
  rw [hm] at h
  rcases r with x | ⟨b', us⟩
  · simp at h
  · simp only [Prod.mk.injEq, Except.ok.injEq] at h
    obtain ⟨rfl, rfl⟩ := h
    have := la_active hfl hS hO hG hA hR hm
    exact this

/-! ### One line -/

/-- The states inside a doc string, and those after tags that need a heading. -/
def opens : List Nat := [43, 45, 47, 49]
def tagStates : List Nat := [11, 17, 22, 31, 37]

/-- What is needed of the transitions of a state outside doc strings; `seen`: whether the line was already asked to be empty. -/
def rowsOk (seen : Bool) : List Trans → Bool
  | [] => true
  | tr :: trs =>
    (tr.kind != .docStringSeparator || (!seen && opens.contains tr.target && tr.la == none)) &&
    (tr.kind == .docStringSeparator || !opens.contains tr.target) &&
    (tr.kind != .featureLine || !seen) &&
    (tr.la == none || (tr.kind == .tagLine && tagStates.contains tr.target &&
      (match trs with | n :: _ => n.kind == .tagLine && tagStates.contains n.target | [] => false))) &&
    rowsOk (seen || tr.kind == .empty) trs

def stateOk (q : Nat) : Bool :=
  match table q with
  | some row => opens.contains q || rowsOk false row.trans
  | none => true

theorem states_ok : ∀ q ∈ allStates, stateOk q = true := by decide +kernel

/-- The token opens a doc string with the delimiter `f`, and the matcher knows. -/
structure Opens (f : Str) (t : Token) : Prop where
  type : t.type = some .docStringSeparator
  keyword : t.keyword = some f
  text : t.text = some (t.line.restTrimmed f.length)
  fence : fenceOf t.line.text = some f
  column : t.loc.column = some (t.line.indent + 1)

theorem isEof_text {l : Line} (h : l.isEof = true) : l.text = [] := by
  unfold Line.isEof at h
  cases hl : l.text with
  | nil => rfl
  | cons => rw [hl] at h; simp at h

theorem sep_opens {t t' : Token} {m m' : MdState} (hf : fenceOf t.line.text = none ∨ fenceOf t.line.text = some f) (hm : Md.Mild d f m)
    (ha : m.active = none) (h : Md.matchDocSep t m = (.ok true, t', m')) :
    Opens f t' ∧ m'.active = some f ∧ m'.indentToRemove = t'.line.indent := by
  have hs := (Md.sep_answer (d := d) hf hm).1
  rw [h] at hs
  simp only [Except.ok.injEq] at hs
  have hf : fenceOf t.line.text = some f := by
    rcases hf with hf | hf
    · rw [hf] at hs; simp at hs
    · exact hf
  have hfe := hf
  unfold Md.matchDocSep at h
  rw [ha] at h
  simp only at h
  have key : ∀ g, Md.matchSep g true t m = (.ok true, t', m') → g = f → Opens f t' ∧ m'.active = some f ∧ m'.indentToRemove = t'.line.indent := by
    intro g h hg
    subst hg
    unfold Md.matchSep at h
    split at h
    · simp only [if_true, Prod.mk.injEq, true_and] at h
      obtain ⟨rfl, rfl⟩ := h
      exact ⟨⟨rfl, rfl, by simp [setMatched, Line.restTrimmed, rstripEol_strip], hfe, by
        simp only [setMatched]
        split
        · rename_i he; rw [isEof_text he] at hfe; exact absurd hfe (by rw [(by decide : fenceOf [] = none)]; simp)
        · rfl⟩, rfl, rfl⟩
    · simp at h
  rw [Md.fence_cases] at hf
  split at h
  · rename_i h1
    rw [if_pos h1] at hf
    exact key _ h (by simpa using hf)
  · rename_i h1
    rw [if_neg h1] at hf
    split at h
    · rename_i h2
      rw [if_pos h2] at hf
      exact key _ h (by simpa using hf)
    · rename_i h2
      rw [if_neg h2] at hf
      split at hf
      · exact key _ h (by simpa using hf)
      · simp at hf

theorem fenced_not_eof {l : Line} (h : ¬ Md.quiet l) : l.isEof = false := by
  cases he : l.isEof with
  | false => rfl
  | true => exact absurd (.inl (by rw [isEof_text he]; decide)) h

theorem sep_false {t t' : Token} {m m' : MdState} (h : Md.matchDocSep t m = (.ok false, t', m')) : m' = m := by
  have key : ∀ g o, Md.matchSep g o t m = (.ok false, t', m') → m' = m := by
    intro g o h
    unfold Md.matchSep at h
    split at h
    · split at h <;> simp at h
    · simp at h; exact h.2.symm
  unfold Md.matchDocSep at h
  repeat' split at h
  all_goals exact key _ _ h

/-- What the line `l` did, outside doc strings. -/
def Outcome (d : Dialect) (f : Str) (rest : List Line) (tr : Trans) (t' : Token) (m : MdState) : Prop :=
  (tr.kind ≠ .docStringSeparator ∧ m.active = none) ∨ (tr.kind = .tagLine ∧ tr.target ∈ tagStates ∧ Stuck d rest) ∨
  (tr.kind = .docStringSeparator ∧ Opens f t' ∧ m.active = some f ∧ m.indentToRemove = t'.line.indent) ∨
  (tr.kind = .other ∧ ¬ Md.quiet t'.line)

theorem try_fence (hfl : ∀ l ∈ ls, fenceOf l.text = none ∨ fenceOf l.text = some f)
    (hS : Steady (⟨markdown, B, stop⟩ : Config MdState σ ρ) ls (Md.Mild d f) (Md.Good d f) (Md.skipped d)) {rest : List Line}
    (hR : ∀ l ∈ rest, l ∈ ls) {rows : List Trans} :
    ∀ {seen : Bool} {t t' : Token} {c c' : Ctx MdState σ} {q' : Nat}, rowsOk seen rows = true → t.line ∈ ls →
    (t.eof = false → OInv (Md.skipped d) rest c) → (((∀ tr ∈ rows, tr.la = none) ∧ Md.Mild d f c.matcher) ∨ Md.Good d f c.matcher) →
    (c.matcher.active = none ∨ (seen = true ∧ ¬ Md.quiet t.line) ∨
      (Stuck d rest ∧ Md.tagged t.line = true ∧ ∀ tr ∈ rows.head?, tr.kind = .tagLine ∧ tr.target ∈ tagStates)) →
    tryTrans ⟨markdown, B, stop⟩ rows t c = (.ok (some q'), t', c') →
    ∃ tr ∈ rows, q' = tr.target ∧ t'.type = some tr.kind ∧ t'.line = t.line ∧ t'.loc.line = t.loc.line ∧ c'.log = c.log ++ tr.prods.map (Prod.ev t') ∧
      Outcome d f rest tr t' c'.matcher := by
  induction rows with
  | nil => intro seen t t' c c' q' _ _ _ _ _ h; simp [tryTrans] at h
  | cons tr trs ih =>
    intro seen t t' c c' q' hok ht hO hg hph h
    have hH : Md.Mild d f c.matcher := by
      rcases hg with hg | hg
      · exact hg.2
      · exact hg.1
    simp only [rowsOk, Bool.and_eq_true, Bool.or_eq_true, bne_iff_ne, ne_eq, Bool.not_eq_true', beq_iff_eq, List.contains_eq_mem, decide_eq_true_eq, decide_eq_false_iff_not] at hok
    obtain ⟨⟨⟨⟨ok1, ok2⟩, ok3⟩, ok4⟩, ok5⟩ := hok
    have htag : Md.tagged t.line = true → t.line.isEof = false := by
      intro hx
      cases he : t.line.isEof with
      | false => rfl
      | true =>
        exfalso
        have := isEof_text he
        simp [Md.tagged, Line.lineText, Line.trimmed, this, lstrip, lstripBy, Md.findTags] at hx
    unfold tryTrans testTrans at h
    have a1 := matchTok_keep (cfg := (⟨markdown, B, stop⟩ : Config MdState σ ρ)) (P := Md.Good d f) hS.keepG (k := tr.kind) (t := t) (c := c) ht
    have a1' := matchTok_keep (cfg := (⟨markdown, B, stop⟩ : Config MdState σ ρ)) hS.keepH (k := tr.kind) (t := t) (c := c) ht hH
    have a2 := matchTok_line (cfg := (⟨markdown, B, stop⟩ : Config MdState σ ρ)) hS.lawful tr.kind t c
    have a2' := matchTok_locLine (cfg := (⟨markdown, B, stop⟩ : Config MdState σ ρ)) hS.lawful tr.kind t c
    have a3 := matchTok_frame (cfg := (⟨markdown, B, stop⟩ : Config MdState σ ρ)) tr.kind t c
    rcases hm : matchTok ⟨markdown, B, stop⟩ tr.kind t c with ⟨r, t1, c1⟩
    rw [hm] at h a1 a1' a2 a2' a3
    simp only at a1 a1' a2 a2' a3
    have goOn : ∀ (t2 : Token) (c2 : Ctx MdState σ), t2.line = t.line → t2.loc.line = t.loc.line → c2.log = c.log → (t.eof = false → OInv (Md.skipped d) rest c2) → (Md.Good d f c.matcher → Md.Good d f c2.matcher) →
        Md.Mild d f c2.matcher →
        (c2.matcher.active = none ∨ ((seen || tr.kind == .empty) = true ∧ ¬ Md.quiet t.line) ∨
          (Stuck d rest ∧ Md.tagged t.line = true ∧ ∀ tr ∈ trs.head?, tr.kind = .tagLine ∧ tr.target ∈ tagStates)) →
        tryTrans ⟨markdown, B, stop⟩ trs t2 c2 = (.ok (some q'), t', c') →
        ∃ tr' ∈ tr :: trs, q' = tr'.target ∧ t'.type = some tr'.kind ∧ t'.line = t.line ∧ t'.loc.line = t.loc.line ∧ c'.log = c.log ++ tr'.prods.map (Prod.ev t') ∧
          Outcome d f rest tr' t' c'.matcher := by
      intro t2 c2 b1 b1' b2 b3 b4 b5 b6 b7
      obtain ⟨tr', i1, i2, i3, i4, i4', i5, i6⟩ := ih ok5 (by rw [b1]; exact ht) (by rw [Token.eof, b1]; exact b3) (by
        rcases hg with hg | hg
        · exact .inl ⟨fun x hx => hg.1 x (by simp [hx]), b5⟩
        · exact .inr (b4 hg)) (by rw [b1]; exact b6) b7
      exact ⟨tr', by simp [i1], i2, i3, i4.trans b1, i4'.trans b1', by rw [i5, b2], i6⟩
    have finish : ∀ (c2 : Ctx MdState σ), c2.log = c.log → Outcome d f rest tr t1 c2.matcher →
        (t1.type = some tr.kind) → runProds (⟨markdown, B, stop⟩ : Config MdState σ ρ) tr.prods t1 c2 = (.ok (), c') →
        q' = tr.target → t' = t1 →
        ∃ tr' ∈ tr :: trs, q' = tr'.target ∧ t'.type = some tr'.kind ∧ t'.line = t.line ∧ t'.loc.line = t.loc.line ∧ c'.log = c.log ++ tr'.prods.map (Prod.ev t') ∧
          Outcome d f rest tr' t' c'.matcher := by
      intro c2 b1 b2 b3 hr hq ht'
      have hf := runProds_frame (cfg := (⟨markdown, B, stop⟩ : Config MdState σ ρ)) tr.prods t1 c2
      rw [hr] at hf
      have hsp := (runProds_spec hr).1
      have hmm : c'.matcher = c2.matcher := hf.2.2
      subst ht'
      exact ⟨tr, by simp, hq, b3, a2, a2', by rw [hsp, b1], by rw [hmm]; exact b2⟩
    have hlog : c1.log = c.log := a3.2.2.2
    have htoeof : t.eof = t.line.isEof := rfl
    rcases r with x | r
    · simp at h
    cases r with
    | false =>
      refine goOn t1 c1 a2 a2' hlog (fun he => (hO he).congr a3.2.1 a3.1) a1 a1' ?_ h
      -- the phase after a question answered with no
      rcases hph with hA | ⟨hB1, hB2⟩ | ⟨hC1, hC2, hC3⟩
      · by_cases hk : tr.kind = .docStringSeparator
        · left
          by_cases he : t.eof = true
          · rw [hk, matchTok_eof (by simp) he] at hm
            cases hm; exact hA
          · obtain ⟨s1, s2, _⟩ := md_matchTok (by rw [hk]; simp) (by simpa using he) hm
            rw [hk] at s1 s2
            simp only [Md.matchKind] at s1 s2
            rcases hx : Md.matchDocSep t c.matcher with ⟨r, t2, m2⟩
            rw [hx] at s1 s2
            simp only at s1 s2
            subst s1
            rw [s2, sep_false hx]; exact hA
        · by_cases hq : tr.kind = .empty → Md.quiet t.line
          · left; rw [tok_active hk hq hH hm]; exact hA
          · right; left
            have hq : tr.kind = .empty ∧ ¬ Md.quiet t.line := by
              by_cases h1 : tr.kind = .empty
              · exact ⟨h1, fun h2 => hq fun _ => h2⟩
              · exact absurd (fun h => absurd h h1) hq
            exact ⟨by simp [hq.1], hq.2⟩
      · right; left; exact ⟨by simp [hB1], hB2⟩
      · exfalso
        have hk := (hC3 tr (by simp)).1
        obtain ⟨s1, _, _⟩ := md_matchTok (by rw [hk]; simp) (by rw [htoeof]; exact htag hC2) hm
        rw [hk] at s1
        simp only [Md.matchKind, (Md.tag_state _ _).2, Except.ok.injEq] at s1
        rw [show (!(Md.findTags t.line.lineText 0 0).isEmpty) = true from hC2] at s1
        simp at s1
    | true =>
      have hty : t1.type = some tr.kind := matchTok_true_type hS.lawful hm
      have hne : tr.kind ≠ .eof → t.eof = false := by
        intro hk
        rcases (matchTok_true hm).1 with h | h
        · exact absurd h hk
        · exact h
      -- the phase after a match
      have hafter : (Outcome d f rest tr t1 c1.matcher) ∧ (tr.kind = .tagLine → c1.matcher.active = none ∨ Stuck d rest) := by
        rcases hph with hA | ⟨hB1, hB2⟩ | ⟨hC1, hC2, hC3⟩
        · by_cases hk : tr.kind = .docStringSeparator
          · obtain ⟨s1, s2, _⟩ := md_matchTok (by rw [hk]; simp) (hne (by rw [hk]; simp)) hm
            have ok := (matchTok_true hm).2.1
            rw [hk] at ok
            simp only [markdown, Md.matchKind] at ok
            obtain ⟨o1, o2, o3⟩ := sep_opens (hfl _ ht) hH hA ok
            exact ⟨.inr (.inr (.inl ⟨hk, o1, o2, o3⟩)), by rw [hk]; simp⟩
          · by_cases hq : tr.kind = .empty → Md.quiet t.line
            · have := tok_active hk hq hH hm
              rw [hA] at this
              exact ⟨.inl ⟨hk, this⟩, fun _ => .inl this⟩
            · exfalso
              have hq : tr.kind = .empty ∧ ¬ Md.quiet t.line := by
                by_cases h1 : tr.kind = .empty
                · exact ⟨h1, fun h2 => hq fun _ => h2⟩
                · exact absurd (fun h => absurd h h1) hq
              have hfe : fenceOf t.line.text = some f := by
                rcases hfl _ ht with h | h
                · exact absurd (.inl h) hq.2
                · exact h
              obtain ⟨s1, _, _⟩ := md_matchTok (by rw [hq.1]; simp) (hne (by rw [hq.1]; simp)) hm
              rw [hq.1] at s1
              rcases Md.fence_kind hfe hH (hne (by rw [hq.1]; simp)) s1 with h | h | h | h <;> simp at h
        · have hfe : fenceOf t.line.text = some f := by
            rcases hfl _ ht with h | h
            · exact absurd (.inl h) hB2
            · exact h
          have hee : t.eof = false := fenced_not_eof hB2
          have hke : tr.kind ≠ .eof := by
            intro hk
            have := (matchTok_true_eof hS.lawful hm).1 hk
            rw [hee] at this; simp at this
          obtain ⟨s1, _, _⟩ := md_matchTok hke hee hm
          rcases Md.fence_kind hfe hH hee s1 with ⟨_, h⟩ | h | h | h
          · exact absurd (.inr h) hB2
          · rcases ok3 with ok3 | ok3
            · exact absurd h ok3
            · rw [ok3] at hB1; simp at hB1
          · rcases ok1 with ok1 | ok1
            · exact absurd h ok1
            · rw [ok1.1.1] at hB1; simp at hB1
          · exact ⟨.inr (.inr (.inr ⟨h, by rw [a2]; exact hB2⟩)), by rw [h]; simp⟩
        · have hk := hC3 tr (by simp)
          exact ⟨.inr (.inl ⟨hk.1, hk.2, hC1⟩), fun _ => .inr hC1⟩
      simp only at h
      cases hla : tr.la with
      | none =>
        rw [hla] at h
        simp only at h
        rcases hr : runProds (⟨markdown, B, stop⟩ : Config MdState σ ρ) tr.prods t1 c1 with ⟨r, c3⟩
        rw [hr] at h
        rcases r with x | u
        · simp at h
        simp only [Prod.mk.injEq, Except.ok.injEq, Option.some.injEq] at h
        obtain ⟨rfl, rfl, rfl⟩ := h
        exact finish c1 hlog hafter.1 hty hr rfl rfl
      | some la =>
        rw [hla] at h
        simp only at h
        have ok4 : (tr.kind = .tagLine ∧ tr.target ∈ tagStates) ∧ ∀ tr ∈ trs.head?, tr.kind = .tagLine ∧ tr.target ∈ tagStates := by
          rcases ok4 with ok4 | ok4
          · rw [hla] at ok4; simp at ok4
          · refine ⟨ok4.1, ?_⟩
            cases trs with
            | nil => simp
            | cons n ns => simpa using ok4.2
        have hkt := ok4.1.1
        have hee : t.eof = false := hne (by rw [hkt]; simp)
        have htg : Md.tagged t.line = true := by
          obtain ⟨s1, _, _⟩ := md_matchTok (by rw [hkt]; simp) hee hm
          rw [hkt] at s1
          simpa [Md.matchKind, (Md.tag_state _ _).2, Md.tagged] using s1
        have hGc : Md.Good d f c.matcher := by
          rcases hg with hg | hg
          · have := hg.1 tr (by simp); rw [hla] at this; simp at this
          · exact hg
        rcases hlk : lookahead ⟨markdown, B, stop⟩ la c1 with ⟨r2, c2⟩
        rw [hlk] at h
        rcases r2 with x | r2
        · simp at h
        · obtain ⟨l1, l2⟩ := lookahead_order hS ((hO hee).congr a3.2.1 a3.1) (a1 hGc) hR hlk
          have l3 : c2.matcher.active = none ∨ Stuck d rest := by
            rcases hafter.2 hkt with h | h
            · exact lookahead_active hfl hS ((hO hee).congr a3.2.1 a3.1) (a1 hGc) h hR hlk
            · exact .inr h
          have l4 : c2.log = c.log := ((closed_frame (cfg := (⟨markdown, B, stop⟩ : Config MdState σ ρ)) hS.lawful).la hlk).2.trans hlog
          cases r2 with
          | false =>
            refine goOn t1 c2 a2 a2' l4 (fun _ => l2) (fun _ => l1) (hS.sub l1) ?_ h
            rcases l3 with h | h
            · exact .inl h
            · exact .inr (.inr ⟨h, htg, ok4.2⟩)
          | true =>
            simp only at h
            rcases hr : runProds (⟨markdown, B, stop⟩ : Config MdState σ ρ) tr.prods t1 c2 with ⟨r, c3⟩
            rw [hr] at h
            rcases r with x | u
            · simp at h
            simp only [Prod.mk.injEq, Except.ok.injEq, Option.some.injEq] at h
            obtain ⟨rfl, rfl, rfl⟩ := h
            refine finish c2 l4 ?_ hty hr rfl rfl
            rcases l3 with h | h
            · exact .inl ⟨by rw [hkt]; simp, h⟩
            · exact .inr (.inl ⟨hkt, ok4.1.2, h⟩)

end

end Gherkin
