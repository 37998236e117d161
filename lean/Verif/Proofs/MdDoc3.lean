import Verif.Proofs.MdDoc2

/-! The doc strings of accepted Markdown texts: all lines. -/

namespace Gherkin

open Markdown Cst

/-! ### After tags -/

def afterTagsOk (q : Nat) : Bool :=
  match table q with
  | some row => row.trans.all fun tr => tr.la == none &&
      ((tr.kind == .tagLine || tr.kind == .comment || tr.kind == .empty) && tagStates.contains tr.target ||
       tr.kind == .scenarioLine || tr.kind == .examplesLine || tr.kind == .ruleLine)
  | none => true

theorem afterTags_ok : ∀ q ∈ tagStates, afterTagsOk q = true := by decide +kernel

theorem tagStates_closed : ∀ q ∈ tagStates, q ∉ opens := by decide

/-! ### Doc strings among the tokens -/

/-- A token inside a doc string that was opened with the delimiter `f` in a line indented by `n`. -/
structure Inside (f : Str) (n : Nat) (t : Token) : Prop where
  type : t.type = some .other
  text : t.text = some (rstripEol (Classic.unescapeDoc (some f) (t.line.lineTextFrom n)))
  fence : fenceOf t.line.text = none

/-- A token that closes a doc string. -/
structure Closes (f : Str) (t : Token) : Prop where
  type : t.type = some .docStringSeparator
  fence : fenceOf t.line.text = some f

/-- Tokens in which doc strings are complete. -/
inductive Complete (f : Str) : List Token → Prop
  | nil : Complete f []
  | one {ts t} : Complete f ts → t.type ≠ some .docStringSeparator → Complete f (ts ++ [t])
  | doc {ts o ls c} : Complete f ts → Opens f o → (∀ t ∈ ls, Inside f o.line.indent t) → Closes f c → Complete f (ts ++ o :: (ls ++ [c]))

/-- A fence was read as description. -/
def Stray (f : Str) (ts : List Token) : Prop :=
  ∃ pre t post, ts = pre ++ t :: post ∧ Complete f pre ∧ t.type = some .other ∧ ¬ Md.quiet t.line

theorem Stray.append {f : Str} {ts : List Token} (h : Stray f ts) (us : List Token) : Stray f (ts ++ us) := by
  obtain ⟨pre, t, post, rfl, h1⟩ := h
  exact ⟨pre, t, post ++ us, by simp, h1⟩

section
variable {σ ρ : Type} {B : Builder σ ρ} {stop : Bool} {ls : List Line} {d : Dialect} {f : Str}

theorem doomed_try (hfl : ∀ l ∈ ls, fenceOf l.text = none ∨ fenceOf l.text = some f)
    (hpl : ∀ l ∈ ls, (lstrip l.text).head? = some '#' → ¬ ∃ a b, l.text = a ++ py"`@" ++ b)
    (hS : Steady (⟨markdown, B, stop⟩ : Config MdState σ ρ) ls (Md.Mild d f) (Md.Good d f) (Md.skipped d)) {rows : List Trans} :
    ∀ {t t' : Token} {c c' : Ctx MdState σ} {q' : Nat},
    (∀ tr ∈ rows, tr.la = none ∧ (((tr.kind = .tagLine ∨ tr.kind = .comment ∨ tr.kind = .empty) ∧ tr.target ∈ tagStates) ∨
      tr.kind = .scenarioLine ∨ tr.kind = .examplesLine ∨ tr.kind = .ruleLine)) → t.line ∈ ls → t.eof = false →
    Md.Good d f c.matcher → tryTrans ⟨markdown, B, stop⟩ rows t c = (.ok (some q'), t', c') →
    Md.quiet t.line ∧ (Md.skipped d t.line = true → q' ∈ tagStates) := by
  induction rows with
  | nil => intro t t' c c' q' _ _ _ _ h; simp [tryTrans] at h
  | cons tr trs ih =>
    intro t t' c c' q' hrow ht he hg h
    obtain ⟨hla, hk⟩ := hrow tr (by simp)
    have hke : tr.kind ≠ .eof := by
      intro e; rw [e] at hk; simp at hk
    unfold tryTrans testTrans at h
    have a1 := matchTok_keep (cfg := (⟨markdown, B, stop⟩ : Config MdState σ ρ)) (P := Md.Good d f) hS.keepG (k := tr.kind) (t := t) (c := c) ht hg
    rcases hm : matchTok ⟨markdown, B, stop⟩ tr.kind t c with ⟨r, t1, c1⟩
    rw [hm] at h a1
    simp only at a1
    rcases r with x | r
    · simp at h
    obtain ⟨s1, _, s3⟩ := md_matchTok hke he hm
    cases r with
    | false =>
      have := ih (t := t1) (c := c1) (fun x hx => hrow x (by simp [hx])) (by rw [s3]; exact ht) (by rw [Token.eof, s3]; exact he) a1 h
      rw [s3] at this
      exact this
    | true =>
      rw [hla] at h
      simp only at h
      rcases hr : runProds (⟨markdown, B, stop⟩ : Config MdState σ ρ) tr.prods t1 c1 with ⟨r, c3⟩
      rw [hr] at h
      rcases r with x | u
      · simp at h
      simp only [Prod.mk.injEq, Except.ok.injEq, Option.some.injEq] at h
      obtain ⟨rfl, rfl, rfl⟩ := h
      refine ⟨?_, ?_⟩
      · apply Classical.byContradiction
        intro hq
        have hfe : fenceOf t.line.text = some f := by
          rcases hfl _ ht with h | h
          · exact absurd (.inl h) hq
          · exact h
        rcases Md.fence_kind hfe hg.1 he s1 with ⟨_, h⟩ | h | h | h
        · exact hq (.inr h)
        all_goals (rw [h] at hk; simp at hk)
      · intro hsk
        rcases hk with hk | hk
        · exact hk.2
        · rw [md_heading (hfl _ ht) (hpl _ ht) hk rfl hg s1] at hsk
          simp at hsk

theorem doomed_step (hfl : ∀ l ∈ ls, fenceOf l.text = none ∨ fenceOf l.text = some f)
    (hpl : ∀ l ∈ ls, (lstrip l.text).head? = some '#' → ¬ ∃ a b, l.text = a ++ py"`@" ++ b)
    (hS : Steady (⟨markdown, B, stop⟩ : Config MdState σ ρ) ls (Md.Mild d f) (Md.Good d f) (Md.skipped d)) {q q' : Nat} {t : Token} {c c' : Ctx MdState σ}
    {rest : List Line} (hq : q ∈ tagStates) (hst : Stuck d (t.line :: rest)) (ht : t.line ∈ ls) (hg : Md.Good d f c.matcher)
    (h : matchToken ⟨markdown, B, stop⟩ q t c = (.ok q', c')) : c'.errors ≠ [] ∨ (q' ∈ tagStates ∧ Stuck d rest) := by
  have he : t.eof = false := by
    obtain ⟨as, x, more, h1, h2, h3⟩ := hst
    cases as with
    | nil => simp at h1; rw [Token.eof, h1.1]; exact fenced_not_eof h3
    | cons a as => simp at h1; rw [Token.eof, h1.1]; exact (h2 a (by simp)).2
  unfold matchToken at h
  cases hr : table q with
  | none => rw [hr] at h; simp at h
  | some row =>
    rw [hr] at h
    simp only at h
    have hrow := afterTags_ok q hq
    simp only [afterTagsOk, hr, List.all_eq_true, Bool.and_eq_true, Bool.or_eq_true, beq_iff_eq, List.contains_eq_mem, decide_eq_true_eq] at hrow
    rcases hm : tryTrans ⟨markdown, B, stop⟩ row.trans t c with ⟨r, t1, c1⟩
    rw [hm] at h
    rcases r with x | y
    · simp at h
    cases y with
    | some q1 =>
      simp only [Prod.mk.injEq, Except.ok.injEq] at h
      obtain ⟨rfl, rfl⟩ := h
      obtain ⟨k1, k2⟩ := doomed_try hfl hpl hS (fun tr htr => by
        have := hrow tr htr
        refine ⟨this.1, ?_⟩
        rcases this.2 with ((h | h) | h) | h
        · exact .inl ⟨by rcases h.1 with (h | h) | h <;> simp [h], h.2⟩
        · exact .inr (.inl h)
        · exact .inr (.inr (.inl h))
        · exact .inr (.inr (.inr h))) ht he hg hm
      right
      obtain ⟨as, x, more, h1, h2, h3⟩ := hst
      cases as with
      | nil => simp at h1; rw [h1.1] at k1; exact absurd k1 h3
      | cons a as =>
        simp at h1
        refine ⟨k2 (by rw [h1.1]; exact (h2 a (by simp)).1), as, x, more, h1.2, fun y hy => h2 y (by simp [hy]), h3⟩
    | none =>
      simp only at h
      split at h
      · simp at h
      · rcases ha : addError (unexpected row.expected t1) c1 with ⟨z, c2⟩
        rw [ha] at h
        rcases z with x | u
        · simp at h
        · simp only [Prod.mk.injEq, Except.ok.injEq] at h
          obtain ⟨rfl, rfl⟩ := h
          exact .inl (addError_ok ha).2.1

/-! ### Inside doc strings -/

def openRowOk (q : Nat) : Bool :=
  match table q with
  | some row => match row.trans with
    | [a, b] => a.kind == .docStringSeparator && a.la == none && !opens.contains a.target && !tagStates.contains a.target &&
        b.kind == .other && b.la == none && b.target == q
    | _ => false
  | none => false

theorem open_rows_ok : ∀ q ∈ opens, openRowOk q = true := by decide +kernel

theorem open_step (hfl : ∀ l ∈ ls, fenceOf l.text = none ∨ fenceOf l.text = some f) {q q' : Nat} {t : Token} {c c' : Ctx MdState σ} {n : Nat}
    (hq : q ∈ opens) (ht : t.line ∈ ls) (hm : Md.Mild d f c.matcher) (ha : c.matcher.active = some f) (hn : c.matcher.indentToRemove = n)
    (h : matchToken ⟨markdown, B, stop⟩ q t c = (.ok q', c')) :
    c'.errors ≠ [] ∨ ∃ t', builds c'.log = builds c.log ++ [t'] ∧
      ((q' = q ∧ Inside f n t' ∧ c'.matcher = c.matcher) ∨ (q' ∉ opens ∧ Closes f t' ∧ c'.matcher.active = none)) ∧ t.eof = false := by
  have hrow := open_rows_ok q hq
  unfold openRowOk at hrow
  cases hr : table q with
  | none => rw [hr] at hrow; simp at hrow
  | some row =>
    rw [hr] at hrow
    unfold matchToken at h
    rw [hr] at h
    simp only at hrow h
    rcases hx : row.trans with _ | ⟨a, _ | ⟨b, _ | ⟨e, es⟩⟩⟩
    · rw [hx] at hrow; simp at hrow
    · rw [hx] at hrow; simp at hrow
    · rw [hx] at hrow
      simp only [Bool.and_eq_true, beq_iff_eq, Bool.not_eq_true', List.contains_eq_mem, decide_eq_false_iff_not] at hrow
      obtain ⟨⟨⟨⟨⟨⟨o1, o2⟩, o3⟩, o4⟩, o5⟩, o6⟩, o7⟩ := hrow
      have ba := (table_builds hr (tr := a) (by rw [hx]; simp)).1
      have bb := (table_builds hr (tr := b) (by rw [hx]; simp)).1
      have take : ∀ {tr : Trans} {t1 : Token} {c1 c2 : Ctx MdState σ}, (tr.prods.filter (· == .build)).length = 1 → c1.log = c.log →
          runProds (⟨markdown, B, stop⟩ : Config MdState σ ρ) tr.prods t1 c1 = (.ok (), c2) → builds c2.log = builds c.log ++ [t1] ∧ c2.matcher = c1.matcher := by
        intro tr t1 c1 c2 hb hl hp
        have h1 := (runProds_spec hp).1
        have h2 := runProds_frame (cfg := (⟨markdown, B, stop⟩ : Config MdState σ ρ)) tr.prods t1 c1
        rw [hp] at h2
        exact ⟨by rw [h1, builds_append, builds_prods _ _ hb, hl], h2.2.2⟩
      cases he : t.eof with
      | true =>
        left
        rw [hx] at h
        simp only [tryTrans, testTrans, o1, o2, o5, matchTok_eof (cfg := (⟨markdown, B, stop⟩ : Config MdState σ ρ)) (by simp : Kind.docStringSeparator ≠ .eof) he,
          matchTok_eof (cfg := (⟨markdown, B, stop⟩ : Config MdState σ ρ)) (by simp : Kind.other ≠ .eof) he] at h
        split at h
        · simp at h
        · rcases hz : addError (unexpected row.expected t) c with ⟨z, c2⟩
          rw [hz] at h
          rcases z with x | u
          · simp at h
          · simp only [Prod.mk.injEq, Except.ok.injEq] at h
            obtain ⟨rfl, rfl⟩ := h
            exact (addError_ok hz).2.1
      | false =>
        have hline := (markdown_lawful.line .docStringSeparator t c.matcher)
        simp only [markdown, Md.matchKind, Md.matchDocSep, ha] at hline
        rw [hx] at h
        simp only [tryTrans, testTrans, o1, o2, o5, o6] at h
        by_cases hst : t.line.startsWith f = true
        · have hm1 : matchTok (⟨markdown, B, stop⟩ : Config MdState σ ρ) .docStringSeparator t c = (.ok true,
              setMatched c.matcher.dialectName t (some .docStringSeparator) (some []) (some f) none none [],
              { c with matcher := { c.matcher with active := none, indentToRemove := 0 },
                       errors := syncErrors (setMatched c.matcher.dialectName t (some .docStringSeparator) (some []) (some f) none none []) c.errors }) := by
            unfold matchTok
            rw [if_neg (by simp [he])]
            simp only [markdown, Md.matchKind, Md.matchDocSep, ha, Md.matchSep, if_pos hst, Bool.false_eq_true, if_false, handle]
          rw [hm1] at h
          simp only at h
          rcases hp : runProds (⟨markdown, B, stop⟩ : Config MdState σ ρ) a.prods
            (setMatched c.matcher.dialectName t (some .docStringSeparator) (some []) (some f) none none [])
              { c with matcher := { c.matcher with active := none, indentToRemove := 0 },
                       errors := syncErrors (setMatched c.matcher.dialectName t (some .docStringSeparator) (some []) (some f) none none []) c.errors } with ⟨r, c2⟩
          rw [hp] at h
          rcases r with x | u
          · simp at h
          simp only [Prod.mk.injEq, Except.ok.injEq] at h
          obtain ⟨rfl, rfl⟩ := h
          obtain ⟨t1, t2⟩ := take ba (by rfl) hp
          right
          refine ⟨_, t1, .inr ⟨o3, ⟨rfl, ?_⟩, by rw [t2]⟩, rfl⟩
          change fenceOf t.line.text = some f
          have hs := (Md.sep_answer (d := d) (hfl _ ht) hm).1
          simp only [Md.matchDocSep, ha, Md.matchSep, if_pos hst, Bool.false_eq_true, if_false] at hs
          rcases hfl _ ht with h | h
          · rw [h] at hs; simp at hs
          · exact h
        · have hm1 : matchTok (⟨markdown, B, stop⟩ : Config MdState σ ρ) .docStringSeparator t c = (.ok false, t, { c with errors := syncErrors t c.errors }) := by
            unfold matchTok
            rw [if_neg (by simp [he])]
            simp only [markdown, Md.matchKind, Md.matchDocSep, ha, Md.matchSep, if_neg hst, handle]
          have hm2 : ∀ c0 : Ctx MdState σ, c0.matcher = c.matcher → matchTok (⟨markdown, B, stop⟩ : Config MdState σ ρ) .other t c0 = (.ok true,
              setMatched c.matcher.dialectName t (some .other) (some (Classic.unescapeDoc (some f) (t.line.lineTextFrom n))) none none (some 0) [],
              { c0 with errors := syncErrors (setMatched c.matcher.dialectName t (some .other) (some (Classic.unescapeDoc (some f) (t.line.lineTextFrom n))) none none (some 0) []) c0.errors }) := by
            intro c0 h0
            unfold matchTok
            rw [if_neg (by simp [he])]
            simp only [markdown, Md.matchKind, Md.matchOther, handle, h0, ha, hn]
          rw [hm1] at h
          simp only at h
          rw [hm2 { c with errors := syncErrors t c.errors } rfl] at h
          simp only at h
          rcases hp : runProds (⟨markdown, B, stop⟩ : Config MdState σ ρ) b.prods
            (setMatched c.matcher.dialectName t (some .other) (some (Classic.unescapeDoc (some f) (t.line.lineTextFrom n))) none none (some 0) [])
              { c with errors := syncErrors (setMatched c.matcher.dialectName t (some .other) (some (Classic.unescapeDoc (some f) (t.line.lineTextFrom n))) none none (some 0) []) (syncErrors t c.errors) } with ⟨r, c2⟩
          rw [hp] at h
          rcases r with x | u
          · simp at h
          simp only [Prod.mk.injEq, Except.ok.injEq] at h
          obtain ⟨rfl, rfl⟩ := h
          obtain ⟨t1, t2⟩ := take bb (by rfl) hp
          right
          refine ⟨_, t1, .inl ⟨o7, ⟨rfl, rfl, ?_⟩, by rw [t2]⟩, rfl⟩
          change fenceOf t.line.text = none
          have hs := (Md.sep_answer (d := d) (hfl _ ht) hm).1
          simp only [Md.matchDocSep, ha, Md.matchSep, if_neg hst] at hs
          rcases hfl _ ht with h | h
          · exact h
          · rw [h] at hs; simp at hs
    · rw [hx] at hrow; simp at hrow

theorem md_grows {q q' : Nat} {t : Token} {c c' : Ctx MdState σ} (h : matchToken ⟨markdown, B, stop⟩ q t c = (.ok q', c')) (he : c.errors ≠ []) : c'.errors ≠ [] := by
  have hc := matchToken_cases (cfg := (⟨markdown, B, stop⟩ : Config MdState σ ρ)) markdown_lawful (closed_errors markdown_lawful) q t c
  rw [h] at hc
  simp only at hc
  cases hc with
  | unexpected h1 h2 h3 h4 h5 h6 =>
    rcases h6 with ⟨_, h, _⟩ | ⟨_, _, ha⟩ | ⟨_, x, h, _⟩
    · cases h
    · exact (addError_ok ha).2.1
    · simp at h
  | taken h1 h2 hj0 hj1 h4 h5 h6 h7 h8 h9 hj2 h11 h12 =>
    rcases h12 with ⟨_, hp⟩ | ⟨x, h, _⟩
    · intro h0; exact he ((hj2.trans (runProds_spec hp).2.2.1).nil h0)
    · simp at h

theorem free_step (hfl : ∀ l ∈ ls, fenceOf l.text = none ∨ fenceOf l.text = some f)
    (hS : Steady (⟨markdown, B, stop⟩ : Config MdState σ ρ) ls (Md.Mild d f) (Md.Good d f) (Md.skipped d)) {q q' : Nat} {t : Token} {c c' : Ctx MdState σ}
    {rest : List Line} (hR : ∀ l ∈ rest, l ∈ ls) (hq : q ∉ opens) (ht : t.line ∈ ls) (hO : t.eof = false → OInv (Md.skipped d) rest c)
    (hg : (q ≤ 2 ∧ Md.Mild d f c.matcher) ∨ Md.Good d f c.matcher) (ha : c.matcher.active = none)
    (h : matchToken ⟨markdown, B, stop⟩ q t c = (.ok q', c')) :
    c'.errors ≠ [] ∨ ∃ tr t', q' = tr.target ∧ t'.type = some tr.kind ∧ t'.line = t.line ∧ (tr.kind = .docStringSeparator ↔ q' ∈ opens) ∧
      builds c'.log = builds c.log ++ [t'] ∧ Outcome d f rest tr t' c'.matcher := by
  unfold matchToken at h
  cases hr : table q with
  | none => rw [hr] at h; simp at h
  | some row =>
    rw [hr] at h
    simp only at h
    have hrow := states_ok q (mem_allStates hr)
    simp only [stateOk, hr, Bool.or_eq_true, List.contains_eq_mem, decide_eq_true_eq, hq, false_or] at hrow
    have hpre : ((∀ tr ∈ row.trans, tr.la = none) ∧ Md.Mild d f c.matcher) ∨ Md.Good d f c.matcher := by
      rcases hg with ⟨h1, h2⟩ | hg
      · have := early_ok q h1
        simp only [earlyOk, hr, Bool.and_eq_true, List.all_eq_true, beq_iff_eq] at this
        exact .inl ⟨fun tr htr => (this.2 tr htr).1, h2⟩
      · exact .inr hg
    rcases hm : tryTrans ⟨markdown, B, stop⟩ row.trans t c with ⟨r, t1, c1⟩
    rw [hm] at h
    rcases r with x | y
    · simp at h
    cases y with
    | some q1 =>
      simp only [Prod.mk.injEq, Except.ok.injEq] at h
      obtain ⟨rfl, rfl⟩ := h
      obtain ⟨tr, k1, k2, k3, k4, _, k5, k6⟩ := try_fence hfl hS hR hrow ht hO hpre (.inl ha) hm
      refine .inr ⟨tr, t1, k2, k3, k4, ?_, ?_, k6⟩
      · have key : ∀ (rows : List Trans) (seen : Bool), rowsOk seen rows = true → ∀ tr ∈ rows, tr.kind = .docStringSeparator ↔ tr.target ∈ opens := by
          intro rows
          induction rows with
          | nil => simp
          | cons a as ih =>
            intro seen hok tr htr
            simp only [rowsOk, Bool.and_eq_true, Bool.or_eq_true, bne_iff_ne, ne_eq, Bool.not_eq_true', beq_iff_eq, List.contains_eq_mem, decide_eq_true_eq, decide_eq_false_iff_not] at hok
            rcases List.mem_cons.1 htr with rfl | htr
            · refine ⟨fun h => ?_, fun h => ?_⟩
              · rcases hok.1.1.1.1 with h' | h'
                · exact absurd h h'
                · exact h'.1.2
              · rcases hok.1.1.1.2 with h' | h'
                · exact h'
                · exact absurd h h'
            · exact ih _ hok.2 tr htr
        rw [k2]; exact key _ _ hrow tr k1
      · rw [k5, builds_append, builds_prods _ _ (table_builds hr k1).1]
    | none =>
      simp only at h
      split at h
      · simp at h
      · rcases hz : addError (unexpected row.expected t1) c1 with ⟨z, c2⟩
        rw [hz] at h
        rcases z with x | u
        · simp at h
        · simp only [Prod.mk.injEq, Except.ok.injEq] at h
          obtain ⟨rfl, rfl⟩ := h
          exact .inl (addError_ok hz).2.1

/-- The invariant of the main loop. -/
def FInv (d : Dialect) (f : Str) (rest : List Line) (q : Nat) (c : Ctx MdState σ) : Prop :=
  c.errors ≠ [] ∨ Stray f (builds c.log) ∨ (q ∈ tagStates ∧ Stuck d rest) ∨
  (q ∉ opens ∧ c.matcher.active = none ∧ Complete f (builds c.log)) ∨
  (q ∈ opens ∧ ∃ pre o ls, builds c.log = pre ++ o :: ls ∧ Complete f pre ∧ Opens f o ∧ (∀ t ∈ ls, Inside f o.line.indent t) ∧
    c.matcher.active = some f ∧ c.matcher.indentToRemove = o.line.indent)

theorem fence_step (hfl : ∀ l ∈ ls, fenceOf l.text = none ∨ fenceOf l.text = some f)
    (hpl : ∀ l ∈ ls, (lstrip l.text).head? = some '#' → ¬ ∃ a b, l.text = a ++ py"`@" ++ b)
    (hS : Steady (⟨markdown, B, stop⟩ : Config MdState σ ρ) ls (Md.Mild d f) (Md.Good d f) (Md.skipped d)) {q q' : Nat} {t : Token} {c c' : Ctx MdState σ}
    {rest : List Line} (hR : ∀ l ∈ rest, l ∈ ls) (ht : t.line ∈ ls) (hO : t.eof = false → OInv (Md.skipped d) rest c)
    (hg : (q ≤ 2 ∧ Md.Mild d f c.matcher) ∨ Md.Good d f c.matcher) (hI : FInv d f (t.line :: rest) q c)
    (h : matchToken ⟨markdown, B, stop⟩ q t c = (.ok q', c')) : FInv d f rest q' c' ∧ (t.eof = true → c'.errors = [] → q' ∉ opens) := by
  have hM : Md.Mild d f c.matcher := by
    rcases hg with h | h
    · exact h.2
    · exact h.1
  have hq' : t.eof = true → c'.errors = [] → q' ∉ opens := by
    intro he h0
    have hc := matchToken_cases (cfg := (⟨markdown, B, stop⟩ : Config MdState σ ρ)) markdown_lawful (closed_errors markdown_lawful) q t c
    rw [h] at hc
    simp only at hc
    cases hc with
    | unexpected h1 h2 h3 h4 h5 h6 =>
      rcases h6 with ⟨_, h, _⟩ | ⟨_, _, ha⟩ | ⟨_, x, h, _⟩
      · cases h
      · exact absurd h0 (addError_ok ha).2.1
      · simp at h
    | taken h1 h2 hj0 hj1 h4 h5 h6 h7 h8 h9 hj2 h11 h12 =>
      rename_i row pre tr post t0 t' c0 c1 c2
      rcases h12 with ⟨e, hp⟩ | ⟨x, h, _⟩
      · cases e
        have := (table_builds h1 (tr := tr) (by rw [h2]; simp)).2.1.1 ((matchTok_true_eof markdown_lawful h7).2 (by rw [Token.eof, h4]; exact he))
        rw [this]; decide
      · simp at h
  refine ⟨?_, hq'⟩
  rcases hI with hI | hI | ⟨h1, h2⟩ | ⟨h1, h2, h3⟩ | ⟨h1, pre, o, us, h2, h3, h4, h5, h6, h7⟩
  · exact .inl (md_grows h hI)
  · have hl : ∃ us, builds c'.log = builds c.log ++ us := by
      have hc := matchToken_cases (cfg := (⟨markdown, B, stop⟩ : Config MdState σ ρ)) markdown_lawful (closed_frame markdown_lawful) q t c
      rw [h] at hc
      simp only at hc
      cases hc with
      | unexpected h1 h2 h3 h4 h5 h6 =>
        rcases h6 with ⟨_, h, _⟩ | ⟨_, _, ha⟩ | ⟨_, x, h, _⟩
        · cases h
        · exact ⟨[], by rw [(addError_ok ha).2.2]; simp [h2.2]⟩
        · simp at h
      | taken h1 h2 hj0 hj1 h4 h5 h6 h7 h8 h9 hj2 h11 h12 =>
        rcases h12 with ⟨e, hp⟩ | ⟨x, h, _⟩
        · exact ⟨_, by rw [(runProds_spec hp).1, builds_append, hj2.2]⟩
        · simp at h
    obtain ⟨us, hus⟩ := hl
    exact .inr (.inl (by rw [hus]; exact hI.append us))
  · have hG : Md.Good d f c.matcher := by
      rcases hg with h | h
      · have : ∀ q ∈ tagStates, ¬ q ≤ 2 := by decide
        exact absurd h.1 (this q h1)
      · exact h
    rcases doomed_step hfl hpl hS h1 h2 ht hG h with h | h
    · exact .inl h
    · exact .inr (.inr (.inl h))
  · rcases free_step hfl hS hR h1 ht hO hg h2 h with h | ⟨tr, t', k1, k2, k3, k4, k5, k6⟩
    · exact .inl h
    · rcases k6 with ⟨j1, j2⟩ | ⟨j1, j2, j3⟩ | ⟨j1, j2, j3, j4⟩ | ⟨j1, j2⟩
      · refine .inr (.inr (.inr (.inl ⟨fun h => j1 (k4.2 h), j2, ?_⟩)))
        rw [k5]
        exact .one h3 (by rw [k2]; simpa using j1)
      · exact .inr (.inr (.inl ⟨k1 ▸ j2, j3⟩))
      · exact .inr (.inr (.inr (.inr ⟨k4.1 j1, _, t', [], k5, h3, j2, by simp, j3, j4⟩)))
      · exact .inr (.inl ⟨_, t', [], k5, h3, by rw [k2, j1], j2⟩)
  · rcases open_step hfl h1 ht hM h6 h7 h with h | ⟨t', k1, k2, k3⟩
    · exact .inl h
    · rcases k2 with ⟨rfl, j1, j2⟩ | ⟨j1, j2, j3⟩
      · refine .inr (.inr (.inr (.inr ⟨h1, pre, o, us ++ [t'], by rw [k1, h2]; simp, h3, h4, ?_, by rw [j2]; exact h6, by rw [j2]; exact h7⟩)))
        intro u hu
        rcases List.mem_append.1 hu with hu | hu
        · exact h5 u hu
        · rw [List.mem_singleton.1 hu]; exact j1
      · refine .inr (.inr (.inr (.inl ⟨j1, j3, ?_⟩)))
        rw [k1, h2]
        have := Complete.doc h3 h4 h5 j2
        simpa using this

theorem fence_loop (hfl : ∀ l ∈ ls, fenceOf l.text = none ∨ fenceOf l.text = some f)
    (hpl : ∀ l ∈ ls, (lstrip l.text).head? = some '#' → ¬ ∃ a b, l.text = a ++ py"`@" ++ b)
    (hS : Steady (⟨markdown, B, stop⟩ : Config MdState σ ρ) ls (Md.Mild d f) (Md.Good d f) (Md.skipped d)) {fuel : Nat} :
    ∀ {rest : List Line} {q : Nat} {c c' : Ctx MdState σ}, Numbered rest → (∀ l ∈ rest, l ∈ ls) → OInv (Md.skipped d) rest c →
    ((q ≤ 2 ∧ Md.Mild d f c.matcher) ∨ Md.Good d f c.matcher) → FInv d f rest q c →
    parseLoop ⟨markdown, B, stop⟩ fuel q c = (.ok (), c') → c'.errors = [] → Stray f (builds c'.log) ∨ Complete f (builds c'.log) := by
  induction fuel with
  | zero => intro rest q c c' _ _ _ _ _ h; simp [parseLoop] at h
  | succ fuel ih =>
    intro rest q c c' hn hR hO hg hI h h0
    obtain ⟨l, rest', t, c1, hrest, hread, htl, hnorm, hcont, hstop⟩ := readToken_oinv hO
    subst hrest
    have hm1 : c1.matcher = c.matcher := by have := congrArg Ctx.matcher hnorm; exact this
    have hl1 : c1.log = c.log := by have := congrArg Ctx.log hnorm; exact this
    have he1 : c1.errors = c.errors := by have := congrArg Ctx.errors hnorm; exact this
    have hmem : l ∈ ls := hR l (by simp)
    have hef : t.eof = l.isEof := by rw [Token.eof, htl]
    unfold parseLoop at h
    rw [hread] at h
    simp only at h
    rcases hm : matchToken ⟨markdown, B, stop⟩ q t { c1 with log := c1.log ++ [.take t.line] } with ⟨r, c2⟩
    rw [hm] at h
    rcases r with x | q'
    · simp at h
    simp only at h
    have hI1 : FInv d f (t.line :: rest') q { c1 with log := c1.log ++ [.take t.line] } := by
      unfold FInv at hI ⊢
      simp only [builds_append, hl1, hm1, he1, htl]
      simpa [builds] using hI
    obtain ⟨s1, s2⟩ := fence_step (c := { c1 with log := c1.log ++ [.take t.line] }) hfl hpl hS (rest := rest') (fun l hl => hR l (by simp [hl])) (by rw [htl]; exact hmem)
      (fun he => OInv.congr (c := c1) (hcont (hef ▸ he)) rfl rfl) (by simp only [hm1]; exact hg) hI1 hm
    split at h
    · rename_i he
      simp only [Prod.mk.injEq, true_and] at h
      subst h
      have hr : rest' = [] := by
        cases rest' with
        | nil => rfl
        | cons a b =>
          have := hn.eof l (by simp)
          rw [hef] at he
          rw [he] at this; simp at this
      subst hr
      rcases s1 with h | h | ⟨_, h⟩ | ⟨_, _, h⟩ | ⟨h, _⟩
      · exact absurd h0 h
      · exact .inl h
      · obtain ⟨as, x, more, e, _⟩ := h; simp at e
      · exact .inr h
      · exact absurd h (s2 he h0)
    · rename_i he
      have he : t.eof = false := by simpa using he
      obtain ⟨j1, j2⟩ := matchToken_order hS (c := { c1 with log := c1.log ++ [.take t.line] }) (fun l hl => hR l (by simp [hl])) (htl ▸ hmem) he
        (OInv.congr (c := c1) (hcont (hef ▸ he)) rfl rfl) (show (q ≤ 2 ∧ Md.Mild d f c1.matcher) ∨ Md.Good d f c1.matcher by rw [hm1]; exact hg) hm
      exact ih (q := q') (c := c2) (hn.tail (hef ▸ he)) (fun l hl => hR l (by simp [hl])) j1 j2 s1 h h0

end

end Gherkin
