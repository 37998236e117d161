import Verif.Proofs.MdEol
import Verif.Proofs.EolParse
import Verif.Proofs.MdErrForms

/-! Whole parses of Markdown texts do not look at line ends, if the feature line is not blank. -/

namespace Gherkin

variable {σ ρ : Type}

/-- No complaint of the builder shares its place with a token. -/
def Builder.Clean (B : Builder σ ρ) : Prop := ∀ ev b e, evAnswer B b ev = .error (.parser e) → e.aliasOf = none

namespace MdBlind

/-- The context of the parse of the canonical lines. -/
def canoCtx (φ : σ → σ) (c : Ctx MdState σ) : Ctx MdState σ :=
  { c with scanner := { c.scanner with lines := c.scanner.lines.map Blind.canonText }, queue := c.queue.map Token.cano, builder := φ c.builder,
           log := c.log.map Blind.canonEv }

/-- What the parse keeps. -/
structure Inv (lang : Str) (d : Dialect) (c : Ctx MdState σ) : Prop where
  fenced : Md.Fenced lang d c.matcher
  clean : ∀ e ∈ c.errors, e.aliasOf = none

/-- The invariant is kept, and so is the feature line. -/
structure Goes (lang : Str) (d : Dialect) (c c' : Ctx MdState σ) : Prop where
  inv : Inv lang d c → Inv lang d c'
  feature : c.matcher.matchedFeature = true → c'.matcher.matchedFeature = true

variable {lang : Str} {d : Dialect} {B : Builder σ ρ} {stop : Bool} {φ : σ → σ}

theorem Goes.refl (c : Ctx MdState σ) : Goes lang d c c := ⟨id, id⟩
theorem Goes.trans {a b c : Ctx MdState σ} (h : Goes lang d a b) (h' : Goes lang d b c) : Goes lang d a c :=
  ⟨fun x => h'.inv (h.inv x), fun x => h'.feature (h.feature x)⟩
theorem Goes.same {a b : Ctx MdState σ} (h : b.matcher = a.matcher) (he : b.errors = a.errors) : Goes lang d a b :=
  ⟨fun x => ⟨by rw [h]; exact x.fenced, by rw [he]; exact x.clean⟩, fun x => by rw [h]; exact x⟩

theorem addError_c (e : Err) (c : Ctx MdState σ) : addError e (canoCtx φ c) = ((addError e c).1, canoCtx φ (addError e c).2) := by
  by_cases h1 : e.msg ∈ c.errors.map (·.msg)
  · simp only [addError, canoCtx, h1, if_true]
  · by_cases h2 : (c.errors ++ [e]).length > 10
    · simp only [addError, canoCtx, h1, h2, if_true, if_false]
    · simp only [addError, canoCtx, h1, h2, if_false]

theorem addError_goes {e : Err} (he : e.aliasOf = none) (c : Ctx MdState σ) : Goes lang d c (addError e c).2 := by
  have hin : ∀ x ∈ (addError e c).2.errors, x ∈ c.errors ∨ x = e := by
    rcases addError_cases e c with ⟨_, h⟩ | ⟨_, _, h⟩ | ⟨_, _, h⟩ <;> rw [h] <;> intro x hx
    · exact .inl hx
    · simpa using hx
    · simpa using hx
  have hm : (addError e c).2.matcher = c.matcher := by
    rcases addError_cases e c with ⟨_, h⟩ | ⟨_, _, h⟩ | ⟨_, _, h⟩ <;> rw [h]
  refine ⟨fun x => ⟨by rw [hm]; exact x.fenced, fun y hy => ?_⟩, fun x => by rw [hm]; exact x⟩
  rcases hin y hy with h | rfl
  · exact x.clean y h
  · exact he

theorem handle_c {α : Type} (dv : α) (r : Except MExc α) (c : Ctx MdState σ) :
    handle ⟨markdown, B, stop⟩ dv r (canoCtx φ c) = ((handle ⟨markdown, B, stop⟩ dv r c).1, canoCtx φ (handle ⟨markdown, B, stop⟩ dv r c).2) := by
  unfold handle
  split
  · rfl
  · rfl
  · split
    · rfl
    · rw [addError_c]
      rcases addError _ c with ⟨x, c'⟩
      cases x <;> rfl

theorem handle_goes {α : Type} (dv : α) {r : Except MExc α} (hr : ∀ e, r = .error (.parser e) → e.aliasOf = none) (c : Ctx MdState σ) :
    Goes lang d c (handle ⟨markdown, B, stop⟩ dv r c).2 := by
  rcases r with (e | x) | a
  · have h := addError_goes (lang := lang) (d := d) (hr e rfl) c
    simp only [handle]
    split
    · exact .refl _
    · rcases hx : addError e c with ⟨y, c'⟩
      rw [hx] at h
      cases y <;> exact h
  · exact .refl _
  · exact .refl _

theorem sync_clean {es : List Err} (h : ∀ e ∈ es, e.aliasOf = none) (t : Token) : syncErrors t es = es :=
  sync_noalias fun e he => by rw [h e he]; simp

theorem matchTok_goes (k : Kind) (t : Token) {c : Ctx MdState σ} (hI : Inv lang d c) : Goes lang d c (matchTok ⟨markdown, B, stop⟩ k t c).2.2 := by
  unfold matchTok
  split
  · exact .refl _
  · simp only [markdown]
    rcases hm : Md.matchKind k t c.matcher with ⟨r, t1, m1⟩
    have hf := fenced_keep k t c.matcher hI.fenced
    have hft : c.matcher.matchedFeature = true → m1.matchedFeature = true := by
      intro h
      have := Md.after_keep k t c.matcher ⟨hI.fenced, h⟩
      rw [hm] at this
      exact this.2
    rw [hm] at hf
    have h0 : Goes lang d c { c with matcher := m1, errors := syncErrors t1 c.errors } :=
      ⟨fun x => ⟨hf, by rw [sync_clean x.clean]; exact x.clean⟩, hft⟩
    refine h0.trans (handle_goes false ?_ _)
    rintro e rfl
    obtain ⟨h1, _⟩ := Md.matchKind_crash hm
    cases h1

variable (hd : d.Known)
include hd

theorem matchTok_c (k : Kind) (t : Token) {c : Ctx MdState σ} (hI : Inv lang d c) :
    matchTok ⟨markdown, B, stop⟩ k t.cano (canoCtx φ c) =
      ((matchTok ⟨markdown, B, stop⟩ k t c).1, (matchTok ⟨markdown, B, stop⟩ k t c).2.1.cano, canoCtx φ (matchTok ⟨markdown, B, stop⟩ k t c).2.2) := by
  unfold matchTok
  rw [cano_eof]
  split
  · rfl
  · have hm : Md.matchKind k t.cano c.matcher = canoRes (Md.matchKind k t c.matcher) := mdKind_cano hd k t hI.fenced
    have hm' : Md.matchKind k t.cano (canoCtx φ c).matcher = canoRes (Md.matchKind k t c.matcher) := hm
    simp only [markdown]
    rw [hm']
    rcases Md.matchKind k t c.matcher with ⟨r, t', m'⟩
    simp only [canoRes]
    have := handle_c (B := B) (stop := stop) (φ := φ) false r { c with matcher := m', errors := syncErrors t' c.errors }
    have hs : syncErrors t'.cano c.errors = syncErrors t' c.errors := by rw [sync_clean hI.clean, sync_clean hI.clean]
    simp only [canoCtx, markdown] at this ⊢
    rw [hs, this]

theorem matchAny_c (ks : List Kind) : ∀ (t : Token) {c : Ctx MdState σ}, Inv lang d c →
    matchAny ⟨markdown, B, stop⟩ ks t.cano (canoCtx φ c) = ((matchAny ⟨markdown, B, stop⟩ ks t c).1, (matchAny ⟨markdown, B, stop⟩ ks t c).2.1.cano,
        canoCtx φ (matchAny ⟨markdown, B, stop⟩ ks t c).2.2) ∧
      Goes lang d c (matchAny ⟨markdown, B, stop⟩ ks t c).2.2 := by
  induction ks with
  | nil => intro t c _; exact ⟨rfl, .refl _⟩
  | cons k ks ih =>
    intro t c hG
    have h1 := matchTok_c hd (φ := φ) (B := B) (stop := stop) k t hG
    have h2 := matchTok_goes (B := B) (stop := stop) k t hG
    simp only [matchAny, h1]
    rcases hx : matchTok ⟨markdown, B, stop⟩ k t c with ⟨r, t', c'⟩
    rw [hx] at h2
    replace h2 : Goes lang d c c' := h2
    rcases r with x | _ | _
    · exact ⟨rfl, h2⟩
    · obtain ⟨h3, h4⟩ := ih t' (h2.inv hG)
      exact ⟨h3, h2.trans h4⟩
    · exact ⟨rfl, h2⟩

omit hd in
theorem readToken_c (c : Ctx MdState σ) : readToken (canoCtx φ c) = ((readToken c).1.cano, canoCtx φ (readToken c).2) ∧
    (readToken c).2.matcher = c.matcher ∧ (readToken c).2.errors = c.errors := by
  rcases c with ⟨⟨lines, n⟩, m, q, es, b, log⟩
  cases q with
  | nil =>
    cases lines with
    | nil =>
      refine ⟨?_, rfl, rfl⟩
      simp only [readToken, canoCtx, List.map_nil, Scanner.read]
      rw [cano_fresh]
      rfl
    | cons l ls =>
      refine ⟨?_, rfl, rfl⟩
      simp only [readToken, canoCtx, List.map_nil, List.map_cons, Scanner.read]
      rw [cano_fresh]
      rfl
  | cons t q => exact ⟨rfl, rfl, rfl⟩

theorem laLoop_c (la : LA) : ∀ (fuel : Nat) (acc : List Token) {c : Ctx MdState σ}, Inv lang d c →
    laLoop ⟨markdown, B, stop⟩ la fuel (acc.map Token.cano) (canoCtx φ c) =
      ((laLoop ⟨markdown, B, stop⟩ la fuel acc c).1.map (fun p => (p.1, p.2.map Token.cano)), canoCtx φ (laLoop ⟨markdown, B, stop⟩ la fuel acc c).2) ∧
      Goes lang d c (laLoop ⟨markdown, B, stop⟩ la fuel acc c).2 := by
  intro fuel
  induction fuel with
  | zero => intro acc c _; exact ⟨rfl, .refl _⟩
  | succ fuel ih =>
    intro acc c hG
    obtain ⟨r1, r2, r3⟩ := readToken_c (φ := φ) c
    simp only [laLoop, r1]
    rcases hr : readToken c with ⟨t, c1⟩
    rw [hr] at r2 r3
    have hc1 : Goes lang d c c1 := .same r2 r3
    have hG1 : Inv lang d c1 := hc1.inv hG
    have h1 := matchTok_c hd (φ := φ) (B := B) (stop := stop) la.expected t hG1
    have h2 := matchTok_goes (B := B) (stop := stop) la.expected t hG1
    simp only [h1]
    rcases hx : matchTok ⟨markdown, B, stop⟩ la.expected t c1 with ⟨r, t2, c2⟩
    rw [hx] at h2
    replace h2 : Goes lang d c c2 := hc1.trans h2
    rcases r with x | _ | _
    · exact ⟨rfl, h2⟩
    · obtain ⟨h3, h4⟩ := matchAny_c hd (φ := φ) (B := B) (stop := stop) skipKinds t2 (h2.inv hG)
      simp only [h3]
      rcases hy : matchAny ⟨markdown, B, stop⟩ skipKinds t2 c2 with ⟨r, t3, c3⟩
      rw [hy] at h4
      replace h4 : Goes lang d c c3 := h2.trans h4
      rcases r with x | _ | _
      · exact ⟨rfl, h4⟩
      · simp only [Except.map, List.map_append]; exact ⟨rfl, h4⟩
      · have := ih (acc ++ [t3]) (h4.inv hG)
        rw [List.map_append] at this
        exact ⟨this.1, h4.trans this.2⟩
    · simp only [Except.map, List.map_append]; exact ⟨rfl, h2⟩

theorem lookahead_c (la : LA) {c : Ctx MdState σ} (hG : Inv lang d c) :
    lookahead ⟨markdown, B, stop⟩ la (canoCtx φ c) = ((lookahead ⟨markdown, B, stop⟩ la c).1, canoCtx φ (lookahead ⟨markdown, B, stop⟩ la c).2) ∧
    Goes lang d c (lookahead ⟨markdown, B, stop⟩ la c).2 := by
  obtain ⟨h1, h2⟩ := laLoop_c hd (φ := φ) (B := B) (stop := stop) la (c.queue.length + c.scanner.lines.length + 1) [] hG
  unfold lookahead
  have hf : (canoCtx φ c).queue.length + (canoCtx φ c).scanner.lines.length + 1 = c.queue.length + c.scanner.lines.length + 1 := by
    simp [canoCtx]
  rw [hf]
  rw [List.map_nil] at h1
  rw [h1]
  rcases hx : laLoop ⟨markdown, B, stop⟩ la (c.queue.length + c.scanner.lines.length + 1) [] c with ⟨r, c'⟩
  rw [hx] at h2
  cases r with
  | error x => exact ⟨rfl, h2⟩
  | ok p =>
    obtain ⟨b, ts⟩ := p
    simp only [Except.map]
    exact ⟨by simp [canoCtx], h2.trans (.same rfl rfl)⟩

omit hd in
theorem runProd_c (hB : B.Blind φ) (p : Prod) {t : Token} (ht : t.cano = t.canon) (c : Ctx MdState σ) :
    runProd ⟨markdown, B, stop⟩ p t.cano (canoCtx φ c) = ((runProd ⟨markdown, B, stop⟩ p t c).1, canoCtx φ (runProd ⟨markdown, B, stop⟩ p t c).2) := by
  rw [runProd_eq, runProd_eq, ht]
  have h1 : evAnswer B (φ c.builder) (p.ev t.canon) = evAnswer B c.builder (p.ev t) := by
    cases p
    · exact congrArg (·.1) (hB.start _ _)
    · exact congrArg (·.1) (hB.stop _ _)
    · exact congrArg (·.1) (hB.build _ _)
  have h2 : applyEv B (φ c.builder) (p.ev t.canon) = φ (applyEv B c.builder (p.ev t)) := by
    cases p
    · exact congrArg (·.2) (hB.start _ _)
    · exact congrArg (·.2) (hB.stop _ _)
    · exact congrArg (·.2) (hB.build _ _)
  have h3 := handle_c (B := B) (stop := stop) (φ := φ) () (evAnswer B c.builder (p.ev t))
    { c with builder := applyEv B c.builder (p.ev t), log := c.log ++ [p.ev t] }
  have h4 : Blind.canonEv (p.ev t) = p.ev t.canon := by cases p <;> rfl
  simp only [canoCtx, List.map_append, List.map_cons, List.map_nil, h4] at h3 ⊢
  rw [h1, h2, h3]

omit hd in
theorem runProd_goes (hC : B.Clean) (p : Prod) (t : Token) (c : Ctx MdState σ) : Goes lang d c (runProd ⟨markdown, B, stop⟩ p t c).2 := by
  rw [runProd_eq]
  have h0 : Goes lang d c { c with builder := applyEv B c.builder (p.ev t), log := c.log ++ [p.ev t] } := .same rfl rfl
  exact h0.trans (handle_goes () (fun e he => hC _ _ e he) _)

omit hd in
theorem runProds_c (hB : B.Blind φ) (hC : B.Clean) (ps : List Prod) {t : Token} (ht : t.cano = t.canon) (c : Ctx MdState σ) :
    runProds ⟨markdown, B, stop⟩ ps t.cano (canoCtx φ c) = ((runProds ⟨markdown, B, stop⟩ ps t c).1, canoCtx φ (runProds ⟨markdown, B, stop⟩ ps t c).2) ∧
    Goes lang d c (runProds ⟨markdown, B, stop⟩ ps t c).2 := by
  induction ps generalizing c with
  | nil => exact ⟨rfl, .refl _⟩
  | cons p ps ih =>
    simp only [runProds, runProd_c hB p ht]
    have h1 := runProd_goes (lang := lang) (d := d) (stop := stop) hC p t c
    rcases hr : runProd ⟨markdown, B, stop⟩ p t c with ⟨r, c'⟩
    rw [hr] at h1
    cases r with
    | error x => exact ⟨rfl, h1⟩
    | ok u =>
      obtain ⟨h2, h3⟩ := ih c'
      exact ⟨h2, h1.trans h3⟩

omit hd in
/-- The tokens that are built are not those whose column depends on the line end. -/
theorem built_same {k : Kind} {t t' : Token} {m m' : MdState} (h : Md.matchKind k t m = (.ok true, t', m'))
    (hf : t.line.isEof = false → t.line.isBlank = true → m.matchedFeature = true) : t'.cano = t'.canon := by
  by_cases hend : t'.line.isEof = true
  · exact cano_of_end hend
  cases hb : t'.line.isBlank with
  | false => exact cano_of_ink hb
  | true =>
    have hl : t'.line = t.line := by
      have := markdown_lawful.line k t m
      simp only [markdown, h] at this
      exact this
    have hb' : t.line.isBlank = true := by rw [← hl]; exact hb
    refine cano_of_kind ?_
    have title : ∀ {k k' : Kind} {P : Str → List Md.PrefixMatch} {kws : List Str} {suf : Str} {t0 : Token} {m0 : MdState}, k' ≠ .featureLine → k' ≠ .comment →
        Md.matchTitle k' P kws suf t0 m0 = (.ok true, t', m') → indented t'.type = false := by
      intro k k' P kws suf t0 m0 h1 h2 h
      rw [matchTitle_by] at h
      split at h
      · simp only [Prod.mk.injEq, true_and] at h
        rw [← h.1]
        simp [setMatched, indented, h1, h2]
      · simp at h
    cases k <;> simp only [Md.matchKind] at h
    case eof =>
      unfold Md.matchEof at h
      split at h
      · simp only [Prod.mk.injEq, true_and] at h; rw [← h.1]; rfl
      · simp at h
    case empty =>
      unfold Md.matchEmpty at h
      rcases hx : Md.orElse Md.emptyProbes t m with ⟨r, t1, m1⟩
      rw [hx] at h
      cases r with
      | error e => simp at h
      | ok found =>
        simp only at h
        split at h
        · simp only [Prod.mk.injEq, true_and] at h; rw [← h.1]; rfl
        · simp at h
    case comment =>
      unfold Md.matchComment at h
      simp only at h
      split at h
      · rename_i hs
        rw [not_blank_of_prefix hs (by simp)] at hb'
        simp at hb'
      · simp at h
    case tagLine =>
      unfold Md.matchTagLine at h
      simp only at h
      split at h
      · simp at h
      · simp only [Prod.mk.injEq, true_and] at h; rw [← h.1]; rfl
    case featureLine =>
      unfold Md.matchFeature at h
      rw [if_pos (hf (by rw [← hl]; simpa using hend) hb')] at h
      simp at h
    case ruleLine => exact title (k := .ruleLine) (by decide) (by decide) h
    case backgroundLine => exact title (k := .ruleLine) (by decide) (by decide) h
    case examplesLine => exact title (k := .ruleLine) (by decide) (by decide) h
    case stepLine => exact title (k := .ruleLine) (by decide) (by decide) h
    case scenarioLine =>
      unfold Md.matchScenario at h
      split at h
      · exact title (k := .ruleLine) (by decide) (by decide) h
      · exact title (k := .ruleLine) (by decide) (by decide) h
    case docStringSeparator =>
      have sep : ∀ {s : Str} {o : Bool}, Md.matchSep s o t m = (.ok true, t', m') → indented t'.type = false := by
        intro s o h
        unfold Md.matchSep at h
        split at h
        · split at h <;> (simp only [Prod.mk.injEq, true_and] at h; rw [← h.1]; rfl)
        · simp at h
      unfold Md.matchDocSep at h
      repeat' split at h
      all_goals exact sep h
    case tableRow =>
      unfold Md.matchTableRow at h
      split at h
      · split at h
        · split at h
          · simp at h
          · simp only [Prod.mk.injEq, true_and] at h; rw [← h.1]; rfl
        · simp at h
      · simp at h
    case language => simp [Md.matchLanguage] at h
    case other =>
      unfold Md.matchOther at h
      simp only [Prod.mk.injEq, true_and] at h; rw [← h.1]; rfl

theorem testTrans_c (tr : Trans) (t : Token) {c : Ctx MdState σ} (hG : Inv lang d c) (hF : t.line.isEof = false → t.line.isBlank = true → c.matcher.matchedFeature = true) :
    testTrans ⟨markdown, B, stop⟩ tr t.cano (canoCtx φ c) =
      ((testTrans ⟨markdown, B, stop⟩ tr t c).1, (testTrans ⟨markdown, B, stop⟩ tr t c).2.1.cano, canoCtx φ (testTrans ⟨markdown, B, stop⟩ tr t c).2.2) ∧
    Goes lang d c (testTrans ⟨markdown, B, stop⟩ tr t c).2.2 ∧ (testTrans ⟨markdown, B, stop⟩ tr t c).2.1.line = t.line ∧
    ((testTrans ⟨markdown, B, stop⟩ tr t c).1 = .ok true → (testTrans ⟨markdown, B, stop⟩ tr t c).2.1.cano = (testTrans ⟨markdown, B, stop⟩ tr t c).2.1.canon) := by
  unfold testTrans
  rw [matchTok_c hd tr.kind t hG]
  have h2 := matchTok_goes (B := B) (stop := stop) tr.kind t hG
  have h3 := matchTok_line (cfg := ⟨markdown, B, stop⟩) markdown_lawful tr.kind t c
  rcases hx : matchTok ⟨markdown, B, stop⟩ tr.kind t c with ⟨r, t', c'⟩
  rw [hx] at h2 h3
  replace h2 : Goes lang d c c' := h2
  rcases r with x | _ | _
  · exact ⟨rfl, h2, h3, fun h => by simp at h⟩
  · exact ⟨rfl, h2, h3, fun h => by simp at h⟩
  · have hs : t'.cano = t'.canon := by
      rcases (mdTok_ok hx).2.2 with ⟨_, _, h⟩ | h
      · simp at h
      · exact built_same h hF
    simp only
    cases hla : tr.la with
    | none => exact ⟨rfl, h2, h3, fun _ => hs⟩
    | some la =>
      simp only
      obtain ⟨h4, h5⟩ := lookahead_c hd (φ := φ) (B := B) (stop := stop) la (h2.inv hG)
      rw [h4]
      exact ⟨rfl, h2.trans h5, h3, fun _ => hs⟩

theorem tryTrans_c (hB : B.Blind φ) (hC : B.Clean) : ∀ (rows : List Trans) (t : Token) {c : Ctx MdState σ}, Inv lang d c →
    (t.line.isEof = false → t.line.isBlank = true → c.matcher.matchedFeature = true) →
    tryTrans ⟨markdown, B, stop⟩ rows t.cano (canoCtx φ c) =
      ((tryTrans ⟨markdown, B, stop⟩ rows t c).1, (tryTrans ⟨markdown, B, stop⟩ rows t c).2.1.cano, canoCtx φ (tryTrans ⟨markdown, B, stop⟩ rows t c).2.2) ∧
    Goes lang d c (tryTrans ⟨markdown, B, stop⟩ rows t c).2.2 ∧ (tryTrans ⟨markdown, B, stop⟩ rows t c).2.1.line = t.line
  | [], t, c, _, _ => ⟨rfl, .refl _, rfl⟩
  | tr :: trs, t, c, hG, hF => by
    obtain ⟨h1, h2, h3, h9⟩ := testTrans_c hd (φ := φ) (B := B) (stop := stop) tr t hG hF
    simp only [tryTrans, h1]
    rcases hx : testTrans ⟨markdown, B, stop⟩ tr t c with ⟨r, t', c'⟩
    rw [hx] at h2 h3 h9
    replace h2 : Goes lang d c c' := h2
    replace h3 : t'.line = t.line := h3
    rcases r with x | _ | _
    · exact ⟨rfl, h2, h3⟩
    · obtain ⟨h4, h5, h6⟩ := tryTrans_c hB hC trs t' (h2.inv hG) (fun h0 h => h2.feature (hF (h3 ▸ h0) (h3 ▸ h)))
      exact ⟨h4, h2.trans h5, h6.trans h3⟩
    · simp only
      obtain ⟨h7, h8⟩ := runProds_c (lang := lang) (d := d) (stop := stop) hB hC tr.prods (h9 rfl) c'
      rw [h7]
      rcases hr : runProds ⟨markdown, B, stop⟩ tr.prods t' c' with ⟨y, c2⟩
      rw [hr] at h8
      cases y <;> exact ⟨rfl, h2.trans h8, h3⟩

omit hd in
theorem empty_blank {t : Token} {m : MdState} (hb : t.line.isBlank = true) : ∃ t' m', Md.matchKind .empty t m = (.ok true, t', m') := by
  rcases hx : Md.matchKind .empty t m with ⟨r, t', m'⟩
  rcases r with e | b
  · obtain ⟨_, hr⟩ := Md.matchKind_crash hx
    obtain ⟨ws, a, n, w, hws, _, ha, _, e⟩ := hr
    exfalso
    have h0 : t.line.trimmed = [] := by simpa [Line.isBlank] using hb
    obtain ⟨p, hp, ht, _, _⟩ := trimmed_spec t.line
    rw [h0, List.append_nil] at ht
    cases a with
    | nil => simp at ha
    | cons y ys =>
      have hy : y = '|' := by simpa using ha
      have : isSpace y = true := hp y (by rw [← ht, e]; simp)
      rw [hy] at this
      exact absurd this (by decide)
  · have : b = true := by
      simp only [Md.matchKind, Md.matchEmpty] at hx
      rcases hy : Md.orElse Md.emptyProbes t m with ⟨r, t1, m1⟩
      rw [hy] at hx
      cases r with
      | error e => simp at hx
      | ok f =>
        simp only [hb, Bool.true_or, if_true, Prod.mk.injEq, Except.ok.injEq] at hx
        exact hx.1.symm
    exact ⟨t', m', by rw [this]⟩

omit hd in
/-- Blank lines are never unexpected. -/
theorem blank_ok {q : Nat} {row : StateRow} (hq : table q = some row) {t t' : Token} {c c' : Ctx MdState σ}
    (he : t.line.isEof = false) (h : tryTrans ⟨markdown, B, stop⟩ row.trans t c = (.ok none, t', c')) : t.line.isBlank = false := by
  cases hb : t.line.isBlank with
  | false => rfl
  | true =>
    exfalso
    have h4 := Blind.tryTrans_none (cfg := ⟨markdown, B, stop⟩) markdown_lawful h
    have hr := rows_ok3 q (mem_allStates hq)
    unfold rowOk3 at hr
    rw [hq] at hr
    simp only [Bool.or_eq_true, Bool.and_eq_true, List.any_eq_true, beq_iff_eq] at hr
    have yes : ∀ {k : Kind} {t0 t1 : Token} {c0 c1 : Ctx MdState σ}, k ≠ .eof → t0.line = t.line → (∃ t' m', Md.matchKind k t0 c0.matcher = (.ok true, t', m')) →
        matchTok ⟨markdown, B, stop⟩ k t0 c0 ≠ (.ok false, t1, c1) := by
      intro k t0 t1 c0 c1 hk hl ⟨t', m', hm⟩ hf
      unfold matchTok at hf
      rw [if_neg (by simp [Token.eof, hl, he])] at hf
      simp only [markdown, hm] at hf
      simp [handle] at hf
    rcases hr with ⟨tr, htr, h⟩ | ⟨_, ⟨tr', htr', h'⟩⟩
    · obtain ⟨t0, t1, c0, c1, g1, g2⟩ := h4 tr htr h.2
      rw [h.1] at g2
      exact yes (by simp) g1 ⟨_, _, rfl⟩ g2
    · obtain ⟨t0, t1, c0, c1, g1, g2⟩ := h4 tr' htr' h'.2
      rw [h'.1] at g2
      exact yes (by simp) g1 (empty_blank (by rw [g1]; exact hb)) g2

omit hd in
theorem unexpected_c {ks : List Kind} {t : Token} (h : t.line.isEof = false → t.line.isBlank = false) : unexpected ks t.cano = unexpected ks t := by
  cases he : t.line.isEof with
  | false => rw [cano_of_ink (h he)]; exact Blind.unexpected_c h
  | true =>
    rw [cano_of_end he]
    exact Blind.unexpected_c h

theorem matchToken_c (hB : B.Blind φ) (hC : B.Clean) (q : Nat) (t : Token) {c : Ctx MdState σ} (hG : Inv lang d c)
    (hF : t.line.isEof = false → t.line.isBlank = true → c.matcher.matchedFeature = true) :
    matchToken ⟨markdown, B, stop⟩ q t.cano (canoCtx φ c) = ((matchToken ⟨markdown, B, stop⟩ q t c).1, canoCtx φ (matchToken ⟨markdown, B, stop⟩ q t c).2) ∧
    Goes lang d c (matchToken ⟨markdown, B, stop⟩ q t c).2 := by
  unfold matchToken
  cases hq : table q with
  | none => exact ⟨rfl, .refl _⟩
  | some row =>
    simp only
    obtain ⟨h1, h2, h3⟩ := tryTrans_c hd (stop := stop) hB hC row.trans t hG hF
    rw [h1]
    rcases hr : tryTrans ⟨markdown, B, stop⟩ row.trans t c with ⟨r, t', c'⟩
    rw [hr] at h2 h3
    replace h2 : Goes lang d c c' := h2
    replace h3 : t'.line = t.line := h3
    cases r with
    | error x => exact ⟨rfl, h2⟩
    | ok o =>
      cases o with
      | some q' => exact ⟨rfl, h2⟩
      | none =>
        simp only
        rw [unexpected_c (by rw [h3]; exact fun he => blank_ok hq he hr)]
        split
        · exact ⟨rfl, h2⟩
        · rw [addError_c]
          have hg := addError_goes (lang := lang) (d := d) (e := unexpected row.expected t') (by
            unfold unexpected; split <;> rfl) c'
          rcases hx : addError (unexpected row.expected t') c' with ⟨x, c2⟩
          rw [hx] at hg
          cases x <;> exact ⟨rfl, h2.trans hg⟩

omit hd in
theorem tok_run {k : Kind} {t t1 : Token} {c : Ctx MdState σ} {m1 : MdState} {b : Bool} (he : t.eof = false)
    (h : Md.matchKind k t c.matcher = (.ok b, t1, m1)) :
    ∃ c1, matchTok ⟨markdown, B, stop⟩ k t c = (.ok b, t1, c1) ∧ c1.matcher = m1 ∧ c1.queue = c.queue ∧ c1.scanner = c.scanner := by
  unfold matchTok
  rw [if_neg (by simp [he])]
  simp only [markdown, h, handle]
  exact ⟨_, rfl, rfl, rfl, rfl⟩

omit hd in
theorem try_yes {tr : Trans} {trs : List Trans} {t t1 : Token} {c c1 : Ctx MdState σ} (hla : tr.la = none)
    (h : matchTok ⟨markdown, B, stop⟩ tr.kind t c = (.ok true, t1, c1)) :
    ∀ q t' c', tryTrans ⟨markdown, B, stop⟩ (tr :: trs) t c = (.ok q, t', c') → q = some tr.target ∧ c'.matcher = c1.matcher ∧ c'.queue = c1.queue ∧ c'.scanner = c1.scanner := by
  rw [tryTrans]
  simp only [testTrans, h, hla]
  have hf := runProds_frame (cfg := ⟨markdown, B, stop⟩) tr.prods t1 c1
  rcases hr : runProds ⟨markdown, B, stop⟩ tr.prods t1 c1 with ⟨r, c2⟩
  rw [hr] at hf
  rcases r with x | u
  · exact by simp
  · intro q t' c' h
    simp only [Prod.mk.injEq, Except.ok.injEq] at h
    obtain ⟨rfl, rfl, rfl⟩ := h
    exact ⟨rfl, hf.2.2, hf.2.1, hf.1⟩

/-- What a line before the feature line does. -/
def Led (t : Token) (c : Ctx MdState σ) (q : Nat) (c' : Ctx MdState σ) : Prop :=
  c'.matcher.matchedFeature = true ∨
    (q ≤ 2 ∧ c'.matcher.matchedFeature = false ∧ (Md.findTags t.line.lineText 0 0).isEmpty = false ∧ c'.queue = c.queue ∧ c'.scanner = c.scanner)

omit hd in
theorem led_two {p1 p2 : List Prod} {trs : List Trans} {t : Token} {c : Ctx MdState σ} (he : t.eof = false)
    (hm : c.matcher.matchedFeature = false) :
    ∀ q t' c', tryTrans ⟨markdown, B, stop⟩ (⟨.tagLine, none, p1, 2⟩ :: ⟨.featureLine, none, p2, 3⟩ :: trs) t c = (.ok q, t', c') →
      ∃ q', q = some q' ∧ Led t c q' c' := by
  have htag := Md.tag_state t c.matcher
  have hline := markdown_lawful.line .tagLine t c.matcher
  simp only [markdown] at hline
  rcases hx : Md.matchKind .tagLine t c.matcher with ⟨r, t1, m1⟩
  rw [show Md.matchTagLine t c.matcher = (r, t1, m1) from hx] at htag
  rw [hx] at hline
  simp only at htag hline
  obtain ⟨rfl, rfl⟩ := htag
  obtain ⟨c1, h1, h2, h2q, h2s⟩ := tok_run (B := B) (stop := stop) he hx
  cases hb : !(Md.findTags t.line.lineText 0 0).isEmpty with
  | true =>
    rw [hb] at h1
    intro q t' c' h
    obtain ⟨rfl, h3, h4, h5⟩ := try_yes (tr := ⟨.tagLine, none, p1, 2⟩) (trs := ⟨.featureLine, none, p2, 3⟩ :: trs) rfl h1 q t' c' h
    exact ⟨2, rfl, .inr ⟨by simp, by rw [h3, h2]; exact hm, by simpa using hb, h4.trans h2q, h5.trans h2s⟩⟩
  | false =>
    rw [hb] at h1
    rw [tryTrans_no (tr := ⟨.tagLine, none, p1, 2⟩) h1]
    have hf : ∃ t2 m2, Md.matchKind .featureLine t1 c1.matcher = (.ok true, t2, m2) ∧ m2.matchedFeature = true := by
      simp only [Md.matchKind, Md.matchFeature]
      rw [if_neg (by rw [h2, hm]; simp)]
      split
      · exact ⟨_, _, rfl, rfl⟩
      · exact ⟨_, _, rfl, rfl⟩
    obtain ⟨t2, m2, hf, hf2⟩ := hf
    obtain ⟨c2, h3, h4, _, _⟩ := tok_run (B := B) (stop := stop) (t := t1) (by rw [Token.eof, hline]; exact he) hf
    intro q t' c' h
    obtain ⟨rfl, h5, _, _⟩ := try_yes (tr := ⟨.featureLine, none, p2, 3⟩) (trs := trs) rfl h3 q t' c' h
    exact ⟨3, rfl, .inl (by rw [h5, h4]; exact hf2)⟩

omit hd in
theorem led_first {q : Nat} (hq : q ≤ 2) {t : Token} {c : Ctx MdState σ} (he : t.eof = false) (hm : c.matcher.matchedFeature = false) :
    ∀ q' c', matchToken ⟨markdown, B, stop⟩ q t c = (.ok q', c') → Led t c q' c' := by
  have key : ∀ row, table q = some row →
      (∀ q t' c', tryTrans ⟨markdown, B, stop⟩ row.trans t c = (.ok q, t', c') → ∃ q', q = some q' ∧ Led t c q' c') →
        ∀ q' c', matchToken ⟨markdown, B, stop⟩ q t c = (.ok q', c') → Led t c q' c' := by
    intro row hrow h2 q' c' h
    simp only [matchToken, hrow] at h
    rcases hx : tryTrans ⟨markdown, B, stop⟩ row.trans t c with ⟨r, t', c1⟩
    rw [hx] at h h2
    rcases r with x | _ | q1
    · simp at h
    · obtain ⟨_, h3, _⟩ := h2 _ _ _ rfl
      simp at h3
    · simp only [Prod.mk.injEq, Except.ok.injEq] at h
      obtain ⟨rfl, rfl⟩ := h
      obtain ⟨_, h3, h4⟩ := h2 _ _ _ rfl
      cases h3
      exact h4
  match q, hq with
  | 0, _ =>
    refine key _ rfl ?_
    obtain ⟨c1, h1, h2, h2q, h2s⟩ := tok_run (B := B) (stop := stop) (k := .eof) (t := t) (c := c) (t1 := t) (m1 := c.matcher) (b := false) he
      (by simp [Md.matchKind, Md.matchEof, he])
    obtain ⟨c2, h3, h4, h4q, h4s⟩ := tok_run (B := B) (stop := stop) (k := .language) (t := t) (c := c1) (t1 := t) (m1 := c1.matcher) (b := false) he
      (by simp [Md.matchKind, Md.matchLanguage])
    rw [state0]
    simp only
    rw [tryTrans_no h1, tryTrans_no h3]
    intro q t' c' h
    obtain ⟨q', rfl, h5⟩ := led_two he (by rw [h4, h2]; exact hm) q t' c' h
    refine ⟨q', rfl, ?_⟩
    rcases h5 with h5 | ⟨a1, a2, a3, a4, a5⟩
    · exact .inl h5
    · exact .inr ⟨a1, a2, a3, a4.trans (h4q.trans h2q), a5.trans (h4s.trans h2s)⟩
  | 1, _ => exact key _ rfl (led_two he hm)
  | 2, _ => exact key _ rfl (led_two he hm)

/-- The first line without tags is not blank. -/
def Lead (lines : List Str) : Prop :=
  ∀ pre s post, lines = pre ++ s :: post → (∀ x ∈ pre, (Md.findTags (Line.mk x 0).lineText 0 0).isEmpty = false) → (Line.mk s 0).isBlank = false

theorem parseLoop_c (hB : B.Blind φ) (hC : B.Clean) : ∀ (fuel q : Nat) {c : Ctx MdState σ}, Inv lang d c →
    (c.matcher.matchedFeature = true ∨ (q ≤ 2 ∧ c.matcher.matchedFeature = false ∧ c.queue = [] ∧ Lead c.scanner.lines)) →
    parseLoop ⟨markdown, B, stop⟩ fuel q (canoCtx φ c) = ((parseLoop ⟨markdown, B, stop⟩ fuel q c).1, canoCtx φ (parseLoop ⟨markdown, B, stop⟩ fuel q c).2) := by
  intro fuel
  induction fuel with
  | zero => intro q c _ _; rfl
  | succ fuel ih =>
    intro q c hG hL
    obtain ⟨r1, r2, r3⟩ := readToken_c (φ := φ) c
    simp only [parseLoop, r1]
    have hread : c.queue = [] → (∃ l ls n, c.scanner.lines = l :: ls ∧ (readToken c).1.line = ⟨l, n⟩ ∧ (readToken c).2.queue = [] ∧ (readToken c).2.scanner.lines = ls) ∨
        (readToken c).1.line.isEof = true := by
      intro hq
      rcases c with ⟨⟨lines, n⟩, m, q, es, b, log⟩
      simp only at hq
      subst hq
      cases lines with
      | nil => exact .inr rfl
      | cons l ls => exact .inl ⟨l, ls, _, rfl, rfl, rfl, rfl⟩
    rcases hr : readToken c with ⟨t, c1⟩
    rw [hr] at r2 r3 hread
    simp only at hread
    have g1 : Goes lang d c { c1 with log := c1.log ++ [.take t.line] } := .same r2 r3
    have h0 : ({ canoCtx φ c1 with log := (canoCtx φ c1).log ++ [.take t.cano.line] } : Ctx MdState σ) =
        canoCtx φ ({ c1 with log := c1.log ++ [.take t.line] } : Ctx MdState σ) := by
      simp [canoCtx, Blind.canonEv, cano_line]
    have hF : t.line.isEof = false → t.line.isBlank = true → c.matcher.matchedFeature = true := by
      intro he hb
      rcases hL with h | ⟨_, _, hq, hl⟩
      · exact h
      · rcases hread hq with ⟨l, ls, n, e1, e2, _, _⟩ | h
        · have : (Line.mk l 0).isBlank = false := hl [] l ls e1 (by simp)
          rw [e2] at hb
          exact absurd (show (Line.mk l 0).isBlank = true from hb) (by rw [this]; simp)
        · rw [he] at h; simp at h
    obtain ⟨h1, h2⟩ := matchToken_c hd (stop := stop) hB hC q t (g1.inv hG) (fun a b => g1.feature (hF a b))
    simp only [h0, h1, cano_eof]
    have hled : c.matcher.matchedFeature = false → q ≤ 2 → t.eof = false → ∀ q' c',
        matchToken ⟨markdown, B, stop⟩ q t { c1 with log := c1.log ++ [.take t.line] } = (.ok q', c') → Led t { c1 with log := c1.log ++ [.take t.line] } q' c' := by
      intro a1 a2 a3
      exact led_first a2 a3 (by rw [show ({ c1 with log := c1.log ++ [.take t.line] } : Ctx MdState σ).matcher = c.matcher from r2]; exact a1)
    rcases hx : matchToken ⟨markdown, B, stop⟩ q t { c1 with log := c1.log ++ [.take t.line] } with ⟨r, c2⟩
    rw [hx] at h2
    replace h2 : Goes lang d c c2 := g1.trans h2
    cases r with
    | error x => rfl
    | ok q' =>
      simp only
      split
      · rfl
      · rename_i he
        refine ih q' (h2.inv hG) ?_
        rcases hL with h | ⟨hq2, hm, hq, hl⟩
        · exact .inl (h2.feature h)
        · rcases hread hq with ⟨l, ls, n, e1, e2, e3, e4⟩ | h
          · rcases hled hm hq2 (by simpa using he) q' c2 hx with a | ⟨a1, a2, a3, a4, a5⟩
            · exact .inl a
            · refine .inr ⟨a1, a2, a4.trans e3, ?_⟩
              rw [a5]
              show Lead c1.scanner.lines
              rw [e4]
              intro pre s post hs hp
              refine hl (l :: pre) s post (by rw [e1, hs]; rfl) fun x hx => ?_
              rcases List.mem_cons.1 hx with rfl | hx
              · rw [e2] at a3; exact a3
              · exact hp x hx
          · exact absurd h (by simpa [Token.eof] using he)

omit hd in
theorem parse_of_loop (hB : B.Blind φ) {text text' : Str} (ht : splitLines text' = (splitLines text).map Blind.canonText) {m : MdState} {b : σ}
    (hloop : ∀ c1, runProd ⟨markdown, B, stop⟩ (.start .gherkinDocument) (Token.fresh ⟨[], 0⟩) (Ctx.init ⟨markdown, B, stop⟩ text m b) = (.ok (), c1) →
      parseLoop ⟨markdown, B, stop⟩ (c1.scanner.lines.length + 1) 0 (canoCtx φ c1) =
        ((parseLoop ⟨markdown, B, stop⟩ (c1.scanner.lines.length + 1) 0 c1).1, canoCtx φ (parseLoop ⟨markdown, B, stop⟩ (c1.scanner.lines.length + 1) 0 c1).2)) :
    parse ⟨markdown, B, stop⟩ text' m b = ((parse ⟨markdown, B, stop⟩ text m b).1, canoCtx φ (parse ⟨markdown, B, stop⟩ text m b).2) := by
  have hc : Ctx.init ⟨markdown, B, stop⟩ text' m b = canoCtx φ (Ctx.init ⟨markdown, B, stop⟩ text m b) := by
    simp [canoCtx, Ctx.init, Scanner.ofStr, hB.reset, ht]
  have e1 : (Token.fresh ⟨[], 0⟩).cano = (Token.fresh ⟨[], 0⟩).canon := cano_of_end rfl
  have e0 : Token.fresh ⟨[], 0⟩ = (Token.fresh ⟨[], 0⟩).cano := by rw [e1]; rfl
  have hrun : ∀ p c, runProd ⟨markdown, B, stop⟩ p (Token.fresh ⟨[], 0⟩) (canoCtx φ c) = ((runProd ⟨markdown, B, stop⟩ p (Token.fresh ⟨[], 0⟩) c).1,
      canoCtx φ (runProd ⟨markdown, B, stop⟩ p (Token.fresh ⟨[], 0⟩) c).2) := by
    intro p c
    have := runProd_c (stop := stop) hB p e1 c
    rw [← e0] at this
    exact this
  unfold parse
  rw [hc, hrun]
  rcases hr : runProd ⟨markdown, B, stop⟩ (.start .gherkinDocument) (Token.fresh ⟨[], 0⟩) (Ctx.init ⟨markdown, B, stop⟩ text m b) with ⟨r, c1⟩
  cases r with
  | error x => rfl
  | ok u =>
    simp only
    have hl := hloop c1 hr
    rw [show (canoCtx φ c1).scanner.lines.length = c1.scanner.lines.length by simp [canoCtx], hl]
    rcases parseLoop ⟨markdown, B, stop⟩ (c1.scanner.lines.length + 1) 0 c1 with ⟨r, c2⟩
    cases r with
    | error x => rfl
    | ok u =>
      simp only
      rw [hrun]
      rcases runProd ⟨markdown, B, stop⟩ (.stop .gherkinDocument) (Token.fresh ⟨[], 0⟩) c2 with ⟨r, c3⟩
      cases r with
      | error x => rfl
      | ok u =>
        simp only
        rw [show (canoCtx φ c3).errors = c3.errors from rfl, show (canoCtx φ c3).builder = φ c3.builder from rfl, hB.result]
        split
        · rfl
        · rcases B.result c3.builder with e | r
          · cases e <;> rfl
          · rfl

/-- The outcome, and the builder up to line ends, depend on the lines without their line ends only. -/
theorem parse_chomped (hB : B.Blind φ) (hC : B.Clean) {s t : Str} (h : (splitLines s).map rstripEol = (splitLines t).map rstripEol)
    (hs : Lead (splitLines s)) (ht : Lead (splitLines t)) {m : MdState} (hm : Md.Fenced lang d (Md.reset m)) (b : σ) :
    (parse ⟨markdown, B, stop⟩ s m b).1 = (parse ⟨markdown, B, stop⟩ t m b).1 ∧
    φ (parse ⟨markdown, B, stop⟩ s m b).2.builder = φ (parse ⟨markdown, B, stop⟩ t m b).2.builder := by
  have key : ∀ u : Str, Lead (splitLines u) → parse ⟨markdown, B, stop⟩ ((splitLines u).map Blind.canonText).flatten m b =
      ((parse ⟨markdown, B, stop⟩ u m b).1, canoCtx φ (parse ⟨markdown, B, stop⟩ u m b).2) := by
    intro u hu
    refine parse_of_loop hB (Blind.split_canon u) fun c1 hc1 => ?_
    have hg := runProd_goes (lang := lang) (d := d) (stop := stop) hC (.start .gherkinDocument) (Token.fresh ⟨[], 0⟩) (Ctx.init ⟨markdown, B, stop⟩ u m b)
    have hf := runProd_frame (cfg := ⟨markdown, B, stop⟩) (.start .gherkinDocument) (Token.fresh ⟨[], 0⟩) (Ctx.init ⟨markdown, B, stop⟩ u m b)
    rw [hc1] at hg hf
    have h0 : Inv lang d (Ctx.init ⟨markdown, B, stop⟩ u m b) := ⟨hm, by intro e he; simp [Ctx.init] at he⟩
    refine parseLoop_c hd hB hC _ _ (hg.inv h0) (.inr ⟨by simp, ?_, ?_, ?_⟩)
    · rw [hf.2.2]; rfl
    · rw [hf.2.1]; rfl
    · rw [hf.1]; exact hu
  have hst : ((splitLines s).map Blind.canonText).flatten = ((splitLines t).map Blind.canonText).flatten := by
    have e : ∀ u : Str, (splitLines u).map Blind.canonText = ((splitLines u).map rstripEol).map (· ++ ['\n']) := by
      intro u
      rw [List.map_map]
      refine List.map_congr_left fun x hx => ?_
      simp [Blind.canonText, Blind.splitLines_ne u x hx]
    rw [e, e, h]
  have h1 := key s hs
  have h2 := key t ht
  rw [hst, h2] at h1
  simp only [Prod.mk.injEq] at h1
  exact ⟨h1.1.symm, (congrArg Ctx.builder h1.2).symm⟩

end MdBlind

end Gherkin
