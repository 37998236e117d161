import Verif.Proofs.FileText
import Verif.Props.Stream
import Verif.Proofs.Classify
import Verif.Proofs.LangFail

namespace Gherkin

variable {σ ρ : Type}

theorem defaultMatcher_valid : defaultMatcher.Valid := ⟨by decide +kernel, by decide +kernel⟩

/-- Sources with the same address and the same lines up to line ends. -/
def SameSource (s s' : SourceFile) : Prop := s.uri = s'.uri ∧ (splitLines s.data).map rstripEol = (splitLines s'.data).map rstripEol

theorem parseDefault_same {b b' : BState} (hb : b.nextId = b'.nextId) {x y : Str} (h : (splitLines x).map rstripEol = (splitLines y).map rstripEol) :
    (parseDefault b x).1 = (parseDefault b' y).1 ∧ (parseDefault b x).2.nextId = (parseDefault b' y).2.nextId := by
  have h0 : parse ⟨classic, astBuilder, false⟩ x defaultMatcher b = parse ⟨classic, astBuilder, false⟩ x defaultMatcher b' := by
    unfold parse
    have : Ctx.init (⟨classic, astBuilder, false⟩ : Config CState BState (Option Document)) x defaultMatcher b =
        Ctx.init ⟨classic, astBuilder, false⟩ x defaultMatcher b' := by
      simp [Ctx.init, astBuilder, AstB.reset, hb]
    rw [this]
  obtain ⟨h1, h2⟩ := classic_chomped astBuilder_blind false h defaultMatcher_valid b'
  unfold parseDefault
  rw [h0]
  have h3 : BState.nextId _ = BState.nextId _ := congrArg BState.nextId h2
  exact ⟨h1, h3⟩

theorem enum_same (eng : Engine) {opt : StreamOptions} (ho : opt.printSource = false) {s s' : SourceFile} (h : SameSource s s') {b b' : BState}
    (hb : b.nextId = b'.nextId) : (enumEvents eng opt s b).1 = (enumEvents eng opt s' b').1 ∧
      (enumEvents eng opt s b).2.1 = (enumEvents eng opt s' b').2.1 ∧ (enumEvents eng opt s b).2.2.nextId = (enumEvents eng opt s' b').2.2.nextId := by
  obtain ⟨h1, h2⟩ := parseDefault_same hb h.2
  unfold enumEvents
  rw [h.1]
  rcases hp : parseDefault b s.data with ⟨r, b1⟩
  rcases hp' : parseDefault b' s'.data with ⟨r', b1'⟩
  rw [hp, hp'] at h1 h2
  simp only at h1 h2
  subst h1
  rcases r with (es | e | c | _) | _ | d
  · exact ⟨rfl, rfl, h2⟩
  · exact ⟨rfl, rfl, h2⟩
  · exact ⟨rfl, rfl, h2⟩
  · exact ⟨rfl, rfl, h2⟩
  · exact ⟨rfl, rfl, h2⟩
  · simp only [ho, h2]
    by_cases hk : opt.printPickles = true
    · simp only [hk, if_true]
      cases Pickles.compile eng s'.uri d b1'.nextId with
      | error c => exact ⟨rfl, rfl, h2⟩
      | ok p => exact ⟨rfl, rfl, rfl⟩
    · simp only [hk]; exact ⟨rfl, rfl, h2⟩

theorem stream_same (eng : Engine) {opt : StreamOptions} (ho : opt.printSource = false) {ss ss' : List SourceFile} (h : List.Forall₂ SameSource ss ss') :
    ∀ {b b' : BState}, b.nextId = b'.nextId → (streamFrom eng opt ss b).1 = (streamFrom eng opt ss' b').1 ∧
      (streamFrom eng opt ss b).2.1 = (streamFrom eng opt ss' b').2.1 := by
  induction h with
  | nil => intro b b' _; exact ⟨rfl, rfl⟩
  | @cons s s' ss ss' hs _ ih =>
    intro b b' hb
    obtain ⟨h1, h2, h3⟩ := enum_same eng ho hs hb
    simp only [streamFrom]
    rcases he : enumEvents eng opt s b with ⟨evs, c, b1⟩
    rcases he' : enumEvents eng opt s' b' with ⟨evs', c', b1'⟩
    rw [he, he'] at h1 h2 h3
    simp only at h1 h2 h3
    subst h1 h2
    cases c with
    | some c => exact ⟨rfl, rfl⟩
    | none =>
      obtain ⟨h4, h5⟩ := ih h3
      simp only
      exact ⟨by rw [h4], h5⟩

theorem main_same (eng : Engine) {opt : StreamOptions} (ho : opt.printSource = false) {ss ss' : List SourceFile} (h : List.Forall₂ SameSource ss ss') :
    mainProgram eng opt ss = mainProgram eng opt ss' := by
  obtain ⟨h1, h2⟩ := stream_same eng ho h (b := newBuilder) rfl
  unfold mainProgram stream
  rcases hx : streamFrom eng opt ss newBuilder with ⟨e1, c1, _⟩
  rcases hy : streamFrom eng opt ss' newBuilder with ⟨e2, c2, _⟩
  rw [hx, hy] at h1 h2
  simp only at h1 h2
  rw [h1, h2]

/-! ### A first line that begins with a byte order mark -/

theorem splitLines_cons_head {c : Char} (hc : c ≠ '\n') (t : Str) : ∃ l ls, splitLines (c :: t) = (c :: l) :: ls := by
  simp only [splitLines, beq_iff_eq, hc, if_false]
  cases splitLines t with
  | nil => exact ⟨[], [], rfl⟩
  | cons l ls => exact ⟨l, ls, rfl⟩

def noBom (d : Dialect) : Bool :=
  (d.feature ++ d.rule ++ d.background ++ d.scenario ++ d.scenarioOutline ++ d.examples ++ d.stepKeywords).all fun k => k.head? != some bom && k != []

theorem dialects_noBom : dialects.all (fun p => noBom p.2) = true := by decide +kernel

theorem Dialect.Known.noBom {d : Dialect} (h : d.Known) : Gherkin.noBom d = true := by
  obtain ⟨name, h⟩ := h
  exact List.all_eq_true.1 dialects_noBom _ (lookup_mem h)

/-- No transition from the first state takes a line that begins with a byte order mark. -/
theorem try_bom {B : Builder σ ρ} (stop : Bool) (l : Str) (n : Nat) {c : Ctx CState σ} (hc : c.errors = []) (hm : c.matcher.dialect.Known) :
    tryTrans ⟨classic, B, stop⟩ state0.trans (Token.fresh ⟨bom :: l, n⟩) c = (.ok none, Token.fresh ⟨bom :: l, n⟩, c) := by
  have ht : (⟨bom :: l, n⟩ : Line).trimmed = bom :: l := by simp [Line.trimmed, lstrip, lstripBy, show isSpace bom = false by decide]
  have hf : c.matcher.dialect.feature.find? (fun kw => (⟨bom :: l, n⟩ : Line).startsWithTitle kw) = none := by
    rw [List.find?_eq_none]
    intro kw hk hs
    have h1 := hm.noBom
    unfold noBom at h1
    have h2 := List.all_eq_true.1 h1 kw (by simp [hk])
    cases kw with
    | nil => simp at h2
    | cons k ks =>
      simp only [Line.startsWithTitle, ht, startsWith, List.cons_append, List.isPrefixOf, Bool.and_eq_true, beq_iff_eq] at hs
      simp [hs.1] at h2
  have hl : Classic.languageName (bom :: l) = none := by
    cases hx : Classic.languageName (bom :: l) with
    | none => rfl
    | some nm =>
      exfalso
      obtain ⟨a, b, h1, h2⟩ := header_comment (languageName_iff.1 hx)
      cases a with
      | nil => simp [bom] at h2
      | cons x xs =>
        simp only [List.cons_append, List.cons.injEq] at h2
        have := h1 x (by simp)
        rw [← h2.1] at this
        simp [show isSpace bom = false by decide] at this
  have hs : syncErrors (Token.fresh ⟨bom :: l, n⟩) c.errors = c.errors := by rw [hc]; rfl
  have hsp : ∀ x : Char, x ≠ bom → startsWith (bom :: l) [x] = false := by
    intro x hx
    simp [startsWith, List.isPrefixOf, hx]
  have e : ∀ k ∈ [Kind.eof, .language, .tagLine, .featureLine, .comment, .empty],
      matchTok (⟨classic, B, stop⟩ : Config CState σ ρ) k (Token.fresh ⟨bom :: l, n⟩) c = (.ok false, Token.fresh ⟨bom :: l, n⟩, c) := by
    intro k hk
    have : Classic.matchKind k (Token.fresh ⟨bom :: l, n⟩) c.matcher = (.ok false, Token.fresh ⟨bom :: l, n⟩, c.matcher) := by
      have hline : (Token.fresh ⟨bom :: l, n⟩).line = ⟨bom :: l, n⟩ := rfl
      simp only [List.mem_cons, List.not_mem_nil, or_false] at hk
      rcases hk with rfl | rfl | rfl | rfl | rfl | rfl
      · simp [Classic.matchKind, Classic.matchEof, Token.eof, hline, Line.isEof]
      · simp [Classic.matchKind, Classic.matchLanguage, hline, Line.lineText, ht, hl]
      · simp [Classic.matchKind, Classic.matchTagLine, hline, Line.startsWith, ht, hsp '@' (by decide)]
      · simp [Classic.matchKind, Classic.matchTitle, hline, hf]
      · simp [Classic.matchKind, Classic.matchComment, hline, Line.startsWith, ht, hsp '#' (by decide)]
      · simp [Classic.matchKind, Classic.matchEmpty, hline, Line.isBlank, ht]
    simp only [matchTok, classic, this, handle, hs]
    split <;> rfl
  simp only [state0, tryTrans, testTrans, e _ (List.mem_cons_self ..), e .language (by simp), e .tagLine (by simp), e .featureLine (by simp),
    e .comment (by simp), e .empty (by simp)]

theorem loop_bom {B : Builder σ ρ} (l : Str) (ls : List Str) (fuel : Nat) {c : Ctx CState σ} (hs : c.scanner = ⟨(bom :: l) :: ls, 0⟩) (hq : c.queue = [])
    (hc : c.errors = []) (hm : c.matcher.dialect.Known) :
    (parseLoop ⟨classic, B, true⟩ (fuel + 1) 0 c).1 = .error (.single (Err.mkUnexpectedToken (Token.fresh ⟨bom :: l, 1⟩) state0.expected)) := by
  rw [parseLoop]
  simp only [readToken, hq, Scanner.read, hs, matchToken, show table 0 = some state0 from rfl]
  rw [try_bom (B := B) (c := ⟨⟨ls, 0 + 1⟩, c.matcher, [], c.errors, c.builder, _⟩) true l (0 + 1) hc hm]
  simp [unexpected, Token.eof, Token.fresh, Line.isEof]

theorem parse_bom (text : Str) {m : CState} (hm : m.Valid) (b : BState) : ∃ l ls, splitLines (bom :: text) = (bom :: l) :: ls ∧
    (parse ⟨classic, astBuilder, true⟩ (bom :: text) m b).1 =
      .error (.single (Err.mkUnexpectedToken (Token.fresh ⟨bom :: l, 1⟩) state0.expected)) := by
  obtain ⟨l, ls, hs⟩ := splitLines_cons_head (c := bom) (by decide) text
  refine ⟨l, ls, hs, ?_⟩
  have hv := (Classic.reset_valid hm).known
  have h0 : ∃ c, runProd (⟨classic, astBuilder, true⟩ : Config CState BState (Option Document)) (.start .gherkinDocument) (Token.fresh ⟨[], 0⟩)
      (Ctx.init ⟨classic, astBuilder, true⟩ (bom :: text) m b) = (.ok (), c) ∧ c.scanner = ⟨(bom :: l) :: ls, 0⟩ ∧ c.queue = [] ∧ c.errors = [] ∧
      c.matcher = Classic.reset m := ⟨_, rfl, by simp [Ctx.init, Scanner.ofStr, hs], rfl, rfl, rfl⟩
  obtain ⟨c, h1, h2, h3, h4, h5⟩ := h0
  have := loop_bom (B := astBuilder) l ls (ls.length + 1) h2 h3 h4 (by rw [h5]; exact hv)
  unfold parse
  rw [h1]
  simp only [h2, List.length_cons]
  rcases hx : parseLoop (⟨classic, astBuilder, true⟩ : Config CState BState (Option Document)) (ls.length + 1 + 1) 0 c with ⟨r, c'⟩
  rw [hx] at this
  simp only at this
  subst this
  rfl

end Gherkin
