import Verif.Proofs.AllLines
import Verif.Proofs.MdOrder
import Verif.Proofs.MdQuote

/-! The Markdown matcher is safe for tag lines: what `AllLines` asks of a matcher. -/

namespace Gherkin

namespace Md

/-- The kinds `match_Empty` asks for. -/
def probeKinds : List Kind :=
  [.tagLine, .featureLine, .scenarioLine, .backgroundLine, .examplesLine, .ruleLine, .tableRow, .comment, .language, .docStringSeparator, .eof, .stepLine]

theorem probes_eq : emptyProbes = probeKinds.map matchKind := rfl

theorem orElse_no {P : MdState → Prop} (hP : ∀ k t m, P m → P (matchKind k t m).2.2) {ks : List Kind} : ∀ {t : Token} {m : MdState}, P m →
    (orElse (ks.map matchKind) t m).1 = .ok false → ∀ k ∈ ks, ∃ t' m', t'.line = t.line ∧ P m' ∧ (matchKind k t' m').1 = .ok false := by
  induction ks with
  | nil => intro t m _ _ k hk; simp at hk
  | cons k ks ih =>
    intro t m hm h k' hk'
    simp only [List.map_cons, orElse] at h
    have h1 := hP k t m hm
    have hl := markdown_lawful.line k t m
    simp only [markdown] at hl
    rcases hx : matchKind k t m with ⟨r, t1, m1⟩
    rw [hx] at h h1 hl
    simp only at h1 hl
    rcases r with e | b
    · simp at h
    · cases b with
      | true => simp at h
      | false =>
        simp only at h
        rcases List.mem_cons.1 hk' with rfl | hk'
        · exact ⟨t, m, rfl, hm, by rw [hx]⟩
        · obtain ⟨t', m', i1, i2, i3⟩ := ih h1 h k' hk'
          exact ⟨t', m', i1.trans hl, i2, i3⟩

/-- Lines with tags in back quotes. -/
def tagged (l : Line) : Bool := !(findTags l.lineText 0 0).isEmpty

/-- Lines that are no heading of a scenario, an examples block or a rule. -/
def noHead (d : Dialect) (l : Line) : Prop := ∀ ks, ks = d.scenario ∨ ks = d.scenarioOutline ∨ ks = d.examples ∨ ks = d.rule →
  searchTitle (headerPrefix l.lineText) ks [':'] = none

theorem headerPrefix_nil {s : Str} (h : s.head? ≠ some '#') : headerPrefix s = [] := by
  unfold headerPrefix
  cases s with
  | nil => rfl
  | cons c s =>
    have : (c == '#') = false := by simpa using h
    simp [this, List.takeWhile_cons]

theorem noHead_hash {d : Dialect} {l : Line} (h : l.lineText.head? ≠ some '#') : noHead d l := by
  intro ks _
  rw [headerPrefix_nil h]; rfl

end Md

section
variable {σ ρ : Type} {B : Builder σ ρ} {stop : Bool} {lang : Str} {d : Dialect}

theorem md_tagSafe : TagSafe ⟨markdown, B, stop⟩ (Md.Speaks lang d) Md.tagged (fun l => Md.tagged l = true ∨ Md.noHead d l) where
  lawful := markdown_lawful
  keep k t m h := speaks_keep k t m h
  tag {t t' c c' b} he h := by
    have := (md_matchTok (by decide) he h).1
    rw [show Md.matchKind .tagLine t c.matcher = Md.matchTagLine t c.matcher from rfl, (Md.tag_state _ _).2] at this
    simpa [Md.tagged] using this.symm
  skip {t t' c c'} hp he h := by
    unfold skipKinds matchAny at h
    rcases h1 : matchTok ⟨markdown, B, stop⟩ .empty t c with ⟨r, t1, c1⟩
    rw [h1] at h
    rcases r with x | b
    · simp at h
    · obtain ⟨e1, e2, e3⟩ := md_matchTok (by decide) he h1
      cases b with
      | true =>
        right
        simp only [Md.matchKind, Md.matchEmpty] at e1
        rcases hx : Md.orElse Md.emptyProbes t c.matcher with ⟨r, t2, m2⟩
        rw [hx] at e1
        rcases r with x | b
        · simp at e1
        · cases hb : t.line.isBlank with
          | true =>
            refine Md.noHead_hash ?_
            simp only [Line.isBlank, List.isEmpty_iff] at hb
            simp [Line.lineText, hb]
          | false =>
            have hbf : b = false := by
              cases b with
              | false => rfl
              | true => simp [hb] at e1
            subst hbf
            rw [Md.probes_eq] at hx
            have hall := Md.orElse_no (P := Md.Speaks lang d) speaks_keep hp (by rw [hx])
            intro ks hks
            have hsc := hall .scenarioLine (by decide)
            obtain ⟨t', m', i1, i2, i3⟩ := hsc
            rw [show Md.matchKind .scenarioLine t' m' = Md.matchScenario t' m' from rfl, (Md.scenario_state _ _).2, i1, i2.2] at i3
            simp only [Except.ok.injEq, Bool.or_eq_false_iff, Option.isSome_eq_false_iff, Option.isNone_iff_eq_none] at i3
            rcases hks with rfl | rfl | rfl | rfl
            · exact i3.1
            · exact i3.2
            · obtain ⟨t', m', i1, i2, i3⟩ := hall .examplesLine (by decide)
              rw [show Md.matchKind .examplesLine t' m' = Md.matchTitle .examplesLine Md.headerPrefix m'.dialect.examples [':'] t' m' from rfl, (Md.matchTitle_state _ _ _ _ _ _).2, i1, i2.2] at i3
              simpa using i3
            · obtain ⟨t', m', i1, i2, i3⟩ := hall .ruleLine (by decide)
              rw [show Md.matchKind .ruleLine t' m' = Md.matchTitle .ruleLine Md.headerPrefix m'.dialect.rule [':'] t' m' from rfl, (Md.matchTitle_state _ _ _ _ _ _).2, i1, i2.2] at i3
              simpa using i3
      | false =>
        simp only [matchAny] at h
        have he1 : t1.eof = false := by rw [Token.eof, e3]; exact he
        rcases h2 : matchTok ⟨markdown, B, stop⟩ .comment t1 c1 with ⟨r, t2, c2⟩
        rw [h2] at h
        rcases r with x | b
        · simp at h
        · obtain ⟨f1, f2, f3⟩ := md_matchTok (by decide) he1 h2
          cases b with
          | true =>
            right
            refine Md.noHead_hash ?_
            simp only [Md.matchKind, Md.matchComment] at f1
            split at f1
            · rename_i hs
              rw [e3] at hs
              unfold Line.startsWith startsWith at hs
              unfold Line.lineText
              cases htr : t.line.trimmed with
              | nil => simp
              | cons x xs =>
                rw [htr] at hs
                simp [List.isPrefixOf] at hs
                simp [← hs]
            · simp at f1
          | false =>
            left
            simp only at h
            rcases h3 : matchTok ⟨markdown, B, stop⟩ .tagLine t2 c2 with ⟨r, t3, c3⟩
            rw [h3] at h
            have he2 : t2.eof = false := by rw [Token.eof, f3]; exact he1
            rcases r with x | b
            · simp at h
            · obtain ⟨g1, g2, g3⟩ := md_matchTok (by decide) he2 h3
              cases b with
              | false => simp at h
              | true =>
                rw [show Md.matchKind .tagLine t2 c2.matcher = Md.matchTagLine t2 c2.matcher from rfl, (Md.tag_state _ _).2, f3, e3] at g1
                simpa [Md.tagged] using g1
  head {k t t' c c'} hk hp he h hs := by
    rcases hs with hs | hs
    · exact hs
    · exfalso
      have hke : k ≠ .eof := by intro h; rw [h] at hk; cases hk
      have h1 := (md_matchTok hke he h).1
      cases k <;> simp only [isHead, Bool.false_eq_true] at hk
      case scenarioLine =>
        rw [show Md.matchKind .scenarioLine t c.matcher = Md.matchScenario t c.matcher from rfl, (Md.scenario_state _ _).2, hp.2,
          hs _ (.inl rfl), hs _ (.inr (.inl rfl))] at h1
        simp at h1
      case examplesLine =>
        rw [show Md.matchKind .examplesLine t c.matcher = Md.matchTitle .examplesLine Md.headerPrefix c.matcher.dialect.examples [':'] t c.matcher from rfl,
          (Md.matchTitle_state _ _ _ _ _ _).2, hp.2, hs _ (.inr (.inr (.inl rfl)))] at h1
        simp at h1
      case ruleLine =>
        rw [show Md.matchKind .ruleLine t c.matcher = Md.matchTitle .ruleLine Md.headerPrefix c.matcher.dialect.rule [':'] t c.matcher from rfl,
          (Md.matchTitle_state _ _ _ _ _ _).2, hp.2, hs _ (.inr (.inr (.inr rfl)))] at h1
        simp at h1

/-- In an accepted Markdown text every line is processed exactly once. -/
theorem md_all_lines {text : Str} {m : MdState} {b : σ} {r : ρ} (h : (parse ⟨markdown, B, stop⟩ text m b).1 = .ok r) :
    (takes (parse ⟨markdown, B, stop⟩ text m b).2.log).Perm (tokenLines text) :=
  parse_all_lines (md_tagSafe (lang := (Md.reset m).dialectName) (d := (Md.reset m).dialect)) ⟨rfl, rfl⟩ (c := (parse ⟨markdown, B, stop⟩ text m b).2)
    (r := r) (by rw [← h])

end

end Gherkin
