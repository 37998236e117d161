import Verif.Proofs.MdProse
import Verif.Proofs.MdTotal
import Verif.Spec.MdErrors

/-! What the answers of the Markdown matcher say about the form of a line. -/

namespace Gherkin

open Markdown

theorem heading_sound {kws : List Str} {l : Line} (h : (Md.searchTitle (Md.headerPrefix l.lineText) kws [':']).isSome = true) : HeadingLine kws l.text := by
  rcases hf : Md.searchTitle (Md.headerPrefix l.lineText) kws [':'] with _ | ⟨n, kw, r⟩
  · rw [hf] at h; simp at h
  · obtain ⟨rest, hm, hk, hr, rfl⟩ := searchTitle_spec hf
    obtain ⟨c, sp, c1, c2, c3, rfl, hs⟩ := headerPrefix_spec hm
    obtain ⟨a, ha, ht, _, hi⟩ := trimmed_spec l
    refine ⟨kw, a, c, sp, rest.drop (kw.length + 1), hk, ha, c1, c2, c3, ?_⟩
    have hr' : rest = kw ++ ':' :: rest.drop (kw.length + 1) := by simpa using hr
    rw [← hr', List.append_assoc, ← hs]; exact ht

theorem item_sound {kws : List Str} {l : Line} (h : (Md.searchTitle (Md.bulletPrefix l.lineText) kws []).isSome = true) : ItemLine kws l.text := by
  rcases hf : Md.searchTitle (Md.bulletPrefix l.lineText) kws [] with _ | ⟨n, kw, r⟩
  · rw [hf] at h; simp at h
  · obtain ⟨rest, hm, hk, hr, rfl⟩ := searchTitle_spec hf
    obtain ⟨b, gap, hb, hg, rfl, hs⟩ := bulletPrefix_spec hm
    obtain ⟨a, ha, ht, _, hi⟩ := trimmed_spec l
    refine ⟨kw, a, b, gap, rest.drop kw.length, hk, ha, hb, hg, ?_⟩
    have hr' : rest = kw ++ rest.drop kw.length := by simpa using hr
    rw [List.append_assoc, ← hr', ← hs]; exact ht

theorem tag_sound {d : Dialect} {l : Line} (h : (Md.findTags l.lineText 0 0).isEmpty = false) : HasForm d l.text .tags := by
  cases hf : Md.findTags l.lineText 0 0 with
  | nil => rw [hf] at h; simp at h
  | cons x xs =>
    obtain ⟨p, name⟩ := x
    obtain ⟨pre, n, rest, rfl, h1, h2, h3, _⟩ := findTags_spec _ _ _ p name (by rw [hf]; simp)
    obtain ⟨a, ha, ht, _, hi⟩ := trimmed_spec l
    refine ⟨a ++ pre, n, rest, h1, h2, ?_⟩
    rw [ht, show l.trimmed = l.lineText from rfl, h3]; simp

/-- A line that is refused as a line of some kind does not have the form that is called so. -/
theorem refused_noForm {lang : Str} {d : Dialect} {t t' : Token} {m m' : MdState} {f : Form} (hm : Md.Speaks lang d m)
    (h : Md.matchKind f.called t m = (.ok false, t', m')) : ¬ HasForm d t.line.text f := by
  intro hf
  have h : (Md.matchKind f.called t m).1 = .ok false := by rw [h]
  have title : ∀ {k : Kind} {ks : List Str}, (Md.matchTitle k Md.headerPrefix ks [':'] t m).1 = .ok false → ¬ HeadingLine ks t.line.text := by
    intro k ks h hh
    rw [(Md.matchTitle_state _ _ _ _ _ _).2, heading_found hh] at h
    simp at h
  cases f <;> simp only [Form.called] at h
  case tags =>
    rw [show Md.matchKind .tagLine t m = Md.matchTagLine t m from rfl, (Md.tag_state _ _).2, tag_found hf] at h
    simp at h
  case rule =>
    rw [show Md.matchKind .ruleLine t m = Md.matchTitle .ruleLine Md.headerPrefix m.dialect.rule [':'] t m from rfl, hm.2] at h
    exact title h hf
  case background =>
    rw [show Md.matchKind .backgroundLine t m = Md.matchTitle .backgroundLine Md.headerPrefix m.dialect.background [':'] t m from rfl, hm.2] at h
    exact title h hf
  case examples =>
    rw [show Md.matchKind .examplesLine t m = Md.matchTitle .examplesLine Md.headerPrefix m.dialect.examples [':'] t m from rfl, hm.2] at h
    exact title h hf
  case scenario =>
    rw [show Md.matchKind .scenarioLine t m = Md.matchScenario t m from rfl, (Md.scenario_state _ _).2, hm.2] at h
    obtain ⟨kw, pre, n, sp, rest, hk, hr⟩ := hf
    rcases List.mem_append.1 hk with hk | hk
    · have := heading_found (kws := d.scenario) ⟨kw, pre, n, sp, rest, hk, hr⟩
      rw [this] at h; simp at h
    · have := heading_found (kws := d.scenarioOutline) ⟨kw, pre, n, sp, rest, hk, hr⟩
      rw [this] at h; simp at h
  case step =>
    rw [show Md.matchKind .stepLine t m = Md.matchTitle .stepLine Md.bulletPrefix m.dialect.stepKeywords [] t m from rfl,
      (Md.matchTitle_state _ _ _ _ _ _).2, hm.2] at h
    have := item_found hf
    rw [show d.stepKeywords = d.given ++ d.when_ ++ d.then_ ++ d.and_ ++ d.but_ from rfl, this] at h
    simp at h
  case row => exact row_found (d := d) (t := t) (m := m) hf h

namespace Md

theorem orElse_yes {P : MdState → Prop} (hP : ∀ k t m, P m → P (matchKind k t m).2.2) {ks : List Kind} : ∀ {t : Token} {m : MdState}, P m →
    (orElse (ks.map matchKind) t m).1 = .ok true → ∃ k ∈ ks, ∃ t' m', t'.line = t.line ∧ P m' ∧ (matchKind k t' m').1 = .ok true := by
  induction ks with
  | nil => intro t m _ h; simp [orElse] at h
  | cons k ks ih =>
    intro t m hm h
    simp only [List.map_cons, orElse] at h
    have h1 := hP k t m hm
    have hl := markdown_lawful.line k t m
    simp only [markdown] at hl
    rcases hx : matchKind k t m with ⟨r, t1, m1⟩
    rw [hx] at h h1 hl
    simp only at h1 hl
    rcases r with e | b
    · simp at h
    · cases b with
      | true => exact ⟨k, by simp, t, m, rfl, hm, by rw [hx]⟩
      | false =>
        simp only at h
        obtain ⟨k', h1, t', m', i1, i2, i3⟩ := ih h1 h
        exact ⟨k', by simp [h1], t', m', i1.trans hl, i2, i3⟩

/-- The state after the feature line. -/
def After (lang : Str) (d : Dialect) (m : MdState) : Prop := Fenced lang d m ∧ m.matchedFeature = true

theorem after_keep {lang : Str} {d : Dialect} (k : Kind) (t : Token) (m : MdState) (h : After lang d m) : After lang d (matchKind k t m).2.2 := by
  refine ⟨fenced_keep k t m h.1, ?_⟩
  refine md_keep (P := fun m => m.matchedFeature = true) (fun m _ => rfl) ?_ k t m h.2
  intro t m h
  unfold matchDocSep matchSep
  repeat' split
  all_goals exact h

end Md

/-- After the feature line, a line that is refused as an empty line is a Gherkin line. -/
theorem refused_gherkin {lang : Str} {d : Dialect} {t t' : Token} {m m' : MdState} (hm : Md.After lang d m) (hne : t.eof = false)
    (h : Md.matchKind .empty t m = (.ok false, t', m')) : GherkinLine d t.line.text := by
  simp only [Md.matchKind, Md.matchEmpty] at h
  rcases hx : Md.orElse Md.emptyProbes t m with ⟨r, t2, m2⟩
  rw [hx] at h
  rcases r with e | b
  · simp at h
  · have hb : b = true := by
      cases b with
      | true => rfl
      | false => simp at h
    subst hb
    rw [Md.probes_eq] at hx
    obtain ⟨k, hk, t3, m3, hl, hP, h3⟩ := Md.orElse_yes (P := Md.After lang d) Md.after_keep hm (by rw [hx])
    have hsp := hP.1.1
    rw [← hl]
    have title : ∀ {k : Kind} {ks : List Str}, (Md.matchTitle k Md.headerPrefix ks [':'] t3 m3).1 = .ok true → HeadingLine ks t3.line.text := by
      intro k ks h
      rw [(Md.matchTitle_state _ _ _ _ _ _).2] at h
      exact heading_sound (by simpa using h)
    simp only [Md.probeKinds, List.mem_cons, List.not_mem_nil, or_false] at hk
    rcases hk with rfl | rfl | rfl | rfl | rfl | rfl | rfl | rfl | rfl | rfl | rfl | rfl
    · rw [show Md.matchKind .tagLine t3 m3 = Md.matchTagLine t3 m3 from rfl, (Md.tag_state _ _).2] at h3
      exact .inl ⟨.tags, tag_sound (by simpa using h3)⟩
    · simp only [Md.matchKind, Md.matchFeature] at h3
      rw [if_pos hP.2] at h3
      simp at h3
    · rw [show Md.matchKind .scenarioLine t3 m3 = Md.matchScenario t3 m3 from rfl, (Md.scenario_state _ _).2, hsp.2] at h3
      simp only [Except.ok.injEq, Bool.or_eq_true] at h3
      refine .inl ⟨.scenario, ?_⟩
      rcases h3 with h3 | h3
      · obtain ⟨kw, pre, n, sp, rest, hk, hr⟩ := heading_sound h3
        exact ⟨kw, pre, n, sp, rest, by simp [hk], hr⟩
      · obtain ⟨kw, pre, n, sp, rest, hk, hr⟩ := heading_sound h3
        exact ⟨kw, pre, n, sp, rest, by simp [hk], hr⟩
    · rw [show Md.matchKind .backgroundLine t3 m3 = Md.matchTitle .backgroundLine Md.headerPrefix m3.dialect.background [':'] t3 m3 from rfl, hsp.2] at h3
      exact .inl ⟨.background, title h3⟩
    · rw [show Md.matchKind .examplesLine t3 m3 = Md.matchTitle .examplesLine Md.headerPrefix m3.dialect.examples [':'] t3 m3 from rfl, hsp.2] at h3
      exact .inl ⟨.examples, title h3⟩
    · rw [show Md.matchKind .ruleLine t3 m3 = Md.matchTitle .ruleLine Md.headerPrefix m3.dialect.rule [':'] t3 m3 from rfl, hsp.2] at h3
      exact .inl ⟨.rule, title h3⟩
    · by_cases hs : SeparatorRow t3.line.text
      · exact .inr (.inl hs)
      · simp only [Md.matchKind, Md.matchTableRow] at h3
        split at h3
        · rename_i hc
          simp only [Bool.and_eq_true, decide_eq_true_eq] at hc
          obtain ⟨a, ha, ht, _, hi⟩ := trimmed_spec t3.line
          obtain ⟨r, hr⟩ : ∃ r, t3.line.trimmed = '|' :: r := by
            have h1 := hc.2
            unfold Line.startsWith startsWith at h1
            rw [List.isPrefixOf_iff_prefix] at h1
            obtain ⟨r, hr⟩ := h1
            exact ⟨r, hr.symm⟩
          refine .inl ⟨.row, a, r, ha, by rw [hi]; exact hc.1, by rw [ht, hr], fun hd => hs ⟨a, r, ha, by rw [ht, hr], hd⟩⟩
        · simp at h3
    · rcases hx : Md.matchKind .comment t3 m3 with ⟨r, t4, m4⟩
      rw [hx] at h3
      simp only at h3
      subst h3
      exact .inr (.inl (comment_separator (m := m3) (t' := t4) (m' := m4) hx))
    · simp [Md.matchKind, Md.matchLanguage] at h3
    · rcases hx : Md.matchKind .docStringSeparator t3 m3 with ⟨r, t4, m4⟩
      rw [hx] at h3
      simp only at h3
      subst h3
      have := sep_fence hP.1.2 hx
      exact .inr (.inr (by intro h0; rw [h0] at this; simp at this))
    · simp only [Md.matchKind, Md.matchEof] at h3
      rw [if_neg (by simpa [Token.eof, hl] using hne)] at h3
      simp at h3
    · rw [show Md.matchKind .stepLine t3 m3 = Md.matchTitle .stepLine Md.bulletPrefix m3.dialect.stepKeywords [] t3 m3 from rfl,
        (Md.matchTitle_state _ _ _ _ _ _).2, hsp.2] at h3
      exact .inl ⟨.step, item_sound (kws := d.stepKeywords) (by simpa using h3)⟩

end Gherkin
