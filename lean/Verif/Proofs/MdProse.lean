import Verif.Proofs.MdForms
import Verif.Proofs.PrintAst

/-! Lines that the Markdown parser takes as other lines stand in descriptions and doc strings. -/

namespace Gherkin

open Markdown Cst

/-! ### From tokens to the document -/

/-- The token is one of the lines of a description or a doc string. -/
def Told (ps : List (Part × Location × Str)) (ss : List Step) (all : List Token) (t : Token) : Prop :=
  (∃ p ∈ ps, ∃ ts : List Token, t ∈ ts ∧ (∀ u ∈ ts, u ∈ all ∧ u.type = some .other) ∧ p.2.2 = description ts) ∨
  ∃ s ∈ ss, ∃ x, s.arg = .doc x ∧ ∃ ts : List Token, t ∈ ts ∧ (∀ u ∈ ts, u ∈ all ∧ u.type = some .other) ∧ x.content = joinStr ['\n'] (ts.map textOf) ∧
    ∃ st o c : Token, (st :: o :: (ts ++ [c])) <:+: all ∧ st.type = some .stepLine ∧ o.type = some .docStringSeparator ∧ c.type = some .docStringSeparator

theorem Told.mono {ps ps' : List (Part × Location × Str)} {ss ss' : List Step} {all all' : List Token} {t : Token} (h : Told ps ss all t)
    (h1 : ∀ p ∈ ps, p ∈ ps') (h2 : ∀ s ∈ ss, s ∈ ss') (h3 : all <:+: all') : Told ps' ss' all' t := by
  rcases h with ⟨p, hp, ts, a, b, c⟩ | ⟨s, hs, x, e, ts, a, b, c, st, o, cl, i, d⟩
  · exact .inl ⟨p, h1 p hp, ts, a, fun u hu => ⟨h3.subset (b u hu).1, (b u hu).2⟩, c⟩
  · exact .inr ⟨s, h2 s hs, x, e, ts, a, fun u hu => ⟨h3.subset (b u hu).1, (b u hu).2⟩, c, st, o, cl, i.trans h3, d⟩

theorem step_told {s : CStep} (hs : s.Ok) {t : Token} (ht : t ∈ s.toks) (ho : t.type = some .other) (n : Nat) : Told [] [(s.ast n).1] s.toks t := by
  obtain ⟨h1, h2⟩ := hs
  simp only [CStep.toks, List.mem_cons] at ht
  rcases ht with rfl | ht
  · rw [h1] at ho; simp at ho
  · cases ha : s.arg with
    | none => rw [ha] at ht; simp [Arg.toks] at ht
    | table r rs =>
      rw [ha] at ht h2
      rw [h2.1 t ht] at ho; simp at ho
    | doc o ls c =>
      rw [ha] at ht h2
      obtain ⟨a1, a2, a3, a4⟩ := h2
      simp only [Arg.toks, List.mem_cons, List.mem_append, List.not_mem_nil, or_false] at ht
      rcases ht with rfl | ht | rfl
      · rw [a1] at ho; simp at ho
      · right
        refine ⟨_, List.mem_singleton_self _, { loc := o.loc, content := joinStr ['\n'] (ls.map textOf), delimiter := o.keyword, mediaType := if textOf o = [] then none else some (textOf o) }, ?_, ls, ht, ?_, rfl, s.line, o, c, ?_, h1, a1, a4⟩
        · simp only [CStep.ast, ha, Arg.ast]
        · intro u hu
          exact ⟨by simp [CStep.toks, ha, Arg.toks, hu], a3 u hu⟩
        · rw [CStep.toks, ha]; exact List.infix_rfl
      · rw [a4] at ho; simp at ho

theorem steps_told {ss : List CStep} (hs : ∀ s ∈ ss, s.Ok) {t : Token} (ht : t ∈ ss.flatMap CStep.toks) (ho : t.type = some .other) (n : Nat) :
    Told [] (thread CStep.ast ss n).1 (ss.flatMap CStep.toks) t := by
  rw [List.mem_flatMap] at ht
  obtain ⟨s, hsm, ht⟩ := ht
  obtain ⟨k, hk⟩ := mem_thread (f := CStep.ast) hsm n
  refine (step_told (hs s hsm) ht ho k).mono (by simp) ?_ ?_
  · intro x hx; simp at hx; subst hx; exact hk
  · exact infix_flatMap (f := CStep.toks) hsm

theorem desc_told {p : Part} {loc : Location} {desc : List Token} (h : DescOk desc) {t : Token} (ht : t ∈ desc) : Told [(p, loc, description desc)] [] desc t :=
  Or.inl ⟨_, List.mem_singleton_self _, desc, ht, fun u hu => ⟨hu, h u hu⟩, rfl⟩

theorem background_told {b : CBackground} (hb : b.Ok) {t : Token} (ht : t ∈ b.toks) (ho : t.type = some .other) (n : Nat) :
    Told (b.ast n).1.parts (b.ast n).1.steps b.toks t := by
  obtain ⟨h1, h2, h3⟩ := hb
  simp only [CBackground.toks, List.mem_cons, List.mem_append] at ht
  rcases ht with rfl | ht | ht
  · rw [h1] at ho; simp at ho
  · refine (desc_told (p := .background) (loc := b.line.loc) h2 ht).mono ?_ (by simp) ?_
    · intro p hp; simpa [Background.parts, CBackground.ast] using hp
    · exact ⟨[b.line], b.steps.flatMap CStep.toks, by simp [CBackground.toks]⟩
  · refine (steps_told h3 ht ho n).mono (by simp) (fun s hs => hs) ?_
    exact ⟨b.line :: b.desc, [], by simp [CBackground.toks]⟩

theorem examples_told {e : CExamples} (he : e.Ok) {t : Token} (ht : t ∈ e.toks) (ho : t.type = some .other) (n : Nat) :
    Told (e.ast n).1.parts [] e.toks t := by
  obtain ⟨h1, h2, h3, h4, h5⟩ := he
  simp only [CExamples.toks, List.mem_cons, List.mem_append] at ht
  rcases ht with ht | rfl | ht | ht
  · rw [h1 t ht] at ho; simp at ho
  · rw [h2] at ho; simp at ho
  · refine (desc_told (p := .examples) (loc := e.line.loc) h3 ht).mono ?_ (by simp) ?_
    · intro p hp; simpa [Examples.parts, CExamples.ast] using hp
    · exact ⟨e.tags ++ [e.line], e.table, by simp [CExamples.toks]⟩
  · rw [h4 t ht] at ho; simp at ho

theorem scenario_told {s : CScenario} (hs : s.Ok) {t : Token} (ht : t ∈ s.toks) (ho : t.type = some .other) (n : Nat) :
    Told (s.ast n).1.parts (s.ast n).1.steps s.toks t := by
  obtain ⟨h1, h2, h3, h4, h5⟩ := hs
  simp only [CScenario.toks, List.mem_cons, List.mem_append] at ht
  rcases ht with ht | rfl | (ht | ht) | ht
  · rw [h1 t ht] at ho; simp at ho
  · rw [h2] at ho; simp at ho
  · refine (desc_told (p := .scenario) (loc := s.line.loc) h3 ht).mono ?_ (by simp) ?_
    · intro p hp; simp at hp; subst hp; simp [Scenario.parts, CScenario.ast]
    · exact ⟨s.tags ++ [s.line], s.steps.flatMap CStep.toks ++ s.examples.flatMap CExamples.toks, by simp [CScenario.toks]⟩
  · refine (steps_told h4 ht ho n).mono (by simp) (fun s hs => hs) ?_
    exact ⟨s.tags ++ s.line :: s.desc, s.examples.flatMap CExamples.toks, by simp [CScenario.toks]⟩
  · obtain ⟨e, hem, ht⟩ := List.mem_flatMap.1 ht
    obtain ⟨k, hk⟩ := mem_thread (f := CExamples.ast) hem (thread CStep.ast s.steps n).2
    refine (examples_told (h5 e hem) ht ho k).mono ?_ (by simp) ?_
    · intro p hp
      simp only [Scenario.parts, List.mem_cons, List.mem_flatMap]
      exact .inr ⟨_, hk, hp⟩
    · exact (infix_flatMap (f := CExamples.toks) hem).trans ⟨s.tags ++ s.line :: (s.desc ++ s.steps.flatMap CStep.toks), [], by simp [CScenario.toks]⟩

/-- The steps below a rule or feature child. -/
theorem rule_told {r : CRule} (hr : r.Ok) {t : Token} (ht : t ∈ r.toks) (ho : t.type = some .other) (n : Nat) :
    Told (r.ast n).1.parts ((r.ast n).1.children.flatMap fun c => match c with | .background b => b.steps | .scenario s => s.steps) r.toks t := by
  obtain ⟨h1, h2, h3, h4, h5⟩ := hr
  simp only [CRule.toks, List.mem_cons, List.mem_append] at ht
  rcases ht with ht | rfl | (ht | ht) | ht
  · rw [h1 t ht] at ho; simp at ho
  · rw [h2] at ho; simp at ho
  · refine (desc_told (p := .rule) (loc := r.line.loc) h3 ht).mono ?_ (by simp) ?_
    · intro p hp; simp at hp; subst hp; simp [RuleNode.parts, CRule.ast]
    · exact ⟨r.tags ++ [r.line], r.background.toList.flatMap CBackground.toks ++ r.scenarios.flatMap CScenario.toks, by simp [CRule.toks]⟩
  · obtain ⟨e, hem, ht⟩ := List.mem_flatMap.1 ht
    have hem' : e ∈ r.background := by simpa using hem
    have hc : RuleChild.background (e.ast n).1 ∈ (r.ast n).1.children := by
      rw [Option.mem_def] at hem'
      simp [CRule.ast, hem', threadOpt]
    refine (background_told (h4 e hem') ht ho n).mono ?_ ?_ ?_
    · intro p hp
      simp only [RuleNode.parts, List.mem_cons, List.mem_flatMap]
      exact .inr ⟨_, hc, hp⟩
    · intro s hs; exact List.mem_flatMap.2 ⟨_, hc, hs⟩
    · exact (infix_flatMap (f := CBackground.toks) hem).trans ⟨r.tags ++ r.line :: r.desc, r.scenarios.flatMap CScenario.toks, by simp [CRule.toks]⟩
  · obtain ⟨e, hem, ht⟩ := List.mem_flatMap.1 ht
    obtain ⟨k, hk⟩ := mem_thread (f := CScenario.ast) hem (threadOpt CBackground.ast r.background n).2
    have hc : RuleChild.scenario (e.ast k).1 ∈ (r.ast n).1.children := by
      simp only [CRule.ast, List.mem_append, List.mem_map]; exact .inr ⟨_, hk, rfl⟩
    refine (scenario_told (h5 e hem) ht ho k).mono ?_ ?_ ?_
    · intro p hp
      simp only [RuleNode.parts, List.mem_cons, List.mem_flatMap]
      exact .inr ⟨_, hc, hp⟩
    · intro s hs; exact List.mem_flatMap.2 ⟨_, hc, hs⟩
    · exact (infix_flatMap (f := CScenario.toks) hem).trans ⟨r.tags ++ r.line :: (r.desc ++ r.background.toList.flatMap CBackground.toks), [], by simp [CRule.toks]⟩

theorem doc_told {D : CDoc} (hD : D.Ok) {t : Token} (ht : t ∈ D.toks) (ho : t.type = some .other) (cm : List Comment) (n : Nat) :
    Told (D.ast cm n).1.parts (D.ast cm n).1.steps D.toks t := by
  obtain ⟨hf, he⟩ := hD
  simp only [CDoc.toks, List.mem_append, List.mem_singleton] at ht
  rcases ht with ht | rfl
  swap
  · rw [he] at ho; simp at ho
  obtain ⟨f, hfm, ht⟩ := List.mem_flatMap.1 ht
  have hfm' : D.feature = some f := by simpa using hfm
  obtain ⟨h0, h1, h2, h3, h4, h5, h6⟩ := hf f hfm'
  have hF : (D.ast cm n).1.feature = some (f.ast n).1 := by simp [CDoc.ast, hfm', threadOpt]
  have hall : f.toks <:+: D.toks := (infix_flatMap (f := CFeature.toks) hfm).trans ⟨[], [D.eof], by simp [CDoc.toks]⟩
  have hparts : ∀ p ∈ (f.ast n).1.parts, p ∈ (D.ast cm n).1.parts := by
    intro p hp; simp [Document.parts, hF, hp]
  have child : ∀ c ∈ (f.ast n).1.children, ∀ ps ss all, Told ps ss all t → (∀ p ∈ ps, p ∈ c.parts) →
      (∀ s ∈ ss, (∃ b ∈ c.backgrounds, s ∈ b.steps) ∨ ∃ b ∈ c.scenarios, s ∈ b.steps) → all <:+: f.toks →
      Told (D.ast cm n).1.parts (D.ast cm n).1.steps D.toks t := by
    intro c hc ps ss all h a1 a2 a3
    refine h.mono ?_ ?_ (a3.trans hall)
    · intro p hp
      refine hparts p ?_
      simp only [Feature.parts, List.mem_cons, List.mem_flatMap]
      exact .inr ⟨c, hc, a1 p hp⟩
    · intro s hs
      simp only [Document.steps, Document.backgrounds, Document.scenarios, hF, Option.toList_some, List.flatMap_cons, List.flatMap_nil, List.append_nil,
        List.mem_append, List.mem_flatMap]
      rcases a2 s hs with ⟨b, hb, hs⟩ | ⟨b, hb, hs⟩
      · exact .inl ⟨b, ⟨c, hc, hb⟩, hs⟩
      · exact .inr ⟨b, ⟨c, hc, hb⟩, hs⟩
  simp only [CFeature.toks, List.mem_cons, List.mem_append] at ht
  rcases ht with (ht | ht) | rfl | ((ht | ht) | ht) | ht
  · rw [h0 t (by simpa using ht)] at ho; simp at ho
  · rw [h1 t ht] at ho; simp at ho
  · rw [h2] at ho; simp at ho
  · refine (desc_told (p := .feature) (loc := f.line.loc) h3 ht).mono ?_ (by simp) (List.IsInfix.trans ?_ hall)
    · intro p hp; simp at hp; subst hp; exact hparts _ (by simp [Feature.parts, CFeature.ast])
    · exact ⟨f.language.toList ++ f.tags ++ [f.line], f.background.toList.flatMap CBackground.toks ++ f.scenarios.flatMap CScenario.toks ++ f.rules.flatMap CRule.toks, by simp [CFeature.toks]⟩
  · obtain ⟨e, hem, ht⟩ := List.mem_flatMap.1 ht
    have hem' : e ∈ f.background := by simpa using hem
    have hc : FeatureChild.background (e.ast n).1 ∈ (f.ast n).1.children := by
      rw [Option.mem_def] at hem'
      simp [CFeature.ast, hem', threadOpt]
    refine child _ hc _ _ _ (background_told (h4 e hem') ht ho n) (fun p hp => hp) (fun s hs => .inl ⟨_, by simp [FeatureChild.backgrounds], hs⟩) ?_
    exact (infix_flatMap (f := CBackground.toks) hem).trans ⟨f.language.toList ++ f.tags ++ f.line :: f.desc, f.scenarios.flatMap CScenario.toks ++ f.rules.flatMap CRule.toks, by simp [CFeature.toks]⟩
  · obtain ⟨e, hem, ht⟩ := List.mem_flatMap.1 ht
    obtain ⟨k, hk⟩ := mem_thread (f := CScenario.ast) hem (threadOpt CBackground.ast f.background n).2
    have hc : FeatureChild.scenario (e.ast k).1 ∈ (f.ast n).1.children := by
      simp only [CFeature.ast, List.mem_append, List.mem_map]; exact .inl (.inr ⟨_, hk, rfl⟩)
    refine child _ hc _ _ _ (scenario_told (h5 e hem) ht ho k) (fun p hp => hp) (fun s hs => .inr ⟨_, by simp [FeatureChild.scenarios], hs⟩) ?_
    exact (infix_flatMap (f := CScenario.toks) hem).trans ⟨f.language.toList ++ f.tags ++ f.line :: (f.desc ++ f.background.toList.flatMap CBackground.toks), f.rules.flatMap CRule.toks, by simp [CFeature.toks]⟩
  · obtain ⟨e, hem, ht⟩ := List.mem_flatMap.1 ht
    obtain ⟨k, hk⟩ := mem_thread (f := CRule.ast) hem (thread CScenario.ast f.scenarios (threadOpt CBackground.ast f.background n).2).2
    have hc : FeatureChild.rule (e.ast k).1 ∈ (f.ast n).1.children := by
      simp only [CFeature.ast, List.mem_append, List.mem_map]; exact .inr ⟨_, hk, rfl⟩
    refine child _ hc _ _ _ (rule_told (h6 e hem) ht ho k) (fun p hp => hp) ?_ ?_
    · intro s hs
      obtain ⟨x, hx, hs⟩ := List.mem_flatMap.1 hs
      cases x with
      | background b => exact .inl ⟨b, by simp only [FeatureChild.backgrounds, List.mem_flatMap]; exact ⟨_, hx, by simp⟩, hs⟩
      | scenario b => exact .inr ⟨b, by simp only [FeatureChild.scenarios, List.mem_flatMap]; exact ⟨_, hx, by simp⟩, hs⟩
    · exact (infix_flatMap (f := CRule.toks) hem).trans ⟨f.language.toList ++ f.tags ++ f.line :: (f.desc ++ f.background.toList.flatMap CBackground.toks ++ f.scenarios.flatMap CScenario.toks), [], by simp [CFeature.toks]⟩

/-! ### The text of other lines -/

theorem replaceGo_nonspace {old new : Str} (ho : old ≠ []) {c0 : Char} (hc0 : c0 ∈ new) (hs0 : isSpace c0 = false) : ∀ (s : Str) (k : Nat),
    (∃ c ∈ s.drop k, isSpace c = false) → ∃ c ∈ replaceGo old new k s, isSpace c = false := by
  intro s
  induction s with
  | nil => intro k ⟨c, hc, _⟩; simp at hc
  | cons x s ih =>
    intro k h
    cases k with
    | succ k => rw [replaceGo]; exact ih k (by simpa using h)
    | zero =>
      rw [replaceGo]
      split
      · exact ⟨c0, by simp [hc0], hs0⟩
      · obtain ⟨c, hc, hsc⟩ := h
        rw [List.drop_zero] at hc
        rcases List.mem_cons.1 hc with rfl | hc
        · exact ⟨c, by simp, hsc⟩
        · obtain ⟨c', h1, h2⟩ := ih 0 ⟨c, by simpa using hc, hsc⟩
          exact ⟨c', by simp [h1], h2⟩

theorem replaceGo_mem {old new : Str} {c : Char} : ∀ (s : Str) (k : Nat), c ∈ replaceGo old new k s → c ∈ s ∨ c ∈ new := by
  intro s
  induction s with
  | nil => intro k h; cases k <;> simp [replaceGo] at h
  | cons x s ih =>
    intro k h
    cases k with
    | succ k => rw [replaceGo] at h; rcases ih k h with h | h <;> simp [h]
    | zero =>
      rw [replaceGo] at h
      split at h
      · rcases List.mem_append.1 h with h | h
        · exact .inr h
        · rcases ih _ h with h | h <;> simp [h]
      · rcases List.mem_cons.1 h with rfl | h
        · simp
        · rcases ih _ h with h | h <;> simp [h]

/-- How a line of prose reads: not empty if the line is not blank, and without line feed. -/
theorem prose_text {s x : Str} (h : ProseOf s x) : ((∃ c ∈ s, isSpace c = false) → x ≠ []) ∧
    ((∃ body, '\n' ∉ body ∧ (s = body ∨ s = body ++ ['\n'])) → '\n' ∉ x) := by
  have out : ∀ (s : Str) (n : Nat), (∃ w, s = w ++ outdent n s ∧ ∀ c ∈ w, isSpace c = true) := by
    intro s
    induction s with
    | nil => intro n; cases n <;> exact ⟨[], rfl, by simp⟩
    | cons c s ih =>
      intro n
      cases n with
      | zero => exact ⟨[], rfl, by simp⟩
      | succ n =>
        simp only [outdent]
        split
        · rename_i hc
          obtain ⟨w, h1, h2⟩ := ih n
          refine ⟨c :: w, by rw [List.cons_append, ← h1], ?_⟩
          intro y hy; rcases List.mem_cons.1 hy with rfl | hy
          · exact hc
          · exact h2 y hy
        · exact ⟨[], rfl, by simp⟩
  have eolc : ∀ {y : Str} {c : Char}, c ∈ y → isSpace c = false → rstripEol y ≠ [] := by
    intro y c hc hs h
    obtain ⟨w, h1, h2, _⟩ := rstripBy_spec (p := isEol) y
    rw [show rstripBy isEol y = rstripEol y from rfl, h, List.nil_append] at h2
    rw [h2] at hc
    have := isEol_space (h1 c hc)
    rw [hs] at this; simp at this
  have nol : ∀ {y : Str}, (∃ body, '\n' ∉ body ∧ (y = body ∨ y = body ++ ['\n'])) → '\n' ∉ rstripEol y := by
    rintro y ⟨body, hb, rfl | rfl⟩ hm
    · obtain ⟨w, h1, h2, _⟩ := rstripBy_spec (p := isEol) y
      exact hb (by rw [h2]; exact List.mem_append_left _ hm)
    · rw [rstripEol_append _ nl_eol] at hm
      obtain ⟨w, h1, h2, _⟩ := rstripBy_spec (p := isEol) body
      exact hb (by rw [h2]; exact List.mem_append_left _ hm)
  have outn : ∀ {s : Str} {n : Nat}, (∃ c ∈ s, isSpace c = false) → ∃ c ∈ outdent n s, isSpace c = false := by
    rintro s n ⟨c, hc, hs⟩
    obtain ⟨w, h1, h2⟩ := out s n
    rw [h1] at hc
    rcases List.mem_append.1 hc with hc | hc
    · rw [h2 c hc] at hs; simp at hs
    · exact ⟨c, hc, hs⟩
  have outl : ∀ {s : Str} {n : Nat}, (∃ body, '\n' ∉ body ∧ (s = body ∨ s = body ++ ['\n'])) → ∃ body, '\n' ∉ body ∧ (outdent n s = body ∨ outdent n s = body ++ ['\n']) := by
    rintro s n ⟨body, hb, h⟩
    obtain ⟨w, h1, h2⟩ := out s n
    rcases h with h | h
    · refine ⟨outdent n s, fun hm => hb ?_, .inl rfl⟩
      rw [← h, h1]; exact List.mem_append_right _ hm
    · rw [h1] at h
      rcases List.eq_nil_or_concat (outdent n s) with he | ⟨y, z, he⟩
      · exact ⟨[], by simp, .inl he⟩
      · rw [he, List.concat_eq_append, ← List.append_assoc] at h
        have h3 := List.append_inj' h rfl
        refine ⟨y, fun hm => hb (by rw [← h3.1]; exact List.mem_append_right _ hm), .inr ?_⟩
        rw [he, List.concat_eq_append, h3.2]
  obtain ⟨n, rfl | ⟨dl, hdl, rfl⟩⟩ := h
  · exact ⟨fun hc => by obtain ⟨c, h1, h2⟩ := outn (n := n) hc; exact eolc h1 h2, fun hb => nol (outl hb)⟩
  · obtain ⟨c0, hc0, hs0, hn0, hne⟩ : ∃ c0 ∈ dl, isSpace c0 = false ∧ '\n' ∉ dl ∧ ('\n' ∉ escaped dl ∧ escaped dl ≠ []) := by
      simp only [docDelimiters, List.mem_cons, List.not_mem_nil, or_false] at hdl
      rcases hdl with rfl | rfl
      · exact ⟨'"', by decide, by decide, by decide, by decide⟩
      · exact ⟨'`', by decide, by decide, by decide, by decide⟩
    refine ⟨fun hc => ?_, fun hb => ?_⟩
    · obtain ⟨c, h1, h2⟩ := outn (n := n) hc
      obtain ⟨c', h3, h4⟩ := replaceGo_nonspace hne.2 hc0 hs0 (outdent n s) 0 ⟨c, by simpa using h1, h2⟩
      exact eolc h3 h4
    · obtain ⟨body, hb1, hb2⟩ := outl (n := n) hb
      refine nol ?_
      refine ⟨replaceAll (escaped dl) dl body, fun hm => ?_, ?_⟩
      · rcases replaceGo_mem _ _ hm with h | h
        · exact hb1 h
        · exact hn0 h
      · rcases hb2 with h | h
        · exact .inl (by rw [h])
        · right; rw [h]
          refine replaceAll_append hne.2 ?_ _ _ rfl
          intro c hc; simp at hc; subst hc; exact hne.1

theorem splitChar_join {c : Char} : ∀ {xs : List Str}, (∀ x ∈ xs, c ∉ x) → xs ≠ [] → splitChar c (joinStr [c] xs) = xs := by
  have one : ∀ (x : Str), c ∉ x → splitChar c x = [x] := by
    intro x
    induction x with
    | nil => intro _; rfl
    | cons a x ih =>
      intro h
      simp only [List.mem_cons, not_or] at h
      have : (a == c) = false := by simpa using fun e => h.1 e.symm
      simp [splitChar, this, ih h.2]
  have two : ∀ (x y : Str), c ∉ x → splitChar c (x ++ c :: y) = x :: splitChar c y := by
    intro x y
    induction x with
    | nil => intro _; simp [splitChar]
    | cons a x ih =>
      intro h
      simp only [List.mem_cons, not_or] at h
      have : (a == c) = false := by simpa using fun e => h.1 e.symm
      simp [splitChar, this, ih h.2]
  intro xs
  induction xs with
  | nil => intro _ h; exact absurd rfl h
  | cons x xs ih =>
    intro h _
    cases xs with
    | nil => exact one x (h x (by simp))
    | cons y ys =>
      rw [joinStr, List.append_assoc, List.singleton_append, two x _ (h x (by simp)), ih (fun z hz => h z (by simp [hz])) (by simp)]

theorem mem_trimEnd {ls : List Str} {x : Str} (h : x ∈ ls) (hx : x ≠ []) : x ∈ trimEnd ls := by
  unfold trimEnd
  rw [List.mem_reverse]
  have h : x ∈ ls.reverse := by simpa using h
  generalize ls.reverse = r at h
  induction r with
  | nil => simp at h
  | cons y r ih =>
    rw [List.dropWhile_cons]
    split
    · rename_i hy
      rcases List.mem_cons.1 h with rfl | h
      · simp at hy; exact absurd hy hx
      · exact ih h
    · exact h

theorem Told.prose {D : Document} {all : List Token} {t : Token} (h : Told D.parts D.steps all t)
    (hall : ∀ u ∈ all, u.type = some .other → ProseOf u.line.text (textOf u) ∧ '\n' ∉ textOf u) (hne : ∃ c ∈ t.line.text, isSpace c = false) :
    InProse D t.line.text := by
  rcases h with ⟨p, hp, ts, ht, hts, e⟩ | ⟨s, hs, x, hx, ts, ht, hts, e, _⟩
  · have hpr := (hall t (hts t ht).1 (hts t ht).2).1
    refine ⟨textOf t, hpr, .inl ⟨p, hp, ?_⟩⟩
    have hm : textOf t ∈ trimEnd (ts.map textOf) := mem_trimEnd (List.mem_map.2 ⟨t, ht, rfl⟩) ((prose_text hpr).1 hne)
    rw [e, description, splitChar_join]
    · exact hm
    · intro y hy
      have : y ∈ ts.map textOf := by
        unfold trimEnd at hy
        rw [List.mem_reverse] at hy
        simpa using (List.dropWhile_sublist _).subset hy
      obtain ⟨u, hu, rfl⟩ := List.mem_map.1 this
      exact (hall u (hts u hu).1 (hts u hu).2).2
    · intro h0; rw [h0] at hm; simp at hm
  · have hpr := (hall t (hts t ht).1 (hts t ht).2).1
    refine ⟨textOf t, hpr, .inr ⟨x, ?_, ?_⟩⟩
    · simp only [Document.docStrings, List.mem_filterMap]; exact ⟨s, hs, by rw [hx]⟩
    · rw [e, splitChar_join]
      · exact List.mem_map.2 ⟨t, ht, rfl⟩
      · intro y hy
        obtain ⟨u, hu, rfl⟩ := List.mem_map.1 hy
        exact (hall u (hts u hu).1 (hts u hu).2).2
      · intro h0; rw [List.map_eq_nil_iff] at h0; rw [h0] at ht; simp at ht

/-! ### Fences -/

/-- The state has this language, and a fence that is open is one of the three. -/
def Md.Fenced (lang : Str) (d : Dialect) (m : MdState) : Prop := Md.Speaks lang d m ∧ ∀ f, m.active = some f → f ∈ Md.Fences

theorem fenced_keep {lang : Str} {d : Dialect} (k : Kind) (t : Token) (m : MdState) (h : Md.Fenced lang d m) : Md.Fenced lang d (Md.matchKind k t m).2.2 := by
  refine ⟨speaks_keep k t m h.1, ?_⟩
  refine Md.md_keep (P := fun m => ∀ f, m.active = some f → f ∈ Md.Fences) (fun m h => h) ?_ k t m h.2
  intro t m h
  have sep : ∀ s o, s ∈ Md.Fences → ∀ f, (Md.matchSep s o t m).2.2.active = some f → f ∈ Md.Fences := by
    intro s o hs
    unfold Md.matchSep
    repeat' split
    · intro f hf; simp at hf; rw [← hf]; exact hs
    · intro f hf; simp at hf
    · exact h
  unfold Md.matchDocSep
  repeat' split
  · exact sep _ _ (by simp [Md.Fences])
  · exact sep _ _ (by simp [Md.Fences])
  · exact sep _ _ (by simp [Md.Fences])
  · exact sep _ _ (h _ (by assumption))

theorem sep_fence {t t' : Token} {m m' : MdState} (hm : ∀ f, m.active = some f → f ∈ Md.Fences) (h : Md.matchDocSep t m = (.ok true, t', m')) :
    (fenceOf t.line.text).isSome = true := by
  have sep : ∀ s o, s ∈ Md.Fences → Md.matchSep s o t m = (.ok true, t', m') → (fenceOf t.line.text).isSome = true := by
    intro s o hs h
    have hst : t.line.startsWith s = true := by
      unfold Md.matchSep at h
      split at h
      · assumption
      · simp at h
    rw [Md.fence_cases]
    simp only [Md.Fences, List.mem_cons, List.not_mem_nil, or_false] at hs
    rcases hs with rfl | rfl | rfl
    · rw [if_pos hst]; rfl
    · split
      · rfl
      · rfl
    · split
      · rfl
      · split
        · rfl
        · rfl
  unfold Md.matchDocSep at h
  split at h
  · split at h
    · exact sep _ _ (by simp [Md.Fences]) h
    · split at h
      · exact sep _ _ (by simp [Md.Fences]) h
      · exact sep _ _ (by simp [Md.Fences]) h
  · exact sep _ _ (hm _ (by assumption)) h

theorem other_prose {t t' : Token} {m m' : MdState} (hm : ∀ f, m.active = some f → f ∈ Md.Fences) (h : Md.matchOther t m = (.ok true, t', m')) :
    ProseOf t.line.text (textOf t') := by
  simp only [Md.matchOther, Prod.mk.injEq, true_and] at h
  obtain ⟨rfl, rfl⟩ := h
  simp only [textOf, setMatched, Option.map_some, Option.getD_some, outdent_eq]
  refine ⟨m.indentToRemove, ?_⟩
  unfold Classic.unescapeDoc
  split
  · right; exact ⟨Classic.quotes, by decide, rfl⟩
  · split
    · right; exact ⟨Classic.ticks, by decide, rfl⟩
    · left; rfl

end Gherkin
