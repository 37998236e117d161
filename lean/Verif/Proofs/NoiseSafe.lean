import Verif.Proofs.Noise

/-! Other lines belong to descriptions or doc strings. -/

namespace Gherkin

open Auto Cst

theorem other_mem {D : CDoc} (hD : D.Ok) {t : Token} (h : t ∈ D.toks) (hk : t.type = some .other) :
    (∃ p line desc, (p, line, desc) ∈ D.parts ∧ t ∈ desc) ∨ ∃ S ∈ D.steps, ∃ o ls c, S.arg = .doc o ls c ∧ t ∈ ls := by
  have no : ∀ {k : Kind}, t.type = some k → k ≠ .other → False := by intro k h1 h2; rw [h1] at hk; exact h2 (by simpa using hk)
  have tag : ∀ ts, TagsOk ts → t ∉ ts := by intro ts h1 h2; exact no (h1 t h2) (by simp)
  have st : ∀ s : CStep, s.Ok → t ∈ s.toks → ∃ o ls c, s.arg = .doc o ls c ∧ t ∈ ls := by
    intro s hs h
    simp only [CStep.toks, List.mem_cons] at h
    rcases h with rfl | h
    · exact (no hs.1 (by simp)).elim
    · have ho := hs.2
      cases ha : s.arg with
      | none => rw [ha] at h; simp [Arg.toks] at h
      | table r rs => rw [ha] at h ho; exact (no (ho.1 t (by simpa [Arg.toks] using h)) (by simp)).elim
      | doc o ls c =>
        rw [ha] at h ho
        refine ⟨o, ls, c, rfl, ?_⟩
        simp only [Arg.toks, List.mem_cons, List.mem_append, List.not_mem_nil, or_false] at h
        rcases h with rfl | h | rfl
        · exact (no ho.1 (by simp)).elim
        · exact h
        · exact (no ho.2.2.2 (by simp)).elim
  have bg : ∀ b : CBackground, b.Ok → t ∈ b.toks → (∃ p line desc, (p, line, desc) ∈ b.parts ∧ t ∈ desc) ∨ ∃ S ∈ b.steps, ∃ o ls c, S.arg = .doc o ls c ∧ t ∈ ls := by
    intro b hb h
    simp only [CBackground.toks, List.mem_cons, List.mem_append, List.mem_flatMap] at h
    rcases h with rfl | h | ⟨S, hS, h⟩
    · exact (no hb.1 (by simp)).elim
    · exact .inl ⟨.background, b.line, b.desc, by simp [CBackground.parts], h⟩
    · exact .inr ⟨S, hS, st S (hb.2.2 S hS) h⟩
  have ex : ∀ b : CExamples, b.Ok → t ∈ b.toks → ∃ p line desc, (p, line, desc) ∈ b.parts ∧ t ∈ desc := by
    intro b hb h
    simp only [CExamples.toks, List.mem_cons, List.mem_append] at h
    rcases h with h | rfl | h | h
    · exact absurd h (tag _ hb.1)
    · exact (no hb.2.1 (by simp)).elim
    · exact ⟨.examples, b.line, b.desc, by simp [CExamples.parts], h⟩
    · exact (no (hb.2.2.2.1 t h) (by simp)).elim
  have sc : ∀ b : CScenario, b.Ok → t ∈ b.toks → (∃ p line desc, (p, line, desc) ∈ b.parts ∧ t ∈ desc) ∨ ∃ S ∈ b.steps, ∃ o ls c, S.arg = .doc o ls c ∧ t ∈ ls := by
    intro b hb h
    simp only [CScenario.toks, List.mem_cons, List.mem_append, List.mem_flatMap] at h
    rcases h with h | rfl | (h | ⟨S, hS, h⟩) | ⟨e, he, h⟩
    · exact absurd h (tag _ hb.1)
    · exact (no hb.2.1 (by simp)).elim
    · exact .inl ⟨.scenario, b.line, b.desc, by simp [CScenario.parts], h⟩
    · exact .inr ⟨S, hS, st S (hb.2.2.2.1 S hS) h⟩
    · obtain ⟨p, line, desc, h1, h2⟩ := ex e (hb.2.2.2.2 e he) h
      refine .inl ⟨p, line, desc, ?_, h2⟩
      simp only [CScenario.parts, List.mem_cons, List.mem_flatMap]
      exact .inr ⟨e, he, h1⟩
  simp only [CDoc.toks, List.mem_append, List.mem_flatMap, Option.mem_toList, List.mem_singleton] at h
  rcases h with ⟨f, hf, h⟩ | rfl
  · have hb := hD.1 f hf
    simp only [CFeature.toks, List.mem_cons, List.mem_append, List.mem_flatMap, Option.mem_toList] at h
    have conv : ((∃ p line desc, (p, line, desc) ∈ f.parts ∧ t ∈ desc) ∨
          ∃ S, ((∃ b ∈ D.backgrounds, S ∈ b.steps) ∨ (∃ b ∈ D.scenarios, S ∈ b.steps)) ∧ ∃ o ls c, S.arg = .doc o ls c ∧ t ∈ ls) →
        (∃ p line desc, (p, line, desc) ∈ D.parts ∧ t ∈ desc) ∨ ∃ S ∈ D.steps, ∃ o ls c, S.arg = .doc o ls c ∧ t ∈ ls := by
      rintro (⟨p, line, desc, h1, h2⟩ | ⟨S, hS, h⟩)
      · refine .inl ⟨p, line, desc, ?_, h2⟩
        simp only [CDoc.parts, List.mem_flatMap, Option.mem_toList]
        exact ⟨f, hf, h1⟩
      · refine .inr ⟨S, ?_, h⟩
        simp only [CDoc.steps, List.mem_append, List.mem_flatMap]
        exact hS
    apply conv
    rcases h with (h | h) | rfl | ((h | ⟨b, hbm, h⟩) | ⟨s, hs, h⟩) | ⟨r, hrm, h⟩
    · exact (no (hb.1 t h) (by simp)).elim
    · exact absurd h (tag _ hb.2.1)
    · exact (no hb.2.2.1 (by simp)).elim
    · exact .inl ⟨.feature, f.line, f.desc, by simp [CFeature.parts], h⟩
    · rcases bg b (hb.2.2.2.2.1 b hbm) h with ⟨p, line, desc, h1, h2⟩ | ⟨S, hS, h⟩
      · refine .inl ⟨p, line, desc, ?_, h2⟩
        simp only [CFeature.parts, List.mem_cons, List.mem_append, List.mem_flatMap, Option.mem_toList]
        exact .inr (.inl (.inl ⟨b, hbm, h1⟩))
      · refine .inr ⟨S, .inl ⟨b, ?_, hS⟩, h⟩
        simp only [CDoc.backgrounds, List.mem_flatMap, Option.mem_toList, List.mem_append]
        exact ⟨f, hf, .inl hbm⟩
    · rcases sc s (hb.2.2.2.2.2.1 s hs) h with ⟨p, line, desc, h1, h2⟩ | ⟨S, hS, h⟩
      · refine .inl ⟨p, line, desc, ?_, h2⟩
        simp only [CFeature.parts, List.mem_cons, List.mem_append, List.mem_flatMap, Option.mem_toList]
        exact .inr (.inl (.inr ⟨s, hs, h1⟩))
      · refine .inr ⟨S, .inr ⟨s, ?_, hS⟩, h⟩
        simp only [CDoc.scenarios, List.mem_flatMap, Option.mem_toList, List.mem_append]
        exact ⟨f, hf, .inl hs⟩
    · have hr := hb.2.2.2.2.2.2 r hrm
      have inR : ∀ {p line desc}, (p, line, desc) ∈ r.parts → (p, line, desc) ∈ f.parts := by
        intro p line desc h1
        simp only [CFeature.parts, List.mem_cons, List.mem_append, List.mem_flatMap, Option.mem_toList]
        exact .inr (.inr ⟨r, hrm, h1⟩)
      simp only [CRule.toks, List.mem_cons, List.mem_append, List.mem_flatMap, Option.mem_toList] at h
      rcases h with h | rfl | (h | ⟨b, hbm, h⟩) | ⟨s, hs, h⟩
      · exact absurd h (tag _ hr.1)
      · exact (no hr.2.1 (by simp)).elim
      · exact .inl ⟨.rule, r.line, r.desc, inR (by simp [CRule.parts]), h⟩
      · rcases bg b (hr.2.2.2.1 b hbm) h with ⟨p, line, desc, h1, h2⟩ | ⟨S, hS, h⟩
        · refine .inl ⟨p, line, desc, inR ?_, h2⟩
          simp only [CRule.parts, List.mem_cons, List.mem_append, List.mem_flatMap, Option.mem_toList]
          exact .inr (.inl ⟨b, hbm, h1⟩)
        · refine .inr ⟨S, .inl ⟨b, ?_, hS⟩, h⟩
          simp only [CDoc.backgrounds, List.mem_flatMap, Option.mem_toList, List.mem_append]
          exact ⟨f, hf, .inr ⟨r, hrm, hbm⟩⟩
      · rcases sc s (hr.2.2.2.2 s hs) h with ⟨p, line, desc, h1, h2⟩ | ⟨S, hS, h⟩
        · refine .inl ⟨p, line, desc, inR ?_, h2⟩
          simp only [CRule.parts, List.mem_cons, List.mem_append, List.mem_flatMap, Option.mem_toList]
          exact .inr (.inr ⟨s, hs, h1⟩)
        · refine .inr ⟨S, .inr ⟨s, ?_, hS⟩, h⟩
          simp only [CDoc.scenarios, List.mem_flatMap, Option.mem_toList, List.mem_append]
          exact ⟨f, hf, .inr ⟨r, hrm, hs⟩⟩
  · exact (no hD.2 (by simp)).elim

theorem part_ast {D : CDoc} {cm : List Comment} {n : Nat} {p : Part} {line : Token} {desc : List Token} (h : (p, line, desc) ∈ D.parts) :
    (p, line.loc, description desc) ∈ (D.ast cm n).1.parts := by
  have bg : ∀ (b : CBackground) (k : Nat), (p, line, desc) ∈ b.parts → (p, line.loc, description desc) ∈ (b.ast k).1.parts := by
    intro b k h
    simp only [CBackground.parts, List.mem_singleton, Prod.mk.injEq] at h
    obtain ⟨rfl, rfl, rfl⟩ := h
    simp [Background.parts, CBackground.ast]
  have ex : ∀ (b : CExamples) (k : Nat), (p, line, desc) ∈ b.parts → (p, line.loc, description desc) ∈ (b.ast k).1.parts := by
    intro b k h
    simp only [CExamples.parts, List.mem_singleton, Prod.mk.injEq] at h
    obtain ⟨rfl, rfl, rfl⟩ := h
    simp [Examples.parts, CExamples.ast]
  have sc : ∀ (b : CScenario) (k : Nat), (p, line, desc) ∈ b.parts → (p, line.loc, description desc) ∈ (b.ast k).1.parts := by
    intro b k h
    simp only [CScenario.parts, List.mem_cons, Prod.mk.injEq, List.mem_flatMap] at h
    simp only [Scenario.parts, CScenario.ast, List.mem_cons, Prod.mk.injEq, List.mem_flatMap]
    rcases h with ⟨rfl, rfl, rfl⟩ | ⟨e, he, h⟩
    · exact .inl ⟨rfl, rfl, rfl⟩
    · obtain ⟨j, hj⟩ := mem_thread (f := CExamples.ast) he (thread CStep.ast b.steps k).2
      exact .inr ⟨_, hj, ex e j h⟩
  have ru : ∀ (b : CRule) (k : Nat), (p, line, desc) ∈ b.parts → (p, line.loc, description desc) ∈ (b.ast k).1.parts := by
    intro b k h
    simp only [CRule.parts, List.mem_cons, Prod.mk.injEq, List.mem_flatMap, List.mem_append, Option.mem_toList] at h
    simp only [RuleNode.parts, CRule.ast, List.mem_cons, Prod.mk.injEq, List.mem_flatMap, List.mem_append, List.mem_map, Option.mem_toList]
    rcases h with ⟨rfl, rfl, rfl⟩ | ⟨e, he, h⟩ | ⟨e, he, h⟩
    · exact .inl ⟨rfl, rfl, rfl⟩
    · exact .inr ⟨_, .inl ⟨_, mem_threadOpt he k, rfl⟩, bg e k h⟩
    · obtain ⟨j, hj⟩ := mem_thread (f := CScenario.ast) he (threadOpt CBackground.ast b.background k).2
      exact .inr ⟨_, .inr ⟨_, hj, rfl⟩, sc e j h⟩
  simp only [CDoc.parts, List.mem_flatMap, Option.mem_toList] at h
  obtain ⟨F, hF, h⟩ := h
  simp only [Document.parts, CDoc.ast, List.mem_flatMap, Option.mem_toList]
  refine ⟨_, mem_threadOpt hF n, ?_⟩
  simp only [CFeature.parts, List.mem_cons, Prod.mk.injEq, List.mem_flatMap, List.mem_append, Option.mem_toList] at h
  simp only [Feature.parts, CFeature.ast, List.mem_cons, Prod.mk.injEq, List.mem_flatMap, List.mem_append, List.mem_map, Option.mem_toList]
  rcases h with ⟨rfl, rfl, rfl⟩ | ((⟨e, he, h⟩ | ⟨e, he, h⟩) | ⟨e, he, h⟩)
  · exact .inl ⟨rfl, rfl, rfl⟩
  · exact .inr ⟨_, .inl (.inl ⟨_, mem_threadOpt he n, rfl⟩), bg e n h⟩
  · obtain ⟨j, hj⟩ := mem_thread (f := CScenario.ast) he (threadOpt CBackground.ast F.background n).2
    exact .inr ⟨_, .inl (.inr ⟨_, hj, rfl⟩), sc e j h⟩
  · obtain ⟨j, hj⟩ := mem_thread (f := CRule.ast) he (thread CScenario.ast F.scenarios (threadOpt CBackground.ast F.background n).2).2
    exact .inr ⟨_, .inr ⟨_, hj, rfl⟩, ru e j h⟩

/-- A move outside doc strings that takes an other line: the line belongs to a description of the document. -/
theorem other_describes {text : Str} {m : CState} (hm : m.Valid) {mv1 : List Auto.Move} {z : Auto.Move} {mv2 : List Auto.Move} {q : Nat} {m' : CState}
    {D : CDoc} {cm : List Comment} {n : Nat}
    (hr : Auto.Run 0 (Classic.reset m) (tokenLines text) (mv1 ++ z :: mv2) q m') (hD : D.Ok)
    (ht : D.toks = ((mv1 ++ z :: mv2).map (·.tok)).filter Token.isCore) (hk : z.tr.kind = .other) (hz : z.state ∉ Auto.openStates) :
    (D.ast cm n).1.describes text (mv1.length + 1) := by
  have hsrc := Auto.tokenLines_src text
  have hinv := Auto.inv_start hm
  obtain ⟨l1, l, l2, m1, m2, e1, e2, e3, e4, _⟩ := Auto.run_at hr hsrc hinv
  have hty : z.tok.type = some .other := by rw [Auto.matched_type e3.matched, hk]
  have hmem : z.tok ∈ D.toks := by
    rw [ht, List.mem_filter]
    exact ⟨by simp, by rw [isCore_kind hty]; rfl⟩
  have hnum := move_number hm hr
  rcases other_mem hD hmem hty with ⟨p, line, desc, hp, hmd⟩ | ⟨S, hS, o, ls, c, ha, hmd⟩
  · obtain ⟨m3, _, _, hdesc⟩ := description_tokens hm hr hD ht hp
    rw [hdesc, List.mem_map] at hmd
    obtain ⟨l', hl', he⟩ := hmd
    have hloc : z.tok.loc.line = l'.number := by rw [← he]; rfl
    obtain ⟨d1, _, _⟩ := final_dialect hm hr
    have hf : ∃ F, D.feature = some F := by
      simp only [CDoc.parts, List.mem_flatMap, Option.mem_toList] at hp
      obtain ⟨F, hF, _⟩ := hp
      exact ⟨F, hF⟩
    obtain ⟨F, hF⟩ := hf
    refine ⟨(F.ast n).1, m'.dialectName, m'.dialect, ?_, ?_, d1, p, line.loc, _, part_ast hp, l', hl', ?_⟩
    · simp only [CDoc.ast, hF, threadOpt]
    · exact feature_language hm hr hD ht hF
    · rw [← hloc, hnum]
  · exfalso
    obtain ⟨mvA, x, mvC, y, mvB, f1, f2, f3, f4, f5, f6, f7, f8, f9, f10, f11, f12⟩ := (arg_doc_moves hr hsrc hinv hD ht hS ha).split
    rw [← f3, List.mem_map] at hmd
    obtain ⟨w, hw, he⟩ := hmd
    obtain ⟨c1, c2, rfl⟩ := List.append_of_mem hw
    have hr' : Auto.Run 0 (Classic.reset m) (tokenLines text) ((mvA ++ x :: c1) ++ w :: (c2 ++ y :: mvB)) q m' := by
      have : mv1 ++ z :: mv2 = (mvA ++ x :: c1) ++ w :: (c2 ++ y :: mvB) := by rw [f1]; simp
      rw [← this]; exact hr
    have hnum2 := move_number hm hr'
    rw [he, hnum] at hnum2
    have hlen : mv1.length = (mvA ++ x :: c1).length := by omega
    have heq : mv1 ++ z :: mv2 = (mvA ++ x :: c1) ++ w :: (c2 ++ y :: mvB) := by rw [f1]; simp
    have := (List.append_inj heq hlen).2
    simp only [List.cons.injEq] at this
    have hs := (f8 w (by simp)).2
    rw [← this.1] at hs
    rw [hs] at hz
    exact hz f7

/-- After the place the first line that is not blank is no description line. -/
theorem safe_of {text : Str} {m : CState} (hm : m.Valid) {mvA mvB : List Auto.Move} {q : Nat} {m' : CState}
    {D : CDoc} {cm : List Comment} {n : Nat}
    (hr : Auto.Run 0 (Classic.reset m) (tokenLines text) (mvA ++ mvB) q m') (hD : D.Ok)
    (ht : D.toks = ((mvA ++ mvB).map (·.tok)).filter Token.isCore)
    (h : ∀ j, NextLine text mvA.length j → ¬ (D.ast cm n).1.describes text j) : Auto.Safe mvB := by
  rintro mvX z mvY rfl hX hk hz
  apply Classical.byContradiction
  intro hb
  have hr' : Auto.Run 0 (Classic.reset m) (tokenLines text) ((mvA ++ mvX) ++ z :: mvY) q m' := by simpa using hr
  have ht' : D.toks = (((mvA ++ mvX) ++ z :: mvY).map (·.tok)).filter Token.isCore := by simpa using ht
  refine h _ ?_ (other_describes hm hr' hD ht' hk hz)
  have hlines := Auto.run_lines hr' (Auto.tokenLines_src text)
  have hsrc := Auto.tokenLines_src text
  obtain ⟨l1, l, l2, m1, m2, e1, e2, e3, e4, e5, e6, e7, e8⟩ := Auto.run_at hr' hsrc (Auto.inv_start hm)
  have hne : l.isEof = false := e3.eof.resolve_left (by rw [hk]; simp)
  have hb' : isBlankLine l = false := by rw [isBlankLine_iff, ← e4.1]; simpa using hb
  obtain ⟨n1, n2⟩ := lines_split e1
  refine ⟨by simp; omega, ⟨l.text, ?_, ?_⟩, ?_⟩
  · rw [← e2]
    exact (lineIs_iff e1 hne).2 rfl
  · intro hbt
    rw [blank_iff.2 hbt] at hb'; simp at hb'
  · intro j hj1 hj2 s hs
    have hj : j - 1 < (tokenLines text).length := by
      rw [← hlines]; simp at hj2 ⊢; omega
    have hs2 := hs.2
    have hget : (tokenLines text)[j - 1]? = some ⟨s, j⟩ := by
      have h1 := List.getElem?_eq_some_iff.1 hs2
      obtain ⟨h1, h2⟩ := h1
      rw [tokenLines, List.getElem?_append_left (by simp [sourceLines]; exact h1), sourceLines, List.getElem?_map, List.getElem?_zipIdx, hs2]
      simp; omega
    rw [← hlines, List.getElem?_map, List.append_assoc, List.getElem?_append_right (by omega)] at hget
    rw [List.getElem?_append_left (by simp at hj2; omega)] at hget
    simp only [Option.map_eq_some_iff] at hget
    obtain ⟨w, hw, hw2⟩ := hget
    have := hX w (List.mem_of_getElem? hw)
    rw [hw2, ← isBlankLine_iff] at this
    exact blank_iff.1 this

end Gherkin
