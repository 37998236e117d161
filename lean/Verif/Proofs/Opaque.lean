import Verif.Proofs.Describe

/-! Which lines of an accepted text are inside doc strings. -/

namespace Gherkin

open Cst

/-- The moves of a doc string. -/
structure DocMoves (mv : List Auto.Move) (o : Token) (ls : List Token) (c : Token) : Prop where
  split : ∃ mv1 x mvC y mv2, mv = mv1 ++ x :: (mvC ++ y :: mv2) ∧ x.tok = o ∧ mvC.map (·.tok) = ls ∧ y.tok = c ∧
    x.tr.kind = .docStringSeparator ∧ x.state ∉ Auto.openStates ∧ x.tr.target ∈ Auto.openStates ∧
    (∀ z ∈ mvC, z.tr.kind = .other ∧ z.state = x.tr.target) ∧ y.tr.kind = .docStringSeparator ∧ y.state = x.tr.target ∧ y.tok.text = none ∧
    x.tok.text.isSome = true

theorem arg_doc_moves {lines : List Line} {m : CState} {mv : List Auto.Move} {q : Nat} {m' : CState} {D : CDoc} {q0 : Nat}
    (hr : Auto.Run q0 m lines mv q m') (hsrc : Auto.Src lines) (hinv : Auto.Inv q0 m) (hD : D.Ok)
    (ht : D.toks = (mv.map (·.tok)).filter Token.isCore)
    {S : CStep} (hS : S ∈ D.steps) {o c : Token} {ls : List Token} (ha : S.arg = .doc o ls c) : DocMoves mv o ls c := by
  have hok := (csteps_ok hD hS).2
  rw [ha] at hok
  obtain ⟨A, B, hAB⟩ := step_infix hS
  have h1 : (mv.map (·.tok)).filter Token.isCore = (A ++ [S.line]) ++ o :: (ls ++ c :: B) := by
    rw [← ht, ← hAB]; simp [CStep.toks, ha, Arg.toks]
  obtain ⟨mv1, x, mv2, rfl, hx, h2, _⟩ := locate h1
  obtain ⟨l1, l, l2, m1, m2, e1, e2, e3, e4, e5, e6, e7, e8⟩ := Auto.run_at hr hsrc hinv
  have hk : x.tr.kind = .docStringSeparator := by
    have := Auto.matched_type e3.matched
    rw [hx, hok.1] at this
    simpa using this.symm
  have hmt := e3.matched
  rw [hk] at hmt
  rcases Auto.docSep_cases e5.sep hmt with ⟨hact, s, hs, hst, rfl, htok⟩ | ⟨s, _, _, _, htok⟩
  · have hne : l.isEof = false := by
      rcases e3.eof with h | h
      · rw [hk] at h; simp at h
      · exact h
    rcases e8 with ⟨h, _⟩ | ⟨_, hsrc, hrun⟩
    · rw [hne] at h; simp at h
    obtain ⟨content, closing, rest, mvC, y, mv', f1, f2, f3, f4, f5, f6, f7, f8, f9, f10, g1, g2, f11, _⟩ := Auto.run_open (s := s) hrun hsrc e6 rfl
    subst f1; subst f5
    have htypes : ∀ z ∈ mvC.map (·.tok), z.type = some .other := by
      rw [f6]; intro z hz; simp at hz; obtain ⟨w, _, rfl⟩ := hz; rfl
    have hyt : y.tok.type = some .docStringSeparator := by
      have := Auto.run_types hrun y (by simp); rw [this, f7]
    have hfil : (mvC.map (·.tok)).filter Token.isCore = mvC.map (·.tok) :=
      List.filter_eq_self.2 fun z hz => by rw [isCore_kind (htypes z hz)]; rfl
    rw [List.map_append, List.filter_append, hfil, List.map_cons, List.filter_cons, if_pos (by rw [isCore_kind hyt]; rfl)] at h2
    have hblock := block_unique (p := fun t : Token => t.type = some .other) h2.symm hok.2.2.1 htypes
      (by intro z hz; simp at hz; subst hz; rw [hok.2.2.2]; simp) (by intro z hz; simp at hz; subst hz; rw [hyt]; simp)
    have hq : x.state ∉ Auto.openStates := by rw [e5.active, hact]; simp
    refine ⟨mv1, x, mvC, y, mv', rfl, hx, hblock.1.symm, ?_, hk, hq, (e3.facts.sep hk).2 hq, fun z hz => ⟨f10 z hz, g1 z hz⟩, f7, g2, f9, ?_⟩
    · have := hblock.2; simp at this; exact this.1.symm
    · rw [htok]; simp [setMatched]
  · rw [← hx, htok] at hok
    have := hok.2.1
    simp [setMatched] at this

theorem sep_mem {D : CDoc} (hD : D.Ok) {t : Token} (h : t ∈ D.toks) (hk : t.type = some .docStringSeparator) :
    ∃ S ∈ D.steps, ∃ o ls c, S.arg = .doc o ls c ∧ (t = o ∨ t = c) := by
  have tag : ∀ ts, TagsOk ts → t ∉ ts := by intro ts h1 h2; rw [h1 t h2] at hk; simp at hk
  have desc : ∀ ts, DescOk ts → t ∉ ts := by intro ts h1 h2; rw [h1 t h2] at hk; simp at hk
  have st : ∀ s : CStep, s.Ok → t ∈ s.toks → ∃ o ls c, s.arg = .doc o ls c ∧ (t = o ∨ t = c) := by
    intro s hs h
    simp only [CStep.toks, List.mem_cons] at h
    rcases h with rfl | h
    · rw [hs.1] at hk; simp at hk
    · have ho := hs.2
      cases ha : s.arg with
      | none => rw [ha] at h; simp [Arg.toks] at h
      | table r rs => rw [ha] at h ho; rw [ho.1 t (by simpa [Arg.toks] using h)] at hk; simp at hk
      | doc o ls c =>
        rw [ha] at h ho
        refine ⟨o, ls, c, rfl, ?_⟩
        simp only [Arg.toks, List.mem_cons, List.mem_append, List.not_mem_nil, or_false] at h
        rcases h with h | h | h
        · exact .inl h
        · rw [ho.2.2.1 t h] at hk; simp at hk
        · exact .inr h
  have bg : ∀ b : CBackground, b.Ok → t ∈ b.toks → ∃ S ∈ b.steps, ∃ o ls c, S.arg = .doc o ls c ∧ (t = o ∨ t = c) := by
    intro b hb h
    simp only [CBackground.toks, List.mem_cons, List.mem_append, List.mem_flatMap] at h
    rcases h with rfl | h | ⟨S, hS, h⟩
    · rw [hb.1] at hk; simp at hk
    · exact absurd h (desc _ hb.2.1)
    · exact ⟨S, hS, st S (hb.2.2 S hS) h⟩
  have ex : ∀ b : CExamples, b.Ok → t ∉ b.toks := by
    intro b hb h
    simp only [CExamples.toks, List.mem_cons, List.mem_append] at h
    rcases h with h | rfl | h | h
    · exact absurd h (tag _ hb.1)
    · rw [hb.2.1] at hk; simp at hk
    · exact absurd h (desc _ hb.2.2.1)
    · rw [hb.2.2.2.1 t h] at hk; simp at hk
  have sc : ∀ b : CScenario, b.Ok → t ∈ b.toks → ∃ S ∈ b.steps, ∃ o ls c, S.arg = .doc o ls c ∧ (t = o ∨ t = c) := by
    intro b hb h
    simp only [CScenario.toks, List.mem_cons, List.mem_append, List.mem_flatMap] at h
    rcases h with h | rfl | (h | ⟨S, hS, h⟩) | ⟨e, he, h⟩
    · exact absurd h (tag _ hb.1)
    · rw [hb.2.1] at hk; simp at hk
    · exact absurd h (desc _ hb.2.2.1)
    · exact ⟨S, hS, st S (hb.2.2.2.1 S hS) h⟩
    · exact absurd h (ex e (hb.2.2.2.2 e he))
  simp only [CDoc.toks, List.mem_append, List.mem_flatMap, Option.mem_toList, List.mem_singleton] at h
  rcases h with ⟨f, hf, h⟩ | rfl
  · have hb := hD.1 f hf
    simp only [CFeature.toks, List.mem_cons, List.mem_append, List.mem_flatMap, Option.mem_toList] at h
    have conv : (∃ S, ((∃ b ∈ D.backgrounds, S ∈ b.steps) ∨ (∃ b ∈ D.scenarios, S ∈ b.steps)) ∧ ∃ o ls c, S.arg = .doc o ls c ∧ (t = o ∨ t = c)) →
        ∃ S ∈ D.steps, ∃ o ls c, S.arg = .doc o ls c ∧ (t = o ∨ t = c) := by
      rintro ⟨S, hS, h⟩
      refine ⟨S, ?_, h⟩
      simp only [CDoc.steps, List.mem_append, List.mem_flatMap]
      exact hS
    apply conv
    rcases h with (h | h) | rfl | ((h | ⟨b, hbm, h⟩) | ⟨s, hs, h⟩) | ⟨r, hrm, h⟩
    · rw [hb.1 t h] at hk; simp at hk
    · exact absurd h (tag _ hb.2.1)
    · rw [hb.2.2.1] at hk; simp at hk
    · exact absurd h (desc _ hb.2.2.2.1)
    · obtain ⟨S, hS, h⟩ := bg b (hb.2.2.2.2.1 b hbm) h
      refine ⟨S, .inl ⟨b, ?_, hS⟩, h⟩
      simp only [CDoc.backgrounds, List.mem_flatMap, Option.mem_toList, List.mem_append]
      exact ⟨f, hf, .inl hbm⟩
    · obtain ⟨S, hS, h⟩ := sc s (hb.2.2.2.2.2.1 s hs) h
      refine ⟨S, .inr ⟨s, ?_, hS⟩, h⟩
      simp only [CDoc.scenarios, List.mem_flatMap, Option.mem_toList, List.mem_append]
      exact ⟨f, hf, .inl hs⟩
    · have hr := hb.2.2.2.2.2.2 r hrm
      simp only [CRule.toks, List.mem_cons, List.mem_append, List.mem_flatMap, Option.mem_toList] at h
      rcases h with h | rfl | (h | ⟨b, hbm, h⟩) | ⟨s, hs, h⟩
      · exact absurd h (tag _ hr.1)
      · rw [hr.2.1] at hk; simp at hk
      · exact absurd h (desc _ hr.2.2.1)
      · obtain ⟨S, hS, h⟩ := bg b (hr.2.2.2.1 b hbm) h
        refine ⟨S, .inl ⟨b, ?_, hS⟩, h⟩
        simp only [CDoc.backgrounds, List.mem_flatMap, Option.mem_toList, List.mem_append]
        exact ⟨f, hf, .inr ⟨r, hrm, hbm⟩⟩
      · obtain ⟨S, hS, h⟩ := sc s (hr.2.2.2.2 s hs) h
        refine ⟨S, .inr ⟨s, ?_, hS⟩, h⟩
        simp only [CDoc.scenarios, List.mem_flatMap, Option.mem_toList, List.mem_append]
        exact ⟨f, hf, .inr ⟨r, hrm, hs⟩⟩
  · rw [hD.2] at hk; simp at hk

/-- Consecutive moves. -/
theorem Auto.run_next {q : Nat} {m : CState} {lines : List Line} {mv1 : List Move} {y x : Move} {mv2 : List Move} {q' : Nat} {m' : CState}
    (h : Run q m lines (mv1 ++ y :: x :: mv2) q' m') (hs : Src lines) (hi : Inv q m) :
    ∃ l rest m1 m2, StepSpec y.state l rest m1 y.tr y.tok m2 ∧ x.state = y.tr.target := by
  obtain ⟨l1, l, l2, m1, m2, e1, e2, e3, e4, e5, e6, e7, e8⟩ := run_at h hs hi
  rcases e8 with ⟨_, _, h, _⟩ | ⟨_, hs', hr⟩
  · simp at h
  obtain ⟨l', rest, x', mv', m3, rfl, h1, h2, _⟩ := run_cons hr hs'
  simp at h1
  exact ⟨l, _, m1, m2, e3, by rw [h1.1]; exact h2⟩

/-- A line read in an open state was preceded by an opening delimiter. -/
theorem Auto.open_back {q : Nat} {m : CState} {lines : List Line} {q' : Nat} {m' : CState} (hs : Src lines) (hi : Inv q m)
    (hq : q ∉ openStates) : ∀ (n : Nat) {mv1 : List Move} {x : Move} {mv2 : List Move}, mv1.length = n →
    Run q m lines (mv1 ++ x :: mv2) q' m' → x.state ∈ openStates →
    ∃ a o b, mv1 = a ++ o :: b ∧ o.tr.kind = .docStringSeparator ∧ o.state ∉ openStates ∧ (∀ y ∈ b, y.tr.kind = .other) := by
  intro n
  induction n with
  | zero =>
    intro mv1 x mv2 hn h hx
    have : mv1 = [] := List.length_eq_zero_iff.1 hn
    subst this
    obtain ⟨l, rest, x', mv', m1, rfl, h1, h2, _⟩ := run_cons h hs
    simp at h1
    rw [h1.1, h2] at hx
    exact absurd hx hq
  | succ n ih =>
    intro mv1 x mv2 hn h hx
    obtain ⟨mv0, y, rfl⟩ : ∃ mv0 y, mv1 = mv0 ++ [y] :=
      ⟨mv1.dropLast, mv1.getLast (by intro h; simp [h] at hn), (List.dropLast_append_getLast _).symm⟩
    simp only [List.append_assoc, List.cons_append, List.nil_append] at h
    obtain ⟨l, rest, m1, m2, h2, hxs⟩ := run_next h hs hi
    rw [hxs] at hx
    by_cases hy : y.state ∈ openStates
    · obtain ⟨a, o, b, e1, e2, e3, e4⟩ := ih (by simpa using hn) h hy
      refine ⟨a, o, b ++ [y], by rw [e1]; simp, e2, e3, ?_⟩
      intro w hw
      simp at hw
      rcases hw with hw | rfl
      · exact e4 w hw
      · rcases h2.facts.inside hy with hk | hk
        · exact absurd hy ((h2.facts.sep hk).1 hx)
        · exact hk.1
    · refine ⟨mv0, y, [], rfl, ?_, hy, by simp⟩
      apply Classical.byContradiction
      intro hc; exact hy ((h2.facts.keep hc).1 hx)

/-! ### From the typed tree to the document -/

theorem mem_thread {X A : Type} {f : X → Nat → A × Nat} {xs : List X} {x : X} (h : x ∈ xs) (n : Nat) :
    ∃ k, (f x k).1 ∈ (thread f xs n).1 := by
  induction xs generalizing n with
  | nil => simp at h
  | cons y ys ih =>
    simp only [thread, List.mem_cons] at h ⊢
    rcases h with rfl | h
    · exact ⟨n, .inl rfl⟩
    · obtain ⟨k, hk⟩ := ih h (f y n).2
      exact ⟨k, .inr hk⟩

theorem mem_threadOpt {X A : Type} {f : X → Nat → A × Nat} {o : Option X} {x : X} (h : o = some x) (n : Nat) :
    (threadOpt f o n).1 = some (f x n).1 := by subst h; rfl

theorem background_ast {d : CDoc} {cm : List Comment} {n : Nat} {b : CBackground} (h : b ∈ d.backgrounds) :
    ∃ k, (b.ast k).1 ∈ (d.ast cm n).1.backgrounds := by
  simp only [CDoc.backgrounds, List.mem_flatMap, Option.mem_toList, List.mem_append] at h
  obtain ⟨F, hF, h⟩ := h
  have hf := mem_threadOpt (f := CFeature.ast) hF n
  simp only [Document.backgrounds, CDoc.ast, List.mem_flatMap, Option.mem_toList]
  rcases h with h | ⟨R, hR, h⟩
  · refine ⟨n, _, hf, .background (b.ast n).1, ?_, by simp [FeatureChild.backgrounds]⟩
    simp only [CFeature.ast, List.mem_append, List.mem_map, Option.mem_toList]
    exact .inl (.inl ⟨_, mem_threadOpt h n, rfl⟩)
  · obtain ⟨k, hk⟩ := mem_thread (f := CRule.ast) hR (thread CScenario.ast F.scenarios (threadOpt CBackground.ast F.background n).2).2
    refine ⟨k, _, hf, .rule (R.ast k).1, ?_, ?_⟩
    · simp only [CFeature.ast, List.mem_append, List.mem_map, Option.mem_toList]
      exact .inr ⟨_, hk, rfl⟩
    · simp only [FeatureChild.backgrounds, CRule.ast, List.mem_flatMap, List.mem_append, List.mem_map, Option.mem_toList]
      exact ⟨_, .inl ⟨_, mem_threadOpt h k, rfl⟩, by simp⟩

theorem scenario_ast {d : CDoc} {cm : List Comment} {n : Nat} {b : CScenario} (h : b ∈ d.scenarios) :
    ∃ k, (b.ast k).1 ∈ (d.ast cm n).1.scenarios := by
  simp only [CDoc.scenarios, List.mem_flatMap, Option.mem_toList, List.mem_append] at h
  obtain ⟨F, hF, h⟩ := h
  have hf := mem_threadOpt (f := CFeature.ast) hF n
  simp only [Document.scenarios, CDoc.ast, List.mem_flatMap, Option.mem_toList]
  rcases h with h | ⟨R, hR, h⟩
  · obtain ⟨k, hk⟩ := mem_thread (f := CScenario.ast) h (threadOpt CBackground.ast F.background n).2
    refine ⟨k, _, hf, .scenario (b.ast k).1, ?_, by simp [FeatureChild.scenarios]⟩
    simp only [CFeature.ast, List.mem_append, List.mem_map, Option.mem_toList]
    exact .inl (.inr ⟨_, hk, rfl⟩)
  · obtain ⟨k, hk⟩ := mem_thread (f := CRule.ast) hR (thread CScenario.ast F.scenarios (threadOpt CBackground.ast F.background n).2).2
    obtain ⟨j, hj⟩ := mem_thread (f := CScenario.ast) h (threadOpt CBackground.ast R.background k).2
    refine ⟨j, _, hf, .rule (R.ast k).1, ?_, ?_⟩
    · simp only [CFeature.ast, List.mem_append, List.mem_map, Option.mem_toList]
      exact .inr ⟨_, hk, rfl⟩
    · simp only [FeatureChild.scenarios, CRule.ast, List.mem_flatMap, List.mem_append, List.mem_map, Option.mem_toList]
      exact ⟨_, .inr ⟨_, hj, rfl⟩, by simp⟩

theorem step_ast {d : CDoc} {cm : List Comment} {n : Nat} {s : CStep} (h : s ∈ d.steps) :
    ∃ k, (s.ast k).1 ∈ (d.ast cm n).1.steps := by
  simp only [CDoc.steps, List.mem_append, List.mem_flatMap] at h
  simp only [Document.steps, List.mem_append, List.mem_flatMap]
  rcases h with ⟨b, hb, h⟩ | ⟨b, hb, h⟩
  · obtain ⟨k, hk⟩ := background_ast (cm := cm) (n := n) hb
    obtain ⟨j, hj⟩ := mem_thread (f := CStep.ast) h k
    exact ⟨j, .inl ⟨_, hk, hj⟩⟩
  · obtain ⟨k, hk⟩ := scenario_ast (cm := cm) (n := n) hb
    obtain ⟨j, hj⟩ := mem_thread (f := CStep.ast) h k
    exact ⟨j, .inr ⟨_, hk, hj⟩⟩

/-! ### Line numbers -/

/-- The number of the line a move reads. -/
theorem move_number {text : Str} {m : CState} (hm : m.Valid) {mv1 : List Auto.Move} {x : Auto.Move} {mv2 : List Auto.Move} {q : Nat} {m' : CState}
    (hr : Auto.Run 0 (Classic.reset m) (tokenLines text) (mv1 ++ x :: mv2) q m') : x.tok.loc.line = mv1.length + 1 := by
  obtain ⟨l1, l, l2, m1, m2, e1, e2, e3, e4, _⟩ := Auto.run_at hr (Auto.tokenLines_src text) (Auto.inv_start hm)
  rw [e4.2, ← e2]
  have hi : l1.length < (tokenLines text).length := by rw [e1]; simp
  have := tokenLines_getElem hi
  simp only [e1] at this
  simpa using this

/-- The content and closing line of a doc string are the lines after its opening line. -/
theorem doc_block {text : Str} {m : CState} (hm : m.Valid) {mv : List Auto.Move} {q : Nat} {m' : CState} {D : CDoc}
    (hr : Auto.Run 0 (Classic.reset m) (tokenLines text) mv q m') (hD : D.Ok) (ht : D.toks = (mv.map (·.tok)).filter Token.isCore)
    {S : CStep} (hS : S ∈ D.steps) {o c : Token} {ls : List Token} (ha : S.arg = .doc o ls c) :
    (docBody text o.loc.line (o.keyword.getD [])).length = ls.length := by
  obtain ⟨l, s, ⟨_, _, _, content, closing, rest, h1, h2, h3, h4⟩, hloc, hkw, _⟩ := arg_doc_run hm hr hD ht hS ha
  rw [hloc, hkw]
  have : docBody text l.number s = content := by
    simp only [docBody, h1]
    exact takeWhile_split (fun y hy => by simp [isDelim_eq, h2 y hy]) (by simp [isDelim_eq, h3])
  simp only [Option.getD_some, this]
  have := congrArg List.length h4
  simpa using this.symm

/-- The lines read in an open state are exactly the lines inside the doc strings of the document. -/
theorem open_iff {text : Str} {m : CState} (hm : m.Valid) {mv1 : List Auto.Move} {z : Auto.Move} {mv2 : List Auto.Move} {q : Nat} {m' : CState}
    {D : CDoc} {cm : List Comment} {n : Nat}
    (hr : Auto.Run 0 (Classic.reset m) (tokenLines text) (mv1 ++ z :: mv2) q m') (hD : D.Ok)
    (ht : D.toks = ((mv1 ++ z :: mv2).map (·.tok)).filter Token.isCore) :
    z.state ∈ Auto.openStates ↔ (D.ast cm n).1.inDocString text (mv1.length + 1) := by
  have hsrc := Auto.tokenLines_src text
  have hinv := Auto.inv_start hm
  constructor
  · intro hz
    obtain ⟨a, o, b, rfl, ho1, ho2, ho3⟩ := Auto.open_back hsrc hinv (by simp [Auto.openStates]) _ rfl hr hz
    have hr' : Auto.Run 0 (Classic.reset m) (tokenLines text) (a ++ o :: (b ++ z :: mv2)) q m' := by simpa using hr
    have ht' : D.toks = ((a ++ o :: (b ++ z :: mv2)).map (·.tok)).filter Token.isCore := by simpa using ht
    obtain ⟨l1, l, l2, m1, m2, e1, e2, e3, e4, e5, e6, e7, e8⟩ := Auto.run_at hr' hsrc hinv
    have hty := Auto.matched_type e3.matched
    rw [ho1] at hty
    have hmem : o.tok ∈ D.toks := by
      rw [ht', List.mem_filter]
      exact ⟨by simp, by rw [isCore_kind hty]; rfl⟩
    obtain ⟨S, hS, O, ls, C, ha, hoc⟩ := sep_mem hD hmem hty
    obtain ⟨mvA, x, mvC, y, mvB, f1, f2, f3, f4, f5, f6, f7, f8, f9, f10, f11, f12⟩ := (arg_doc_moves hr' hsrc hinv hD ht' hS ha).split
    have hsome : o.tok.text.isSome = true := by
      have hmt := e3.matched
      rw [ho1] at hmt
      rcases Auto.docSep_cases e5.sep hmt with ⟨_, s, _, _, _, htok⟩ | ⟨s, hs, _⟩
      · rw [htok]; simp [setMatched]
      · exact absurd (e5.active.2 (by rw [hs]; simp)) ho2
    have hO : o.tok = O := by
      rcases hoc with h | h
      · exact h
      · rw [h, ← f4, f11] at hsome; simp at hsome
    have hpos : a.length = mvA.length := by
      have h1 := move_number hm hr'
      have h2 := move_number hm (by rw [← f1]; exact hr')
      rw [hO, ← f2] at h1
      omega
    have hspl := List.append_inj f1 hpos
    have htail : b ++ z :: mv2 = mvC ++ y :: mvB := by have := hspl.2; simp at this; exact this.2
    have hle : b.length ≤ mvC.length := by
      apply Classical.byContradiction
      intro hc
      have hlt : mvC.length < b.length := by omega
      have h1 : (b ++ z :: mv2)[mvC.length]? = some y := by rw [htail]; simp
      rw [List.getElem?_append_left hlt] at h1
      have := ho3 y (List.mem_of_getElem? h1)
      rw [this] at f9; simp at f9
    obtain ⟨k, hk⟩ := step_ast (cm := cm) (n := n) hS
    refine ⟨{ loc := O.loc, content := joinStr ['\n'] (ls.map textOf), delimiter := O.keyword, mediaType := if textOf O = [] then none else some (textOf O) }, ?_, ?_⟩
    · simp only [Document.docStrings, List.mem_filterMap]
      exact ⟨_, hk, by simp [CStep.ast, ha, Arg.ast]⟩
    · simp only [DocString.lines, List.mem_range'_1]
      rw [doc_block hm hr' hD ht' hS ha, ← hO, move_number hm hr', ← f3]
      simp only [List.length_append, List.length_cons, List.length_map]
      omega
  · rintro ⟨x, hx, hn⟩
    simp only [Document.docStrings, List.mem_filterMap] at hx
    obtain ⟨s, hs, hx⟩ := hx
    obtain ⟨S, hS, k, rfl⟩ := ast_steps hs
    cases ha : S.arg with
    | none => simp [CStep.ast, ha, Arg.ast] at hx
    | table r rs => simp [CStep.ast, ha, Arg.ast] at hx
    | doc o ls c =>
      simp [CStep.ast, ha, Arg.ast] at hx
      subst hx
      simp only [DocString.lines, List.mem_range'_1] at hn
      rw [doc_block hm hr hD ht hS ha] at hn
      obtain ⟨mvA, x, mvC, y, mvB, f1, f2, f3, f4, f5, f6, f7, f8, f9, f10, f11, f12⟩ := (arg_doc_moves hr hsrc hinv hD ht hS ha).split
      have h2 := move_number hm (by rw [← f1]; exact hr)
      rw [f2] at h2
      rw [h2, ← f3, List.length_map] at hn
      have hzi : (mv1 ++ z :: mv2)[mv1.length]? = some z := by simp
      rw [f1, List.getElem?_append_right (by omega), List.getElem?_cons, if_neg (by omega)] at hzi
      by_cases hlt : mv1.length - mvA.length - 1 < mvC.length
      · rw [List.getElem?_append_left hlt] at hzi
        rw [(f8 z (List.mem_of_getElem? hzi)).2]; exact f7
      · have he : mv1.length - mvA.length - 1 = mvC.length := by omega
        rw [he] at hzi
        simp at hzi
        rw [← hzi, f10]; exact f7

end Gherkin
