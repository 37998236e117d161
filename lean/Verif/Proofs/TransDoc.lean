import Verif.Proofs.CstMap
import Verif.Spec.Translate

/-! Documents whose tokens differ in columns, keywords and the language only. -/

namespace Gherkin

open Cst

/-- A token without keyword and language. -/
def Token.hush (t : Token) : Token :=
  { t with keyword := if t.type = some .docStringSeparator then t.keyword else none, dialect := none, text := if t.type = some .language then none else t.text }

namespace Cst

theorem toks_hush {ts : List Token} {k : Kind} (h : ∀ t ∈ ts, t.type = some k) : ∀ t ∈ ts.map Token.hush, t.type = some k := by
  intro t ht
  rw [List.mem_map] at ht
  obtain ⟨x, hx, rfl⟩ := ht
  exact h x hx

theorem rect_hush {ts : List Token} (h : Rect ts) : Rect (ts.map Token.hush) := by
  cases ts with
  | nil => trivial
  | cons r rs =>
    intro x hx
    rw [List.mem_map] at hx
    obtain ⟨y, hy, rfl⟩ := hx
    exact h y hy

theorem Arg.hush_ok {a : Arg} (h : a.Ok) : (a.map Token.hush).Ok := by
  cases a with
  | none => trivial
  | table r rs => exact ⟨toks_hush (ts := r :: rs) h.1, rect_hush (ts := r :: rs) h.2⟩
  | doc o ls c =>
    refine ⟨h.1, ?_, toks_hush h.2.2.1, h.2.2.2⟩
    simp only [Token.hush, h.1]
    exact h.2.1

theorem CStep.hush_ok {s : CStep} (h : s.Ok) : (s.map Token.hush).Ok := ⟨h.1, Arg.hush_ok h.2⟩
theorem CBackground.hush_ok {b : CBackground} (h : b.Ok) : (b.map Token.hush).Ok := ⟨h.1, toks_hush h.2.1, all_map h.2.2 fun _ => CStep.hush_ok⟩
theorem CExamples.hush_ok {e : CExamples} (h : e.Ok) : (e.map Token.hush).Ok :=
  ⟨toks_hush h.1, h.2.1, toks_hush h.2.2.1, toks_hush h.2.2.2.1, rect_hush h.2.2.2.2⟩
theorem CScenario.hush_ok {s : CScenario} (h : s.Ok) : (s.map Token.hush).Ok :=
  ⟨toks_hush h.1, h.2.1, toks_hush h.2.2.1, all_map h.2.2.2.1 fun _ => CStep.hush_ok, all_map h.2.2.2.2 fun _ => CExamples.hush_ok⟩
theorem CRule.hush_ok {s : CRule} (h : s.Ok) : (s.map Token.hush).Ok :=
  ⟨toks_hush h.1, h.2.1, toks_hush h.2.2.1, opt_map h.2.2.2.1 fun _ => CBackground.hush_ok, all_map h.2.2.2.2 fun _ => CScenario.hush_ok⟩
theorem CFeature.hush_ok {s : CFeature} (h : s.Ok) : (s.map Token.hush).Ok := by
  refine ⟨?_, toks_hush h.2.1, h.2.2.1, toks_hush h.2.2.2.1, opt_map h.2.2.2.2.1 fun _ => CBackground.hush_ok, all_map h.2.2.2.2.2.1 fun _ => CScenario.hush_ok,
    all_map h.2.2.2.2.2.2 fun _ => CRule.hush_ok⟩
  intro t ht
  simp only [CFeature.map, Option.mem_def, Option.map_eq_some_iff] at ht
  obtain ⟨x, hx, rfl⟩ := ht
  exact h.1 x hx
theorem CDoc.hush_ok {d : CDoc} (h : d.Ok) : (d.map Token.hush).Ok := ⟨opt_map h.1 fun _ => CFeature.hush_ok, h.2⟩

theorem row_hush (t : Token) (n : Nat) : row t.hush n = row t n := rfl
theorem rows_hush (ts : List Token) : ∀ n, thread row (ts.map Token.hush) n = thread row ts n := by
  induction ts with
  | nil => intro n; rfl
  | cons t ts ih => intro n; simp only [List.map_cons, thread, ih]; rfl
theorem tags_hush (ts : List Token) (n : Nat) : tags (ts.map Token.hush) n = tags ts n := by
  have : ∀ (ts : List Token) (n : Nat), thread lineTags (ts.map Token.hush) n = thread lineTags ts n := by
    intro ts
    induction ts with
    | nil => intro n; rfl
    | cons t ts ih => intro n; simp only [List.map_cons, thread, ih]; rfl
  simp only [tags, this]

theorem text_hush {t : Token} {k : Kind} (h : t.type = some k) (hk : k ≠ .language) : t.hush.text = t.text := by
  simp [Token.hush, h, hk]
theorem word_hush {t : Token} {k : Kind} (h : t.type = some k) (hk : k ≠ .docStringSeparator) : t.hush.keyword = none := by
  simp [Token.hush, h, hk]

theorem desc_hush {ts : List Token} (h : DescOk ts) : description (ts.map Token.hush) = description ts := by
  unfold description
  congr 2
  rw [List.map_map]
  refine List.map_congr_left fun t ht => ?_
  simp [textOf, text_hush (h t ht) (by simp)]

theorem Arg.hush_ast {a : Arg} (h : a.Ok) (n : Nat) : (a.map Token.hush).ast n = a.ast n := by
  cases a with
  | none => rfl
  | table r rs =>
    have := rows_hush (r :: rs) n
    simp only [List.map_cons] at this
    simp only [Arg.map, Arg.ast, this]
    rfl
  | doc o ls c =>
    have h1 : textOf o.hush = textOf o := by simp [textOf, text_hush h.1 (by simp)]
    have h2 : o.hush.keyword = o.keyword := by simp [Token.hush, h.1]
    have h3 : (ls.map Token.hush).map textOf = ls.map textOf := by
      rw [List.map_map]
      refine List.map_congr_left fun t ht => ?_
      simp [textOf, text_hush (h.2.2.1 t ht) (by simp)]
    simp only [Arg.map, Arg.ast, h1, h2, h3]
    rfl

theorem thread_to {α β : Type} {f : α → Nat → β × Nat} {p : α → α} {h : β → β} : ∀ (xs : List α),
    (∀ x ∈ xs, ∀ n, (f (p x) n).2 = (f x n).2 ∧ (f (p x) n).1 = h (f x n).1) → ∀ n : Nat,
    (thread f (xs.map p) n).2 = (thread f xs n).2 ∧ (thread f (xs.map p) n).1 = (thread f xs n).1.map h
  | [], _, n => ⟨rfl, rfl⟩
  | x :: xs, hf, n => by
    have ih := thread_to xs (fun y hy => hf y (by simp [hy]))
    have h0 := hf x (by simp) n
    simp only [List.map_cons, thread, h0.1, h0.2, ih, and_self]

theorem threadOpt_to {α β : Type} {f : α → Nat → β × Nat} {p : α → α} {h : β → β} (xs : Option α)
    (hf : ∀ x ∈ xs, ∀ n, (f (p x) n).2 = (f x n).2 ∧ (f (p x) n).1 = h (f x n).1) (n : Nat) :
    (threadOpt f (xs.map p) n).2 = (threadOpt f xs n).2 ∧ (threadOpt f (xs.map p) n).1 = (threadOpt f xs n).1.map h := by
  cases xs with
  | none => exact ⟨rfl, rfl⟩
  | some x =>
    have := hf x rfl n
    simp only [Option.map_some, threadOpt, this, and_self]

theorem CStep.hush_ast {s : CStep} (h : s.Ok) (n : Nat) : ((s.map Token.hush).ast n).2 = (s.ast n).2 ∧ ((s.map Token.hush).ast n).1 = (s.ast n).1.wordless := by
  have := Arg.hush_ast h.2 n
  simp only [CStep.map, CStep.ast, Step.wordless, this, true_and, text_hush h.1 (show Kind.stepLine ≠ .language by simp), word_hush h.1 (show Kind.stepLine ≠ .docStringSeparator by simp)]
  rfl

theorem CBackground.hush_ast {s : CBackground} (h : s.Ok) (n : Nat) : ((s.map Token.hush).ast n).2 = (s.ast n).2 ∧
    ((s.map Token.hush).ast n).1 = (s.ast n).1.wordless := by
  have := thread_to (h := Step.wordless) s.steps (fun x hx => CStep.hush_ast (h.2.2 x hx)) n
  simp only [CBackground.map, CBackground.ast, Background.wordless, this.1, this.2, true_and, desc_hush h.2.1, text_hush h.1 (show Kind.backgroundLine ≠ .language by simp),
    word_hush h.1 (show Kind.backgroundLine ≠ .docStringSeparator by simp)]
  rfl

theorem CExamples.hush_ast {s : CExamples} (h : s.Ok) (n : Nat) : ((s.map Token.hush).ast n).2 = (s.ast n).2 ∧
    ((s.map Token.hush).ast n).1 = (s.ast n).1.wordless := by
  simp only [CExamples.map, CExamples.ast, Examples.wordless, rows_hush, tags_hush, true_and, desc_hush h.2.2.1, text_hush h.2.1 (show Kind.examplesLine ≠ .language by simp),
    word_hush h.2.1 (show Kind.examplesLine ≠ .docStringSeparator by simp)]
  rfl

theorem CScenario.hush_ast {s : CScenario} (h : s.Ok) (n : Nat) : ((s.map Token.hush).ast n).2 = (s.ast n).2 ∧
    ((s.map Token.hush).ast n).1 = (s.ast n).1.wordless := by
  have h1 := thread_to (h := Step.wordless) s.steps (fun x hx => CStep.hush_ast (h.2.2.2.1 x hx)) n
  have h3 := thread_to (h := Examples.wordless) s.examples (fun x hx => CExamples.hush_ast (h.2.2.2.2 x hx)) (thread CStep.ast s.steps n).2
  simp only [CScenario.map, CScenario.ast, Scenario.wordless, h1.1, h3.1, tags_hush, true_and, h1.2, h3.2, desc_hush h.2.2.1,
    text_hush h.2.1 (show Kind.scenarioLine ≠ .language by simp), word_hush h.2.1 (show Kind.scenarioLine ≠ .docStringSeparator by simp)]
  rfl

theorem CRule.hush_ast {s : CRule} (h : s.Ok) (n : Nat) : ((s.map Token.hush).ast n).2 = (s.ast n).2 ∧
    ((s.map Token.hush).ast n).1 = (s.ast n).1.wordless := by
  have h1 := threadOpt_to (h := Background.wordless) s.background (fun x hx => CBackground.hush_ast (h.2.2.2.1 x hx)) n
  have h3 := thread_to (h := Scenario.wordless) s.scenarios (fun x hx => CScenario.hush_ast (h.2.2.2.2 x hx)) (threadOpt CBackground.ast s.background n).2
  have c1 : ∀ o : Option Background, (o.toList.map RuleChild.background).map RuleChild.wordless = (o.map Background.wordless).toList.map RuleChild.background := by
    intro o; cases o <;> rfl
  have c2 : ∀ o : List Scenario, (o.map RuleChild.scenario).map RuleChild.wordless = (o.map Scenario.wordless).map RuleChild.scenario := by
    intro o; simp only [List.map_map]; rfl
  simp only [CRule.map, CRule.ast, RuleNode.wordless, h1.1, h3.1, tags_hush, true_and, List.map_append, c1, c2, h1.2, h3.2, desc_hush h.2.2.1,
    text_hush h.2.1 (show Kind.ruleLine ≠ .language by simp), word_hush h.2.1 (show Kind.ruleLine ≠ .docStringSeparator by simp)]
  rfl

theorem CFeature.hush_ast {s : CFeature} (h : s.Ok) (n : Nat) : ((s.map Token.hush).ast n).2 = (s.ast n).2 ∧
    ((s.map Token.hush).ast n).1 = (s.ast n).1.wordless := by
  have h1 := threadOpt_to (h := Background.wordless) s.background (fun x hx => CBackground.hush_ast (h.2.2.2.2.1 x hx)) n
  have h3 := thread_to (h := Scenario.wordless) s.scenarios (fun x hx => CScenario.hush_ast (h.2.2.2.2.2.1 x hx)) (threadOpt CBackground.ast s.background n).2
  have h4 := thread_to (h := RuleNode.wordless) s.rules (fun x hx => CRule.hush_ast (h.2.2.2.2.2.2 x hx))
    (thread CScenario.ast s.scenarios (threadOpt CBackground.ast s.background n).2).2
  have c1 : ∀ o : Option Background, (o.toList.map FeatureChild.background).map FeatureChild.wordless = (o.map Background.wordless).toList.map FeatureChild.background := by
    intro o; cases o <;> rfl
  have c2 : ∀ o : List Scenario, (o.map FeatureChild.scenario).map FeatureChild.wordless = (o.map Scenario.wordless).map FeatureChild.scenario := by
    intro o; simp only [List.map_map]; rfl
  have c3 : ∀ o : List RuleNode, (o.map FeatureChild.rule).map FeatureChild.wordless = (o.map RuleNode.wordless).map FeatureChild.rule := by
    intro o; simp only [List.map_map]; rfl
  simp only [CFeature.map, CFeature.ast, Feature.wordless, h1.1, h3.1, h4.1, tags_hush, true_and, List.map_append, c1, c2, c3, h1.2, h3.2, h4.2, desc_hush h.2.2.2.1,
    text_hush h.2.2.1 (show Kind.featureLine ≠ .language by simp), word_hush h.2.2.1 (show Kind.featureLine ≠ .docStringSeparator by simp)]
  rfl

theorem CDoc.hush_ast {d : CDoc} (h : d.Ok) (cm cm' : List Comment) (n : Nat) :
    ((d.map Token.hush).ast cm n).1.feature = (d.ast cm' n).1.feature.map Feature.wordless :=
  (threadOpt_to (h := Feature.wordless) d.feature (fun x hx => CFeature.hush_ast (h.1 x hx)) n).2

end Cst

theorem wordless_change (g : Change) (f : Feature) : (f.change g).wordless = f.wordless.change g := by
  have hs : ∀ ss : List Step, (ss.map (Step.change g)).map Step.wordless = (ss.map Step.wordless).map (Step.change g) := by
    intro ss; simp only [List.map_map]; rfl
  have hb : ∀ b : Background, (b.change g).wordless = b.wordless.change g := by intro b; simp only [Background.change, Background.wordless, hs]
  have he : ∀ ss : List Examples, (ss.map (Examples.change g)).map Examples.wordless = (ss.map Examples.wordless).map (Examples.change g) := by
    intro ss; simp only [List.map_map]; rfl
  have hc : ∀ b : Scenario, (b.change g).wordless = b.wordless.change g := by intro b; simp only [Scenario.change, Scenario.wordless, hs, he]
  have hrc : ∀ x : RuleChild, (x.change g).wordless = x.wordless.change g := by
    intro x; cases x <;> simp only [RuleChild.change, RuleChild.wordless, hb, hc]
  have hr : ∀ x : RuleNode, (x.change g).wordless = x.wordless.change g := by
    intro x
    simp only [RuleNode.change, RuleNode.wordless, List.map_map]
    congr 1
    exact List.map_congr_left fun x _ => hrc x
  have hfc : ∀ x : FeatureChild, (x.change g).wordless = x.wordless.change g := by
    intro x; cases x <;> simp only [FeatureChild.change, FeatureChild.wordless, hb, hc, hr]
  simp only [Feature.change, Feature.wordless, List.map_map]
  congr 1
  exact List.map_congr_left fun x _ => hfc x

/-- A token without columns, keyword and language. -/
def Token.mute (t : Token) : Token := t.flat.hush

/-- Documents whose tokens differ only in columns, keywords and language differ only in these. -/
theorem mute_of_toks {d d' : CDoc} (h : d.Ok) (h' : d'.Ok) (ht : d.toks.map Token.mute = d'.toks.map Token.mute)
    (cm cm' : List Comment) (n : Nat) :
    (d.ast cm n).1.feature.map (fun f => f.uncolumned.wordless) = (d'.ast cm' n).1.feature.map (fun f => f.uncolumned.wordless) := by
  have e : (d.map Token.flat).map Token.hush = (d'.map Token.flat).map Token.hush := by
    refine doc_inj (CDoc.hush_ok (CDoc.flat_ok h)) (CDoc.hush_ok (CDoc.flat_ok h')) ?_
    rw [CDoc.map_toks, CDoc.map_toks, CDoc.map_toks, CDoc.map_toks, List.map_map, List.map_map]
    exact ht
  have key : ∀ {d : CDoc}, d.Ok → ∀ cm, (d.ast cm n).1.feature.map (fun f => f.uncolumned.wordless) =
      (((d.map Token.flat).map Token.hush).ast [] n).1.feature.map (Feature.change flatG) := by
    intro d h cm
    rw [CDoc.hush_ast (CDoc.flat_ok h) [] [], Option.map_map]
    have := congrArg (Option.map Feature.wordless) (CDoc.flat_ast h [] cm n)
    rw [Option.map_map, Option.map_map] at this
    have e1 : (Feature.wordless ∘ Feature.change flatG) = (Feature.change flatG ∘ Feature.wordless) := by funext f; exact wordless_change _ _
    rw [← e1, this]
    rfl
  rw [key h, key h', e]

end Gherkin
