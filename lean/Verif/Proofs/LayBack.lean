import Verif.Proofs.Placed
import Verif.Spec.Layout

/-! From syntax trees back to layouts: every token becomes its line and the noise that follows it. -/

namespace Gherkin

namespace Back

open Cst
open Layout (Ln)

/-- The lines of the tokens before the first one that is not blank and not a comment. -/
def noiseAt (ts : List Token) : List Str := (ts.takeWhile fun t => !t.isCore).map fun t => t.line.text

/-- The noise after a token. -/
def aft (ts : List Token) (t : Token) : List Str := noiseAt (ts.dropWhile fun x => x.line.number != t.line.number).tail

theorem aft_at : ∀ {ts a b : List Token} {t : Token}, ts = a ++ t :: b → (ts.map fun x => x.line.number).Nodup → aft ts t = noiseAt b
  | _, [], b, t, rfl, _ => by simp [aft]
  | _, x :: a, b, t, rfl, h => by
    simp only [List.cons_append, List.map_cons, List.nodup_cons, List.map_append, List.mem_append, List.mem_cons] at h
    have hx : (x.line.number != t.line.number) = true := by simp; intro e; exact h.1 (.inr (.inl e))
    have := aft_at (ts := a ++ t :: b) rfl (by simpa using h.2)
    rw [← this]
    simp [aft, List.dropWhile_cons, hx]

/-- A token's line and the noise after it. -/
def grp (A : Token → List Str) (t : Token) : List Str := t.line.text :: A t

theorem groups_from {ts : List Token} (h : (ts.map fun x => x.line.number).Nodup) : ∀ {a b : List Token}, ts = a ++ b →
    b.map (fun t => t.line.text) = noiseAt b ++ (b.filter Token.isCore).flatMap (grp (aft ts))
  | _, [], _ => by simp [noiseAt]
  | a, t :: b, e => by
    have ih := groups_from h (a := a ++ [t]) (b := b) (by simp [e])
    have ht := aft_at e h
    cases hc : t.isCore with
    | true => simp [noiseAt, hc, grp, ht, ih]
    | false => simp [noiseAt, hc, ih]

/-- A list of lines, cut at its tokens. -/
theorem groups {ts : List Token} (h : (ts.map fun x => x.line.number).Nodup) :
    ts.map (fun t => t.line.text) = noiseAt ts ++ (ts.filter Token.isCore).flatMap (grp (aft ts)) := groups_from h (a := []) rfl

section
variable (A : Token → List Str)

def lnOf (t : Token) : Ln := ⟨t.line.text, A t⟩
def argOf : Arg → Layout.Arg
  | .none => .none
  | .table r rs => .table (lnOf A r) (rs.map (lnOf A))
  | .doc o ls c => .doc o.line.text (ls.map fun t => t.line.text) (lnOf A c)
def stepOf (s : CStep) : Layout.Step := ⟨lnOf A s.line, argOf A s.arg⟩
def headOf (line : Token) (desc : List Token) : Layout.Head :=
  ⟨line.line.text, A line, desc.map fun t => t.line.text, (desc.getLast?.map A).getD []⟩
def backgroundOf (b : CBackground) : Layout.Background := ⟨headOf A b.line b.desc, b.steps.map (stepOf A)⟩
def examplesOf (e : CExamples) : Layout.Examples := ⟨e.tags.map (lnOf A), headOf A e.line e.desc, e.table.map (lnOf A)⟩
def scenarioOf (s : CScenario) : Layout.Scenario :=
  ⟨s.tags.map (lnOf A), headOf A s.line s.desc, s.steps.map (stepOf A), s.examples.map (examplesOf A)⟩
def ruleOf (r : CRule) : Layout.Rule :=
  ⟨r.tags.map (lnOf A), headOf A r.line r.desc, r.background.map (backgroundOf A), r.scenarios.map (scenarioOf A)⟩
def featureOf (f : CFeature) : Layout.Feature :=
  ⟨f.tags.map (lnOf A), headOf A f.line f.desc, f.background.map (backgroundOf A), f.scenarios.map (scenarioOf A), f.rules.map (ruleOf A)⟩

variable (d : Dialect)

/-- What is known about a token. -/
structure TokFine (t : Token) : Prop where
  noise : Layout.Noise (A t)
  kind : ∀ k, t.type = some k → k ≠ .other → k ≠ .docStringSeparator → k ≠ .language → k ≠ .eof → Layout.kind d t.line.text = k
  tag : t.type = some .tagLine → ¬ BadTags t.line.text
  row : t.type = some .tableRow → ¬ BadRow t.line.text ∧ ∀ cells, Line.tableCells ⟨t.line.text, 0⟩ = .ok cells → cells.length = t.items.length

/-- What is known about a title and its description. -/
def PartFine (p : CPart) : Prop :=
  p.2.2 = [] ∨
  ((∀ s ∈ A p.2.1, Layout.Blank s) ∧ (∀ t ∈ p.2.2.head?, ¬ Layout.Blank t.line.text) ∧ (∀ t ∈ p.2.2, ends d p.1 ⟨t.line.text, 0⟩ = false) ∧
    (∀ t ∈ p.2.2.dropLast, A t = []) ∧ ∀ t ∈ p.2.2.getLast?, ∀ s ∈ (A t).head?, Layout.Hash s)

/-- What is known about an argument. -/
def ArgFine : Arg → Prop
  | .doc o ls c => A o = [] ∧ (∀ t ∈ ls, A t = []) ∧ ∃ delim ∈ docDelimiters, isDelim delim ⟨o.line.text, 0⟩ = true ∧
      (∀ t ∈ ls, isDelim delim ⟨t.line.text, 0⟩ = false) ∧ isDelim delim ⟨c.line.text, 0⟩ = true
  | _ => True

variable {A d}

theorem flatMap_single {α β : Type} (f : α → β) (l : List α) : (l.flatMap fun x => [f x]) = l.map f := by
  induction l with
  | nil => rfl
  | cons x xs ih => simp [ih]

theorem lns_texts (ts : List Token) : (ts.map (lnOf A)).flatMap Ln.texts = ts.flatMap (grp A) := by
  simp [List.flatMap_map, lnOf, Ln.texts, grp]; rfl

theorem bare_grp {ls : List Token} (h : ∀ t ∈ ls, A t = []) : ls.flatMap (grp A) = ls.map fun t => t.line.text := by
  induction ls with
  | nil => rfl
  | cons x xs ih => simp [grp, h x (by simp), ih fun t ht => h t (by simp [ht])]

theorem head_texts {p : CPart} (h : PartFine A d p) : (headOf A p.2.1 p.2.2).texts = (p.2.1 :: p.2.2).flatMap (grp A) := by
  obtain ⟨p, line, desc⟩ := p
  simp only [headOf, Layout.Head.texts, List.flatMap_cons, grp]
  rcases h with h | ⟨_, _, _, h, _⟩
  · simp only at h; subst h; simp
  · simp only at h
    rcases List.eq_nil_or_concat desc with rfl | ⟨i, l, rfl⟩
    · simp
    · simp only [List.concat_eq_append, List.dropLast_concat] at h
      simp [bare_grp h]; rfl

theorem head_okay {p : CPart} {k : Kind} (h : PartFine A d p) (hk : p.2.1.type = some k) (h1 : k ≠ .other) (h2 : k ≠ .docStringSeparator)
    (h3 : k ≠ .language) (h4 : k ≠ .eof) (ht : ∀ t ∈ p.2.1 :: p.2.2, TokFine A d t) : (headOf A p.2.1 p.2.2).Ok d k p.1 := by
  obtain ⟨p, line, desc⟩ := p
  have hl := ht line (by simp)
  refine ⟨hl.kind k hk h1 h2 h3 h4, ?_⟩
  by_cases hd : desc = []
  · subst hd; simpa [headOf] using hl.noise
  · rcases h with h | ⟨g1, g2, g3, g4, g5⟩
    · exact absurd h hd
    · simp only at g1 g2 g3 g4 g5 ht
      rw [if_neg (by simpa [headOf] using hd)]; simp only [headOf]
      rcases List.eq_nil_or_concat desc with rfl | ⟨i, l, rfl⟩
      · exact absurd rfl hd
      · simp only [List.concat_eq_append] at *
        refine ⟨g1, ?_, ?_, ?_, ?_⟩
        · intro s hs
          simp only [List.head?_map, Option.mem_def, Option.map_eq_some_iff] at hs
          obtain ⟨t, ht, rfl⟩ := hs
          exact g2 t ht
        · intro s hs
          obtain ⟨t, ht, rfl⟩ := List.mem_map.1 hs
          exact g3 t ht
        · simp only [List.getLast?_concat, Option.map_some, Option.getD_some]; exact (ht l (by simp)).noise
        · simp only [List.getLast?_concat, Option.map_some, Option.getD_some]; exact g5 l (by simp)

theorem tags_okay {ts : List Token} (hk : TagsOk ts) (ht : ∀ t ∈ ts, TokFine A d t) : Layout.TagsOk d (ts.map (lnOf A)) := by
  intro l hl
  obtain ⟨t, h, rfl⟩ := List.mem_map.1 hl
  exact ⟨⟨(ht t h).kind _ (hk t h) (by simp) (by simp) (by simp) (by simp), (ht t h).noise⟩, (ht t h).tag (hk t h)⟩

theorem rows_okay {ts : List Token} (hk : ∀ t ∈ ts, t.type = some .tableRow) (hr : Rect ts) (ht : ∀ t ∈ ts, TokFine A d t) :
    Layout.RowsOk d (ts.map (lnOf A)) := by
  constructor
  · intro l hl
    obtain ⟨t, h, rfl⟩ := List.mem_map.1 hl
    exact ⟨⟨(ht t h).kind _ (hk t h) (by simp) (by simp) (by simp) (by simp), (ht t h).noise⟩, ((ht t h).row (hk t h)).1⟩
  · cases ts with
    | nil => exact ⟨0, by simp⟩
    | cons r rs =>
      refine ⟨r.items.length, ?_⟩
      intro l hl cells hc
      obtain ⟨t, h, rfl⟩ := List.mem_map.1 hl
      rw [((ht t h).row (hk t h)).2 cells hc]
      rcases List.mem_cons.1 h with rfl | h
      · rfl
      · exact hr t h

theorem arg_okay {a : Arg} (hk : a.Ok) (ht : ∀ t ∈ a.toks, TokFine A d t) (ha : ArgFine A a) : (argOf A a).Ok d ∧ (argOf A a).texts = a.toks.flatMap (grp A) := by
  cases a with
  | none => exact ⟨trivial, rfl⟩
  | table r rs =>
    refine ⟨rows_okay (ts := r :: rs) hk.1 hk.2 ht, ?_⟩
    exact lns_texts (r :: rs)
  | doc o ls c =>
    obtain ⟨h1, h2, delim, h3, h4, h5, h6⟩ := ha
    refine ⟨⟨delim, h3, h4, ?_, h6, (ht c (by simp [Arg.toks])).noise⟩, ?_⟩
    · intro s hs
      obtain ⟨t, ht, rfl⟩ := List.mem_map.1 hs
      exact h5 t ht
    · simp [argOf, Layout.Arg.texts, Arg.toks, bare_grp h2, grp, h1, lnOf, Ln.texts]; 

theorem step_okay {s : CStep} (hk : s.Ok) (ht : ∀ t ∈ s.toks, TokFine A d t) (ha : ArgFine A s.arg) :
    (stepOf A s).Ok d ∧ (stepOf A s).texts = s.toks.flatMap (grp A) := by
  obtain ⟨h1, h2⟩ := arg_okay hk.2 (fun t h => ht t (by simp [CStep.toks, h])) ha
  have hl := ht s.line (by simp [CStep.toks])
  refine ⟨⟨⟨hl.kind _ hk.1 (by simp) (by simp) (by simp) (by simp), hl.noise⟩, h1⟩, ?_⟩
  simp [stepOf, Layout.Step.texts, h2, CStep.toks, lnOf, Ln.texts, grp]

/-- Lists of parts. -/
theorem list_okay {α β : Type} {f : α → β} {okay : β → Prop} {texts : β → List Str} {toks : α → List Token} {xs : List α}
    (h : ∀ x ∈ xs, okay (f x) ∧ texts (f x) = (toks x).flatMap (grp A)) :
    (∀ y ∈ xs.map f, okay y) ∧ (xs.map f).flatMap texts = (xs.flatMap toks).flatMap (grp A) := by
  induction xs with
  | nil => simp
  | cons x xs ih =>
    obtain ⟨i1, i2⟩ := ih fun y hy => h y (by simp [hy])
    obtain ⟨h1, h2⟩ := h x (by simp)
    refine ⟨by simpa using ⟨h1, by simpa using i1⟩, ?_⟩
    simp only [List.map_cons, List.flatMap_cons, List.flatMap_append, h2, i2]

theorem steps_okay {ss : List CStep} (hk : ∀ s ∈ ss, s.Ok) (ht : ∀ t ∈ ss.flatMap CStep.toks, TokFine A d t) (ha : ∀ s ∈ ss, ArgFine A s.arg) :
    (∀ x ∈ ss.map (stepOf A), x.Ok d) ∧ (ss.map (stepOf A)).flatMap Layout.Step.texts = (ss.flatMap CStep.toks).flatMap (grp A) :=
  list_okay fun s hs => step_okay (hk s hs) (fun t h => ht t (List.mem_flatMap.2 ⟨s, hs, h⟩)) (ha s hs)

theorem background_okay {b : CBackground} (hk : b.Ok) (ht : ∀ t ∈ b.toks, TokFine A d t) (hp : ∀ p ∈ b.parts, PartFine A d p)
    (ha : ∀ s ∈ b.steps, ArgFine A s.arg) : (backgroundOf A b).Ok d ∧ (backgroundOf A b).texts = b.toks.flatMap (grp A) := by
  have h1 := hp _ (by simp [CBackground.parts]; exact rfl)
  obtain ⟨s1, s2⟩ := steps_okay hk.2.2 (fun t h => ht t (by simp only [CBackground.toks, List.mem_cons, List.mem_append]; exact .inr (.inr h))) ha
  refine ⟨⟨head_okay h1 hk.1 (by simp) (by simp) (by simp) (by simp) fun t h => ht t ?_, s1⟩, ?_⟩
  · simp only [CBackground.toks, List.mem_cons, List.mem_append] at h ⊢; rcases h with h | h <;> simp [h]
  · have := head_texts h1
    simp only at this
    simp only [backgroundOf, Layout.Background.texts, this, s2, CBackground.toks, List.flatMap_cons, List.flatMap_append, List.append_assoc]

theorem examples_okay {e : CExamples} (hk : e.Ok) (ht : ∀ t ∈ e.toks, TokFine A d t) (hp : ∀ p ∈ e.parts, PartFine A d p) :
    (examplesOf A e).Ok d ∧ (examplesOf A e).texts = e.toks.flatMap (grp A) := by
  have h1 := hp _ (by simp [CExamples.parts]; exact rfl)
  refine ⟨⟨tags_okay hk.1 fun t h => ht t ?_, head_okay h1 hk.2.1 (by simp) (by simp) (by simp) (by simp) fun t h => ht t ?_,
    rows_okay hk.2.2.2.1 hk.2.2.2.2 fun t h => ht t ?_⟩, ?_⟩
  · simp only [CExamples.toks, List.mem_cons, List.mem_append]; simp [h]
  · simp only [CExamples.toks, List.mem_cons, List.mem_append] at h ⊢; rcases h with h | h <;> simp [h]
  · simp only [CExamples.toks, List.mem_cons, List.mem_append]; simp [h]
  · have := head_texts h1
    simp only at this
    simp only [examplesOf, Layout.Examples.texts, this, lns_texts, CExamples.toks, List.flatMap_cons, List.flatMap_append, List.append_assoc]

theorem scenario_okay {s : CScenario} (hk : s.Ok) (ht : ∀ t ∈ s.toks, TokFine A d t) (hp : ∀ p ∈ s.parts, PartFine A d p)
    (ha : ∀ x ∈ s.steps, ArgFine A x.arg) : (scenarioOf A s).Ok d ∧ (scenarioOf A s).texts = s.toks.flatMap (grp A) := by
  have hmem : ∀ t, t ∈ s.tags ∨ t = s.line ∨ t ∈ s.desc ∨ t ∈ s.steps.flatMap CStep.toks ∨ t ∈ s.examples.flatMap CExamples.toks → t ∈ s.toks := by
    intro t h; simp only [CScenario.toks, List.mem_cons, List.mem_append]; rcases h with h | h | h | h | h <;> simp only [h, true_or, or_true]
  have h1 := hp (.scenario, s.line, s.desc) (by simp [CScenario.parts])
  obtain ⟨s1, s2⟩ := steps_okay hk.2.2.2.1 (fun t h => ht t (hmem t (by simp only [h, true_or, or_true]))) ha
  obtain ⟨x1, x2⟩ := list_okay (f := examplesOf A) (okay := fun e => e.Ok d) (texts := Layout.Examples.texts) (toks := CExamples.toks) (xs := s.examples)
    fun e he => examples_okay (hk.2.2.2.2 e he) (fun t h => ht t (hmem t (by simp only [List.mem_flatMap.2 ⟨e, he, h⟩, or_true])))
      (fun p h => hp p (by simp only [CScenario.parts, List.mem_cons]; exact .inr (List.mem_flatMap.2 ⟨e, he, h⟩)))
  refine ⟨⟨tags_okay hk.1 fun t h => ht t (hmem t (.inl h)), head_okay h1 hk.2.1 (by simp) (by simp) (by simp) (by simp) fun t h => ht t (hmem t ?_), s1, x1⟩, ?_⟩
  · simp only [List.mem_cons] at h; rcases h with h | h <;> simp [h]
  · have := head_texts h1
    simp only at this
    simp only [scenarioOf, Layout.Scenario.texts, this, s2, x2, lns_texts, CScenario.toks, List.flatMap_cons, List.flatMap_append, List.append_assoc]

theorem scenarios_okay {ss : List CScenario} (hk : ∀ s ∈ ss, s.Ok) (ht : ∀ t ∈ ss.flatMap CScenario.toks, TokFine A d t)
    (hp : ∀ p ∈ ss.flatMap CScenario.parts, PartFine A d p) (ha : ∀ s ∈ ss, ∀ x ∈ s.steps, ArgFine A x.arg) :
    (∀ x ∈ ss.map (scenarioOf A), x.Ok d) ∧ (ss.map (scenarioOf A)).flatMap Layout.Scenario.texts = (ss.flatMap CScenario.toks).flatMap (grp A) :=
  list_okay fun s hs => scenario_okay (hk s hs) (fun t h => ht t (List.mem_flatMap.2 ⟨s, hs, h⟩)) (fun p h => hp p (List.mem_flatMap.2 ⟨s, hs, h⟩)) (ha s hs)

theorem backgrounds_okay {b : Option CBackground} (hk : ∀ s ∈ b, s.Ok) (ht : ∀ t ∈ b.toList.flatMap CBackground.toks, TokFine A d t)
    (hp : ∀ p ∈ b.toList.flatMap CBackground.parts, PartFine A d p) (ha : ∀ s ∈ b, ∀ x ∈ s.steps, ArgFine A x.arg) :
    (∀ x ∈ b.map (backgroundOf A), x.Ok d) ∧
    (b.map (backgroundOf A)).toList.flatMap Layout.Background.texts = (b.toList.flatMap CBackground.toks).flatMap (grp A) := by
  cases b with
  | none => exact ⟨by simp, rfl⟩
  | some b =>
    obtain ⟨h1, h2⟩ := background_okay (hk b rfl) (fun t h => ht t (by simpa using h)) (fun p h => hp p (by simpa using h)) (ha b rfl)
    exact ⟨by simpa using h1, by simpa using h2⟩

theorem rule_okay {r : CRule} (hk : r.Ok) (ht : ∀ t ∈ r.toks, TokFine A d t) (hp : ∀ p ∈ r.parts, PartFine A d p)
    (ha : ∀ s ∈ r.background, ∀ x ∈ s.steps, ArgFine A x.arg) (ha' : ∀ s ∈ r.scenarios, ∀ x ∈ s.steps, ArgFine A x.arg) :
    (ruleOf A r).Ok d ∧ (ruleOf A r).texts = r.toks.flatMap (grp A) := by
  have hmem : ∀ t, t ∈ r.tags ∨ t = r.line ∨ t ∈ r.desc ∨ t ∈ r.background.toList.flatMap CBackground.toks ∨ t ∈ r.scenarios.flatMap CScenario.toks → t ∈ r.toks := by
    intro t h; simp only [CRule.toks, List.mem_cons, List.mem_append]; rcases h with h | h | h | h | h <;> simp only [h, true_or, or_true]
  have h1 := hp (.rule, r.line, r.desc) (by simp [CRule.parts])
  obtain ⟨b1, b2⟩ := backgrounds_okay hk.2.2.2.1 (fun t h => ht t (hmem t (by simp only [h, true_or, or_true])))
    (fun p h => hp p (by simp only [CRule.parts, List.mem_cons, List.mem_append, h, true_or, or_true])) ha
  obtain ⟨s1, s2⟩ := scenarios_okay hk.2.2.2.2 (fun t h => ht t (hmem t (by simp only [h, or_true])))
    (fun p h => hp p (by simp only [CRule.parts, List.mem_cons, List.mem_append, h, or_true])) ha'
  refine ⟨⟨tags_okay hk.1 fun t h => ht t (hmem t (.inl h)), head_okay h1 hk.2.1 (by simp) (by simp) (by simp) (by simp) fun t h => ht t (hmem t ?_), b1, s1⟩, ?_⟩
  · simp only [List.mem_cons] at h; rcases h with h | h <;> simp [h]
  · have := head_texts h1
    simp only at this
    simp only [ruleOf, Layout.Rule.texts, this, b2, s2, lns_texts, CRule.toks, List.flatMap_cons, List.flatMap_append, List.append_assoc]

theorem feature_okay {f : CFeature} (hk : f.Ok) (ht : ∀ t ∈ f.toks, TokFine A d t) (hp : ∀ p ∈ f.parts, PartFine A d p)
    (ha : ∀ x ∈ (CDoc.mk (some f) default).steps, ArgFine A x.arg) :
    (featureOf A f).Ok d ∧ f.toks.flatMap (grp A) = f.language.toList.flatMap (grp A) ++ (featureOf A f).texts := by
  have hmem : ∀ t, t ∈ f.tags ∨ t = f.line ∨ t ∈ f.desc ∨ t ∈ f.background.toList.flatMap CBackground.toks ∨ t ∈ f.scenarios.flatMap CScenario.toks ∨
      t ∈ f.rules.flatMap CRule.toks → t ∈ f.toks := by
    intro t h; simp only [CFeature.toks, List.mem_cons, List.mem_append]; rcases h with h | h | h | h | h | h <;> simp only [h, true_or, or_true]
  have ha1 : ∀ b ∈ f.background, ∀ x ∈ b.steps, ArgFine A x.arg := fun b hb x hx => ha x (by
    simp only [CDoc.steps, CDoc.backgrounds, List.mem_append, List.mem_flatMap, Option.mem_toList]
    exact .inl ⟨b, ⟨f, rfl, .inl hb⟩, hx⟩)
  have ha2 : ∀ s ∈ f.scenarios, ∀ x ∈ s.steps, ArgFine A x.arg := fun s hb x hx => ha x (by
    simp only [CDoc.steps, CDoc.scenarios, List.mem_append, List.mem_flatMap, Option.mem_toList]
    exact .inr ⟨s, ⟨f, rfl, .inl hb⟩, hx⟩)
  have ha3 : ∀ r ∈ f.rules, ∀ b ∈ r.background, ∀ x ∈ b.steps, ArgFine A x.arg := fun r hr b hb x hx => ha x (by
    simp only [CDoc.steps, CDoc.backgrounds, List.mem_append, List.mem_flatMap, Option.mem_toList]
    exact .inl ⟨b, ⟨f, rfl, .inr ⟨r, hr, hb⟩⟩, hx⟩)
  have ha4 : ∀ r ∈ f.rules, ∀ b ∈ r.scenarios, ∀ x ∈ b.steps, ArgFine A x.arg := fun r hr b hb x hx => ha x (by
    simp only [CDoc.steps, CDoc.scenarios, List.mem_append, List.mem_flatMap, Option.mem_toList]
    exact .inr ⟨b, ⟨f, rfl, .inr ⟨r, hr, hb⟩⟩, hx⟩)
  obtain ⟨_, k2, k3, k4, k5, k6, k7⟩ := hk
  have h1 := hp (.feature, f.line, f.desc) (by simp [CFeature.parts])
  obtain ⟨b1, b2⟩ := backgrounds_okay k5 (fun t h => ht t (hmem t (by simp only [h, true_or, or_true])))
    (fun p h => hp p (by simp only [CFeature.parts, List.mem_cons, List.mem_append, h, true_or, or_true])) ha1
  obtain ⟨s1, s2⟩ := scenarios_okay k6 (fun t h => ht t (hmem t (by simp only [h, true_or, or_true])))
    (fun p h => hp p (by simp only [CFeature.parts, List.mem_cons, List.mem_append, h, true_or, or_true])) ha2
  obtain ⟨x1, x2⟩ := list_okay (f := ruleOf A) (okay := fun e => e.Ok d) (texts := Layout.Rule.texts) (toks := CRule.toks) (xs := f.rules)
    fun r hr => rule_okay (k7 r hr) (fun t h => ht t (hmem t (by simp only [List.mem_flatMap.2 ⟨r, hr, h⟩, or_true])))
      (fun p h => hp p (by simp only [CFeature.parts, List.mem_cons, List.mem_append]; exact .inr (.inr (List.mem_flatMap.2 ⟨r, hr, h⟩)))) (ha3 r hr) (ha4 r hr)
  refine ⟨⟨tags_okay k2 fun t h => ht t (hmem t (.inl h)), head_okay h1 k3 (by simp) (by simp) (by simp) (by simp) fun t h => ht t (hmem t ?_), b1, s1, x1⟩, ?_⟩
  · simp only [List.mem_cons] at h; rcases h with h | h <;> simp [h]
  · have := head_texts h1
    simp only at this
    simp only [featureOf, Layout.Feature.texts, this, b2, s2, x2, lns_texts, CFeature.toks, List.flatMap_cons, List.flatMap_append, List.append_assoc]

end

end Back

end Gherkin
