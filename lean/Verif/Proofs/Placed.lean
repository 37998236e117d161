import Verif.Proofs.DocFacts
import Verif.Proofs.RunSplit
import Verif.Spec.Blocks
import Verif.Proofs.CstDoc

/-! Where the parts of a typed document stand among its tokens. -/

namespace Gherkin

open Cst

/-- The list does not begin with an `Other` token. -/
def NH (ts : List Token) : Prop := ∀ t ∈ ts.head?, t.type ≠ some .other

theorem NH.append {a b : List Token} (ha : NH a) (hb : NH b) : NH (a ++ b) := by
  cases a with
  | nil => simpa using hb
  | cons x xs => intro t ht; exact ha t (by simpa using ht)

theorem NH.flatMap {α : Type} {f : α → List Token} {l : List α} (h : ∀ x ∈ l, NH (f x)) : NH (l.flatMap f) := by
  induction l with
  | nil => simp [NH]
  | cons x xs ih => rw [List.flatMap_cons]; exact (h x (by simp)).append (ih fun y hy => h y (by simp [hy]))

theorem NH.nil : NH [] := by simp [NH]
theorem NH.all {ts : List Token} {k : Kind} (hk : k ≠ .other) (h : ∀ t ∈ ts, t.type = some k) : NH ts := by
  intro t ht
  rw [h t (List.mem_of_mem_head? ht)]
  simpa using hk

theorem step_nh {s : CStep} (h : s.Ok) : NH s.toks := by
  intro t ht; simp [CStep.toks] at ht; subst ht; rw [h.1]; simp
theorem background_nh {b : CBackground} (h : b.Ok) : NH b.toks := by
  intro t ht; simp [CBackground.toks] at ht; subst ht; rw [h.1]; simp
theorem examples_nh {e : CExamples} (h : e.Ok) : NH e.toks :=
  (NH.all (by simp) h.1).append fun t ht => by simp at ht; subst ht; rw [h.2.1]; simp
theorem scenario_nh {s : CScenario} (h : s.Ok) : NH s.toks :=
  (NH.all (by simp) h.1).append fun t ht => by simp at ht; subst ht; rw [h.2.1]; simp
theorem rule_nh {r : CRule} (h : r.Ok) : NH r.toks :=
  (NH.all (by simp) h.1).append fun t ht => by simp at ht; subst ht; rw [h.2.1]; simp

/-- A title line and its description stand in the list, and the description ends there. -/
def Placed (ts : List Token) (line : Token) (desc : List Token) : Prop := ∃ A B, ts = A ++ line :: (desc ++ B) ∧ NH B

theorem Placed.mono {xs ys zs : List Token} {line : Token} {desc : List Token} (h : Placed xs line desc) (hz : NH zs) :
    Placed (ys ++ (xs ++ zs)) line desc := by
  obtain ⟨A, B, rfl, hB⟩ := h
  exact ⟨ys ++ A, B ++ zs, by simp, hB.append hz⟩

theorem Placed.flatMap {α : Type} {f : α → List Token} {l : List α} (hn : ∀ x ∈ l, NH (f x)) {x : α} (hx : x ∈ l) {line : Token}
    {desc : List Token} (h : Placed (f x) line desc) : Placed (l.flatMap f) line desc := by
  obtain ⟨a, b, rfl⟩ := List.append_of_mem hx
  rw [List.flatMap_append, List.flatMap_cons]
  exact h.mono (NH.flatMap fun y hy => hn y (by simp [hy]))

abbrev CPart := Part × Token × List Token

def Cst.CBackground.parts (b : CBackground) : List CPart := [(.background, b.line, b.desc)]
def Cst.CExamples.parts (e : CExamples) : List CPart := [(.examples, e.line, e.desc)]
def Cst.CScenario.parts (s : CScenario) : List CPart := (.scenario, s.line, s.desc) :: s.examples.flatMap CExamples.parts
def Cst.CRule.parts (r : CRule) : List CPart :=
  (.rule, r.line, r.desc) :: (r.background.toList.flatMap CBackground.parts ++ r.scenarios.flatMap CScenario.parts)
def Cst.CFeature.parts (f : CFeature) : List CPart :=
  (.feature, f.line, f.desc) :: (f.background.toList.flatMap CBackground.parts ++ f.scenarios.flatMap CScenario.parts ++
    f.rules.flatMap CRule.parts)
def Cst.CDoc.parts (d : CDoc) : List CPart := d.feature.toList.flatMap CFeature.parts

theorem background_parts {b : CBackground} (h : b.Ok) {p : CPart} (hp : p ∈ b.parts) : Placed b.toks p.2.1 p.2.2 := by
  simp [CBackground.parts] at hp
  subst hp
  exact ⟨[], _, rfl, NH.flatMap fun s hs => step_nh (h.2.2 s hs)⟩

theorem examples_parts {e : CExamples} (h : e.Ok) {p : CPart} (hp : p ∈ e.parts) : Placed e.toks p.2.1 p.2.2 := by
  simp [CExamples.parts] at hp
  subst hp
  exact ⟨_, _, rfl, NH.all (by simp) h.2.2.2.1⟩

theorem scenario_parts {s : CScenario} (h : s.Ok) {p : CPart} (hp : p ∈ s.parts) : Placed s.toks p.2.1 p.2.2 := by
  simp only [CScenario.parts, List.mem_cons, List.mem_flatMap] at hp
  have hst : NH (s.steps.flatMap CStep.toks) := NH.flatMap fun x hx => step_nh (h.2.2.2.1 x hx)
  have hex : ∀ e ∈ s.examples, NH e.toks := fun e he => examples_nh (h.2.2.2.2 e he)
  rcases hp with rfl | ⟨e, he, hp⟩
  · exact ⟨s.tags, _, by simp only [CScenario.toks, List.append_assoc], hst.append (NH.flatMap hex)⟩
  · have := (examples_parts (h.2.2.2.2 e he) hp).flatMap hex he
    have := this.mono (ys := s.tags ++ s.line :: (s.desc ++ s.steps.flatMap CStep.toks)) NH.nil
    simpa [CScenario.toks] using this

theorem rule_parts {r : CRule} (h : r.Ok) {p : CPart} (hp : p ∈ r.parts) : Placed r.toks p.2.1 p.2.2 := by
  simp only [CRule.parts, List.mem_cons, List.mem_flatMap, List.mem_append] at hp
  have hbg : ∀ b ∈ r.background.toList, NH b.toks := fun b hb => background_nh (h.2.2.2.1 b (by simpa using hb))
  have hsc : ∀ e ∈ r.scenarios, NH e.toks := fun e he => scenario_nh (h.2.2.2.2 e he)
  rcases hp with rfl | ⟨b, hb, hp⟩ | ⟨s, hs, hp⟩
  · exact ⟨r.tags, _, by simp only [CRule.toks, List.append_assoc], (NH.flatMap hbg).append (NH.flatMap hsc)⟩
  · have := (background_parts (h.2.2.2.1 b (by simpa using hb)) hp).flatMap hbg hb
    have := this.mono (ys := r.tags ++ r.line :: r.desc) (NH.flatMap hsc)
    simpa [CRule.toks] using this
  · have := (scenario_parts (h.2.2.2.2 s hs) hp).flatMap hsc hs
    have := this.mono (ys := r.tags ++ r.line :: (r.desc ++ r.background.toList.flatMap CBackground.toks)) NH.nil
    simpa [CRule.toks] using this

theorem feature_parts {f : CFeature} (h : f.Ok) {p : CPart} (hp : p ∈ f.parts) : Placed f.toks p.2.1 p.2.2 := by
  simp only [CFeature.parts, List.mem_cons, List.mem_flatMap, List.mem_append] at hp
  have hbg : ∀ b ∈ f.background.toList, NH b.toks := fun b hb => background_nh (h.2.2.2.2.1 b (by simpa using hb))
  have hsc : ∀ e ∈ f.scenarios, NH e.toks := fun e he => scenario_nh (h.2.2.2.2.2.1 e he)
  have hru : ∀ e ∈ f.rules, NH e.toks := fun e he => rule_nh (h.2.2.2.2.2.2 e he)
  rcases hp with rfl | (⟨b, hb, hp⟩ | ⟨s, hs, hp⟩) | ⟨s, hs, hp⟩
  · exact ⟨f.language.toList ++ f.tags, _, by simp only [CFeature.toks, List.append_assoc], (NH.flatMap hbg).append ((NH.flatMap hsc).append (NH.flatMap hru))⟩
  · have := (background_parts (h.2.2.2.2.1 b (by simpa using hb)) hp).flatMap hbg hb
    have := this.mono (ys := f.language.toList ++ f.tags ++ f.line :: f.desc) ((NH.flatMap hsc).append (NH.flatMap hru))
    simpa [CFeature.toks] using this
  · have := (scenario_parts (h.2.2.2.2.2.1 s hs) hp).flatMap hsc hs
    have := this.mono (ys := f.language.toList ++ f.tags ++ f.line :: (f.desc ++ f.background.toList.flatMap CBackground.toks)) (NH.flatMap hru)
    simpa [CFeature.toks] using this
  · have := (rule_parts (h.2.2.2.2.2.2 s hs) hp).flatMap hru hs
    have := this.mono (ys := f.language.toList ++ f.tags ++ f.line :: (f.desc ++ f.background.toList.flatMap CBackground.toks ++
      f.scenarios.flatMap CScenario.toks)) NH.nil
    simpa [CFeature.toks] using this

theorem doc_placed {d : CDoc} (h : d.Ok) {p : CPart} (hp : p ∈ d.parts) : Placed d.toks p.2.1 p.2.2 := by
  simp only [CDoc.parts, List.mem_flatMap, Option.mem_toList] at hp
  obtain ⟨f, hf, hp⟩ := hp
  have := (feature_parts (h.1 f hf) hp).mono (ys := []) (zs := [d.eof]) (by intro t ht; simp at ht; subst ht; rw [h.2]; simp)
  simpa [CDoc.toks, hf] using this

/-! ### Doc strings -/

theorem infix_flatMap {α : Type} {f : α → List Token} {l : List α} {x : α} (hx : x ∈ l) : f x <:+: l.flatMap f := by
  obtain ⟨a, b, rfl⟩ := List.append_of_mem hx
  exact ⟨a.flatMap f, b.flatMap f, by simp [List.flatMap_append]⟩

theorem background_infix {d : CDoc} {b : CBackground} (hb : b ∈ d.backgrounds) : b.toks <:+: d.toks := by
  simp only [CDoc.backgrounds, List.mem_flatMap, Option.mem_toList, List.mem_append] at hb
  obtain ⟨f, hf, hb⟩ := hb
  have h1 : f.toks <:+: d.toks := by
      exact ⟨[], [d.eof], by simp [CDoc.toks, hf]⟩
  refine List.IsInfix.trans ?_ h1
  rcases hb with hb | ⟨r, hr, hb⟩
  · refine (infix_flatMap (f := CBackground.toks) (l := f.background.toList) (by simpa using hb)).trans ?_
    exact ⟨f.language.toList ++ f.tags ++ f.line :: f.desc, f.scenarios.flatMap CScenario.toks ++ f.rules.flatMap CRule.toks, by simp only [CFeature.toks, List.append_assoc, List.cons_append]⟩
  · have h2 : r.toks <:+: f.toks := by
      refine (infix_flatMap (f := CRule.toks) hr).trans ?_
      exact ⟨f.language.toList ++ f.tags ++ f.line :: (f.desc ++ f.background.toList.flatMap CBackground.toks ++
        f.scenarios.flatMap CScenario.toks), [], by simp [CFeature.toks]⟩
    refine List.IsInfix.trans ?_ h2
    refine (infix_flatMap (f := CBackground.toks) (l := r.background.toList) (by simpa using hb)).trans ?_
    exact ⟨r.tags ++ r.line :: r.desc, r.scenarios.flatMap CScenario.toks, by simp only [CRule.toks, List.append_assoc, List.cons_append]⟩

theorem scenario_infix {d : CDoc} {b : CScenario} (hb : b ∈ d.scenarios) : b.toks <:+: d.toks := by
  simp only [CDoc.scenarios, List.mem_flatMap, Option.mem_toList, List.mem_append] at hb
  obtain ⟨f, hf, hb⟩ := hb
  have h1 : f.toks <:+: d.toks := by
      exact ⟨[], [d.eof], by simp [CDoc.toks, hf]⟩
  refine List.IsInfix.trans ?_ h1
  rcases hb with hb | ⟨r, hr, hb⟩
  · refine (infix_flatMap (f := CScenario.toks) hb).trans ?_
    exact ⟨f.language.toList ++ f.tags ++ f.line :: (f.desc ++ f.background.toList.flatMap CBackground.toks), f.rules.flatMap CRule.toks,
      by simp only [CFeature.toks, List.append_assoc, List.cons_append]⟩
  · have h2 : r.toks <:+: f.toks := by
      refine (infix_flatMap (f := CRule.toks) hr).trans ?_
      exact ⟨f.language.toList ++ f.tags ++ f.line :: (f.desc ++ f.background.toList.flatMap CBackground.toks ++
        f.scenarios.flatMap CScenario.toks), [], by simp [CFeature.toks]⟩
    refine List.IsInfix.trans ?_ h2
    refine (infix_flatMap (f := CScenario.toks) hb).trans ?_
    exact ⟨r.tags ++ r.line :: (r.desc ++ r.background.toList.flatMap CBackground.toks), [], by simp [CRule.toks]⟩

/-- All steps of a typed document. -/
def Cst.CDoc.steps (d : CDoc) : List CStep := d.backgrounds.flatMap (·.steps) ++ d.scenarios.flatMap (·.steps)

theorem step_infix {d : CDoc} {s : CStep} (h : s ∈ d.steps) : s.toks <:+: d.toks := by
  simp only [CDoc.steps, List.mem_append, List.mem_flatMap] at h
  rcases h with ⟨b, hb, hs⟩ | ⟨b, hb, hs⟩
  · refine List.IsInfix.trans ?_ (background_infix hb)
    exact (infix_flatMap (f := CStep.toks) hs).trans ⟨b.line :: b.desc, [], by simp [CBackground.toks]⟩
  · refine List.IsInfix.trans ?_ (scenario_infix hb)
    exact (infix_flatMap (f := CStep.toks) hs).trans ⟨b.tags ++ b.line :: b.desc, b.examples.flatMap CExamples.toks,
      by simp only [CScenario.toks, List.append_assoc, List.cons_append]⟩

theorem csteps_ok {d : CDoc} (hd : d.Ok) {s : CStep} (h : s ∈ d.steps) : s.Ok := by
  simp only [CDoc.steps, List.mem_append, List.mem_flatMap] at h
  rcases h with ⟨b, hb, hs⟩ | ⟨b, hb, hs⟩
  · exact (backgrounds_ok hd b hb).2.2 s hs
  · exact (scenarios_ok hd b hb).2.2.2.1 s hs

theorem ast_steps {d : CDoc} {cm : List Comment} {n : Nat} {s : Step} (h : s ∈ (d.ast cm n).1.steps) :
    ∃ c ∈ d.steps, ∃ k, s = (c.ast k).1 := by
  simp only [Document.steps, List.mem_append, List.mem_flatMap] at h
  rcases h with ⟨b, hb, hs⟩ | ⟨b, hb, hs⟩
  · obtain ⟨B, hB, k, rfl⟩ := doc_backgrounds hb
    obtain ⟨S, hS, k, rfl⟩ := thread_mem hs
    exact ⟨S, by simp only [CDoc.steps, List.mem_append, List.mem_flatMap]; exact .inl ⟨B, hB, hS⟩, k, rfl⟩
  · obtain ⟨B, hB, k, rfl⟩ := doc_scenarios hb
    obtain ⟨S, hS, k, rfl⟩ := thread_mem hs
    exact ⟨S, by simp only [CDoc.steps, List.mem_append, List.mem_flatMap]; exact .inr ⟨B, hB, hS⟩, k, rfl⟩

/-- An accepted text as a run of the line automaton together with its typed document. -/
theorem accepted_doc {stop : Bool} {text : Str} {m : CState} (hm : m.Valid) {b : BState} {d : Document}
    (h : (parse ⟨classic, astBuilder, stop⟩ text m b).1 = .ok (some d)) :
    ∃ (mv : List Auto.Move) (q : Nat) (m' : CState) (D : CDoc),
      Auto.Run 0 (Classic.reset m) (tokenLines text) mv q m' ∧ D.Ok ∧
      D.toks = (mv.map (·.tok)).filter Token.isCore ∧ d = (D.ast (commentsOf (mv.map (·.tok))) b.nextId).1 := by
  obtain ⟨mv, q, m', h1, h2, _⟩ := accepted_run astBuilder_plain hm h
  obtain ⟨D, d1, d2, d3, _⟩ := parse_doc classic_lawful stop h
  have hb : builds (parse (classicCfg astBuilder stop) text m b).2.log = mv.map (·.tok) := by
    rw [h2]
    have key : ∀ {q : Nat} {m : CState} {lines : List Line} {mv : List Auto.Move} {q' : Nat} {m' : CState},
        Auto.Run q m lines mv q' m' → builds (mv.flatMap Auto.Move.evs) = mv.map (·.tok) := by
      have one : ∀ {q l rest m tr t m'}, Auto.step q l rest m = some (tr, t, m') → builds (Auto.Move.evs ⟨q, tr, t⟩) = [t] := by
        intro q l rest m tr t m' hs
        obtain ⟨row, pre, post, hrow, htr, _⟩ := (Auto.step_spec hs).row
        have := builds_prods t tr.prods (table_builds hrow (tr := tr) (by rw [htr]; simp)).1
        simp [Auto.Move.evs, builds, this]
      intro q m lines mv q' m' h
      induction h with
      | nil => rfl
      | last hs he => simp [one hs]
      | cons hs he hr ih => rw [List.flatMap_cons, builds_append, one hs, ih]; rfl
    simp [allEvs, builds, builds_append, key h1]
  rw [hb] at d2 d3
  exact ⟨mv, q, m', D, h1, d1, d2, by simpa using d3⟩

end Gherkin
