import Verif.Proofs.Pickle
import Verif.Proofs.Interpolate
import Verif.Proofs.Quote

/-! Facts that connect parsed documents, their cases and pickles. -/

namespace Gherkin

open Cst Pickles

/-! ### Backgrounds come first in parsed documents -/

theorem rule_backgroundFirst (r : CRule) (n : Nat) : (r.ast n).1.BackgroundFirst := ⟨_, _, rfl⟩

theorem doc_backgroundFirst (D : CDoc) (cm : List Comment) (n : Nat) : (D.ast cm n).1.BackgroundFirst := by
  intro f hf
  obtain ⟨F, _, k, rfl⟩ := threadOpt_mem (f := CFeature.ast) hf
  refine ⟨⟨_, _, by simp only [CFeature.ast, List.append_assoc]; rfl, ?_⟩, ?_⟩
  · intro c hc b
    simp only [List.mem_append, List.mem_map] at hc
    rcases hc with ⟨_, _, rfl⟩ | ⟨_, _, rfl⟩ <;> simp
  · intro r hr
    simp only [CFeature.ast, List.mem_append, List.mem_map] at hr
    rcases hr with (⟨_, _, h⟩ | ⟨_, _, h⟩) | ⟨x, hx, h⟩
    · simp at h
    · simp at h
    · simp at h; subst h
      obtain ⟨R, _, k, rfl⟩ := thread_mem hx
      exact rule_backgroundFirst R k

/-! ### Types -/

/-- The type after the steps `ss`, starting with `init`. -/
theorem lastType_eq (init : Option KType) (ss : List Step) : lastType init ss =
    match (ss.filterMap (·.keywordType)).reverse.find? (· ≠ .conjunction) with
    | some t => some t
    | none => init := by
  induction ss generalizing init with
  | nil => rfl
  | cons s ss ih =>
    simp only [lastType, ih]
    cases hk : s.keywordType with
    | none => simp [hk]
    | some t =>
      simp only [List.filterMap_cons, hk, List.reverse_cons, List.find?_append, Option.elim]
      cases hf : (ss.filterMap (·.keywordType)).reverse.find? (· ≠ .conjunction) with
      | some t' => simp
      | none =>
        by_cases ht : t = .conjunction
        · subst ht; simp [nextType]
        · simp [nextType, ht]

theorem types_get (init : Option KType) (ss : List Step) (i : Nat) (hi : i < ss.length) :
    (types init ss)[i]? = some (lastType init (ss.take (i + 1))) := by
  induction ss generalizing init i with
  | nil => simp at hi
  | cons s ss ih =>
    cases i with
    | zero => simp [types, lastType]
    | succ i =>
      simp only [types, List.getElem?_cons_succ]
      rw [ih _ _ (by simpa using hi)]
      simp [lastType]

/-! ### What cases are made of -/

theorem mem_scenario_cases {tags : List Tag} {bg : List Step} {s : Scenario} {c : Case} (h : c ∈ s.cases tags bg) :
    c.outerTags = tags ∧ c.background = bg ∧ c.scenario = s ∧
      ∀ e hd r, c.row = some (e, hd, r) → e ∈ s.examples ∧ e.header = some hd ∧ r ∈ e.body := by
  simp only [Scenario.cases, List.mem_map] at h
  obtain ⟨row, hrow, rfl⟩ := h
  refine ⟨rfl, rfl, rfl, ?_⟩
  rintro e hd r rfl
  unfold Scenario.rows at hrow
  split at hrow
  · simp at hrow
  · simp only [List.mem_flatMap, List.mem_map, Option.mem_toList] at hrow
    obtain ⟨e', he', h', hh', r', hr', heq⟩ := hrow
    simp at heq
    obtain ⟨rfl, rfl, rfl⟩ := heq
    exact ⟨he', hh', hr'⟩

theorem mem_ids_background {f : Feature} {b : Background} (h : .background b ∈ f.children) : ∀ i ∈ b.ids, i ∈ f.ids := by
  intro i hi; simp only [Feature.ids, List.mem_append, List.mem_flatMap]; exact .inr ⟨_, h, hi⟩

/-- All ids that a case can refer to are ids of the document. -/
theorem case_ids {d : Document} {c : Case} (h : c ∈ d.cases) :
    (∀ i ∈ c.scenario.ids, i ∈ d.ids) ∧ (∀ t ∈ c.outerTags, t.id ∈ d.ids) ∧ (∀ s ∈ c.background, s.id ∈ d.ids) ∧
      ∀ e hd r, c.row = some (e, hd, r) → e ∈ c.scenario.examples ∧ e.header = some hd ∧ r ∈ e.body := by
  simp only [Document.cases, List.mem_flatMap, Option.mem_toList] at h
  obtain ⟨f, hf, hc⟩ := h
  have hfd : ∀ i ∈ f.ids, i ∈ d.ids := by
    intro i hi; simp only [Document.ids, List.mem_flatMap, Option.mem_toList]; exact ⟨f, hf, hi⟩
  have hbg : ∀ s ∈ f.backgroundSteps, s.id ∈ d.ids := by
    intro s hs
    simp only [Feature.backgroundSteps, List.mem_flatMap] at hs
    obtain ⟨ch, hch, hs⟩ := hs
    cases ch with
    | background b =>
      refine hfd _ (mem_ids_background hch _ ?_)
      simp only [Background.ids, List.mem_cons, List.mem_flatMap]
      exact .inr ⟨s, hs, by simp [Step.ids]⟩
    | scenario _ => simp [FeatureChild.backgroundSteps] at hs
    | rule _ => simp [FeatureChild.backgroundSteps] at hs
  have htg : ∀ t ∈ f.tags, t.id ∈ d.ids := by
    intro t ht; exact hfd _ (by simp only [Feature.ids, List.mem_append, List.mem_map]; exact .inl ⟨t, ht, rfl⟩)
  simp only [Feature.cases, List.mem_flatMap] at hc
  obtain ⟨ch, hch, hc⟩ := hc
  cases ch with
  | background b => simp [FeatureChild.cases] at hc
  | scenario s =>
    obtain ⟨h1, h2, rfl, h4⟩ := mem_scenario_cases (show c ∈ s.cases _ _ from hc)
    refine ⟨fun i hi => hfd _ ?_, by rw [h1]; exact htg, by rw [h2]; exact hbg, h4⟩
    simp only [Feature.ids, List.mem_append, List.mem_flatMap]; exact .inr ⟨_, hch, hi⟩
  | rule r =>
    have hc' : c ∈ r.cases f.tags f.backgroundSteps := hc
    simp only [RuleNode.cases, List.mem_flatMap] at hc'
    obtain ⟨s, hs, hc'⟩ := hc'
    obtain ⟨h1, h2, rfl, h4⟩ := mem_scenario_cases hc'
    have hrd : ∀ i ∈ r.ids, i ∈ d.ids := by
      intro i hi
      refine hfd _ ?_
      simp only [Feature.ids, List.mem_append, List.mem_flatMap]; exact .inr ⟨_, hch, hi⟩
    refine ⟨fun i hi => hrd _ ?_, ?_, ?_, h4⟩
    · simp only [RuleNode.scenarios, List.mem_flatMap] at hs
      obtain ⟨rc, hrc, hs⟩ := hs
      cases rc with
      | background _ => simp at hs
      | scenario s' =>
        simp at hs; rw [hs] at hi
        simp only [RuleNode.ids, List.mem_cons, List.mem_append, List.mem_flatMap]
        exact .inr (.inr ⟨_, hrc, hi⟩)
    · rw [h1]; intro t ht
      simp only [List.mem_append] at ht
      rcases ht with ht | ht
      · exact htg t ht
      · refine hrd _ ?_
        simp only [RuleNode.ids, List.mem_cons, List.mem_append, List.mem_map]
        exact .inr (.inl ⟨t, ht, rfl⟩)
    · rw [h2]; intro t ht
      simp only [List.mem_append] at ht
      rcases ht with ht | ht
      · exact hbg t ht
      · refine hrd _ ?_
        simp only [RuleNode.backgroundSteps, List.mem_flatMap] at ht
        obtain ⟨rc, hrc, hs⟩ := ht
        cases rc with
        | scenario _ => simp at hs
        | background b =>
          simp only [RuleNode.ids, List.mem_cons, List.mem_append, List.mem_flatMap]
          refine .inr (.inr ⟨_, hrc, ?_⟩)
          simp only [RuleChild.ids, Background.ids, List.mem_cons, List.mem_flatMap]
          exact .inr ⟨t, hs, by simp [Step.ids]⟩

/-- The scenarios of the cases, in order. -/
theorem cases_scenarios (d : Document) :
    d.cases.map (fun c => (c.scenario, c.row)) = d.scenarios.flatMap fun s => s.rows.map fun r => (s, r) := by
  have h1 : ∀ tags bg (s : Scenario), (s.cases tags bg).map (fun c => (c.scenario, c.row)) = s.rows.map fun r => (s, r) := by
    intro tags bg s; simp [Scenario.cases, Function.comp_def]
  simp only [Document.cases, Document.scenarios, List.map_flatMap, List.flatMap_assoc]
  congr 1
  funext f
  simp only [Feature.cases, List.map_flatMap]
  congr 1
  funext c
  cases c with
  | background b => simp [FeatureChild.cases, FeatureChild.scenarios]
  | scenario s => simp [FeatureChild.cases, FeatureChild.scenarios, h1]
  | rule r =>
    simp only [FeatureChild.cases, FeatureChild.scenarios, RuleNode.cases, RuleNode.scenarios, List.map_flatMap, List.flatMap_assoc, h1]
    congr 1

/-! ### Compilation succeeds -/

/-- What the compiler needs to be present. -/
structure Document.Compilable (d : Document) : Prop where
  language : ∀ f ∈ d.feature, f.language.isSome
  scenarios : ∀ s ∈ d.scenarios, s.name.isSome
  steps : ∀ s ∈ d.steps, s.text.isSome ∧ s.keywordType.isSome
  rows : ∀ e ∈ d.examples, ∀ h, e.header = some h → (∀ c ∈ h.cells, readable c.value = true) ∧
    ∀ r ∈ e.body, h.cells.length ≤ r.cells.length

theorem interpolateFrom_total (eng : Engine) {values : List Cell} : ∀ {hs : List Cell} {i : Nat} (s : Str),
    (∀ h ∈ hs, readable h.value = true) → i + hs.length ≤ values.length → ∃ s', interpolateFrom eng values i hs s = .ok s'
  | [], i, s, _, _ => ⟨s, rfl⟩
  | h :: hs, i, s, hm, hi => by
    have hlt : i < values.length := by simp at hi; omega
    rw [interpolateFrom]
    obtain ⟨r, _, hr⟩ := reSub_readable (hm h (by simp)) eng values[i].value s
    simp only [List.getElem?_eq_getElem hlt, hr]
    exact interpolateFrom_total eng _ (fun x hx => hm x (by simp [hx])) (by simp at hi; omega)

theorem each_total {α β : Type} {f : α → M β} : ∀ {as : List α}, (∀ a ∈ as, ∀ n, ∃ b n', f a n = .ok (b, n')) →
    ∀ n, ∃ bs n', each f as n = .ok (bs, n')
  | [], _, n => ⟨[], n, rfl⟩
  | a :: as, h, n => by
    obtain ⟨b, n1, h1⟩ := h a (by simp) n
    obtain ⟨bs, n2, h2⟩ := each_total (as := as) (fun x hx => h x (by simp [hx])) n1
    refine ⟨b :: bs, n2, ?_⟩
    simp only [each, Pickles.bind, h1, h2, Pickles.pure]

theorem bind_total {α β : Type} {x : M α} {f : α → M β} {n : Nat} (hx : ∃ a n', x n = .ok (a, n'))
    (hf : ∀ a n', x n = .ok (a, n') → ∃ b n'', f a n' = .ok (b, n'')) : ∃ b n', (x >>= f) n = .ok (b, n') := by
  obtain ⟨a, n1, h1⟩ := hx
  obtain ⟨b, n2, h2⟩ := hf a n1 h1
  refine ⟨b, n2, ?_⟩
  change Pickles.bind x f n = _
  simp only [Pickles.bind, h1, h2]

theorem pure_total {α : Type} (a : α) (n : Nat) : ∃ b n', (Pure.pure a : M α) n = .ok (b, n') := ⟨a, n, rfl⟩
theorem nextId_total (n : Nat) : ∃ b n', nextId n = .ok (b, n') := ⟨n, n + 1, rfl⟩
theorem lift_total {α : Type} {x : Except Crash α} (h : ∃ a, x = .ok a) (n : Nat) : ∃ b n', lift x n = .ok (b, n') := by
  obtain ⟨a, rfl⟩ := h; exact ⟨a, n, rfl⟩
theorem key_total {α : Type} {x : Option α} (h : x.isSome) (n : Nat) : ∃ b n', key x n = .ok (b, n') := by
  obtain ⟨a, rfl⟩ := Option.isSome_iff_exists.1 h; exact ⟨a, n, rfl⟩

/-- Header and row that interpolation can use. -/
def Fit (hs vs : List Cell) : Prop := (∀ h ∈ hs, readable h.value = true) ∧ hs.length ≤ vs.length

theorem interpolate_total (eng : Engine) {hs vs : List Cell} (h : Fit hs vs) (s : Str) : ∃ s', interpolate eng hs vs s = .ok s' :=
  interpolateFrom_total eng s h.1 (by have := h.2; omega)

theorem pickleArg_total (eng : Engine) (arg : StepArg) {hs vs : List Cell} (h : Fit hs vs) (n : Nat) :
    ∃ a n', pickleArg eng arg hs vs n = .ok (a, n') := by
  cases arg with
  | none => exact pure_total _ _
  | table t =>
    refine bind_total (each_total (fun r _ n => each_total (fun c _ n => lift_total (interpolate_total eng h _) n) n) n) ?_
    intro a n' _; exact pure_total _ _
  | doc dd =>
    refine bind_total (lift_total (interpolate_total eng h _) n) ?_
    intro a n' _
    cases dd.mediaType with
    | none => exact pure_total _ _
    | some mt =>
      refine bind_total (lift_total (interpolate_total eng h _) _) ?_
      intro a n' _; exact pure_total _ _

theorem fit_nil : Fit [] [] := ⟨by simp, by simp⟩

theorem pickleStep_total (eng : Engine) {s : Step} (h : s.text.isSome) (ty : Option KType) (n : Nat) :
    ∃ p n', pickleStep eng s ty n = .ok (p, n') :=
  bind_total (nextId_total n) fun _ _ _ => bind_total (key_total h _) fun _ _ _ =>
    bind_total (pickleArg_total eng _ fit_nil _) fun _ _ _ => pure_total _ _

theorem outlineStep_total (eng : Engine) {hs : List Cell} {row : Row} {s : Step} (h : s.text.isSome) (hf : Fit hs row.cells)
    (ty : Option KType) (n : Nat) : ∃ p n', outlineStep eng hs row s ty n = .ok (p, n') :=
  bind_total (key_total h _) fun _ _ _ => bind_total (lift_total (interpolate_total eng hf _) _) fun _ _ _ =>
    bind_total (pickleArg_total eng _ hf _) fun _ _ _ => bind_total (nextId_total _) fun _ _ _ => pure_total _ _

theorem stepLoop_total {f : Step → Option KType → M PStep} : ∀ {ss : List Step} (l : Option KType),
    (∀ s ∈ ss, s.keywordType.isSome ∧ ∀ ty n, ∃ p n', f s ty n = .ok (p, n')) → ∀ n, ∃ r n', stepLoop f l ss n = .ok (r, n')
  | [], l, _, n => pure_total _ _
  | s :: ss, l, h, n => by
    unfold stepLoop
    refine bind_total (key_total (h s (by simp)).1 _) fun kt _ _ => bind_total ((h s (by simp)).2 _ _) fun p _ _ =>
      bind_total (stepLoop_total _ (fun x hx => h x (by simp [hx])) _) fun r _ _ => ?_
    exact pure_total _ _

/-- A step the compiler can handle. -/
def Step.Full (s : Step) : Prop := s.text.isSome ∧ s.keywordType.isSome

theorem compileAny_total (eng : Engine) (uri : Str) (tags : List Tag) {bg : List Step} {s : Scenario} (lang : Str)
    (hbg : ∀ x ∈ bg, x.Full) (hss : ∀ x ∈ s.steps, x.Full) (hn : s.name.isSome)
    (hrows : ∀ e ∈ s.examples, ∀ h, e.header = some h → ∀ r ∈ e.body, Fit h.cells r.cells) (n : Nat) :
    ∃ ps n', compileAny eng uri tags bg s lang n = .ok (ps, n') := by
  have hp : ∀ x : Step, x.Full → x.keywordType.isSome ∧ ∀ ty n, ∃ p n', pickleStep eng x ty n = .ok (p, n') :=
    fun x hx => ⟨hx.2, fun ty n => pickleStep_total eng hx.1 ty n⟩
  unfold compileAny
  split
  · refine bind_total ?_ fun _ _ _ => bind_total (nextId_total _) fun _ _ _ => bind_total (key_total hn _) fun _ _ _ => pure_total _ _
    unfold scenarioSteps
    split
    · exact pure_total _ _
    · refine bind_total (stepLoop_total _ (fun x hx => hp x ?_) _) fun _ _ _ => pure_total _ _
      simp only [List.mem_append] at hx
      rcases hx with hx | hx
      · exact hbg x hx
      · exact hss x hx
  · refine bind_total (each_total ?_ _) fun _ _ _ => pure_total _ _
    intro e he n
    cases hh : e.header with
    | none => exact pure_total _ _
    | some h =>
      refine each_total (fun r hr n => ?_) n
      have hf := hrows e he h hh r hr
      unfold compileRow
      refine bind_total ?_ fun _ _ _ => bind_total (nextId_total _) fun _ _ _ => bind_total (key_total hn _) fun _ _ _ =>
        bind_total (lift_total (interpolate_total eng hf _) _) fun _ _ _ => pure_total _ _
      unfold rowSteps
      split
      · exact pure_total _ _
      · refine bind_total (stepLoop_total _ (fun x hx => hp x (hbg x hx)) _) fun _ _ _ =>
          bind_total (stepLoop_total _ (fun x hx => ⟨(hss x hx).2, fun ty n => outlineStep_total eng (hss x hx).1 hf ty n⟩) _) fun _ _ _ =>
          pure_total _ _

/-- A scenario the compiler can handle. -/
structure Scenario.Full (s : Scenario) : Prop where
  name : s.name.isSome
  steps : ∀ x ∈ s.steps, x.Full
  rows : ∀ e ∈ s.examples, ∀ h, e.header = some h → ∀ r ∈ e.body, Fit h.cells r.cells

theorem compileRuleChildren_total (eng : Engine) (uri : Str) (tags : List Tag) (lang : Str) : ∀ {cs : List RuleChild} {bg : List Step},
    (∀ x ∈ bg, x.Full) → (∀ b, .background b ∈ cs → ∀ x ∈ b.steps, x.Full) → (∀ s, .scenario s ∈ cs → s.Full) →
    ∀ n, ∃ ps n', compileRuleChildren eng uri tags lang bg cs n = .ok (ps, n')
  | [], bg, _, _, _, n => pure_total _ _
  | .background b :: cs, bg, h1, h2, h3, n => by
    unfold compileRuleChildren
    refine compileRuleChildren_total eng uri tags lang ?_ (fun b hb => h2 b (by simp [hb])) (fun s hs => h3 s (by simp [hs])) n
    intro x hx; simp only [List.mem_append] at hx
    rcases hx with hx | hx
    · exact h1 x hx
    · exact h2 b (by simp) x hx
  | .scenario s :: cs, bg, h1, h2, h3, n => by
    unfold compileRuleChildren
    have hs := h3 s (by simp)
    exact bind_total (compileAny_total eng uri tags lang h1 hs.steps hs.name hs.rows n) fun _ _ _ =>
      bind_total (compileRuleChildren_total eng uri tags lang h1 (fun b hb => h2 b (by simp [hb])) (fun s hs => h3 s (by simp [hs])) _)
        fun _ _ _ => pure_total _ _

theorem compileChildren_total (eng : Engine) (uri : Str) (tags : List Tag) (lang : Str) : ∀ {cs : List FeatureChild} {bg : List Step},
    (∀ x ∈ bg, x.Full) → (∀ c ∈ cs, ∀ b ∈ c.backgrounds, ∀ x ∈ b.steps, x.Full) → (∀ c ∈ cs, ∀ s ∈ c.scenarios, s.Full) →
    ∀ n, ∃ ps n', compileChildren eng uri tags lang bg cs n = .ok (ps, n')
  | [], bg, _, _, _, n => pure_total _ _
  | .background b :: cs, bg, h1, h2, h3, n => by
    unfold compileChildren
    refine compileChildren_total eng uri tags lang ?_ (fun b hb => h2 b (by simp [hb])) (fun s hs => h3 s (by simp [hs])) n
    intro x hx; simp only [List.mem_append] at hx
    rcases hx with hx | hx
    · exact h1 x hx
    · exact h2 (.background b) (by simp) b (by simp [FeatureChild.backgrounds]) x hx
  | .scenario s :: cs, bg, h1, h2, h3, n => by
    unfold compileChildren
    have hs := h3 (.scenario s) (by simp) s (by simp [FeatureChild.scenarios])
    exact bind_total (compileAny_total eng uri tags lang h1 hs.steps hs.name hs.rows n) fun _ _ _ =>
      bind_total (compileChildren_total eng uri tags lang h1 (fun b hb => h2 b (by simp [hb])) (fun s hs => h3 s (by simp [hs])) _)
        fun _ _ _ => pure_total _ _
  | .rule r :: cs, bg, h1, h2, h3, n => by
    unfold compileChildren
    refine bind_total (compileRuleChildren_total eng uri _ lang h1 ?_ ?_ n) fun _ _ _ =>
      bind_total (compileChildren_total eng uri tags lang h1 (fun b hb => h2 b (by simp [hb])) (fun s hs => h3 s (by simp [hs])) _)
        fun _ _ _ => pure_total _ _
    · intro b hb
      exact h2 (.rule r) (by simp) b (by simp only [FeatureChild.backgrounds, List.mem_flatMap]; exact ⟨_, hb, by simp⟩)
    · intro s hs
      exact h3 (.rule r) (by simp) s (by simp only [FeatureChild.scenarios, List.mem_flatMap]; exact ⟨_, hs, by simp⟩)

theorem compile_total (eng : Engine) (uri : Str) {d : Document} (h : d.Compilable) (n : Nat) : ∃ ps n', compile eng uri d n = .ok (ps, n') := by
  unfold compile
  cases hf : d.feature with
  | none => exact pure_total _ _
  | some f =>
    simp only
    split
    · exact pure_total _ _
    refine bind_total (key_total (h.language f (by simp [hf])) _) fun lang _ _ => compileChildren_total eng uri f.tags lang (by simp) ?_ ?_ _
    · intro c hc b hb x hx
      have hm : x ∈ d.steps := by
        simp only [Document.steps, List.mem_append, List.mem_flatMap]
        refine .inl ⟨b, ?_, hx⟩
        simp only [Document.backgrounds, List.mem_flatMap, Option.mem_toList]; exact ⟨f, hf, c, hc, hb⟩
      exact h.steps x hm
    · intro c hc s hs
      have hm : s ∈ d.scenarios := by
        simp only [Document.scenarios, List.mem_flatMap, Option.mem_toList]; exact ⟨f, hf, c, hc, hs⟩
      refine ⟨h.scenarios s hm, ?_, ?_⟩
      · intro x hx
        exact h.steps x (by simp only [Document.steps, List.mem_append, List.mem_flatMap]; exact .inr ⟨s, hm, hx⟩)
      · intro e he hd hh r hr
        have := h.rows e (by simp only [Document.examples, List.mem_flatMap]; exact ⟨s, hm, he⟩) hd hh
        exact ⟨this.1, this.2 r hr⟩

end Gherkin
