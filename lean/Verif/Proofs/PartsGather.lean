import Verif.Proofs.PartsCst
import Verif.Props.Mirror

/-! The pickles and cases of a feature are those of its scenarios, one after the other. -/

namespace Gherkin

open Pickles

theorem follow_nil {ε α : Type} (x : Except ε (List α)) : follow x (.ok []) = x := by
  cases x <;> simp [follow]

theorem nil_follow {ε α : Type} (x : Except ε (List α)) : follow (.ok []) x = x := by
  cases x <;> simp [follow]

theorem follow_assoc {ε α : Type} (x y z : Except ε (List α)) : follow (follow x y) z = follow x (follow y z) := by
  cases x <;> cases y <;> cases z <;> simp [follow]

theorem gather_one {ε α : Type} (x : Except ε (List α)) : gather [x] = x := follow_nil x

theorem gather_append {ε α : Type} : ∀ (k l : List (Except ε (List α))), gather (k ++ l) = follow (gather k) (gather l)
  | [], l => (nil_follow _).symm
  | a :: k, l => by rw [List.cons_append, gather, gather, gather_append k l, follow_assoc]

theorem gather_flatMap {ε α β : Type} (f : β → List (Except ε (List α))) : ∀ l : List β, gather (l.flatMap f) = gather (l.map fun x => gather (f x))
  | [] => rfl
  | a :: l => by rw [List.flatMap_cons, gather_append, gather_flatMap f l, List.map_cons, gather]

namespace Pickles

/-- What the pickles say, or the exception. -/
def outcome (x : M (List Pickle)) : Except Crash (List Pickle.Content) := (x 0).map fun p => p.1.map Pickle.content

theorem Alike.outcome {x y : M (List Pickle)} (h : Alike (List.map Pickle.content) x y) : outcome x = outcome y := h 0 0

theorem outcome_seq {x y : M (List Pickle)} (hy : Alike (List.map Pickle.content) y y) :
    outcome (x >>= fun ps => y >>= fun qs => Pure.pure (ps ++ qs)) = follow (outcome x) (outcome y) := by
  unfold outcome
  show Except.map _ (Pickles.bind x (fun ps => Pickles.bind y fun qs => Pickles.pure (ps ++ qs)) 0) = _
  unfold Pickles.bind
  rcases h1 : x 0 with e | ⟨a, k⟩
  · rfl
  · have e := hy k 0
    simp only [Except.map]
    rcases h2 : y k with c | ⟨b, j⟩ <;> rcases h3 : y 0 with c' | ⟨b', j'⟩ <;> rw [h2, h3] at e <;> simp only [Except.map] at e
    · simp only [Except.error.injEq] at e
      simp [follow, e]
    · cases e
    · cases e
    · simp only [Except.ok.injEq] at e
      simp [Pickles.pure, follow, e]

theorem same_refl (a : List Step) : SameSteps a a := by
  induction a with
  | nil => exact .nil
  | cons s a ih => exact .cons rfl ih

theorem compileAny_same (eng : Engine) (uri : Str) (tags : List Tag) (bg : List Step) (s : Scenario) (lang : Str) :
    Alike (List.map Pickle.content) (compileAny eng uri tags bg s lang) (compileAny eng uri tags bg s lang) := compileAny_alike rfl (same_refl bg) rfl eng uri lang

/-- Children of a rule that say the same. -/
theorem compileRuleChildren_alike (eng : Engine) (uri : Str) {tags tags' : List Tag} (ht : names tags = names tags') (lang : Str) :
    ∀ {cs cs' : List RuleChild}, List.Forall₂ (fun (c c' : RuleChild) => c.change unplacing = c'.change unplacing) cs cs' → ∀ {bg bg' : List Step}, SameSteps bg bg' →
      Alike (List.map Pickle.content) (compileRuleChildren eng uri tags lang bg cs) (compileRuleChildren eng uri tags' lang bg' cs')
  | _, _, .nil, _, _, _ => Alike.pure rfl
  | _, _, .cons (a := .background b) (b := .background b') h hs, _, _, hb => by
    simp only [RuleChild.change, RuleChild.background.injEq] at h
    unfold compileRuleChildren
    exact compileRuleChildren_alike eng uri ht lang hs (sameSteps_append hb (forall₂_of_maps (by have := congrArg Background.steps h; exact this)))
  | _, _, .cons (a := .background b) (b := .scenario b') h hs, _, _, hb => by cases h
  | _, _, .cons (a := .scenario b) (b := .background b') h hs, _, _, hb => by cases h
  | _, _, .cons (a := .scenario s) (b := .scenario s') h hs, _, _, hb => by
    simp only [RuleChild.change, RuleChild.scenario.injEq] at h
    unfold compileRuleChildren
    exact (compileAny_alike ht hb h eng uri lang).bind fun _ _ e => (compileRuleChildren_alike eng uri ht lang hs hb).bind fun _ _ e' => Alike.pure (by
      rw [List.map_append, List.map_append, e, e'])

theorem names_unplaced {ts ts' : List Tag} (h : ts.map (Tag.change unplacing) = ts'.map (Tag.change unplacing)) : names ts = names ts' := by
  have := congrArg names h
  simpa [names, Tag.change, Function.comp_def] using this

theorem compileChildren_alike (eng : Engine) (uri : Str) {tags tags' : List Tag} (ht : names tags = names tags') (lang : Str) :
    ∀ {cs cs' : List FeatureChild}, List.Forall₂ (fun (c c' : FeatureChild) => c.change unplacing = c'.change unplacing) cs cs' → ∀ {bg bg' : List Step}, SameSteps bg bg' →
      Alike (List.map Pickle.content) (compileChildren eng uri tags lang bg cs) (compileChildren eng uri tags' lang bg' cs')
  | _, _, .nil, _, _, _ => Alike.pure rfl
  | _, _, .cons (a := .background b) (b := .background b') h hs, _, _, hb => by
    simp only [FeatureChild.change, FeatureChild.background.injEq] at h
    unfold compileChildren
    exact compileChildren_alike eng uri ht lang hs (sameSteps_append hb (forall₂_of_maps (by have := congrArg Background.steps h; exact this)))
  | _, _, .cons (a := .background b) (b := .scenario b') h hs, _, _, hb => by cases h
  | _, _, .cons (a := .background b) (b := .rule b') h hs, _, _, hb => by cases h
  | _, _, .cons (a := .scenario b) (b := .background b') h hs, _, _, hb => by cases h
  | _, _, .cons (a := .scenario b) (b := .rule b') h hs, _, _, hb => by cases h
  | _, _, .cons (a := .rule b) (b := .background b') h hs, _, _, hb => by cases h
  | _, _, .cons (a := .rule b) (b := .scenario b') h hs, _, _, hb => by cases h
  | _, _, .cons (a := .scenario s) (b := .scenario s') h hs, _, _, hb => by
    simp only [FeatureChild.change, FeatureChild.scenario.injEq] at h
    unfold compileChildren
    exact (compileAny_alike ht hb h eng uri lang).bind fun _ _ e => (compileChildren_alike eng uri ht lang hs hb).bind fun _ _ e' => Alike.pure (by
      rw [List.map_append, List.map_append, e, e'])
  | _, _, .cons (a := .rule s) (b := .rule s') h hs, _, _, hb => by
    simp only [FeatureChild.change, FeatureChild.rule.injEq] at h
    have hc : List.Forall₂ (fun (c c' : RuleChild) => c.change unplacing = c'.change unplacing) s.children s'.children :=
      forall₂_of_maps (by have := congrArg RuleNode.children h; exact this)
    have htr : names s.tags = names s'.tags := names_unplaced (by have := congrArg RuleNode.tags h; exact this)
    unfold compileChildren compileRule
    exact (compileRuleChildren_alike eng uri (by simp only [names, List.map_append] at ht htr ⊢; rw [ht, htr]) lang hc hb).bind fun _ _ e =>
      (compileChildren_alike eng uri ht lang hs hb).bind fun _ _ e' => Alike.pure (by rw [List.map_append, List.map_append, e, e'])

/-- Features that say the same compile to pickles that say the same, or raise the same exception. -/
theorem compile_alike (eng : Engine) (uri : Str) {d d' : Document} {f f' : Feature} (hf : d.feature = some f) (hf' : d'.feature = some f')
    (h : f.unplaced = f'.unplaced) : Alike (List.map Pickle.content) (compile eng uri d) (compile eng uri d') := by
  have hc : List.Forall₂ (fun (c c' : FeatureChild) => c.change unplacing = c'.change unplacing) f.children f'.children :=
    forall₂_of_maps (by have := congrArg Feature.children h; exact this)
  have ht : names f.tags = names f'.tags := names_unplaced (by have := congrArg Feature.tags h; exact this)
  have hl : f.language = f'.language := by have := congrArg Feature.language h; exact this
  have he : f.children.isEmpty = f'.children.isEmpty := by
    have := hc.length_eq
    generalize f.children = x at this ⊢
    generalize f'.children = y at this ⊢
    cases x <;> cases y <;> simp_all
  unfold compile
  rw [hf, hf']
  simp only [he, hl]
  split
  · exact Alike.pure rfl
  · refine (Alike.key _).bind fun l l' e => ?_
    subst e
    exact compileChildren_alike eng uri ht l hc .nil

theorem forall₂_same {α : Type} {R : α → α → Prop} (h : ∀ a, R a a) : ∀ l : List α, List.Forall₂ R l l
  | [] => .nil
  | a :: l => .cons (h a) (forall₂_same h l)

theorem scenarios_outcome (eng : Engine) (uri : Str) (tags : List Tag) (lang : Str) (bg : List Step) : ∀ ss : List Scenario,
    outcome (compileRuleChildren eng uri tags lang bg (ss.map .scenario)) = gather (ss.map fun s => outcome (compileAny eng uri tags bg s lang))
  | [] => rfl
  | s :: ss => by
    rw [List.map_cons, compileRuleChildren, outcome_seq (compileRuleChildren_alike eng uri rfl lang (forall₂_same (R := _) (by intro _; rfl) _) (same_refl bg)),
      scenarios_outcome eng uri tags lang bg ss, List.map_cons, gather]

theorem rule_outcome (eng : Engine) (uri : Str) (tags : List Tag) (lang : Str) : ∀ (bs : List Background) (bg : List Step) (ss : List Scenario),
    outcome (compileRuleChildren eng uri tags lang bg (bs.map .background ++ ss.map .scenario)) =
      gather (ss.map fun s => outcome (compileAny eng uri tags (bg ++ bs.flatMap (·.steps)) s lang))
  | [], bg, ss => by simp [scenarios_outcome]
  | b :: bs, bg, ss => by
    rw [List.map_cons, List.cons_append, compileRuleChildren, rule_outcome eng uri tags lang bs]
    simp


theorem rules_outcome (eng : Engine) (uri : Str) (tags : List Tag) (lang : Str) (bg : List Step) : ∀ rs : List RuleNode,
    outcome (compileChildren eng uri tags lang bg (rs.map .rule)) = gather (rs.map fun r => outcome (compileRule eng uri tags bg r lang))
  | [] => rfl
  | s :: ss => by
    rw [List.map_cons, compileChildren, outcome_seq (compileChildren_alike eng uri rfl lang (forall₂_same (R := _) (by intro _; rfl) _) (same_refl bg)),
      rules_outcome eng uri tags lang bg ss, List.map_cons, gather]

theorem children_outcome (eng : Engine) (uri : Str) (tags : List Tag) (lang : Str) (bg : List Step) (rs : List RuleNode) : ∀ ss : List Scenario,
    outcome (compileChildren eng uri tags lang bg (ss.map .scenario ++ rs.map .rule)) =
      gather (ss.map (fun s => outcome (compileAny eng uri tags bg s lang)) ++ rs.map fun r => outcome (compileRule eng uri tags bg r lang))
  | [] => by rw [List.map_nil, List.nil_append, rules_outcome, List.map_nil, List.nil_append]
  | s :: ss => by
    rw [List.map_cons, List.cons_append, compileChildren, outcome_seq (compileChildren_alike eng uri rfl lang (forall₂_same (R := _) (by intro _; rfl) _) (same_refl bg)),
      children_outcome eng uri tags lang bg rs ss, List.map_cons, List.cons_append, gather]

theorem feature_outcome (eng : Engine) (uri : Str) (tags : List Tag) (lang : Str) (rs : List RuleNode) (ss : List Scenario) : ∀ (bs : List Background) (bg : List Step),
    outcome (compileChildren eng uri tags lang bg (bs.map .background ++ ss.map .scenario ++ rs.map .rule)) =
      gather (ss.map (fun s => outcome (compileAny eng uri tags (bg ++ bs.flatMap (·.steps)) s lang)) ++
        rs.map fun r => outcome (compileRule eng uri tags (bg ++ bs.flatMap (·.steps)) r lang))
  | [], bg => by simp only [List.map_nil, List.nil_append, children_outcome, List.flatMap_nil, List.append_nil]
  | b :: bs, bg => by
    rw [List.map_cons, List.cons_append, List.cons_append, compileChildren, feature_outcome eng uri tags lang rs ss bs]
    simp

end Pickles

end Gherkin
