import Verif.Spec.Flat
import Verif.Proofs.PartsGather

/-! A scenario in a rule, with backgrounds, is compiled as the scenario with the tags and steps written out. -/

namespace Gherkin

open Pickles

/-- The row leaves the texts of the step as they are. -/
def Leaves (eng : Engine) (h r : Row) (s : Step) : Prop := ∀ x ∈ s.texts, interpolate eng h.cells r.cells x = .ok x

def Scenario.under (tags : List Tag) (steps : List Step) (s : Scenario) : Scenario :=
  { s with tags := tags ++ s.tags, steps := if s.steps.isEmpty then [] else steps ++ s.steps }

namespace Pickles

theorem M.assoc {α β γ : Type} (x : M α) (f : α → M β) (g : β → M γ) : (x >>= f) >>= g = x >>= fun a => f a >>= g := by
  funext n
  show Pickles.bind (Pickles.bind x f) g n = Pickles.bind x (fun a => Pickles.bind (f a) g) n
  unfold Pickles.bind
  rcases x n with e | ⟨a, k⟩ <;> rfl

theorem M.pure_bind {α β : Type} (a : α) (f : α → M β) : (Pure.pure a : M α) >>= f = f a := rfl

theorem stepLoop_append (f : Step → Option KType → M PStep) : ∀ (as bs : List Step) (l : Option KType),
    stepLoop f l (as ++ bs) = stepLoop f l as >>= fun r => stepLoop f r.2 bs >>= fun q => Pure.pure (r.1 ++ q.1, q.2)
  | [], bs, l => by
    rw [List.nil_append]
    funext n
    show _ = Pickles.bind (stepLoop f l bs) (fun q => Pickles.pure ([] ++ q.1, q.2)) n
    unfold Pickles.bind Pickles.pure
    rcases h : stepLoop f l bs n with e | ⟨a, k⟩ <;> rfl
  | a :: as, bs, l => by
    rw [List.cons_append, stepLoop, stepLoop, M.assoc]
    congr 1
    funext kt
    rw [M.assoc]
    congr 1
    funext p
    rw [stepLoop_append f as bs, M.assoc, M.assoc]
    congr 1
    funext r
    rw [M.assoc]
    rfl

theorem interpolate_nothing (eng : Engine) (s : Str) : interpolate eng [] [] s = .ok s := rfl

theorem each_lift {α β : Type} {g : α → Except Crash β} {h : α → β} : ∀ {as : List α}, (∀ a ∈ as, g a = .ok (h a)) → each (fun a => lift (g a)) as = (Pure.pure (as.map h) : M (List β))
  | [], _ => rfl
  | a :: as, hg => by
    unfold each
    rw [each_lift (as := as) fun x hx => hg x (by simp [hx]), hg a (by simp)]
    rfl

theorem each_pure {α β : Type} {g : α → M β} {h : α → β} : ∀ {as : List α}, (∀ a ∈ as, g a = Pure.pure (h a)) → each g as = (Pure.pure (as.map h) : M (List β))
  | [], _ => rfl
  | a :: as, hg => by
    unfold each
    rw [each_pure (as := as) fun x hx => hg x (by simp [hx]), hg a (by simp)]
    rfl

theorem pickleArg_leaves {eng : Engine} {a : StepArg} {hs vs : List Cell} (h : ∀ x ∈ a.texts, interpolate eng hs vs x = .ok x) : pickleArg eng a hs vs = pickleArg eng a [] [] := by
  cases a with
  | none => rfl
  | table t =>
    have key : ∀ hs vs, (∀ x ∈ (StepArg.table t).texts, interpolate eng hs vs x = .ok x) →
        each (fun (r : Row) => each (fun (c : Cell) => lift (interpolate eng hs vs c.value)) r.cells) t.rows = (Pure.pure (t.rows.map fun r => r.cells.map (·.value)) : M _) := by
      intro hs vs h
      refine each_pure fun r hr => each_lift fun c hc => h _ ?_
      simp only [StepArg.texts, List.mem_flatMap, List.mem_map]
      exact ⟨r, hr, c, hc, rfl⟩
    unfold pickleArg
    simp only
    rw [key hs vs h, key [] [] fun _ _ => rfl]
  | doc d =>
    unfold pickleArg
    simp only
    rw [h d.content (by simp [StepArg.texts]), interpolate_nothing]
    cases hm : d.mediaType with
    | none => rfl
    | some mt =>
      simp only
      rw [h mt (by simp [StepArg.texts, hm]), interpolate_nothing]

theorem pickleArg_self (eng : Engine) (a : StepArg) : Alike (fun x => x) (pickleArg eng a [] []) (pickleArg eng a [] []) := pickleArg_alike eng rfl rfl rfl

theorem step_leaves {eng : Engine} {h r : Row} {s : Step} (hs : Leaves eng h r s) (ty : Option KType) : Alike stepContent (pickleStep eng s ty) (outlineStep eng h.cells r s ty) := by
  unfold pickleStep outlineStep
  have ha : pickleArg eng s.arg h.cells r.cells = pickleArg eng s.arg [] [] := pickleArg_leaves fun x hx => hs x (by simp [Step.texts, hx])
  rw [ha]
  cases hx : s.text with
  | none => intro n n'; rfl
  | some t =>
    have hi := hs t (by simp [Step.texts, hx])
    intro n n'
    have := pickleArg_self eng s.arg (n + 1) n'
    simp only [pickleArg_self] at this
    show Except.map _ (Pickles.bind nextId (fun id => Pickles.bind (key (some t)) fun text => Pickles.bind (pickleArg eng s.arg [] []) fun arg =>
        Pickles.pure ({ astNodeIds := [s.id], id := id, type := ty, text := text, arg := arg } : PStep)) n) =
      Except.map _ (Pickles.bind (key (some t)) (fun t => Pickles.bind (lift (interpolate eng h.cells r.cells t)) fun text => Pickles.bind (pickleArg eng s.arg [] []) fun arg =>
        Pickles.bind nextId fun id => Pickles.pure ({ astNodeIds := [s.id, r.id], id := id, type := ty, text := text, arg := arg } : PStep)) n')
    simp only [Pickles.bind, nextId, key, hi, lift, Pickles.pure]
    rcases h1 : pickleArg eng s.arg [] [] (n + 1) with e | ⟨a, k⟩ <;> rcases h2 : pickleArg eng s.arg [] [] n' with e' | ⟨a', k'⟩ <;> rw [h1, h2] at this <;>
      simp_all [Except.map, stepContent]

theorem loop_leaves {eng : Engine} {h r : Row} : ∀ {ss : List Step}, (∀ s ∈ ss, Leaves eng h r s) → ∀ l,
    Alike (fun p : List PStep × Option KType => (p.1.map stepContent, p.2)) (stepLoop (pickleStep eng) l ss) (stepLoop (outlineStep eng h.cells r) l ss)
  | [], _, l => Alike.pure rfl
  | s :: ss, hs, l => by
    unfold stepLoop
    refine (Alike.key _).bind fun k k' e => ?_
    subst e
    refine (step_leaves (hs s (by simp)) _).bind fun p p' e => (loop_leaves (fun x hx => hs x (by simp [hx])) _).bind fun q q' e' => Alike.pure ?_
    simp only [Prod.mk.injEq] at e'
    simp only [List.map_cons, e, e'.1, e'.2]

theorem rowSteps_under {eng : Engine} {bg : List Step} {s : Scenario} {h r : Row} (hl : s.steps ≠ [] → ∀ st ∈ bg, Leaves eng h r st) (rt : List Tag) :
    Alike (List.map stepContent) (rowSteps eng bg s h r) (rowSteps eng [] (s.under rt bg) h r) := by
  by_cases he : s.steps.isEmpty = true
  · have e1 : rowSteps eng bg s h r = Pure.pure [] := by unfold rowSteps; rw [if_pos he]; rfl
    have e2 : rowSteps eng [] (s.under rt bg) h r = Pure.pure [] := by unfold rowSteps; rw [if_pos (by simp [Scenario.under, he])]; rfl
    rw [e1, e2]
    exact Alike.pure rfl
  · have hne : s.steps ≠ [] := by simpa using he
    have hst : (s.under rt bg).steps = bg ++ s.steps := by simp only [Scenario.under, if_neg he]
    have e1 : rowSteps eng bg s h r = stepLoop (pickleStep eng) none bg >>= fun x => stepLoop (outlineStep eng h.cells r) x.2 s.steps >>= fun q => Pure.pure (x.1 ++ q.1) := by
      unfold rowSteps; rw [if_neg he]
    have e2 : rowSteps eng [] (s.under rt bg) h r = stepLoop (outlineStep eng h.cells r) none bg >>= fun x => stepLoop (outlineStep eng h.cells r) x.2 s.steps >>= fun q =>
        Pure.pure (x.1 ++ q.1) := by
      unfold rowSteps
      rw [if_neg (by rw [hst]; simp [hne]), hst]
      show (stepLoop (outlineStep eng h.cells r) none (bg ++ s.steps) >>= fun q => Pure.pure ([] ++ q.1)) = _
      rw [stepLoop_append, M.assoc]
      congr 1
      funext x
      rw [M.assoc]
      rfl
    rw [e1, e2]
    refine (loop_leaves (hl hne) none).bind fun p p' e => ?_
    simp only [Prod.mk.injEq] at e
    rw [e.2]
    refine (stepLoop_alike (fun s s' hs ty => outlineStep_alike hs eng rfl rfl ty) (same_refl s.steps) _).bind fun q q' e' => Alike.pure ?_
    simp only [Prod.mk.injEq] at e'
    rw [List.map_append, List.map_append, e.1, e'.1]

theorem forall₂_self_mem {α : Type} : ∀ l : List α, List.Forall₂ (fun a b => a = b ∧ a ∈ l) l l
  | [] => .nil
  | a :: l => .cons ⟨rfl, by simp⟩ ((forall₂_self_mem l).imp fun _ _ h => ⟨h.1, by simp [h.2]⟩)

/-- A scenario below tags and background steps is compiled as one that has them itself. -/
theorem under_alike (eng : Engine) (uri : Str) (ft rt : List Tag) (bg : List Step) (s : Scenario) (lang : Str)
    (hl : s.steps ≠ [] → ∀ e ∈ s.examples, ∀ h ∈ e.header, ∀ r ∈ e.body, ∀ st ∈ bg, Leaves eng h r st) :
    Alike (List.map Pickle.content) (compileAny eng uri (ft ++ rt) bg s lang) (compileAny eng uri ft [] (s.under rt bg) lang) := by
  unfold compileAny
  rw [show (s.under rt bg).examples = s.examples from rfl]
  split
  · have e1 : scenarioSteps eng [] (s.under rt bg) = scenarioSteps eng bg s := by
      unfold scenarioSteps
      by_cases he : s.steps.isEmpty = true
      · rw [if_pos he, if_pos (by simp [Scenario.under, he])]
      · have hne : s.steps ≠ [] := by simpa using he
        rw [if_neg he, if_neg (by simp [Scenario.under, hne])]
        simp only [Scenario.under, if_neg he, List.nil_append]
    have e2 : compileScenario eng uri ft [] (s.under rt bg) lang = compileScenario eng uri (ft ++ rt) bg s lang := by
      unfold compileScenario
      rw [e1]
      simp only [Scenario.under, List.append_assoc]
    rw [e2]
    have := compileAny_same eng uri (ft ++ rt) bg s lang
    unfold compileAny at this
    rwa [if_pos (by assumption)] at this
  · unfold compileOutline
    refine (Alike.each (g := List.map Pickle.content) (R := fun (a b : Examples) => a = b ∧ a ∈ s.examples) ?_ (forall₂_self_mem s.examples)).bind fun p p' e => Alike.pure ?_
    · rintro e _ ⟨rfl, he⟩
      cases hh : e.header with
      | none => exact Alike.pure rfl
      | some h =>
        refine Alike.each (g := Pickle.content) (f := fun row => compileRow eng uri (ft ++ rt) bg s lang e h row)
            (f' := fun row => compileRow eng uri ft [] (s.under rt bg) lang e h row) (R := fun (a b : Row) => a = b ∧ a ∈ e.body) ?_ (forall₂_self_mem e.body)
        rintro r _ ⟨rfl, hr⟩
        unfold compileRow
        refine (rowSteps_under (fun hne => hl hne e he h (by simp [hh]) r hr) rt).bind fun p p' e1 => Alike.nextId.bind fun _ _ _ => ?_
        rw [show (s.under rt bg).name = s.name from rfl]
        refine (Alike.key _).bind fun x x' e2 => (interpolate_alike eng rfl rfl e2).bind fun y y' e3 => Alike.pure ?_
        have e4 : (p.map fun s => (s.type, s.text, s.arg)) = p'.map fun s => (s.type, s.text, s.arg) := e1
        simp only [Pickle.content, e3, e4, pickleTags_names, Scenario.under, List.append_assoc]
    · rw [List.map_flatten, List.map_flatten, e]

end Pickles
end Gherkin
