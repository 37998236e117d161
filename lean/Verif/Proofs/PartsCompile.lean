import Verif.Spec.Parts
import Verif.Spec.Bare
import Verif.Props.Independent

/-! Compiling without looking at ids: the pickles of a feature are those of its scenarios, one after the other. -/

namespace Gherkin

open Pickles

namespace Pickles

/-- What a computation returns, seen through `g`, from whatever id on. -/
def Alike {α β : Type} (g : α → β) (x x' : M α) : Prop := ∀ n n', ((x n).map fun p => g p.1) = ((x' n').map fun p => g p.1)

theorem Alike.bind {α β γ δ : Type} {g : α → β} {h : γ → δ} {x x' : M α} {f f' : α → M γ} (hx : Alike g x x')
    (hf : ∀ a a', g a = g a' → Alike h (f a) (f' a')) : Alike h (x >>= f) (x' >>= f') := by
  intro n n'
  have e := hx n n'
  show Except.map _ (Pickles.bind x f n) = Except.map _ (Pickles.bind x' f' n')
  unfold Pickles.bind
  rcases h1 : x n with c | ⟨a, k⟩ <;> rcases h2 : x' n' with c' | ⟨a', k'⟩ <;> rw [h1, h2] at e <;> simp only [Except.map] at e
  · simpa [Except.map] using e
  · cases e
  · cases e
  · exact hf a a' (by simpa using e) k k'

theorem Alike.pure {α β : Type} {g : α → β} {a b : α} (h : g a = g b) : Alike g (Pure.pure a : M α) (Pure.pure b) := by
  intro n n'
  show Except.ok _ = Except.ok _
  exact congrArg _ h

theorem Alike.key {α : Type} (o : Option α) : Alike (fun a => a) (key o) (key o) := by
  intro n n'
  cases o <;> rfl

theorem Alike.lift {α : Type} (o : Except Crash α) : Alike (fun a => a) (lift o) (lift o) := by
  intro n n'
  cases o <;> rfl

theorem Alike.nextId : Alike (fun _ => ()) nextId nextId := by
  intro n n'
  rfl

theorem Alike.each {α α' β γ : Type} {g : β → γ} {f : α → M β} {f' : α' → M β} {R : α → α' → Prop} (hf : ∀ a a', R a a' → Alike g (f a) (f' a')) :
    ∀ {as : List α} {as' : List α'}, List.Forall₂ R as as' → Alike (g := fun l : List β => l.map g) (each f as) (each f' as')
  | _, _, .nil => Alike.pure (g := fun l : List β => l.map g) rfl
  | _, _, .cons h hs => (hf _ _ h).bind fun _ _ e => (Alike.each hf hs).bind fun _ _ e' => Alike.pure (by simp only [List.map_cons]; rw [e, e'])

/-- Without ids and places. -/
abbrev unplacing : Change := ⟨fun _ => .zero, fun _ => 0, fun s => s⟩

theorem forall₂_of_maps {α β : Type} {f : α → β} : ∀ {as as' : List α}, as.map f = as'.map f → List.Forall₂ (fun a a' => f a = f a') as as'
  | [], [], _ => .nil
  | [], _ :: _, h => by simp at h
  | _ :: _, [], h => by simp at h
  | _ :: _, _ :: _, h => by
    simp only [List.map_cons, List.cons.injEq] at h
    exact .cons h.1 (forall₂_of_maps h.2)

/-- What a step of a pickle says. -/
def stepContent (s : PStep) : Option KType × Str × Option PArg := (s.type, s.text, s.arg)

theorem interpolate_alike (eng : Engine) {hs hs' vs vs' : List Cell} (h : hs.map (·.value) = hs'.map (·.value)) (v : vs.map (·.value) = vs'.map (·.value))
    {s s' : Str} (e : s = s') : Alike (fun a => a) (Pickles.lift (interpolate eng hs vs s)) (Pickles.lift (interpolate eng hs' vs' s')) := by
  subst e
  unfold interpolate
  rw [interpolateFrom_values eng v h]
  exact Alike.lift _

theorem pickleArg_alike (eng : Engine) {a a' : StepArg} (ha : a.change unplacing = a'.change unplacing) {hs hs' vs vs' : List Cell}
    (h : hs.map (·.value) = hs'.map (·.value)) (v : vs.map (·.value) = vs'.map (·.value)) :
    Alike (fun a => a) (pickleArg eng a hs vs) (pickleArg eng a' hs' vs') := by
  cases a with
  | none => cases a' with
    | none => exact Alike.pure rfl
    | table _ => cases ha
    | doc _ => cases ha
  | table t => cases a' with
    | none => cases ha
    | doc _ => cases ha
    | table t' =>
      simp only [StepArg.change, StepArg.table.injEq, DataTable.change, DataTable.mk.injEq, true_and] at ha
      have hc : List.Forall₂ (fun r r' => r.change unplacing = r'.change unplacing) t.rows t'.rows := forall₂_of_maps ha
      unfold pickleArg
      have := Alike.each (g := fun l : List Str => l.map fun x => x) (f := fun (r : Row) => each (fun (c : Cell) => Pickles.lift (interpolate eng hs vs c.value)) r.cells)
        (f' := fun (r : Row) => each (fun (c : Cell) => Pickles.lift (interpolate eng hs' vs' c.value)) r.cells) (fun r r' (hr : r.change unplacing = r'.change unplacing) => by
          have hc : List.Forall₂ (fun c c' => c.change unplacing = c'.change unplacing) r.cells r'.cells := forall₂_of_maps (by have := congrArg Row.cells hr; exact this)
          exact Alike.each (fun c c' (e : c.change unplacing = c'.change unplacing) => interpolate_alike eng h v (by have := congrArg Cell.value e; exact this)) hc) hc
      refine this.bind fun x x' e => Alike.pure ?_
      simp only [List.map_id'] at e
      rw [e]
  | doc d => cases a' with
    | none => cases ha
    | table _ => cases ha
    | doc d' =>
      simp only [StepArg.change, StepArg.doc.injEq, DocString.change, DocString.mk.injEq, true_and] at ha
      obtain ⟨h1, _, h3⟩ := ha
      unfold pickleArg
      refine (interpolate_alike eng h v h1).bind fun x x' e => ?_
      subst e
      simp only [h3]
      split
      · exact Alike.pure rfl
      · exact (interpolate_alike eng h v rfl).bind fun x x' e => Alike.pure (by rw [e])

section

variable {s s' : Step} (hs : s.change unplacing = s'.change unplacing)
include hs

theorem pickleStep_alike (eng : Engine) (ty : Option KType) : Alike stepContent (pickleStep eng s ty) (pickleStep eng s' ty) := by
  have h1 : s.text = s'.text := by have := congrArg Step.text hs; exact this
  have h2 : s.arg.change unplacing = s'.arg.change unplacing := by have := congrArg Step.arg hs; exact this
  unfold pickleStep
  rw [h1]
  exact Alike.nextId.bind fun _ _ _ => (Alike.key _).bind fun t t' e => (pickleArg_alike eng h2 rfl rfl).bind fun a a' e' =>
    Alike.pure (by simp only [stepContent]; rw [e, e'])

theorem outlineStep_alike (eng : Engine) {hd hd' : List Cell} {r r' : Row} (h : hd.map (·.value) = hd'.map (·.value))
    (v : r.cells.map (·.value) = r'.cells.map (·.value)) (ty : Option KType) :
    Alike stepContent (outlineStep eng hd r s ty) (outlineStep eng hd' r' s' ty) := by
  have h1 : s.text = s'.text := by have := congrArg Step.text hs; exact this
  have h2 : s.arg.change unplacing = s'.arg.change unplacing := by have := congrArg Step.arg hs; exact this
  unfold outlineStep
  rw [h1]
  exact (Alike.key _).bind fun t t' e => (interpolate_alike eng h v e).bind fun x x' e1 => (pickleArg_alike eng h2 h v).bind fun a a' e2 =>
    Alike.nextId.bind fun _ _ _ => Alike.pure (by simp only [stepContent]; rw [e1, e2])

end

/-- Steps that say the same. -/
abbrev SameSteps (a b : List Step) : Prop := List.Forall₂ (fun (s s' : Step) => s.change unplacing = s'.change unplacing) a b

theorem stepLoop_alike {f f' : Step → Option KType → M PStep}
    (hf : ∀ s s' : Step, s.change unplacing = s'.change unplacing → ∀ ty, Alike stepContent (f s ty) (f' s' ty)) :
    ∀ {as as' : List Step}, SameSteps as as' → ∀ l, Alike (fun p : List PStep × Option KType => (p.1.map stepContent, p.2)) (stepLoop f l as) (stepLoop f' l as')
  | _, _, .nil, l => Alike.pure rfl
  | _, _, .cons (a := a) (b := b) h hs, l => by
    unfold stepLoop
    rw [show a.keywordType = b.keywordType by have := congrArg Step.keywordType h; exact this]
    refine (Alike.key _).bind fun k k' e => ?_
    subst e
    refine (hf _ _ h _).bind fun p p' e => (stepLoop_alike hf hs _).bind fun q q' e' => Alike.pure ?_
    simp only [Prod.mk.injEq] at e'
    simp only [List.map_cons, e, e'.1, e'.2]

theorem sameSteps_nil {a b : List Step} (h : SameSteps a b) : a.isEmpty = b.isEmpty := by cases h <;> rfl

theorem sameSteps_append {a b c d : List Step} (h : SameSteps a b) (h' : SameSteps c d) : SameSteps (a ++ c) (b ++ d) := by
  induction h with
  | nil => exact h'
  | cons h1 _ ih => exact .cons h1 ih

/-- Tags with the same names. -/
abbrev names (ts : List Tag) : List Str := ts.map Tag.name

theorem pickleTags_names (ts : List Tag) : (pickleTags ts).map PTag.name = names ts := by simp [pickleTags, names]

section

variable {tags tags' : List Tag} (ht : names tags = names tags') {bg bg' : List Step} (hb : SameSteps bg bg') {s s' : Scenario} (hs : s.change unplacing = s'.change unplacing)
include ht hb hs

theorem compileAny_alike (eng : Engine) (uri lang : Str) :
    Alike (List.map Pickle.content) (compileAny eng uri tags bg s lang) (compileAny eng uri tags' bg' s' lang) := by
  have hss : SameSteps s.steps s'.steps := forall₂_of_maps (by have := congrArg Scenario.steps hs; exact this)
  have hn : s.name = s'.name := by have := congrArg Scenario.name hs; exact this
  have hex : List.Forall₂ (fun (e e' : Examples) => e.change unplacing = e'.change unplacing) s.examples s'.examples := forall₂_of_maps (by have := congrArg Scenario.examples hs; exact this)
  have htg : names s.tags = names s'.tags := by
    have := congrArg (fun x : Scenario => names x.tags) hs
    simpa [Scenario.change, names, Tag.change, Function.comp_def] using this
  have he : s.examples.isEmpty = s'.examples.isEmpty := by
    have := hex.length_eq
    generalize s.examples = x at this ⊢
    generalize s'.examples = y at this ⊢
    cases x <;> cases y <;> simp_all
  have hse := sameSteps_nil hss
  unfold compileAny
  rw [he]
  split
  · unfold compileScenario
    have : Alike (List.map stepContent) (scenarioSteps eng bg s) (scenarioSteps eng bg' s') := by
      unfold scenarioSteps
      rw [hse]
      split
      · exact Alike.pure rfl
      · exact (stepLoop_alike (fun s s' h ty => pickleStep_alike h eng ty) (sameSteps_append hb hss) _).bind fun p p' e => Alike.pure (by
          simp only [Prod.mk.injEq] at e; exact e.1)
    refine this.bind fun p p' e => Alike.nextId.bind fun _ _ _ => ?_
    rw [hn]
    refine (Alike.key _).bind fun x x' e' => Alike.pure ?_
    have e2 : (p.map fun s => (s.type, s.text, s.arg)) = p'.map fun s => (s.type, s.text, s.arg) := e
    simp only [List.map_cons, List.map_nil, Pickle.content, e', e2, pickleTags_names]
    simp only [names, List.map_append] at ht htg ⊢
    rw [ht, htg]
  · unfold compileOutline
    refine (Alike.each (g := List.map Pickle.content) (R := fun (e e' : Examples) => e.change unplacing = e'.change unplacing) ?_ hex).bind fun p p' e => Alike.pure ?_
    · intro e e' h
      have h1 : e.header.map (Row.change unplacing) = e'.header.map (Row.change unplacing) := by have := congrArg Examples.header h; exact this
      have h2 : List.Forall₂ (fun (r r' : Row) => r.change unplacing = r'.change unplacing) e.body e'.body := forall₂_of_maps (by have := congrArg Examples.body h; exact this)
      have h3 : names e.tags = names e'.tags := by
        have := congrArg (fun x : Examples => names x.tags) h
        simpa [Examples.change, names, Tag.change, Function.comp_def] using this
      have vals : ∀ {r r' : Row}, r.change unplacing = r'.change unplacing → r.cells.map (·.value) = r'.cells.map (·.value) := by
        intro r r' h
        have := congrArg (fun x : Row => x.cells.map (·.value)) h
        simpa [Row.change, Cell.change, Function.comp_def] using this
      cases x1 : e.header with
      | none => cases x2 : e'.header with
        | none => exact Alike.pure rfl
        | some _ => rw [x1, x2] at h1; cases h1
      | some hd => cases x2 : e'.header with
        | none => rw [x1, x2] at h1; cases h1
        | some hd' =>
          rw [x1, x2] at h1
          have hv := vals (by simpa using h1 : hd.change unplacing = hd'.change unplacing)
          refine Alike.each (g := Pickle.content) (f := fun row => compileRow eng uri tags bg s lang e hd row)
            (f' := fun row => compileRow eng uri tags' bg' s' lang e' hd' row) (R := fun (r r' : Row) => r.change unplacing = r'.change unplacing) ?_ h2
          intro r r' hr
          have hrv := vals hr
          unfold compileRow
          have : Alike (List.map stepContent) (rowSteps eng bg s hd r) (rowSteps eng bg' s' hd' r') := by
            unfold rowSteps
            rw [hse]
            split
            · exact Alike.pure rfl
            · refine (stepLoop_alike (fun s s' h ty => pickleStep_alike h eng ty) hb _).bind fun p p' e => ?_
              simp only [Prod.mk.injEq] at e
              rw [e.2]
              refine (stepLoop_alike (fun s s' h ty => outlineStep_alike h eng hv hrv ty) hss _).bind fun q q' e' => Alike.pure ?_
              simp only [Prod.mk.injEq] at e'
              rw [List.map_append, List.map_append, e.1, e'.1]
          refine this.bind fun p p' e1 => Alike.nextId.bind fun _ _ _ => ?_
          rw [hn]
          refine (Alike.key _).bind fun x x' e2 => (interpolate_alike eng hv hrv e2).bind fun y y' e3 => Alike.pure ?_
          have e4 : (p.map fun s => (s.type, s.text, s.arg)) = p'.map fun s => (s.type, s.text, s.arg) := e1
          simp only [Pickle.content, e3, e4, pickleTags_names]
          simp only [names, List.map_append] at ht htg h3 ⊢
          rw [ht, htg, h3]
    · rw [List.map_flatten, List.map_flatten, e]

end

end Pickles

end Gherkin
