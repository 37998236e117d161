import Verif.Compiler
import Verif.Spec.Pickles
import Verif.Proofs.DocFacts

/-! The compiler's result, case by case. -/

namespace Gherkin.Pickles

variable {α β : Type}

theorem bind_ok {x : M α} {f : α → M β} {n n' : Nat} {b : β} (h : (x >>= f) n = .ok (b, n')) :
    ∃ a n1, x n = .ok (a, n1) ∧ f a n1 = .ok (b, n') := by
  change bind x f n = _ at h
  unfold bind at h
  split at h
  · rename_i a n1 hx; exact ⟨a, n1, hx, h⟩
  · simp at h

theorem pure_ok {a b : α} {n n' : Nat} (h : (Pure.pure a : M α) n = .ok (b, n')) : a = b ∧ n = n' := by
  change pure a n = _ at h
  simpa [pure] using h

theorem pure_ok' {a b : α} {n n' : Nat} (h : pure a n = .ok (b, n')) : a = b ∧ n = n' := by
  simpa [pure] using h

theorem key_ok {o : Option α} {a : α} {n n' : Nat} (h : key o n = .ok (a, n')) : o = some a ∧ n = n' := by
  unfold key at h; cases o <;> simp at h; simp [h]

theorem lift_ok {o : Except Crash α} {a : α} {n n' : Nat} (h : lift o n = .ok (a, n')) : o = .ok a ∧ n = n' := by
  unfold lift at h; cases o <;> simp at h; simp [h]

theorem nextId_ok {i n n' : Nat} (h : nextId n = .ok (i, n')) : i = n ∧ n' = n + 1 := by
  simp [nextId] at h; omega

/-- A loop succeeds when each of its steps does, one result per element. -/
theorem each_ok {f : α → M β} : ∀ {as : List α} {bs : List β} {n n' : Nat}, each f as n = .ok (bs, n') →
    List.Forall₂ (fun a b => ∃ k k', f a k = .ok (b, k')) as bs
  | [], bs, n, n', h => by
    obtain ⟨rfl, _⟩ := pure_ok' h; exact .nil
  | a :: as, bs, n, n', h => by
    unfold each at h
    obtain ⟨b, n1, h1, h2⟩ := bind_ok (x := f a) h
    obtain ⟨bs', n2, h3, h4⟩ := bind_ok (x := each f as) h2
    obtain ⟨rfl, _⟩ := pure_ok' h4
    exact .cons ⟨n, n1, h1⟩ (each_ok h3)

/-- Ids handed out by a loop. -/
theorem each_fresh {f : α → M β} {ids : β → List Nat} (hf : ∀ a b k k', f a k = .ok (b, k') → Fresh (ids b) k k') :
    ∀ {as : List α} {bs : List β} {n n' : Nat}, each f as n = .ok (bs, n') → Fresh (bs.flatMap ids) n n'
  | [], bs, n, n', h => by
    obtain ⟨rfl, rfl⟩ := pure_ok' h; exact .nil _
  | a :: as, bs, n, n', h => by
    unfold each at h
    obtain ⟨b, n1, h1, h2⟩ := bind_ok (x := f a) h
    obtain ⟨bs', n2, h3, h4⟩ := bind_ok (x := each f as) h2
    obtain ⟨rfl, rfl⟩ := pure_ok' h4
    exact (hf _ _ _ _ h1).append (each_fresh hf h3)

variable {eng : Engine}

theorem pickleArg_id {arg : StepArg} {hs vs : List Cell} {a : Option PArg} {n n' : Nat} (h : pickleArg eng arg hs vs n = .ok (a, n')) :
    n' = n := by
  cases arg with
  | none => obtain ⟨_, rfl⟩ := pure_ok' h; rfl
  | table t =>
    obtain ⟨rows, n1, h1, h2⟩ := bind_ok h
    obtain ⟨_, rfl⟩ := pure_ok h2
    have : Fresh ([] : List Nat) n n1 := by
      have := each_fresh (ids := fun _ => []) (fun a b k k' hk => by
        have : Fresh ([] : List Nat) k k' := by
          have := each_fresh (ids := fun _ => []) (fun c v k k' hk => by obtain ⟨_, rfl⟩ := lift_ok hk; exact Fresh.nil _) hk
          simpa [List.flatMap_eq_nil_iff.2] using this
        exact this) h1
      simpa [List.flatMap_eq_nil_iff.2] using this
    have h3 := this.2.length_eq
    have h4 := this.1
    simp at h3; omega
  | doc d =>
    obtain ⟨c, n1, h1, h2⟩ := bind_ok h
    obtain ⟨_, rfl⟩ := lift_ok h1
    cases hm : d.mediaType with
    | none => rw [hm] at h2; obtain ⟨_, rfl⟩ := pure_ok h2; rfl
    | some mt =>
      rw [hm] at h2
      obtain ⟨c, n1, h1, h2⟩ := bind_ok h2
      obtain ⟨_, rfl⟩ := lift_ok h1
      obtain ⟨_, rfl⟩ := pure_ok h2; rfl

theorem pickleStep_ok {s : Step} {ty : Option KType} {p : PStep} {n n' : Nat} (h : pickleStep eng s ty n = .ok (p, n')) :
    p.astNodeIds = [s.id] ∧ p.type = ty ∧ s.text = some p.text ∧ pickleArg eng s.arg [] [] n' = .ok (p.arg, n') ∧ p.id = n ∧ n' = n + 1 := by
  unfold pickleStep at h
  obtain ⟨i, n1, h1, h⟩ := bind_ok h
  obtain ⟨rfl, rfl⟩ := nextId_ok h1
  obtain ⟨t, n1, h1, h⟩ := bind_ok h
  obtain ⟨ht, rfl⟩ := key_ok h1
  obtain ⟨a, n1, h1, h⟩ := bind_ok h
  have := pickleArg_id h1; subst this
  obtain ⟨rfl, rfl⟩ := pure_ok h
  exact ⟨rfl, rfl, ht, h1, rfl, rfl⟩

theorem outlineStep_ok {hs : List Cell} {row : Row} {s : Step} {ty : Option KType} {p : PStep} {n n' : Nat}
    (h : outlineStep eng hs row s ty n = .ok (p, n')) :
    p.astNodeIds = [s.id, row.id] ∧ p.type = ty ∧ (∃ t, s.text = some t ∧ interpolate eng hs row.cells t = .ok p.text) ∧
      pickleArg eng s.arg hs row.cells n = .ok (p.arg, n) ∧ p.id = n ∧ n' = n + 1 := by
  unfold outlineStep at h
  obtain ⟨t, n1, h1, h⟩ := bind_ok h
  obtain ⟨ht, rfl⟩ := key_ok h1
  obtain ⟨t', n1, h1, h⟩ := bind_ok h
  obtain ⟨hi, rfl⟩ := lift_ok h1
  obtain ⟨a, n1, h1, h3⟩ := bind_ok h
  have := pickleArg_id h1; subst this
  obtain ⟨i, n1, h2, h4⟩ := bind_ok h3
  obtain ⟨rfl, rfl⟩ := nextId_ok h2
  obtain ⟨rfl, rfl⟩ := pure_ok h4
  exact ⟨rfl, rfl, ⟨t, ht, hi⟩, h1, rfl, rfl⟩

/-- The types that a loop over steps assigns, and the last one. -/
def types : Option KType → List Step → List (Option KType)
  | _, [] => []
  | last, s :: ss => (s.keywordType.elim last fun t => nextType last t) :: types (s.keywordType.elim last fun t => nextType last t) ss
def lastType : Option KType → List Step → Option KType
  | last, [] => last
  | last, s :: ss => lastType (s.keywordType.elim last fun t => nextType last t) ss

theorem types_append (l : Option KType) (a b : List Step) : types l (a ++ b) = types l a ++ types (lastType l a) b := by
  induction a generalizing l with
  | nil => rfl
  | cons s a ih => simp only [List.cons_append, types, lastType, ih]

theorem stepLoop_ok {f : Step → Option KType → M PStep} : ∀ {ss : List Step} {l l' : Option KType} {ps : List PStep} {n n' : Nat},
    stepLoop f l ss n = .ok ((ps, l'), n') →
    List.Forall₂ (fun s p => ∃ ty k k', f s ty k = .ok (p, k')) ss ps ∧ l' = lastType l ss ∧ (∀ s ∈ ss, s.keywordType.isSome) ∧
    ((∀ s ty p k k', f s ty k = .ok (p, k') → p.type = ty) → ps.map (·.type) = types l ss) ∧
    ((∀ s ty p k k', f s ty k = .ok (p, k') → p.id = k ∧ k' = k + 1) → Fresh (ps.map (·.id)) n n')
  | [], l, l', ps, n, n', h => by
    unfold stepLoop at h
    obtain ⟨h1, rfl⟩ := pure_ok' h
    simp only [Prod.mk.injEq] at h1
    obtain ⟨rfl, rfl⟩ := h1
    exact ⟨.nil, rfl, by simp, fun _ => rfl, fun _ => .nil _⟩
  | s :: ss, l, l', ps, n, n', h => by
    unfold stepLoop at h
    obtain ⟨kt, n1, h1, h⟩ := bind_ok h
    obtain ⟨hk, rfl⟩ := key_ok h1
    obtain ⟨p, n1, hp, h⟩ := bind_ok h
    obtain ⟨⟨qs, l2⟩, n2, hq, h⟩ := bind_ok h
    obtain ⟨h1, rfl⟩ := pure_ok h
    simp only [Prod.mk.injEq] at h1
    obtain ⟨rfl, rfl⟩ := h1
    obtain ⟨i1, i2, i3, i4, i5⟩ := stepLoop_ok hq
    refine ⟨.cons ⟨_, _, _, hp⟩ i1, ?_, ?_, ?_, ?_⟩
    · simpa [lastType, hk] using i2
    · intro x hx; simp at hx; rcases hx with rfl | hx
      · simp [hk]
      · exact i3 x hx
    · intro hf
      simp only [List.map_cons, types, hk, Option.elim, i4 hf, hf _ _ _ _ _ hp]
    · intro hf
      obtain ⟨a, b⟩ := hf _ _ _ _ _ hp
      subst b
      rw [List.map_cons, a]
      exact (Fresh.one n).append (i5 hf)

/-- What a pickle says about the case it was made from. -/
structure Realises (eng : Engine) (uri language : Str) (c : Case) (p : Pickle) : Prop where
  nodeIds : p.astNodeIds = c.nodeIds
  tags : p.tags = c.tags.map fun t => ⟨t.id, t.name⟩
  uri : p.uri = uri
  language : p.language = language
  stepIds : p.steps.map (·.astNodeIds) = c.stepIds
  typed : ∀ s ∈ c.steps, s.keywordType.isSome
  types : p.steps.map (·.type) = Pickles.types (if c.row.isSome then none else some .unknown) c.steps
  name : match c.row with
    | none => c.scenario.name = some p.name
    | some (_, h, r) => ∃ n, c.scenario.name = some n ∧ interpolate eng h.cells r.cells n = .ok p.name
  steps : match c.row with
    | none => List.Forall₂ (fun s q => ∃ ty k k', pickleStep eng s ty k = .ok (q, k')) c.steps p.steps
    | some (_, h, r) => c.scenario.steps = [] ∧ p.steps = [] ∨ ∃ ps qs, p.steps = ps ++ qs ∧
        List.Forall₂ (fun s q => ∃ ty k k', pickleStep eng s ty k = .ok (q, k')) c.background ps ∧
        List.Forall₂ (fun s q => ∃ ty k k', outlineStep eng h.cells r s ty k = .ok (q, k')) c.scenario.steps qs

def Pickle.ids (p : Pickle) : List Nat := p.id :: p.steps.map (·.id)

theorem forall₂_map_eq {α β γ : Type} {R : α → β → Prop} {f : α → γ} {g : β → γ} (h : ∀ a b, R a b → g b = f a) :
    ∀ {as : List α} {bs : List β}, List.Forall₂ R as bs → bs.map g = as.map f
  | _, _, .nil => rfl
  | _, _, .cons hab hrest => by simp [h _ _ hab, forall₂_map_eq h hrest]

theorem pickleStep_ids {s : Step} {q : PStep} (h : ∃ ty k k', pickleStep eng s ty k = .ok (q, k')) : q.astNodeIds = [s.id] := by
  obtain ⟨_, _, _, h⟩ := h; exact (pickleStep_ok h).1

theorem compileScenario_ok {uri : Str} {tags : List Tag} {bg : List Step} {s : Scenario} {lang : Str} {ps : List Pickle} {n n' : Nat}
    (h : compileScenario eng uri tags bg s lang n = .ok (ps, n')) :
    ∃ p, ps = [p] ∧ Realises eng uri lang ⟨tags, bg, s, none⟩ p ∧ Fresh (Pickle.ids p) n n' := by
  unfold compileScenario at h
  obtain ⟨steps, n1, h1, h⟩ := bind_ok h
  obtain ⟨i, n2, h2, h⟩ := bind_ok h
  obtain ⟨rfl, rfl⟩ := nextId_ok h2
  obtain ⟨nm, n3, h3, h⟩ := bind_ok h
  obtain ⟨hn, rfl⟩ := key_ok h3
  obtain ⟨rfl, rfl⟩ := pure_ok h
  refine ⟨_, rfl, ?_⟩
  by_cases he : s.steps = []
  · simp only [scenarioSteps, rowSteps, he, List.isEmpty_nil, if_true] at h1
    obtain ⟨rfl, rfl⟩ := pure_ok' h1
    exact ⟨⟨rfl, by simp [pickleTags, Case.tags], rfl, rfl, by simp [Case.stepIds, he], by simp [Case.steps, he],
      by simp [Case.steps, he, types], hn, by simp only [Case.steps, he, if_true]; exact .nil⟩, .one _⟩
  · have hemp : s.steps.isEmpty = false := by cases hs : s.steps <;> simp_all
    simp only [scenarioSteps, rowSteps, hemp, Bool.false_eq_true, if_false] at h1
    obtain ⟨⟨qs, l⟩, n4, h4, h1⟩ := bind_ok h1
    obtain ⟨rfl, rfl⟩ := pure_ok h1
    obtain ⟨i1, i2, i3, i4, i5⟩ := stepLoop_ok h4
    have hfresh := i5 (fun s ty p k k' hh => (pickleStep_ok hh).2.2.2.2)
    refine ⟨⟨rfl, by simp [pickleTags, Case.tags], rfl, rfl, ?_, ?_, ?_, hn, ?_⟩, ?_⟩
    · simp only [Case.stepIds, he, if_false]
      rw [forall₂_map_eq (f := fun s => [s.id]) (fun a b => pickleStep_ids) i1]
      simp
    · simpa [Case.steps, he] using i3
    · simpa [Case.steps, he] using i4 (fun s ty p k k' hh => (pickleStep_ok hh).2.1)
    · simpa [Case.steps, he] using i1
    · exact (hfresh.append (.one _)).perm (List.perm_append_singleton _ _).symm

theorem compileRow_ok {uri : Str} {tags : List Tag} {bg : List Step} {s : Scenario} {lang : Str} {e : Examples} {hd row : Row} {p : Pickle}
    {n n' : Nat} (h : compileRow eng uri tags bg s lang e hd row n = .ok (p, n')) :
    Realises eng uri lang ⟨tags, bg, s, some (e, hd, row)⟩ p ∧ Fresh (Pickle.ids p) n n' := by
  unfold compileRow at h
  obtain ⟨steps, n1, h1, h⟩ := bind_ok h
  obtain ⟨i, n2, h2, h⟩ := bind_ok h
  obtain ⟨rfl, rfl⟩ := nextId_ok h2
  obtain ⟨nm, n3, h3, h⟩ := bind_ok h
  obtain ⟨hn, rfl⟩ := key_ok h3
  obtain ⟨nm', n3, h3, h⟩ := bind_ok h
  obtain ⟨hi, rfl⟩ := lift_ok h3
  obtain ⟨rfl, rfl⟩ := pure_ok h
  by_cases he : s.steps = []
  · simp only [scenarioSteps, rowSteps, he, List.isEmpty_nil, if_true] at h1
    obtain ⟨rfl, rfl⟩ := pure_ok' h1
    exact ⟨⟨rfl, by simp [pickleTags, Case.tags], rfl, rfl, by simp [Case.stepIds, he], by simp [Case.steps, he],
      by simp [Case.steps, he, types], ⟨nm, hn, hi⟩, .inl ⟨he, rfl⟩⟩, .one _⟩
  · have hemp : s.steps.isEmpty = false := by cases hs : s.steps <;> simp_all
    simp only [scenarioSteps, rowSteps, hemp, Bool.false_eq_true, if_false] at h1
    obtain ⟨⟨qs, l⟩, n4, h4, h1⟩ := bind_ok h1
    obtain ⟨⟨rs, l2⟩, n5, h5, h1⟩ := bind_ok h1
    obtain ⟨rfl, rfl⟩ := pure_ok h1
    obtain ⟨i1, i2, i3, i4, i5⟩ := stepLoop_ok h4
    obtain ⟨j1, j2, j3, j4, j5⟩ := stepLoop_ok h5
    have hf1 := i5 (fun s ty p k k' hh => (pickleStep_ok hh).2.2.2.2)
    have hf2 := j5 (fun s ty p k k' hh => (outlineStep_ok hh).2.2.2.2)
    refine ⟨⟨rfl, by simp [pickleTags, Case.tags], rfl, rfl, ?_, ?_, ?_, ⟨nm, hn, hi⟩, .inr ⟨qs, rs, rfl, i1, j1⟩⟩, ?_⟩
    · simp only [Case.stepIds, he, if_false, List.map_append]
      rw [forall₂_map_eq (f := fun s => [s.id]) (fun a b => pickleStep_ids) i1,
        forall₂_map_eq (f := fun s => [s.id, row.id]) (fun a b hab => by obtain ⟨_, _, _, hh⟩ := hab; exact (outlineStep_ok hh).1) j1]
      simp
    · intro x hx
      simp only [Case.steps, he, if_false, List.mem_append] at hx
      rcases hx with hx | hx
      · exact i3 x hx
      · exact j3 x hx
    · simp only [Case.steps, he, if_false, List.map_append, types_append, Option.isSome, if_true]
      rw [i4 (fun s ty p k k' hh => (pickleStep_ok hh).2.1), j4 (fun s ty p k k' hh => (outlineStep_ok hh).2.1), i2]
    · have := (hf1.append hf2).append (.one _)
      rw [← List.map_append] at this
      exact this.perm (List.perm_append_singleton _ _).symm

theorem flatMap_flatten (pss : List (List Pickle)) : (pss.flatMap fun l => l.flatMap Pickle.ids) = pss.flatten.flatMap Pickle.ids := by
  induction pss <;> simp_all

theorem compileAny_ok {uri : Str} {tags : List Tag} {bg : List Step} {s : Scenario} {lang : Str} {ps : List Pickle} {n n' : Nat}
    (h : compileAny eng uri tags bg s lang n = .ok (ps, n')) :
    List.Forall₂ (Realises eng uri lang) (s.cases tags bg) ps ∧ Fresh (ps.flatMap Pickle.ids) n n' := by
  unfold compileAny at h
  cases hex : s.examples with
  | nil =>
    simp only [hex, List.isEmpty_nil, if_true] at h
    obtain ⟨p, rfl, h1, h2⟩ := compileScenario_ok h
    simp only [Scenario.cases, Scenario.rows, hex, List.map_cons, List.map_nil]
    exact ⟨.cons h1 .nil, by simpa using h2⟩
  | cons e0 es =>
    rw [hex] at h
    simp only [List.isEmpty_cons, Bool.false_eq_true, if_false] at h
    have hrows : s.cases tags bg = s.examples.flatMap fun e => e.header.toList.flatMap fun h => e.body.map fun r => ⟨tags, bg, s, some (e, h, r)⟩ := by
      simp only [Scenario.cases, Scenario.rows, hex]
      simp [List.map_flatMap, Function.comp_def]
    rw [hrows]
    unfold compileOutline at h
    obtain ⟨pss, n1, h1, h2⟩ := bind_ok h
    clear h
    obtain ⟨rfl, rfl⟩ := pure_ok h2
    clear h2
    refine ⟨?_, ?_⟩
    · have := each_ok h1
      clear h1 hrows hex
      revert this
      generalize s.examples = l
      intro this
      induction this with
      | nil => exact .nil
      | @cons e ps' es pss' hab _ ih =>
        simp only [List.flatMap_cons, List.flatten_cons]
        refine List.rel_append ?_ ih
        obtain ⟨k, k', hk⟩ := hab
        cases hh : e.header with
        | none => rw [hh] at hk; obtain ⟨rfl, _⟩ := pure_ok' hk; simp
        | some hd =>
          rw [hh] at hk
          have := each_ok hk
          simp only [Option.toList, List.flatMap_cons, List.flatMap_nil, List.append_nil]
          rw [List.forall₂_map_left_iff]
          exact this.imp fun a b ⟨k, k', hk⟩ => (compileRow_ok hk).1
    · have := each_fresh (ids := fun l => l.flatMap Pickle.ids) (fun e l k k' hk => by
        cases hh : e.header with
        | none => rw [hh] at hk; obtain ⟨rfl, rfl⟩ := pure_ok' hk; exact .nil _
        | some hd => rw [hh] at hk; exact each_fresh (fun r p k k' hk => (compileRow_ok hk).2) hk) h1
      rw [← flatMap_flatten]; exact this


theorem compileRuleChildren_ok {uri : Str} {tags : List Tag} {lang : Str} : ∀ {cs : List RuleChild} {bg : List Step} {ps : List Pickle}
    {n n' : Nat}, compileRuleChildren eng uri tags lang bg cs n = .ok (ps, n') →
    Fresh (ps.flatMap Pickle.ids) n n' ∧
    ∀ (bs : List Background) (ss : List Scenario), cs = bs.map .background ++ ss.map .scenario →
      List.Forall₂ (Realises eng uri lang) (ss.flatMap (Scenario.cases tags (bg ++ bs.flatMap (·.steps)))) ps
  | [], bg, ps, n, n', h => by
    obtain ⟨rfl, rfl⟩ := pure_ok' h
    refine ⟨.nil _, fun bs ss hcs => ?_⟩
    have : bs = [] ∧ ss = [] := by cases bs <;> cases ss <;> simp at hcs ⊢
    rw [this.1, this.2]; exact .nil
  | .background b :: cs, bg, ps, n, n', h => by
    unfold compileRuleChildren at h
    obtain ⟨h1, h2⟩ := compileRuleChildren_ok h
    refine ⟨h1, fun bs ss hcs => ?_⟩
    cases bs with
    | nil => cases ss <;> simp at hcs
    | cons b' bs =>
      simp at hcs
      obtain ⟨rfl, hcs⟩ := hcs
      have := h2 bs ss hcs
      simpa [List.append_assoc] using this
  | .scenario s :: cs, bg, ps, n, n', h => by
    unfold compileRuleChildren at h
    obtain ⟨ps1, n1, h1, h⟩ := bind_ok h
    obtain ⟨ps2, n2, h2, h⟩ := bind_ok h
    obtain ⟨rfl, rfl⟩ := pure_ok h
    obtain ⟨a1, a2⟩ := compileAny_ok h1
    obtain ⟨b1, b2⟩ := compileRuleChildren_ok h2
    refine ⟨by rw [List.flatMap_append]; exact a2.append b1, fun bs ss hcs => ?_⟩
    cases bs with
    | cons b' bs => simp at hcs
    | nil =>
      cases ss with
      | nil => simp at hcs
      | cons s' ss =>
        simp at hcs
        obtain ⟨rfl, hcs⟩ := hcs
        have := b2 [] ss (by simpa using hcs)
        simp only [List.flatMap_nil, List.append_nil, List.flatMap_cons] at this ⊢
        exact List.rel_append a1 this

theorem compileRule_ok {uri : Str} {tags : List Tag} {bg : List Step} {r : RuleNode} {lang : Str} {ps : List Pickle} {n n' : Nat}
    (h : compileRule eng uri tags bg r lang n = .ok (ps, n')) :
    Fresh (ps.flatMap Pickle.ids) n n' ∧ (r.BackgroundFirst → List.Forall₂ (Realises eng uri lang) (r.cases tags bg) ps) := by
  obtain ⟨h1, h2⟩ := compileRuleChildren_ok h
  refine ⟨h1, ?_⟩
  rintro ⟨bs, ss, hc⟩
  have := h2 bs ss hc
  have e1 : r.scenarios = ss := by simp [RuleNode.scenarios, hc, List.flatMap_append, List.flatMap_map]
  have e2 : r.backgroundSteps = bs.flatMap (·.steps) := by
    simp [RuleNode.backgroundSteps, hc, List.flatMap_append, List.flatMap_map, List.flatMap_eq_nil_iff.2]
  unfold RuleNode.cases
  rw [e1, e2]; exact this

theorem compileChildren_ok {uri : Str} {tags : List Tag} {lang : Str} : ∀ {cs : List FeatureChild} {bg : List Step} {ps : List Pickle}
    {n n' : Nat}, compileChildren eng uri tags lang bg cs n = .ok (ps, n') →
    Fresh (ps.flatMap Pickle.ids) n n' ∧
    ∀ (bs : List Background) (ds : List FeatureChild), cs = bs.map .background ++ ds → (∀ c ∈ ds, ∀ b, c ≠ .background b) →
      (∀ r, .rule r ∈ cs → r.BackgroundFirst) →
      List.Forall₂ (Realises eng uri lang) (ds.flatMap (FeatureChild.cases tags (bg ++ bs.flatMap (·.steps)))) ps
  | [], bg, ps, n, n', h => by
    obtain ⟨rfl, rfl⟩ := pure_ok' h
    refine ⟨.nil _, fun bs ss hcs _ _ => ?_⟩
    have : bs = [] ∧ ss = [] := by cases bs <;> cases ss <;> simp at hcs ⊢
    rw [this.1, this.2]; exact .nil
  | .background b :: cs, bg, ps, n, n', h => by
    unfold compileChildren at h
    obtain ⟨h1, h2⟩ := compileChildren_ok h
    refine ⟨h1, fun bs ds hcs hds hr => ?_⟩
    cases bs with
    | nil =>
      cases ds with
      | nil => simp at hcs
      | cons d ds => simp at hcs; exact absurd hcs.1.symm (hds d (by simp) b)
    | cons b' bs =>
      simp at hcs
      obtain ⟨rfl, hcs⟩ := hcs
      have := h2 bs ds hcs hds (fun r hm => hr r (by simp [hm]))
      simpa [List.append_assoc] using this
  | .scenario s :: cs, bg, ps, n, n', h => by
    unfold compileChildren at h
    obtain ⟨ps1, n1, h1, h⟩ := bind_ok h
    obtain ⟨ps2, n2, h2, h⟩ := bind_ok h
    obtain ⟨rfl, rfl⟩ := pure_ok h
    obtain ⟨a1, a2⟩ := compileAny_ok h1
    obtain ⟨b1, b2⟩ := compileChildren_ok h2
    refine ⟨by rw [List.flatMap_append]; exact a2.append b1, fun bs ds hcs hds hr => ?_⟩
    cases bs with
    | cons b' bs => simp at hcs
    | nil =>
      simp at hcs
      subst hcs
      have := b2 [] cs (by simp) (fun c hc => hds c (by simp [hc])) (fun r hm => hr r (by simp [hm]))
      simp only [List.flatMap_nil, List.append_nil, List.flatMap_cons] at this ⊢
      exact List.rel_append a1 this
  | .rule s :: cs, bg, ps, n, n', h => by
    unfold compileChildren at h
    obtain ⟨ps1, n1, h1, h⟩ := bind_ok h
    obtain ⟨ps2, n2, h2, h⟩ := bind_ok h
    obtain ⟨rfl, rfl⟩ := pure_ok h
    obtain ⟨a2, a1⟩ := compileRule_ok h1
    obtain ⟨b1, b2⟩ := compileChildren_ok h2
    refine ⟨by rw [List.flatMap_append]; exact a2.append b1, fun bs ds hcs hds hr => ?_⟩
    cases bs with
    | cons b' bs => simp at hcs
    | nil =>
      simp at hcs
      subst hcs
      have := b2 [] cs (by simp) (fun c hc => hds c (by simp [hc])) (fun r hm => hr r (by simp [hm]))
      simp only [List.flatMap_nil, List.append_nil, List.flatMap_cons] at this ⊢
      exact List.rel_append (a1 (hr s (by simp))) this

/-- The pickles of a document realise its cases one by one; their ids are the ids handed out. -/
theorem compile_ok {uri : Str} {d : Document} {ps : List Pickle} {n n' : Nat} (h : compile eng uri d n = .ok (ps, n')) :
    Fresh (ps.flatMap Pickle.ids) n n' ∧
    (d.BackgroundFirst → ∃ lang, (∀ f ∈ d.feature, f.children ≠ [] → f.language = some lang) ∧
      List.Forall₂ (Realises eng uri lang) d.cases ps) := by
  unfold compile at h
  cases hf : d.feature with
  | none =>
    rw [hf] at h
    obtain ⟨rfl, rfl⟩ := pure_ok' h
    refine ⟨.nil _, fun _ => ⟨[], by simp, ?_⟩⟩
    simp [Document.cases, hf]
  | some f =>
    rw [hf] at h
    simp only at h
    cases hc : f.children with
    | nil =>
      simp only [hc, List.isEmpty_nil, if_true] at h
      obtain ⟨rfl, rfl⟩ := pure_ok' h
      refine ⟨.nil _, fun _ => ⟨[], by simp [hc], ?_⟩⟩
      simp [Document.cases, hf, Feature.cases, hc]
    | cons c0 cs0 =>
      have he : f.children.isEmpty = false := by simp [hc]
      simp only [he, Bool.false_eq_true, if_false] at h
      obtain ⟨lang, n1, h1, h⟩ := bind_ok h
      obtain ⟨hl, rfl⟩ := key_ok h1
      obtain ⟨a1, a2⟩ := compileChildren_ok h
      refine ⟨a1, fun hb => ⟨lang, by simp [hl], ?_⟩⟩
      obtain ⟨⟨bs, ds, hcs, hds⟩, hr⟩ := hb f (by simp [hf])
      have := a2 bs ds hcs hds hr
      have e : f.backgroundSteps = bs.flatMap (·.steps) := by
        simp only [Feature.backgroundSteps, hcs, List.flatMap_append, List.flatMap_map]
        have : ds.flatMap FeatureChild.backgroundSteps = [] := by
          rw [List.flatMap_eq_nil_iff]; intro c hc; cases c with
          | background b => exact absurd rfl (hds _ hc b)
          | _ => rfl
        rw [this, List.append_nil]; rfl
      simp only [Document.cases, hf, Option.toList, List.flatMap_cons, List.flatMap_nil, List.append_nil, Feature.cases, e]
      rw [hcs, List.flatMap_append]
      have e2 : (bs.map FeatureChild.background).flatMap (FeatureChild.cases f.tags (bs.flatMap (·.steps))) = [] := by
        rw [List.flatMap_map, List.flatMap_eq_nil_iff]; intro b _; rfl
      rw [e2]
      simpa using this

end Gherkin.Pickles
