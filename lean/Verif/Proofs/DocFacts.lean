import Verif.Proofs.CstDoc
import Verif.Spec.Doc
import Mathlib.Data.List.Perm.Basic

/-! What the abstract syntax of a typed syntax tree contains. -/

namespace Gherkin

open Cst

/-! ### Entries -/

theorem thread_flat {X A C : Type} {f : X → Nat → A × Nat} {e : A → List C} {g : X → List C} {xs : List X}
    (h : ∀ x ∈ xs, ∀ n, e (f x n).1 = g x) (n : Nat) : (thread f xs n).1.flatMap e = xs.flatMap g := by
  induction xs generalizing n with
  | nil => rfl
  | cons x xs ih =>
    simp only [thread, List.flatMap_cons]
    rw [h x (by simp), ih (fun y hy => h y (by simp [hy]))]

theorem threadOpt_flat {X A C : Type} {f : X → Nat → A × Nat} {e : A → List C} {g : X → List C} {o : Option X}
    (h : ∀ x ∈ o, ∀ n, e (f x n).1 = g x) (n : Nat) : (threadOpt f o n).1.toList.flatMap e = o.toList.flatMap g := by
  cases o with
  | none => rfl
  | some x => simp [threadOpt, h x rfl]

theorem desc_entries {d : List Token} (h : DescOk d) : d.flatMap Token.entries = [] := by
  rw [List.flatMap_eq_nil_iff]; intro t ht; simp [Token.entries, h t ht]

theorem lineTags_entries (t : Token) (h : t.type = some .tagLine) (n : Nat) : (lineTags t n).1.map Tag.entry = t.entries := by
  simp only [Token.entries, h, lineTags]
  generalize t.items = is
  induction is generalizing n with
  | nil => rfl
  | cons i is ih => simp only [thread, List.map_cons, ih]; rfl

theorem tags_entries {ts : List Token} (h : TagsOk ts) (n : Nat) : (Cst.tags ts n).1.map Tag.entry = ts.flatMap Token.entries := by
  simp only [Cst.tags, List.map_flatten]
  rw [← List.flatMap_def]
  exact thread_flat (f := lineTags) (e := fun (l : List Tag) => l.map Tag.entry) (g := Token.entries)
    (fun t ht n => lineTags_entries t (h t ht) n) n

theorem rows_entries {rs : List Token} (h : ∀ t ∈ rs, t.type = some .tableRow) (n : Nat) :
    (thread row rs n).1.map Row.entry = rs.flatMap Token.entries := by
  induction rs generalizing n with
  | nil => rfl
  | cons r rs ih =>
    simp only [thread, List.map_cons, List.flatMap_cons]
    rw [ih (fun t ht => h t (by simp [ht]))]
    simp [Token.entries, h r (by simp), row, Row.entry]

theorem step_entries {s : CStep} (h : s.Ok) (n : Nat) : (s.ast n).1.entries = s.toks.flatMap Token.entries := by
  obtain ⟨h1, h2⟩ := h
  have hl : s.line.entries = [.step s.line.loc s.line.keyword s.line.keywordType s.line.text] := by simp [Token.entries, h1]
  simp only [CStep.ast, Step.entries, CStep.toks, List.flatMap_cons, hl, List.singleton_append]
  cases ha : s.arg with
  | none => simp [Arg.ast, Arg.toks]
  | table r rs =>
    rw [ha] at h2
    simp only [Arg.ast, Arg.toks, rows_entries h2.1]
  | doc o ls c =>
    rw [ha] at h2
    have h3 : ls.flatMap Token.entries = [] := desc_entries h2.2.2.1
    simp only [Arg.ast, Arg.toks, List.flatMap_cons, List.flatMap_append, h3]
    simp [Token.entries, h2.1, h2.2.2]

theorem background_entries {b : CBackground} (h : b.Ok) (n : Nat) : (b.ast n).1.entries = b.toks.flatMap Token.entries := by
  obtain ⟨h1, h2, h3⟩ := h
  have hl : b.line.entries = [.background b.line.loc b.line.keyword b.line.text] := by simp [Token.entries, h1]
  simp only [CBackground.ast, Background.entries, CBackground.toks, List.flatMap_cons, List.flatMap_append, hl, desc_entries h2]
  rw [thread_flat (g := fun s => s.toks.flatMap Token.entries) (fun s hs n => step_entries (h3 s hs) n)]
  simp [List.flatMap_assoc]

theorem head_tail {α : Type} (l : List α) : l.head?.toList ++ l.tail = l := by cases l <;> rfl

theorem examples_entries {e : CExamples} (h : e.Ok) (n : Nat) : (e.ast n).1.entries = e.toks.flatMap Token.entries := by
  obtain ⟨h1, h2, h3, h4, h5⟩ := h
  have hl : e.line.entries = [.examples e.line.loc e.line.keyword e.line.text] := by simp [Token.entries, h2]
  simp only [CExamples.ast, Examples.entries, CExamples.toks, List.flatMap_cons, List.flatMap_append, hl, desc_entries h3, head_tail,
    tags_entries h1, rows_entries h4]
  simp

theorem scenario_entries {s : CScenario} (h : s.Ok) (n : Nat) : (s.ast n).1.entries = s.toks.flatMap Token.entries := by
  obtain ⟨h1, h2, h3, h4, h5⟩ := h
  have hl : s.line.entries = [.scenario s.line.loc s.line.keyword s.line.text] := by simp [Token.entries, h2]
  simp only [CScenario.ast, Scenario.entries, CScenario.toks, List.flatMap_cons, List.flatMap_append, hl, desc_entries h3,
    tags_entries h1]
  rw [thread_flat (g := fun s => s.toks.flatMap Token.entries) (fun s hs n => step_entries (h4 s hs) n),
    thread_flat (g := fun s => s.toks.flatMap Token.entries) (fun s hs n => examples_entries (h5 s hs) n)]
  simp [List.flatMap_assoc]

theorem rule_entries {r : CRule} (h : r.Ok) (n : Nat) : (r.ast n).1.entries = r.toks.flatMap Token.entries := by
  obtain ⟨h1, h2, h3, h4, h5⟩ := h
  have hl : r.line.entries = [.rule r.line.loc r.line.keyword r.line.text] := by simp [Token.entries, h2]
  simp only [CRule.ast, RuleNode.entries, CRule.toks, List.flatMap_cons, List.flatMap_append, hl, desc_entries h3,
    tags_entries h1, List.flatMap_map, RuleChild.entries]
  rw [threadOpt_flat (g := fun s => s.toks.flatMap Token.entries) (fun s hs n => background_entries (h4 s hs) n),
    thread_flat (g := fun s => s.toks.flatMap Token.entries) (fun s hs n => scenario_entries (h5 s hs) n)]
  simp [List.flatMap_assoc]

theorem feature_entries {f : CFeature} (h : f.Ok) (n : Nat) : (f.ast n).1.entries = f.toks.flatMap Token.entries := by
  obtain ⟨h0, h1, h2, h3, h4, h5, h6⟩ := h
  have hl : f.line.entries = [.feature f.line.loc f.line.keyword f.line.text f.line.dialect] := by simp [Token.entries, h2]
  have hg : f.language.toList.flatMap Token.entries = [] := by
    rw [List.flatMap_eq_nil_iff]; intro t ht; simp [Token.entries, h0 t (by simpa using ht)]
  simp only [CFeature.ast, Feature.entries, CFeature.toks, List.flatMap_cons, List.flatMap_append, hl, desc_entries h3,
    tags_entries h1, List.flatMap_map, FeatureChild.entries, hg]
  rw [threadOpt_flat (g := fun s => s.toks.flatMap Token.entries) (fun s hs n => background_entries (h4 s hs) n),
    thread_flat (g := fun s => s.toks.flatMap Token.entries) (fun s hs n => scenario_entries (h5 s hs) n),
    thread_flat (g := fun s => s.toks.flatMap Token.entries) (fun s hs n => rule_entries (h6 s hs) n)]
  simp [List.flatMap_assoc]

theorem doc_entries {d : CDoc} (h : d.Ok) (cm : List Comment) (n : Nat) : (d.ast cm n).1.entries = d.toks.flatMap Token.entries := by
  obtain ⟨h1, h2⟩ := h
  have hl : d.eof.entries = [] := by simp [Token.entries, h2]
  simp only [CDoc.ast, Document.entries, CDoc.toks, List.flatMap_append, List.flatMap_cons, List.flatMap_nil, hl]
  rw [threadOpt_flat (g := fun s => s.toks.flatMap Token.entries) (fun s hs n => feature_entries (h1 s hs) n)]
  simp [List.flatMap_assoc]

/-! ### Ids -/

/-- `l` lists the ids from `n` up to `n'`, in any order. -/
def Fresh (l : List Nat) (n n' : Nat) : Prop := n ≤ n' ∧ l.Perm (List.range' n (n' - n))

theorem Fresh.nil (n : Nat) : Fresh [] n n := ⟨Nat.le_refl _, by simp⟩

theorem Fresh.one (n : Nat) : Fresh [n] n (n + 1) := ⟨by omega, by simp⟩

theorem Fresh.append {l1 l2 : List Nat} {a b c : Nat} (h1 : Fresh l1 a b) (h2 : Fresh l2 b c) : Fresh (l1 ++ l2) a c := by
  refine ⟨Nat.le_trans h1.1 h2.1, ?_⟩
  have := h1.2.append h2.2
  have e : List.range' a (c - a) = List.range' a (b - a) ++ List.range' b (c - b) := by
    have := @List.range'_append_1 a (b - a) (c - b)
    rw [show a + (b - a) = b by have := h1.1; omega, show b - a + (c - b) = c - a by have := h1.1; have := h2.1; omega] at this
    exact this.symm
  rw [e]; exact this

theorem Fresh.perm {l l' : List Nat} {a b : Nat} (h : Fresh l a b) (p : l'.Perm l) : Fresh l' a b := ⟨h.1, p.trans h.2⟩

theorem Fresh.nodup {l : List Nat} {a b : Nat} (h : Fresh l a b) : l.Nodup := h.2.nodup_iff.2 (List.nodup_range')

theorem Fresh.mem {l : List Nat} {a b : Nat} (h : Fresh l a b) (i : Nat) : i ∈ l ↔ a ≤ i ∧ i < b := by
  rw [h.2.mem_iff, List.mem_range'_1]; have := h.1; omega

theorem thread_fresh {X A : Type} {f : X → Nat → A × Nat} {e : A → List Nat} (h : ∀ x n, Fresh (e (f x n).1) n (f x n).2) (xs : List X)
    (n : Nat) : Fresh ((thread f xs n).1.flatMap e) n (thread f xs n).2 := by
  induction xs generalizing n with
  | nil => exact .nil n
  | cons x xs ih => simp only [thread, List.flatMap_cons]; exact (h x n).append (ih _)

theorem threadOpt_fresh {X A : Type} {f : X → Nat → A × Nat} {e : A → List Nat} (h : ∀ x n, Fresh (e (f x n).1) n (f x n).2)
    (o : Option X) (n : Nat) : Fresh ((threadOpt f o n).1.toList.flatMap e) n (threadOpt f o n).2 := by
  cases o with
  | none => exact .nil n
  | some x => simpa [threadOpt] using h x n

theorem flatMap_one {α β : Type} (g : α → β) (l : List α) : (l.flatMap fun r => [g r]) = l.map g := by
  induction l <;> simp_all

theorem rows_fresh (rs : List Token) (n : Nat) : Fresh ((thread row rs n).1.map (·.id)) n (thread row rs n).2 := by
  have := thread_fresh (f := row) (e := fun r => [r.id]) (fun x n => Fresh.one n) rs n
  rwa [flatMap_one] at this

theorem tags_fresh (ts : List Token) (n : Nat) : Fresh ((Cst.tags ts n).1.map (·.id)) n (Cst.tags ts n).2 := by
  have hl : ∀ t n, Fresh ((lineTags t n).1.map (·.id)) n (lineTags t n).2 := by
    intro t n
    have := thread_fresh (f := fun (i : MItem) n => (({ id := n, loc := itemLoc t i.column, name := i.text } : Tag), n + 1))
      (e := fun r => [r.id]) (fun x n => Fresh.one n) t.items n
    rwa [flatMap_one] at this
  have := thread_fresh (f := lineTags) (e := fun l => l.map (·.id)) hl ts n
  rw [List.flatMap_def] at this
  simpa only [Cst.tags, List.map_flatten] using this

theorem step_fresh (s : CStep) (n : Nat) : Fresh (s.ast n).1.ids n (s.ast n).2 := by
  simp only [CStep.ast, Step.ids]
  cases s.arg with
  | none => exact Fresh.one n
  | table r rs => exact ((rows_fresh (r :: rs) n).append (Fresh.one _)).perm (List.perm_append_singleton _ _).symm
  | doc o ls c => exact Fresh.one n

theorem background_fresh (b : CBackground) (n : Nat) : Fresh (b.ast n).1.ids n (b.ast n).2 := by
  simp only [CBackground.ast, Background.ids]
  exact ((thread_fresh step_fresh b.steps n).append (Fresh.one _)).perm (List.perm_append_singleton _ _).symm

theorem examples_fresh (e : CExamples) (n : Nat) : Fresh (e.ast n).1.ids n (e.ast n).2 := by
  simp only [CExamples.ast, Examples.ids, head_tail]
  refine (((rows_fresh e.table n).append (tags_fresh e.tags _)).append (Fresh.one _)).perm ?_
  refine (List.Perm.cons _ List.perm_append_comm).trans (List.perm_append_singleton _ _).symm

theorem scenario_fresh (s : CScenario) (n : Nat) : Fresh (s.ast n).1.ids n (s.ast n).2 := by
  simp only [CScenario.ast, Scenario.ids]
  refine ((((thread_fresh step_fresh s.steps n).append (thread_fresh examples_fresh s.examples _)).append
    (tags_fresh s.tags _)).append (Fresh.one _)).perm ?_
  refine (List.Perm.cons _ ?_).trans (List.perm_append_singleton _ _).symm
  rw [List.append_assoc]
  exact List.perm_append_comm

theorem rule_fresh (r : CRule) (n : Nat) : Fresh (r.ast n).1.ids n (r.ast n).2 := by
  simp only [CRule.ast, RuleNode.ids, List.flatMap_append, List.flatMap_map, RuleChild.ids]
  refine ((((threadOpt_fresh background_fresh r.background n).append (thread_fresh scenario_fresh r.scenarios _)).append
    (tags_fresh r.tags _)).append (Fresh.one _)).perm ?_
  exact (List.Perm.cons _ List.perm_append_comm).trans (List.perm_append_singleton _ _).symm

theorem feature_fresh (f : CFeature) (n : Nat) : Fresh (f.ast n).1.ids n (f.ast n).2 := by
  simp only [CFeature.ast, Feature.ids, List.flatMap_append, List.flatMap_map, FeatureChild.ids]
  exact ((((threadOpt_fresh background_fresh f.background n).append (thread_fresh scenario_fresh f.scenarios _)).append
    (thread_fresh rule_fresh f.rules _)).append (tags_fresh f.tags _)).perm List.perm_append_comm

theorem doc_fresh (d : CDoc) (cm : List Comment) (n : Nat) : Fresh (d.ast cm n).1.ids n (d.ast cm n).2 :=
  threadOpt_fresh feature_fresh d.feature n

/-! ### Members -/

theorem thread_mem {X A : Type} {f : X → Nat → A × Nat} {xs : List X} {n : Nat} {a : A} (h : a ∈ (thread f xs n).1) :
    ∃ x ∈ xs, ∃ k, a = (f x k).1 := by
  induction xs generalizing n with
  | nil => simp [thread] at h
  | cons x xs ih =>
    simp only [thread, List.mem_cons] at h
    rcases h with rfl | h
    · exact ⟨x, by simp, n, rfl⟩
    · obtain ⟨y, hy, k, hk⟩ := ih h; exact ⟨y, by simp [hy], k, hk⟩

theorem threadOpt_mem {X A : Type} {f : X → Nat → A × Nat} {o : Option X} {n : Nat} {a : A} (h : a ∈ (threadOpt f o n).1) :
    ∃ x ∈ o, ∃ k, a = (f x k).1 := by
  cases o with
  | none => simp [threadOpt] at h
  | some x => simp [threadOpt] at h; exact ⟨x, rfl, n, h.symm⟩

/-- The backgrounds and scenarios of a typed document. -/
def Cst.CDoc.backgrounds (d : CDoc) : List CBackground :=
  d.feature.toList.flatMap fun f => f.background.toList ++ f.rules.flatMap fun r => r.background.toList
def Cst.CDoc.scenarios (d : CDoc) : List CScenario :=
  d.feature.toList.flatMap fun f => f.scenarios ++ f.rules.flatMap fun r => r.scenarios

theorem doc_backgrounds {d : CDoc} {cm : List Comment} {n : Nat} {b : Background} (h : b ∈ (d.ast cm n).1.backgrounds) :
    ∃ c ∈ d.backgrounds, ∃ k, b = (c.ast k).1 := by
  simp only [Document.backgrounds, CDoc.ast, List.mem_flatMap, Option.mem_toList] at h
  obtain ⟨f, hf, c, hc, hb⟩ := h
  obtain ⟨F, hF, k, rfl⟩ := threadOpt_mem hf
  simp only [CFeature.ast, List.mem_append, List.mem_map, Option.mem_toList] at hc
  rcases hc with (⟨x, hx, rfl⟩ | ⟨x, hx, rfl⟩) | ⟨x, hx, rfl⟩
  · simp [FeatureChild.backgrounds] at hb
    subst hb
    obtain ⟨B, hB, k, rfl⟩ := threadOpt_mem hx
    exact ⟨B, by simp [CDoc.backgrounds]; exact ⟨F, hF, .inl hB⟩, k, rfl⟩
  · simp [FeatureChild.backgrounds] at hb
  · obtain ⟨R, hR, k, rfl⟩ := thread_mem hx
    simp only [FeatureChild.backgrounds, CRule.ast, List.mem_flatMap, List.mem_append, List.mem_map, Option.mem_toList] at hb
    obtain ⟨y, (⟨z, hz, rfl⟩ | ⟨z, hz, rfl⟩), hy⟩ := hb
    · simp at hy
      subst hy
      obtain ⟨B, hB, k, rfl⟩ := threadOpt_mem hz
      exact ⟨B, by simp [CDoc.backgrounds]; exact ⟨F, hF, .inr ⟨R, hR, hB⟩⟩, k, rfl⟩
    · simp at hy

theorem doc_scenarios {d : CDoc} {cm : List Comment} {n : Nat} {s : Scenario} (h : s ∈ (d.ast cm n).1.scenarios) :
    ∃ c ∈ d.scenarios, ∃ k, s = (c.ast k).1 := by
  simp only [Document.scenarios, CDoc.ast, List.mem_flatMap, Option.mem_toList] at h
  obtain ⟨f, hf, c, hc, hb⟩ := h
  obtain ⟨F, hF, k, rfl⟩ := threadOpt_mem hf
  simp only [CFeature.ast, List.mem_append, List.mem_map, Option.mem_toList] at hc
  rcases hc with (⟨x, hx, rfl⟩ | ⟨x, hx, rfl⟩) | ⟨x, hx, rfl⟩
  · simp [FeatureChild.scenarios] at hb
  · simp [FeatureChild.scenarios] at hb
    subst hb
    obtain ⟨B, hB, k, rfl⟩ := thread_mem hx
    exact ⟨B, by simp [CDoc.scenarios]; exact ⟨F, hF, .inl hB⟩, k, rfl⟩
  · obtain ⟨R, hR, k, rfl⟩ := thread_mem hx
    simp only [FeatureChild.scenarios, CRule.ast, List.mem_flatMap, List.mem_append, List.mem_map, Option.mem_toList] at hb
    obtain ⟨y, (⟨z, hz, rfl⟩ | ⟨z, hz, rfl⟩), hy⟩ := hb
    · simp at hy
    · simp at hy
      subst hy
      obtain ⟨B, hB, k, rfl⟩ := thread_mem hz
      exact ⟨B, by simp [CDoc.scenarios]; exact ⟨F, hF, .inr ⟨R, hR, hB⟩⟩, k, rfl⟩

theorem backgrounds_ok {d : CDoc} (h : d.Ok) : ∀ b ∈ d.backgrounds, b.Ok := by
  intro b hb
  simp only [CDoc.backgrounds, List.mem_flatMap, Option.mem_toList, List.mem_append] at hb
  obtain ⟨f, hf, hb | ⟨r, hr, hb⟩⟩ := hb
  · exact (h.1 f hf).2.2.2.2.1 b hb
  · exact ((h.1 f hf).2.2.2.2.2.2 r hr).2.2.2.1 b hb

theorem scenarios_ok {d : CDoc} (h : d.Ok) : ∀ b ∈ d.scenarios, b.Ok := by
  intro b hb
  simp only [CDoc.scenarios, List.mem_flatMap, Option.mem_toList, List.mem_append] at hb
  obtain ⟨f, hf, hb | ⟨r, hr, hb⟩⟩ := hb
  · exact (h.1 f hf).2.2.2.2.2.1 b hb
  · exact ((h.1 f hf).2.2.2.2.2.2 r hr).2.2.2.2 b hb

theorem doc_steps {d : CDoc} (hd : d.Ok) {cm : List Comment} {n : Nat} {s : Step} (h : s ∈ (d.ast cm n).1.steps) :
    ∃ c : CStep, c.Ok ∧ ∃ k, s = (c.ast k).1 := by
  simp only [Document.steps, List.mem_append, List.mem_flatMap] at h
  rcases h with ⟨b, hb, hs⟩ | ⟨b, hb, hs⟩
  · obtain ⟨B, hB, k, rfl⟩ := doc_backgrounds hb
    obtain ⟨S, hS, k, rfl⟩ := thread_mem hs
    exact ⟨S, (backgrounds_ok hd B hB).2.2 S hS, k, rfl⟩
  · obtain ⟨B, hB, k, rfl⟩ := doc_scenarios hb
    obtain ⟨S, hS, k, rfl⟩ := thread_mem hs
    exact ⟨S, (scenarios_ok hd B hB).2.2.2.1 S hS, k, rfl⟩

theorem doc_examples {d : CDoc} (hd : d.Ok) {cm : List Comment} {n : Nat} {s : Examples} (h : s ∈ (d.ast cm n).1.examples) :
    ∃ c : CExamples, c.Ok ∧ ∃ k, s = (c.ast k).1 := by
  simp only [Document.examples, List.mem_flatMap] at h
  obtain ⟨b, hb, hs⟩ := h
  obtain ⟨B, hB, k, rfl⟩ := doc_scenarios hb
  obtain ⟨S, hS, k, rfl⟩ := thread_mem hs
  exact ⟨S, (scenarios_ok hd B hB).2.2.2.2 S hS, k, rfl⟩

theorem rect_cells {rs : List Token} (h : Rect rs) (n : Nat) : ∃ w, ∀ r ∈ (thread row rs n).1, r.cells.length = w := by
  cases rs with
  | nil => exact ⟨0, by simp [thread]⟩
  | cons x xs =>
    refine ⟨x.items.length, fun r hr => ?_⟩
    obtain ⟨y, hy, k, rfl⟩ := thread_mem hr
    simp only [List.mem_cons] at hy
    rcases hy with rfl | hy
    · simp [row]
    · simpa [row] using h y hy

end Gherkin
