import Verif.Proofs.Plain
import Verif.Proofs.MirrorLine

/-! Syntax trees with every token changed; in particular with the columns and everything else that the two dialects of Gherkin write differently
taken away. -/

namespace Gherkin

open Cst Auto

namespace Cst

def Arg.map (f : Token → Token) : Arg → Arg
  | .none => .none
  | .table r rs => .table (f r) (rs.map f)
  | .doc o ls c => .doc (f o) (ls.map f) (f c)
def CStep.map (f : Token → Token) (s : CStep) : CStep := ⟨f s.line, s.arg.map f⟩
def CBackground.map (f : Token → Token) (b : CBackground) : CBackground := ⟨f b.line, b.desc.map f, b.steps.map (CStep.map f)⟩
def CExamples.map (f : Token → Token) (e : CExamples) : CExamples := ⟨e.tags.map f, f e.line, e.desc.map f, e.table.map f⟩
def CScenario.map (f : Token → Token) (s : CScenario) : CScenario :=
  ⟨s.tags.map f, f s.line, s.desc.map f, s.steps.map (CStep.map f), s.examples.map (CExamples.map f)⟩
def CRule.map (f : Token → Token) (r : CRule) : CRule :=
  ⟨r.tags.map f, f r.line, r.desc.map f, r.background.map (CBackground.map f), r.scenarios.map (CScenario.map f)⟩
def CFeature.map (f : Token → Token) (x : CFeature) : CFeature :=
  ⟨x.language.map f, x.tags.map f, f x.line, x.desc.map f, x.background.map (CBackground.map f), x.scenarios.map (CScenario.map f),
    x.rules.map (CRule.map f)⟩
def CDoc.map (f : Token → Token) (d : CDoc) : CDoc := ⟨d.feature.map (CFeature.map f), f d.eof⟩

/-! ### Tokens -/

theorem flatMap_map' {α β : Type} {f : β → β} {g : α → List β} {p : α → α} (h : ∀ x, g (p x) = (g x).map f) (xs : List α) :
    (xs.map p).flatMap g = (xs.flatMap g).map f := by
  induction xs with
  | nil => rfl
  | cons x xs ih => simp only [List.map_cons, List.flatMap_cons, List.map_append, h, ih]

theorem optMap_map' {α β : Type} {f : β → β} {g : α → List β} {p : α → α} (h : ∀ x, g (p x) = (g x).map f) (xs : Option α) :
    (xs.map p).toList.flatMap g = (xs.toList.flatMap g).map f := by
  cases xs with
  | none => rfl
  | some x => simp [h]

variable {f : Token → Token}

theorem Arg.map_toks (a : Arg) : (a.map f).toks = a.toks.map f := by cases a <;> simp [Arg.map, Arg.toks]
theorem CStep.map_toks (s : CStep) : (s.map f).toks = s.toks.map f := by simp [CStep.map, CStep.toks, Arg.map_toks]
theorem CBackground.map_toks (s : CBackground) : (s.map f).toks = s.toks.map f := by
  simp only [CBackground.map, CBackground.toks, flatMap_map' CStep.map_toks, List.map_cons, List.map_append]
theorem CExamples.map_toks (s : CExamples) : (s.map f).toks = s.toks.map f := by simp [CExamples.map, CExamples.toks]
theorem CScenario.map_toks (s : CScenario) : (s.map f).toks = s.toks.map f := by
  simp only [CScenario.map, CScenario.toks, flatMap_map' CStep.map_toks, flatMap_map' CExamples.map_toks, List.map_cons, List.map_append]
theorem CRule.map_toks (s : CRule) : (s.map f).toks = s.toks.map f := by
  simp only [CRule.map, CRule.toks, optMap_map' CBackground.map_toks, flatMap_map' CScenario.map_toks, List.map_cons, List.map_append]
theorem CFeature.map_toks (s : CFeature) : (s.map f).toks = s.toks.map f := by
  have : (s.language.map f).toList = s.language.toList.map f := by cases s.language <;> rfl
  simp only [CFeature.map, CFeature.toks, optMap_map' CBackground.map_toks, flatMap_map' CScenario.map_toks, flatMap_map' CRule.map_toks,
    List.map_cons, List.map_append, this]
theorem CDoc.map_toks (s : CDoc) : (s.map f).toks = s.toks.map f := by
  simp only [CDoc.map, CDoc.toks, optMap_map' CFeature.map_toks, List.map_append, List.map_cons, List.map_nil]

/-! ### Without descriptions -/

theorem map_congr' {α β : Type} {f g : α → β} {xs : List α} (h : ∀ x ∈ xs, f x = g x) : xs.map f = xs.map g := List.map_congr_left h

theorem opt_congr' {α β : Type} {f g : α → β} {xs : Option α} (h : ∀ x ∈ xs, f x = g x) : xs.map f = xs.map g := by
  cases xs with
  | none => rfl
  | some x => simp [h x rfl]

theorem Arg.plain_map (a : Arg) : a.plain = a.map Token.erase := by cases a <;> rfl
theorem CStep.plain_map (s : CStep) : s.plain = s.map Token.erase := by simp [CStep.plain, CStep.map, Arg.plain_map]
theorem CBackground.plain_map {b : CBackground} (h : ∀ p ∈ b.parts, p.2.2 = []) : b.plain = b.map Token.erase := by
  have := h _ (by simp [CBackground.parts]; rfl)
  simp only at this
  simp only [CBackground.plain, CBackground.map, this, map_congr' fun x _ => CStep.plain_map x, List.map_nil]
theorem CExamples.plain_map {b : CExamples} (h : ∀ p ∈ b.parts, p.2.2 = []) : b.plain = b.map Token.erase := by
  have := h _ (by simp [CExamples.parts]; rfl)
  simp only at this
  simp only [CExamples.plain, CExamples.map, this, List.map_nil]
theorem CScenario.plain_map {b : CScenario} (h : ∀ p ∈ b.parts, p.2.2 = []) : b.plain = b.map Token.erase := by
  have h0 := h (.scenario, b.line, b.desc) (by simp [CScenario.parts])
  have h1 : ∀ x ∈ b.examples, x.plain = x.map Token.erase := fun x hx => CExamples.plain_map fun p hp => h p (by
    simp only [CScenario.parts, List.mem_cons, List.mem_flatMap]; exact .inr ⟨x, hx, hp⟩)
  simp only at h0
  simp only [CScenario.plain, CScenario.map, h0, map_congr' h1, map_congr' fun x _ => CStep.plain_map x, List.map_nil]
theorem CRule.plain_map {b : CRule} (h : ∀ p ∈ b.parts, p.2.2 = []) : b.plain = b.map Token.erase := by
  have h0 := h (.rule, b.line, b.desc) (by simp [CRule.parts])
  have h1 : ∀ x ∈ b.background, x.plain = x.map Token.erase := fun x hx => CBackground.plain_map fun p hp => h p (by
    simp only [CRule.parts, List.mem_cons, List.mem_append, List.mem_flatMap, Option.mem_toList]; exact .inr (.inl ⟨x, hx, hp⟩))
  have h2 : ∀ x ∈ b.scenarios, x.plain = x.map Token.erase := fun x hx => CScenario.plain_map fun p hp => h p (by
    simp only [CRule.parts, List.mem_cons, List.mem_append, List.mem_flatMap, Option.mem_toList]; exact .inr (.inr ⟨x, hx, hp⟩))
  simp only at h0
  simp only [CRule.plain, CRule.map, h0, opt_congr' h1, map_congr' h2, List.map_nil]
theorem CFeature.plain_map {b : CFeature} (h : ∀ p ∈ b.parts, p.2.2 = []) : b.plain = b.map Token.erase := by
  have h0 := h (.feature, b.line, b.desc) (by simp [CFeature.parts])
  have h1 : ∀ x ∈ b.background, x.plain = x.map Token.erase := fun x hx => CBackground.plain_map fun p hp => h p (by
    simp only [CFeature.parts, List.mem_cons, List.mem_append, List.mem_flatMap, Option.mem_toList]; first | exact .inr (.inl ⟨x, hx, hp⟩) | exact .inr (.inl (.inl ⟨x, hx, hp⟩)))
  have h2 : ∀ x ∈ b.scenarios, x.plain = x.map Token.erase := fun x hx => CScenario.plain_map fun p hp => h p (by
    simp only [CFeature.parts, List.mem_cons, List.mem_append, List.mem_flatMap, Option.mem_toList]; first | exact .inr (.inr (.inl ⟨x, hx, hp⟩)) | exact .inr (.inl (.inr ⟨x, hx, hp⟩)))
  have h3 : ∀ x ∈ b.rules, x.plain = x.map Token.erase := fun x hx => CRule.plain_map fun p hp => h p (by
    simp only [CFeature.parts, List.mem_cons, List.mem_append, List.mem_flatMap, Option.mem_toList]; first | exact .inr (.inr (.inr ⟨x, hx, hp⟩)) | exact .inr (.inr ⟨x, hx, hp⟩))
  simp only at h0
  simp only [CFeature.plain, CFeature.map, h0, opt_congr' h1, map_congr' h2, map_congr' h3, List.map_nil]
theorem CDoc.plain_map {d : CDoc} (h : ∀ p ∈ d.parts, p.2.2 = []) : d.plain = d.map Token.erase := by
  have h1 : ∀ x ∈ d.feature, x.plain = x.map Token.erase := fun x hx => CFeature.plain_map fun p hp => h p (by
    simp only [CDoc.parts, List.mem_flatMap, Option.mem_toList]; exact ⟨x, hx, hp⟩)
  simp only [CDoc.plain, CDoc.map, opt_congr' h1]

/-- Without descriptions nothing is dropped. -/
theorem scan_all {d : CDoc} (hd : d.Ok) (h : ∀ p ∈ d.parts, p.2.2 = []) : (scan false d.toks).length = d.toks.length := by
  have := congrArg List.length (CDoc.plain_toks hd)
  rw [CDoc.plain_map h, CDoc.map_toks] at this
  simpa using this.symm

/-! ### Without columns -/

theorem Arg.flat_ok {a : Arg} (h : a.Ok) : (a.map Token.flat).Ok := by
  cases a with
  | none => trivial
  | table r rs =>
    refine ⟨?_, ?_⟩
    · intro t ht
      rcases List.mem_cons.1 ht with rfl | ht
      · exact h.1 r (by simp)
      · obtain ⟨x, hx, rfl⟩ := List.mem_map.1 ht
        exact h.1 x (by simp [hx])
    · intro x hx
      obtain ⟨y, hy, rfl⟩ := List.mem_map.1 hx
      simpa [Token.flat] using h.2 y hy
  | doc o ls c =>
    refine ⟨h.1, by simp [Token.flat, h.1], ?_, h.2.2.2⟩
    intro t ht
    obtain ⟨x, hx, rfl⟩ := List.mem_map.1 ht
    exact h.2.2.1 x hx

theorem toks_flat {ts : List Token} {k : Kind} (h : ∀ t ∈ ts, t.type = some k) : ∀ t ∈ ts.map Token.flat, t.type = some k := by
  intro t ht
  obtain ⟨x, hx, rfl⟩ := List.mem_map.1 ht
  exact h x hx

theorem CStep.flat_ok {s : CStep} (h : s.Ok) : (s.map Token.flat).Ok := ⟨h.1, Arg.flat_ok h.2⟩
theorem CBackground.flat_ok {b : CBackground} (h : b.Ok) : (b.map Token.flat).Ok := ⟨h.1, toks_flat h.2.1, all_map h.2.2 fun _ => CStep.flat_ok⟩
theorem CExamples.flat_ok {e : CExamples} (h : e.Ok) : (e.map Token.flat).Ok := by
  refine ⟨toks_flat h.1, h.2.1, toks_flat h.2.2.1, toks_flat h.2.2.2.1, ?_⟩
  have := h.2.2.2.2
  revert this
  cases he : e.table with
  | nil => simp [CExamples.map, he, Rect]
  | cons r rs =>
    simp only [CExamples.map, he, Rect, List.map_cons]
    intro h1 x hx
    obtain ⟨y, hy, rfl⟩ := List.mem_map.1 hx
    simpa [Token.flat] using h1 y hy
theorem CScenario.flat_ok {s : CScenario} (h : s.Ok) : (s.map Token.flat).Ok :=
  ⟨toks_flat h.1, h.2.1, toks_flat h.2.2.1, all_map h.2.2.2.1 fun _ => CStep.flat_ok, all_map h.2.2.2.2 fun _ => CExamples.flat_ok⟩
theorem CRule.flat_ok {s : CRule} (h : s.Ok) : (s.map Token.flat).Ok :=
  ⟨toks_flat h.1, h.2.1, toks_flat h.2.2.1, opt_map h.2.2.2.1 fun _ => CBackground.flat_ok, all_map h.2.2.2.2 fun _ => CScenario.flat_ok⟩
theorem CFeature.flat_ok {s : CFeature} (h : s.Ok) : (s.map Token.flat).Ok := by
  refine ⟨?_, toks_flat h.2.1, h.2.2.1, toks_flat h.2.2.2.1, opt_map h.2.2.2.2.1 fun _ => CBackground.flat_ok,
    all_map h.2.2.2.2.2.1 fun _ => CScenario.flat_ok, all_map h.2.2.2.2.2.2 fun _ => CRule.flat_ok⟩
  intro t ht
  obtain ⟨x, hx, rfl⟩ := Option.map_eq_some_iff.1 ht
  exact h.1 x hx
theorem CDoc.flat_ok {d : CDoc} (h : d.Ok) : (d.map Token.flat).Ok := ⟨opt_map h.1 fun _ => CFeature.flat_ok, h.2⟩

/-- Lines without columns; everything else kept. -/
def flatG : Change := ⟨fun l => ⟨l.line, none⟩, fun i => i, fun s => s⟩

theorem thread_mem' {α β : Type} {f : α → Nat → β × Nat} {p : α → α} {h : β → β} : ∀ (xs : List α),
    (∀ x ∈ xs, ∀ n, (f (p x) n).2 = (f x n).2 ∧ h (f (p x) n).1 = h (f x n).1) → ∀ n : Nat,
    (thread f (xs.map p) n).2 = (thread f xs n).2 ∧ (thread f (xs.map p) n).1.map h = (thread f xs n).1.map h
  | [], _, n => ⟨rfl, rfl⟩
  | x :: xs, hf, n => by
    have ih := thread_mem' xs (fun y hy => hf y (by simp [hy]))
    have h0 := hf x (by simp) n
    simp only [List.map_cons, thread, h0.1, h0.2, ih, and_self]

theorem threadOpt_mem' {α β : Type} {f : α → Nat → β × Nat} {p : α → α} {h : β → β} (xs : Option α)
    (hf : ∀ x ∈ xs, ∀ n, (f (p x) n).2 = (f x n).2 ∧ h (f (p x) n).1 = h (f x n).1) (n : Nat) :
    (threadOpt f (xs.map p) n).2 = (threadOpt f xs n).2 ∧ (threadOpt f (xs.map p) n).1.map h = (threadOpt f xs n).1.map h := by
  cases xs with
  | none => exact ⟨rfl, rfl⟩
  | some x =>
    have := hf x rfl n
    simp only [Option.map_some, threadOpt, this, and_self]

theorem item_flat (t : Token) (c : Nat) : flatG.loc (itemLoc t.flat 0) = flatG.loc (itemLoc t c) := by
  unfold itemLoc
  by_cases h : c = 0
  · simp [h, flatG, Token.flat]
  · simp [h, flatG, Token.flat]

theorem row_flat (t : Token) (n : Nat) : (row t.flat n).2 = (row t n).2 ∧ (row t.flat n).1.change flatG = (row t n).1.change flatG := by
  refine ⟨rfl, ?_⟩
  simp only [row, Row.change, Token.flat, List.map_map]
  congr 1
  refine List.map_congr_left fun i _ => ?_
  simp only [Function.comp, Cell.change]
  congr 1
  exact item_flat t i.column

theorem lineTags_flat (t : Token) (n : Nat) : (lineTags t.flat n).2 = (lineTags t n).2 ∧
    (lineTags t.flat n).1.map (Tag.change flatG) = (lineTags t n).1.map (Tag.change flatG) := by
  have key : ∀ (is : List MItem) (n : Nat),
    (thread (fun (i : MItem) n => (({ id := n, loc := itemLoc t.flat i.column, name := i.text } : Tag), n + 1)) (is.map fun i => ⟨0, i.text⟩) n).2 =
      (thread (fun (i : MItem) n => (({ id := n, loc := itemLoc t i.column, name := i.text } : Tag), n + 1)) is n).2 ∧
    ((thread (fun (i : MItem) n => (({ id := n, loc := itemLoc t.flat i.column, name := i.text } : Tag), n + 1)) (is.map fun i => ⟨0, i.text⟩) n).1).map
        (Tag.change flatG) =
      ((thread (fun (i : MItem) n => (({ id := n, loc := itemLoc t i.column, name := i.text } : Tag), n + 1)) is n).1).map (Tag.change flatG) := by
    intro is
    induction is with
    | nil => intro n; exact ⟨rfl, rfl⟩
    | cons i is ih =>
      intro n
      have ih := ih (n + 1)
      simp only [List.map_cons, thread, ih.1, ih.2, true_and]
      simp only [Tag.change, item_flat t i.column]
  exact key t.items n

theorem tags_flat' (ts : List Token) (n : Nat) : (tags (ts.map Token.flat) n).2 = (tags ts n).2 ∧
    (tags (ts.map Token.flat) n).1.map (Tag.change flatG) = (tags ts n).1.map (Tag.change flatG) := by
  have : ∀ (ts : List Token) (n : Nat), (thread lineTags (ts.map Token.flat) n).2 = (thread lineTags ts n).2 ∧
      (thread lineTags (ts.map Token.flat) n).1.map (List.map (Tag.change flatG)) = (thread lineTags ts n).1.map (List.map (Tag.change flatG)) := by
    intro ts
    induction ts with
    | nil => intro n; exact ⟨rfl, rfl⟩
    | cons t ts ih => intro n; simp only [List.map_cons, thread, (lineTags_flat t n).1, (lineTags_flat t n).2, ih, and_self]
  have h := this ts n
  refine ⟨h.1, ?_⟩
  simp only [tags, List.map_flatten, h.2]

/-- A title or step keeps its keyword and text. -/
theorem line_flat {t : Token} {k : Kind} (h : t.type = some k) (h1 : k ≠ .comment) (h2 : k ≠ .docStringSeparator) (h3 : k ≠ .tableRow) :
    t.flat.keyword = t.keyword ∧ t.flat.text = t.text := by
  simp [Token.flat, h, h1, h2, h3]

theorem desc_flat {ts : List Token} (h : DescOk ts) : description (ts.map Token.flat) = description ts := by
  unfold description
  congr 2
  rw [List.map_map]
  refine List.map_congr_left fun t ht => ?_
  simp [textOf, (line_flat (h t ht) (by simp) (by simp) (by simp)).2]

theorem Arg.flat_ast {a : Arg} (h : a.Ok) (n : Nat) : ((a.map Token.flat).ast n).2 = (a.ast n).2 ∧
    ((a.map Token.flat).ast n).1.change flatG = (a.ast n).1.change flatG := by
  cases a with
  | none => exact ⟨rfl, rfl⟩
  | table r rs =>
    have := thread_plain (f := row) (p := Token.flat) (h := Row.change flatG) row_flat (r :: rs) n
    simp only [List.map_cons] at this
    simp only [Arg.map, Arg.ast, StepArg.change, DataTable.change, this.1, this.2, true_and]
    rfl
  | doc o ls c =>
    refine ⟨rfl, ?_⟩
    have h1 : textOf o.flat = textOf o := by simp [Token.flat, h.1, textOf]
    have h2 : o.flat.keyword = o.keyword := by simp [Token.flat, h.1]
    have h3 : (ls.map Token.flat).map textOf = ls.map textOf := by
      rw [List.map_map]
      refine List.map_congr_left fun t ht => ?_
      simp [textOf, (line_flat (h.2.2.1 t ht) (by simp) (by simp) (by simp)).2]
    simp only [Arg.map, Arg.ast, StepArg.change, DocString.change, h1, h2, h3]
    rfl

theorem CStep.flat_ast {s : CStep} (h : s.Ok) (n : Nat) : ((s.map Token.flat).ast n).2 = (s.ast n).2 ∧
    ((s.map Token.flat).ast n).1.change flatG = (s.ast n).1.change flatG := by
  have := Arg.flat_ast h.2 n
  have hl := line_flat h.1 (by simp) (by simp) (by simp)
  have hk : s.line.flat.keywordType = s.line.keywordType := by simp [Token.flat, h.1]
  simp only [CStep.map, CStep.ast, Step.change, this.1, this.2, true_and, hl.1, hl.2, hk]
  rfl

theorem CBackground.flat_ast {s : CBackground} (h : s.Ok) (n : Nat) : ((s.map Token.flat).ast n).2 = (s.ast n).2 ∧
    ((s.map Token.flat).ast n).1.change flatG = (s.ast n).1.change flatG := by
  have := thread_mem' (h := Step.change flatG) s.steps (fun x hx => CStep.flat_ast (h.2.2 x hx)) n
  have hl := line_flat h.1 (by simp) (by simp) (by simp)
  simp only [CBackground.map, CBackground.ast, Background.change, this.1, this.2, true_and, hl.1, hl.2, desc_flat h.2.1]
  rfl

theorem CExamples.flat_ast {s : CExamples} (h : s.Ok) (n : Nat) : ((s.map Token.flat).ast n).2 = (s.ast n).2 ∧
    ((s.map Token.flat).ast n).1.change flatG = (s.ast n).1.change flatG := by
  have h1 := thread_plain (h := Row.change flatG) row_flat s.table n
  have h2 := tags_flat' s.tags (thread row s.table n).2
  have hl := line_flat h.2.1 (by simp) (by simp) (by simp)
  have ht : List.map (Row.change flatG) (thread row (List.map Token.flat s.table) n).1.tail = List.map (Row.change flatG) (thread row s.table n).1.tail := by
    have := congrArg List.tail h1.2
    simpa using this
  simp only [CExamples.map, CExamples.ast, Examples.change, h1.1, h2.1, h2.2, true_and, ← List.head?_map, h1.2, ht, hl.1, hl.2, desc_flat h.2.2.1]
  rfl

theorem CScenario.flat_ast {s : CScenario} (h : s.Ok) (n : Nat) : ((s.map Token.flat).ast n).2 = (s.ast n).2 ∧
    ((s.map Token.flat).ast n).1.change flatG = (s.ast n).1.change flatG := by
  have h1 := thread_mem' (h := Step.change flatG) s.steps (fun x hx => CStep.flat_ast (h.2.2.2.1 x hx)) n
  have h3 := thread_mem' (h := Examples.change flatG) s.examples (fun x hx => CExamples.flat_ast (h.2.2.2.2 x hx)) (thread CStep.ast s.steps n).2
  have h2 := tags_flat' s.tags (thread CExamples.ast s.examples (thread CStep.ast s.steps n).2).2
  have hl := line_flat h.2.1 (by simp) (by simp) (by simp)
  simp only [CScenario.map, CScenario.ast, Scenario.change, h1.1, h3.1, h2.1, h2.2, true_and, h1.2, h3.2, hl.1, hl.2, desc_flat h.2.2.1]
  rfl

theorem CRule.flat_ast {s : CRule} (h : s.Ok) (n : Nat) : ((s.map Token.flat).ast n).2 = (s.ast n).2 ∧
    ((s.map Token.flat).ast n).1.change flatG = (s.ast n).1.change flatG := by
  have h1 := threadOpt_mem' (h := Background.change flatG) s.background (fun x hx => CBackground.flat_ast (h.2.2.2.1 x hx)) n
  have h3 := thread_mem' (h := Scenario.change flatG) s.scenarios (fun x hx => CScenario.flat_ast (h.2.2.2.2 x hx)) (threadOpt CBackground.ast s.background n).2
  have h2 := tags_flat' s.tags (thread CScenario.ast s.scenarios (threadOpt CBackground.ast s.background n).2).2
  have c1 : ∀ o : Option Background, (o.toList.map RuleChild.background).map (RuleChild.change flatG) = (o.map (Background.change flatG)).toList.map RuleChild.background := by
    intro o; cases o <;> rfl
  have c2 : ∀ o : List Scenario, (o.map RuleChild.scenario).map (RuleChild.change flatG) = (o.map (Scenario.change flatG)).map RuleChild.scenario := by
    intro o; simp only [List.map_map]; rfl
  have hl := line_flat h.2.1 (by simp) (by simp) (by simp)
  simp only [CRule.map, CRule.ast, RuleNode.change, h1.1, h3.1, h2.1, h2.2, true_and, List.map_append, c1, c2, h1.2, h3.2, hl.1, hl.2, desc_flat h.2.2.1]
  rfl

theorem CFeature.flat_ast {s : CFeature} (h : s.Ok) (n : Nat) : ((s.map Token.flat).ast n).2 = (s.ast n).2 ∧
    ((s.map Token.flat).ast n).1.change flatG = (s.ast n).1.change flatG := by
  have h1 := threadOpt_mem' (h := Background.change flatG) s.background (fun x hx => CBackground.flat_ast (h.2.2.2.2.1 x hx)) n
  have h3 := thread_mem' (h := Scenario.change flatG) s.scenarios (fun x hx => CScenario.flat_ast (h.2.2.2.2.2.1 x hx)) (threadOpt CBackground.ast s.background n).2
  have h4 := thread_mem' (h := RuleNode.change flatG) s.rules (fun x hx => CRule.flat_ast (h.2.2.2.2.2.2 x hx))
    (thread CScenario.ast s.scenarios (threadOpt CBackground.ast s.background n).2).2
  have h2 := tags_flat' s.tags (thread CRule.ast s.rules (thread CScenario.ast s.scenarios (threadOpt CBackground.ast s.background n).2).2).2
  have c1 : ∀ o : Option Background, (o.toList.map FeatureChild.background).map (FeatureChild.change flatG) = (o.map (Background.change flatG)).toList.map FeatureChild.background := by
    intro o; cases o <;> rfl
  have c2 : ∀ o : List Scenario, (o.map FeatureChild.scenario).map (FeatureChild.change flatG) = (o.map (Scenario.change flatG)).map FeatureChild.scenario := by
    intro o; simp only [List.map_map]; rfl
  have c3 : ∀ o : List RuleNode, (o.map FeatureChild.rule).map (FeatureChild.change flatG) = (o.map (RuleNode.change flatG)).map FeatureChild.rule := by
    intro o; simp only [List.map_map]; rfl
  have hl := line_flat h.2.2.1 (by simp) (by simp) (by simp)
  simp only [CFeature.map, CFeature.ast, Feature.change, h1.1, h3.1, h4.1, h2.1, h2.2, true_and, List.map_append, c1, c2, c3, h1.2, h3.2, h4.2, hl.1,
    hl.2, desc_flat h.2.2.2.1]
  rfl

theorem CDoc.flat_ast {d : CDoc} (h : d.Ok) (cm cm' : List Comment) (n : Nat) :
    ((d.map Token.flat).ast cm n).1.feature.map (Feature.change flatG) = (d.ast cm' n).1.feature.map (Feature.change flatG) :=
  (threadOpt_mem' (h := Feature.change flatG) d.feature (fun x hx => CFeature.flat_ast (h.1 x hx)) n).2

/-- Documents whose tokens differ only in columns differ only in columns. -/
theorem flat_of_toks {d d' : CDoc} (h : d.Ok) (h' : d'.Ok) (ht : d.toks.map Token.flat = d'.toks.map Token.flat)
    (cm cm' : List Comment) (n : Nat) : (d.ast cm n).1.feature.map (Feature.change flatG) = (d'.ast cm' n).1.feature.map (Feature.change flatG) := by
  have : d.map Token.flat = d'.map Token.flat := doc_inj (CDoc.flat_ok h) (CDoc.flat_ok h') (by rw [CDoc.map_toks, CDoc.map_toks, ht])
  rw [← CDoc.flat_ast h cm, ← CDoc.flat_ast h' cm, this]

end Cst

end Gherkin
