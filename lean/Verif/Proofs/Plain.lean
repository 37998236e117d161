import Verif.Proofs.NoiseRun
import Verif.Proofs.Bare

/-! Syntax trees without places and descriptions. -/

namespace Gherkin

open Cst Auto

namespace Cst

def Arg.plain : Arg → Arg
  | .none => .none
  | .table r rs => .table r.erase (rs.map Token.erase)
  | .doc o ls c => .doc o.erase (ls.map Token.erase) c.erase
def CStep.plain (s : CStep) : CStep := ⟨s.line.erase, s.arg.plain⟩
def CBackground.plain (b : CBackground) : CBackground := ⟨b.line.erase, [], b.steps.map CStep.plain⟩
def CExamples.plain (e : CExamples) : CExamples := ⟨e.tags.map Token.erase, e.line.erase, [], e.table.map Token.erase⟩
def CScenario.plain (s : CScenario) : CScenario :=
  ⟨s.tags.map Token.erase, s.line.erase, [], s.steps.map CStep.plain, s.examples.map CExamples.plain⟩
def CRule.plain (r : CRule) : CRule :=
  ⟨r.tags.map Token.erase, r.line.erase, [], r.background.map CBackground.plain, r.scenarios.map CScenario.plain⟩
def CFeature.plain (f : CFeature) : CFeature :=
  ⟨f.language.map Token.erase, f.tags.map Token.erase, f.line.erase, [], f.background.map CBackground.plain, f.scenarios.map CScenario.plain,
    f.rules.map CRule.plain⟩
def CDoc.plain (d : CDoc) : CDoc := ⟨d.feature.map CFeature.plain, d.eof.erase⟩

/-! ### Still well formed -/

theorem Arg.plain_ok {a : Arg} (h : a.Ok) : a.plain.Ok := by
  cases a with
  | none => trivial
  | table r rs =>
    refine ⟨?_, ?_⟩
    · intro t ht
      rcases List.mem_cons.1 ht with rfl | ht
      · exact h.1 r (by simp)
      · obtain ⟨x, hx, rfl⟩ := List.mem_map.1 ht
        exact h.1 x (by simp [hx])
    · intro x hx
      obtain ⟨y, hy, rfl⟩ := List.mem_map.1 hx
      exact h.2 y hy
  | doc o ls c =>
    refine ⟨h.1, h.2.1, ?_, h.2.2.2⟩
    intro t ht
    obtain ⟨x, hx, rfl⟩ := List.mem_map.1 ht
    exact h.2.2.1 x hx

theorem tags_plain {ts : List Token} {k : Kind} (h : ∀ t ∈ ts, t.type = some k) : ∀ t ∈ ts.map Token.erase, t.type = some k := by
  intro t ht
  obtain ⟨x, hx, rfl⟩ := List.mem_map.1 ht
  exact h x hx

theorem CStep.plain_ok {s : CStep} (h : s.Ok) : s.plain.Ok := ⟨h.1, Arg.plain_ok h.2⟩

theorem all_map {α : Type} {f : α → α} {P : α → Prop} {xs : List α} (h : ∀ x ∈ xs, P x) (hf : ∀ x, P x → P (f x)) : ∀ x ∈ xs.map f, P x := by
  intro x hx
  obtain ⟨y, hy, rfl⟩ := List.mem_map.1 hx
  exact hf y (h y hy)

theorem opt_map {α : Type} {f : α → α} {P : α → Prop} {xs : Option α} (h : ∀ x ∈ xs, P x) (hf : ∀ x, P x → P (f x)) : ∀ x ∈ xs.map f, P x := by
  intro x hx
  obtain ⟨y, hy, rfl⟩ := Option.map_eq_some_iff.1 hx
  exact hf y (h y hy)

theorem CBackground.plain_ok {b : CBackground} (h : b.Ok) : b.plain.Ok :=
  ⟨h.1, by intro t ht; exact absurd ht (by simp [CBackground.plain]), all_map h.2.2 fun _ => CStep.plain_ok⟩

theorem CExamples.plain_ok {e : CExamples} (h : e.Ok) : e.plain.Ok := by
  refine ⟨tags_plain h.1, h.2.1, by intro t ht; exact absurd ht (by simp [CExamples.plain]), tags_plain h.2.2.2.1, ?_⟩
  have := h.2.2.2.2
  revert this
  cases he : e.table with
  | nil => simp [CExamples.plain, he, Rect]
  | cons r rs =>
    simp only [CExamples.plain, he, Rect, List.map_cons]
    intro h1 x hx
    obtain ⟨y, hy, rfl⟩ := List.mem_map.1 hx
    exact h1 y hy

theorem CScenario.plain_ok {s : CScenario} (h : s.Ok) : s.plain.Ok :=
  ⟨tags_plain h.1, h.2.1, by intro t ht; exact absurd ht (by simp [CScenario.plain]), all_map h.2.2.2.1 fun _ => CStep.plain_ok,
    all_map h.2.2.2.2 fun _ => CExamples.plain_ok⟩

theorem CRule.plain_ok {s : CRule} (h : s.Ok) : s.plain.Ok :=
  ⟨tags_plain h.1, h.2.1, by intro t ht; exact absurd ht (by simp [CRule.plain]), opt_map h.2.2.2.1 fun _ => CBackground.plain_ok,
    all_map h.2.2.2.2 fun _ => CScenario.plain_ok⟩

theorem CFeature.plain_ok {s : CFeature} (h : s.Ok) : s.plain.Ok := by
  refine ⟨?_, tags_plain h.2.1, h.2.2.1, by intro t ht; exact absurd ht (by simp [CFeature.plain]), opt_map h.2.2.2.2.1 fun _ => CBackground.plain_ok,
    all_map h.2.2.2.2.2.1 fun _ => CScenario.plain_ok, all_map h.2.2.2.2.2.2 fun _ => CRule.plain_ok⟩
  intro t ht
  obtain ⟨x, hx, rfl⟩ := Option.map_eq_some_iff.1 ht
  exact h.1 x hx

theorem CDoc.plain_ok {d : CDoc} (h : d.Ok) : d.plain.Ok := ⟨opt_map h.1 fun _ => CFeature.plain_ok, h.2⟩

/-! ### Its tokens -/

/-- Scanning the tokens `xs` gives `ys`, whatever follows. -/
def Scans (xs ys : List Token) : Prop := ∀ r, (scan false (xs ++ r)).map Token.erase = ys ++ (scan false r).map Token.erase

theorem Scans.nil : Scans [] [] := fun _ => rfl
theorem Scans.append {a b c d : List Token} (h : Scans a b) (h' : Scans c d) : Scans (a ++ c) (b ++ d) := by
  intro r; rw [List.append_assoc, h, h', List.append_assoc]
theorem Scans.tok {t : Token} {k : Kind} (h : t.type = some k) (h1 : k ≠ .docStringSeparator) (h2 : k ≠ .other) : Scans [t] [t.erase] := by
  intro r
  have e1 : ¬ t.type = some .docStringSeparator := by rw [h]; simpa using h1
  have e2 : ¬ (t.type = some .other ∧ True) := by rw [h]; simpa using h2
  simp only [List.cons_append, List.nil_append, scan, if_neg e1, if_neg e2, List.map_cons]
theorem Scans.flatMap {α : Type} {f g : α → List Token} {p : α → α} {xs : List α} (h : ∀ x ∈ xs, Scans (f x) (g (p x))) :
    Scans (xs.flatMap f) ((xs.map p).flatMap g) := by
  induction xs with
  | nil => exact .nil
  | cons x xs ih =>
    simp only [List.flatMap_cons, List.map_cons]
    exact (h x (by simp)).append (ih fun y hy => h y (by simp [hy]))
theorem Scans.toks {ts : List Token} {k : Kind} (h : ∀ t ∈ ts, t.type = some k) (h1 : k ≠ .docStringSeparator) (h2 : k ≠ .other) :
    Scans ts (ts.map Token.erase) := by
  induction ts with
  | nil => exact .nil
  | cons t ts ih => exact (Scans.tok (h t (by simp)) h1 h2).append (ih fun x hx => h x (by simp [hx]))
theorem Scans.desc {ts : List Token} (h : DescOk ts) : Scans ts [] := by
  induction ts with
  | nil => exact .nil
  | cons t ts ih =>
    refine Scans.append (a := [t]) (b := []) ?_ (ih fun x hx => h x (by simp [hx]))
    intro r
    have := h t (by simp)
    simp [scan, this]
theorem Scans.opt {α : Type} {f g : α → List Token} {p : α → α} {xs : Option α} (h : ∀ x ∈ xs, Scans (f x) (g (p x))) :
    Scans (xs.toList.flatMap f) ((xs.map p).toList.flatMap g) := by
  cases xs with
  | none => exact .nil
  | some x => simpa using h x rfl

theorem scan_others {ls : List Token} (h : ∀ t ∈ ls, t.type = some .other) (r : List Token) : scan true (ls ++ r) = ls ++ scan true r := by
  induction ls with
  | nil => rfl
  | cons t ts ih =>
    have := h t (by simp)
    simp [scan, this, ih fun x hx => h x (by simp [hx])]

theorem Arg.scans {a : Arg} (h : a.Ok) : Scans a.toks a.plain.toks := by
  cases a with
  | none => exact .nil
  | table r rs => exact Scans.toks h.1 (by simp) (by simp)
  | doc o ls c =>
    intro r
    have e1 := h.1
    have e2 := h.2.2.2
    simp only [Arg.toks, Arg.plain, List.cons_append, scan, e1, if_true, Bool.not_false, List.append_assoc, List.nil_append,
      scan_others h.2.2.1, e2, Bool.not_true, List.map_cons, List.map_append]

theorem CStep.scans {s : CStep} (h : s.Ok) : Scans s.toks s.plain.toks :=
  (Scans.tok h.1 (by simp) (by simp)).append (Arg.scans h.2)

theorem CBackground.scans {b : CBackground} (h : b.Ok) : Scans b.toks b.plain.toks :=
  (Scans.tok h.1 (by simp) (by simp)).append ((Scans.desc h.2.1).append (.flatMap fun x hx => CStep.scans (h.2.2 x hx)))

theorem CExamples.scans {e : CExamples} (h : e.Ok) : Scans e.toks e.plain.toks :=
  (Scans.toks h.1 (by simp) (by simp)).append ((Scans.tok h.2.1 (by simp) (by simp)).append
    ((Scans.desc h.2.2.1).append (Scans.toks h.2.2.2.1 (by simp) (by simp))))

theorem CScenario.scans {s : CScenario} (h : s.Ok) : Scans s.toks s.plain.toks :=
  (Scans.toks h.1 (by simp) (by simp)).append ((Scans.tok h.2.1 (by simp) (by simp)).append
    (((Scans.desc h.2.2.1).append (.flatMap fun x hx => CStep.scans (h.2.2.2.1 x hx))).append (.flatMap fun x hx => CExamples.scans (h.2.2.2.2 x hx))))

theorem CRule.scans {s : CRule} (h : s.Ok) : Scans s.toks s.plain.toks :=
  (Scans.toks h.1 (by simp) (by simp)).append ((Scans.tok h.2.1 (by simp) (by simp)).append
    (((Scans.desc h.2.2.1).append (.opt fun x hx => CBackground.scans (h.2.2.2.1 x hx))).append (.flatMap fun x hx => CScenario.scans (h.2.2.2.2 x hx))))

theorem CFeature.scans {s : CFeature} (h : s.Ok) : Scans s.toks s.plain.toks := by
  have hl : Scans s.language.toList (s.language.map Token.erase).toList := by
    cases hs : s.language with
    | none => exact .nil
    | some t => exact Scans.tok (h.1 t hs) (by simp) (by simp)
  exact (hl.append (Scans.toks h.2.1 (by simp) (by simp))).append ((Scans.tok h.2.2.1 (by simp) (by simp)).append
    ((((Scans.desc h.2.2.2.1).append (.opt fun x hx => CBackground.scans (h.2.2.2.2.1 x hx))).append
      (.flatMap fun x hx => CScenario.scans (h.2.2.2.2.2.1 x hx))).append (.flatMap fun x hx => CRule.scans (h.2.2.2.2.2.2 x hx))))

theorem CDoc.scans {d : CDoc} (h : d.Ok) : Scans d.toks d.plain.toks :=
  (Scans.opt fun x hx => CFeature.scans (h.1 x hx)).append (Scans.tok h.2 (by simp) (by simp))

theorem CDoc.plain_toks {d : CDoc} (h : d.Ok) : d.plain.toks = (scan false d.toks).map Token.erase := by
  have := CDoc.scans h []
  simpa [scan] using this.symm

/-! ### Its abstract syntax -/

/-- Nothing but names and ids. -/
def bareG : Change := ⟨fun _ => .zero, fun i => i, fun _ => []⟩

theorem thread_plain {α β : Type} {f : α → Nat → β × Nat} {p : α → α} {h : β → β} (hf : ∀ x n, (f (p x) n).2 = (f x n).2 ∧ h (f (p x) n).1 = h (f x n).1) :
    ∀ (xs : List α) (n : Nat), (thread f (xs.map p) n).2 = (thread f xs n).2 ∧ (thread f (xs.map p) n).1.map h = (thread f xs n).1.map h
  | [], n => ⟨rfl, rfl⟩
  | x :: xs, n => by
    simp only [List.map_cons, thread, (hf x n).1, (hf x n).2, thread_plain hf xs, and_self]

theorem threadOpt_plain {α β : Type} {f : α → Nat → β × Nat} {p : α → α} {h : β → β} (hf : ∀ x n, (f (p x) n).2 = (f x n).2 ∧ h (f (p x) n).1 = h (f x n).1) :
    ∀ (xs : Option α) (n : Nat), (threadOpt f (xs.map p) n).2 = (threadOpt f xs n).2 ∧ (threadOpt f (xs.map p) n).1.map h = (threadOpt f xs n).1.map h
  | none, n => ⟨rfl, rfl⟩
  | some x, n => by simp only [Option.map_some, threadOpt, (hf x n).1, (hf x n).2, and_self]

theorem row_plain (t : Token) (n : Nat) : (row t.erase n).2 = (row t n).2 ∧ (row t.erase n).1.change bareG = (row t n).1.change bareG := by
  refine ⟨rfl, ?_⟩
  simp only [row, Row.change, erase_items, List.map_map, bareG]
  rfl

theorem tag_thread (t : Token) : ∀ (is : List MItem) (n : Nat),
    (thread (fun (i : MItem) n => (({ id := n, loc := itemLoc t.erase i.column, name := i.text } : Tag), n + 1)) is n).2 =
      (thread (fun (i : MItem) n => (({ id := n, loc := itemLoc t i.column, name := i.text } : Tag), n + 1)) is n).2 ∧
    ((thread (fun (i : MItem) n => (({ id := n, loc := itemLoc t.erase i.column, name := i.text } : Tag), n + 1)) is n).1).map (Tag.change bareG) =
      ((thread (fun (i : MItem) n => (({ id := n, loc := itemLoc t i.column, name := i.text } : Tag), n + 1)) is n).1).map (Tag.change bareG)
  | [], n => ⟨rfl, rfl⟩
  | i :: is, n => by
    have ih := tag_thread t is (n + 1)
    simp only [thread, List.map_cons, ih.1, ih.2, true_and]
    rfl

theorem lineTags_plain (t : Token) (n : Nat) : (lineTags t.erase n).2 = (lineTags t n).2 ∧
    (lineTags t.erase n).1.map (Tag.change bareG) = (lineTags t n).1.map (Tag.change bareG) := tag_thread t t.items n

theorem tags_change (ts : List Token) (n : Nat) : (tags (ts.map Token.erase) n).2 = (tags ts n).2 ∧
    (tags (ts.map Token.erase) n).1.map (Tag.change bareG) = (tags ts n).1.map (Tag.change bareG) := by
  have : ∀ (ts : List Token) (n : Nat), (thread lineTags (ts.map Token.erase) n).2 = (thread lineTags ts n).2 ∧
      (thread lineTags (ts.map Token.erase) n).1.map (List.map (Tag.change bareG)) = (thread lineTags ts n).1.map (List.map (Tag.change bareG)) := by
    intro ts
    induction ts with
    | nil => intro n; exact ⟨rfl, rfl⟩
    | cons t ts ih => intro n; simp only [List.map_cons, thread, (lineTags_plain t n).1, (lineTags_plain t n).2, ih, and_self]
  have h := this ts n
  refine ⟨h.1, ?_⟩
  simp only [tags, List.map_flatten, h.2]

theorem Arg.plain_ast (a : Arg) (n : Nat) : (a.plain.ast n).2 = (a.ast n).2 ∧ (a.plain.ast n).1.change bareG = (a.ast n).1.change bareG := by
  cases a with
  | none => exact ⟨rfl, rfl⟩
  | table r rs =>
    have := thread_plain (f := row) (p := Token.erase) (h := Row.change bareG) row_plain (r :: rs) n
    simp only [List.map_cons] at this
    simp only [Arg.plain, Arg.ast, StepArg.change, DataTable.change, this.1, this.2, true_and]
    rfl
  | doc o ls c =>
    refine ⟨rfl, ?_⟩
    simp only [Arg.plain, Arg.ast, StepArg.change, DocString.change, List.map_map]
    rfl

theorem CStep.plain_ast (s : CStep) (n : Nat) : (s.plain.ast n).2 = (s.ast n).2 ∧ (s.plain.ast n).1.change bareG = (s.ast n).1.change bareG := by
  have := Arg.plain_ast s.arg n
  simp only [CStep.plain, CStep.ast, Step.change, this.1, this.2, true_and]
  rfl

theorem CBackground.plain_ast (s : CBackground) (n : Nat) : (s.plain.ast n).2 = (s.ast n).2 ∧ (s.plain.ast n).1.change bareG = (s.ast n).1.change bareG := by
  have := thread_plain (h := Step.change bareG) CStep.plain_ast s.steps n
  simp only [CBackground.plain, CBackground.ast, Background.change, this.1, this.2, true_and]
  rfl

theorem CExamples.plain_ast (s : CExamples) (n : Nat) : (s.plain.ast n).2 = (s.ast n).2 ∧ (s.plain.ast n).1.change bareG = (s.ast n).1.change bareG := by
  have h1 := thread_plain (h := Row.change bareG) row_plain s.table n
  have h2 := tags_change s.tags (thread row s.table n).2
  have ht : List.map (Row.change bareG) (thread row (List.map Token.erase s.table) n).1.tail = List.map (Row.change bareG) (thread row s.table n).1.tail := by
    have := congrArg List.tail h1.2
    simpa using this
  simp only [CExamples.plain, CExamples.ast, Examples.change, h1.1, h2.1, h2.2, true_and, ← List.head?_map, h1.2, ht]
  rfl

theorem CScenario.plain_ast (s : CScenario) (n : Nat) : (s.plain.ast n).2 = (s.ast n).2 ∧ (s.plain.ast n).1.change bareG = (s.ast n).1.change bareG := by
  have h1 := thread_plain (h := Step.change bareG) CStep.plain_ast s.steps n
  have h3 := thread_plain (h := Examples.change bareG) CExamples.plain_ast s.examples (thread CStep.ast s.steps n).2
  have h2 := tags_change s.tags (thread CExamples.ast s.examples (thread CStep.ast s.steps n).2).2
  simp only [CScenario.plain, CScenario.ast, Scenario.change, h1.1, h3.1, h2.1, h2.2, true_and, h1.2, h3.2]
  rfl

theorem CRule.plain_ast (s : CRule) (n : Nat) : (s.plain.ast n).2 = (s.ast n).2 ∧ (s.plain.ast n).1.change bareG = (s.ast n).1.change bareG := by
  have h1 := threadOpt_plain (h := Background.change bareG) CBackground.plain_ast s.background n
  have h3 := thread_plain (h := Scenario.change bareG) CScenario.plain_ast s.scenarios (threadOpt CBackground.ast s.background n).2
  have h2 := tags_change s.tags (thread CScenario.ast s.scenarios (threadOpt CBackground.ast s.background n).2).2
  have c1 : ∀ o : Option Background, (o.toList.map RuleChild.background).map (RuleChild.change bareG) = (o.map (Background.change bareG)).toList.map RuleChild.background := by
    intro o; cases o <;> rfl
  have c2 : ∀ o : List Scenario, (o.map RuleChild.scenario).map (RuleChild.change bareG) = (o.map (Scenario.change bareG)).map RuleChild.scenario := by
    intro o; simp only [List.map_map]; rfl
  simp only [CRule.plain, CRule.ast, RuleNode.change, h1.1, h3.1, h2.1, h2.2, true_and, List.map_append, c1, c2, h1.2, h3.2]
  rfl

theorem CFeature.plain_ast (s : CFeature) (n : Nat) : (s.plain.ast n).2 = (s.ast n).2 ∧ (s.plain.ast n).1.change bareG = (s.ast n).1.change bareG := by
  have h1 := threadOpt_plain (h := Background.change bareG) CBackground.plain_ast s.background n
  have h3 := thread_plain (h := Scenario.change bareG) CScenario.plain_ast s.scenarios (threadOpt CBackground.ast s.background n).2
  have h4 := thread_plain (h := RuleNode.change bareG) CRule.plain_ast s.rules (thread CScenario.ast s.scenarios (threadOpt CBackground.ast s.background n).2).2
  have h2 := tags_change s.tags (thread CRule.ast s.rules (thread CScenario.ast s.scenarios (threadOpt CBackground.ast s.background n).2).2).2
  have c1 : ∀ o : Option Background, (o.toList.map FeatureChild.background).map (FeatureChild.change bareG) = (o.map (Background.change bareG)).toList.map FeatureChild.background := by
    intro o; cases o <;> rfl
  have c2 : ∀ o : List Scenario, (o.map FeatureChild.scenario).map (FeatureChild.change bareG) = (o.map (Scenario.change bareG)).map FeatureChild.scenario := by
    intro o; simp only [List.map_map]; rfl
  have c3 : ∀ o : List RuleNode, (o.map FeatureChild.rule).map (FeatureChild.change bareG) = (o.map (RuleNode.change bareG)).map FeatureChild.rule := by
    intro o; simp only [List.map_map]; rfl
  simp only [CFeature.plain, CFeature.ast, Feature.change, h1.1, h3.1, h4.1, h2.1, h2.2, true_and, List.map_append, c1, c2, c3, h1.2, h3.2, h4.2]
  rfl

theorem CDoc.plain_ast (d : CDoc) (cm cm' : List Comment) (n : Nat) :
    (d.plain.ast cm n).1.feature.map Feature.bare = (d.ast cm' n).1.feature.map Feature.bare :=
  (threadOpt_plain (h := Feature.change bareG) CFeature.plain_ast d.feature n).2

/-- Documents with the same essence differ only in places and descriptions. -/
theorem bare_of_toks {d d' : CDoc} (h : d.Ok) (h' : d'.Ok) (ht : (scan false d.toks).map Token.erase = (scan false d'.toks).map Token.erase)
    (cm cm' : List Comment) (n : Nat) : (d.ast cm n).1.feature.map Feature.bare = (d'.ast cm' n).1.feature.map Feature.bare := by
  have : d.plain = d'.plain := doc_inj (CDoc.plain_ok h) (CDoc.plain_ok h') (by rw [CDoc.plain_toks h, CDoc.plain_toks h', ht])
  rw [← CDoc.plain_ast d cm, ← CDoc.plain_ast d' cm, this]

end Cst

/-! ### Tables -/

theorem rowChain_weaken {ts : List Token} {n : Nat} (h : RowChain (some n) ts) : RowChain none ts := by
  induction ts with
  | nil => trivial
  | cons t ts ih =>
    unfold RowChain at h ⊢
    split
    · rename_i ht; rw [if_pos ht] at h; exact ⟨by simp, h.2⟩
    · rename_i ht
      rw [if_neg ht] at h
      split
      · rename_i hc; rw [if_pos hc] at h; exact h
      · rename_i hc; rw [if_neg hc] at h; exact ih h

theorem rowChain_scan {ts : List Token} : ∀ {o : Bool} {w : Option Nat}, RowChain w ((scan o ts).map Token.erase) → RowChain w ts := by
  induction ts with
  | nil => intro o w h; trivial
  | cons t ts ih =>
    intro o w h
    have keep : ∀ o', RowChain w (t.erase :: (scan o' ts).map Token.erase) → RowChain w (t :: ts) := by
      intro o' h
      unfold RowChain at h ⊢
      have e1 : t.erase.type = t.type := rfl
      have e2 : t.erase.isCore = t.isCore := rfl
      have e3 : t.erase.items = t.items := rfl
      split
      · rename_i ht
        rw [if_pos (by rw [e1]; exact ht), e3] at h
        exact ⟨h.1, ih h.2⟩
      · rename_i ht
        rw [if_neg (by rw [e1]; exact ht)] at h
        split
        · rename_i hc; rw [if_pos (by rw [e2]; exact hc)] at h; exact ih h
        · rename_i hc; rw [if_neg (by rw [e2]; exact hc)] at h; exact ih h
    unfold scan at h
    split at h
    · exact keep _ (by simpa using h)
    · split at h
      · rename_i hk
        have h' := ih h
        unfold RowChain
        rw [if_neg (by rw [hk.1]; simp), if_pos (by rw [isCore_kind hk.1]; rfl)]
        cases w with
        | none => exact h'
        | some n => exact rowChain_weaken h'
      · exact keep _ (by simpa using h)

end Gherkin
