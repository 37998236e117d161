import Verif.Proofs.DocStrings
import Verif.Proofs.DocLine

/-! What follows a step among the tokens, and in the lines of the text. -/

namespace Gherkin

open Cst

/-- The list does not begin with a table row, a doc string separator or an `Other` line. -/
def TH (ts : List Token) : Prop := ∀ t ∈ ts.head?, t.type ≠ some .other ∧ t.type ≠ some .tableRow ∧ t.type ≠ some .docStringSeparator

theorem TH.nil : TH [] := by simp [TH]
theorem TH.append {a b : List Token} (ha : TH a) (hb : TH b) : TH (a ++ b) := by
  cases a with
  | nil => simpa using hb
  | cons x xs => intro t ht; exact ha t (by simpa using ht)
theorem TH.flatMap {α : Type} {f : α → List Token} {l : List α} (h : ∀ x ∈ l, TH (f x)) : TH (l.flatMap f) := by
  induction l with
  | nil => simp [TH]
  | cons x xs ih => rw [List.flatMap_cons]; exact (h x (by simp)).append (ih fun y hy => h y (by simp [hy]))
theorem TH.tags {ts : List Token} (h : TagsOk ts) : TH ts := by
  intro t ht; rw [h t (List.mem_of_mem_head? ht)]; simp
theorem TH.cons {t : Token} {ts : List Token} {k : Kind} (h : t.type = some k)
    (hk : k ≠ .other ∧ k ≠ .tableRow ∧ k ≠ .docStringSeparator := by simp) : TH (t :: ts) := by
  intro x hx; simp at hx; subst hx; rw [h]; simpa using hk

theorem step_th {s : CStep} (h : s.Ok) : TH s.toks := .cons h.1
theorem background_th {b : CBackground} (h : b.Ok) : TH b.toks := .cons h.1
theorem examples_th {e : CExamples} (h : e.Ok) : TH e.toks := (TH.tags h.1).append (.cons h.2.1)
theorem scenario_th {s : CScenario} (h : s.Ok) : TH s.toks := (TH.tags h.1).append (.cons h.2.1)
theorem rule_th {r : CRule} (h : r.Ok) : TH r.toks := (TH.tags h.1).append (.cons h.2.1)

/-- `xs` stands in `ts`, and ends there. -/
def At (ts xs : List Token) : Prop := ∃ A B, ts = A ++ (xs ++ B) ∧ TH B

theorem At.trans {xs ys zs : List Token} (h1 : At ys xs) (h2 : At zs ys) : At zs xs := by
  obtain ⟨A, B, rfl, hB⟩ := h1
  obtain ⟨A', B', rfl, hB'⟩ := h2
  exact ⟨A' ++ A, B ++ B', by simp, hB.append hB'⟩

theorem At.flatMap {α : Type} {f : α → List Token} {l : List α} (hn : ∀ x ∈ l, TH (f x)) {x : α} (hx : x ∈ l) : At (l.flatMap f) (f x) := by
  obtain ⟨a, b, rfl⟩ := List.append_of_mem hx
  exact ⟨a.flatMap f, b.flatMap f, by simp, TH.flatMap fun y hy => hn y (by simp [hy])⟩

theorem feature_ok {d : CDoc} (hd : d.Ok) {f : CFeature} (hf : d.feature = some f) : f.Ok := hd.1 f (by simpa using hf)

theorem feature_at {d : CDoc} (hd : d.Ok) {f : CFeature} (hf : d.feature = some f) : At d.toks f.toks :=
  ⟨[], [d.eof], by simp [CDoc.toks, hf], .cons hd.2⟩

theorem rule_at {f : CFeature} (h : f.Ok) {r : CRule} (hr : r ∈ f.rules) : At f.toks r.toks := by
  refine (At.flatMap (f := CRule.toks) (fun x hx => rule_th (h.2.2.2.2.2.2 x hx)) hr).trans ?_
  exact ⟨f.language.toList ++ f.tags ++ f.line :: (f.desc ++ f.background.toList.flatMap CBackground.toks ++
        f.scenarios.flatMap CScenario.toks), [], by simp [CFeature.toks], .nil⟩

theorem background_at {d : CDoc} (hd : d.Ok) {b : CBackground} (hb : b ∈ d.backgrounds) : At d.toks b.toks := by
  simp only [CDoc.backgrounds, List.mem_flatMap, Option.mem_toList, List.mem_append] at hb
  obtain ⟨f, hf, hb⟩ := hb
  have h := feature_ok hd hf
  refine At.trans ?_ (feature_at hd hf)
  rcases hb with hb | ⟨r, hr, hb⟩
  · refine (At.flatMap (f := CBackground.toks) (l := f.background.toList) (fun x hx => background_th (h.2.2.2.2.1 x (by simpa using hx))) (by simpa using hb)).trans ?_
    exact ⟨f.language.toList ++ f.tags ++ f.line :: f.desc, f.scenarios.flatMap CScenario.toks ++ f.rules.flatMap CRule.toks,
      by simp only [CFeature.toks, List.append_assoc, List.cons_append],
      (TH.flatMap fun x hx => scenario_th (h.2.2.2.2.2.1 x hx)).append (TH.flatMap fun x hx => rule_th (h.2.2.2.2.2.2 x hx))⟩
  · refine At.trans ?_ (rule_at h hr)
    have hr' := h.2.2.2.2.2.2 r hr
    refine (At.flatMap (f := CBackground.toks) (l := r.background.toList) (fun x hx => background_th (hr'.2.2.2.1 x (by simpa using hx))) (by simpa using hb)).trans ?_
    exact ⟨r.tags ++ r.line :: r.desc, r.scenarios.flatMap CScenario.toks, by simp only [CRule.toks, List.append_assoc, List.cons_append],
      TH.flatMap fun x hx => scenario_th (hr'.2.2.2.2 x hx)⟩

theorem scenario_at {d : CDoc} (hd : d.Ok) {b : CScenario} (hb : b ∈ d.scenarios) : At d.toks b.toks := by
  simp only [CDoc.scenarios, List.mem_flatMap, Option.mem_toList, List.mem_append] at hb
  obtain ⟨f, hf, hb⟩ := hb
  have h := feature_ok hd hf
  refine At.trans ?_ (feature_at hd hf)
  rcases hb with hb | ⟨r, hr, hb⟩
  · refine (At.flatMap (f := CScenario.toks) (fun x hx => scenario_th (h.2.2.2.2.2.1 x hx)) hb).trans ?_
    exact ⟨f.language.toList ++ f.tags ++ f.line :: (f.desc ++ f.background.toList.flatMap CBackground.toks), f.rules.flatMap CRule.toks,
      by simp only [CFeature.toks, List.append_assoc, List.cons_append], TH.flatMap fun x hx => rule_th (h.2.2.2.2.2.2 x hx)⟩
  · refine At.trans ?_ (rule_at h hr)
    have hr' := h.2.2.2.2.2.2 r hr
    refine (At.flatMap (f := CScenario.toks) (fun x hx => scenario_th (hr'.2.2.2.2 x hx)) hb).trans ?_
    exact ⟨r.tags ++ r.line :: (r.desc ++ r.background.toList.flatMap CBackground.toks), [], by simp [CRule.toks], .nil⟩

theorem step_at {d : CDoc} (hd : d.Ok) {s : CStep} (h : s ∈ d.steps) : At d.toks s.toks := by
  simp only [CDoc.steps, List.mem_append, List.mem_flatMap] at h
  rcases h with ⟨b, hb, hs⟩ | ⟨b, hb, hs⟩
  · refine At.trans ?_ (background_at hd hb)
    exact (At.flatMap (f := CStep.toks) (fun x hx => step_th ((backgrounds_ok hd b hb).2.2 x hx)) hs).trans
      ⟨b.line :: b.desc, [], by simp [CBackground.toks], .nil⟩
  · refine At.trans ?_ (scenario_at hd hb)
    have hok := scenarios_ok hd b hb
    exact (At.flatMap (f := CStep.toks) (fun x hx => step_th (hok.2.2.2.1 x hx)) hs).trans
      ⟨b.tags ++ b.line :: b.desc, b.examples.flatMap CExamples.toks, by simp only [CScenario.toks, List.append_assoc, List.cons_append],
       TH.flatMap fun x hx => examples_th (hok.2.2.2.2 x hx)⟩

namespace Auto

/-- The states just after a step line. -/
def stepStates : List Nat := [9, 15, 29, 35]

/-- After a step: blank lines and comments stay, a doc string separator opens one; a blank line or a comment is recognised as such
before anything else could be, and so is a separator. -/
def rowOk6 (q : Nat) : Bool :=
  match table q with
  | some row => row.trans.all fun tr => (tr.kind != .stepLine || stepStates.contains tr.target) &&
     (!stepStates.contains q || ((tr.kind != .comment && tr.kind != .empty) || tr.target == q)) &&
     (!stepStates.contains q || tr.kind != .language) && (!stepStates.contains q || tr.kind != .other) &&
     (!stepStates.contains q || row.trans.any (·.kind == .comment)) &&
     (!stepStates.contains q || row.trans.any (·.kind == .empty))
  | none => true

theorem rows_ok6 : ∀ q ∈ allStates, rowOk6 q = true := by decide +kernel

end Auto

end Gherkin
