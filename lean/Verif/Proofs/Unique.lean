import Verif.Spec.Cst

/-! A syntax tree is determined by its tokens. -/

namespace Gherkin

open Cst

/-- The kind of the first token that is not a tag line. -/
def lead : List Token → Option Kind
  | [] => none
  | t :: ts => if t.type = some .tagLine then lead ts else t.type

theorem lead_tags {ts r : List Token} (h : TagsOk ts) : lead (ts ++ r) = lead r := by
  induction ts with
  | nil => rfl
  | cons t ts ih =>
    rw [List.cons_append, lead, if_pos (h t (by simp))]
    exact ih fun x hx => h x (by simp [hx])

theorem lead_cons {t : Token} {ts : List Token} {k : Kind} (h : t.type = some k) (hk : k ≠ .tagLine) : lead (t :: ts) = some k := by
  rw [lead, if_neg (by rw [h]; simpa using hk), h]

/-- The tokens do not go on with one of these kinds. -/
def Ends (ks : List Kind) (r : List Token) : Prop := ∀ k ∈ ks, lead r ≠ some k

theorem Ends.mono {ks ks' : List Kind} {r : List Token} (h : Ends ks r) (hs : ∀ k ∈ ks', k ∈ ks) : Ends ks' r := fun k hk => h k (hs k hk)

theorem Ends.head {ks : List Kind} {r : List Token} (h : Ends ks r) {k : Kind} (hk : k ∈ ks) (ht : k ≠ .tagLine) :
    ∀ t ∈ r.head?, t.type ≠ some k := by
  intro t htr hty
  cases r with
  | nil => simp at htr
  | cons x xs =>
    simp at htr
    subst htr
    exact h k hk (lead_cons hty ht)

theorem Ends.of_lead {ks : List Kind} {r : List Token} {k : Kind} (h : lead r = some k) (hk : k ∉ ks) : Ends ks r := by
  intro k' hk' h'
  rw [h] at h'
  simp at h'
  exact hk (h' ▸ hk')

theorem split_unique {k : Kind} : ∀ {xs ys r1 r2 : List Token}, (∀ t ∈ xs, t.type = some k) → (∀ t ∈ ys, t.type = some k) →
    (∀ t ∈ r1.head?, t.type ≠ some k) → (∀ t ∈ r2.head?, t.type ≠ some k) → xs ++ r1 = ys ++ r2 → xs = ys ∧ r1 = r2 := by
  intro xs
  induction xs with
  | nil =>
    intro ys r1 r2 _ hy h1 h2 h
    cases ys with
    | nil => exact ⟨rfl, h⟩
    | cons y ys =>
      simp at h
      subst h
      exact absurd (hy y (by simp)) (h1 y (by simp))
  | cons x xs ih =>
    intro ys r1 r2 hx hy h1 h2 h
    cases ys with
    | nil =>
      simp at h
      subst h
      exact absurd (hx x (by simp)) (h2 x (by simp))
    | cons y ys =>
      simp only [List.cons_append, List.cons.injEq] at h
      obtain ⟨rfl, h⟩ := h
      obtain ⟨rfl, rfl⟩ := ih (fun t ht => hx t (by simp [ht])) (fun t ht => hy t (by simp [ht])) h1 h2 h
      exact ⟨rfl, rfl⟩

theorem arg_inj {a b : Arg} (ha : a.Ok) (hb : b.Ok) {r1 r2 : List Token} (h1 : Ends [.tableRow, .docStringSeparator] r1)
    (h2 : Ends [.tableRow, .docStringSeparator] r2) (h : a.toks ++ r1 = b.toks ++ r2) : a = b ∧ r1 = r2 := by
  have e1 := h1.head (k := .tableRow) (by simp) (by simp)
  have e2 := h2.head (k := .tableRow) (by simp) (by simp)
  have f1 := h1.head (k := .docStringSeparator) (by simp) (by simp)
  have f2 := h2.head (k := .docStringSeparator) (by simp) (by simp)
  cases a with
  | none =>
    cases b with
    | none => exact ⟨rfl, h⟩
    | table r rs =>
      simp only [Arg.toks, List.nil_append, List.cons_append] at h
      subst h
      exact absurd (hb.1 r (by simp)) (e1 r (by simp))
    | doc o ls c =>
      simp only [Arg.toks, List.nil_append, List.cons_append] at h
      subst h
      exact absurd hb.1 (f1 o (by simp))
  | table r rs =>
    cases b with
    | none =>
      simp only [Arg.toks, List.nil_append, List.cons_append] at h
      subst h
      exact absurd (ha.1 r (by simp)) (e2 r (by simp))
    | table r' rs' =>
      obtain ⟨h3, h4⟩ := split_unique ha.1 hb.1 e1 e2 h
      simp at h3
      exact ⟨by rw [h3.1, h3.2], h4⟩
    | doc o ls c =>
      simp only [Arg.toks, List.cons_append, List.cons.injEq] at h
      have := ha.1 r (by simp)
      rw [h.1, hb.1] at this
      simp at this
  | doc o ls c =>
    cases b with
    | none =>
      simp only [Arg.toks, List.nil_append, List.cons_append] at h
      subst h
      exact absurd ha.1 (f2 o (by simp))
    | table r rs =>
      simp only [Arg.toks, List.cons_append, List.cons.injEq] at h
      have := hb.1 r (by simp)
      rw [← h.1, ha.1] at this
      simp at this
    | doc o' ls' c' =>
      simp only [Arg.toks, List.cons_append, List.cons.injEq, List.append_assoc, List.nil_append] at h
      obtain ⟨rfl, h⟩ := h
      obtain ⟨rfl, h⟩ := split_unique ha.2.2.1 hb.2.2.1 (by simp [ha.2.2.2]) (by simp [hb.2.2.2]) h
      simp at h
      exact ⟨by rw [h.1], h.2⟩

/-- Lists of parts. -/
theorem list_inj {α : Type} {f : α → List Token} {ok : α → Prop} {Good : List Token → Prop} {k : Kind}
    (hinj : ∀ {x y r1 r2}, ok x → ok y → Good r1 → Good r2 → f x ++ r1 = f y ++ r2 → x = y ∧ r1 = r2)
    (hlead : ∀ {x r}, ok x → lead (f x ++ r) = some k) (hk : ∀ {r}, lead r = some k → Good r) :
    ∀ {xs ys : List α} {r1 r2 : List Token}, (∀ x ∈ xs, ok x) → (∀ x ∈ ys, ok x) → Good r1 → Good r2 → lead r1 ≠ some k →
      lead r2 ≠ some k → xs.flatMap f ++ r1 = ys.flatMap f ++ r2 → xs = ys ∧ r1 = r2 := by
  intro xs
  have good : ∀ {zs : List α} {r : List Token}, (∀ x ∈ zs, ok x) → Good r → Good (zs.flatMap f ++ r) := by
    intro zs r hz hr
    cases zs with
    | nil => exact hr
    | cons z zs => rw [List.flatMap_cons, List.append_assoc]; exact hk (hlead (hz z (by simp)))
  induction xs with
  | nil =>
    intro ys r1 r2 _ hy _ _ h1 _ h
    cases ys with
    | nil => exact ⟨rfl, h⟩
    | cons y ys =>
      rw [List.flatMap_nil, List.nil_append, List.flatMap_cons, List.append_assoc] at h
      rw [h, hlead (hy y (by simp))] at h1
      exact absurd rfl h1
  | cons x xs ih =>
    intro ys r1 r2 hx hy g1 g2 h1 h2 h
    cases ys with
    | nil =>
      rw [List.flatMap_nil, List.nil_append, List.flatMap_cons, List.append_assoc] at h
      rw [← h, hlead (hx x (by simp))] at h2
      exact absurd rfl h2
    | cons y ys =>
      rw [List.flatMap_cons, List.append_assoc, List.flatMap_cons, List.append_assoc] at h
      obtain ⟨rfl, h'⟩ := hinj (hx x (by simp)) (hy y (by simp)) (good (fun z hz => hx z (by simp [hz])) g1)
        (good (fun z hz => hy z (by simp [hz])) g2) h
      obtain ⟨rfl, rfl⟩ := ih (ys := ys) (fun z hz => hx z (by simp [hz])) (fun z hz => hy z (by simp [hz])) g1 g2 h1 h2 h'
      exact ⟨rfl, rfl⟩

theorem lead_list {α : Type} {f : α → List Token} {ok : α → Prop} {k : Kind} (hlead : ∀ {x r}, ok x → lead (f x ++ r) = some k)
    {xs : List α} (h : ∀ x ∈ xs, ok x) (r : List Token) : lead (xs.flatMap f ++ r) = some k ∨ lead (xs.flatMap f ++ r) = lead r := by
  cases xs with
  | nil => exact .inr rfl
  | cons x xs => left; rw [List.flatMap_cons, List.append_assoc]; exact hlead (h x (by simp))

theorem Ends.list {α : Type} {f : α → List Token} {ok : α → Prop} {k : Kind} (hlead : ∀ {x r}, ok x → lead (f x ++ r) = some k)
    {xs : List α} (h : ∀ x ∈ xs, ok x) {r : List Token} {ks : List Kind} (hk : k ∉ ks) (hr : Ends ks r) : Ends ks (xs.flatMap f ++ r) := by
  rcases lead_list hlead h r with e | e
  · exact .of_lead e hk
  · intro k' hk'; rw [e]; exact hr k' hk'

theorem step_lead {s : CStep} {r : List Token} (h : s.Ok) : lead (s.toks ++ r) = some .stepLine := lead_cons h.1 (by simp)
theorem background_lead {s : CBackground} {r : List Token} (h : s.Ok) : lead (s.toks ++ r) = some .backgroundLine := lead_cons h.1 (by simp)
theorem examples_lead {s : CExamples} {r : List Token} (h : s.Ok) : lead (s.toks ++ r) = some .examplesLine := by
  rw [CExamples.toks, List.append_assoc, lead_tags h.1]; exact lead_cons h.2.1 (by simp)
theorem scenario_lead {s : CScenario} {r : List Token} (h : s.Ok) : lead (s.toks ++ r) = some .scenarioLine := by
  rw [CScenario.toks, List.append_assoc, lead_tags h.1]; exact lead_cons h.2.1 (by simp)
theorem rule_lead {s : CRule} {r : List Token} (h : s.Ok) : lead (s.toks ++ r) = some .ruleLine := by
  rw [CRule.toks, List.append_assoc, lead_tags h.1]; exact lead_cons h.2.1 (by simp)

theorem step_inj {x y : CStep} {r1 r2 : List Token} (hx : x.Ok) (hy : y.Ok) (h1 : Ends [.tableRow, .docStringSeparator] r1)
    (h2 : Ends [.tableRow, .docStringSeparator] r2) (h : x.toks ++ r1 = y.toks ++ r2) : x = y ∧ r1 = r2 := by
  cases x; cases y
  simp only [CStep.toks, List.cons_append, List.cons.injEq] at h
  obtain ⟨e1, e2⟩ := arg_inj hx.2 hy.2 h1 h2 h.2
  simp only at e1
  exact ⟨by rw [h.1, e1], e2⟩

theorem steps_inj {xs ys : List CStep} {r1 r2 : List Token} (hx : ∀ x ∈ xs, x.Ok) (hy : ∀ x ∈ ys, x.Ok)
    (h1 : Ends [.tableRow, .docStringSeparator, .stepLine] r1) (h2 : Ends [.tableRow, .docStringSeparator, .stepLine] r2)
    (h : xs.flatMap CStep.toks ++ r1 = ys.flatMap CStep.toks ++ r2) : xs = ys ∧ r1 = r2 :=
  list_inj (Good := Ends [.tableRow, .docStringSeparator]) (k := .stepLine) (ok := CStep.Ok) step_inj step_lead
    (fun h => .of_lead h (by simp)) hx hy (h1.mono (by simp)) (h2.mono (by simp)) (h1 _ (by simp)) (h2 _ (by simp)) h

theorem tags_inj {xs ys : List Token} (hx : TagsOk xs) (hy : TagsOk ys) {t t' : Token} {k k' : Kind} (ht : t.type = some k) (hk : k ≠ .tagLine)
    (ht' : t'.type = some k') (hk' : k' ≠ .tagLine) {r1 r2 : List Token} (h : xs ++ t :: r1 = ys ++ t' :: r2) : xs = ys ∧ t = t' ∧ r1 = r2 := by
  obtain ⟨h1, h2⟩ := split_unique hx hy (by simp [ht, hk]) (by simp [ht', hk']) h
  simp at h2
  exact ⟨h1, h2⟩

theorem desc_inj {xs ys : List Token} (hx : DescOk xs) (hy : DescOk ys) {r1 r2 : List Token} (h1 : Ends [.other] r1) (h2 : Ends [.other] r2)
    (h : xs ++ r1 = ys ++ r2) : xs = ys ∧ r1 = r2 :=
  split_unique hx hy (h1.head (by simp) (by simp)) (h2.head (by simp) (by simp)) h

theorem background_inj {x y : CBackground} {r1 r2 : List Token} (hx : x.Ok) (hy : y.Ok)
    (h1 : Ends [.tableRow, .docStringSeparator, .stepLine, .other] r1) (h2 : Ends [.tableRow, .docStringSeparator, .stepLine, .other] r2)
    (h : x.toks ++ r1 = y.toks ++ r2) : x = y ∧ r1 = r2 := by
  cases x; cases y
  simp only [CBackground.toks, List.cons_append, List.cons.injEq, List.append_assoc] at h
  obtain ⟨a1, a2⟩ := desc_inj hx.2.1 hy.2.1 (Ends.list step_lead hx.2.2 (by simp) (h1.mono (by simp)))
    (Ends.list step_lead hy.2.2 (by simp) (h2.mono (by simp))) h.2
  obtain ⟨a3, a4⟩ := steps_inj hx.2.2 hy.2.2 (h1.mono (by simp)) (h2.mono (by simp)) a2
  simp only at a1 a3
  exact ⟨by rw [h.1, a1, a3], a4⟩

theorem rows_ends {ts r : List Token} (h : ∀ t ∈ ts, t.type = some .tableRow) (hr : Ends [.other] r) : Ends [.other] (ts ++ r) := by
  cases ts with
  | nil => exact hr
  | cons t ts => exact .of_lead (lead_cons (h t (by simp)) (by simp)) (by simp)

theorem examples_inj {x y : CExamples} {r1 r2 : List Token} (hx : x.Ok) (hy : y.Ok)
    (h1 : Ends [.tableRow, .other] r1) (h2 : Ends [.tableRow, .other] r2)
    (h : x.toks ++ r1 = y.toks ++ r2) : x = y ∧ r1 = r2 := by
  cases x; cases y
  simp only [CExamples.toks, List.cons_append, List.append_assoc] at h
  obtain ⟨a1, a2, h⟩ := tags_inj hx.1 hy.1 hx.2.1 (by simp) hy.2.1 (by simp) h
  obtain ⟨a3, h⟩ := desc_inj hx.2.2.1 hy.2.2.1 (rows_ends hx.2.2.2.1 (h1.mono (by simp))) (rows_ends hy.2.2.2.1 (h2.mono (by simp))) h
  obtain ⟨a4, h⟩ := split_unique hx.2.2.2.1 hy.2.2.2.1 (h1.head (by simp) (by simp)) (h2.head (by simp) (by simp)) h
  simp only at a1 a2 a3 a4
  exact ⟨by rw [a1, a2, a3, a4], h⟩

theorem scenario_inj {x y : CScenario} {r1 r2 : List Token} (hx : x.Ok) (hy : y.Ok)
    (h1 : Ends [.tableRow, .docStringSeparator, .stepLine, .other, .examplesLine] r1)
    (h2 : Ends [.tableRow, .docStringSeparator, .stepLine, .other, .examplesLine] r2)
    (h : x.toks ++ r1 = y.toks ++ r2) : x = y ∧ r1 = r2 := by
  cases x; cases y
  simp only [CScenario.toks, List.cons_append, List.append_assoc] at h
  obtain ⟨a1, a2, h⟩ := tags_inj hx.1 hy.1 hx.2.1 (by simp) hy.2.1 (by simp) h
  obtain ⟨a3, h⟩ := desc_inj hx.2.2.1 hy.2.2.1
    (Ends.list step_lead hx.2.2.2.1 (by simp) (Ends.list examples_lead hx.2.2.2.2 (by simp) (h1.mono (by simp))))
    (Ends.list step_lead hy.2.2.2.1 (by simp) (Ends.list examples_lead hy.2.2.2.2 (by simp) (h2.mono (by simp)))) h
  obtain ⟨a4, h⟩ := steps_inj hx.2.2.2.1 hy.2.2.2.1 (Ends.list examples_lead hx.2.2.2.2 (by simp) (h1.mono (by simp)))
    (Ends.list examples_lead hy.2.2.2.2 (by simp) (h2.mono (by simp))) h
  obtain ⟨a5, h⟩ := list_inj (Good := Ends [.tableRow, .other]) (k := .examplesLine) (ok := CExamples.Ok) examples_inj examples_lead
    (fun h => .of_lead h (by simp)) hx.2.2.2.2 hy.2.2.2.2 (h1.mono (by simp)) (h2.mono (by simp)) (h1 _ (by simp)) (h2 _ (by simp)) h
  simp only at a1 a2 a3 a4 a5
  exact ⟨by rw [a1, a2, a3, a4, a5], h⟩

theorem scenarios_inj {xs ys : List CScenario} {r1 r2 : List Token} (hx : ∀ x ∈ xs, x.Ok) (hy : ∀ x ∈ ys, x.Ok)
    (h1 : Ends [.tableRow, .docStringSeparator, .stepLine, .other, .examplesLine, .scenarioLine] r1)
    (h2 : Ends [.tableRow, .docStringSeparator, .stepLine, .other, .examplesLine, .scenarioLine] r2)
    (h : xs.flatMap CScenario.toks ++ r1 = ys.flatMap CScenario.toks ++ r2) : xs = ys ∧ r1 = r2 :=
  list_inj (Good := Ends [.tableRow, .docStringSeparator, .stepLine, .other, .examplesLine]) (k := .scenarioLine) (ok := CScenario.Ok)
    scenario_inj scenario_lead (fun h => .of_lead h (by simp)) hx hy (h1.mono (by simp)) (h2.mono (by simp)) (h1 _ (by simp))
    (h2 _ (by simp)) h

theorem backgrounds_inj {x y : Option CBackground} {r1 r2 : List Token} (hx : ∀ b ∈ x, b.Ok) (hy : ∀ b ∈ y, b.Ok)
    (h1 : Ends [.tableRow, .docStringSeparator, .stepLine, .other, .backgroundLine] r1)
    (h2 : Ends [.tableRow, .docStringSeparator, .stepLine, .other, .backgroundLine] r2)
    (h : x.toList.flatMap CBackground.toks ++ r1 = y.toList.flatMap CBackground.toks ++ r2) : x = y ∧ r1 = r2 := by
  obtain ⟨h3, h4⟩ := list_inj (Good := Ends [.tableRow, .docStringSeparator, .stepLine, .other]) (k := .backgroundLine) (ok := CBackground.Ok)
    background_inj background_lead (fun h => .of_lead h (by simp)) (by simpa using hx) (by simpa using hy) (h1.mono (by simp)) (h2.mono (by simp))
    (h1 _ (by simp)) (h2 _ (by simp)) h
  refine ⟨?_, h4⟩
  cases x <;> cases y <;> simp_all

theorem rule_inj {x y : CRule} {r1 r2 : List Token} (hx : x.Ok) (hy : y.Ok)
    (h1 : Ends [.tableRow, .docStringSeparator, .stepLine, .other, .examplesLine, .scenarioLine, .backgroundLine] r1)
    (h2 : Ends [.tableRow, .docStringSeparator, .stepLine, .other, .examplesLine, .scenarioLine, .backgroundLine] r2)
    (h : x.toks ++ r1 = y.toks ++ r2) : x = y ∧ r1 = r2 := by
  cases x; cases y
  simp only [CRule.toks, List.cons_append, List.append_assoc] at h
  obtain ⟨a1, a2, h⟩ := tags_inj hx.1 hy.1 hx.2.1 (by simp) hy.2.1 (by simp) h
  obtain ⟨a3, h⟩ := desc_inj hx.2.2.1 hy.2.2.1
    (Ends.list background_lead (by simpa using hx.2.2.2.1) (by simp) (Ends.list scenario_lead hx.2.2.2.2 (by simp) (h1.mono (by simp))))
    (Ends.list background_lead (by simpa using hy.2.2.2.1) (by simp) (Ends.list scenario_lead hy.2.2.2.2 (by simp) (h2.mono (by simp)))) h
  obtain ⟨a4, h⟩ := backgrounds_inj hx.2.2.2.1 hy.2.2.2.1 (Ends.list scenario_lead hx.2.2.2.2 (by simp) (h1.mono (by simp)))
    (Ends.list scenario_lead hy.2.2.2.2 (by simp) (h2.mono (by simp))) h
  obtain ⟨a5, h⟩ := scenarios_inj hx.2.2.2.2 hy.2.2.2.2 (h1.mono (by simp)) (h2.mono (by simp)) h
  simp only at a1 a2 a3 a4 a5
  exact ⟨by rw [a1, a2, a3, a4, a5], h⟩

theorem feature_inj {x y : CFeature} {e1 e2 : Token} (hx : x.Ok) (hy : y.Ok) (h1 : e1.type = some .eof) (h2 : e2.type = some .eof)
    (h : x.toks ++ [e1] = y.toks ++ [e2]) : x = y ∧ e1 = e2 := by
  have k1 : lead [e1] = some .eof := lead_cons h1 (by simp)
  have k2 : lead [e2] = some .eof := lead_cons h2 (by simp)
  have g1 : ∀ {ks : List Kind}, .eof ∉ ks → Ends ks [e1] := fun h => .of_lead k1 h
  have g2 : ∀ {ks : List Kind}, .eof ∉ ks → Ends ks [e2] := fun h => .of_lead k2 h
  obtain ⟨lx, tx, nx, dx, bx, sx, rx⟩ := x
  obtain ⟨ly, ty, ny, dy, by', sy, ry⟩ := y
  obtain ⟨x1, x2, x3, x4, x5, x6, x7⟩ := hx
  obtain ⟨y1, y2, y3, y4, y5, y6, y7⟩ := hy
  simp only [] at x1 x2 x3 x4 x5 x6 x7 y1 y2 y3 y4 y5 y6 y7
  simp only [CFeature.toks, List.cons_append, List.append_assoc] at h
  have hn : ∀ {ts : List Token} {n : Token} {r : List Token}, TagsOk ts → n.type = some .featureLine →
      ∀ t ∈ (ts ++ n :: r).head?, t.type ≠ some .language := by
    intro ts n r h1 h2 t ht
    cases ts with
    | nil => simp at ht; subst ht; rw [h2]; simp
    | cons a as => simp at ht; subst ht; rw [h1 a (by simp)]; simp
  obtain ⟨a0, h⟩ := split_unique (xs := lx.toList) (ys := ly.toList) (k := .language) (by simpa using x1) (by simpa using y1) (hn x2 x3) (hn y2 y3) h
  obtain ⟨a1, a2, h⟩ := tags_inj x2 y2 x3 (by simp) y3 (by simp) h
  have rl : ∀ {ks : List Kind} {zs : List CRule} {r : List Token}, (∀ z ∈ zs, z.Ok) → .ruleLine ∉ ks → Ends ks r →
      Ends ks (zs.flatMap CRule.toks ++ r) := fun h1 h2 h3 => Ends.list rule_lead h1 h2 h3
  obtain ⟨a3, h⟩ := desc_inj x4 y4
    (Ends.list background_lead (by simpa using x5) (by simp) (Ends.list scenario_lead x6 (by simp) (rl x7 (by simp) (g1 (by simp)))))
    (Ends.list background_lead (by simpa using y5) (by simp) (Ends.list scenario_lead y6 (by simp) (rl y7 (by simp) (g2 (by simp))))) h
  obtain ⟨a4, h⟩ := backgrounds_inj x5 y5 (Ends.list scenario_lead x6 (by simp) (rl x7 (by simp) (g1 (by simp))))
    (Ends.list scenario_lead y6 (by simp) (rl y7 (by simp) (g2 (by simp)))) h
  obtain ⟨a5, h⟩ := scenarios_inj x6 y6 (rl x7 (by simp) (g1 (by simp))) (rl y7 (by simp) (g2 (by simp))) h
  obtain ⟨a6, h⟩ := list_inj (Good := Ends [.tableRow, .docStringSeparator, .stepLine, .other, .examplesLine, .scenarioLine, .backgroundLine])
    (k := .ruleLine) (ok := CRule.Ok) rule_inj rule_lead (fun h => .of_lead h (by simp)) x7 y7 (g1 (by simp)) (g2 (by simp))
    (by rw [k1]; simp) (by rw [k2]; simp) h
  have a0' : lx = ly := by cases lx <;> cases ly <;> simp_all
  simp at h
  exact ⟨by rw [a0', a1, a2, a3, a4, a5, a6], h⟩

/-- A syntax tree is determined by its tokens. -/
theorem doc_inj {x y : CDoc} (hx : x.Ok) (hy : y.Ok) (h : x.toks = y.toks) : x = y := by
  have ne : ∀ {f : CFeature} {e : Token}, f.Ok → e.type = some .eof → f.toks ≠ [] ∧ ∀ t ∈ f.toks.head?, t.type ≠ some .eof := by
    intro f e hf he
    obtain ⟨x1, x2, x3, x4, x5, x6, x7⟩ := hf
    cases hl : f.language with
    | some l =>
      refine ⟨by simp [CFeature.toks, hl], ?_⟩
      have := x1 l (by simp [hl])
      simp [CFeature.toks, hl, this]
    | none =>
      cases ht : f.tags with
      | cons t ts =>
        refine ⟨by simp [CFeature.toks, hl, ht], ?_⟩
        have := x2 t (by simp [ht])
        simp [CFeature.toks, hl, ht, this]
      | nil => refine ⟨by simp [CFeature.toks, hl, ht], by simp [CFeature.toks, hl, ht, x3]⟩
  obtain ⟨fx, ex⟩ := x
  obtain ⟨fy, ey⟩ := y
  have h1 := hx.2; have h2 := hy.2
  simp only at h1 h2
  cases fx with
  | none =>
    cases fy with
    | none => simp [CDoc.toks] at h; rw [h]
    | some f =>
      obtain ⟨n1, n2⟩ := ne (hy.1 f rfl) h2
      simp only [CDoc.toks, Option.toList, List.flatMap_nil, List.nil_append, List.flatMap_cons, List.append_nil] at h
      cases ht : f.toks with
      | nil => exact absurd ht n1
      | cons t ts => rw [ht] at h; simp at h
  | some f =>
    cases fy with
    | none =>
      obtain ⟨n1, n2⟩ := ne (hx.1 f rfl) h1
      simp only [CDoc.toks, Option.toList, List.flatMap_nil, List.nil_append, List.flatMap_cons, List.append_nil] at h
      cases ht : f.toks with
      | nil => exact absurd ht n1
      | cons t ts => rw [ht] at h; simp at h
    | some g =>
      simp only [CDoc.toks, Option.toList, List.flatMap_nil, List.flatMap_cons, List.append_nil] at h
      obtain ⟨e1, e2⟩ := feature_inj (hx.1 f rfl) (hy.1 g rfl) h1 h2 h
      rw [e1, e2]

end Gherkin
