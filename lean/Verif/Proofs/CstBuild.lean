import Verif.Proofs.Shape

/-! The AST builder computes the abstract syntax of the typed syntax tree (`Spec/Cst.lean`). -/

namespace Gherkin

open AstNode Cst

/-! ### Numbering -/

theorem thread_append {α β : Type} (f : α → Nat → β × Nat) (a b : List α) (n : Nat) :
    thread f (a ++ b) n = ((thread f a n).1 ++ (thread f b (thread f a n).2).1, (thread f b (thread f a n).2).2) := by
  induction a generalizing n with
  | nil => rfl
  | cons x a ih => simp [thread, ih]

theorem makeRows_thread (ts : List Token) (n : Nat) :
    (AstB.makeRows ts n, n + ts.length) = thread Cst.row ts n := by
  induction ts generalizing n with
  | nil => rfl
  | cons t ts ih =>
    have h := ih (n + 1)
    have h1 := congrArg Prod.fst h
    have h2 := congrArg Prod.snd h
    simp only at h1 h2
    have h0 : thread Cst.row (t :: ts) n = ((Cst.row t n).1 :: (thread Cst.row ts (n + 1)).1, (thread Cst.row ts (n + 1)).2) := rfl
    rw [h0, ← h1, ← h2]
    simp [AstB.makeRows, List.zipIdx_cons, Cst.row, AstB.getCells, AstB.locAt, itemLoc, Nat.add_assoc, Nat.add_comm, Nat.add_left_comm]

theorem raggedRow_rect {ts : List Token} {n : Nat} (h : AstB.raggedRow (AstB.makeRows ts n) = none) : Rect ts := by
  cases ts with
  | nil => trivial
  | cons t ts =>
    have h0 : AstB.makeRows (t :: ts) n = ⟨n, t.loc, AstB.getCells t⟩ :: AstB.makeRows ts (n + 1) := by
      simp [AstB.makeRows, List.zipIdx_cons]
    rw [h0] at h
    simp only [AstB.raggedRow, List.find?_eq_none] at h
    intro x hx
    have : ∃ r ∈ AstB.makeRows ts (n + 1), r.cells = AstB.getCells x := by
      obtain ⟨i, hi, rfl⟩ := List.mem_iff_getElem.1 hx
      refine ⟨(AstB.makeRows ts (n + 1))[i]'(by simpa [AstB.makeRows] using hi), List.getElem_mem _, ?_⟩
      simp [AstB.makeRows]
    obtain ⟨r, hr, hrc⟩ := this
    have := h r (by simp [hr])
    simp [hrc, AstB.getCells] at this
    exact this

theorem rect_ragged {ts : List Token} (n : Nat) (h : Rect ts) : AstB.raggedRow (AstB.makeRows ts n) = none := by
  cases ts with
  | nil => rfl
  | cons t ts =>
    have h0 : AstB.makeRows (t :: ts) n = ⟨n, t.loc, AstB.getCells t⟩ :: AstB.makeRows ts (n + 1) := by
      simp [AstB.makeRows, List.zipIdx_cons]
    rw [h0]
    simp only [AstB.raggedRow, List.find?_eq_none]
    intro r hr
    simp only [List.mem_cons] at hr
    rcases hr with rfl | hr
    · simp
    · simp [AstB.makeRows] at hr
      obtain ⟨x, i, hx, rfl⟩ := hr
      have := h x (List.fst_mem_of_mem_zipIdx hx)
      simp [AstB.getCells, this]

theorem tags_zip (ts : List Token) (n : Nat) :
    (((ts.flatMap fun t => t.items.map fun i => (t, i)).zipIdx n).map fun ((t, i), id) =>
        ({ id := id, loc := AstB.locAt t i.column, name := i.text } : Tag),
      n + (ts.flatMap fun t => t.items.map fun i => (t, i)).length) = Cst.tags ts n := by
  have line : ∀ (t : Token) (is : List MItem) (n : Nat),
      (((is.map fun i => (t, i)).zipIdx n).map fun ((t, i), id) =>
        ({ id := id, loc := AstB.locAt t i.column, name := i.text } : Tag), n + is.length) =
      thread (fun (i : MItem) n => ({ id := n, loc := itemLoc t i.column, name := i.text }, n + 1)) is n := by
    intro t is
    induction is with
    | nil => intro n; rfl
    | cons i is ih =>
      intro n
      have h := ih (n + 1)
      have h1 := congrArg Prod.fst h
      have h2 := congrArg Prod.snd h
      simp only at h1 h2
      simp only [thread]
      rw [← h1, ← h2]
      simp [List.zipIdx_cons, AstB.locAt, itemLoc, Nat.add_assoc, Nat.add_comm, Nat.add_left_comm]
  induction ts generalizing n with
  | nil => rfl
  | cons t ts ih =>
    have hl := line t t.items n
    have hl1 := congrArg Prod.fst hl
    have hl2 := congrArg Prod.snd hl
    have h := ih (n + t.items.length)
    have h1 := congrArg Prod.fst h
    have h2 := congrArg Prod.snd h
    have e : Cst.tags (t :: ts) n = ((lineTags t n).1 ++ (Cst.tags ts (lineTags t n).2).1, (Cst.tags ts (lineTags t n).2).2) := by
      simp [Cst.tags, thread]
    have e2 : lineTags t n = (((t.items.map fun i => (t, i)).zipIdx n).map fun ((t, i), id) =>
        ({ id := id, loc := AstB.locAt t i.column, name := i.text } : Tag), n + t.items.length) := by
      rw [hl]; rfl
    rw [e, e2]
    simp only
    rw [← h]
    simp [List.zipIdx_append, Nat.add_assoc]

/-! ### Looking up items -/

theorem getItems_tok {t : Token} {k' : Kind} (h : t.type = some k') (k : Key) :
    getItems [.tok t] k = if k = .t k' then [.tok t] else [] := by
  by_cases hk : k = .t k'
  · subst hk; simp [getItems, Item.key, h]
  · have : ¬ Key.t k' = k := fun h => hk h.symm
    simp [getItems, Item.key, h, hk, this]

theorem getItems_toks {ts : List Token} {k' : Kind} (h : ∀ t ∈ ts, t.type = some k') (k : Key) :
    getItems (ts.map .tok) k = if k = .t k' then ts.map .tok else [] := by
  have hall : ∀ i ∈ ts.map Item.tok, i.key = .t k' := by
    intro i hi; simp at hi; obtain ⟨t, ht, rfl⟩ := hi; simp [Item.key, h t ht]
  split
  · rename_i hk; subst hk; exact getItems_all hall
  · rename_i hk; exact getItems_other hall (Ne.symm hk)

theorem getItems_map {α : Type} (mk : α → Item) (k' : Key) (hk' : ∀ a, (mk a).key = k') (l : List α) (k : Key) :
    getItems (l.map mk) k = if k = k' then l.map mk else [] := by
  have hall : ∀ i ∈ l.map mk, i.key = k' := by
    intro i hi; simp at hi; obtain ⟨a, _, rfl⟩ := hi; exact hk' a
  split
  · rename_i hk; subst hk; exact getItems_all hall
  · rename_i hk; exact getItems_other hall (Ne.symm hk)

theorem getItems_one {i : Item} {k' : Key} (h : i.key = k') (k : Key) : getItems [i] k = if k = k' then [i] else [] := by
  by_cases hk : k = k'
  · subst hk; simp [getItems, h]
  · have : ¬ k' = k := fun h => hk h.symm
    simp [getItems, h, hk, this]

theorem getItems_nil (k : Key) : getItems [] k = [] := rfl

/-! `getX` only depends on items other than blank lines. -/

section
variable {a b : List Item} (h : Same a b)
include h

theorem getSingle_same {k : Key} (hk : k ≠ .t .empty) : getSingle a k = getSingle b k := by
  unfold getSingle; rw [getItems_same h hk]
theorem getTokens_same {k : Kind} (hk : k ≠ .empty) : getTokens a k = getTokens b k := by
  unfold getTokens; rw [getItems_same h (by simpa using hk)]
theorem getToken_same {k : Kind} (hk : k ≠ .empty) : getToken a k = getToken b k := by
  unfold getToken; rw [getTokens_same h hk]
theorem getTags_same (n : Nat) : AstB.getTags a n = AstB.getTags b n := by
  unfold AstB.getTags; rw [getSingle_same h (by simp)]
theorem getDescription_same : AstB.getDescription a = AstB.getDescription b := by
  unfold AstB.getDescription; rw [getSingle_same h (by simp)]
theorem getSteps_same : AstB.getSteps a = AstB.getSteps b := by
  unfold AstB.getSteps; rw [getItems_same h (by simp)]
theorem getExamples_same : AstB.getExamples a = AstB.getExamples b := by
  unfold AstB.getExamples; rw [getItems_same h (by simp)]
theorem getScenarios_same : AstB.getScenarios a = AstB.getScenarios b := by
  unfold AstB.getScenarios; rw [getItems_same h (by simp)]
theorem getBackground_same : AstB.getBackground a = AstB.getBackground b := by
  unfold AstB.getBackground; rw [getSingle_same h (by simp)]
theorem getRules_same : AstB.getRules a = AstB.getRules b := by
  unfold AstB.getRules; rw [getItems_same h (by simp)]
theorem getNode_same (r : Rule) : AstB.getNode a r = AstB.getNode b r := by
  unfold AstB.getNode; rw [getSingle_same h (by simp)]

/-- Rules whose nodes are transformed. -/
theorem transform_same {r : Rule} (hr : r ∉ [Rule.none, .featureHeader, .ruleHeader, .scenario, .examples, .tags]) (n : Nat) :
    AstB.transform r a [] n = AstB.transform r b [] n := by
  cases r <;> simp at hr
  case gherkinDocument => simp only [AstB.transform, AstB.mkDocument]; rw [getSingle_same h (by simp)]
  case feature =>
    simp only [AstB.transform, AstB.mkFeature]
    rw [getNode_same h, getRules_same h, getBackground_same h, getScenarios_same h]
  case rule =>
    simp only [AstB.transform, AstB.mkRule]
    rw [getNode_same h, getBackground_same h, getScenarios_same h]
  case background =>
    simp only [AstB.transform, AstB.mkBackground]
    rw [getToken_same h (by simp), getDescription_same h, getSteps_same h]
  case scenarioDefinition =>
    simp only [AstB.transform, AstB.mkScenario]
    rw [getTags_same h, getNode_same h]
  case examplesDefinition =>
    simp only [AstB.transform, AstB.mkExamples]
    rw [getTags_same h, getNode_same h]
  case examplesTable =>
    simp only [AstB.transform, AstB.mkExamplesTable, AstB.getTableRows]
    rw [getTokens_same h (by simp)]
  case step =>
    simp only [AstB.transform, AstB.mkStep]
    rw [getToken_same h (by simp), getSingle_same h (by simp), getSingle_same h (by simp)]
  case dataTable =>
    simp only [AstB.transform, AstB.mkDataTable, AstB.getTableRows]
    rw [getTokens_same h (by simp)]
  case docString =>
    simp only [AstB.transform, AstB.mkDocString]
    rw [getToken_same h (by simp), getTokens_same h (by simp)]
  case description =>
    simp only [AstB.transform, AstB.mkDescription]
    rw [getTokens_same h (by simp)]
end

/-- The value of a node, computed from its children without comments and blank lines. -/
theorem evalT_node {r : Rule} (hr : r ∉ [Rule.none, .featureHeader, .ruleHeader, .scenario, .examples, .tags]) {cs : List Tree}
    (hc : Conforms (.node r cs)) {n n' : Nat} {its : List Item} (h : evalT (.node r cs) n = some (its, n')) :
    ∃ items n1 item, evalF (coreF cs) n = some (items, n1) ∧ AstB.transform r items [] n1 = (.ok item, n') ∧ its = [item] := by
  simp only [evalT] at h
  cases he : evalF cs n with
  | none => rw [he] at h; simp at h
  | some p =>
    obtain ⟨items, n1⟩ := p
    rw [he] at h
    simp only at h
    have hcs : ∀ c ∈ cs, Conforms c := by cases hc; assumption
    obtain ⟨items', h1, h2⟩ := evalF_core hcs he
    rw [transform_same h2 hr] at h
    rcases ht : AstB.transform r items' [] n1 with ⟨x, n2⟩
    rw [ht] at h
    cases x with
    | error e => simp at h
    | ok item => simp at h; exact ⟨items', n1, item, h1, by rw [ht, h.2], h.1.symm⟩

/-- The same for nodes that are kept. -/
theorem evalT_raw {r : Rule} (hr : r ∈ [Rule.featureHeader, .ruleHeader, .scenario, .examples, .tags]) {cs : List Tree}
    (hc : Conforms (.node r cs)) {n n' : Nat} {its : List Item} (h : evalT (.node r cs) n = some (its, n')) :
    ∃ items sub, evalF (coreF cs) n = some (items, n') ∧ its = [.node r sub] ∧ Same sub items := by
  simp only [evalT] at h
  cases he : evalF cs n with
  | none => rw [he] at h; simp at h
  | some p =>
    obtain ⟨items, n1⟩ := p
    rw [he] at h
    simp only at h
    have hcs : ∀ c ∈ cs, Conforms c := by cases hc; assumption
    obtain ⟨items', h1, h2⟩ := evalF_core hcs he
    have ht : AstB.transform r items [] n1 = (.ok (.node r items), n1) := by
      cases r <;> simp at hr <;> rfl
    rw [ht] at h
    simp at h
    exact ⟨items', items, by rw [h1, h.2], h.1.symm, h2⟩

theorem kids_conform {r : Rule} {cs : List Tree} (hc : Conforms (.node r cs)) : ∀ c ∈ cs, Conforms c := by cases hc; assumption

/-! ### Lists and options of nodes -/

/-- A rule whose nodes become values: what is proved below for each of them. -/
def BuildsTo {X A : Type} (R : Rule) (ast : X → Nat → A × Nat) (mk : A → Item) (toks : X → List Token) (Ok : X → Prop) : Prop :=
  ∀ (cs : List Tree) (n : Nat) (its : List Item) (n' : Nat), Conforms (.node R cs) → evalT (.node R cs) n = some (its, n') →
    ∃ C, its = [mk (ast C n).1] ∧ n' = (ast C n).2 ∧ Ok C ∧ (Tree.node R cs).core = toks C

theorem BuildsTo.star {X A : Type} {R : Rule} {ast : X → Nat → A × Nat} {mk : A → Item} {toks : X → List Token} {Ok : X → Prop}
    (hB : BuildsTo R ast mk toks Ok) : ∀ {cs : List Tree} {n : Nat} {its : List Item} {n' : Nat},
    (∀ c ∈ cs, Conforms c) → (∀ c ∈ cs, c.sym = .r R) → evalF cs n = some (its, n') →
    ∃ Cs : List X, its = (thread ast Cs n).1.map mk ∧ n' = (thread ast Cs n).2 ∧ (∀ C ∈ Cs, Ok C) ∧
      cs.flatMap Tree.core = Cs.flatMap toks := by
  intro cs
  induction cs with
  | nil =>
    intro n its n' _ _ h
    simp [evalF] at h
    exact ⟨[], by simp [thread, h.1], by simp [thread, h.2], by simp, rfl⟩
  | cons c cs ih =>
    intro n its n' hc hs h
    obtain ⟨i1, n1, i2, h1, h2, rfl⟩ := evalF_append_some (a := [c]) (b := cs) h
    rw [evalF_single] at h1
    obtain ⟨ks, rfl⟩ := sym_node (hs c (by simp))
    obtain ⟨C, rfl, rfl, hOk, htoks⟩ := hB ks n i1 n1 (hc _ (by simp)) h1
    obtain ⟨Cs, rfl, rfl, hOks, htoks'⟩ := ih (fun x hx => hc x (by simp [hx])) (fun x hx => hs x (by simp [hx])) h2
    refine ⟨C :: Cs, by simp [thread], by simp [thread], ?_, by simp [htoks, htoks']⟩
    intro D hD; simp at hD; rcases hD with rfl | hD
    · exact hOk
    · exact hOks D hD

theorem BuildsTo.opt {X A : Type} {R : Rule} {ast : X → Nat → A × Nat} {mk : A → Item} {toks : X → List Token} {Ok : X → Prop}
    (hB : BuildsTo R ast mk toks Ok) {cs : List Tree} {n : Nat} {its : List Item} {n' : Nat}
    (hc : ∀ c ∈ cs, Conforms c) (hs : cs = [] ∨ ∃ c, cs = [c] ∧ c.sym = .r R) (h : evalF cs n = some (its, n')) :
    ∃ C : Option X, its = (threadOpt ast C n).1.toList.map mk ∧ n' = (threadOpt ast C n).2 ∧ (∀ x ∈ C, Ok x) ∧
      cs.flatMap Tree.core = C.toList.flatMap toks := by
  rcases hs with rfl | ⟨c, rfl, hs⟩
  · simp [evalF] at h
    exact ⟨none, by simp [threadOpt, h.1], by simp [threadOpt, h.2], by simp, rfl⟩
  · obtain ⟨ks, rfl⟩ := sym_node hs
    rw [evalF_single] at h
    obtain ⟨C, rfl, rfl, hOk, htoks⟩ := hB ks n its n' (hc _ (by simp)) h
    exact ⟨some C, by simp [threadOpt], by simp [threadOpt], by simpa using hOk, by simp [htoks]⟩

end Gherkin
