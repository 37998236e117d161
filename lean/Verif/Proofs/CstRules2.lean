import Verif.Proofs.CstRules

/-! Continuation of `CstRules`: backgrounds, examples, scenarios, rules, features, documents. -/

namespace Gherkin

open AstNode Cst

theorem getItems_uniform {a : List Item} {k k' : Key} (h : ∀ i ∈ a, i.key = k') : getItems a k = if k = k' then a else [] := by
  split
  · rename_i hk; subst hk; exact getItems_all h
  · rename_i hk; exact getItems_other h (Ne.symm hk)

theorem keys_map {α : Type} {mk : α → Item} {k : Key} (h : ∀ a, (mk a).key = k) (l : List α) : ∀ i ∈ l.map mk, i.key = k := by
  intro i hi; simp at hi; obtain ⟨a, _, rfl⟩ := hi; exact h a

theorem evalF_leaf_inv {k : Kind} (hk : k ≠ .comment) {t : Token} {n n' : Nat} {its : List Item}
    (h : evalF [Tree.leaf k t] n = some (its, n')) : its = [.tok t] ∧ n' = n := by
  rw [evalF_single] at h
  simp [evalT, hk] at h
  exact ⟨h.1.symm, h.2.symm⟩

theorem getToken_front {l : Token} {k : Kind} (h : l.type = some k) (rest : List Item) : getToken (Item.tok l :: rest) k = some l := by
  simp [getToken, getTokens, getItems, Item.key, h]

theorem filterMap_mk {α β : Type} (mk : α → β) (f : β → Option α) (l : List α) (h : ∀ a, f (mk a) = some a) :
    (l.map mk).filterMap f = l := by
  induction l with
  | nil => rfl
  | cons a l ih => simp [h, ih]

/-- `Background`. -/
theorem background_builds : BuildsTo .background CBackground.ast Item.background CBackground.toks CBackground.Ok := by
  intro cs n its n' hc h
  obtain ⟨items, n1, item, h1, h2, rfl⟩ := evalT_node (by simp) hc h
  obtain ⟨hsp, hcs⟩ := conforms_core hc
  rw [Tree.core_node _ _ (kids_conform hc)]
  obtain ⟨x, y, hxy, hx, hy⟩ := Spells.seq (show Spells (.seq (.sym (.t .backgroundLine)) (.seq (.alt (.sym (.r .description)) .eps)
    (.star (.sym (.r .step))))) _ from hsp)
  obtain ⟨c1, rfl, hc1⟩ := hx.sym
  obtain ⟨l, rfl⟩ := sym_leaf hc1
  obtain ⟨d, ss, rfl, hd, hs⟩ := hy.seq
  rw [hxy] at h1 hcs ⊢
  have hl := hcs (.leaf .backgroundLine l) (by simp)
  obtain ⟨i1, n2, i2, e1, e2, rfl⟩ := evalF_append_some h1
  obtain ⟨rfl, rfl⟩ := evalF_leaf_inv (by simp) e1
  obtain ⟨i3, n3, i4, e3, e4, rfl⟩ := evalF_append_some e2
  obtain ⟨dt, rfl, hk3, hget3, hok3, hcore3⟩ := desc_opt (fun c hc => hcs c (by simp [hc])) hd.opt e3
  obtain ⟨Ss, rfl, rfl, hokS, hcoreS⟩ := step_builds.star (fun c hc => hcs c (by simp [hc])) hs.star e4
  have hk4 := keys_map (mk := Item.step) (k := .r .step) (fun _ => rfl) (thread CStep.ast Ss n3).1
  have hgd := hget3 [.tok l] _ (by simp [Item.key, leaf_type hl]) (fun i hi => by rw [hk4 i hi]; simp)
  have hgs : AstB.getSteps ([.tok l] ++ (i3 ++ (thread CStep.ast Ss n3).1.map Item.step)) = (thread CStep.ast Ss n3).1 := by
    unfold AstB.getSteps
    rw [getItems_append, getItems_append, getItems_tok (leaf_type hl), getItems_uniform hk3, getItems_uniform hk4]
    simp only [reduceCtorEq, if_false, if_true, List.nil_append, Key.r.injEq, List.append_nil]
    exact filterMap_mk _ _ _ fun _ => rfl
  simp only [AstB.transform, AstB.mkBackground, hgd, hgs] at h2
  rw [show [Item.tok l] ++ (i3 ++ (thread CStep.ast Ss n3).1.map Item.step) = Item.tok l :: (i3 ++ (thread CStep.ast Ss n3).1.map Item.step)
    from rfl, getToken_front (leaf_type hl)] at h2
  simp only [Prod.mk.injEq, Except.ok.injEq] at h2
  refine ⟨⟨l, dt, Ss⟩, ?_, ?_, ⟨leaf_type hl, hok3, hokS⟩, ?_⟩
  · rw [← h2.1]; rfl
  · rw [← h2.2]; rfl
  · simp [Tree.core_leaf hl (by rfl), hcore3, hcoreS, CBackground.toks]

/-- `ExamplesTable`. -/
theorem examplesTable_node {cs : List Tree} {n n' : Nat} {its : List Item} (hc : Conforms (.node .examplesTable cs))
    (h : evalT (.node .examplesTable cs) n = some (its, n')) :
    ∃ rs, its = [.rows (thread row rs n).1] ∧ n' = (thread row rs n).2 ∧
      (∀ t ∈ rs, t.type = some .tableRow) ∧ Rect rs ∧ (Tree.node .examplesTable cs).core = rs := by
  obtain ⟨items, n1, item, h1, h2, rfl⟩ := evalT_node (by simp) hc h
  obtain ⟨hsp, hcs⟩ := conforms_core hc
  rw [Tree.core_node _ _ (kids_conform hc)]
  obtain ⟨x, y, hxy, hx, hy⟩ := Spells.seq (show Spells (.seq (.sym (.t .tableRow)) (.star (.sym (.t .tableRow)))) _ from hsp)
  obtain ⟨c, rfl, hc1⟩ := hx.sym
  obtain ⟨r, rfl⟩ := sym_leaf hc1
  obtain ⟨rs, rfl⟩ := leaves_of_star hy.star
  have hcons : [Tree.leaf .tableRow r] ++ rs.map (Tree.leaf .tableRow) = (r :: rs).map (Tree.leaf .tableRow) := rfl
  rw [hcons] at hxy
  rw [hxy] at h1 hcs ⊢
  rw [evalF_leaves (by simp)] at h1
  simp only [Option.some.injEq, Prod.mk.injEq] at h1
  obtain ⟨rfl, rfl⟩ := h1
  obtain ⟨hcore, htype⟩ := leaves_core (by rfl) hcs
  have hget : getTokens ((r :: rs).map Item.tok) .tableRow = r :: rs :=
    getTokens_of (by rw [getItems_toks htype]; simp)
  simp only [AstB.transform, AstB.mkExamplesTable, AstB.getTableRows, hget] at h2
  cases hrag : AstB.raggedRow (AstB.makeRows (r :: rs) n) with
  | some x => rw [hrag] at h2; simp at h2
  | none =>
    rw [hrag] at h2
    have hth := makeRows_thread (r :: rs) n
    simp only [Prod.mk.injEq, Except.ok.injEq] at h2
    refine ⟨r :: rs, ?_, ?_, htype, raggedRow_rect hrag, hcore⟩
    · rw [← hth, h2.1]
    · rw [← hth, ← h2.2]

/-- `Examples`. -/
theorem examples_node {cs : List Tree} {n n' : Nat} {its : List Item} (hc : Conforms (.node .examples cs))
    (h : evalT (.node .examples cs) n = some (its, n')) :
    ∃ sub l dt rs, its = [.node .examples sub] ∧ n' = (thread row rs n).2 ∧ getToken sub .examplesLine = some l ∧
      AstB.getDescription sub = description dt ∧
      AstB.getRows sub = (thread row rs n).1 ∧
      l.type = some .examplesLine ∧ DescOk dt ∧ (∀ t ∈ rs, t.type = some .tableRow) ∧ Rect rs ∧
      (Tree.node .examples cs).core = l :: (dt ++ rs) := by
  obtain ⟨items, sub, h1, rfl, hsame⟩ := evalT_raw (by simp) hc h
  obtain ⟨hsp, hcs⟩ := conforms_core hc
  rw [Tree.core_node _ _ (kids_conform hc)]
  obtain ⟨x, y, hxy, hx, hy⟩ := Spells.seq (show Spells (.seq (.sym (.t .examplesLine)) (.seq (.alt (.sym (.r .description)) .eps)
    (.alt (.sym (.r .examplesTable)) .eps))) _ from hsp)
  obtain ⟨c1, rfl, hc1⟩ := hx.sym
  obtain ⟨l, rfl⟩ := sym_leaf hc1
  obtain ⟨d, tb, rfl, hd, ht⟩ := hy.seq
  rw [hxy] at h1 hcs ⊢
  have hl := hcs (.leaf .examplesLine l) (by simp)
  obtain ⟨i1, n2, i2, e1, e2, rfl⟩ := evalF_append_some h1
  obtain ⟨rfl, rfl⟩ := evalF_leaf_inv (by simp) e1
  obtain ⟨i3, n3, i4, e3, e4, rfl⟩ := evalF_append_some e2
  obtain ⟨dt, rfl, hk3, hget3, hok3, hcore3⟩ := desc_opt (fun c hc => hcs c (by simp [hc])) hd.opt e3
  have hT : ∃ rs, (i4 = [] ∧ rs = [] ∨ i4 = [.rows (thread row rs n3).1]) ∧ n' = (thread row rs n3).2 ∧
      (∀ t ∈ rs, t.type = some .tableRow) ∧ Rect rs ∧ tb.flatMap Tree.core = rs := by
    rcases ht.opt with rfl | ⟨c, rfl, hs⟩
    · simp [evalF] at e4
      exact ⟨[], .inl ⟨e4.1, rfl⟩, e4.2.symm, by simp, trivial, rfl⟩
    · obtain ⟨ks, rfl⟩ := sym_node hs
      rw [evalF_single] at e4
      obtain ⟨rs, h3, h4, h5, h6, h7⟩ := examplesTable_node (hcs _ (by simp)) e4
      exact ⟨rs, .inr h3, h4, h5, h6, by simp [h7]⟩
  obtain ⟨rs, h4, hn, hty, hrect, hcore4⟩ := hT
  have hk4 : ∀ i ∈ i4, i.key = .r .examplesTable := by
    rcases h4 with ⟨rfl, _⟩ | rfl <;> simp [Item.key]
  refine ⟨sub, l, dt, rs, rfl, hn, ?_, ?_, ?_, leaf_type hl, hok3, hty, hrect, ?_⟩
  · rw [getToken_same hsame (by simp)]; exact getToken_front (leaf_type hl) _
  · rw [getDescription_same hsame]
    exact hget3 [.tok l] _ (by simp [Item.key, leaf_type hl]) (fun i hi => by rw [hk4 i hi]; simp)
  · unfold AstB.getRows
    rw [getSingle_same hsame (by simp)]
    unfold getSingle
    rw [getItems_append, getItems_append, getItems_tok (leaf_type hl), getItems_uniform hk3, getItems_uniform hk4]
    rcases h4 with ⟨rfl, rfl⟩ | rfl
    · simp [thread]
    · simp
  · simp [Tree.core_leaf hl (by rfl), hcore3, hcore4]

/-- `ExamplesDefinition`. -/
theorem examples_builds : BuildsTo .examplesDefinition CExamples.ast Item.examples CExamples.toks CExamples.Ok := by
  intro cs n its n' hc h
  obtain ⟨items, n1, item, h1, h2, rfl⟩ := evalT_node (by simp) hc h
  obtain ⟨hsp, hcs⟩ := conforms_core hc
  rw [Tree.core_node _ _ (kids_conform hc)]
  obtain ⟨x, y, hxy, hx, hy⟩ := Spells.seq (show Spells (.seq (.alt (.sym (.r .tags)) .eps) (.sym (.r .examples))) _ from hsp)
  rw [hxy] at h1 hcs ⊢
  obtain ⟨c1, rfl, hc1⟩ := hy.sym
  obtain ⟨ks, rfl⟩ := sym_node hc1
  obtain ⟨i1, n2, i2, e1, e2, rfl⟩ := evalF_append_some h1
  obtain ⟨tl, rfl, hk1, hget1, hok1, hcore1⟩ := tags_opt (fun c hc => hcs c (by simp [hc])) hx.opt e1
  rw [evalF_single] at e2
  obtain ⟨sub, l, dt, rs, rfl, rfl, g1, g2, g3, g4, g5, g6, g7, g8⟩ := examples_node (hcs _ (by simp)) e2
  have hT := hget1 [.node .examples sub] (thread row rs n2).2 (by simp [Item.key])
  have hN : AstB.getNode (i1 ++ [.node .examples sub]) .examples = some sub := by
    unfold AstB.getNode getSingle
    rw [getItems_append, getItems_uniform hk1]
    simp [getItems, Item.key]
  simp only [AstB.transform, AstB.mkExamples, hT, hN, g1, g2] at h2
  rw [g3] at h2
  obtain ⟨h2a, h2b⟩ := Prod.mk.inj h2
  cases h2a
  cases h2b
  refine ⟨⟨tl, l, dt, rs⟩, rfl, rfl, ⟨hok1, g4, g5, g6, g7⟩, ?_⟩
  · simp [hcore1, g8, CExamples.toks]

/-- `Scenario`. -/
theorem scenario_node {cs : List Tree} {n n' : Nat} {its : List Item} (hc : Conforms (.node .scenario cs))
    (h : evalT (.node .scenario cs) n = some (its, n')) :
    ∃ sub l dt Ss Es, its = [.node .scenario sub] ∧ n' = (thread CExamples.ast Es (thread CStep.ast Ss n).2).2 ∧
      getToken sub .scenarioLine = some l ∧ AstB.getDescription sub = description dt ∧
      AstB.getSteps sub = (thread CStep.ast Ss n).1 ∧ AstB.getExamples sub = (thread CExamples.ast Es (thread CStep.ast Ss n).2).1 ∧
      l.type = some .scenarioLine ∧ DescOk dt ∧ (∀ s ∈ Ss, s.Ok) ∧ (∀ s ∈ Es, s.Ok) ∧
      (Tree.node .scenario cs).core = l :: (dt ++ Ss.flatMap CStep.toks ++ Es.flatMap CExamples.toks) := by
  obtain ⟨items, sub, h1, rfl, hsame⟩ := evalT_raw (by simp) hc h
  obtain ⟨hsp, hcs⟩ := conforms_core hc
  rw [Tree.core_node _ _ (kids_conform hc)]
  obtain ⟨x, y, hxy, hx, hy⟩ := Spells.seq (show Spells (.seq (.sym (.t .scenarioLine)) (.seq (.alt (.sym (.r .description)) .eps)
    (.seq (.star (.sym (.r .step))) (.star (.sym (.r .examplesDefinition)))))) _ from hsp)
  obtain ⟨c1, rfl, hc1⟩ := hx.sym
  obtain ⟨l, rfl⟩ := sym_leaf hc1
  obtain ⟨d, z, rfl, hd, hz⟩ := hy.seq
  obtain ⟨ss, es, rfl, hs, he⟩ := hz.seq
  rw [hxy] at h1 hcs ⊢
  have hl := hcs (.leaf .scenarioLine l) (by simp)
  obtain ⟨i1, n2, i2, e1, e2, rfl⟩ := evalF_append_some h1
  obtain ⟨rfl, rfl⟩ := evalF_leaf_inv (by simp) e1
  obtain ⟨i3, n3, i4, e3, e4, rfl⟩ := evalF_append_some e2
  obtain ⟨i5, n5, i6, e5, e6, rfl⟩ := evalF_append_some e4
  obtain ⟨dt, rfl, hk3, hget3, hok3, hcore3⟩ := desc_opt (fun c hc => hcs c (by simp [hc])) hd.opt e3
  obtain ⟨Ss, rfl, rfl, hokS, hcoreS⟩ := step_builds.star (fun c hc => hcs c (by simp [hc])) hs.star e5
  obtain ⟨Es, rfl, rfl, hokE, hcoreE⟩ := examples_builds.star (fun c hc => hcs c (by simp [hc])) he.star e6
  have hk4 := keys_map (mk := Item.step) (k := .r .step) (fun _ => rfl) (thread CStep.ast Ss n3).1
  have hk5 := keys_map (mk := Item.examples) (k := .r .examplesDefinition) (fun _ => rfl)
    (thread CExamples.ast Es (thread CStep.ast Ss n3).2).1
  refine ⟨sub, l, dt, Ss, Es, rfl, rfl, ?_, ?_, ?_, ?_, leaf_type hl, hok3, hokS, hokE, ?_⟩
  · rw [getToken_same hsame (by simp)]; exact getToken_front (leaf_type hl) _
  · rw [getDescription_same hsame]
    refine hget3 [.tok l] _ (by simp [Item.key, leaf_type hl]) (fun i hi => ?_)
    rcases List.mem_append.1 hi with hi | hi
    · rw [hk4 i hi]; simp
    · rw [hk5 i hi]; simp
  · rw [getSteps_same hsame]
    unfold AstB.getSteps
    rw [getItems_append, getItems_append, getItems_append, getItems_tok (leaf_type hl), getItems_uniform hk3, getItems_uniform hk4,
      getItems_uniform hk5]
    simp only [reduceCtorEq, if_false, if_true, List.nil_append, Key.r.injEq, List.append_nil]
    exact filterMap_mk _ _ _ fun _ => rfl
  · rw [getExamples_same hsame]
    unfold AstB.getExamples
    rw [getItems_append, getItems_append, getItems_append, getItems_tok (leaf_type hl), getItems_uniform hk3, getItems_uniform hk4,
      getItems_uniform hk5]
    simp only [reduceCtorEq, if_false, if_true, List.nil_append, Key.r.injEq, List.append_nil]
    exact filterMap_mk _ _ _ fun _ => rfl
  · simp [Tree.core_leaf hl (by rfl), hcore3, hcoreS, hcoreE]

/-- `ScenarioDefinition`. -/
theorem scenario_builds : BuildsTo .scenarioDefinition CScenario.ast Item.scenario CScenario.toks CScenario.Ok := by
  intro cs n its n' hc h
  obtain ⟨items, n1, item, h1, h2, rfl⟩ := evalT_node (by simp) hc h
  obtain ⟨hsp, hcs⟩ := conforms_core hc
  rw [Tree.core_node _ _ (kids_conform hc)]
  obtain ⟨x, y, hxy, hx, hy⟩ := Spells.seq (show Spells (.seq (.alt (.sym (.r .tags)) .eps) (.sym (.r .scenario))) _ from hsp)
  rw [hxy] at h1 hcs ⊢
  obtain ⟨c1, rfl, hc1⟩ := hy.sym
  obtain ⟨ks, rfl⟩ := sym_node hc1
  obtain ⟨i1, n2, i2, e1, e2, rfl⟩ := evalF_append_some h1
  obtain ⟨tl, rfl, hk1, hget1, hok1, hcore1⟩ := tags_opt (fun c hc => hcs c (by simp [hc])) hx.opt e1
  rw [evalF_single] at e2
  obtain ⟨sub, l, dt, Ss, Es, rfl, rfl, g1, g2, g3, g4, g5, g6, g7, g8, g9⟩ := scenario_node (hcs _ (by simp)) e2
  have hT := hget1 [.node .scenario sub] (thread CExamples.ast Es (thread CStep.ast Ss n2).2).2 (by simp [Item.key])
  have hN : AstB.getNode (i1 ++ [.node .scenario sub]) .scenario = some sub := by
    unfold AstB.getNode getSingle
    rw [getItems_append, getItems_uniform hk1]
    simp [getItems, Item.key]
  simp only [AstB.transform, AstB.mkScenario, hT, hN, g1, g2, g3, g4] at h2
  simp only [Prod.mk.injEq, Except.ok.injEq] at h2
  refine ⟨⟨tl, l, dt, Ss, Es⟩, ?_, ?_, ⟨hok1, g5, g6, g7, g8⟩, ?_⟩
  · rw [← h2.1]; rfl
  · rw [← h2.2]; rfl
  · simp [hcore1, g9, CScenario.toks]

/-- `RuleHeader`. -/
theorem ruleHeader_node {cs : List Tree} {n n' : Nat} {its : List Item} (hc : Conforms (.node .ruleHeader cs))
    (h : evalT (.node .ruleHeader cs) n = some (its, n')) :
    ∃ sub tl l dt, its = [.node .ruleHeader sub] ∧ n' = n ∧ (∀ m, AstB.getTags sub m = Cst.tags tl m) ∧
      getToken sub .ruleLine = some l ∧ AstB.getDescription sub = description dt ∧
      TagsOk tl ∧ l.type = some .ruleLine ∧ DescOk dt ∧ (Tree.node .ruleHeader cs).core = tl ++ l :: dt := by
  obtain ⟨items, sub, h1, rfl, hsame⟩ := evalT_raw (by simp) hc h
  obtain ⟨hsp, hcs⟩ := conforms_core hc
  rw [Tree.core_node _ _ (kids_conform hc)]
  obtain ⟨x, y, hxy, hx, hy⟩ := Spells.seq (show Spells (.seq (.alt (.sym (.r .tags)) .eps) (.seq (.sym (.t .ruleLine))
    (.alt (.sym (.r .description)) .eps))) _ from hsp)
  obtain ⟨z, d, rfl, hz, hd⟩ := hy.seq
  obtain ⟨c1, rfl, hc1⟩ := hz.sym
  obtain ⟨l, rfl⟩ := sym_leaf hc1
  rw [hxy] at h1 hcs ⊢
  have hl := hcs (.leaf .ruleLine l) (by simp)
  obtain ⟨i1, n2, i2, e1, e2, rfl⟩ := evalF_append_some h1
  obtain ⟨i3, n3, i4, e3, e4, rfl⟩ := evalF_append_some e2
  obtain ⟨rfl, rfl⟩ := evalF_leaf_inv (by simp) e3
  obtain ⟨tl, rfl, hk1, hget1, hok1, hcore1⟩ := tags_opt (fun c hc => hcs c (by simp [hc])) hx.opt e1
  obtain ⟨dt, rfl, hk4, hget4, hok4, hcore4⟩ := desc_opt (fun c hc => hcs c (by simp [hc])) hd.opt e4
  refine ⟨sub, tl, l, dt, rfl, rfl, ?_, ?_, ?_, hok1, leaf_type hl, hok4, ?_⟩
  · intro m
    rw [getTags_same hsame]
    refine hget1 _ m fun i hi => ?_
    simp at hi
    rcases hi with rfl | hi
    · simp [Item.key, leaf_type hl]
    · rw [hk4 i hi]; simp
  · rw [getToken_same hsame (by simp)]
    unfold getToken getTokens
    rw [getItems_append, getItems_uniform hk1]
    exact getToken_front (leaf_type hl) _
  · rw [getDescription_same hsame]
    have := hget4 (i1 ++ [.tok l]) [] (fun i hi => by
      simp at hi
      rcases hi with hi | rfl
      · rw [hk1 i hi]; simp
      · simp [Item.key, leaf_type hl]) (by simp)
    simpa using this
  · simp [Tree.core_leaf hl (by rfl), hcore1, hcore4]

theorem getBackground_seg {pre post : List Item} {kp kq : Key} (hp : ∀ i ∈ pre, i.key = kp) (hq : ∀ i ∈ post, i.key ≠ .r .background)
    (hkp : kp ≠ .r .background) (o : Option Background) :
    AstB.getBackground (pre ++ (o.toList.map Item.background ++ post)) = o := by
  unfold AstB.getBackground getSingle
  have hq' : getItems post (.r .background) = [] := by
    unfold getItems; rw [List.filter_eq_nil_iff]; intro i hi; simpa using hq i hi
  rw [getItems_append, getItems_append, getItems_uniform hp, if_neg (Ne.symm hkp), hq']
  cases o <;> simp [getItems, Item.key]

/-- `Rule`. -/
theorem rule_builds : BuildsTo .rule CRule.ast (fun r => Item.rule (some r)) CRule.toks CRule.Ok := by
  intro cs n its n' hc h
  obtain ⟨items, n1, item, h1, h2, rfl⟩ := evalT_node (by simp) hc h
  obtain ⟨hsp, hcs⟩ := conforms_core hc
  rw [Tree.core_node _ _ (kids_conform hc)]
  obtain ⟨x, y, hxy, hx, hy⟩ := Spells.seq (show Spells (.seq (.sym (.r .ruleHeader)) (.seq (.alt (.sym (.r .background)) .eps)
    (.star (.sym (.r .scenarioDefinition))))) _ from hsp)
  obtain ⟨b, ss, rfl, hb, hs⟩ := hy.seq
  rw [hxy] at h1 hcs ⊢
  obtain ⟨c1, rfl, hc1⟩ := hx.sym
  obtain ⟨ks, rfl⟩ := sym_node hc1
  obtain ⟨i1, n2, i2, e1, e2, rfl⟩ := evalF_append_some h1
  obtain ⟨i3, n3, i4, e3, e4, rfl⟩ := evalF_append_some e2
  rw [evalF_single] at e1
  obtain ⟨sub, tl, l, dt, rfl, rfl, g1, g2, g3, g4, g5, g6, g7⟩ := ruleHeader_node (hcs _ (by simp)) e1
  obtain ⟨B, rfl, rfl, hokB, hcoreB⟩ := background_builds.opt (fun c hc => hcs c (by simp [hc])) hb.opt e3
  obtain ⟨Ss, rfl, rfl, hokS, hcoreS⟩ := scenario_builds.star (fun c hc => hcs c (by simp [hc])) hs.star e4
  have hk1 : ∀ i ∈ [Item.node .ruleHeader sub], i.key = .r .ruleHeader := by simp [Item.key]
  have hk3 := keys_map (mk := Item.background) (k := .r .background) (fun _ => rfl) (threadOpt CBackground.ast B n2).1.toList
  have hk4 := keys_map (mk := Item.scenario) (k := .r .scenarioDefinition) (fun _ => rfl)
    (thread CScenario.ast Ss (threadOpt CBackground.ast B n2).2).1
  have hB := getBackground_seg (kq := .none) hk1 (fun i hi => by rw [hk4 i hi]; simp) (by simp) (threadOpt CBackground.ast B n2).1
  have hS : AstB.getScenarios ([Item.node .ruleHeader sub] ++ ((threadOpt CBackground.ast B n2).1.toList.map Item.background ++
      (thread CScenario.ast Ss (threadOpt CBackground.ast B n2).2).1.map Item.scenario)) =
      (thread CScenario.ast Ss (threadOpt CBackground.ast B n2).2).1 := by
    unfold AstB.getScenarios
    rw [getItems_append, getItems_append, getItems_uniform hk1, getItems_uniform hk3, getItems_uniform hk4]
    simp only [reduceCtorEq, if_false, if_true, List.nil_append, Key.r.injEq, List.append_nil]
    exact filterMap_mk _ _ _ fun _ => rfl
  have hN : ∀ rest, AstB.getNode ([.node .ruleHeader sub] ++ rest) .ruleHeader = some sub := by
    intro rest
    unfold AstB.getNode getSingle
    simp [getItems, Item.key]
  simp only [AstB.transform, AstB.mkRule, hB, hN, hS, g1, g2, g3] at h2
  simp only [Prod.mk.injEq, Except.ok.injEq] at h2
  refine ⟨⟨tl, l, dt, B, Ss⟩, ?_, ?_, ⟨g4, g5, g6, hokB, hokS⟩, ?_⟩
  · rw [← h2.1]; rfl
  · rw [← h2.2]; rfl
  · simp [g7, hcoreB, hcoreS, CRule.toks]

/-- `FeatureHeader`. -/
theorem featureHeader_node {cs : List Tree} {n n' : Nat} {its : List Item} (hc : Conforms (.node .featureHeader cs))
    (h : evalT (.node .featureHeader cs) n = some (its, n')) :
    ∃ sub lang tl l dt, its = [.node .featureHeader sub] ∧ n' = n ∧ (∀ m, AstB.getTags sub m = Cst.tags tl m) ∧
      getToken sub .featureLine = some l ∧ AstB.getDescription sub = description dt ∧
      (∀ t ∈ lang, t.type = some .language) ∧ TagsOk tl ∧ l.type = some .featureLine ∧ DescOk dt ∧
      (Tree.node .featureHeader cs).core = (lang : Option Token).toList ++ tl ++ l :: dt := by
  obtain ⟨items, sub, h1, rfl, hsame⟩ := evalT_raw (by simp) hc h
  obtain ⟨hsp, hcs⟩ := conforms_core hc
  rw [Tree.core_node _ _ (kids_conform hc)]
  obtain ⟨la, w, hxy, hla, hw⟩ := Spells.seq (show Spells (.seq (.alt (.sym (.t .language)) .eps) (.seq (.alt (.sym (.r .tags)) .eps)
    (.seq (.sym (.t .featureLine)) (.alt (.sym (.r .description)) .eps)))) _ from hsp)
  obtain ⟨x, y, rfl, hx, hy⟩ := hw.seq
  obtain ⟨z, d, rfl, hz, hd⟩ := hy.seq
  obtain ⟨c1, rfl, hc1⟩ := hz.sym
  obtain ⟨l, rfl⟩ := sym_leaf hc1
  rw [hxy] at h1 hcs ⊢
  have hl := hcs (.leaf .featureLine l) (by simp)
  obtain ⟨i0, n0, i0', e0, e0', rfl⟩ := evalF_append_some h1
  have hLang : ∃ lang : Option Token, i0 = lang.toList.map .tok ∧ n0 = n ∧ (∀ t ∈ lang, t.type = some .language) ∧
      la.flatMap Tree.core = lang.toList := by
    rcases hla.opt with rfl | ⟨c, rfl, hs⟩
    · simp [evalF] at e0; exact ⟨none, e0.1, e0.2.symm, by simp, rfl⟩
    · obtain ⟨t, rfl⟩ := sym_leaf hs
      have ht := hcs (.leaf .language t) (by simp)
      obtain ⟨rfl, rfl⟩ := evalF_leaf_inv (by simp) e0
      exact ⟨some t, rfl, rfl, by simp [leaf_type ht], by simp [Tree.core_leaf ht (by rfl)]⟩
  obtain ⟨lang, rfl, rfl, hlt, hlc⟩ := hLang
  obtain ⟨i1, n2, i2, e1, e2, rfl⟩ := evalF_append_some e0'
  obtain ⟨i3, n3, i4, e3, e4, rfl⟩ := evalF_append_some e2
  obtain ⟨rfl, rfl⟩ := evalF_leaf_inv (by simp) e3
  obtain ⟨tl, rfl, hk1, hget1, hok1, hcore1⟩ := tags_opt (fun c hc => hcs c (by simp [hc])) hx.opt e1
  obtain ⟨dt, rfl, hk4, hget4, hok4, hcore4⟩ := desc_opt (fun c hc => hcs c (by simp [hc])) hd.opt e4
  have hk0 : ∀ i ∈ lang.toList.map Item.tok, i.key = .t .language := by
    intro i hi; simp at hi; obtain ⟨t, ht, rfl⟩ := hi; simp [Item.key, hlt t (by simpa using ht)]
  refine ⟨sub, lang, tl, l, dt, rfl, rfl, ?_, ?_, ?_, hlt, hok1, leaf_type hl, hok4, ?_⟩
  · intro m
    rw [getTags_same hsame]
    have := hget1 ([.tok l] ++ i4) m fun i hi => by
      simp at hi
      rcases hi with rfl | hi
      · simp [Item.key, leaf_type hl]
      · rw [hk4 i hi]; simp
    rw [← this]
    unfold AstB.getTags getSingle
    rw [getItems_append (lang.toList.map Item.tok), getItems_uniform hk0]
    rfl
  · rw [getToken_same hsame (by simp)]
    unfold getToken getTokens
    rw [getItems_append, getItems_uniform hk0, getItems_append, getItems_uniform hk1]
    exact getToken_front (leaf_type hl) _
  · rw [getDescription_same hsame]
    have := hget4 (lang.toList.map Item.tok ++ (i1 ++ [.tok l])) [] (fun i hi => by
      simp only [List.mem_append, List.mem_singleton] at hi
      rcases hi with hi | hi | rfl
      · rw [hk0 i hi]; simp
      · rw [hk1 i hi]; simp
      · simp [Item.key, leaf_type hl]) (by simp)
    simpa using this
  · simp [Tree.core_leaf hl (by rfl), hcore1, hcore4, hlc]

theorem mapM_rules (l : List RuleNode) :
    (l.map fun r => Item.rule (some r)).mapM (fun i => match i with | .rule (some r) => some r | _ => none) = some l := by
  induction l with
  | nil => rfl
  | cons r l ih => simp only [List.map_cons, List.mapM_cons, ih]; rfl

/-- `Feature`. -/
theorem feature_builds : BuildsTo .feature CFeature.ast (fun f => Item.feature (some f)) CFeature.toks CFeature.Ok := by
  intro cs n its n' hc h
  obtain ⟨items, n1, item, h1, h2, rfl⟩ := evalT_node (by simp) hc h
  obtain ⟨hsp, hcs⟩ := conforms_core hc
  rw [Tree.core_node _ _ (kids_conform hc)]
  obtain ⟨x, y, hxy, hx, hy⟩ := Spells.seq (show Spells (.seq (.sym (.r .featureHeader)) (.seq (.alt (.sym (.r .background)) .eps)
    (.seq (.star (.sym (.r .scenarioDefinition))) (.star (.sym (.r .rule)))))) _ from hsp)
  obtain ⟨b, z, rfl, hb, hz⟩ := hy.seq
  obtain ⟨ss, rr, rfl, hs, hr⟩ := hz.seq
  rw [hxy] at h1 hcs ⊢
  obtain ⟨c1, rfl, hc1⟩ := hx.sym
  obtain ⟨ks, rfl⟩ := sym_node hc1
  obtain ⟨i1, n2, i2, e1, e2, rfl⟩ := evalF_append_some h1
  obtain ⟨i3, n3, i4, e3, e4, rfl⟩ := evalF_append_some e2
  obtain ⟨i5, n5, i6, e5, e6, rfl⟩ := evalF_append_some e4
  rw [evalF_single] at e1
  obtain ⟨sub, lang, tl, l, dt, rfl, rfl, g1, g2, g3, g0, g4, g5, g6, g7⟩ := featureHeader_node (hcs _ (by simp)) e1
  obtain ⟨B, rfl, rfl, hokB, hcoreB⟩ := background_builds.opt (fun c hc => hcs c (by simp [hc])) hb.opt e3
  obtain ⟨Ss, rfl, rfl, hokS, hcoreS⟩ := scenario_builds.star (fun c hc => hcs c (by simp [hc])) hs.star e5
  obtain ⟨Rs, rfl, rfl, hokR, hcoreR⟩ := rule_builds.star (fun c hc => hcs c (by simp [hc])) hr.star e6
  have hk1 : ∀ i ∈ [Item.node .featureHeader sub], i.key = .r .featureHeader := by simp [Item.key]
  have hk3 := keys_map (mk := Item.background) (k := .r .background) (fun _ => rfl) (threadOpt CBackground.ast B n2).1.toList
  have hk4 := keys_map (mk := Item.scenario) (k := .r .scenarioDefinition) (fun _ => rfl)
    (thread CScenario.ast Ss (threadOpt CBackground.ast B n2).2).1
  have hk5 := keys_map (mk := fun r => Item.rule (some r)) (k := .r .rule) (fun _ => rfl)
    (thread CRule.ast Rs (thread CScenario.ast Ss (threadOpt CBackground.ast B n2).2).2).1
  have hB := getBackground_seg (kq := .none) hk1 (post := (thread CScenario.ast Ss (threadOpt CBackground.ast B n2).2).1.map Item.scenario ++
      (thread CRule.ast Rs (thread CScenario.ast Ss (threadOpt CBackground.ast B n2).2).2).1.map fun r => Item.rule (some r))
    (fun i hi => by
      rcases List.mem_append.1 hi with hi | hi
      · rw [hk4 i hi]; simp
      · rw [hk5 i hi]; simp) (by simp) (threadOpt CBackground.ast B n2).1
  have hS : AstB.getScenarios ([Item.node .featureHeader sub] ++ ((threadOpt CBackground.ast B n2).1.toList.map Item.background ++
      ((thread CScenario.ast Ss (threadOpt CBackground.ast B n2).2).1.map Item.scenario ++
      (thread CRule.ast Rs (thread CScenario.ast Ss (threadOpt CBackground.ast B n2).2).2).1.map fun r => Item.rule (some r)))) =
      (thread CScenario.ast Ss (threadOpt CBackground.ast B n2).2).1 := by
    unfold AstB.getScenarios
    rw [getItems_append, getItems_append, getItems_append, getItems_uniform hk1, getItems_uniform hk3, getItems_uniform hk4,
      getItems_uniform hk5]
    simp only [reduceCtorEq, if_false, if_true, List.nil_append, Key.r.injEq, List.append_nil]
    exact filterMap_mk _ _ _ fun _ => rfl
  have hR : AstB.getRules ([Item.node .featureHeader sub] ++ ((threadOpt CBackground.ast B n2).1.toList.map Item.background ++
      ((thread CScenario.ast Ss (threadOpt CBackground.ast B n2).2).1.map Item.scenario ++
      (thread CRule.ast Rs (thread CScenario.ast Ss (threadOpt CBackground.ast B n2).2).2).1.map fun r => Item.rule (some r)))) =
      some (thread CRule.ast Rs (thread CScenario.ast Ss (threadOpt CBackground.ast B n2).2).2).1 := by
    unfold AstB.getRules
    rw [getItems_append, getItems_append, getItems_append, getItems_uniform hk1, getItems_uniform hk3, getItems_uniform hk4,
      getItems_uniform hk5]
    simp only [reduceCtorEq, if_false, if_true, List.nil_append, Key.r.injEq]
    exact mapM_rules _
  have hN : ∀ rest, AstB.getNode ([.node .featureHeader sub] ++ rest) .featureHeader = some sub := by
    intro rest
    unfold AstB.getNode getSingle
    simp [getItems, Item.key]
  simp only [AstB.transform, AstB.mkFeature, hB, hN, hS, hR, g1, g2, g3] at h2
  simp only [Prod.mk.injEq, Except.ok.injEq] at h2
  refine ⟨⟨lang, tl, l, dt, B, Ss, Rs⟩, ?_, ?_, ⟨g0, g4, g5, g6, hokB, hokS, hokR⟩, ?_⟩
  · rw [← h2.1]; rfl
  · rw [← h2.2]; rfl
  · simp [g7, hcoreB, hcoreS, hcoreR, CFeature.toks]

end Gherkin
