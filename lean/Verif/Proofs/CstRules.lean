import Verif.Proofs.CstBuild

/-! Rule by rule: the AST builder computes the abstract syntax of the typed syntax tree. -/

namespace Gherkin

open AstNode Cst

theorem getTokens_of {items : List Item} {k : Kind} {ts : List Token} (h : getItems items (.t k) = ts.map .tok) :
    getTokens items k = ts := by
  unfold getTokens
  rw [h]
  clear h
  induction ts with
  | nil => rfl
  | cons t ts ih => simp [ih]

theorem leaf_type {k : Kind} {t : Token} (h : Conforms (.leaf k t)) : t.type = some k := by cases h; assumption

theorem leaves_core {k : Kind} (hk : (Sym.t k).ignorable = false) {ts : List Token} (h : ∀ c ∈ ts.map (Tree.leaf k), Conforms c) :
    (ts.map (Tree.leaf k)).flatMap Tree.core = ts ∧ ∀ t ∈ ts, t.type = some k := by
  induction ts with
  | nil => simp
  | cons t ts ih =>
    have ih := ih fun c hc => h c (by simp at hc ⊢; right; exact hc)
    have ht := h (.leaf k t) (by simp)
    refine ⟨by simp only [List.map_cons, List.flatMap_cons, ih.1, Tree.core_leaf ht hk]; rfl, ?_⟩
    intro x hx; simp at hx; rcases hx with rfl | hx
    · exact leaf_type ht
    · exact ih.2 x hx

/-- `Tags`. -/
theorem tags_node {cs : List Tree} {n n' : Nat} {its : List Item} (hc : Conforms (.node .tags cs))
    (h : evalT (.node .tags cs) n = some (its, n')) :
    ∃ ts sub, its = [.node .tags sub] ∧ n' = n ∧ getTokens sub .tagLine = ts ∧ TagsOk ts ∧ (Tree.node .tags cs).core = ts := by
  obtain ⟨items, sub, h1, rfl, hsame⟩ := evalT_raw (by simp) hc h
  obtain ⟨hsp, hcs⟩ := conforms_core hc
  rw [Tree.core_node _ _ (kids_conform hc)]
  obtain ⟨x, y, hxy, hx, hy⟩ := Spells.seq (show Spells (.seq (.sym (.t .tagLine)) (.star (.sym (.t .tagLine)))) _ from hsp)
  have hall : ∀ c ∈ coreF cs, c.sym = .t .tagLine := by
    obtain ⟨c, rfl, hc1⟩ := hx.sym
    intro d hd
    rw [hxy] at hd
    simp at hd
    rcases hd with rfl | hd
    · exact hc1
    · exact hy.star d hd
  obtain ⟨ts, hts⟩ := leaves_of_star hall
  rw [hts] at h1 hcs ⊢
  rw [evalF_leaves (by simp)] at h1
  simp at h1
  obtain ⟨hcore, htype⟩ := leaves_core (by rfl) hcs
  refine ⟨ts, sub, rfl, h1.2.symm, ?_, htype, hcore⟩
  rw [getTokens_same hsame (by simp), ← h1.1]
  exact getTokens_of (by rw [getItems_toks htype]; simp)

/-- Optional `Tags` in front. -/
theorem tags_opt {cs : List Tree} {n n' : Nat} {its : List Item} (hc : ∀ c ∈ cs, Conforms c)
    (hs : cs = [] ∨ ∃ c, cs = [c] ∧ c.sym = .r .tags) (h : evalF cs n = some (its, n')) :
    ∃ ts, n' = n ∧ (∀ i ∈ its, i.key = .r .tags) ∧ (∀ (rest : List Item) (m : Nat), (∀ i ∈ rest, i.key ≠ .r .tags) →
        AstB.getTags (its ++ rest) m = Cst.tags ts m) ∧ TagsOk ts ∧ cs.flatMap Tree.core = ts := by
  rcases hs with rfl | ⟨c, rfl, hs⟩
  · simp [evalF] at h
    obtain ⟨rfl, rfl⟩ := h
    refine ⟨[], rfl, by simp, ?_, by simp [TagsOk], rfl⟩
    intro rest m hr
    have : getItems ([] ++ rest) (.r .tags) = [] := by
      unfold getItems; rw [List.filter_eq_nil_iff]; intro i hi; simpa using hr i (by simpa using hi)
    simp only [AstB.getTags, getSingle, this]
    rfl
  · obtain ⟨ks, rfl⟩ := sym_node hs
    rw [evalF_single] at h
    obtain ⟨ts, sub, rfl, rfl, h3, h4, h5⟩ := tags_node (hc _ (by simp)) h
    refine ⟨ts, rfl, by simp [Item.key], ?_, h4, by simp [h5]⟩
    intro rest m _
    have : getSingle ([.node .tags sub] ++ rest) (.r .tags) = some (.node .tags sub) := by
      simp [getSingle, getItems, Item.key]
    simp only [AstB.getTags, this]
    rw [h3]
    exact tags_zip ts m

theorem mapM_id_getD {ts : List (Option Str)} {texts : List Str} (h : ts.mapM id = some texts) : texts = ts.map (·.getD []) := by
  induction ts generalizing texts with
  | nil => simp at h; simp [h]
  | cons t ts ih =>
    cases t with
    | none => simp at h
    | some s =>
      simp only [List.mapM_cons, id] at h
      cases hm : ts.mapM id with
      | none => rw [hm] at h; simp at h
      | some l => rw [hm] at h; simp at h; rw [← h, ih hm]; rfl

theorem trimTexts_getD (ts : List Token) : (AstB.trimTexts (ts.map (·.text))).map (·.getD []) = trimEnd (ts.map textOf) := by
  unfold AstB.trimTexts trimEnd
  have key : ∀ l : List (Option Str), (l.dropWhile fun t => decide (t = none) || decide (t = some [])).map (·.getD []) =
      (l.map (·.getD [])).dropWhile (fun s => decide (s = [])) := by
    intro l
    induction l with
    | nil => rfl
    | cons t l ih =>
      cases t with
      | none => simp [ih]
      | some s =>
        by_cases hs : s = []
        · subst hs; simp [ih]
        · simp [hs]
  rw [List.map_reverse, key]
  congr 2
  simp [textOf]

/-- `Description`. -/
theorem desc_node {cs : List Tree} {n n' : Nat} {its : List Item} (hc : Conforms (.node .description cs))
    (h : evalT (.node .description cs) n = some (its, n')) :
    ∃ ts, its = [.description (description ts)] ∧ n' = n ∧ DescOk ts ∧ (Tree.node .description cs).core = ts := by
  obtain ⟨items, n1, item, h1, h2, rfl⟩ := evalT_node (by simp) hc h
  obtain ⟨hsp, hcs⟩ := conforms_core hc
  rw [Tree.core_node _ _ (kids_conform hc)]
  obtain ⟨x, y, hxy, hx, hy⟩ := Spells.seq (show Spells (.seq (.sym (.t .other)) (.star (.sym (.t .other)))) _ from hsp)
  have hall : ∀ c ∈ coreF cs, c.sym = .t .other := by
    obtain ⟨c, rfl, hc1⟩ := hx.sym
    intro d hd
    rw [hxy] at hd
    simp at hd
    rcases hd with rfl | hd
    · exact hc1
    · exact hy.star d hd
  obtain ⟨ts, hts⟩ := leaves_of_star hall
  rw [hts] at h1 hcs ⊢
  rw [evalF_leaves (by simp)] at h1
  simp at h1
  obtain ⟨hcore, htype⟩ := leaves_core (by rfl) hcs
  have hget : getTokens items .other = ts := by
    rw [← h1.1]; exact getTokens_of (by rw [getItems_toks htype]; simp)
  simp only [AstB.transform, AstB.mkDescription, hget] at h2
  split at h2
  · simp at h2
  · split at h2
    · simp at h2
    · rename_i texts htx
      simp at h2
      obtain ⟨rfl, rfl⟩ := h2
      refine ⟨ts, ?_, h1.2.symm, htype, hcore⟩
      have := mapM_id_getD htx
      rw [trimTexts_getD] at this
      simp [description, this]

/-- Optional `Description`. -/
theorem desc_opt {cs : List Tree} {n n' : Nat} {its : List Item} (hc : ∀ c ∈ cs, Conforms c)
    (hs : cs = [] ∨ ∃ c, cs = [c] ∧ c.sym = .r .description) (h : evalF cs n = some (its, n')) :
    ∃ ts, n' = n ∧ (∀ i ∈ its, i.key = .r .description) ∧ (∀ (pre rest : List Item), (∀ i ∈ pre, i.key ≠ .r .description) →
        (∀ i ∈ rest, i.key ≠ .r .description) → AstB.getDescription (pre ++ (its ++ rest)) = description ts) ∧
      DescOk ts ∧ cs.flatMap Tree.core = ts := by
  rcases hs with rfl | ⟨c, rfl, hs⟩
  · simp [evalF] at h
    obtain ⟨rfl, rfl⟩ := h
    refine ⟨[], rfl, by simp, ?_, by simp [DescOk], rfl⟩
    intro pre rest hp hr
    have : getItems (pre ++ ([] ++ rest)) (.r .description) = [] := by
      unfold getItems; rw [List.filter_eq_nil_iff]; intro i hi
      simp at hi; rcases hi with hi | hi
      · simpa using hp i hi
      · simpa using hr i hi
    simp only [AstB.getDescription, getSingle, this]
    rfl
  · obtain ⟨ks, rfl⟩ := sym_node hs
    rw [evalF_single] at h
    obtain ⟨ts, rfl, rfl, h3, h4⟩ := desc_node (hc _ (by simp)) h
    refine ⟨ts, rfl, by simp [Item.key], ?_, h3, by simp [h4]⟩
    intro pre rest hp _
    have h0 : getItems pre (.r .description) = [] := by
      unfold getItems; rw [List.filter_eq_nil_iff]; intro i hi; simpa using hp i hi
    have : getSingle (pre ++ ([.description (description ts)] ++ rest)) (.r .description) = some (.description (description ts)) := by
      unfold getSingle
      rw [getItems_append, h0]
      simp [getItems, Item.key]
    simp only [AstB.getDescription, this]

/-- `DataTable`. -/
theorem table_node {cs : List Tree} {n n' : Nat} {its : List Item} (hc : Conforms (.node .dataTable cs))
    (h : evalT (.node .dataTable cs) n = some (its, n')) :
    ∃ r rs, its = [.table { loc := r.loc, rows := (thread row (r :: rs) n).1 }] ∧ n' = (thread row (r :: rs) n).2 ∧
      (∀ t ∈ r :: rs, t.type = some .tableRow) ∧ Rect (r :: rs) ∧ (Tree.node .dataTable cs).core = r :: rs := by
  obtain ⟨items, n1, item, h1, h2, rfl⟩ := evalT_node (by simp) hc h
  obtain ⟨hsp, hcs⟩ := conforms_core hc
  rw [Tree.core_node _ _ (kids_conform hc)]
  obtain ⟨x, y, hxy, hx, hy⟩ := Spells.seq (show Spells (.seq (.sym (.t .tableRow)) (.star (.sym (.t .tableRow)))) _ from hsp)
  obtain ⟨c, rfl, hc1⟩ := hx.sym
  obtain ⟨r, rfl⟩ := sym_leaf hc1
  obtain ⟨rs, rfl⟩ := leaves_of_star hy.star
  have hcons : [Tree.leaf .tableRow r] ++ rs.map (Tree.leaf .tableRow) = (r :: rs).map (Tree.leaf .tableRow) := rfl
  rw [hcons] at hxy
  rw [hxy] at h1 hcs ⊢
  rw [evalF_leaves (by simp)] at h1
  simp only [Option.some.injEq, Prod.mk.injEq] at h1
  obtain ⟨rfl, rfl⟩ := h1
  obtain ⟨hcore, htype⟩ := leaves_core (by rfl) hcs
  have hget : getTokens ((r :: rs).map Item.tok) .tableRow = r :: rs :=
    getTokens_of (by rw [getItems_toks htype]; simp)
  simp only [AstB.transform, AstB.mkDataTable, AstB.getTableRows, hget] at h2
  cases hrag : AstB.raggedRow (AstB.makeRows (r :: rs) n) with
  | some x => rw [hrag] at h2; simp at h2
  | none =>
    rw [hrag] at h2
    have hth := makeRows_thread (r :: rs) n
    have h3 := congrArg Prod.fst hth
    have h4 := congrArg Prod.snd hth
    simp only at h3 h4
    refine ⟨r, rs, ?_, ?_, htype, raggedRow_rect hrag, hcore⟩
    · rw [← h3]
      have h0 : AstB.makeRows (r :: rs) n = ⟨n, r.loc, AstB.getCells r⟩ :: AstB.makeRows rs (n + 1) := by
        simp [AstB.makeRows, List.zipIdx_cons]
      rw [h0] at h2 ⊢
      simp at h2
      simp [← h2.1]
    · have h0 : AstB.makeRows (r :: rs) n = ⟨n, r.loc, AstB.getCells r⟩ :: AstB.makeRows rs (n + 1) := by
        simp [AstB.makeRows, List.zipIdx_cons]
      rw [h0] at h2
      simp only [Prod.mk.injEq] at h2
      rw [← h4, h2.2]

/-- `DocString`. -/
theorem doc_node {cs : List Tree} {n n' : Nat} {its : List Item} (hc : Conforms (.node .docString cs))
    (h : evalT (.node .docString cs) n = some (its, n')) :
    ∃ o ls c d, its = [.docString d] ∧ (Arg.doc o ls c).ast n = (.doc d, n') ∧
      (Arg.doc o ls c).Ok ∧ (Tree.node .docString cs).core = (Arg.doc o ls c).toks := by
  obtain ⟨items, n1, item, h1, h2, rfl⟩ := evalT_node (by simp) hc h
  obtain ⟨hsp, hcs⟩ := conforms_core hc
  rw [Tree.core_node _ _ (kids_conform hc)]
  obtain ⟨x, y, hxy, hx, hy⟩ := Spells.seq (show Spells (.seq (.sym (.t .docStringSeparator)) (.seq (.star (.sym (.t .other)))
    (.sym (.t .docStringSeparator)))) _ from hsp)
  obtain ⟨c1, rfl, hc1⟩ := hx.sym
  obtain ⟨o, rfl⟩ := sym_leaf hc1
  obtain ⟨y1, y2, rfl, hy1, hy2⟩ := hy.seq
  obtain ⟨c2, rfl, hc2⟩ := hy2.sym
  obtain ⟨c, rfl⟩ := sym_leaf hc2
  obtain ⟨ls, rfl⟩ := leaves_of_star hy1.star
  rw [hxy] at h1 hcs ⊢
  have ho := hcs (.leaf .docStringSeparator o) (by simp)
  have hcl := hcs (.leaf .docStringSeparator c) (by simp)
  obtain ⟨hcore, htype⟩ := leaves_core (k := .other) (by rfl) (ts := ls) fun x hx => hcs x (by simp at hx ⊢; right; left; exact hx)
  have hev : evalF ([Tree.leaf .docStringSeparator o] ++ (ls.map (Tree.leaf .other) ++ [Tree.leaf .docStringSeparator c])) n =
      some (Item.tok o :: (ls.map Item.tok ++ [Item.tok c]), n) := by
    rw [evalF_append, evalF_single]
    simp only [evalT, reduceCtorEq, if_false]
    rw [evalF_append, evalF_leaves (by simp)]
    simp [evalF_single, evalT]
  rw [hev] at h1
  simp only [Option.some.injEq, Prod.mk.injEq] at h1
  obtain ⟨rfl, rfl⟩ := h1
  have hg1 : getToken (Item.tok o :: (ls.map Item.tok ++ [Item.tok c])) .docStringSeparator = some o := by
    simp [getToken, getTokens, getItems, Item.key, leaf_type ho]
  have hg2 : getTokens (Item.tok o :: (ls.map Item.tok ++ [Item.tok c])) .other = ls := by
    refine getTokens_of ?_
    have : Item.tok o :: (ls.map Item.tok ++ [Item.tok c]) = [Item.tok o] ++ (ls.map Item.tok ++ [Item.tok c]) := rfl
    rw [this, getItems_append, getItems_append, getItems_tok (leaf_type ho), getItems_toks htype, getItems_tok (leaf_type hcl)]
    simp
  simp only [AstB.transform, AstB.mkDocString, hg1, hg2] at h2
  split at h2
  · simp at h2
  · rename_i media hmedia
    split at h2
    · simp at h2
    · rename_i texts htx
      simp only [Prod.mk.injEq, Except.ok.injEq] at h2
      obtain ⟨rfl, rfl⟩ := h2
      have htx' : (ls.map (·.text)).mapM id = some texts := by
        rw [List.mapM_map]; exact htx
      have := mapM_id_getD htx'
      simp at this
      refine ⟨o, ls, c, _, rfl, ?_, ⟨leaf_type ho, by simp [hmedia], htype, leaf_type hcl⟩, ?_⟩
      · have hto : textOf o = media := by simp [textOf, hmedia]
        simp only [Arg.ast, hto]
        rw [this]
        cases media with
        | nil => simp; rfl
        | cons => simp; rfl
      · simp only [List.flatMap_append, List.flatMap_cons, List.flatMap_nil, hcore, Tree.core_leaf ho (by rfl), Tree.core_leaf hcl (by rfl)]
        simp [Arg.toks]

/-- `Step`. -/
theorem step_builds : BuildsTo .step CStep.ast Item.step CStep.toks CStep.Ok := by
  intro cs n its n' hc h
  obtain ⟨items, n1, item, h1, h2, rfl⟩ := evalT_node (by simp) hc h
  obtain ⟨hsp, hcs⟩ := conforms_core hc
  rw [Tree.core_node _ _ (kids_conform hc)]
  obtain ⟨x, y, hxy, hx, hy⟩ := Spells.seq (show Spells (.seq (.sym (.t .stepLine)) (.alt (.alt (.sym (.r .dataTable))
    (.sym (.r .docString))) .eps)) _ from hsp)
  obtain ⟨c1, rfl, hc1⟩ := hx.sym
  obtain ⟨l, rfl⟩ := sym_leaf hc1
  rw [hxy] at h1 hcs ⊢
  have hl := hcs (.leaf .stepLine l) (by simp)
  obtain ⟨i1, n2, i2, e1, e2, rfl⟩ := evalF_append_some h1
  simp only [evalF_single, evalT] at e1
  simp at e1
  obtain ⟨rfl, rfl⟩ := e1
  have hg : ∀ i2 : List Item, getToken ([Item.tok l] ++ i2) .stepLine = some l := by
    intro i2; simp [getToken, getTokens, getItems, Item.key, leaf_type hl]
  rcases hy.alt with hy | hy
  · rcases hy.alt with hy | hy
    · obtain ⟨c2, rfl, hc2⟩ := hy.sym
      obtain ⟨ks, rfl⟩ := sym_node hc2
      rw [evalF_single] at e2
      obtain ⟨r, rs, rfl, hn, h4, h5, h6⟩ := table_node (hcs _ (by simp)) e2
      subst hn
      refine ⟨⟨l, .table r rs⟩, ?_, ?_, ⟨leaf_type hl, h4, h5⟩, ?_⟩
      · simp only [AstB.transform, AstB.mkStep, hg] at h2
        simp [getSingle, getItems, Item.key, leaf_type hl] at h2
        simp [CStep.ast, Arg.ast, ← h2.1]
      · simp only [AstB.transform, AstB.mkStep, hg] at h2
        simp only [Prod.mk.injEq] at h2
        simp [CStep.ast, Arg.ast, ← h2.2]
      · simp [Tree.core_leaf hl (by rfl), h6, CStep.toks, Arg.toks]
    · obtain ⟨c2, rfl, hc2⟩ := hy.sym
      obtain ⟨ks, rfl⟩ := sym_node hc2
      rw [evalF_single] at e2
      obtain ⟨o, ls, c, d, rfl, h4, h5, h6⟩ := doc_node (hcs _ (by simp)) e2
      refine ⟨⟨l, .doc o ls c⟩, ?_, ?_, ⟨leaf_type hl, h5⟩, ?_⟩
      · simp only [AstB.transform, AstB.mkStep, hg] at h2
        simp [getSingle, getItems, Item.key, leaf_type hl] at h2
        simp [CStep.ast, h4, ← h2.1]
      · simp only [AstB.transform, AstB.mkStep, hg] at h2
        simp only [Prod.mk.injEq] at h2
        simp [CStep.ast, h4, ← h2.2]
      · simp [Tree.core_leaf hl (by rfl), h6, CStep.toks]
  · rw [hy.eps] at e2 ⊢
    simp [evalF] at e2
    obtain ⟨rfl, rfl⟩ := e2
    refine ⟨⟨l, .none⟩, ?_, ?_, ⟨leaf_type hl, trivial⟩, ?_⟩
    · simp only [AstB.transform, AstB.mkStep, hg] at h2
      simp [getSingle, getItems, Item.key, leaf_type hl] at h2
      simp [CStep.ast, Arg.ast, ← h2.1]
    · simp only [AstB.transform, AstB.mkStep, hg] at h2
      simp only [Prod.mk.injEq] at h2
      simp [CStep.ast, Arg.ast, ← h2.2]
    · simp [Tree.core_leaf hl (by rfl), CStep.toks, Arg.toks]

end Gherkin
