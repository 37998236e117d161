import Verif.Proofs.CstRules2

/-! An accepted parse returns the abstract syntax of a typed syntax tree whose tokens are the recognised tokens. -/

namespace Gherkin

open AstNode Cst

/-- The comments among tokens. -/
def commentsOf (ts : List Token) : List Comment := (ts.filter fun t => t.type = some .comment).map fun t => ⟨t.loc, t.text⟩

theorem commentsOf_append (a b : List Token) : commentsOf (a ++ b) = commentsOf a ++ commentsOf b := by simp [commentsOf]

mutual
theorem commentsT_leaves : ∀ (c : Tree), Plain c → commentsT c = commentsOf c.leaves
  | .leaf k t, h => by
    simp only [Plain] at h
    by_cases hk : k = .comment
    · subst hk; simp [commentsT, commentsOf, Tree.leaves, h]
    · simp [commentsT, commentsOf, Tree.leaves, h, hk]
  | .node _ cs, h => by
    simp only [commentsT, Tree.leaves]
    exact commentsF_leaves cs (by simp only [Plain] at h; exact h.2)
theorem commentsF_leaves : ∀ (cs : List Tree), PlainF cs → commentsF cs = commentsOf (cs.flatMap Tree.leaves)
  | [], _ => rfl
  | c :: cs, h => by
    simp only [PlainF] at h
    simp only [commentsF, List.flatMap_cons, commentsOf_append]
    rw [commentsT_leaves c h.1, commentsF_leaves cs h.2]
end

/-- The whole document. -/
theorem document_eval {kids : List Tree} {n n' : Nat} {items : List Item} {cm : List Comment}
    (hc : Conforms (.node .gherkinDocument kids)) (h : evalF kids n = some (items, n')) :
    ∃ D : CDoc, AstB.mkDocument items cm = .document (D.ast cm n).1 ∧ n' = (D.ast cm n).2 ∧ D.Ok ∧
      (Tree.node .gherkinDocument kids).core = D.toks := by
  obtain ⟨items', h1, hsame⟩ := evalF_core (kids_conform hc) h
  obtain ⟨hsp, hcs⟩ := conforms_core hc
  rw [Tree.core_node _ _ (kids_conform hc)]
  obtain ⟨x, y, hxy, hx, hy⟩ := Spells.seq (show Spells (.seq (.alt (.sym (.r .feature)) .eps) (.sym (.t .eof))) _ from hsp)
  obtain ⟨c1, rfl, hc1⟩ := hy.sym
  obtain ⟨l, rfl⟩ := sym_leaf hc1
  rw [hxy] at h1 hcs ⊢
  have hl := hcs (.leaf .eof l) (by simp)
  obtain ⟨i1, n2, i2, e1, e2, rfl⟩ := evalF_append_some h1
  obtain ⟨rfl, rfl⟩ := evalF_leaf_inv (by simp) e2
  obtain ⟨F, rfl, rfl, hok, hcore⟩ := feature_builds.opt (fun c hc => hcs c (by simp [hc])) hx.opt e1
  refine ⟨⟨F, l⟩, ?_, rfl, ⟨hok, leaf_type hl⟩, ?_⟩
  · unfold AstB.mkDocument
    rw [getSingle_same hsame (by simp)]
    unfold getSingle
    rw [getItems_append, getItems_tok (leaf_type hl), getItems_map (fun f => Item.feature (some f)) (.r .feature) (fun _ => rfl)]
    simp only [reduceCtorEq, if_false, if_true, List.append_nil, CDoc.ast]
    cases (threadOpt CFeature.ast F n).1 <;> simp
  · simp [hcore, Tree.core_leaf hl (by rfl), CDoc.toks]

/-- An accepted parse with the AST builder. -/
theorem parse_doc {μ : Type} {M : Matcher μ} (hM : M.Lawful) (stop : Bool) {text : Str} {m : μ} {b : BState} {r : Option Document}
    (h : (parse ⟨M, astBuilder, stop⟩ text m b).1 = .ok r) :
    ∃ D : CDoc, D.Ok ∧ D.toks = (builds (parse ⟨M, astBuilder, stop⟩ text m b).2.log).filter Token.isCore ∧
      r = some (D.ast (commentsOf (builds (parse ⟨M, astBuilder, stop⟩ text m b).2.log)) b.nextId).1 ∧
      (parse ⟨M, astBuilder, stop⟩ text m b).2.builder.nextId =
        (D.ast (commentsOf (builds (parse ⟨M, astBuilder, stop⟩ text m b).2.log)) b.nextId).2 := by
  rcases hp : parse ⟨M, astBuilder, stop⟩ text m b with ⟨x, c⟩
  rw [hp] at h
  simp only at h ⊢
  subst h
  obtain ⟨h1, h2, kids, hA⟩ := (parse_cases (cfg := ⟨M, astBuilder, stop⟩) hM text m b).1 r c hp
  obtain ⟨hplain, items, n, hev, hb⟩ := accepted_eval hA
  have hcm : commentsF kids = commentsOf (builds c.log) := by
    rw [commentsF_leaves kids hplain, ← hA.leaves, Tree.leaves]
  obtain ⟨D, d1, d2, d3, d4⟩ := document_eval (cm := commentsF kids) hA.conforms hev
  rw [Tree.core, hA.leaves] at d4
  rw [hcm] at hb d1 d2
  refine ⟨D, d3, d4.symm, ?_, ?_⟩
  · rw [hb] at h2
    simp only [astBuilder, AstB.result, d1] at h2
    simp [getSingle, getItems, Item.key] at h2
    exact h2.symm
  · rw [hb]; exact d2

end Gherkin
