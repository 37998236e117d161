import Verif.Proofs.Walk
import Verif.Spec.Cst

/-! Shapes of conforming trees, without comments and blank lines. -/

namespace Gherkin

/-- A right-hand side without the ignorable tokens. -/
def Re.core : Re → Re
  | .empty => .empty
  | .eps => .eps
  | .sym s => if s.ignorable then .eps else .sym s
  | .alt a b => .alt a.core b.core
  | .seq a b => if a.core = .eps then b.core else if b.core = .eps then a.core else .seq a.core b.core
  | .star a => if a.core = .eps then .eps else .star a.core

theorem Lang.eps_inv {w : List Sym} (h : Lang .eps w) : w = [] := by cases h; rfl

theorem Lang.core {g : Re} {w : List Sym} (h : Lang g w) : Lang g.core (w.filter (!·.ignorable)) := by
  induction h with
  | eps => exact .eps
  | sym s =>
    simp only [Re.core]
    cases hs : s.ignorable with
    | true => simp [hs]; exact .eps
    | false => simp [hs]; exact .sym s
  | altL _ ih => exact .altL ih
  | altR _ ih => exact .altR ih
  | seq _ _ ih1 ih2 =>
    simp only [Re.core, List.filter_append]
    split
    · rename_i he
      rw [he] at ih1
      rw [ih1.eps_inv]; exact ih2
    · split
      · rename_i he
        rw [he] at ih2
        rw [ih2.eps_inv, List.append_nil]; exact ih1
      · exact .seq ih1 ih2
  | starNil => simp only [Re.core]; split; exact .eps; exact .starNil
  | starCons _ _ ih1 ih2 =>
    simp only [Re.core, List.filter_append] at ih2 ⊢
    split at ih2
    · rename_i he
      rw [he] at ih1
      rw [if_pos he, ih1.eps_inv]; exact ih2
    · rename_i he
      rw [if_neg he]; exact .starCons ih1 ih2

theorem Skips.core {w w' : List Sym} (h : Skips w w') : w.filter (!·.ignorable) = w'.filter (!·.ignorable) := by
  induction h with
  | nil => rfl
  | keep _ ih => simp [List.filter_cons, ih]
  | skip hi _ ih => simp [hi, ih]

/-- The children that are neither comments nor blank lines. -/
def coreF (cs : List Tree) : List Tree := cs.filter (fun c => !c.sym.ignorable)

/-- The list of children spells a word. -/
def Spells (g : Re) (cs : List Tree) : Prop := Lang g (cs.map Tree.sym)

theorem conforms_core {r : Rule} {cs : List Tree} (h : Conforms (.node r cs)) :
    Spells (grammar r).core (coreF cs) ∧ ∀ c ∈ coreF cs, Conforms c := by
  cases h with
  | node h1 h2 h3 =>
    refine ⟨?_, fun c hc => h1 c ((List.mem_filter.1 hc).1)⟩
    have := h3.core
    rw [← h2.core] at this
    unfold Spells coreF
    rw [List.filter_map] at this
    exact this

namespace Spells

theorem seq {a b : Re} {cs : List Tree} (h : Spells (.seq a b) cs) : ∃ x y, cs = x ++ y ∧ Spells a x ∧ Spells b y := by
  unfold Spells at h
  generalize hw : cs.map Tree.sym = w at h
  cases h with
  | seq h1 h2 =>
    obtain ⟨x, y, rfl, rfl, rfl⟩ := List.map_eq_append_iff.1 hw
    exact ⟨x, y, rfl, h1, h2⟩

theorem alt {a b : Re} {cs : List Tree} (h : Spells (.alt a b) cs) : Spells a cs ∨ Spells b cs := by
  unfold Spells at h ⊢
  cases h with
  | altL h => exact .inl h
  | altR h => exact .inr h

theorem eps {cs : List Tree} (h : Spells .eps cs) : cs = [] := by
  have := Lang.eps_inv h
  simpa using this

theorem sym {s : Sym} {cs : List Tree} (h : Spells (.sym s) cs) : ∃ c, cs = [c] ∧ c.sym = s := by
  unfold Spells at h
  generalize hw : cs.map Tree.sym = w at h
  cases h
  match cs, hw with
  | [c], hw => exact ⟨c, rfl, by simpa using hw⟩

theorem star {s : Sym} {cs : List Tree} (h : Spells (.star (.sym s)) cs) : ∀ c ∈ cs, c.sym = s := by
  have key : ∀ g w, Lang g w → g = .star (.sym s) → ∀ x ∈ w, x = s := by
    intro g w h
    induction h with
    | starNil => simp
    | starCons h1 _ _ ih =>
      intro hg x hx
      cases hg
      cases h1
      simp at hx
      rcases hx with rfl | hx
      · rfl
      · exact ih rfl x hx
    | _ => intro hg; cases hg
  intro c hc
  exact key _ _ h rfl _ (List.mem_map_of_mem hc)

theorem opt {s : Sym} {cs : List Tree} (h : Spells (.alt (.sym s) .eps) cs) : cs = [] ∨ ∃ c, cs = [c] ∧ c.sym = s := by
  rcases h.alt with h | h
  · exact .inr h.sym
  · exact .inl h.eps

end Spells

theorem sym_leaf {c : Tree} {k : Kind} (h : c.sym = .t k) : ∃ t, c = .leaf k t := by
  cases c with
  | leaf k' t => simp [Tree.sym] at h; subst h; exact ⟨t, rfl⟩
  | node r cs => simp [Tree.sym] at h

theorem sym_node {c : Tree} {r : Rule} (h : c.sym = .r r) : ∃ cs, c = .node r cs := by
  cases c with
  | leaf k t => simp [Tree.sym] at h
  | node r' cs => simp [Tree.sym] at h; subst h; exact ⟨cs, rfl⟩

theorem leaves_of_star {k : Kind} : ∀ {cs : List Tree}, (∀ c ∈ cs, c.sym = .t k) → ∃ ts : List Token, cs = ts.map (Tree.leaf k)
  | [], _ => ⟨[], rfl⟩
  | c :: cs, h => by
    obtain ⟨t, rfl⟩ := sym_leaf (h c (by simp))
    obtain ⟨ts, rfl⟩ := leaves_of_star (cs := cs) fun x hx => h x (by simp [hx])
    exact ⟨t :: ts, rfl⟩

/-! ### Leaves -/

/-- A token that is neither a comment nor a blank line. -/
def Token.isCore (t : Token) : Bool := !(t.type = some .comment || t.type = some .empty)

/-- The leaves of a tree that are neither comments nor blank lines. -/
def Tree.core (c : Tree) : List Token := c.leaves.filter Token.isCore

theorem Tree.core_node (r : Rule) (cs : List Tree) (h : ∀ c ∈ cs, Conforms c) :
    (Tree.node r cs).core = (coreF cs).flatMap Tree.core := by
  unfold Tree.core
  simp only [Tree.leaves]
  induction cs with
  | nil => simp [coreF]
  | cons c cs ih =>
    have ih := ih fun x hx => h x (by simp [hx])
    have hc := h c (by simp)
    simp only [List.flatMap_cons, List.filter_append, ih, coreF, List.filter_cons]
    cases hi : c.sym.ignorable with
    | false => simp [List.flatMap_cons]
    | true =>
      simp only [Bool.not_true, Bool.false_eq_true, if_false]
      have : (c.leaves).filter Token.isCore = [] := by
        cases hc with
        | @leaf k t ht =>
          cases k <;> simp [Tree.sym, Sym.ignorable] at hi <;> simp [Tree.leaves, Token.isCore, ht]
        | node => simp [Tree.sym, Sym.ignorable] at hi
      rw [this]; rfl

theorem Tree.core_leaf {k : Kind} {t : Token} (h : Conforms (.leaf k t)) (hk : (Sym.t k).ignorable = false) :
    (Tree.leaf k t).core = [t] := by
  cases h with
  | leaf ht => cases k <;> simp [Sym.ignorable] at hk <;> simp [Tree.core, Tree.leaves, Token.isCore, ht]

/-! ### Evaluation of the children -/

theorem evalF_append (a b : List Tree) (n : Nat) : evalF (a ++ b) n =
    match evalF a n with
    | none => none
    | some (i1, n1) => match evalF b n1 with | none => none | some (i2, n2) => some (i1 ++ i2, n2) := by
  induction a generalizing n with
  | nil => simp only [evalF, List.nil_append]; cases evalF b n with | none => rfl | some p => rfl
  | cons c a ih =>
    simp only [List.cons_append, evalF]
    cases evalT c n with
    | none => rfl
    | some p =>
      simp only [ih]
      cases evalF a p.2 with
      | none => rfl
      | some q =>
        simp only
        cases evalF b q.2 with
        | none => rfl
        | some x => simp

theorem evalF_append_some {a b : List Tree} {n n' : Nat} {items : List Item} (h : evalF (a ++ b) n = some (items, n')) :
    ∃ i1 n1 i2, evalF a n = some (i1, n1) ∧ evalF b n1 = some (i2, n') ∧ items = i1 ++ i2 := by
  rw [evalF_append] at h
  cases h1 : evalF a n with
  | none => rw [h1] at h; simp at h
  | some p =>
    rw [h1] at h
    simp only at h
    cases h2 : evalF b p.2 with
    | none => rw [h2] at h; simp at h
    | some q => rw [h2] at h; simp at h; exact ⟨p.1, p.2, q.1, rfl, by rw [h2, ← h.2], h.1.symm⟩

/-- Items that the builder looks up by keys other than that of blank lines. -/
def Item.isBlank (i : Item) : Bool := i.key = .t .empty

/-- Two item lists that agree but for blank lines. -/
def Same (a b : List Item) : Prop := a.filter (!·.isBlank) = b.filter (!·.isBlank)

theorem evalF_core {cs : List Tree} (hc : ∀ c ∈ cs, Conforms c) {n n' : Nat} {items : List Item}
    (h : evalF cs n = some (items, n')) : ∃ items', evalF (coreF cs) n = some (items', n') ∧ Same items items' := by
  induction cs generalizing n items with
  | nil => exact ⟨items, by simpa [coreF] using h, rfl⟩
  | cons c cs ih =>
    obtain ⟨i1, n1, i2, h1, h2, rfl⟩ := evalF_append_some (a := [c]) (b := cs) h
    obtain ⟨i2', h3, h4⟩ := ih (fun x hx => hc x (by simp [hx])) h2
    have h1' : evalT c n = some (i1, n1) := by
      simp only [evalF] at h1
      cases h5 : evalT c n with
      | none => rw [h5] at h1; simp at h1
      | some p => rw [h5] at h1; simp at h1; rw [← h1.1, ← h1.2]
    cases hi : c.sym.ignorable with
    | false =>
      refine ⟨i1 ++ i2', ?_, ?_⟩
      · have : coreF (c :: cs) = [c] ++ coreF cs := by simp [coreF, hi]
        rw [this, evalF_append, h1]
        simp [h3]
      · unfold Same at h4 ⊢; simp [h4]
    | true =>
      have : coreF (c :: cs) = coreF cs := by simp [coreF, hi]
      rw [this]
      have hcc := hc c (by simp)
      cases hcc with
      | @leaf k t ht =>
        have hn : n1 = n ∧ ∀ i ∈ i1, i.isBlank = true := by
          simp only [evalT] at h1'
          split at h1'
          · simp at h1'; simp [h1'.1, h1'.2]
          · simp at h1'
            refine ⟨h1'.2.symm, ?_⟩
            rw [← h1'.1]
            have hk : k = .empty := by cases k <;> simp [Tree.sym, Sym.ignorable] at hi <;> simp_all
            subst hk
            simp [Item.isBlank, Item.key, ht]
        rw [hn.1] at h3
        refine ⟨i2', h3, ?_⟩
        unfold Same at h4 ⊢
        have : i1.filter (!·.isBlank) = [] := by
          rw [List.filter_eq_nil_iff]; intro i hi; simp [hn.2 i hi]
        rw [List.filter_append, this, h4]; rfl
      | node => simp [Tree.sym, Sym.ignorable] at hi

theorem evalF_leaves {k : Kind} (hk : k ≠ .comment) (ts : List Token) (n : Nat) :
    evalF (ts.map (Tree.leaf k)) n = some (ts.map Item.tok, n) := by
  induction ts with
  | nil => rfl
  | cons t ts ih => simp [evalF, evalT, hk, ih]

theorem evalF_single (c : Tree) (n : Nat) : evalF [c] n = evalT c n := by
  simp only [evalF]
  cases evalT c n with
  | none => rfl
  | some p => simp

/-! ### Looking up -/

open AstNode

theorem getItems_same {a b : List Item} (h : Same a b) {k : Key} (hk : k ≠ .t .empty) : getItems a k = getItems b k := by
  have key : ∀ l : List Item, getItems l k = getItems (l.filter (!·.isBlank)) k := by
    intro l
    unfold getItems
    rw [List.filter_filter]
    refine List.filter_congr ?_
    intro i _
    by_cases hi : i.key = k
    · simp [hi, Item.isBlank, hk]
    · simp [hi]
  rw [key a, key b, h]

theorem getItems_append (a b : List Item) (k : Key) : getItems (a ++ b) k = getItems a k ++ getItems b k := List.filter_append ..

theorem getItems_all {a : List Item} {k : Key} (h : ∀ i ∈ a, i.key = k) : getItems a k = a := by
  unfold getItems; rw [List.filter_eq_self]; intro i hi; simp [h i hi]

theorem getItems_other {a : List Item} {k k' : Key} (h : ∀ i ∈ a, i.key = k') (hk : k' ≠ k) : getItems a k = [] := by
  unfold getItems; rw [List.filter_eq_nil_iff]; intro i hi; simp [h i hi, hk]

end Gherkin
