import Verif.Proofs.Regex
import Verif.Proofs.Lawful

/-! The concrete syntax tree of a run, read off the ghost log, and its agreement with the grammar. -/

namespace Gherkin

/-- Open rules with their finished children, innermost first. -/
abbrev TStack := List (Rule × List Tree)

/-- The effect of one logged event on the tree under construction. -/
def applyT (s : TStack) : Ev → TStack
  | .take _ => s
  | .start r => (r, []) :: s
  | .stop _ =>
    match s with
    | (r, cs) :: (pr, pcs) :: rest => (pr, pcs ++ [.node r cs]) :: rest
    | s => s
  | .build t =>
    match s with
    | (r, cs) :: rest => (r, cs ++ [.leaf (t.type.getD .other) t]) :: rest
    | [] => []

/-- The tree under construction after a log. -/
def treeStack (log : List Ev) : TStack := log.foldl applyT [(.none, [])]

theorem treeStack_append (log : List Ev) (e : Ev) : treeStack (log ++ [e]) = applyT (treeStack log) e := by
  simp [treeStack]

/-- The stack fits a stack of grammar positions. `pend` is the rule opened above the top, if any. -/
inductive Fits : Option Rule → TStack → Conf → Prop
  | nil {p} : Fits p [] []
  | cons {p r cs g rest crest} : advs (grammar r) (cs.map Tree.sym ++ p.toList.map Sym.r) = some g →
      (∀ c ∈ cs, Conforms c) → (r = .none → cs = []) → Fits (some r) rest crest →
      Fits p ((r, cs) :: rest) ((r, g) :: crest)

theorem fits_start {s : TStack} {cf cf' : Conf} {k : Kind} {r : Rule} (h : Fits none s cf)
    (hs : stepConf k cf (.start r) = some cf') : Fits none (applyT s (.start r)) cf' := by
  cases h with
  | nil => simp [stepConf] at hs
  | cons h1 h2 hr0 h3 =>
    rename_i r' cs g rest crest
    simp only [stepConf] at hs
    cases ha : adv g (.r r) with
    | none => rw [ha] at hs; simp at hs
    | some g' =>
      rw [ha] at hs
      simp at hs
      subst hs
      refine .cons (by simp [advs]) (by simp) (by simp) (.cons ?_ h2 hr0 h3)
      simp at h1
      simp [advs_append, h1, ha]

theorem fits_build {s : TStack} {cf cf' : Conf} {k : Kind} {t : Token} (h : Fits none s cf) (ht : t.type = some k)
    (hs : stepConf k cf .build = some cf') : Fits none (applyT s (.build t)) cf' := by
  cases h with
  | nil => simp [stepConf] at hs
  | cons h1 h2 hr0 h3 =>
    rename_i r' cs g rest crest
    simp only [stepConf] at hs
    split at hs
    · cases hs
    rename_i hnn
    cases ha : adv g (.t k) with
    | none => rw [ha] at hs; simp at hs
    | some g' =>
      rw [ha] at hs
      simp at hs
      subst hs
      refine .cons ?_ ?_ (fun h => absurd h hnn) h3
      · simp at h1
        simp [advs_append, h1, ht, ha, Tree.sym]
      · intro c hc
        simp at hc
        rcases hc with hc | hc
        · exact h2 c hc
        · subst hc; rw [ht]; exact .leaf ht

theorem fits_stop {s : TStack} {cf cf' : Conf} {k : Kind} {r : Rule} (h : Fits none s cf)
    (hs : stepConf k cf (.stop r) = some cf') (hne : cf' ≠ []) : Fits none (applyT s (.stop r)) cf' := by
  cases h with
  | nil => simp [stepConf] at hs
  | cons h1 h2 hr0 h3 =>
    rename_i r' cs g rest crest
    simp only [stepConf] at hs
    split at hs
    · rename_i hr
      simp at hs
      subst hs
      cases h3 with
      | nil => exact absurd rfl hne
      | cons h4 h5 h50 h6 =>
        rename_i pr pcs pg rest' crest'
        refine .cons ?_ ?_ (fun h => absurd (by simp [h]) hr.2.2) h6
        · simpa [Tree.sym] using h4
        · intro c hc
          simp at hc
          rcases hc with hc | hc
          · exact h5 c hc
          · subst hc
            simp at h1
            obtain ⟨w', hw, hl⟩ := advs_sound h1 (Re.nullable_lang hr.2.1)
            simp at hl
            exact .node h2 hw hl
    · simp at hs

/-- The event of a production. -/
def Prod.ev (t : Token) : Prod → Ev
  | .start r => .start r
  | .stop r => .stop r
  | .build => .build t

/-- The tokens handed to the builder. -/
def builds : List Ev → List Token
  | [] => []
  | .build t :: es => t :: builds es
  | _ :: es => builds es

/-- The lines taken by the main loop. -/
def takes : List Ev → List Line
  | [] => []
  | .take l :: es => l :: takes es
  | _ :: es => takes es

theorem builds_append (a b : List Ev) : builds (a ++ b) = builds a ++ builds b := by
  induction a with
  | nil => rfl
  | cons e es ih => cases e <;> simp [builds, ih]

theorem takes_append (a b : List Ev) : takes (a ++ b) = takes a ++ takes b := by
  induction a with
  | nil => rfl
  | cons e es ih => cases e <;> simp [takes, ih]

theorem takes_prods (t : Token) (ps : List Prod) : takes (ps.map (Prod.ev t)) = [] := by
  induction ps with
  | nil => rfl
  | cons p ps ih => cases p <;> simp [Prod.ev, takes, ih]

/-- The tokens at the leaves of an unfinished tree, in order. -/
def TStack.leaves : TStack → List Token
  | [] => []
  | (_, cs) :: rest => TStack.leaves rest ++ cs.flatMap Tree.leaves

theorem applyT_leaves (s : TStack) (e : Ev) (hs : s ≠ []) : TStack.leaves (applyT s e) = TStack.leaves s ++ builds [e] := by
  cases e with
  | take l => simp [applyT, builds]
  | start r => simp [applyT, builds, TStack.leaves]
  | stop r =>
    match s with
    | [] => exact absurd rfl hs
    | [(r, cs)] => simp [applyT, builds]
    | (r, cs) :: (pr, pcs) :: rest => simp [applyT, builds, TStack.leaves, Tree.leaves]
  | build t =>
    match s with
    | [] => exact absurd rfl hs
    | (r, cs) :: rest => simp [applyT, builds, TStack.leaves, Tree.leaves]

theorem applyT_ne (s : TStack) (e : Ev) (hs : s ≠ []) : applyT s e ≠ [] := by
  cases e with
  | take l => simpa [applyT]
  | start r => simp [applyT]
  | stop r =>
    match s with
    | [] => exact absurd rfl hs
    | [(r, cs)] => simp [applyT]
    | (r, cs) :: (pr, pcs) :: rest => simp [applyT]
  | build t =>
    match s with
    | [] => exact absurd rfl hs
    | (r, cs) :: rest => simp [applyT]

theorem treeStack_ne (log : List Ev) : treeStack log ≠ [] := by
  unfold treeStack
  have : ∀ (s : TStack), s ≠ [] → log.foldl applyT s ≠ [] := by
    induction log with
    | nil => intro s hs; exact hs
    | cons e es ih => intro s hs; exact ih _ (applyT_ne s e hs)
  exact this _ (by simp)

theorem treeStack_leaves (log : List Ev) : (treeStack log).leaves = builds log := by
  have key : ∀ (log : List Ev) (s : TStack), s ≠ [] → (log.foldl applyT s).leaves = s.leaves ++ builds log := by
    intro log
    induction log with
    | nil => intro s _; simp [builds]
    | cons e es ih =>
      intro s hs
      simp only [List.foldl_cons]
      rw [ih _ (applyT_ne s e hs), applyT_leaves s e hs]
      have : builds (e :: es) = builds [e] ++ builds es := by
        rw [← builds_append]; rfl
      rw [this, List.append_assoc]
  have := key log [(.none, [])] (by simp)
  simpa [treeStack, TStack.leaves] using this

/-- Running productions that fit the grammar. -/
theorem fits_prods {s : TStack} {cf cf' : Conf} {k : Kind} {t : Token} {ps : List Prod} (h : Fits none s cf)
    (ht : t.type = some k) (hne : cf' ≠ []) (hs : stepConfs k cf ps = some cf') :
    Fits none (ps.foldl (fun s p => applyT s (p.ev t)) s) cf' := by
  induction ps generalizing s cf with
  | nil => simp [stepConfs] at hs; subst hs; exact h
  | cons p ps ih =>
    simp only [stepConfs] at hs
    cases hp : stepConf k cf p with
    | none => rw [hp] at hs; simp at hs
    | some cf1 =>
      rw [hp] at hs
      simp only [List.foldl_cons]
      have hne1 : cf1 ≠ [] := by
        intro h0
        subst h0
        cases ps with
        | nil => simp [stepConfs] at hs; exact hne hs
        | cons p' ps' => cases p' <;> simp [stepConfs, stepConf] at hs
      refine ih ?_ hs
      cases p with
      | start r => exact fits_start h hp
      | stop r => exact fits_stop h hp hne1
      | build => exact fits_build h ht hp

theorem confOf_ne {q : Nat} {cf : Conf} (h : confOf q = some cf) : cf ≠ [] := by
  have key : confs.all (fun p => !p.2.isEmpty) = true := by decide +kernel
  unfold confOf at h
  have hmem : (q, cf) ∈ confs := by
    revert h
    generalize confs = l
    intro h
    induction l with
    | nil => simp [List.lookup] at h
    | cons p l ih =>
      obtain ⟨q', cf'⟩ := p
      simp only [List.lookup] at h
      split at h
      · rename_i hq
        simp at hq h
        subst hq; subst h; simp
      · exact List.mem_cons_of_mem _ (ih h)
  have := List.all_eq_true.1 key _ hmem
  intro h0; subst h0; simp at this

end Gherkin
