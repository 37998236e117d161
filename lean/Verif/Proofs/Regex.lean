import Verif.Spec.Grammar
import Verif.Gen.Table

/-! Derivatives of the grammar's right-hand sides, the stack of grammar positions for every parser state, and the finite
check that every transition of the generated table moves from one state's stack to the next state's. -/

namespace Gherkin

namespace Re

def nullable : Re → Bool
  | .empty => false
  | .eps => true
  | .sym _ => false
  | .alt a b => nullable a || nullable b
  | .seq a b => nullable a && nullable b
  | .star _ => true

def mkAlt (a b : Re) : Re := if a = .empty then b else if b = .empty then a else if a = b then a else .alt a b
def mkSeq (a b : Re) : Re :=
  if a = .empty then .empty else if b = .empty then .empty else if a = .eps then b else if b = .eps then a else .seq a b

def deriv (s : Sym) : Re → Re
  | .empty => .empty
  | .eps => .empty
  | .sym s' => if s = s' then .eps else .empty
  | .alt a b => mkAlt (deriv s a) (deriv s b)
  | .seq a b => if nullable a then mkAlt (mkSeq (deriv s a) b) (deriv s b) else mkSeq (deriv s a) b
  | .star a => mkSeq (deriv s a) (.star a)

theorem nullable_lang {g : Re} (h : nullable g = true) : Lang g [] := by
  induction g with
  | empty => simp [nullable] at h
  | eps => exact .eps
  | sym s => simp [nullable] at h
  | alt a b iha ihb =>
    simp [nullable] at h
    rcases h with h | h
    · exact .altL (iha h)
    · exact .altR (ihb h)
  | seq a b iha ihb =>
    simp [nullable] at h
    exact Lang.seq (iha h.1) (ihb h.2)
  | star a _ => exact .starNil

theorem mkAlt_lang {a b : Re} {w : List Sym} (h : Lang (mkAlt a b) w) : Lang a w ∨ Lang b w := by
  unfold mkAlt at h
  split at h
  · exact .inr h
  · split at h
    · exact .inl h
    · split at h
      · exact .inl h
      · cases h with
        | altL h => exact .inl h
        | altR h => exact .inr h

theorem mkSeq_lang {a b : Re} {w : List Sym} (h : Lang (mkSeq a b) w) : ∃ u v, w = u ++ v ∧ Lang a u ∧ Lang b v := by
  unfold mkSeq at h
  split at h
  · cases h
  · split at h
    · cases h
    · split at h
      · rename_i ha; subst ha; exact ⟨[], w, rfl, .eps, h⟩
      · split at h
        · rename_i hb; subst hb; exact ⟨w, [], by simp, h, .eps⟩
        · cases h with
          | seq hu hv => exact ⟨_, _, rfl, hu, hv⟩

theorem deriv_lang {g : Re} {s : Sym} {w : List Sym} (h : Lang (deriv s g) w) : Lang g (s :: w) := by
  induction g generalizing w with
  | empty => cases h
  | eps => cases h
  | sym s' =>
    simp only [deriv] at h
    split at h
    · rename_i hs; subst hs; cases h; exact .sym s
    · cases h
  | alt a b iha ihb =>
    rcases mkAlt_lang h with h | h
    · exact .altL (iha h)
    · exact .altR (ihb h)
  | seq a b iha ihb =>
    have key : ∀ w, Lang (mkSeq (deriv s a) b) w → Lang (.seq a b) (s :: w) := by
      intro w h
      obtain ⟨u, v, rfl, hu, hv⟩ := mkSeq_lang h
      exact Lang.seq (iha hu) hv
    simp only [deriv] at h
    split at h
    · rename_i hn
      rcases mkAlt_lang h with h | h
      · exact key w h
      · have := Lang.seq (nullable_lang hn) (ihb h)
        simpa using this
    · exact key w h
  | star a iha =>
    obtain ⟨u, v, rfl, hu, hv⟩ := mkSeq_lang h
    exact Lang.starCons (iha hu) hv

end Re

/-- Reading one symbol: along the grammar if possible, otherwise ignorable tokens are skipped. -/
def adv (g : Re) (s : Sym) : Option Re :=
  if Re.deriv s g = .empty then (if s.ignorable then some g else none) else some (Re.deriv s g)

/-- Reading a word. -/
def advs (g : Re) : List Sym → Option Re
  | [] => some g
  | s :: w => match adv g s with | some g' => advs g' w | none => none

theorem advs_append (g : Re) (w : List Sym) (s : Sym) : advs g (w ++ [s]) = (advs g w).bind fun g' => adv g' s := by
  induction w generalizing g with
  | nil =>
    simp only [List.nil_append, advs, Option.bind_some]
    cases adv g s <;> rfl
  | cons s' w ih =>
    simp only [List.cons_append, advs]
    cases adv g s' with
    | none => rfl
    | some g' => exact ih g'

theorem advs_sound {g g' : Re} {w v : List Sym} (h : advs g w = some g') (hv : Lang g' v) :
    ∃ w', Skips w w' ∧ Lang g (w' ++ v) := by
  induction w generalizing g with
  | nil => simp [advs] at h; subst h; exact ⟨[], .nil, hv⟩
  | cons s w ih =>
    unfold advs at h
    split at h
    · rename_i g1 hg1
      obtain ⟨w', hs, hl⟩ := ih h
      unfold adv at hg1
      split at hg1
      · split at hg1
        · rename_i hi
          cases hg1
          exact ⟨w', .skip hi hs, hl⟩
        · cases hg1
      · cases hg1
        exact ⟨s :: w', .keep hs, Re.deriv_lang hl⟩
    · cases h

/-- A stack of grammar positions: open rules, innermost first, with what is still to come in each. A rule's own symbol
counts as read in its parent as soon as the rule is opened. -/
abbrev Conf := List (Rule × Re)

/-- The effect of one production on the stack of positions, for a token of kind `k`. -/
def stepConf (k : Kind) (cf : Conf) (p : Prod) : Option Conf :=
  match p, cf with
  | .start r, (pr, g) :: rest => match adv g (.r r) with | some g' => some ((r, grammar r) :: (pr, g') :: rest) | none => none
  | .stop r, (r', g) :: rest => if r = r' ∧ g.nullable = true ∧ rest.head?.map (·.1) ≠ some .none then some rest else none
  | .build, (r, g) :: rest =>
    if r = .none then none else match adv g (.t k) with | some g' => some ((r, g') :: rest) | none => none
  | _, [] => none

def stepConfs (k : Kind) : Conf → List Prod → Option Conf
  | cf, [] => some cf
  | cf, p :: ps => match stepConf k cf p with | some cf' => stepConfs k cf' ps | none => none

/-- The stack at state 0, after `start_rule("GherkinDocument")`. -/
def conf0 : Conf := [(.gherkinDocument, grammar .gherkinDocument), (.none, .eps)]

/-- Breadth-first search over the table (used only to name the stacks; `conf_table` checks the result). -/
def bfs : Nat → List Nat → List (Nat × Conf) → List (Nat × Conf)
  | 0, _, done => done
  | _, [], done => done
  | fuel + 1, q :: todo, done =>
    match table q, done.lookup q with
    | some row, some cf =>
      let new := row.trans.foldl (fun acc tr =>
        if (acc.lookup tr.target).isSome then acc
        else match stepConfs tr.kind cf tr.prods with
          | some cf' => acc ++ [(tr.target, cf')]
          | none => acc) done
      bfs fuel (todo ++ (new.drop done.length).map (·.1)) new
    | _, _ => bfs fuel todo done

def confs : List (Nat × Conf) := bfs 60 [0] [(0, conf0)]

/-- The stack of grammar positions at each parser state. -/
def confOf (q : Nat) : Option Conf := confs.lookup q

/-- The check for one transition of state `q`. -/
def transOk (q : Nat) (tr : Trans) : Bool :=
  match confOf q with
  | some cf => stepConfs tr.kind cf tr.prods == confOf tr.target && (confOf tr.target).isSome
  | none => false

/-- The check for one state. -/
def rowOk (q : Nat) : Bool :=
  match table q with
  | some row => row.trans.all (transOk q) && row.stay == q
  | none => true

theorem rows_ok : ∀ q ∈ allStates, rowOk q = true := by decide +kernel

theorem mem_allStates {q : Nat} {row : StateRow} (h : table q = some row) : q ∈ allStates := by
  unfold table at h
  split at h
  all_goals first | decide | simp at h

/-- **Every transition of the generated table follows the grammar.** -/
theorem table_follows_grammar {q : Nat} {row : StateRow} (h : table q = some row) :
    row.stay = q ∧ ∀ tr ∈ row.trans, ∃ cf cf', confOf q = some cf ∧ confOf tr.target = some cf' ∧
      stepConfs tr.kind cf tr.prods = some cf' := by
  have hq := rows_ok q (mem_allStates h)
  unfold rowOk at hq
  rw [h] at hq
  simp only [Bool.and_eq_true, List.all_eq_true, beq_iff_eq] at hq
  refine ⟨hq.2, fun tr htr => ?_⟩
  have := hq.1 tr htr
  unfold transOk at this
  cases hc : confOf q with
  | none => rw [hc] at this; simp at this
  | some cf =>
    rw [hc] at this
    simp only [Bool.and_eq_true, beq_iff_eq] at this
    obtain ⟨cf', hcf'⟩ := Option.isSome_iff_exists.1 this.2
    exact ⟨cf, cf', rfl, hcf', this.1.trans hcf'⟩

theorem confOf_zero : confOf 0 = some conf0 := by decide +kernel

end Gherkin
