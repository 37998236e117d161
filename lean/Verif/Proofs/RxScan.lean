import Verif.Proofs.RxRun
import Verif.Line

/-! `finditer`, `search`, `sub` and `split`. -/

namespace Gherkin.Regex

theorem loop_le {f : Pos → List Pos} : ∀ (n : Nat) (p q : Pos), q ∈ loop f n p → q.rest.length ≤ p.rest.length := by
  intro n
  induction n with
  | zero => intro p q h; simp [loop] at h; subst h; exact Nat.le_refl _
  | succ n ih =>
    intro p q h
    simp only [loop, List.mem_append, List.mem_flatMap, List.mem_filter, decide_eq_true_eq, List.mem_singleton] at h
    rcases h with ⟨x, ⟨_, h1⟩, h2⟩ | rfl
    · exact Nat.le_trans (ih _ _ h2) (Nat.le_of_lt h1)
    · exact Nat.le_refl _

/-- Matching never goes back. -/
theorem run_le : ∀ (r : Rx) (p q : Pos), q ∈ r.run p → q.rest.length ≤ p.rest.length := by
  intro r
  induction r with
  | eps => intro p q h; simp [Rx.run] at h; subst h; exact Nat.le_refl _
  | set s =>
    intro p q h
    simp only [Rx.run] at h
    cases hr : p.rest with
    | nil => rw [hr] at h; simp at h
    | cons c cs =>
      rw [hr] at h
      simp only at h
      split at h
      · simp at h; subst h; simp
      · simp at h
  | seq a b iha ihb =>
    intro p q h
    simp only [Rx.run, List.mem_flatMap] at h
    obtain ⟨x, h1, h2⟩ := h
    exact Nat.le_trans (ihb _ _ h2) (iha _ _ h1)
  | alt a b iha ihb =>
    intro p q h
    simp only [Rx.run, List.mem_append] at h
    rcases h with h | h
    · exact iha _ _ h
    · exact ihb _ _ h
  | star a _ => intro p q h; exact loop_le _ _ _ h
  | bol m => intro p q h; simp only [Rx.run] at h; split at h <;> simp at h; subst h; exact Nat.le_refl _
  | eol m => intro p q h; simp only [Rx.run] at h; split at h <;> simp at h; subst h; exact Nat.le_refl _
  | group n a ih =>
    intro p q h
    simp only [Rx.run, List.mem_map] at h
    obtain ⟨x, h1, rfl⟩ := h
    exact ih p x h1

/-- How much fuel `scan` needs. -/
def need (must : Bool) (p : Pos) : Nat := 2 * p.rest.length + (if must then 1 else 2)

theorem scan_fuel (r : Rx) : ∀ (f f' : Nat) (must : Bool) (p : Pos), need must p ≤ f → need must p ≤ f' → r.scan f must p = r.scan f' must p := by
  intro f
  induction f with
  | zero => intro f' must p h; unfold need at h; split at h <;> omega
  | succ f ih =>
    intro f' must p h h'
    cases f' with
    | zero => unfold need at h'; split at h' <;> omega
    | succ f' =>
      simp only [Rx.scan]
      cases hq : (r.run p).find? fun q => !must || q.rest.length < p.rest.length with
      | none =>
        cases hr : p.rest with
        | nil => rfl
        | cons c cs =>
          simp only
          apply ih
          all_goals
            unfold need at h h' ⊢
            rw [hr] at h h'
            simp only [List.length_cons] at h h' ⊢
            cases must <;> simp at h h' ⊢ <;> omega
      | some q =>
        simp only
        rw [ih f']
        all_goals
          have h1 := run_le r p q (List.mem_of_find?_eq_some hq)
          have h2 := List.find?_some hq
          unfold need at h h' ⊢
          by_cases e : q.rest.length = p.rest.length
          · have hm : must = false := by
              cases must with
              | false => rfl
              | true => simp at h2; omega
            subst hm
            simp [e] at h h' ⊢; omega
          · have : (q.rest.length == p.rest.length) = false := by simpa using e
            rw [this]
            cases must <;> simp at h h' ⊢ <;> omega

/-- The matches from a position on. -/
def Rx.from (r : Rx) (must : Bool) (p : Pos) : List Found := r.scan (need must p) must p

theorem all_from (r : Rx) (s : Str) : r.all s = r.from false (start s) := rfl

theorem from_eq (r : Rx) (must : Bool) (p : Pos) : r.from must p =
    match (r.run p).find? fun q => !must || q.rest.length < p.rest.length with
    | some q => ⟨p, q⟩ :: r.from (q.rest.length == p.rest.length) { q with caps := [] }
    | none => match p.rest with
      | [] => []
      | c :: cs => r.from false ⟨c :: p.back, cs, []⟩ := by
  have h : r.from must p = r.scan (2 * p.rest.length + 2 + 1) must p := by
    unfold Rx.from
    apply scan_fuel
    · exact Nat.le_refl _
    · unfold need; split <;> omega
  rw [h]
  generalize hN : 2 * p.rest.length + 2 = N
  simp only [Rx.scan]
  cases hq : (r.run p).find? fun q => !must || q.rest.length < p.rest.length with
  | none =>
    cases hr : p.rest with
    | nil => rfl
    | cons c cs =>
      simp only [Rx.from]
      apply scan_fuel
      · rw [hr] at hN; unfold need; simp at hN ⊢; omega
      · exact Nat.le_refl _
  | some q =>
    simp only [Rx.from]
    congr 1
    have h1 := run_le r p q (List.mem_of_find?_eq_some hq)
    apply scan_fuel
    · unfold need; split <;> simp <;> omega
    · exact Nat.le_refl _

theorem from_none {r : Rx} {must : Bool} {p : Pos} (h : (r.run p).find? (fun q => !must || q.rest.length < p.rest.length) = none) :
    r.from must p = match p.rest with | [] => [] | c :: cs => r.from false ⟨c :: p.back, cs, []⟩ := by
  rw [from_eq, h]

theorem from_some {r : Rx} {must : Bool} {p q : Pos} (h : (r.run p).find? (fun q => !must || q.rest.length < p.rest.length) = some q) :
    r.from must p = ⟨p, q⟩ :: r.from (q.rest.length == p.rest.length) { q with caps := [] } := by
  rw [from_eq, h]

/-- Where nothing can match there are no matches. -/
theorem from_dead {r : Rx} (h : ∀ q : Pos, q.back ≠ [] → r.run q = []) : ∀ (rest back : Str) (caps : List (Nat × Str)) (must : Bool), back ≠ [] → r.from must ⟨back, rest, caps⟩ = [] := by
  intro rest
  induction rest with
  | nil => intro back caps must hb; rw [from_none (by rw [h _ hb]; rfl)]
  | cons c cs ih =>
    intro back caps must hb
    rw [from_none (by rw [h _ hb]; rfl)]
    exact ih _ _ _ (by simp)

/-- An expression that begins with `^` matches at most at the beginning: `search` is `match`. -/
theorem search_anchored {r : Rx} (h : ∀ q : Pos, q.back ≠ [] → r.run q = []) (s : Str) : r.search s = (r.match? s).map fun q => ⟨start s, q⟩ := by
  unfold Rx.search Rx.match?
  rw [all_from]
  cases hr : r.run (start s) with
  | nil =>
    rw [from_none (by rw [hr]; rfl)]
    cases hs : (start s).rest with
    | nil => rfl
    | cons c cs => simp only; rw [from_dead h _ _ _ _ (by simp)]; rfl
  | cons q qs =>
    rw [from_some (q := q) (by rw [hr]; simp)]
    rfl

theorem bol_dead (a : Rx) (q : Pos) (h : q.back ≠ []) : ((Rx.seq .eps (.bol false)).run q).flatMap a.run = [] := by
  simp [Rx.run, h]

/-! ### The expressions of gherkin_line.py -/

def cellSet : Set := ⟨true, [.nonSpace, .one '\n']⟩

theorem cellSet_has (c : Char) : cellSet.has c = isCellSpace c := by
  simp [Set.has, Item.has, cellSet, isCellSpace, bne]

theorem cellSet_eq : cellSet.has = isCellSpace := funext cellSet_has

/-- packages/gurke/src/gurke/gherkin_line.py:42 `re.sub(r"^[^\S\n]*", "", cell)`. -/
theorem cellLstrip_regex (s : Str) : ((read py"^[^\\S\\n]*").map fun r => r.sub (fun _ => []) s) = some (cellLstrip s) := by
  have hr : read py"^[^\\S\\n]*" = some (.seq (.seq .eps (.bol false)) (.star (.set cellSet))) := by decide +kernel
  rw [hr]
  simp only [Option.map_some, Option.some.injEq, Rx.sub]
  generalize hrx : Rx.seq (.seq .eps (.bol false)) (.star (.set cellSet)) = r
  have hdead : ∀ q : Pos, q.back ≠ [] → r.run q = [] := by
    intro q hq; rw [← hrx]; exact bol_dead (.star (.set cellSet)) q hq
  have hrun : r.run (start s) = runsOf isCellSpace [] [] s := by
    rw [← hrx, run_seq]
    simp only [run_seq, Rx.run, start, true_or, if_true, List.flatMap_cons, List.flatMap_nil, List.append_nil]
    rw [← cellSet_eq]
    exact loop_set cellSet _ ⟨[], s, []⟩ (Nat.le_refl _)
  have hfirst : (r.run (start s)).find? (fun q => !false || q.rest.length < (start s).rest.length) = some ((start s).skip isCellSpace) := by
    have := head_runs isCellSpace [] s []
    rw [hrun]
    cases hx : runsOf isCellSpace [] [] s with
    | nil => rw [hx] at this; simp at this
    | cons a as =>
      rw [hx] at this
      simpa [start] using this
  rw [all_from, from_some hfirst]
  have hrest : ((start s).skip isCellSpace).rest = s.dropWhile isCellSpace := adv_takeWhile _ _
  have hnext : r.from (((start s).skip isCellSpace).rest.length == (start s).rest.length) { (start s).skip isCellSpace with caps := [] } = [] := by
    by_cases hb : ((start s).skip isCellSpace).back = []
    · have htw : s.takeWhile isCellSpace = [] := by simpa [Pos.skip, Pos.adv, start] using hb
      have he : (start s).skip isCellSpace = start s := by simp [Pos.skip, Pos.adv, start, htw]
      rw [he, beq_self_eq_true]
      show r.from true (start s) = []
      cases s with
      | nil =>
        rw [from_none (by rw [hrun]; simp [runsOf, start])]
        rfl
      | cons c cs =>
        have hc : isCellSpace c = false := by
          cases h : isCellSpace c with
          | false => rfl
          | true => simp [List.takeWhile_cons, h] at htw
        rw [from_none (by rw [hrun]; simp [runsOf, hc, start])]
        simp only [start]
        exact from_dead hdead _ _ _ _ (by simp)
    · exact from_dead hdead _ _ _ _ hb
  rw [hnext]
  simpa [splice, start, cellLstrip, lstripBy] using hrest

end Gherkin.Regex
