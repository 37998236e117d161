import Verif.Regex
import Verif.Proofs.Language

/-! How regular expressions run. -/

namespace Gherkin.Regex

/-- The position after reading `v`. -/
def Pos.adv (p : Pos) (v : Str) : Pos := ⟨v.reverse ++ p.back, p.rest.drop v.length, p.caps⟩

theorem run_seq (a b : Rx) (p : Pos) : (Rx.seq a b).run p = (a.run p).flatMap b.run := rfl

theorem has_one (c d : Char) : Set.has ⟨false, [.one c]⟩ d = (d == c) := by simp [Set.has, Item.has]
theorem has_space (d : Char) : Set.has ⟨false, [.space]⟩ d = isSpace d := by simp [Set.has, Item.has]
theorem has_not (c d : Char) : Set.has ⟨true, [.one c]⟩ d = (d != c) := by simp [Set.has, Item.has, bne]

/-- Read the text `v`, then go on. -/
def chain (v : Str) (k : Pos → List Pos) (q : Pos) : List Pos := if v <+: q.rest then k (q.adv v) else []

theorem chain_nil (k : Pos → List Pos) (q : Pos) : chain [] k q = k q := by
  simp [chain, Pos.adv]

theorem adv_cons (q : Pos) (c : Char) (v cs : Str) (h : q.rest = c :: cs) : q.adv (c :: v) = (⟨c :: q.back, cs, q.caps⟩ : Pos).adv v := by
  simp [Pos.adv, h]

theorem chain_cons (c : Char) (v : Str) (k : Pos → List Pos) (q : Pos) : ((lit c).run q).flatMap (chain v k) = chain (c :: v) k q := by
  unfold lit chain
  simp only [Rx.run]
  cases h : q.rest with
  | nil => simp
  | cons d ds =>
    simp only [has_one]
    by_cases e : d = c
    · subst e
      simp only [beq_self_eq_true, if_true, List.flatMap_cons, List.flatMap_nil, List.append_nil]
      rw [adv_cons q d v ds h]
      simp [List.cons_prefix_cons]
    · rw [if_neg (by simpa using e), if_neg (by simp [List.cons_prefix_cons, Ne.symm e])]
      rfl

theorem lit_chain (c : Char) (k : Pos → List Pos) (q : Pos) : ((lit c).run q).flatMap k = chain [c] k q := by
  rw [← chain_cons]
  have : chain [] k = k := funext fun q => chain_nil k q
  rw [this]

/-- The ways to read characters that satisfy `f`, the longest first. -/
def runsOf (f : Char → Bool) (caps : List (Nat × Str)) : Str → Str → List Pos
  | back, [] => [⟨back, [], caps⟩]
  | back, c :: cs => if f c then runsOf f caps (c :: back) cs ++ [⟨back, c :: cs, caps⟩] else [⟨back, c :: cs, caps⟩]

theorem loop_set (s : Set) : ∀ (n : Nat) (p : Pos), p.rest.length ≤ n → loop (Rx.set s).run n p = runsOf s.has p.caps p.back p.rest := by
  intro n
  induction n with
  | zero =>
    rintro ⟨back, rest, caps⟩ h
    have : rest = [] := by simpa using h
    subst this
    rfl
  | succ n ih =>
    rintro ⟨back, rest, caps⟩ h
    cases rest with
    | nil => simp [loop, Rx.run, runsOf]
    | cons c cs =>
      simp only [loop, Rx.run, runsOf]
      split
      · simp only [List.filter_cons, List.length_cons, Nat.lt_succ_self, decide_true, if_true, List.filter_nil, List.flatMap_cons, List.flatMap_nil, List.append_nil]
        exact congrArg (· ++ [_]) (ih ⟨c :: back, cs, caps⟩ (by simpa using h))
      · simp

theorem run_star (s : Set) (p : Pos) : (Rx.star (.set s)).run p = runsOf s.has p.caps p.back p.rest := loop_set s _ p (Nat.le_refl _)

/-- The position behind the characters that satisfy `f`. -/
def Pos.skip (f : Char → Bool) (p : Pos) : Pos := p.adv (p.rest.takeWhile f)

theorem adv_takeWhile (f : Char → Bool) (p : Pos) : (p.skip f).rest = p.rest.dropWhile f := by
  simp only [Pos.skip, Pos.adv]
  generalize p.rest = l
  induction l with
  | nil => rfl
  | cons c cs ih => simp only [List.takeWhile_cons, List.dropWhile_cons]; split <;> simp_all

/-- If what follows cannot begin with a character of the loop, only the longest way counts. -/
theorem runs_then {f : Char → Bool} {k : Pos → List Pos} (hk : ∀ q c cs, q.rest = c :: cs → f c = true → k q = []) (caps : List (Nat × Str)) :
    ∀ (rest back : Str), (runsOf f caps back rest).flatMap k = k ((⟨back, rest, caps⟩ : Pos).skip f) := by
  intro rest
  induction rest with
  | nil => intro back; simp [runsOf, Pos.skip, Pos.adv]
  | cons c cs ih =>
    intro back
    simp only [runsOf]
    split
    · rename_i h
      rw [List.flatMap_append, ih]
      simp only [List.flatMap_cons, List.flatMap_nil, List.append_nil]
      rw [hk ⟨back, c :: cs, caps⟩ c cs rfl h, List.append_nil]
      simp [Pos.skip, Pos.adv, List.takeWhile_cons, h]
    · rename_i h
      simp [Pos.skip, Pos.adv, List.takeWhile_cons, h]

theorem star_then (s : Set) {k : Pos → List Pos} (hk : ∀ q c cs, q.rest = c :: cs → s.has c = true → k q = []) (p : Pos) :
    ((Rx.star (.set s)).run p).flatMap k = k (p.skip s.has) := by
  rw [run_star, runs_then hk]

theorem chain_blocked {f : Char → Bool} {c : Char} (h : f c = false) (v : Str) (k : Pos → List Pos) :
    ∀ (q : Pos) d ds, q.rest = d :: ds → f d = true → chain (c :: v) k q = [] := by
  intro q d ds hq hd
  unfold chain
  rw [hq, if_neg]
  rw [List.cons_prefix_cons]
  rintro ⟨rfl, _⟩
  rw [h] at hd; cases hd

/-- At least one character, then the longest way. -/
theorem head_runs (f : Char → Bool) (caps : List (Nat × Str)) : ∀ (rest back : Str), (runsOf f caps back rest).head? = some ((⟨back, rest, caps⟩ : Pos).skip f) := by
  intro rest
  induction rest with
  | nil => intro back; simp [runsOf, Pos.skip, Pos.adv]
  | cons c cs ih =>
    intro back
    simp only [runsOf]
    split
    · rename_i h
      rw [List.head?_append, ih]
      simp [Pos.skip, Pos.adv, List.takeWhile_cons, h]
    · rename_i h
      simp [Pos.skip, Pos.adv, List.takeWhile_cons, h]

end Gherkin.Regex
