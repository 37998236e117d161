import Verif.Proofs.Bad
import Verif.Proofs.Language

/-! The lines that cannot be read: the other direction. -/

namespace Gherkin

theorem strip_keep {T r : Str} (h1 : NoHead isSpace T) (h2 : NoLast isSpace T) (h3 : T ≠ []) : ∃ r', strip (T ++ r) = T ++ r' := by
  obtain ⟨a, b, e1, e2, e3, e4, e5⟩ := strip_spec (T ++ r)
  have ha : a = [] := by
    cases a with
    | nil => rfl
    | cons c a =>
      exfalso
      cases T with
      | nil => exact h3 rfl
      | cons t T =>
        simp only [List.cons_append, List.cons.injEq] at e3
        have := h1 t rfl
        rw [e3.1, e1 c (by simp)] at this
        simp at this
  subst ha
  rw [List.nil_append] at e3
  rcases List.append_eq_append_iff.1 e3 with ⟨r', g1, g2⟩ | ⟨w, g1, g2⟩
  · exact ⟨r', g1⟩
  · cases hw : w.getLast? with
    | none =>
      have : w = [] := by simpa using hw
      rw [this, List.append_nil] at g1
      exact ⟨[], by rw [← g1, List.append_nil]⟩
    | some z =>
      exfalso
      have h := h2 z (by rw [g1, List.getLast?_append, hw]; rfl)
      have : isSpace z = true := e2 z (by rw [g2]; simp [List.mem_of_getLast? hw])
      rw [this] at h; simp at h

theorem uncomment_keep {y : Char} (hy : isSpace y = false) (r : Str) : ∀ {T : Str}, (∀ a c b, T ++ [y] = a ++ c :: '#' :: b → isSpace c = false) →
    ∃ r', uncomment (T ++ y :: r) = T ++ y :: r' := by
  intro T
  induction T with
  | nil =>
    intro _
    cases r with
    | nil => exact ⟨[], rfl⟩
    | cons d r => exact ⟨uncomment (d :: r), by simp [uncomment, hy]⟩
  | cons c T ih =>
    intro h
    obtain ⟨r', hr⟩ := ih (fun a x b e => h (c :: a) x b (by rw [List.cons_append, e]; rfl))
    refine ⟨r', ?_⟩
    cases T with
    | nil =>
      have hc : (isSpace c && y == '#') = false := by
        cases hs : isSpace c with
        | false => rfl
        | true =>
          simp only [Bool.true_and, beq_eq_false_iff_ne]
          rintro rfl
          have := h [] c [] rfl
          rw [hs] at this; simp at this
      simp only [List.nil_append, List.cons_append] at hr ⊢
      simp [uncomment, hc, hr]
    | cons d T =>
      have hc : (isSpace c && d == '#') = false := by
        cases hs : isSpace c with
        | false => rfl
        | true =>
          simp only [Bool.true_and, beq_eq_false_iff_ne]
          rintro rfl
          have := h [] c (T ++ [y]) rfl
          rw [hs] at this; simp at this
      simp only [List.cons_append] at hr ⊢
      simp [uncomment, hc, hr]

theorem splitChar_mid {sep : Char} {mid r : Str} (hm : sep ∉ mid) (a : Str) : ∃ i ∈ splitChar sep (a ++ (mid ++ r)), ∃ i1 i2, i = i1 ++ mid ++ i2 := by
  have base : ∃ i2 ps, splitChar sep (mid ++ r) = (mid ++ i2) :: ps := by
    induction mid with
    | nil =>
      obtain ⟨p, ps, h, _⟩ := splitChar_spec sep r
      exact ⟨p, ps, h⟩
    | cons c mid ih =>
      simp only [List.mem_cons, not_or] at hm
      obtain ⟨i2, ps, h⟩ := ih hm.2
      have : (c == sep) = false := by simpa using fun h => hm.1 h.symm
      exact ⟨i2, ps, by simp [splitChar, this, h]⟩
  induction a with
  | nil =>
    obtain ⟨i2, ps, h⟩ := base
    exact ⟨mid ++ i2, by rw [List.nil_append, h]; simp, [], i2, rfl⟩
  | cons c a ih =>
    obtain ⟨i, h1, i1, i2, h2⟩ := ih
    simp only [List.cons_append, splitChar]
    by_cases hc : (c == sep) = true
    · rw [if_pos hc]; exact ⟨i, by simp [h1], i1, i2, h2⟩
    · rw [if_neg hc]
      cases hs : splitChar sep (a ++ (mid ++ r)) with
      | nil => rw [hs] at h1; simp at h1
      | cons p ps =>
        rw [hs] at h1
        rcases List.mem_cons.1 h1 with h | h
        · exact ⟨c :: p, by simp, c :: i1, i2, by rw [← h, h2]; rfl⟩
        · exact ⟨i, by simp [h], i1, i2, h2⟩

theorem tagLoop_fails : ∀ {items : List Str} {n : Nat} {i : Str}, i ∈ items → (strip i).any isSpace = true → tagLoop items n = .error .attributeError := by
  intro items
  induction items with
  | nil => intro n i h; simp at h
  | cons j items ih =>
    intro n i h hi
    simp only [tagLoop]
    split
    · rfl
    · rename_i hj
      rcases List.mem_cons.1 h with rfl | h
      · exfalso; apply hj; simp [hi]
      · rw [ih h hi]

/-- A line with white space inside a tag cannot be read. -/
theorem badTags_fails {s : Str} (h : BadTags s) (n : Nat) : Line.startsWith ⟨s, n⟩ ['@'] = true ∧ Line.tags ⟨s, n⟩ = .error .attributeError := by
  obtain ⟨ws, a, x, w, y, b, r, h1, h2, h3, h4, h5, h6, h7, h8, h9, h10⟩ := h
  obtain ⟨a', ha⟩ : ∃ a', a = '@' :: a' := by
    cases a with
    | nil => simp at h9; exact absurd h9 h5
    | cons c a => simp at h9; exact ⟨a, by rw [h9]⟩
  have hat : isSpace '@' = false := by decide
  have htr : Line.trimmed ⟨s, n⟩ = (a ++ x :: w) ++ y :: (b ++ r) := by
    show lstrip s = _
    rw [h8, ha]
    have := lstrip_pre (w := ws) (s := '@' :: (a' ++ x :: w ++ y :: b ++ r)) h1 (by simp [hat])
    simpa using this
  have hsw : Line.startsWith ⟨s, n⟩ ['@'] = true := by
    simp [Line.startsWith, htr, ha, startsWith]
  refine ⟨hsw, ?_⟩
  have hT1 : NoHead isSpace ((a ++ x :: w) ++ [y]) := by rw [ha]; intro c hc; simp at hc; rw [← hc]; exact hat
  have hT2 : NoLast isSpace ((a ++ x :: w) ++ [y]) := by intro c hc; rw [List.getLast?_concat] at hc; injection hc with hc; rw [← hc]; exact h6
  have hne : (a ++ x :: w) ++ [y] ≠ [] := by simp
  obtain ⟨r1, k1⟩ := strip_keep (r := b ++ r) hT1 hT2 hne
  obtain ⟨r2, k2⟩ := uncomment_keep h6 r1 (T := a ++ x :: w) (by
    intro p c q e
    refine h10 p c (q ++ b) ?_
    have : a ++ x :: w ++ y :: b = (a ++ x :: w ++ [y]) ++ b := by simp
    rw [this, e]; simp)
  obtain ⟨r3, k3⟩ := strip_keep (r := r2) hT1 hT2 hne
  have hs : strip (uncomment (strip (Line.trimmed ⟨s, n⟩))) = a ++ (x :: w ++ [y]) ++ r3 := by
    have e1 : Line.trimmed ⟨s, n⟩ = (a ++ x :: w) ++ [y] ++ (b ++ r) := by rw [htr]; simp
    rw [e1, k1]
    have e2 : a ++ x :: w ++ [y] ++ r1 = a ++ x :: w ++ y :: r1 := by simp
    rw [e2, k2]
    have e3 : a ++ x :: w ++ y :: r2 = a ++ x :: w ++ [y] ++ r2 := by simp
    rw [e3, k3]; simp
  have hsep : '@' ∉ x :: w ++ [y] := by
    intro hm
    simp only [List.cons_append, List.mem_cons, List.mem_append, List.not_mem_nil, or_false] at hm
    rcases hm with h | h | h
    · exact h5 h.symm
    · have := h2 _ h; rw [hat] at this; simp at this
    · exact h7 h.symm
  obtain ⟨i, g1, i1, i2, g2⟩ := splitChar_mid (r := r3) hsep a'
  unfold Line.tags
  have hsplit : splitChar '@' (a ++ (x :: w ++ [y]) ++ r3) = [] :: splitChar '@' (a' ++ (x :: w ++ [y] ++ r3)) := by
    rw [ha]; simp [splitChar]
  rw [hs, hsplit, List.drop_one, List.tail_cons]
  refine tagLoop_fails g1 ?_
  -- the white space survives stripping
  obtain ⟨p, q, c1, c2, c3, c4, c5⟩ := strip_spec i
  obtain ⟨v, w', rfl⟩ : ∃ v w', w = v :: w' := by cases w with | nil => exact absurd rfl h3 | cons v w' => exact ⟨v, w', rfl⟩
  cases hst : (strip i).any isSpace with
  | true => rfl
  | false =>
    exfalso
    rw [g2] at c3
    -- i = i1 ++ x :: v :: w' ++ [y] ++ i2 = p ++ strip i ++ q
    have hv : isSpace v = true := h2 v (by simp)
    have e : (i1 ++ [x]) ++ v :: (w' ++ y :: i2) = (p ++ strip (i1 ++ (x :: v :: w' ++ [y]) ++ i2)) ++ q := by
      rw [g2] at *
      have : i1 ++ (x :: v :: w' ++ [y]) ++ i2 = (i1 ++ [x]) ++ v :: (w' ++ y :: i2) := by simp
      rw [← this]; exact c3
    rw [g2] at hst
    generalize strip (i1 ++ (x :: v :: w' ++ [y]) ++ i2) = S at e hst
    have notq : y ∉ q := fun h => by rw [c2 y h] at h6; simp at h6
    have notp : x ∉ p := fun h => by rw [c1 x h] at h4; simp at h4
    have notS : v ∉ S := fun h => by
      rw [List.any_eq_false] at hst
      exact hst v h hv
    -- where `v` is
    rcases List.append_eq_append_iff.1 e with ⟨t, t1, t2⟩ | ⟨t, t1, t2⟩
    · -- p ++ S = i1 ++ [x] ++ t
      cases t with
      | nil =>
        rw [List.nil_append] at t2
        exact notq (by rw [← t2]; simp)
      | cons z t =>
        simp only [List.cons_append, List.cons.injEq] at t2
        obtain ⟨rfl, t2⟩ := t2
        rcases List.append_eq_append_iff.1 t1 with ⟨u, u1, u2⟩ | ⟨u, u1, u2⟩
        · cases u with
          | nil =>
            rw [List.nil_append] at u2
            exact notS (by rw [u2]; simp)
          | cons z' u =>
            exact notS (by rw [u2]; simp)
        · cases u with
          | nil =>
            rw [List.append_nil] at u1
            rw [List.nil_append] at u2
            exact notS (by rw [← u2]; simp)
          | cons z' u =>
            exact notp (by rw [u1]; simp)
    · exact notq (by rw [t2]; simp)

theorem splitCells_fails : ∀ (n : Nat) (s : Str), s.length ≤ n → ∀ (k col startCol : Nat) (cell : Str) (first : Bool), s.getLast? ≠ some '\\' →
    splitCells (s ++ List.replicate (2 * k + 1) '\\') col startCol cell first = .error .runtimeError := by
  intro n
  induction n with
  | zero =>
    intro s hs k
    have : s = [] := by simpa using hs
    subst this
    induction k with
    | zero => intro col startCol cell first _; simp [splitCells]
    | succ k ih =>
      intro col startCol cell first h
      have : List.replicate (2 * (k + 1) + 1) '\\' = '\\' :: '\\' :: List.replicate (2 * k + 1) '\\' := by
        rw [show 2 * (k + 1) + 1 = (2 * k + 1) + 1 + 1 from by omega]; rfl
      rw [List.nil_append] at ih ⊢
      rw [this]
      simp only [splitCells]
      simp [ih _ _ _ _ h]
  | succ n ih =>
    intro s hs k col startCol cell first hl
    cases s with
    | nil => exact ih [] (by simp) k col startCol cell first (by simp)
    | cons c s =>
      have hl' : ∀ t : Str, (∃ p, c :: s = p ++ t) → t.getLast? ≠ some '\\' := by
        rintro t ⟨p, e⟩ ht
        apply hl
        rw [e, List.getLast?_append, ht]; rfl
      have h1 := fun col startCol cell first => ih s (by simpa using hs) k col startCol cell first (hl' s ⟨[c], rfl⟩)
      rw [List.cons_append, splitCells.eq_def]; simp only
      split
      · split
        · exact h1 _ _ _ _
        · rw [h1]
      · split
        · rename_i hc2
          cases s with
          | nil => exfalso; apply hl; simp at hc2 ⊢; exact hc2
          | cons d s =>
            have h2 := fun col startCol cell first => ih s (by simp at hs; omega) k col startCol cell first (hl' s ⟨[c, d], rfl⟩)
            simp only [List.cons_append]
            split
            · exact h2 _ _ _ _
            · split
              · exact h2 _ _ _ _
              · exact h2 _ _ _ _
        · exact h1 _ _ _ _

/-- A row that ends with half an escape sequence cannot be read. -/
theorem badRow_fails {s : Str} (h : BadRow s) (n : Nat) : Line.startsWith ⟨s, n⟩ ['|'] = true ∧ Line.tableCells ⟨s, n⟩ = .error .runtimeError := by
  obtain ⟨ws, a, k, w, h1, h2, h3, h4, h5⟩ := h
  obtain ⟨a', ha⟩ : ∃ a', a = '|' :: a' := by cases a with | nil => simp at h3 | cons c a => simp at h3; exact ⟨a, by rw [h3]⟩
  have hbar : isSpace '|' = false := by decide
  have htr : Line.trimmed ⟨s, n⟩ = a ++ List.replicate (2 * k + 1) '\\' ++ w := by
    show lstrip s = _
    rw [h5, ha]
    have := lstrip_pre (w := ws) (s := '|' :: (a' ++ List.replicate (2 * k + 1) '\\' ++ w)) h1 (by simp [hbar])
    simpa using this
  refine ⟨by simp [Line.startsWith, htr, ha, startsWith], ?_⟩
  have hst : strip (Line.trimmed ⟨s, n⟩) = a ++ List.replicate (2 * k + 1) '\\' := by
    rw [htr]
    have := strip_core (a := []) (s := a ++ List.replicate (2 * k + 1) '\\') (b := w) (by simp [AllP]) h2 (by rw [ha]; intro c hc; simp at hc; rw [← hc]; exact hbar)
      (by intro c hc; rw [List.replicate_succ', ← List.append_assoc, List.getLast?_append] at hc; simp at hc; rw [← hc]; decide)
    simpa using this
  unfold Line.tableCells
  rw [hst, splitCells_fails _ _ (Nat.le_refl _) k 0 1 [] true h4]

/-- A tag line can be read exactly if no tag has white space inside. -/
theorem tags_ok_iff {s : Str} {n : Nat} (h : Line.startsWith ⟨s, n⟩ ['@'] = true) : (∃ ts, Line.tags ⟨s, n⟩ = .ok ts) ↔ ¬ BadTags s := by
  constructor
  · rintro ⟨ts, ht⟩ hb
    rw [(badTags_fails hb n).2] at ht; simp at ht
  · intro hb
    cases ht : Line.tags ⟨s, n⟩ with
    | ok ts => exact ⟨ts, rfl⟩
    | error x => exact absurd (badTags_of h ht).2 hb

/-- A row can be read exactly if it does not end with half an escape sequence. -/
theorem row_ok_iff {s : Str} {n : Nat} (h : Line.startsWith ⟨s, n⟩ ['|'] = true) : (∃ ts, Line.tableCells ⟨s, n⟩ = .ok ts) ↔ ¬ BadRow s := by
  constructor
  · rintro ⟨ts, ht⟩ hb
    rw [(badRow_fails hb n).2] at ht; simp at ht
  · intro hb
    cases ht : Line.tableCells ⟨s, n⟩ with
    | ok ts => exact ⟨ts, rfl⟩
    | error x => exact absurd (badRow_of h ht).2 hb

end Gherkin
