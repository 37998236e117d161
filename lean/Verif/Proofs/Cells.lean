import Verif.Spec.Cells

/-! The cell reader reads exactly the grammar of `Spec/Cells.lean`. -/

namespace Gherkin

/-- The cells between bars, with their start columns; `p` = number of characters before the first piece. The piece after the last
bar is no cell. -/
def cellsOf : Nat → List (Str × Str) → List (Str × Nat)
  | _, [] => []
  | _, [_] => []
  | p, (r, v) :: s :: rest => (v, p + 1) :: cellsOf (p + r.length + 1) (s :: rest)

/-- The pieces after the bars, as source. -/
def barred (segs : List (Str × Str)) : Str := segs.flatMap fun s => '|' :: s.1

/-- The result of the reader for a decomposed source. -/
def cellsFrom (col startCol : Nat) (cell : Str) (first : Bool) (r0 v0 : Str) (segs : List (Str × Str)) : List (Str × Nat) :=
  (if first = true ∨ segs = [] then [] else [(cell ++ v0, startCol)]) ++ cellsOf (col + r0.length + 1) segs

theorem splitCells_sound : ∀ (n : Nat) (s : Str), s.length ≤ n → ∀ (col startCol : Nat) (cell : Str) (first : Bool) {cells : List (Str × Nat)},
    splitCells s col startCol cell first = .ok cells →
    ∃ r0 v0 segs, Reads r0 v0 ∧ (∀ x ∈ segs, Reads x.1 x.2) ∧ s = r0 ++ barred segs ∧
      cells = cellsFrom col startCol cell first r0 v0 segs := by
  intro n
  induction n with
  | zero =>
    intro s hs col startCol cell first cells h
    have : s = [] := List.length_eq_zero_iff.1 (by omega)
    subst this
    simp [splitCells] at h
    subst h
    exact ⟨[], [], [], .nil, by simp, rfl, by simp [cellsFrom, cellsOf]⟩
  | succ n ih =>
    intro s hs col startCol cell first cells h
    cases s with
    | nil =>
      simp [splitCells] at h
      subst h
      exact ⟨[], [], [], .nil, by simp, rfl, by simp [cellsFrom, cellsOf]⟩
    | cons c rest =>
      have hlen : rest.length ≤ n := by simpa using hs
      unfold splitCells at h
      by_cases hc : c = '|'
      · subst hc
        simp only [beq_self_eq_true, if_true] at h
        cases first with
        | true =>
          simp only [if_true] at h
          obtain ⟨r0, v0, segs, h1, h2, h3, h4⟩ := ih rest hlen _ _ _ _ h
          refine ⟨[], [], (r0, v0) :: segs, .nil, ?_, by simp [barred, h3], ?_⟩
          · intro x hx; simp at hx; rcases hx with rfl | hx; · exact h1
            · exact h2 x hx
          · rw [h4]
            cases segs with
            | nil => simp [cellsFrom, cellsOf]
            | cons => simp [cellsFrom, cellsOf, Nat.add_assoc]
        | false =>
          simp only [Bool.false_eq_true, if_false] at h
          split at h
          · rename_i cells' hc'
            cases h
            obtain ⟨r0, v0, segs, h1, h2, h3, h4⟩ := ih rest hlen _ _ _ _ hc'
            refine ⟨[], [], (r0, v0) :: segs, .nil, ?_, by simp [barred, h3], ?_⟩
            · intro x hx; simp at hx; rcases hx with rfl | hx; · exact h1
              · exact h2 x hx
            · rw [h4]
              cases segs with
              | nil => simp [cellsFrom, cellsOf]
              | cons => simp [cellsFrom, cellsOf, Nat.add_assoc]
          · simp at h
      · have hc0 : (c == '|') = false := by simp [hc]
        rw [hc0] at h
        simp only [Bool.false_eq_true, if_false] at h
        by_cases hb : c = '\\'
        · subst hb
          simp only [beq_self_eq_true, if_true] at h
          cases rest with
          | nil => simp at h
          | cons d rest =>
            have hlen' : rest.length ≤ n := by simp at hlen; omega
            simp only at h
            by_cases hd : d = 'n'
            · subst hd
              simp only [beq_self_eq_true, if_true] at h
              obtain ⟨r0, v0, segs, h1, h2, h3, h4⟩ := ih rest hlen' _ _ _ _ h
              refine ⟨_, _, segs, .newline h1, h2, by simp [h3], ?_⟩
              rw [h4]
              simp [cellsFrom, Nat.add_assoc, Nat.add_left_comm, Nat.add_comm]
            · have hd0 : (d == 'n') = false := by simp [hd]
              rw [hd0] at h
              simp only [Bool.false_eq_true, if_false] at h
              by_cases hd2 : d = '|' ∨ d = '\\'
              · have : (d == '|' || d == '\\') = true := by simpa using hd2
                rw [this] at h
                simp only [if_true] at h
                obtain ⟨r0, v0, segs, h1, h2, h3, h4⟩ := ih rest hlen' _ _ _ _ h
                refine ⟨_, _, segs, .escaped hd2 h1, h2, by simp [h3], ?_⟩
                rw [h4]
                simp [cellsFrom, Nat.add_assoc, Nat.add_left_comm, Nat.add_comm]
              · have : (d == '|' || d == '\\') = false := by simpa using hd2
                rw [this] at h
                simp only [Bool.false_eq_true, if_false] at h
                obtain ⟨r0, v0, segs, h1, h2, h3, h4⟩ := ih rest hlen' _ _ _ _ h
                refine ⟨_, _, segs, .other hd (fun h => hd2 (.inl h)) (fun h => hd2 (.inr h)) h1, h2, by simp [h3], ?_⟩
                rw [h4]
                simp [cellsFrom, Nat.add_assoc, Nat.add_left_comm, Nat.add_comm]
        · have hb0 : (c == '\\') = false := by simp [hb]
          rw [hb0] at h
          simp only [Bool.false_eq_true, if_false] at h
          obtain ⟨r0, v0, segs, h1, h2, h3, h4⟩ := ih rest hlen _ _ _ _ h
          refine ⟨_, _, segs, .plain hc hb h1, h2, by simp [h3], ?_⟩
          rw [h4]
          simp [cellsFrom, Nat.add_assoc, Nat.add_left_comm, Nat.add_comm]

/-- Reading a piece that is followed by `rest`. -/
theorem splitCells_reads {r v : Str} (h : Reads r v) (rest : Str) : ∀ (col startCol : Nat) (cell : Str) (first : Bool),
    splitCells (r ++ rest) col startCol cell first = splitCells rest (col + r.length) startCol (cell ++ v) first := by
  induction h with
  | nil => intros; simp
  | plain hc hb _ ih =>
    intro col startCol cell first
    simp only [List.cons_append]
    rw [splitCells.eq_def]
    simp only
    simp only [beq_eq_false_iff_ne.2 hc, beq_eq_false_iff_ne.2 hb, Bool.false_eq_true, if_false]
    rw [ih]
    simp [Nat.add_assoc, Nat.add_comm, Nat.add_left_comm]
  | newline _ ih =>
    intro col startCol cell first
    simp only [List.cons_append]
    rw [splitCells.eq_def]
    simp only
    simp only [show ('\\' == '|') = false from rfl, beq_self_eq_true, Bool.false_eq_true, if_false, if_true]
    rw [ih]
    simp [Nat.add_assoc, Nat.add_comm, Nat.add_left_comm]
  | escaped hd _ ih =>
    intro col startCol cell first
    simp only [List.cons_append]
    rw [splitCells.eq_def]
    simp only
    rename_i d _ _ _
    have hn : (d == 'n') = false := by rcases hd with rfl | rfl <;> rfl
    have hd' : (d == '|' || d == '\\') = true := by simpa using hd
    simp only [show ('\\' == '|') = false from rfl, beq_self_eq_true, Bool.false_eq_true, if_false, if_true, hn, hd']
    rw [ih]
    simp [Nat.add_assoc, Nat.add_comm, Nat.add_left_comm]
  | other h1 h2 h3 _ ih =>
    intro col startCol cell first
    simp only [List.cons_append]
    rw [splitCells.eq_def]
    simp only
    rename_i d _ _ _
    have hn : (d == 'n') = false := by simp [h1]
    have hd' : (d == '|' || d == '\\') = false := by simp [h2, h3]
    simp only [show ('\\' == '|') = false from rfl, beq_self_eq_true, Bool.false_eq_true, if_false, if_true, hn, hd']
    rw [ih]
    simp [Nat.add_assoc, Nat.add_comm, Nat.add_left_comm]

theorem splitCells_complete (segs : List (Str × Str)) : ∀ {r0 v0 : Str}, Reads r0 v0 → (∀ x ∈ segs, Reads x.1 x.2) →
    ∀ (col startCol : Nat) (cell : Str) (first : Bool),
    splitCells (r0 ++ barred segs) col startCol cell first = .ok (cellsFrom col startCol cell first r0 v0 segs) := by
  induction segs with
  | nil =>
    intro r0 v0 h0 hs col startCol cell first
    rw [splitCells_reads h0]
    simp [barred, splitCells, cellsFrom, cellsOf]
  | cons x segs ih =>
    intro r0 v0 h0 hs col startCol cell first
    obtain ⟨r1, v1⟩ := x
    rw [splitCells_reads h0]
    have hb : barred ((r1, v1) :: segs) = '|' :: (r1 ++ barred segs) := by simp [barred]
    rw [hb, splitCells.eq_def]
    simp only
    simp only [beq_self_eq_true, if_true]
    have h1 : Reads r1 v1 := hs (r1, v1) (by simp)
    have ih := ih h1 (fun y hy => hs y (by simp [hy])) (col + r0.length + 1) (col + r0.length + 2) [] false
    rw [ih]
    cases first <;> cases segs <;> simp [cellsFrom, cellsOf, Nat.add_assoc]

theorem reads_append {r v r' v' : Str} (h : Reads r v) (h' : Reads r' v') : Reads (r ++ r') (v ++ v') := by
  induction h with
  | nil => exact h'
  | plain a b _ ih => exact .plain a b ih
  | newline _ ih => exact .newline ih
  | escaped a _ ih => exact .escaped a ih
  | other a b c _ ih => exact .other a b c ih

theorem reads_escape (v : Str) : Reads (escapeCell v) v := by
  induction v with
  | nil => exact .nil
  | cons c v ih =>
    unfold escapeCell
    split
    · rename_i h; subst h; exact .newline ih
    · split
      · rename_i h; subst h; exact .escaped (.inl rfl) ih
      · split
        · rename_i h; subst h; exact .escaped (.inr rfl) ih
        · rename_i h1 h2; exact .plain h1 h2 ih

theorem pad_plain {s : Str} (h : Pad s) : Reads s s := by
  induction s with
  | nil => exact .nil
  | cons c s ih =>
    have hc := h c (by simp)
    refine .plain ?_ ?_ (ih fun x hx => h x (by simp [hx]))
    · rintro rfl; simp [isSpace] at hc
    · rintro rfl; simp [isSpace] at hc

end Gherkin
