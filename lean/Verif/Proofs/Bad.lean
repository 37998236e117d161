import Verif.Proofs.ErrStep
import Verif.Props.Tags
import Verif.Spec.Errors

/-! The lines that cannot be read, in plain terms. -/

namespace Gherkin

theorem uncomment_noHash (s : Str) : NoHash (uncomment s) := by
  fun_induction uncomment s with
  | case1 => intro a c b h; simp at h
  | case2 c =>
    intro a x b h
    have := congrArg List.length h
    simp at this
    omega
  | case3 c d rest h => intro a c b h; simp at h
  | case4 c d rest h ih =>
    intro a x b hs
    cases a with
    | nil =>
      simp only [List.nil_append, List.cons.injEq] at hs
      obtain ⟨rfl, hs⟩ := hs
      have hd : d = '#' := by
        cases rest with
        | nil => simp [uncomment] at hs; exact hs.1
        | cons e rest =>
          simp only [uncomment] at hs
          split at hs
          · simp at hs
          · simp at hs; exact hs.1
      subst hd
      simpa using h
    | cons y a =>
      simp only [List.cons_append, List.cons.injEq] at hs
      exact ih a x b hs.2

/-- White space inside a word that neither begins nor ends with it. -/
theorem inner_space {s : Str} (h1 : NoHead isSpace s) (h2 : NoLast isSpace s) (h3 : s.any isSpace = true) :
    ∃ a x w y b, s = a ++ x :: w ++ y :: b ∧ isSpace x = false ∧ isSpace y = false ∧ White w ∧ w ≠ [] := by
  -- split at the first white space
  have : ∃ pre c post, s = pre ++ c :: post ∧ isSpace c = true ∧ ∀ x ∈ pre, isSpace x = false := by
    clear h1 h2
    induction s with
    | nil => simp at h3
    | cons c s ih =>
      by_cases hc : isSpace c = true
      · exact ⟨[], c, s, rfl, hc, by simp⟩
      · simp [hc] at h3
        obtain ⟨pre, d, post, e1, e2, e3⟩ := ih (by simpa using h3)
        exact ⟨c :: pre, d, post, by rw [e1]; rfl, e2, by
          intro x hx
          rcases List.mem_cons.1 hx with rfl | hx
          · simpa using hc
          · exact e3 x hx⟩
  obtain ⟨pre, c, post, rfl, hc, hpre⟩ := this
  have hp : pre ≠ [] := by rintro rfl; have := h1 c rfl; rw [hc] at this; simp at this
  obtain ⟨a, x, rfl⟩ : ∃ a x, pre = a ++ [x] := ⟨pre.dropLast, pre.getLast hp, (List.dropLast_concat_getLast hp).symm⟩
  obtain ⟨w, hw1, hw2, hw3⟩ := lstripBy_spec (p := isSpace) post
  cases hl : lstripBy isSpace post with
  | nil =>
    exfalso
    rw [hl] at hw2
    rw [List.append_nil] at hw2
    subst hw2
    have : ∃ z, (a ++ [x] ++ c :: post).getLast? = some z ∧ isSpace z = true := by
      cases hg : (c :: post).getLast? with
      | none => simp at hg
      | some z =>
        refine ⟨z, by rw [List.getLast?_append, hg]; rfl, ?_⟩
        have := List.mem_of_getLast? hg
        rcases List.mem_cons.1 this with rfl | h
        · exact hc
        · exact hw1 z h
    obtain ⟨z, e1, e2⟩ := this
    have := h2 z e1
    rw [e2] at this; simp at this
  | cons y b =>
    rw [hl] at hw2 hw3
    refine ⟨a, x, c :: w, y, b, ?_, hpre x (by simp), hw3 y rfl, ?_, by simp⟩
    · rw [hw2]; simp
    · intro z hz
      rcases List.mem_cons.1 hz with rfl | hz
      · exact hc
      · exact hw1 z hz

theorem tagLoop_error {x : Crash} : ∀ {items : List Str} {n : Nat}, tagLoop items n = .error x → x = .attributeError ∧
    ∃ i ∈ items, (strip i).any isSpace = true := by
  intro items
  induction items with
  | nil => intro n h; simp [tagLoop] at h
  | cons i items ih =>
    intro n h
    simp only [tagLoop] at h
    split at h
    · rename_i hi
      simp only [Except.error.injEq] at h
      refine ⟨h.symm, i, by simp, ?_⟩
      simp only [List.any_cons, Bool.or_eq_true] at hi
      rcases hi with hi | hi
      · simp [isSpace] at hi
      · exact hi
    · split at h
      · simp at h
      · rename_i e he
        simp only [Except.error.injEq] at h
        subst h
        obtain ⟨h1, j, h2, h3⟩ := ih he
        exact ⟨h1, j, by simp [h2], h3⟩

theorem badTags_of {l : Line} {x : Crash} (h1 : l.startsWith ['@'] = true) (h2 : l.tags = .error x) :
    x = .attributeError ∧ BadTags l.text := by
  unfold Line.tags at h2
  obtain ⟨hx, i, hi, hsp⟩ := tagLoop_error h2
  refine ⟨hx, ?_⟩
  obtain ⟨ws, a1, a2, a3, _⟩ := trimmed_spec l
  -- the first character
  have hat : ∃ rest, l.trimmed = '@' :: rest := by
    simp only [Line.startsWith, startsWith] at h1
    cases ht : l.trimmed with
    | nil => rw [ht] at h1; simp at h1
    | cons c rest => rw [ht] at h1; simp at h1; rw [h1]; exact ⟨rest, rfl⟩
  obtain ⟨rest, hat⟩ := hat
  obtain ⟨s1, s2, b1, b2, b3, b4, b5⟩ := strip_spec l.trimmed
  have hs1 : s1 = [] := by
    cases s1 with
    | nil => rfl
    | cons c s1 =>
      exfalso
      rw [hat] at b3
      simp only [List.cons_append, List.cons.injEq] at b3
      have := b1 c (by simp)
      rw [← b3.1] at this; simp [isSpace] at this
  subst hs1
  rw [List.nil_append] at b3
  generalize hS : strip l.trimmed = S at *
  have hSh : ∃ r, S = '@' :: r := by
    cases S with
    | nil =>
      exfalso
      have := b2 '@' (by rw [hat] at b3; rw [List.nil_append] at b3; rw [← b3]; simp)
      simp [isSpace] at this
    | cons c S => rw [hat] at b3; simp at b3; exact ⟨S, by rw [← b3.1]⟩
  obtain ⟨r, hS'⟩ := hSh
  obtain ⟨ru, c1, c2⟩ := uncomment_spec S
  have hN := uncomment_noHash S
  generalize hU : uncomment S = U at *
  have hUh : ∃ r, U = '@' :: r := by
    cases U with
    | nil =>
      exfalso
      rw [hS', List.nil_append] at c1
      subst c1
      cases c2 with
      | comment h => simp [isSpace] at h
    | cons c U => rw [hS'] at c1; simp at c1; exact ⟨U, by rw [← c1.1]⟩
  obtain ⟨r2, hU'⟩ := hUh
  obtain ⟨u1, u2, d1, d2, d3, d4, d5⟩ := strip_spec U
  have hu1 : u1 = [] := by
    cases u1 with
    | nil => rfl
    | cons c u1 =>
      exfalso
      rw [hU'] at d3
      simp only [List.cons_append, List.cons.injEq] at d3
      have := d1 c (by simp)
      rw [← d3.1] at this; simp [isSpace] at this
  subst hu1
  rw [List.nil_append] at d3
  generalize hV : strip U = V at *
  have hVh : V.head? = some '@' := by
    cases V with
    | nil =>
      exfalso
      have := d2 '@' (by rw [hU'] at d3; rw [List.nil_append] at d3; rw [← d3]; simp)
      simp [isSpace] at this
    | cons c V => rw [hU'] at d3; simp at d3; rw [d3.1]; rfl
  -- the tags
  obtain ⟨p, ps, e1, e2, e3⟩ := splitChar_spec '@' V
  rw [e1] at hi
  simp only [List.drop_succ_cons, List.drop_zero] at hi
  have hp : p = [] := by
    cases p with
    | nil => rfl
    | cons c p =>
      exfalso
      rw [e2] at hVh
      simp at hVh
      exact e3 (c :: p) (by simp) (by simp [hVh])
  obtain ⟨ps1, ps2, rfl⟩ := List.append_of_mem hi
  obtain ⟨g1, g2, f1, f2, f3, f4, f5⟩ := strip_spec i
  obtain ⟨a, x', w, y, b, k1, k2, k3, k4, k5⟩ := inner_space f4 f5 hsp
  have hni : '@' ∉ i := e3 i (by simp)
  have hmem : ∀ z ∈ strip i, z ∈ i := by intro z hz; rw [f3]; simp [hz]
  have hx' : x' ≠ '@' := by rintro rfl; exact hni (hmem _ (by rw [k1]; simp))
  have hy : y ≠ '@' := by rintro rfl; exact hni (hmem _ (by rw [k1]; simp))
  subst hp
  have hVeq : V = (ps1.flatMap ('@' :: ·) ++ '@' :: (g1 ++ a)) ++ x' :: w ++ y :: (b ++ g2 ++ ps2.flatMap ('@' :: ·)) := by
    rw [e2]
    simp only [List.nil_append, List.flatMap_append, List.flatMap_cons]
    rw [show i = g1 ++ (a ++ x' :: w ++ y :: b) ++ g2 from by rw [← k1]; exact f3]
    simp only [List.append_assoc, List.cons_append]
  refine ⟨ws, ps1.flatMap ('@' :: ·) ++ '@' :: (g1 ++ a), x', w, y, b ++ g2 ++ ps2.flatMap ('@' :: ·), u2 ++ ru ++ s2, a1, k4, k5, k2, hx', k3, hy, ?_, ?_, ?_⟩
  · rw [← hVeq, a2, b3, c1, d3]; simp only [List.append_assoc]
  · rw [hVeq] at hVh
    have hne : (ps1.flatMap ('@' :: ·) ++ '@' :: (g1 ++ a)) ≠ [] := by simp
    generalize (ps1.flatMap ('@' :: ·) ++ '@' :: (g1 ++ a)) = A at *
    cases A with
    | nil => exact absurd rfl hne
    | cons c A => simpa using hVh
  · intro p' c q hq
    rw [← hVeq] at hq
    exact hN p' c (q ++ u2) (by rw [d3, hq]; simp)

theorem splitCells_error {x : Crash} : ∀ (n : Nat) (s : Str), s.length ≤ n → ∀ (col startCol : Nat) (cell : Str) (first : Bool),
    splitCells s col startCol cell first = .error x → x = .runtimeError ∧
      ∃ a k, s = a ++ List.replicate (2 * k + 1) '\\' ∧ a.getLast? ≠ some '\\' := by
  intro n
  induction n with
  | zero =>
    intro s hs
    have : s = [] := by simpa using hs
    subst this
    intro _ _ _ _ h; simp [splitCells] at h
  | succ n ih =>
    intro s hs col startCol cell first h
    cases s with
    | nil => simp [splitCells] at h
    | cons c rest =>
      -- one plain character
      have one : ∀ {col startCol cell first}, c ≠ '\\' → splitCells rest col startCol cell first = .error x →
          x = .runtimeError ∧ ∃ a k, c :: rest = a ++ List.replicate (2 * k + 1) '\\' ∧ a.getLast? ≠ some '\\' := by
        intro col startCol cell first hc h
        obtain ⟨h1, a, k, h2, h3⟩ := ih rest (by simpa using hs) _ _ _ _ h
        refine ⟨h1, c :: a, k, by rw [h2]; rfl, ?_⟩
        cases a with
        | nil => simpa using hc
        | cons y a => rw [List.getLast?_cons_cons]; exact h3
      unfold splitCells at h
      split at h
      · rename_i hc
        have hc : c = '|' := by simpa using hc
        have hc' : c ≠ '\\' := by rw [hc]; decide
        split at h
        · exact one hc' h
        · split at h
          · simp at h
          · rename_i e he
            simp only [Except.error.injEq] at h
            subst h
            exact one hc' he
      · split at h
        · rename_i hc
          have hc : c = '\\' := by simpa using hc
          subst hc
          split at h
          · simp only [Except.error.injEq] at h
            exact ⟨h.symm, [], 0, rfl, by simp⟩
          · rename_i d rest'
            have two : ∀ {col startCol cell first}, splitCells rest' col startCol cell first = .error x →
                x = .runtimeError ∧ ∃ a k, '\\' :: d :: rest' = a ++ List.replicate (2 * k + 1) '\\' ∧ a.getLast? ≠ some '\\' := by
              intro col startCol cell first h
              obtain ⟨h1, a, k, h2, h3⟩ := ih rest' (by simp at hs; omega) _ _ _ _ h
              refine ⟨h1, ?_⟩
              cases a with
              | nil =>
                by_cases hd : d = '\\'
                · refine ⟨[], k + 1, ?_, by simp⟩
                  rw [h2, hd, show 2 * (k + 1) + 1 = (2 * k + 1) + 1 + 1 from by omega]
                  simp [List.replicate_succ]
                · exact ⟨['\\', d], k, by rw [h2]; rfl, by simpa using hd⟩
              | cons y a => exact ⟨'\\' :: d :: y :: a, k, by rw [h2]; rfl, by simpa [List.getLast?_cons_cons] using h3⟩
            split at h
            · exact two h
            · split at h
              · exact two h
              · exact two h
        · rename_i hc
          exact one (by simpa using hc) h

theorem badRow_of {l : Line} {x : Crash} (h1 : l.startsWith ['|'] = true) (h2 : l.tableCells = .error x) :
    x = .runtimeError ∧ BadRow l.text := by
  unfold Line.tableCells at h2
  split at h2
  · rename_i e he
    simp only [Except.error.injEq] at h2
    subst h2
    obtain ⟨hx, a, k, hk, ha⟩ := splitCells_error _ _ (Nat.le_refl _) _ _ _ _ he
    refine ⟨hx, ?_⟩
    obtain ⟨ws, a1, a2, a3, _⟩ := trimmed_spec l
    obtain ⟨s1, s2, b1, b2, b3, b4, b5⟩ := strip_spec l.trimmed
    have hat : ∃ rest, l.trimmed = '|' :: rest := by
      simp only [Line.startsWith, startsWith] at h1
      cases ht : l.trimmed with
      | nil => rw [ht] at h1; simp at h1
      | cons c rest => rw [ht] at h1; simp at h1; rw [h1]; exact ⟨rest, rfl⟩
    obtain ⟨rest, hat⟩ := hat
    refine ⟨ws ++ s1, a, k, s2, ?_, b2, ?_, ha, ?_⟩
    · intro c hc
      rcases List.mem_append.1 hc with hc | hc
      · exact a1 c hc
      · exact b1 c hc
    · have hs1 : s1 = [] := by
        cases s1 with
        | nil => rfl
        | cons c s1 =>
          exfalso
          rw [hat] at b3
          simp only [List.cons_append, List.cons.injEq] at b3
          have := b1 c (by simp)
          rw [← b3.1] at this; simp [isSpace] at this
      subst hs1
      rw [hk, hat] at b3
      cases a with
      | nil => simp [List.replicate_succ] at b3
      | cons c a => simp at b3; rw [← b3.1]; rfl
    · rw [a2, List.append_assoc ws s1 a, List.append_assoc ws, List.append_assoc ws, List.append_assoc s1 a, ← hk, ← b3]
  · simp at h2

theorem badLine_plain {l : Line} {x : Crash} (h : BadLine l x) :
    (x = .attributeError ∧ BadTags l.text) ∨ (x = .runtimeError ∧ BadRow l.text) := by
  rcases h with ⟨h1, h2⟩ | ⟨h1, h2⟩
  · exact .inl (badTags_of h1 h2)
  · exact .inr (badRow_of h1 h2)

end Gherkin
