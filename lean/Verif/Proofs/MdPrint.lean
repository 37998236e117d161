import Verif.Spec.MdPrint
import Verif.Spec.Mirror
import Verif.Proofs.PrintAst
import Verif.Proofs.Cells

/-! A feature written in Markdown mirrors the feature written as classic text. -/

namespace Gherkin

/-! ### Text without tags -/

namespace MdPrintable

theorem tag_part {d : Dialect} {s : Str} (h : Markdown.HasForm d s .tags) : py"`@" <:+: s := by
  obtain ⟨a, n, b, _, _, rfl⟩ := h
  exact ⟨a, n ++ '`' :: b, by simp⟩

theorem NoTag.form {d : Dialect} {s : Str} (h : NoTag s) : ¬ Markdown.HasForm d s .tags := fun hf => h (tag_part hf)

theorem noTag_of_no {s : Str} (h : '`' ∉ s) : NoTag s := by
  rintro ⟨a, b, rfl⟩
  exact h (by simp)

theorem noTag_cons {c : Char} {s : Str} (hc : c ≠ '`') (h : NoTag s) : NoTag (c :: s) := by
  rintro ⟨a, b, e⟩
  cases a with
  | nil => simp at e; exact hc e.1.symm
  | cons x a => simp at e; exact h ⟨a, b, by simpa using e.2⟩

/-- Text without back quotes may be put before it. -/
theorem noTag_before {p s : Str} (hp : '`' ∉ p) (h : NoTag s) : NoTag (p ++ s) := by
  induction p with
  | nil => exact h
  | cons c p ih => exact noTag_cons (fun e => hp (by simp [e])) (ih fun hc => hp (by simp [hc]))

/-- Text without back quotes that does not begin with `@` may be put after it. -/
theorem noTag_between {s t : Str} (hs : NoTag s) (ht : NoTag t) (h : t.head? ≠ some '@') : NoTag (s ++ t) := by
  induction s with
  | nil => exact ht
  | cons c s ih =>
    have hs' : NoTag s := by rintro ⟨a, b, e⟩; exact hs ⟨c :: a, b, by simp [← e]⟩
    rintro ⟨a, b, e⟩
    cases a with
    | nil =>
      simp only [List.nil_append, List.cons_append, List.cons.injEq] at e
      cases s with
      | nil =>
        rw [List.nil_append] at e
        exact h (by rw [← e.2]; rfl)
      | cons x s =>
        simp only [List.cons_append, List.cons.injEq] at e
        exact hs ⟨[], s, by simp [← e.1, ← e.2.1]⟩
    | cons x a =>
      simp only [List.cons_append, List.cons.injEq] at e
      exact ih hs' ⟨a, b, e.2⟩

theorem noTag_escape {s : Str} (h : NoTag s) : NoTag (escapeCell s) ∧ ((escapeCell s).head? = some '@' → s.head? = some '@') := by
  induction s with
  | nil => exact ⟨noTag_of_no (by simp [escapeCell]), by simp [escapeCell]⟩
  | cons c s ih =>
    have hs' : NoTag s := by rintro ⟨a, b, e⟩; exact h ⟨c :: a, b, by simp [← e]⟩
    obtain ⟨i1, i2⟩ := ih hs'
    simp only [escapeCell]
    by_cases h1 : c = '\n'
    · rw [if_pos h1]; exact ⟨noTag_before (by simp) i1, by simp⟩
    · rw [if_neg h1]
      by_cases h2 : c = '|'
      · rw [if_pos h2]; exact ⟨noTag_before (by simp) i1, by simp⟩
      · rw [if_neg h2]
        by_cases h3 : c = '\\'
        · rw [if_pos h3]; exact ⟨noTag_before (by simp) i1, by simp⟩
        · rw [if_neg h3]
          refine ⟨?_, by simp⟩
          by_cases h4 : c = '`'
          · subst h4
            refine noTag_between (s := ['`']) ?_ i1 ?_
            · rintro ⟨a, b, e⟩
              have := congrArg List.length e
              simp at this
              omega
            · intro hh
              have := i2 hh
              cases s with
              | nil => simp at this
              | cons x s => simp at this; subst this; exact h ⟨[], s, by simp⟩
          · exact noTag_cons h4 i1

theorem noTag_row {cells : List Cell} (h : ∀ c ∈ cells, NoTag c.value) :
    NoTag ((cells.map fun c => (⟨[' '], c.value, [' ']⟩ : WCell)).flatMap (fun c => c.left ++ escapeCell c.value ++ c.right ++ ['|']) ++ ['\n']) := by
  induction cells with
  | nil => exact noTag_of_no (by simp)
  | cons c cs ih =>
    simp only [List.map_cons, List.flatMap_cons, List.append_assoc]
    refine noTag_before (by simp) (noTag_between (noTag_escape (h c (by simp))).1 (noTag_before (by simp) (noTag_before (by simp) ?_)) (by simp))
    simpa using ih fun x hx => h x (by simp [hx])

end MdPrintable

/-! ### Rows without dashes -/

namespace Markdown

theorem reads_unique {r v : Str} (h : Reads r v) : ∀ {r' v' a b : Str}, Reads r' v' → r ++ '|' :: a = r' ++ '|' :: b → r = r' ∧ v = v' ∧ a = b := by
  induction h with
  | nil =>
    intro r' v' a b h' e
    cases h' with
    | nil => simp at e; exact ⟨rfl, rfl, e⟩
    | plain h1 => simp at e; exact absurd e.1.symm h1
    | newline => simp at e
    | escaped => simp at e
    | other => simp at e
  | plain h1 h2 _ ih =>
    intro r' v' a b h' e
    cases h' with
    | nil => simp at e; exact absurd e.1 h1
    | plain _ _ h' =>
      simp only [List.cons_append, List.cons.injEq] at e
      obtain ⟨e1, e2, e3⟩ := ih h' e.2
      exact ⟨by rw [e.1, e1], by rw [e.1, e2], e3⟩
    | newline => simp at e; exact absurd e.1 h2
    | escaped => simp at e; exact absurd e.1 h2
    | other => simp at e; exact absurd e.1 h2
  | newline _ ih =>
    intro r' v' a b h' e
    cases h' with
    | nil => simp at e
    | plain _ h2 => simp at e; exact absurd e.1.symm h2
    | newline h' =>
      simp only [List.cons_append, List.cons.injEq, true_and] at e
      obtain ⟨e1, e2, e3⟩ := ih h' e
      exact ⟨by rw [e1], by rw [e2], e3⟩
    | escaped hd => simp at e; rw [← e.1] at hd; simp at hd
    | other hd => simp at e; exact absurd e.1.symm hd
  | escaped hd _ ih =>
    intro r' v' a b h' e
    cases h' with
    | nil => simp at e
    | plain _ h2 => simp at e; exact absurd e.1.symm h2
    | newline h' => simp at e; rw [e.1] at hd; simp at hd
    | escaped hd' h' =>
      simp only [List.cons_append, List.cons.injEq, true_and] at e
      obtain ⟨e1, e2, e3⟩ := ih h' e.2
      exact ⟨by rw [e.1, e1], by rw [e.1, e2], e3⟩
    | other k1 k2 k3 => simp at e; rw [e.1] at hd; rcases hd with h | h; exacts [absurd h k2, absurd h k3]
  | other k1 k2 k3 _ ih =>
    intro r' v' a b h' e
    cases h' with
    | nil => simp at e
    | plain _ h2 => simp at e; exact absurd e.1.symm h2
    | newline h' => simp at e; exact absurd e.1 k1
    | escaped hd h' => simp at e; rw [← e.1] at hd; rcases hd with h | h; exacts [absurd h k2, absurd h k3]
    | other _ _ _ h' =>
      simp only [List.cons_append, List.cons.injEq, true_and] at e
      obtain ⟨e1, e2, e3⟩ := ih h' e.2
      exact ⟨by rw [e.1, e1], by rw [e.1, e2], e3⟩

theorem dashes_ends {c : Str} (h : Dashes c) : (∃ x, c.head? = some x ∧ isSpace x = false) ∧ ∃ x, c.getLast? = some x ∧ isSpace x = false := by
  obtain ⟨a, n, b, ha, hb, rfl⟩ := h
  refine ⟨?_, ?_⟩
  · rcases ha with rfl | rfl
    · exact ⟨'-', by simp [List.replicate_succ], rfl⟩
    · exact ⟨':', by simp, rfl⟩
  · rcases hb with rfl | rfl
    · exact ⟨'-', by simp [List.getLast?_append, List.getLast?_replicate], rfl⟩
    · exact ⟨':', by simp [List.getLast?_append], rfl⟩

theorem dashy_value {v : Str} (hv : CellValue v) (h : Dashy (' ' :: (v ++ [' ']))) : ∃ c e, v = c ++ e ∧ (e = [] ∨ e = ['\n']) ∧ Dashes c := by
  have key : ∀ p c q e : Str, Pad p → Pad q → Dashes c → (e = [] ∨ e = ['\n']) → ' ' :: (v ++ [' ']) = p ++ c ++ e ++ q → v = c ++ e := by
    intro p c q e hp hq hc he h
    obtain ⟨⟨x, x1, x2⟩, ⟨z, z1, z2⟩⟩ := dashes_ends hc
    have hcne : c ≠ [] := by rintro rfl; simp at x1
    -- the first blank is in `p`
    cases p with
    | nil =>
      exfalso
      obtain ⟨c0, cs, rfl⟩ := List.exists_cons_of_ne_nil hcne
      simp at h x1
      rw [← x1, ← h.1] at x2; simp [isSpace] at x2
    | cons y p =>
      simp only [List.cons_append, List.cons.injEq] at h
      have h := h.2
      -- the last blank is in `q`
      rcases List.eq_nil_or_concat q with rfl | ⟨q', y', rfl⟩
      · exfalso
        have hl := congrArg List.getLast? h
        rw [List.getLast?_concat] at hl
        rcases he with rfl | rfl
        · rw [List.append_nil, List.append_nil, List.getLast?_append, z1] at hl
          simp at hl; rw [← hl] at z2; simp [isSpace] at z2
        · rw [List.append_nil, List.getLast?_concat] at hl; simp at hl
      · simp only [List.concat_eq_append] at h hq
        rw [← List.append_assoc] at h
        have h := (List.append_inj' h rfl).1
        have hp0 : p = [] := by
          cases p with
          | nil => rfl
          | cons y1 p =>
            exfalso
            have h1 := hp y1 (by simp)
            rcases hv.first y1 (by rw [h]; simp) with h2 | h2
            · rw [h1.1] at h2; simp at h2
            · exact h1.2 h2
        have hq0 : q' = [] := by
          rcases List.eq_nil_or_concat q' with rfl | ⟨q2, y2, rfl⟩
          · rfl
          · exfalso
            simp only [List.concat_eq_append] at h hq
            have h1 := hq y2 (by simp)
            rcases hv.last y2 (by rw [h, ← List.append_assoc, List.getLast?_concat]) with h2 | h2
            · rw [h1.1] at h2; simp at h2
            · exact h1.2 h2
        subst hp0 hq0
        simpa using h
  obtain ⟨p, c, q, e, hp, hq, hc, h | h, he⟩ := h
  · rcases he with rfl | rfl
    · exact ⟨c, [], by simpa using key p c q [] hp hq hc (.inl rfl) (by simpa using h), .inl rfl, hc⟩
    · exfalso
      have := congrArg List.getLast? h
      rw [← List.cons_append, List.getLast?_concat, List.getLast?_concat] at this
      simp at this
  · exact ⟨c, e, key p c q e hp hq hc he h, he, hc⟩

theorem row_no_dash {cells : List Cell} (h : ∀ c ∈ cells, CellValue c.value ∧ ∀ v e, c.value = v ++ e → (e = [] ∨ e = ['\n']) → ¬ Dashes v) :
    ¬ DashCell ((cells.map fun c => (⟨[' '], c.value, [' ']⟩ : WCell)).flatMap (fun c => c.left ++ escapeCell c.value ++ c.right ++ ['|']) ++ ['\n']) := by
  induction cells with
  | nil =>
    intro hd
    generalize hx : _ ++ ['\n'] = x at hd
    simp at hx
    cases hd with
    | @here raw v rest _ _ => cases raw <;> simp at hx
    | @later raw v rest _ _ => cases raw <;> simp at hx
  | cons c cs ih =>
    obtain ⟨h1, h2⟩ := h c (by simp)
    intro hd
    have hr : Reads ([' '] ++ escapeCell c.value ++ [' ']) ([' '] ++ c.value ++ [' ']) :=
      reads_append (reads_append (.plain (by decide) (by decide) .nil) (reads_escape _)) (.plain (by decide) (by decide) .nil)
    generalize hx : _ ++ ['\n'] = x at hd
    simp only [List.map_cons, List.flatMap_cons, List.append_assoc] at hx
    cases hd with
    | here a b =>
      obtain ⟨_, e, _⟩ := reads_unique hr a (by simpa using hx)
      rw [← e] at b
      obtain ⟨v, e, k1, k2, k3⟩ := dashy_value h1 (by simpa using b)
      exact h2 v e k1 k2 k3
    | later a b =>
      obtain ⟨_, _, e⟩ := reads_unique hr a (by simpa using hx)
      rw [← e] at b
      exact ih (fun x hx => h x (by simp [hx])) (by simpa using b)

end Markdown

end Gherkin
