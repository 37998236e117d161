import Verif.Spec.Rewrite
import Verif.Proofs.PrintAst
import Verif.Proofs.LayTree
import Verif.Proofs.DocFacts
import Verif.Props.LineEnds
import Verif.Props.Tags

/-! What the tokens of real lines have in them can be printed. -/

namespace Gherkin

namespace Rewrite

open Cst Auto
open Layout (Ln place)

/-- A line as `splitLines` makes it. -/
def Real (s : Str) : Prop := ∃ body e, s = body ++ e ∧ '\n' ∉ body ∧ (e = [] ∨ e = ['\n'])

theorem real_lines (text : Str) : ∀ s ∈ splitLines text, Real s := by
  refine lines_ind (P := fun t => ∀ s ∈ splitLines t, Real s) (by simp [splitLines]) ?_ ?_ text.length text (Nat.le_refl _)
  · intro body hb hne s hs
    rw [splitLines_last hb hne, List.mem_singleton] at hs
    subst hs
    exact ⟨s, [], by simp, hb, .inl rfl⟩
  · intro body t hb ih s hs
    rw [splitLines_body hb, List.mem_cons] at hs
    rcases hs with rfl | hs
    · exact ⟨body, _, rfl, hb, .inr rfl⟩
    · exact ih s hs

theorem nl_space : isSpace '\n' = true := rfl

/-- A part at the end of a real line is real. -/
theorem Real.suffix {s a r : Str} (h : Real s) (e : s = a ++ r) : Real r := by
  obtain ⟨body, e', h1, h2, h3⟩ := h
  rw [h1] at e
  rcases h3 with rfl | rfl
  · rw [List.append_nil] at e
    exact ⟨r, [], by simp, by rw [e] at h2; simp at h2; exact h2.2, .inl rfl⟩
  · rcases List.eq_nil_or_concat r with rfl | ⟨r', c, rfl⟩
    · exact ⟨[], [], rfl, by simp, .inl rfl⟩
    · rw [List.concat_eq_append, ← List.append_assoc] at e
      obtain ⟨e1, e2⟩ := List.append_inj' e rfl
      rw [e1] at h2
      simp at h2 e2
      subst e2
      exact ⟨r', ['\n'], by simp, h2.2, .inr rfl⟩

theorem last_concat {s : Str} (h : s.getLast? ≠ some '\n') : Real s → '\n' ∉ s := by
  rintro ⟨body, e, rfl, h2, rfl | rfl⟩
  · simpa using h2
  · simp at h

/-- A real line, stripped. -/
theorem Real.strip {s : Str} (h : Real s) : Printable.OneLine (strip s) := by
  obtain ⟨a, b, ha, hb, e, h1, h2⟩ := strip_spec s
  refine ⟨?_, ?_⟩
  · intro hm
    obtain ⟨body, e', h3, h4, h5⟩ := h
    rcases h5 with rfl | rfl
    · rw [List.append_nil] at h3
      apply h4
      rw [← h3, e]; simp [hm]
    · have hne : Gherkin.strip s ≠ [] := by intro h; rw [h] at hm; simp at hm
      rcases List.eq_nil_or_concat b with rfl | ⟨b', c, rfl⟩
      · rw [List.append_nil] at e
        have hl : s.getLast? = (Gherkin.strip s).getLast? := by
          conv => lhs; rw [e]
          rw [List.getLast?_append]
          rw [List.getLast?_eq_some_getLast hne]; rfl
        rw [h3, List.getLast?_concat] at hl
        have := h2 '\n' (by rw [h3]; exact hl.symm)
        rw [nl_space] at this; simp at this
      · rw [e, List.concat_eq_append, ← List.append_assoc] at h3
        obtain ⟨e1, -⟩ := List.append_inj' h3 rfl
        apply h4
        rw [← e1]; simp [hm]
  · have := strip_core (a := []) (b := []) (s := Gherkin.strip s) (by simp [AllP]) (by simp [AllP]) h1 h2
    simpa using this

theorem oneLine_rest {s : Str} (h : Real s) (n i : Nat) : Printable.OneLine (rstripEol (Line.restTrimmed ⟨s, i⟩ n)) := by
  obtain ⟨a, _, e, _⟩ := trimmed_spec ⟨s, i⟩
  have h1 : Real (Line.trimmed ⟨s, i⟩) := h.suffix e
  have h2 : Real ((Line.trimmed ⟨s, i⟩).drop n) := h1.suffix (List.take_append_drop n _).symm
  have h3 := h2.strip
  rw [show Line.restTrimmed ⟨s, i⟩ n = Gherkin.strip ((Line.trimmed ⟨s, i⟩).drop n) from rfl, Print.rstripEol_oneLine h3]
  exact h3

/-! ### Titles and steps -/

theorem title_reads {m : CState} (hc : m.Calm) {k : Kind} {s : Str} (hk : Layout.kind m.dialect s = k) (hT : k ∈ titleKinds) (hs : Real s) (n : Nat) :
    Printable.Title (m.dialect.titles k) (tokOf m k s n).keyword (tokOf m k s n).text ∧ (tokOf m k s n).dialect = some m.dialectName := by
  have ht := tokOf_plain hc hk (by rintro rfl; revert hT; decide) (by rintro rfl; revert hT; decide) n
  have main : ∀ kws : List Str, Classic.matchKind k (Token.fresh ⟨s, n⟩) m = Classic.matchTitle k kws (Token.fresh ⟨s, n⟩) m →
      Printable.Title kws (tokOf m k s n).keyword (tokOf m k s n).text ∧ (tokOf m k s n).dialect = some m.dialectName := by
    intro kws e
    unfold tokOf at ht ⊢
    rw [e] at ht ⊢
    unfold Classic.matchTitle at ht ⊢
    cases hf : kws.find? (fun kw => (Token.fresh ⟨s, n⟩).line.startsWithTitle kw) with
    | none => rw [hf] at ht; simp [Token.fresh] at ht
    | some kw => exact ⟨⟨⟨kw, List.mem_of_find?_eq_some hf, rfl⟩, _, rfl, oneLine_rest hs _ _⟩, rfl⟩
  simp only [titleKinds, List.mem_cons, List.not_mem_nil, or_false] at hT
  rcases hT with rfl | rfl | rfl | rfl | rfl <;> exact main _ rfl

theorem find_first {l : List Str} {p p' : Str → Bool} {a : Str} (h : l.find? p = some a) (h1 : p' a = true) (h2 : ∀ x ∈ l, p' x = true → p x = true) :
    l.find? p' = some a := by
  rw [List.find?_eq_some_iff_append] at h ⊢
  obtain ⟨_, as, bs, e, h3⟩ := h
  refine ⟨h1, as, bs, e, fun x hx => ?_⟩
  have := h3 x hx
  cases hp : p' x with
  | false => rfl
  | true => rw [h2 x (by rw [e]; simp [hx]) hp] at this; simp at this

theorem step_reads {m : CState} (hc : m.Calm) {s : Str} (hk : Layout.kind m.dialect s = .stepLine) (hs : Real s) (n : Nat)
    (hw : ∀ kw ∈ m.dialect.stepKeywords, (tokOf m .stepLine s n).keyword = some kw → ∀ k ∈ m.dialect.stepKeywords,
      k <+: kw ++ (tokOf m .stepLine s n).text.getD [] → k <+: kw) :
    ∃ kw x, (tokOf m .stepLine s n).keyword = some kw ∧ (tokOf m .stepLine s n).text = some x ∧ Printable.OneLine x ∧
      m.dialect.stepKeywords.find? (fun k => k.isPrefixOf (kw ++ x)) = some kw ∧
      (tokOf m .stepLine s n).keywordType = some (match m.dialect.keywordTypes kw with | [t] => t | _ => .unknown) := by
  have ht := tokOf_plain hc hk (by simp) (by simp) n
  unfold tokOf at ht hw ⊢
  simp only [Classic.matchKind] at ht hw ⊢
  unfold Classic.matchStep at ht hw ⊢
  cases hf : m.dialect.stepKeywords.find? (fun kw => (Token.fresh ⟨s, n⟩).line.startsWith kw) with
  | none => rw [hf] at ht; simp [Token.fresh] at ht
  | some kw =>
    rw [hf] at hw
    refine ⟨kw, _, rfl, rfl, oneLine_rest hs _ _, find_first hf ?_ ?_, ?_⟩
    · rw [List.isPrefixOf_iff_prefix]; exact ⟨_, rfl⟩
    · intro k hk hp
      rw [List.isPrefixOf_iff_prefix] at hp
      have h1 := hw kw (List.mem_of_find?_eq_some hf) rfl k hk hp
      have h2 := List.find?_some hf
      simp only [Line.startsWith, startsWith, List.isPrefixOf_iff_prefix] at h2 ⊢
      exact List.IsPrefix.trans h1 h2
    · rfl

/-! ### Cells and tags -/

theorem cell_value (c : Str) : CellValue (cellRstrip (cellLstrip c)) := by
  have conv : ∀ x, isCellSpace x = false → isSpace x = false ∨ x = '\n' := by
    intro x hx
    by_cases h : x = '\n'
    · exact .inr h
    · left; simpa [isCellSpace, h] using hx
  obtain ⟨_, _, _, h1⟩ := lstripBy_spec (p := isCellSpace) c
  unfold cellRstrip
  split
  · rename_i hl
    have hne : cellLstrip c ≠ [] := by intro h; rw [h] at hl; simp at hl
    have e : cellLstrip c = (cellLstrip c).dropLast ++ ['\n'] := by
      have := List.dropLast_concat_getLast hne
      rw [List.getLast?_eq_some_getLast hne] at hl
      simp only [Option.some.injEq] at hl
      rw [hl] at this
      exact this.symm
    have hd : NoHead isCellSpace (cellLstrip c).dropLast := by
      intro x hx
      refine h1 x ?_
      rw [show lstripBy isCellSpace c = cellLstrip c from rfl, e, List.head?_append, hx]; rfl
    have hh := rstripBy_head hd
    refine ⟨fun x hx => ?_, fun x hx => ?_⟩
    · rw [List.head?_append] at hx
      cases hr : (rstripBy isCellSpace (cellLstrip c).dropLast).head? with
      | none => rw [hr] at hx; simp at hx; exact .inr hx.symm
      | some y => rw [hr] at hx; simp at hx; subst hx; exact conv _ (hh _ hr)
    · rw [List.getLast?_concat] at hx; simp at hx; exact .inr hx.symm
  · obtain ⟨_, _, _, h2⟩ := rstripBy_spec (p := isCellSpace) (cellLstrip c)
    exact ⟨fun x hx => conv x (rstripBy_head h1 x hx), fun x hx => conv x (h2 x hx)⟩

theorem cells_value {l : Line} {items : List MItem} (h : l.tableCells = .ok items) : ∀ i ∈ items, CellValue i.text := by
  unfold Line.tableCells at h
  split at h
  · simp at h
  · injection h with h
    subst h
    intro i hi
    obtain ⟨x, _, rfl⟩ := List.mem_map.1 hi
    exact cell_value _

theorem rows_read {m : CState} (hc : m.Calm) {rs : List Ln} (h : Layout.RowsOk m.dialect rs) (n k : Nat) :
    Printable.Rows (thread Cst.row (rowToks m n rs) k).1 := by
  obtain ⟨_, w, hw⟩ := rowToks_ok hc h n
  refine ⟨fun r hr c hcm => ?_, w, fun r hr => ?_⟩
  · obtain ⟨t, ht, k', rfl⟩ := thread_mem hr
    obtain ⟨l, hl, n', rfl⟩ := place_mem ht
    obtain ⟨_, cs, e1, e2⟩ := row_sound hc (h.1 l hl) n'
    simp only [Cst.row, List.mem_map] at hcm
    obtain ⟨i, hi, rfl⟩ := hcm
    rw [e2] at hi
    exact cells_value e1 i hi
  · obtain ⟨t, ht, k', rfl⟩ := thread_mem hr
    simp only [Cst.row, List.length_map]
    exact hw t ht

theorem tags_value {l : Line} {items : List MItem} (h : l.tags = .ok items) : ∀ i ∈ items, ∃ n, i.text = '@' :: n ∧ TagName n := by
  unfold Line.tags at h
  obtain ⟨h1, h2⟩ := (tagLoop_spec _ _).1 _ h
  intro i hi
  rw [h2] at hi
  obtain ⟨j, hj, rfl⟩ := List.mem_mapIdx.1 hi
  refine ⟨_, rfl, fun c hcm => ?_⟩
  have hm := List.getElem_mem hj
  refine ⟨h1 _ hm c hcm, ?_⟩
  rintro rfl
  obtain ⟨a, b, _, _, e, _⟩ := strip_spec ((splitChar '@' (strip (uncomment (strip l.trimmed)))).drop 1)[j]
  have := Print.splitChar_no '@' _ _ (List.mem_of_mem_drop hm)
  apply this
  rw [e]
  exact List.mem_append_left _ (List.mem_append_right _ hcm)

theorem tags_read {m : CState} (hc : m.Calm) {ts : List Ln} (h : Layout.TagsOk m.dialect ts) (n k : Nat) :
    Printable.Tags (Cst.tags (tagToks m n ts) k).1 := by
  intro t ht
  simp only [Cst.tags, List.mem_flatten] at ht
  obtain ⟨l, hl, ht⟩ := ht
  obtain ⟨tk, htk, k', rfl⟩ := thread_mem hl
  obtain ⟨s, hs, n', rfl⟩ := place_mem htk
  obtain ⟨i, hi, k'', rfl⟩ := thread_mem ht
  have hok := h s hs
  obtain ⟨items, hx⟩ := sound_tag (n := n') hc.valid.known hok.1.1 hok.2
  have hf := lineKind_fits m.dialect ⟨s.text, n'⟩
  rw [show lineKind m.dialect ⟨s.text, n'⟩ = .tagLine from hok.1.1] at hf
  simp only [fits, firstIs_iff] at hf
  have l1 : (Token.fresh ⟨s.text, n'⟩).line = ⟨s.text, n'⟩ := rfl
  have e : (tokOf m .tagLine s.text n').items = items := by
    simp [tokOf, Classic.matchKind, Classic.matchTagLine, l1, hf, hx, setMatched]
  rw [e] at hi
  exact tags_value hx i hi

end Rewrite

end Gherkin
