import Verif.Proofs.Cells
import Verif.Proofs.Strip
import Verif.MatcherClassic
import Mathlib.Tactic.Choose
import Mathlib.Data.List.Induction

/-! C14, C15: table rows. -/

namespace Gherkin

theorem pad_all {s : Str} (h : Pad s) : AllP isCellSpace s := fun c hc => by
  have := h c hc
  simp [isCellSpace, this.1, this.2]

theorem CellValue.head {v : Str} (h : CellValue v) : NoHead isCellSpace v := fun c hc => by
  rcases h.first c hc with h | h <;> simp [isCellSpace, h]

theorem CellValue.lastP {v : Str} (h : CellValue v) : NoLast isCellSpace v := fun c hc => by
  rcases h.last c hc with h | h <;> simp [isCellSpace, h]

/-- Stripping a written cell gives its value; what was stripped in front is the left padding (for an empty value all padding). -/
theorem strip_cell {w : WCell} (hl : Pad w.left) (hr : Pad w.right) (hv : CellValue w.value) (ht : w.right = [] → Tight w.value) :
    cellRstrip (cellLstrip (w.left ++ w.value ++ w.right)) = w.value := by
  have key : cellLstrip (w.left ++ w.value ++ w.right) = if w.value = [] then [] else w.value ++ w.right := by
    split
    · rename_i h
      rw [h]
      exact lstripBy_all (by intro c hc; simp at hc; rcases hc with hc | hc; exacts [pad_all hl c hc, pad_all hr c hc])
    · rename_i h
      unfold cellLstrip
      rw [List.append_assoc]
      refine lstripBy_append (pad_all hl) ?_
      intro c hc
      cases hw : w.value with
      | nil => exact absurd hw h
      | cons x s => rw [hw] at hc; exact hv.head c (by rw [hw]; simpa using hc)
  rw [key]
  split
  · rename_i h; rw [h]; rfl
  · unfold cellRstrip
    split
    · rename_i hlast
      by_cases hr0 : w.right = []
      · rw [hr0] at hlast ⊢
        simp only [List.append_nil] at hlast ⊢
        have : rstripBy isCellSpace w.value.dropLast = w.value.dropLast := by
          refine rstripBy_id ?_
          intro c hc
          rcases ht hr0 c hlast hc with h | h <;> simp [isCellSpace, h]
        rw [this]
        have h1 : w.value ≠ [] := by assumption
        have h2 := List.dropLast_concat_getLast h1
        rw [List.getLast?_eq_some_getLast h1] at hlast
        simp at hlast
        rw [hlast] at h2
        exact h2
      · rw [List.getLast?_append] at hlast
        obtain ⟨x, hx⟩ : ∃ x, w.right.getLast? = some x := by
          rw [List.getLast?_eq_some_getLast hr0]; exact ⟨_, rfl⟩
        rw [hx] at hlast
        simp at hlast
        subst hlast
        have := hr _ (List.mem_of_getLast? hx)
        simp at this
    · exact rstripBy_append (pad_all hr) hv.lastP

theorem cellsOf_append_last (segs : List (Str × Str)) (last : Str × Str) (p : Nat) :
    cellsOf p (segs ++ [last]) =
      segs.mapIdx fun i s => (s.2, p + ((segs.take i).flatMap fun s => '|' :: s.1).length + 1) := by
  induction segs generalizing p with
  | nil => rfl
  | cons s segs ih =>
    have : cellsOf p (s :: segs ++ [last]) = (s.2, p + 1) :: cellsOf (p + s.1.length + 1) (segs ++ [last]) := by
      cases segs <;> rfl
    rw [this, ih, List.mapIdx_cons]
    simp [Nat.add_assoc, Nat.add_comm, Nat.add_left_comm]

/-- C14: write the values of a row — escaping `\`, `|` and newline, with any white space around each value, any indentation and any
white space (such as a line end) after the row — and the reader gives back exactly these values. Values that begin or end with
white space other than newline cannot be told from padding, see `CellValue`; white space before a final newline is lost if the bar follows directly,
see `Tight`. -/
theorem C14_row_roundtrip (indent trail : Str) (cells : List WCell) (number : Nat)
    (hi : ∀ c ∈ indent, isSpace c = true) (ht : ∀ c ∈ trail, isSpace c = true)
    (hpad : ∀ w ∈ cells, Pad w.left ∧ Pad w.right) (hval : ∀ w ∈ cells, CellValue w.value ∧ (w.right = [] → Tight w.value)) :
    ∃ items, Line.tableCells ⟨indent ++ writeRow cells ++ trail, number⟩ = .ok items ∧
      items.map (·.text) = cells.map (·.value) := by
  have hrow : NoHead isSpace (writeRow cells) := by
    intro c hc; simp [writeRow] at hc; subst hc; rfl
  have hlast : NoLast isSpace (writeRow cells) := by
    intro c hc
    have : c = '|' := by
      unfold writeRow at hc
      cases cells using List.reverseRecOn with
      | nil => simpa using hc.symm
      | append_singleton cs w _ =>
        rw [List.flatMap_append, List.flatMap_singleton, ← List.append_assoc, ← List.cons_append, List.getLast?_append] at hc
        simpa using hc.symm
    subst this; rfl
  have htr : (Line.mk (indent ++ writeRow cells ++ trail) number).trimmed = writeRow cells ++ trail := by
    rw [List.append_assoc]
    refine trimmed_append hi ?_
    intro c hc
    exact hrow c (by simpa [writeRow] using hc)
  have hstrip : strip (Line.mk (indent ++ writeRow cells ++ trail) number).trimmed = writeRow cells := by
    rw [htr]
    exact strip_core (a := []) (by simp [AllP]) ht hrow hlast
  let segs : List (Str × Str) := cells.map fun w => (w.left ++ escapeCell w.value ++ w.right, w.left ++ w.value ++ w.right)
  have hsrc : writeRow cells = [] ++ barred (segs ++ [([], [])]) := by
    have key : ∀ cs : List WCell, '|' :: (cs.flatMap fun c => c.left ++ escapeCell c.value ++ c.right ++ ['|']) =
        barred (cs.map (fun w => (w.left ++ escapeCell w.value ++ w.right, w.left ++ w.value ++ w.right)) ++ [([], [])]) := by
      intro cs
      induction cs with
      | nil => rfl
      | cons w cs ih => simp [barred] at ih ⊢; exact ih
    exact key cells
  have hreads : ∀ x ∈ segs ++ [([], [])], Reads x.1 x.2 := by
    intro x hx
    simp [segs] at hx
    rcases hx with ⟨w, hw, rfl⟩ | rfl
    · exact reads_append (pad_plain (hpad w hw).1) (reads_append (reads_escape _) (pad_plain (hpad w hw).2))
    · exact .nil
  have hsp := splitCells_complete (segs ++ [([], [])]) .nil hreads 0 1 [] true
  rw [← hsrc] at hsp
  refine ⟨_, by unfold Line.tableCells; rw [hstrip, hsp], ?_⟩
  simp only [cellsFrom, true_or, if_true, List.nil_append]
  rw [cellsOf_append_last]
  apply List.ext_getElem
  · simp [segs]
  · intro i h1 h2
    simp at h2
    simp only [List.getElem_mapIdx, List.getElem_map, segs]
    exact strip_cell (hpad _ (List.getElem_mem h2)).1 (hpad _ (List.getElem_mem h2)).2 (hval _ (List.getElem_mem h2)).1
      (hval _ (List.getElem_mem h2)).2

/-- C14 at the level of the matcher: such a line is recognised as a table row, whatever the dialect, and the matched items are the
values. -/
theorem C14_row_recognised (indent trail : Str) (cells : List WCell) (number : Nat) (m : CState)
    (hi : ∀ c ∈ indent, isSpace c = true) (ht : ∀ c ∈ trail, isSpace c = true)
    (hpad : ∀ w ∈ cells, Pad w.left ∧ Pad w.right) (hval : ∀ w ∈ cells, CellValue w.value ∧ (w.right = [] → Tight w.value)) :
    ∃ t, Classic.matchKind .tableRow (Token.fresh ⟨indent ++ writeRow cells ++ trail, number⟩) m = (.ok true, t, m) ∧
      t.type = some .tableRow ∧ t.items.map (·.text) = cells.map (·.value) := by
  obtain ⟨items, h1, h2⟩ := C14_row_roundtrip indent trail cells number hi ht hpad hval
  have hst : (Line.mk (indent ++ writeRow cells ++ trail) number).startsWith ['|'] = true := by
    unfold Line.startsWith
    rw [List.append_assoc, trimmed_append hi (by intro c hc; simp [writeRow] at hc; subst hc; rfl)]
    simp [writeRow, startsWith]
  have hm : Classic.matchKind .tableRow (Token.fresh ⟨indent ++ writeRow cells ++ trail, number⟩) m =
      (.ok true, setMatched m.dialectName (Token.fresh ⟨indent ++ writeRow cells ++ trail, number⟩) (some .tableRow) none none none
        none items, m) := by
    unfold Classic.matchKind Classic.matchTableRow
    simp only [Token.fresh, hst, if_true, h1]
  exact ⟨_, hm, rfl, h2⟩

/-- One cell as it stands in a source line, without the bars: white space, then the escaped content, which stands for `value`. -/
structure SrcCell where
  ws : Str
  raw : Str
  value : Str

/-- `c` is a source cell: `ws` is all the white space in front of the content. -/
def SrcCell.Ok (c : SrcCell) : Prop :=
  Pad c.ws ∧ Reads c.raw c.value ∧ ∀ x, c.raw.head? = some x → ¬ (isSpace x = true ∧ x ≠ '\n')

theorem reads_split {r v : Str} (h : Reads r v) : ∃ ws raw val, r = ws ++ raw ∧ v = ws ++ val ∧ Pad ws ∧ Reads raw val ∧
    (∀ x, raw.head? = some x → ¬ (isSpace x = true ∧ x ≠ '\n')) ∧ cellLstrip v = val := by
  induction h with
  | nil => exact ⟨[], [], [], rfl, rfl, by simp [Pad], .nil, by simp, rfl⟩
  | @plain c r v hc hb hr ih =>
    by_cases hs : isCellSpace c = true
    · obtain ⟨ws, raw, val, rfl, rfl, h3, h4, h5, h6⟩ := ih
      refine ⟨c :: ws, raw, val, rfl, rfl, ?_, h4, h5, ?_⟩
      · intro x hx; simp at hx; rcases hx with rfl | hx
        · simpa [isCellSpace] using hs
        · exact h3 x hx
      · simp only [cellLstrip, lstripBy, List.cons_append, List.dropWhile, hs]; exact h6
    · refine ⟨[], _, _, rfl, rfl, by simp [Pad], .plain hc hb hr, ?_, ?_⟩
      · intro x hx; simp at hx; subst hx
        simpa [isCellSpace] using hs
      · simp [cellLstrip, lstripBy, List.dropWhile, hs]
  | newline hr => exact ⟨[], _, _, rfl, rfl, by simp [Pad], .newline hr, by simp [isSpace], by simp [cellLstrip, lstripBy, List.dropWhile, isCellSpace]⟩
  | escaped hd hr =>
    refine ⟨[], _, _, rfl, rfl, by simp [Pad], .escaped hd hr, by simp [isSpace], ?_⟩
    rcases hd with rfl | rfl <;> simp [cellLstrip, lstripBy, List.dropWhile, isCellSpace, isSpace]
  | other h1 h2 h3 hr => exact ⟨[], _, _, rfl, rfl, by simp [Pad], .other h1 h2 h3 hr, by simp [isSpace], by simp [cellLstrip, lstripBy, List.dropWhile, isCellSpace, isSpace]⟩

theorem spaces_plain {s : Str} (h : AllP isSpace s) : Reads s s := by
  induction s with
  | nil => exact .nil
  | cons c s ih =>
    have hc := h c (by simp)
    refine .plain ?_ ?_ (ih fun x hx => h x (by simp [hx]))
    · rintro rfl; simp [isSpace] at hc
    · rintro rfl; simp [isSpace] at hc

/-- C15: when a row line is read, the line is white space, then the cells one after the other, each behind a bar, then a last bar and
a rest without further unescaped bar; the i-th item read is the i-th cell: its column is the 1-based position at which the
cell's content begins, its text is what that content stands for without the white space at its end. -/
theorem C15_cell_columns (l : Line) (items : List MItem) (hbar : l.trimmed.head? = some '|') (h : l.tableCells = .ok items) :
    ∃ (indent : Str) (cells : List SrcCell) (rest : Str),
      (∀ c ∈ indent, isSpace c = true) ∧ (∀ c ∈ cells, c.Ok) ∧ (∃ v, Reads rest v) ∧
      l.text = indent ++ (cells.flatMap fun c => '|' :: (c.ws ++ c.raw)) ++ '|' :: rest ∧
      items = cells.mapIdx fun i c =>
        { column := (indent ++ ((cells.take i).flatMap fun c => '|' :: (c.ws ++ c.raw)) ++ '|' :: c.ws).length + 1,
          text := cellRstrip c.value } := by
  unfold Line.tableCells at h
  split at h
  · cases h
  rename_i cells hs
  simp at h
  obtain ⟨r0, v0, segs, h0, hsegs, hsrc, hcells⟩ := splitCells_sound _ _ (Nat.le_refl _) _ _ _ _ hs
  obtain ⟨a, ha, htext, hnh, hind⟩ := trimmed_spec l
  obtain ⟨a', b, ha', hb, htr, _, hnl⟩ := strip_spec l.trimmed
  have ha0 : a' = [] := by
    cases a' with
    | nil => rfl
    | cons c a' =>
      have := hnh c (by rw [htr]; rfl)
      rw [ha' c (by simp)] at this; cases this
  subst ha0
  simp at htr
  rw [htr, hsrc] at hbar
  have hr0 : r0 = [] ∧ v0 = [] := by
    cases h0 with
    | nil => exact ⟨rfl, rfl⟩
    | plain hc _ _ => simp at hbar; exact absurd hbar hc
    | newline _ => simp at hbar
    | escaped _ _ => simp at hbar
    | other _ _ _ _ => simp at hbar
  obtain ⟨rfl, rfl⟩ := hr0
  obtain ⟨init, last, rfl⟩ : ∃ init last, segs = init ++ [last] := by
    cases segs using List.reverseRecOn with
    | nil =>
      exfalso
      simp [barred] at hbar
      have : b ≠ [] := by rintro rfl; simp at hbar
      cases b with
      | nil => exact this rfl
      | cons x b =>
        simp at hbar; subst hbar
        have := hb '|' (by simp)
        simp [isSpace] at this
    | append_singleton init last _ => exact ⟨init, last, rfl⟩
  have hch : ∀ s : Str × Str, ∃ c : SrcCell, s ∈ init → c.Ok ∧ s.1 = c.ws ++ c.raw ∧ s.2 = c.ws ++ c.value ∧ cellLstrip s.2 = c.value := by
    intro s
    by_cases hs : s ∈ init
    · obtain ⟨ws, raw, val, h1, h2, h3, h4, h5, h6⟩ := reads_split (hsegs s (by simp [hs]))
      exact ⟨⟨ws, raw, val⟩, fun _ => ⟨⟨h3, h4, h5⟩, h1, h2, h6⟩⟩
    · exact ⟨⟨[], [], []⟩, fun h => absurd h hs⟩
  choose f hf using hch
  have hflat : ∀ (ss : List (Str × Str)), (∀ s ∈ ss, s ∈ init) →
      ((ss.map f).flatMap fun c => '|' :: (c.ws ++ c.raw)) = ss.flatMap fun s => '|' :: s.1 := by
    intro ss hss
    induction ss with
    | nil => rfl
    | cons s ss ih =>
      simp only [List.map_cons, List.flatMap_cons]
      rw [ih fun x hx => hss x (by simp [hx]), (hf s (hss s (by simp))).2.1]
  refine ⟨a, init.map f, last.1 ++ b, ha, ?_, ?_, ?_, ?_⟩
  · intro c hc
    simp at hc
    obtain ⟨x, y, hx, rfl⟩ := hc
    exact (hf _ hx).1
  · exact ⟨_, reads_append (hsegs last (by simp)) (spaces_plain hb)⟩
  · rw [hflat _ (fun _ h => h), htext, htr, hsrc]
    simp [barred]
  · rw [← h, hcells]
    simp only [cellsFrom, true_or, if_true, List.nil_append]
    rw [cellsOf_append_last]
    apply List.ext_getElem
    · simp
    · intro i h1 h2
      simp at h2
      have hm := hf _ (List.getElem_mem h2)
      simp only [List.getElem_mapIdx, List.getElem_map]
      rw [hm.2.2.2, ← List.map_take, hflat _ (fun s hs => List.mem_of_mem_take hs)]
      congr 1
      rw [hm.2.2.1, ← hind]
      simp
      omega

/-- Non-vacuity: a row with escapes, padding and an empty cell. -/
example : CellValue py"a|b\\c \n" ∧ CellValue [] ∧ Tight [] ∧ Pad py"  \t" ∧
    writeRow [⟨py" ", py"a|b\\c \n", py" "⟩, ⟨[], [], []⟩] = py"| a\\|b\\\\c \\n ||" := by
  refine ⟨⟨by simp [isSpace], by simp⟩, ⟨by simp, by simp⟩, by simp [Tight], by simp [Pad, isSpace], rfl⟩

example : Line.tableCells ⟨py"  | a\\|b | c\\\\ |\n", 3⟩ = .ok [⟨5, py"a|b"⟩, ⟨12, py"c\\"⟩] := by decide +kernel

end Gherkin
