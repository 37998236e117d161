import Verif.Proofs.BadConv
import Verif.Proofs.Classify
import Verif.Proofs.Language
import Verif.Spec.Layout

/-! A check of layouts, used for examples. -/

namespace Gherkin.Layout

open Gherkin

def noiseB (ls : List Str) : Bool := ls.all fun s => isBlankLine ⟨s, 0⟩ || firstIs '#' ⟨s, 0⟩
theorem noiseB_ok {ls : List Str} (h : noiseB ls = true) : Noise ls := by simpa [noiseB, Noise, Blank, Hash] using h

def lnB (d : Dialect) (k : Kind) (l : Ln) : Bool := kind d l.text == k && noiseB l.after
theorem lnB_ok {d : Dialect} {k : Kind} {l : Ln} (h : lnB d k l = true) : l.Ok d k := by
  simp [lnB] at h; exact ⟨h.1, noiseB_ok h.2⟩

def okB {α β : Type} : Except α β → Bool
  | .ok _ => true
  | .error _ => false

def tagsB (d : Dialect) (ts : List Ln) : Bool := ts.all fun t => lnB d .tagLine t && okB (Line.tags ⟨t.text, 0⟩)
theorem tagsB_ok {d : Dialect} {ts : List Ln} (h : tagsB d ts = true) : TagsOk d ts := by
  intro t ht
  simp only [tagsB, List.all_eq_true, Bool.and_eq_true] at h
  obtain ⟨h1, h2⟩ := h t ht
  have hk := lnB_ok h1
  have hf := lineKind_fits d ⟨t.text, 0⟩
  have hk' : lineKind d ⟨t.text, 0⟩ = .tagLine := hk.1
  rw [hk'] at hf
  simp only [fits, firstIs_iff] at hf
  refine ⟨hk, (tags_ok_iff (n := 0) hf).1 ?_⟩
  cases hx : Line.tags ⟨t.text, 0⟩ with
  | ok x => exact ⟨x, rfl⟩
  | error e => rw [hx] at h2; simp [okB] at h2

def rowB (d : Dialect) (n : Nat) (t : Ln) : Bool :=
  lnB d .tableRow t && match Line.tableCells ⟨t.text, 0⟩ with | .ok c => c.length == n | .error _ => false
def rowsB (d : Dialect) (n : Nat) (ts : List Ln) : Bool := ts.all (rowB d n)
theorem rowsB_ok {d : Dialect} {n : Nat} {ts : List Ln} (h : rowsB d n ts = true) : RowsOk d ts := by
  have key : ∀ t ∈ ts, (t.Ok d .tableRow ∧ ¬ BadRow t.text) ∧ ∀ cells, Line.tableCells ⟨t.text, 0⟩ = .ok cells → cells.length = n := by
    intro t ht
    simp only [rowsB, List.all_eq_true, rowB, Bool.and_eq_true] at h
    obtain ⟨h1, h2⟩ := h t ht
    have hk := lnB_ok h1
    have hf := lineKind_fits d ⟨t.text, 0⟩
    have hk' : lineKind d ⟨t.text, 0⟩ = .tableRow := hk.1
    rw [hk'] at hf
    simp only [fits, firstIs_iff] at hf
    cases hx : Line.tableCells ⟨t.text, 0⟩ with
    | ok x =>
      rw [hx] at h2
      refine ⟨⟨hk, (row_ok_iff (n := 0) hf).1 ⟨x, hx⟩⟩, ?_⟩
      intro cells hc
      injection hc with hc
      rw [← hc]; simpa using h2
    | error e => rw [hx] at h2; simp at h2
  exact ⟨fun t ht => (key t ht).1, n, fun t ht => (key t ht).2⟩

/-- `n` is the number of cells of a row. -/
def argB (d : Dialect) (n : Nat) : Arg → Bool
  | .none => true
  | .table r rs => rowsB d n (r :: rs)
  | .doc o ls c => docDelimiters.any fun delim => isDelim delim ⟨o, 0⟩ && ls.all (fun s => !isDelim delim ⟨s, 0⟩) && isDelim delim ⟨c.text, 0⟩ && noiseB c.after
theorem argB_ok {d : Dialect} {n : Nat} {a : Arg} (h : argB d n a = true) : a.Ok d := by
  cases a with
  | none => trivial
  | table r rs => exact rowsB_ok h
  | doc o ls c =>
    simp only [argB, List.any_eq_true, Bool.and_eq_true, List.all_eq_true, Bool.not_eq_true'] at h
    obtain ⟨delim, h1, ⟨⟨h2, h3⟩, h4⟩, h5⟩ := h
    exact ⟨delim, h1, h2, h3, h4, noiseB_ok h5⟩

def headB (d : Dialect) (k : Kind) (p : Part) (h : Head) : Bool :=
  kind d h.line == k &&
  if h.prose = [] then noiseB h.gap && h.after == []
  else h.gap.all (fun s => isBlankLine ⟨s, 0⟩) && h.prose.head?.all (fun s => !isBlankLine ⟨s, 0⟩) && h.prose.all (fun s => !ends d p ⟨s, 0⟩) &&
    noiseB h.after && h.after.head?.all (fun s => firstIs '#' ⟨s, 0⟩)
theorem headB_ok {d : Dialect} {k : Kind} {p : Part} {h : Head} (hb : headB d k p h = true) : h.Ok d k p := by
  simp only [headB, Bool.and_eq_true, beq_iff_eq] at hb
  refine ⟨hb.1, ?_⟩
  have h2 := hb.2
  by_cases hp : h.prose = []
  · rw [if_pos hp] at h2 ⊢
    simp at h2
    exact ⟨noiseB_ok h2.1, h2.2⟩
  · rw [if_neg hp] at h2 ⊢
    simp only [Bool.and_eq_true, List.all_eq_true, Bool.not_eq_true'] at h2
    obtain ⟨⟨⟨⟨g1, g2⟩, g3⟩, g4⟩, g5⟩ := h2
    refine ⟨g1, ?_, g3, noiseB_ok g4, ?_⟩
    · intro s hs hb
      simp only [Option.mem_def] at hs
      rw [hs] at g2
      have hb' : isBlankLine ⟨s, 0⟩ = true := hb
      simp [hb'] at g2
    · intro s hs
      simp only [Option.mem_def] at hs
      rw [hs] at g5
      show firstIs '#' ⟨s, 0⟩ = true
      simpa using g5

end Gherkin.Layout
