import Verif.Proofs.MdDoc3

/-! The doc strings of accepted Markdown texts: from the run to the tokens. -/

namespace Gherkin

open Markdown Cst

section
variable {σ ρ : Type} {B : Builder σ ρ} {stop : Bool} {f : Str}

theorem parse_fences {text : Str} (hf : ∀ s ∈ splitLines text, fenceOf s = none ∨ fenceOf s = some f) (hp : PlainHeadings text) {m : MdState} {b : σ} {r : ρ}
    {c : Ctx MdState σ} (h : parse (⟨markdown, B, stop⟩ : Config MdState σ ρ) text m b = (.ok r, c)) :
    Stray f (builds c.log) ∨ Complete f (builds c.log) := by
  have hfl : ∀ l ∈ tokenLines text, fenceOf l.text = none ∨ fenceOf l.text = some f := by
    intro l hl
    simp only [tokenLines, sourceLines, eofLine, List.mem_append, List.mem_map, List.mem_singleton] at hl
    rcases hl with ⟨⟨s, n⟩, hs, rfl⟩ | rfl
    · exact hf s (List.fst_mem_of_mem_zipIdx hs)
    · left; exact (by decide : fenceOf [] = none)
  have hpl : ∀ l ∈ tokenLines text, (lstrip l.text).head? = some '#' → ¬ ∃ a b, l.text = a ++ py"`@" ++ b := by
    intro l hl
    simp only [tokenLines, sourceLines, eofLine, List.mem_append, List.mem_map, List.mem_singleton] at hl
    rcases hl with ⟨⟨s, n⟩, hs, rfl⟩ | rfl
    · exact hp s (List.fst_mem_of_mem_zipIdx hs)
    · intro h; exact absurd h (by decide : ¬ (lstrip []).head? = some '#')
  have hS := md_steady (B := B) (stop := stop) (Md.reset m).dialect hf hp
  have hM : Md.Mild (Md.reset m).dialect f (Md.reset m) := ⟨rfl, .inl (by simp [Md.reset])⟩
  have key : ∀ (p : Prod) (c c' : Ctx MdState σ) (r : Except Exc Unit), p ≠ .build →
      runProd (⟨markdown, B, stop⟩ : Config MdState σ ρ) p (Token.fresh ⟨[], 0⟩) c = (r, c') → builds c'.log = builds c.log := by
    intro p c c' r hb h
    have h2 : builds (runProd (⟨markdown, B, stop⟩ : Config MdState σ ρ) p (Token.fresh ⟨[], 0⟩) c).2.log = builds c.log := by
      rw [runProd_eq, (handle_ctx (cfg := (⟨markdown, B, stop⟩ : Config MdState σ ρ)) _ _ _).2.2.2.2]
      cases p <;> simp_all [builds_append, builds, Prod.ev]
    rw [h] at h2; exact h2
  have herr := ((parse_cases (cfg := ⟨markdown, B, stop⟩) markdown_lawful text m b).1 _ c h).1
  unfold parse at h
  have hfr := runProd_frame (cfg := (⟨markdown, B, stop⟩ : Config MdState σ ρ)) (.start .gherkinDocument) (Token.fresh ⟨[], 0⟩) (Ctx.init ⟨markdown, B, stop⟩ text m b)
  rcases hr : runProd (⟨markdown, B, stop⟩ : Config MdState σ ρ) (.start .gherkinDocument) (Token.fresh ⟨[], 0⟩) (Ctx.init ⟨markdown, B, stop⟩ text m b) with ⟨r0, c0⟩
  rw [hr] at hfr h
  cases r0 with
  | error x => simp at h
  | ok u =>
    simp only at h
    have h0 : builds c0.log = [] := key _ _ _ _ (by simp) hr
    have hm0 : c0.matcher = Md.reset m := hfr.2.2
    have hO : OInv (Md.skipped (Md.reset m).dialect) (tokenLines text) c0 :=
      OInv.congr (c := Ctx.init (⟨markdown, B, stop⟩ : Config MdState σ ρ) text m b) ⟨splitLines_ne_nil text, .inl ⟨rfl, (rest_ofStr text).symm⟩⟩ hfr.2.1 hfr.1
    rcases hl : parseLoop (⟨markdown, B, stop⟩ : Config MdState σ ρ) (c0.scanner.lines.length + 1) 0 c0 with ⟨r1, c1⟩
    rw [hl] at h
    cases r1 with
    | error x => simp at h
    | ok q =>
      simp only at h
      rcases hq : runProd (⟨markdown, B, stop⟩ : Config MdState σ ρ) (.stop .gherkinDocument) (Token.fresh ⟨[], 0⟩) c1 with ⟨r2, c2⟩
      have h4 := key _ _ _ _ (by simp) hq
      rw [hq] at h
      cases r2 with
      | error x => simp at h
      | ok u =>
        simp only at h
        have hc2 : c = c2 := by
          split at h
          · simp at h
          · rcases hres : B.result c2.builder with x | r
            · rw [hres] at h; cases x <;> simp at h
            · rw [hres] at h; simp at h; exact h.2.symm
        subst hc2
        rw [h4]
        refine fence_loop hfl hpl hS (tokenLines_numbered text) (fun _ h => h) hO (.inl ⟨by omega, by rw [hm0]; exact hM⟩) ?_ hl ?_
        · right; right; right; left
          exact ⟨by decide, by rw [hm0]; simp [Md.reset], by rw [h0]; exact .nil⟩
        · apply Classical.byContradiction
          intro he
          rw [runProd_eq] at hq
          exact he (((handle_errors hq).1 _ rfl).1.nil herr)

end

/-! ### Doc strings among the core tokens -/

theorem core_one (t : Token) : [t].filter Token.isCore = if t.isCore then [t] else [] := by
  by_cases h : t.isCore = true <;> simp [h]

theorem doc_core {f : Str} {o c : Token} {ls : List Token} (ho : Opens f o) (hl : ∀ t ∈ ls, Inside f o.line.indent t) (hc : Closes f c) :
    (o :: (ls ++ [c])).filter Token.isCore = o :: (ls ++ [c]) := by
  refine List.filter_eq_self.2 fun t ht => ?_
  simp only [List.mem_cons, List.mem_append, List.not_mem_nil, or_false] at ht
  rcases ht with rfl | ht | rfl
  · rw [isCore_kind ho.type]; rfl
  · rw [isCore_kind (hl t ht).type]; rfl
  · rw [isCore_kind hc.type]; rfl

theorem Complete.find {f : Str} {bs : List Token} (h : Complete f bs) : ∀ {A R : List Token} {s o : Token}, bs.filter Token.isCore = A ++ s :: o :: R →
    s.type = some .stepLine → o.type = some .docStringSeparator →
    ∃ X ls c Y, bs = X ++ o :: (ls ++ c :: Y) ∧ Opens f o ∧ (∀ t ∈ ls, Inside f o.line.indent t) ∧ Closes f c ∧
      R = ls ++ c :: Y.filter Token.isCore := by
  induction h with
  | nil => intro A R s o h; simp at h
  | @one ts t _ ht ih =>
    intro A R s o h hs ho
    rw [List.filter_append, core_one] at h
    by_cases hc : t.isCore = true
    · rw [if_pos hc] at h
      rcases List.eq_nil_or_concat R with rfl | ⟨R', x, rfl⟩
      · have := congrArg List.getLast? h
        simp at this
        exact absurd (this ▸ ho) ht
      · have h' : ts.filter Token.isCore ++ [t] = (A ++ s :: o :: R') ++ [x] := by rw [h]; simp
        obtain ⟨h1, h2⟩ := List.append_inj' h' rfl
        simp only [List.cons.injEq, and_true] at h2
        subst h2
        obtain ⟨X, ls, c, Y, rfl, k1, k2, k3, rfl⟩ := ih h1 hs ho
        exact ⟨X, ls, c, Y ++ [t], by simp, k1, k2, k3, by simp [List.filter_append, hc]⟩
    · rw [if_neg hc, List.append_nil] at h
      obtain ⟨X, ls, c, Y, rfl, k1, k2, k3, rfl⟩ := ih h hs ho
      exact ⟨X, ls, c, Y ++ [t], by simp, k1, k2, k3, by simp [List.filter_append, hc]⟩
  | @doc ts o' ls' c' _ ho' hl' hc' ih =>
    intro A R s o h hs ho
    rw [List.filter_append, doc_core ho' hl' hc'] at h
    rcases List.append_eq_append_iff.1 h with ⟨as, h1, h2⟩ | ⟨as, h1, h2⟩
    · exfalso
      have : s ∈ o' :: (ls' ++ [c']) := by rw [h2]; simp
      simp only [List.mem_cons, List.mem_append, List.not_mem_nil, or_false] at this
      rcases this with rfl | hm | rfl
      · rw [ho'.type] at hs; simp at hs
      · rw [(hl' s hm).type] at hs; simp at hs
      · rw [hc'.type] at hs; simp at hs
    · match as with
      | [] =>
        simp only [List.nil_append, List.cons.injEq] at h2
        rw [h2.1, ho'.type] at hs; simp at hs
      | [x] =>
        simp only [List.cons_append, List.nil_append, List.cons.injEq] at h2
        obtain ⟨_, rfl, rfl⟩ := h2
        exact ⟨ts, ls', c', [], rfl, ho', hl', hc', rfl⟩
      | x :: y :: as =>
        simp only [List.cons_append, List.cons.injEq] at h2
        obtain ⟨rfl, rfl, rfl⟩ := h2
        obtain ⟨X, ls, c, Y, rfl, k1, k2, k3, rfl⟩ := ih h1 hs ho
        refine ⟨X, ls, c, Y ++ o' :: (ls' ++ [c']), by simp, k1, k2, k3, ?_⟩
        rw [List.filter_append, doc_core ho' hl' hc']; simp

/-! ### The text of a fence in a description -/

theorem replaceGo_keep {old new : Str} : ∀ (a b : Str), (∀ c ∈ a, old.head? ≠ some c) → old ≠ [] → replaceGo old new 0 (a ++ b) = a ++ replaceGo old new 0 b := by
  intro a b
  induction a with
  | nil => intro _ _; rfl
  | cons x a ih =>
    intro h hne
    rw [List.cons_append, replaceGo, if_neg, ih (fun c hc => h c (by simp [hc])) hne]
    · rfl
    · intro hp
      cases old with
      | nil => exact hne rfl
      | cons y ys =>
        simp at hp
        exact h x (by simp) (by simp [hp.1])

theorem fence_prefix {s f : Str} (h : fenceOf s = some f) : ∃ w y, s = w ++ f ++ y ∧ (∀ c ∈ w, isSpace c = true) ∧ f ∈ Md.Fences := by
  obtain ⟨h1, h2⟩ := Md.fence_starts (l := ⟨s, 0⟩) h
  obtain ⟨ws, w1, w2, _, _⟩ := trimmed_spec ⟨s, 0⟩
  have := startsWith_split h1
  simp only at w2
  refine ⟨ws, (Line.trimmed ⟨s, 0⟩).drop f.length, ?_, w1, h2⟩
  rw [List.append_assoc, ← this, ← w2]

theorem fence_of_prefix {f : Str} (hf : f ∈ Md.Fences) (w y : Str) (hw : ∀ c ∈ w, isSpace c = true) : fenceOf (w ++ f ++ y) ≠ none := by
  have hl : lstrip (w ++ f ++ y) = f ++ y := by
    rw [List.append_assoc]
    have hh : ∀ c, (f ++ y).head? = some c → isSpace c = false := by
      simp only [Md.Fences, List.mem_cons, List.not_mem_nil, or_false] at hf
      rcases hf with rfl | rfl | rfl <;> (intro c hc; simp [Classic.quotes, Classic.ticks, Md.ticks4] at hc; subst hc; decide)
    clear hf
    induction w with
    | nil =>
      cases hfy : f ++ y with
      | nil => rfl
      | cons a b => rw [List.nil_append, lstrip, lstripBy, List.dropWhile_cons, if_neg]; simp [hh a (by rw [hfy]; rfl)]
    | cons x w ih =>
      rw [List.cons_append, lstrip, lstripBy, List.dropWhile_cons, if_pos (hw x (by simp))]
      exact ih fun c hc => hw c (by simp [hc])
  unfold fenceOf
  rw [hl]
  simp only [Md.Fences, List.mem_cons, List.not_mem_nil, or_false] at hf
  intro h
  rw [List.find?_eq_none] at h
  refine h f ?_ ?_
  · rcases hf with rfl | rfl | rfl <;> decide
  · simp

theorem outdent_keep (f y : Str) (hf : ∀ c, f.head? = some c → isSpace c = false) (hne : f ≠ []) : ∀ (w : Str) (n : Nat), (∀ c ∈ w, isSpace c = true) →
    ∃ w', (∀ c ∈ w', isSpace c = true) ∧ outdent n (w ++ f ++ y) = w' ++ f ++ y := by
  intro w
  induction w with
  | nil =>
    intro n _
    refine ⟨[], by simp, ?_⟩
    cases n with
    | zero => rfl
    | succ n =>
      cases f with
      | nil => exact absurd rfl hne
      | cons a f =>
        have := hf a rfl
        simp [outdent, this]
  | cons x w ih =>
    intro n hw
    cases n with
    | zero => exact ⟨x :: w, hw, rfl⟩
    | succ n =>
      obtain ⟨w', h1, h2⟩ := ih n fun c hc => hw c (by simp [hc])
      refine ⟨w', h1, ?_⟩
      simp only [List.cons_append, outdent, hw x (by simp), if_true]
      exact h2

/-- A line that begins with a delimiter still does so in the document. -/
theorem prose_fence {s x f : Str} (h : ProseOf s x) (hf : fenceOf s = some f) : fenceOf x ≠ none := by
  obtain ⟨w, y, rfl, hw, hF⟩ := fence_prefix hf
  have hfacts : (∀ c, f.head? = some c → isSpace c = false) ∧ f ≠ [] ∧ (∀ c ∈ f, c ≠ '\\' ∧ isEol c = false) := by
    simp only [Md.Fences, List.mem_cons, List.not_mem_nil, or_false] at hF
    rcases hF with rfl | rfl | rfl <;> decide +kernel
  have chomped : ∀ w y : Str, (∀ c ∈ w, isSpace c = true) → fenceOf (chomp (w ++ f ++ y)) ≠ none := by
    intro w y hw
    have : ∃ y', chomp (w ++ f ++ y) = w ++ f ++ y' := by
      obtain ⟨e, h1, h2, _⟩ := rstripBy_spec (p := isEol) (w ++ f ++ y)
      rw [show rstripBy isEol (w ++ f ++ y) = chomp (w ++ f ++ y) from rfl] at h2
      rcases List.append_eq_append_iff.1 h2.symm with ⟨as, k1, _⟩ | ⟨as, k1, _⟩
      · rcases List.eq_nil_or_concat as with rfl | ⟨as', z, rfl⟩
        · exact ⟨[], by rw [List.append_nil] at k1; rw [← k1, List.append_nil]⟩
        · exfalso
          rename_i k2
          rcases List.eq_nil_or_concat f with hn | ⟨f', z', hf'⟩
          · exact hfacts.2.1 hn
          · rw [hf', List.concat_eq_append, List.concat_eq_append, ← List.append_assoc, ← List.append_assoc] at k1
            have := (List.append_inj' k1 rfl).2
            simp at this
            have hz := (hfacts.2.2 z' (by rw [hf']; simp)).2
            have hz2 := h1 z (by rw [k2]; simp)
            rw [← this, hz] at hz2
            simp at hz2
      · exact ⟨as, k1⟩
    obtain ⟨y', hy'⟩ := this
    rw [hy']
    exact fence_of_prefix hF w y' hw
  obtain ⟨n, hx⟩ := h
  obtain ⟨w', h1, h2⟩ := outdent_keep f y hfacts.1 hfacts.2.1 w n hw
  rcases hx with rfl | ⟨dl, hdl, rfl⟩
  · rw [h2]; exact chomped w' y h1
  · have hh : (escaped dl).head? = some '\\' ∧ escaped dl ≠ [] := by
      simp only [docDelimiters, List.mem_cons, List.not_mem_nil, or_false] at hdl
      rcases hdl with rfl | rfl <;> decide
    rw [docLine, h2, replaceAll, replaceGo_keep (w' ++ f) y _ hh.2]
    · exact chomped w' _ h1
    · intro c hc
      rw [hh.1]
      rcases List.mem_append.1 hc with hc | hc
      · intro e; cases e; have := h1 _ hc; exact absurd this (by decide)
      · intro e; cases e; exact (hfacts.2.2 _ hc).1 rfl

end Gherkin
