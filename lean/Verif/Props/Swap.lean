import Verif.Proofs.Swap2
import Verif.Spec.Swap
import Verif.Props.Samples
import Verif.Props.MdErrors

/-! C89: documents and token listings. -/

namespace Gherkin

theorem ends_outcome {α β : Type} {r₁ : Except Exc α} {r₂ : Except Exc β} (h : Swap.Ends (fun x => x ≠ .runtimeError) r₁ r₂)
    (hc : ∀ x, r₁ = .error (.crash x) → x = .runtimeError) (hf : r₁ ≠ .error .outOfFuel) : DocumentAndListing r₁ r₂ := by
  have hn : ∀ {es : List Err}, Swap.others es ≠ [] → ∃ e ∈ es, ¬ e.Ragged := by
    intro es h
    apply Decidable.byContradiction
    intro hn
    apply h
    simp only [Swap.others, List.filter_eq_nil_iff]
    intro e he
    have : e.Ragged := Decidable.byContradiction fun h => hn ⟨e, he, h⟩
    have k : e.kind = .astBuilder := this
    simp [k]
  cases h with
  | ok => exact .both
  | only h1 h2 h3 =>
    refine .tables h1 h2 fun e he => ?_
    simp only [Swap.others, List.filter_eq_nil_iff] at h3
    have k := h3 e he
    simp only [Bool.not_eq_true, Bool.not_eq_false', decide_eq_true_eq] at k
    exact k
  | @both es h1 h2 =>
    have := DocumentAndListing.others (α := α) (β := β) h1 (hn h2)
    have e : (es.filter fun e => ¬ e.Ragged) = Swap.others es := by
      unfold Swap.others
      congr 1
      funext e
      exact decide_not
    rw [e] at this
    exact this
  | full h1 h2 => exact .eleven h1 h2
  | own hk => exact absurd (hc _ rfl) hk
  | crash => rw [hc _ rfl]; exact .row
  | fuel => exact absurd rfl hf

/-- **C89.** A classic text without tag lines that have white space inside a tag is parsed into a document and into a token listing, by parsers that
collect errors: there are both; or all errors are about tables with uneven rows, and there is a listing; or the listing fails with those of the errors
of the document that are not about tables, in the same order (`DocumentAndListing`). -/
theorem C89_listing_and_document (text : Str) (ht : ∀ n s, LineIs text n s → ¬ BadTags s) (m : CState) (hm : m.Valid) (b : BState) (ts : List Token) :
    DocumentAndListing (parse ⟨classic, astBuilder, false⟩ text m b).1 (parse ⟨classic, formatter, false⟩ text m ts).1 := by
  have h := Swap.swap_parse classic_lawful Swap.classic_matches Swap.astBuilder_complains Swap.formatter_silent text m b ts
  have hc := C04_parse_outcome_partial false text m hm b
  refine ends_outcome h ?_ ?_
  · intro x hx
    rw [hx] at hc
    rcases hc with ⟨d, h⟩ | ⟨_, es, _, h⟩ | ⟨_, e, h⟩ | ⟨h, n, s, h1, h2⟩ | ⟨h, _⟩
    · simp at h
    · simp at h
    · simp at h
    · exact absurd h2 (ht n s h1)
    · simp only [Except.error.injEq, Exc.crash.injEq] at h; exact h
  · intro hx
    rw [hx] at hc
    rcases hc with ⟨d, h⟩ | ⟨_, es, _, h⟩ | ⟨_, e, h⟩ | ⟨h, _⟩ | ⟨h, _⟩ <;> simp at h

/-- **C89** for Markdown texts. -/
theorem C89_markdown (text : Str) (m : MdState) (b : BState) (ts : List Token) :
    DocumentAndListing (parse ⟨markdown, astBuilder, false⟩ text m b).1 (parse ⟨markdown, formatter, false⟩ text m ts).1 := by
  have h := Swap.swap_parse markdown_lawful Swap.markdown_matches Swap.astBuilder_complains Swap.formatter_silent text m b ts
  have hc := C59_markdown_outcome_partial false text m b
  refine ends_outcome h ?_ ?_
  · intro x hx
    rw [hx] at hc
    rcases hc with ⟨d, h⟩ | ⟨_, es, _, h⟩ | ⟨_, e, h⟩ | ⟨h, _⟩
    · simp at h
    · simp at h
    · simp at h
    · simp only [Except.error.injEq, Exc.crash.injEq] at h; exact h
  · intro hx
    rw [hx] at hc
    rcases hc with ⟨d, h⟩ | ⟨_, es, _, h⟩ | ⟨_, e, h⟩ | ⟨h, _⟩ <;> simp at h

/-- **C89**, the listing's side: a text with a listing has a document, or all errors of the document are about tables. -/
theorem C89_listed (text : Str) (ht : ∀ n s, LineIs text n s → ¬ BadTags s) (m : CState) (hm : m.Valid) (b : BState) (ts : List Token) (l : Str)
    (h : (parse ⟨classic, formatter, false⟩ text m ts).1 = .ok l) :
    (∃ d, (parse ⟨classic, astBuilder, false⟩ text m b).1 = .ok d) ∨
    ∃ es, (parse ⟨classic, astBuilder, false⟩ text m b).1 = .error (.composite es) ∧ ∀ e ∈ es, e.Ragged := by
  have hd := C89_listing_and_document text ht m hm b ts
  rw [h] at hd
  generalize (parse ⟨classic, astBuilder, false⟩ text m b).1 = r at hd
  cases hd with
  | both => exact .inl ⟨_, rfl⟩
  | tables h1 h2 h3 => exact .inr ⟨_, rfl, h3⟩
  | eleven h1 h2 =>
    rcases h2 with h2 | ⟨x, h2⟩
    · exact .inr ⟨_, rfl, h2⟩
    · simp at h2

/-- **C89.** By parsers that stop at the first error: a text with a document has a listing, and a text with a listing has a document, or its first error is
about a table with uneven rows. -/
theorem C89_stopping (text : Str) (ht : ∀ n s, LineIs text n s → ¬ BadTags s) (m : CState) (hm : m.Valid) (b : BState) (ts : List Token) :
    ((∃ d, (parse ⟨classic, astBuilder, true⟩ text m b).1 = .ok d) → ∃ l, (parse ⟨classic, formatter, true⟩ text m ts).1 = .ok l) ∧
    ((∃ l, (parse ⟨classic, formatter, true⟩ text m ts).1 = .ok l) →
      (∃ d, (parse ⟨classic, astBuilder, true⟩ text m b).1 = .ok d) ∨
      ∃ e, (parse ⟨classic, astBuilder, true⟩ text m b).1 = .error (.single e) ∧ e.Ragged) := by
  obtain ⟨a1, a2, _⟩ := C47_first_error (B := astBuilder) classic_lawful text m b
  obtain ⟨b1, _⟩ := C47_first_error (B := formatter) classic_lawful text m ts
  have hd := C89_listing_and_document text ht m hm b ts
  constructor
  · rintro ⟨d, h⟩
    rw [a1] at h
    rw [h] at hd
    generalize hr : (parse ⟨classic, formatter, false⟩ text m ts).1 = r at hd
    cases hd with
    | both => exact ⟨_, (b1 _).2 hr⟩
  · rintro ⟨l, h⟩
    rcases C89_listed text ht m hm b ts l ((b1 _).1 h) with ⟨d, h⟩ | ⟨es, h, h2⟩
    · exact .inl ⟨d, (a1 _).2 h⟩
    · obtain ⟨e, e0, rest, h3, rfl, h4⟩ := a2 es h
      exact .inr ⟨e, h3, h4.kind.symm.trans (h2 e0 (by simp))⟩

/-- **C89.** The same for Markdown. -/
theorem C89_markdown_stopping (text : Str) (m : MdState) (b : BState) (ts : List Token) :
    ((∃ d, (parse ⟨markdown, astBuilder, true⟩ text m b).1 = .ok d) → ∃ l, (parse ⟨markdown, formatter, true⟩ text m ts).1 = .ok l) ∧
    ((∃ l, (parse ⟨markdown, formatter, true⟩ text m ts).1 = .ok l) →
      (∃ d, (parse ⟨markdown, astBuilder, true⟩ text m b).1 = .ok d) ∨
      ∃ e, (parse ⟨markdown, astBuilder, true⟩ text m b).1 = .error (.single e) ∧ e.Ragged) := by
  obtain ⟨a1, a2, _⟩ := C47_first_error (B := astBuilder) markdown_lawful text m b
  obtain ⟨b1, _⟩ := C47_first_error (B := formatter) markdown_lawful text m ts
  have hd := C89_markdown text m b ts
  constructor
  · rintro ⟨d, h⟩
    rw [a1] at h
    rw [h] at hd
    generalize hr : (parse ⟨markdown, formatter, false⟩ text m ts).1 = r at hd
    cases hd with
    | both => exact ⟨_, (b1 _).2 hr⟩
  · rintro ⟨l, h⟩
    rw [b1] at h
    rw [h] at hd
    generalize hr : (parse ⟨markdown, astBuilder, false⟩ text m b).1 = r at hd
    have fin : ∀ es, r = .error (.composite es) → (∀ e ∈ es, e.Ragged) →
        ∃ e, (parse ⟨markdown, astBuilder, true⟩ text m b).1 = .error (.single e) ∧ e.Ragged := by
      rintro es rfl h2
      obtain ⟨e, e0, rest, h3, rfl, h4⟩ := a2 es hr
      exact ⟨e, h3, h4.kind.symm.trans (h2 e0 (by simp))⟩
    cases hd with
    | both => exact .inl ⟨_, (a1 _).2 hr⟩
    | tables _ _ h3 => exact .inr (fin _ rfl h3)
    | eleven _ h2 =>
      rcases h2 with h2 | ⟨x, h2⟩
      · exact .inr (fin _ rfl h2)
      · simp at h2

/-! ### Samples -/

/-- A text with a table with uneven rows and a line that is not expected. -/
def Sample.twoErrors : Str := py"Feature: a\n  Scenario: b\n    Given c\n      | x | y |\n      | z |\n  nonsense\n"

example : (match (parse ⟨classic, astBuilder, false⟩ Sample.twoErrors Sample.en Sample.fresh).1 with
      | .error (.composite es) => es.map (·.msg)
      | _ => []) =
        [py"(6:3): expected: #EOF, #TableRow, #StepLine, #TagLine, #ExamplesLine, #ScenarioLine, #RuleLine, #Comment, #Empty, got 'nonsense'",
         py"(5:7): inconsistent cell count within the table"] ∧
    (match (parse ⟨classic, formatter, false⟩ Sample.twoErrors Sample.en []).1 with
      | .error (.composite es) => es.map (·.msg)
      | _ => []) =
        [py"(6:3): expected: #EOF, #TableRow, #StepLine, #TagLine, #ExamplesLine, #ScenarioLine, #RuleLine, #Comment, #Empty, got 'nonsense'"] := by
  decide +kernel

/-- The text has no tag lines. -/
example : ∀ n s, LineIs Sample.twoErrors n s → ¬ BadTags s := by
  rintro n s ⟨_, h⟩ ⟨ws, a, x, w, y, b, r, _, _, _, _, _, _, _, rfl, h2, _⟩
  have hm := List.mem_of_getElem? h
  have all : ∀ s ∈ splitLines Sample.twoErrors, '@' ∉ s := by decide +kernel
  apply all _ hm
  have : '@' ∈ a ++ [x] := List.mem_of_head? h2
  simp only [List.mem_append, List.mem_cons, List.mem_nil_iff, or_false] at this
  rcases this with h | h
  · simp [h]
  · simp only [List.mem_append, List.mem_cons]
    exact .inl (.inr (.inl (.inr (.inl h))))

/-- A text with uneven rows only: a listing and no document. -/
example : ∃ es l, es ≠ [] ∧ (parse ⟨classic, astBuilder, false⟩ Sample.bad Sample.en Sample.fresh).1 = .error (.composite es) ∧ (∀ e ∈ es, e.Ragged) ∧
    (parse ⟨classic, formatter, false⟩ Sample.bad Sample.en []).1 = .ok l := by
  refine ⟨match (parse ⟨classic, astBuilder, false⟩ Sample.bad Sample.en Sample.fresh).1 with | .error (.composite es) => es | _ => [],
    match (parse ⟨classic, formatter, false⟩ Sample.bad Sample.en []).1 with | .ok l => l | _ => [], ?_⟩
  decide +kernel

/-- The same when parsing stops at the first error. -/
example : ∃ e l, (parse ⟨classic, astBuilder, true⟩ Sample.bad Sample.en Sample.fresh).1 = .error (.single e) ∧ e.Ragged ∧
    (parse ⟨classic, formatter, true⟩ Sample.bad Sample.en []).1 = .ok l ∧ l ≠ [] := by
  refine ⟨⟨.astBuilder, py"(6:7): inconsistent cell count within the table", ⟨6, some 7⟩, none⟩,
    match (parse ⟨classic, formatter, true⟩ Sample.bad Sample.en []).1 with | .ok l => l | _ => [], ?_⟩
  decide +kernel

end Gherkin
