import Verif.Proofs.MdProse
import Verif.Proofs.MdLines

/-! The open fence of the Markdown matcher in accepted texts. -/

namespace Gherkin

open Markdown Cst

namespace Md

/-- Lines for which asking whether they are empty changes no fence. -/
def quiet (l : Line) : Prop := fenceOf l.text = none ∨ tagged l = true

theorem plain_active {k : Kind} (h1 : k ≠ .docStringSeparator) (h2 : k ≠ .empty) (t : Token) (m : MdState) :
    (matchKind k t m).2.2.active = m.active := by
  have title : ∀ k p ks s t (m : MdState), (matchTitle k p ks s t m).2.2.active = m.active := by
    intro k p ks s t m; rw [(matchTitle_state _ _ _ _ _ _).1]
  cases k <;> simp only [matchKind]
  case eof => unfold matchEof; split <;> rfl
  case comment => unfold matchComment; simp only; repeat' split
                  all_goals rfl
  case tagLine => rw [(tag_state _ _).1]
  case featureLine =>
    unfold matchFeature
    split
    · rfl
    · have := title .featureLine headerPrefix m.dialect.feature [':'] t m
      rcases hx : matchTitle .featureLine headerPrefix m.dialect.feature [':'] t m with ⟨r, t1, m1⟩
      rw [hx] at this
      split
      · rename_i h; cases h; exact this
      · rfl
  case scenarioLine => rw [(scenario_state _ _).1]
  case docStringSeparator => exact absurd rfl h1
  case empty => exact absurd rfl h2
  case tableRow => unfold matchTableRow; repeat' split
                   all_goals rfl
  case language => rfl
  case other => rfl
  all_goals exact title _ _ _ _ _ _

/-- Without a fence in the line a separator is not found. -/
theorem sep_none {d : Dialect} {f : Str} {t : Token} {m : MdState} (hf : fenceOf t.line.text = none) (hm : Mild d f m) :
    (matchDocSep t m).2.2 = m := by
  rw [fence_cases] at hf
  have a1 : t.line.startsWith Classic.quotes = false := by
    cases h : t.line.startsWith Classic.quotes with
    | false => rfl
    | true => simp [h] at hf
  have a2 : t.line.startsWith ticks4 = false := by
    cases h : t.line.startsWith ticks4 with
    | false => rfl
    | true => simp [h, a1] at hf
  have a3 : t.line.startsWith Classic.ticks = false := by
    cases h : t.line.startsWith Classic.ticks with
    | false => rfl
    | true => simp [h, a1, a2] at hf
  unfold matchDocSep
  rcases hm.2 with h | ⟨h, h3⟩
  · rw [h]; simp [a1, a2, matchSep, a3]
  · have : t.line.startsWith f = false := by
      simp only [Fences, List.mem_cons, List.not_mem_nil, or_false] at h3
      rcases h3 with rfl | rfl | rfl <;> assumption
    rw [h]; simp [matchSep, this]

theorem orElse_active {d : Dialect} {f : Str} {l : Line} (hf : fenceOf l.text = none) {ks : List Kind} : (∀ k ∈ ks, k ≠ .empty) →
    ∀ {t : Token} {m : MdState}, t.line = l → Mild d f m → (orElse (ks.map matchKind) t m).2.2.active = m.active := by
  induction ks with
  | nil => intro _ t m _ _; rfl
  | cons k ks ih =>
    intro hk t m ht hm
    have h1 : (matchKind k t m).2.2.active = m.active := by
      by_cases hs : k = .docStringSeparator
      · subst hs; exact congrArg MdState.active (sep_none (by rw [ht]; exact hf) hm)
      · exact plain_active hs (hk k (by simp)) t m
    have h2 := mild_keep (d := d) (f := f) (t := t) (m := m) (by rw [ht]; exact .inl hf) k hm
    have h3 := markdown_lawful.line k t m
    simp only [markdown] at h3
    simp only [List.map_cons, orElse]
    rcases hx : matchKind k t m with ⟨r, t1, m1⟩
    rw [hx] at h1 h2 h3
    simp only at h1 h2 h3
    rcases r with e | b
    · exact h1
    · cases b with
      | true => exact h1
      | false => exact (ih (fun k hk' => hk k (by simp [hk'])) (h3.trans ht) h2).trans h1

theorem empty_active {d : Dialect} {f : Str} {t : Token} {m : MdState} (hq : quiet t.line) (hm : Mild d f m) :
    (matchEmpty t m).2.2.active = m.active := by
  have key : (orElse emptyProbes t m).2.2.active = m.active := by
    rcases hq with hq | hq
    · rw [probes_eq]; exact orElse_active hq (by decide) rfl hm
    · rw [emptyProbes, orElse]
      have h1 := tag_state t m
      rcases hx : matchTagLine t m with ⟨r, t1, m1⟩
      rw [hx] at h1
      obtain ⟨rfl, h2⟩ := h1
      simp only at h2
      rw [show (!(findTags t.line.lineText 0 0).isEmpty) = true from hq] at h2
      subst h2
      rfl
  unfold matchEmpty
  rcases hx : orElse emptyProbes t m with ⟨r, t1, m1⟩
  rw [hx] at key
  rcases r with e | b
  · exact key
  · simp only
    split <;> exact key

/-- On quiet lines only a separator changes the open fence. -/
theorem quiet_active {d : Dialect} {f : Str} {k : Kind} (hk : k ≠ .docStringSeparator) {t : Token} {m : MdState} (hq : k = .empty → quiet t.line)
    (hm : Mild d f m) : (matchKind k t m).2.2.active = m.active := by
  by_cases he : k = .empty
  · subst he; exact empty_active (hq rfl) hm
  · exact plain_active hk he t m

theorem fence_first {l : Line} {f : Str} (hf : fenceOf l.text = some f) : l.trimmed.head? = some '"' ∨ l.trimmed.head? = some '`' := by
  rw [fence_cases] at hf
  have first : ∀ (c : Char) (s : Str), l.startsWith (c :: s) = true → l.trimmed.head? = some c := by
    intro c s h
    have h := starts_iff.1 h
    cases hl : l.trimmed with
    | nil => rw [hl] at h; simp at h
    | cons a b => rw [hl] at h; simp at h; simp [h.1]
  split at hf
  · rename_i h; exact .inl (first _ _ h)
  · split at hf
    · rename_i h; exact .inr (first _ _ h)
    · split at hf
      · rename_i h; exact .inr (first _ _ h)
      · simp at hf

theorem fence_starts {l : Line} {f : Str} (hf : fenceOf l.text = some f) : l.startsWith f = true ∧ f ∈ Fences := by
  rw [fence_cases] at hf
  split at hf
  · rename_i h; cases hf; exact ⟨h, by simp [Fences]⟩
  · split at hf
    · rename_i h; cases hf; exact ⟨h, by simp [Fences]⟩
    · split at hf
      · rename_i h; cases hf; exact ⟨h, by simp [Fences]⟩
      · simp at hf

/-- What a line with a fence can be. -/
theorem fence_kind {d : Dialect} {f : Str} {k : Kind} {t : Token} {m : MdState} (hf : fenceOf t.line.text = some f) (hm : Mild d f m)
    (he : t.eof = false) (h : (matchKind k t m).1 = .ok true) :
    (k = .tagLine ∧ tagged t.line = true) ∨ k = .featureLine ∨ k = .docStringSeparator ∨ k = .other := by
  have hh := fence_first hf
  have head : ∀ ks s, (searchTitle (headerPrefix t.line.lineText) ks s).isSome = false := by
    intro ks s
    cases hx : (searchTitle (headerPrefix t.line.lineText) ks s).isSome with
    | false => rfl
    | true => have := headed_sharp hx; rw [this] at hh; simp at hh
  have hbar : t.line.startsWith ['|'] = false := by
    cases hx : t.line.startsWith ['|'] with
    | false => rfl
    | true => obtain ⟨rest, hr⟩ := (startsWith_char _ '|').1 hx; rw [hr] at hh; simp at hh
  cases k <;> simp only [matchKind] at h
  case eof => simp [matchEof, he] at h
  case empty =>
    exfalso
    have hs := (sep_answer (d := d) (.inr hf) hm).1
    have hb : t.line.isBlank = false := by
      unfold Line.isBlank
      cases hl : t.line.trimmed with
      | nil => rw [hl] at hh; simp at hh
      | cons => rfl
    unfold matchEmpty at h
    rcases hx : orElse emptyProbes t m with ⟨r, t1, m1⟩
    rw [hx] at h
    rcases r with e | b
    · simp at h
    · cases b with
      | true => simp [hb] at h
      | false =>
        rw [probes_eq] at hx
        have hks : (orElse (probeKinds.map matchKind) t m).1 = .ok false := by rw [hx]
        -- the probe for a separator must have said no
        have key : ∀ ks : List Kind, ∀ t' m', t'.line = t.line → Mild d f m' → (orElse (ks.map matchKind) t' m').1 = .ok false → .docStringSeparator ∉ ks := by
          intro ks
          induction ks with
          | nil => simp
          | cons k ks ih =>
            intro t' m' ht hm' ho
            have h2 := mild_keep (d := d) (f := f) (t := t') (m := m') (by rw [ht]; exact .inr hf) k hm'
            have h3 := markdown_lawful.line k t' m'
            simp only [markdown] at h3
            simp only [List.map_cons, orElse] at ho
            rcases hy : matchKind k t' m' with ⟨r, t2, m2⟩
            rw [hy] at ho h2 h3
            rcases r with e | b
            · simp at ho
            · cases b with
              | true => simp at ho
              | false =>
                simp only at ho h2 h3
                have := ih t2 m2 (h3.trans ht) h2 ho
                intro hmem
                rcases List.mem_cons.1 hmem with rfl | hmem
                · have hs := (sep_answer (d := d) (f := f) (t := t') (by rw [ht]; exact .inr hf) hm').1
                  rw [show matchDocSep t' m' = matchKind .docStringSeparator t' m' from rfl, hy, ht, hf] at hs
                  simp at hs
                · exact this hmem
        exact key probeKinds t m rfl hm hks (by decide)
  case comment => simp [matchComment, hbar] at h
  case tagLine => left; rw [(tag_state _ _).2] at h; simpa [tagged] using h
  case featureLine => right; left; rfl
  case scenarioLine => rw [(scenario_state _ _).2, head, head] at h; simp at h
  case docStringSeparator => right; right; left; rfl
  case tableRow => simp [matchTableRow, hbar] at h
  case language => simp [matchLanguage] at h
  case other => right; right; right; rfl
  case stepLine =>
    unfold matchStep at h
    rw [(matchTitle_state _ _ _ _ _ _).2] at h
    have : bulletPrefix t.line.lineText = [] := by
      unfold bulletPrefix
      change t.line.lineText.head? = _ ∨ t.line.lineText.head? = _ at hh
      cases hl : t.line.lineText with
      | nil => rfl
      | cons c cs => rw [hl] at hh; simp at hh; rcases hh with rfl | rfl <;> rfl
    rw [this] at h
    simp [searchTitle] at h
  all_goals (unfold matchHeaded at h; rw [(matchTitle_state _ _ _ _ _ _).2, head] at h; simp at h)

end Md

end Gherkin
