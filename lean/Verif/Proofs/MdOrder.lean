import Verif.Proofs.Ordered
import Verif.Spec.Markdown

/-! The Markdown matcher answers a look-ahead's questions steadily if the text has one kind of fence and plain headings. -/

namespace Gherkin

open Markdown

namespace Md

def Fences : List Str := [Classic.quotes, ticks4, Classic.ticks]

/-- Dialect `d`, and the only fence there is. -/
def Mild (d : Dialect) (f : Str) (m : MdState) : Prop := m.dialect = d ∧ (m.active = none ∨ (m.active = some f ∧ f ∈ Fences))

/-- The feature line has been seen, too. -/
def Good (d : Dialect) (f : Str) (m : MdState) : Prop := Mild d f m ∧ m.matchedFeature = true

theorem starts_iff {s p : Str} : startsWith s p = true ↔ s.take p.length = p := by
  unfold startsWith
  rw [List.isPrefixOf_iff_prefix, List.prefix_iff_eq_take]
  exact eq_comm

theorem fence_cases (l : Line) : fenceOf l.text =
    if l.startsWith Classic.quotes then some Classic.quotes else if l.startsWith ticks4 then some ticks4
    else if l.startsWith Classic.ticks then some Classic.ticks else none := by
  unfold fenceOf
  have h : (fun p : Str => decide ((lstrip l.text).take p.length = p)) = l.startsWith := by
    funext p
    rw [Bool.eq_iff_iff, decide_eq_true_iff]
    exact starts_iff.symm
  rw [h]
  rw [List.find?_cons, List.find?_cons, List.find?_cons, List.find?_nil]
  have bool : ∀ (b : Bool) (x y : Option Str), (match b with | true => x | false => y) = if b = true then x else y := by
    intro b x y; cases b <;> rfl
  rw [← bool, ← bool, ← bool]
  rfl

theorem ticks4_ticks {l : Line} (h : l.startsWith ticks4 = true) : l.startsWith Classic.ticks = true := by
  have h := starts_iff.1 h
  refine starts_iff.2 ?_
  have : (l.trimmed.take ticks4.length).take 3 = ticks4.take 3 := by rw [h]
  rw [List.take_take] at this
  exact this

theorem ticks_quotes {l : Line} (h : l.startsWith Classic.ticks = true) : l.startsWith Classic.quotes = false := by
  cases hq : l.startsWith Classic.quotes with
  | false => rfl
  | true =>
    have h := starts_iff.1 h
    have hq := starts_iff.1 hq
    have e : Classic.quotes.length = Classic.ticks.length := rfl
    rw [e, h] at hq
    exact absurd hq (by decide)

/-- With one fence, a doc string separator is a line with a fence. -/
theorem sep_answer {d : Dialect} {f : Str} {t : Token} {m : MdState} (hf : fenceOf t.line.text = none ∨ fenceOf t.line.text = some f) (hm : Mild d f m) :
    (matchDocSep t m).1 = .ok (fenceOf t.line.text).isSome ∧ Mild d f (matchDocSep t m).2.2 ∧ (matchDocSep t m).2.2.matchedFeature = m.matchedFeature := by
  obtain ⟨h1, h2⟩ := hm
  rw [fence_cases] at hf ⊢
  have h2' : m.active = none ∨ m.active = some f := by
    rcases h2 with h2 | h2
    · exact .inl h2
    · exact .inr h2.1
  unfold matchDocSep
  by_cases a1 : t.line.startsWith Classic.quotes = true
  · simp only [a1, if_true, reduceCtorEq, Option.some.injEq, false_or] at hf ⊢
    subst hf
    rcases h2' with h2 | h2 <;> rw [h2] <;> simp [matchSep, a1, Mild, h1, Fences]
  · by_cases a2 : t.line.startsWith ticks4 = true
    · simp only [a1, a2, if_true, if_false, reduceCtorEq, Option.some.injEq, false_or] at hf ⊢
      subst hf
      rcases h2' with h2 | h2 <;> rw [h2] <;> simp [matchSep, a2, Mild, h1, Fences]
    · by_cases a3 : t.line.startsWith Classic.ticks = true
      · simp only [a1, a2, a3, if_true, if_false, reduceCtorEq, Option.some.injEq, false_or] at hf ⊢
        subst hf
        rcases h2' with h2 | h2 <;> rw [h2] <;> simp [matchSep, a3, Mild, h1, Fences]
      · simp only [a1, a2, a3, if_false]
        rcases h2 with h2 | ⟨h2, h3⟩
        · rw [h2]; simp [matchSep, a3, Mild, h1, h2]
        · have : t.line.startsWith f = false := by
            simp only [Fences, List.mem_cons, List.not_mem_nil, or_false] at h3
            rcases h3 with rfl | rfl | rfl
            · simpa using a1
            · simpa using a2
            · simpa using a3
          rw [h2]; simp [matchSep, this, Mild, h1, h2, h3]

/-- What a method answers depends on the line only. -/
structure Settled (d : Dialect) (f : Str) (l : Line) (g : Token → MdState → Except MExc Bool × Token × MdState) : Prop where
  line : ∀ t m, (g t m).2.1.line = t.line
  keep : ∀ {t m}, t.line = l → Good d f m → Good d f (g t m).2.2
  answer : ∀ {t t' m m'}, t.line = l → t'.line = l → Good d f m → Good d f m' → (g t m).1 = (g t' m').1

theorem matchTitle_state (k : Kind) (p : Str → List PrefixMatch) (ks : List Str) (s : Str) (t : Token) (m : MdState) :
    (matchTitle k p ks s t m).2.2 = m ∧ (matchTitle k p ks s t m).1 = .ok (searchTitle (p t.line.lineText) ks s).isSome := by
  unfold matchTitle
  split <;> rename_i h <;> simp [h]

theorem title_settled {d : Dialect} {f : Str} {l : Line} (k : Kind) (p : Str → List PrefixMatch) (ks : Dialect → List Str) (s : Str) :
    Settled d f l (fun t m => matchTitle k p (ks m.dialect) s t m) where
  line t m := (matchTitle_good _ _ _ _ t m).line
  keep ht hm := by rw [(matchTitle_state _ _ _ _ _ _).1]; exact hm
  answer ht ht' hm hm' := by rw [(matchTitle_state _ _ _ _ _ _).2, (matchTitle_state _ _ _ _ _ _).2, ht, ht', hm.1.1, hm'.1.1]

theorem scenario_state (t : Token) (m : MdState) : (matchScenario t m).2.2 = m ∧
    (matchScenario t m).1 = .ok ((searchTitle (headerPrefix t.line.lineText) m.dialect.scenario [':']).isSome ||
      (searchTitle (headerPrefix t.line.lineText) m.dialect.scenarioOutline [':']).isSome) := by
  unfold matchScenario
  have h := matchTitle_state .scenarioLine headerPrefix m.dialect.scenario [':'] t m
  have hl := (matchTitle_good .scenarioLine headerPrefix m.dialect.scenario [':'] t m).line
  rcases hm : matchTitle .scenarioLine headerPrefix m.dialect.scenario [':'] t m with ⟨r, t1, m1⟩
  rw [hm] at h hl
  obtain ⟨rfl, h2⟩ := h
  simp only at h2 hl
  subst h2
  have h' := matchTitle_state .scenarioLine headerPrefix m1.dialect.scenarioOutline [':'] t1 m1
  cases hx : (searchTitle (headerPrefix t.line.lineText) m1.dialect.scenario [':']).isSome with
  | true => simp
  | false => simp only [Bool.false_or]; rw [← hl]; exact h'

theorem scenario_settled {d : Dialect} {f : Str} {l : Line} : Settled d f l matchScenario where
  line t m := (matchScenario_good t m).line
  keep ht hm := by rw [(scenario_state _ _).1]; exact hm
  answer ht ht' hm hm' := by rw [(scenario_state _ _).2, (scenario_state _ _).2, ht, ht', hm.1.1, hm'.1.1]

theorem tag_state (t : Token) (m : MdState) : (matchTagLine t m).2.2 = m ∧ (matchTagLine t m).1 = .ok (!(findTags t.line.lineText 0 0).isEmpty) := by
  unfold matchTagLine
  simp only [List.isEmpty_map]
  split <;> rename_i h <;> simp [h]

theorem tag_settled {d : Dialect} {f : Str} {l : Line} : Settled d f l matchTagLine where
  line t m := (matchTagLine_good t m).line
  keep ht hm := by rw [(tag_state _ _).1]; exact hm
  answer ht ht' hm hm' := by rw [(tag_state _ _).2, (tag_state _ _).2, ht, ht']

theorem feature_settled {d : Dialect} {f : Str} {l : Line} : Settled d f l matchFeature where
  line t m := (matchFeature_good t m).line
  keep ht hm := by unfold matchFeature; rw [if_pos hm.2]; exact hm
  answer ht ht' hm hm' := by unfold matchFeature; rw [if_pos hm.2, if_pos hm'.2]

theorem row_settled {d : Dialect} {f : Str} {l : Line} : Settled d f l matchTableRow where
  line t m := (matchTableRow_good t m).line
  keep {t m} ht hm := by
    have : (matchTableRow t m).2.2 = m := by unfold matchTableRow; repeat' split
                                             all_goals rfl
    rw [this]; exact hm
  answer ht ht' hm hm' := by
    unfold matchTableRow
    rw [ht, ht']
    repeat' split
    all_goals rfl

theorem comment_settled {d : Dialect} {f : Str} {l : Line} : Settled d f l matchComment where
  line t m := (matchComment_good t m).line
  keep {t m} ht hm := by
    have : (matchComment t m).2.2 = m := by unfold matchComment; simp only; repeat' split
                                            all_goals rfl
    rw [this]; exact hm
  answer ht ht' hm hm' := by
    unfold matchComment
    rw [ht, ht']
    simp only
    repeat' split
    all_goals rfl

theorem language_settled {d : Dialect} {f : Str} {l : Line} : Settled d f l matchLanguage where
  line t m := rfl
  keep ht hm := hm
  answer ht ht' hm hm' := rfl

theorem eof_settled {d : Dialect} {f : Str} {l : Line} : Settled d f l matchEof where
  line t m := (matchEof_good t m).line
  keep {t m} ht hm := by
    have : (matchEof t m).2.2 = m := by unfold matchEof; split <;> rfl
    rw [this]; exact hm
  answer {t t' m m'} ht ht' hm hm' := by
    have : t.eof = t'.eof := by rw [Token.eof, Token.eof, ht, ht']
    unfold matchEof
    rw [this]
    split <;> rfl

theorem sep_settled {d : Dialect} {f : Str} {l : Line} (hf : fenceOf l.text = none ∨ fenceOf l.text = some f) : Settled d f l matchDocSep where
  line t m := (matchDocSep_good t m).line
  keep ht hm := by
    have := sep_answer (ht ▸ hf) hm.1
    exact ⟨this.2.1, this.2.2.trans hm.2⟩
  answer ht ht' hm hm' := by rw [(sep_answer (ht ▸ hf) hm.1).1, (sep_answer (ht' ▸ hf) hm'.1).1, ht, ht']

theorem probes_settled {d : Dialect} {f : Str} {l : Line} (hf : fenceOf l.text = none ∨ fenceOf l.text = some f) :
    ∀ g ∈ emptyProbes, Settled d f l g := by
  intro g hg
  simp only [emptyProbes, List.mem_cons, List.not_mem_nil, or_false] at hg
  rcases hg with h | h | h | h | h | h | h | h | h | h | h | h <;> subst h
  · exact tag_settled
  · exact feature_settled
  · exact scenario_settled
  · exact title_settled _ _ (fun d => d.background) _
  · exact title_settled _ _ (fun d => d.examples) _
  · exact title_settled _ _ (fun d => d.rule) _
  · exact row_settled
  · exact comment_settled
  · exact language_settled
  · exact sep_settled hf
  · exact eof_settled
  · exact title_settled _ _ (fun d => d.stepKeywords) _

theorem orElse_settled {d : Dialect} {f : Str} {l : Line} {gs : List (Token → MdState → Except MExc Bool × Token × MdState)}
    (h : ∀ g ∈ gs, Settled d f l g) : Settled d f l (orElse gs) := by
  induction gs with
  | nil => exact ⟨fun _ _ => rfl, fun _ hm => hm, fun _ _ _ _ => rfl⟩
  | cons g gs ih =>
    have hg := h g (by simp)
    have ih := ih fun g hg => h g (by simp [hg])
    refine ⟨?_, ?_, ?_⟩
    · intro t m
      unfold orElse
      have := hg.line t m
      split
      · rename_i t' m' heq; rw [heq] at this; exact (ih.line t' m').trans this
      · exact this
    · intro t m ht hm
      unfold orElse
      have h1 := hg.line t m
      have h2 := hg.keep ht hm
      split
      · rename_i t' m' heq; rw [heq] at h1 h2; exact ih.keep (h1.trans ht) h2
      · exact h2
    · intro t t' m m' ht ht' hm hm'
      have h1 := hg.line t m
      have h2 := hg.keep ht hm
      have h1' := hg.line t' m'
      have h2' := hg.keep ht' hm'
      have h3 := hg.answer ht ht' hm hm'
      unfold orElse
      rcases hx : g t m with ⟨r, t1, m1⟩
      rcases hx' : g t' m' with ⟨r', t1', m1'⟩
      rw [hx] at h1 h2 h3
      rw [hx'] at h1' h2' h3
      simp only at h1 h2 h1' h2' h3
      subst h3
      rcases r with e | b
      · rfl
      · cases b
        · exact ih.answer (h1.trans ht) (h1'.trans ht') h2 h2'
        · rfl

theorem empty_settled {d : Dialect} {f : Str} {l : Line} (hf : fenceOf l.text = none ∨ fenceOf l.text = some f) : Settled d f l matchEmpty := by
  have h := orElse_settled (d := d) (probes_settled (d := d) hf)
  refine ⟨fun t m => (matchEmpty_good t m).line, ?_, ?_⟩
  · intro t m ht hm
    have h1 := h.keep ht hm
    unfold matchEmpty
    rcases hx : orElse emptyProbes t m with ⟨r, t1, m1⟩
    rw [hx] at h1
    rcases r with e | b
    · exact h1
    · simp only
      split <;> exact h1
  · intro t t' m m' ht ht' hm hm'
    have h1 := h.answer ht ht' hm hm'
    unfold matchEmpty
    rcases hx : orElse emptyProbes t m with ⟨r, t1, m1⟩
    rcases hx' : orElse emptyProbes t' m' with ⟨r', t1', m1'⟩
    rw [hx, hx'] at h1
    simp only at h1
    subst h1
    rcases r with e | b
    · rfl
    · simp only [ht, ht']
      split <;> rfl

theorem other_settled {d : Dialect} {f : Str} {l : Line} : Settled d f l matchOther where
  line t m := rfl
  keep ht hm := hm
  answer ht ht' hm hm' := rfl

theorem kind_settled {d : Dialect} {f : Str} {l : Line} (hf : fenceOf l.text = none ∨ fenceOf l.text = some f) (k : Kind) : Settled d f l (matchKind k) := by
  cases k
  case eof => exact eof_settled
  case empty => exact empty_settled hf
  case comment => exact comment_settled
  case tagLine => exact tag_settled
  case featureLine => exact feature_settled
  case scenarioLine => exact scenario_settled
  case docStringSeparator => exact sep_settled hf
  case tableRow => exact row_settled
  case language => exact language_settled
  case other => exact other_settled
  case ruleLine => exact title_settled _ _ (fun d => d.rule) _
  case backgroundLine => exact title_settled _ _ (fun d => d.background) _
  case examplesLine => exact title_settled _ _ (fun d => d.examples) _
  case stepLine => exact title_settled _ _ (fun d => d.stepKeywords) _

/-! ### The whole matcher -/

theorem mild_keep {d : Dialect} {f : Str} {t : Token} {m : MdState} (hf : fenceOf t.line.text = none ∨ fenceOf t.line.text = some f) (k : Kind) (hm : Mild d f m) :
    Mild d f (matchKind k t m).2.2 := by
  have title : ∀ k p ks s t (m : MdState), Mild d f m → Mild d f (matchTitle k p ks s t m).2.2 := by
    intro k p ks s t m h; rw [(matchTitle_state _ _ _ _ _ _).1]; exact h
  have feat : ∀ (t : Token) (m : MdState), Mild d f m → Mild d f (matchFeature t m).2.2 := by
    intro t m hm
    unfold matchFeature
    split
    · exact hm
    · have := title .featureLine headerPrefix m.dialect.feature [':'] t m hm
      rcases hx : matchTitle .featureLine headerPrefix m.dialect.feature [':'] t m with ⟨r, t1, m1⟩
      rw [hx] at this
      split
      · rename_i h; cases h; exact this
      · exact hm
  have row : ∀ (t : Token) (m : MdState), (matchTableRow t m).2.2 = m := by
    intro t m; unfold matchTableRow; repeat' split
    all_goals rfl
  have com : ∀ (t : Token) (m : MdState), (matchComment t m).2.2 = m := by
    intro t m; unfold matchComment; simp only; repeat' split
    all_goals rfl
  have eo : ∀ (t : Token) (m : MdState), (matchEof t m).2.2 = m := by
    intro t m; unfold matchEof; split <;> rfl
  cases k <;> simp only [matchKind]
  case eof => rw [eo]; exact hm
  case comment => rw [com]; exact hm
  case tagLine => rw [(tag_state _ _).1]; exact hm
  case featureLine => exact feat t m hm
  case scenarioLine => rw [(scenario_state _ _).1]; exact hm
  case docStringSeparator => exact (sep_answer hf hm).2.1
  case tableRow => rw [row]; exact hm
  case language => exact hm
  case other => exact hm
  case empty =>
    have key : ∀ (gs : List (Token → MdState → Except MExc Bool × Token × MdState)), (∀ g ∈ gs, g ∈ emptyProbes) →
        ∀ (t' : Token) (m : MdState), t'.line = t.line → Mild d f m → Mild d f (orElse gs t' m).2.2 := by
      intro gs
      induction gs with
      | nil => intro _ t' m _ h; exact h
      | cons g gs ih =>
        intro hgs t' m ht hm
        have hg := hgs g (by simp)
        have h1 : Mild d f (g t' m).2.2 := by
          simp only [emptyProbes, List.mem_cons, List.not_mem_nil, or_false] at hg
          rcases hg with h | h | h | h | h | h | h | h | h | h | h | h <;> subst h
          · rw [(tag_state _ _).1]; exact hm
          · exact feat _ _ hm
          · rw [(scenario_state _ _).1]; exact hm
          · exact title _ _ _ _ _ _ hm
          · exact title _ _ _ _ _ _ hm
          · exact title _ _ _ _ _ _ hm
          · rw [row]; exact hm
          · rw [com]; exact hm
          · exact hm
          · exact (sep_answer (ht ▸ hf) hm).2.1
          · rw [eo]; exact hm
          · exact title _ _ _ _ _ _ hm
        have h2 : (g t' m).2.1.line = t'.line := by
          obtain ⟨k, hk⟩ := emptyProbes_good g hg t' m
          exact hk.line
        unfold orElse
        split
        · rename_i t1 m1 heq
          rw [heq] at h1 h2
          exact ih (fun g hg => hgs g (by simp [hg])) t1 m1 (h2.trans ht) h1
        · exact h1
    have h1 := key emptyProbes (fun _ h => h) t m rfl hm
    unfold matchEmpty
    rcases hx : orElse emptyProbes t m with ⟨r, t1, m1⟩
    rw [hx] at h1
    rcases r with e | b
    · exact h1
    · simp only
      split <;> exact h1
  all_goals exact title _ _ _ _ _ _ hm

/-- A canonical state, to ask what a look-ahead does with a line. -/
def canon (d : Dialect) : MdState := { (default : MdState) with dialect := d, active := none, matchedFeature := true }

theorem canon_good (d : Dialect) (f : Str) : Good d f (canon d) := ⟨⟨rfl, .inl rfl⟩, rfl⟩

/-- Whether a look-ahead skips the line. -/
def skipped (d : Dialect) (l : Line) : Bool :=
  skipKinds.any fun k => match (matchKind k (Token.fresh l) (canon d)).1 with | .ok b => b | .error _ => false

theorem matchKind_noparser (k : Kind) (t : Token) (m : MdState) : ∀ e, (matchKind k t m).1 ≠ .error (.parser e) := by
  have title : ∀ k p ks s t (m : MdState) e, (matchTitle k p ks s t m).1 ≠ .error (.parser e) := by
    intro k p ks s t m e h; rw [(matchTitle_state _ _ _ _ _ _).2] at h; simp at h
  have feat : ∀ (t : Token) (m : MdState) e, (matchFeature t m).1 ≠ .error (.parser e) := by
    intro t m e h; unfold matchFeature at h; repeat' split at h
    all_goals simp at h
  have row : ∀ (t : Token) (m : MdState) e, (matchTableRow t m).1 ≠ .error (.parser e) := by
    intro t m e h; unfold matchTableRow at h; repeat' split at h
    all_goals simp at h
  have com : ∀ (t : Token) (m : MdState) e, (matchComment t m).1 ≠ .error (.parser e) := by
    intro t m e h; unfold matchComment at h; simp only at h; repeat' split at h
    all_goals simp at h
  have eo : ∀ (t : Token) (m : MdState) e, (matchEof t m).1 ≠ .error (.parser e) := by
    intro t m e h; unfold matchEof at h; split at h <;> simp at h
  have sep : ∀ (t : Token) (m : MdState) e, (matchDocSep t m).1 ≠ .error (.parser e) := by
    intro t m e h; unfold matchDocSep matchSep at h; repeat' split at h
    all_goals simp at h
  cases k <;> simp only [matchKind]
  case eof => exact eo t m
  case comment => exact com t m
  case tagLine => intro e h; rw [(tag_state _ _).2] at h; simp at h
  case featureLine => exact feat t m
  case scenarioLine => intro e h; rw [(scenario_state _ _).2] at h; simp at h
  case docStringSeparator => exact sep t m
  case tableRow => exact row t m
  case language => intro e h; simp [matchLanguage] at h
  case other => intro e h; simp [matchOther] at h
  case empty =>
    have key : ∀ (gs : List (Token → MdState → Except MExc Bool × Token × MdState)), (∀ g ∈ gs, g ∈ emptyProbes) →
        ∀ (t' : Token) (m : MdState) e, (orElse gs t' m).1 ≠ .error (.parser e) := by
      intro gs
      induction gs with
      | nil => intro _ t' m e h; simp [orElse] at h
      | cons g gs ih =>
        intro hgs t' m e
        have hg := hgs g (by simp)
        have h1 : (g t' m).1 ≠ .error (.parser e) := by
          simp only [emptyProbes, List.mem_cons, List.not_mem_nil, or_false] at hg
          rcases hg with h | h | h | h | h | h | h | h | h | h | h | h <;> subst h
          · intro h; rw [(tag_state _ _).2] at h; simp at h
          · exact feat _ _ e
          · intro h; rw [(scenario_state _ _).2] at h; simp at h
          · exact title _ _ _ _ _ _ e
          · exact title _ _ _ _ _ _ e
          · exact title _ _ _ _ _ _ e
          · exact row _ _ e
          · exact com _ _ e
          · intro h; simp [matchLanguage] at h
          · exact sep _ _ e
          · exact eo _ _ e
          · exact title _ _ _ _ _ _ e
        unfold orElse
        split
        · exact ih (fun g hg => hgs g (by simp [hg])) _ _ e
        · exact h1
    intro e h
    have h1 := key emptyProbes (fun _ h => h) t m
    unfold matchEmpty at h
    rcases hx : orElse emptyProbes t m with ⟨r, t1, m1⟩
    rw [hx] at h h1
    rcases r with e' | b
    · exact h1 e (by simpa using h)
    · simp only at h
      split at h <;> simp at h
  all_goals exact title _ _ _ _ _ _

end Md

section
variable {σ ρ : Type} {B : Builder σ ρ} {stop : Bool}

theorem md_matchTok {k : Kind} (hk : k ≠ .eof) {t t' : Token} {c c' : Ctx MdState σ} {b : Bool} (he : t.eof = false)
    (h : matchTok ⟨markdown, B, stop⟩ k t c = (.ok b, t', c')) :
    (Md.matchKind k t c.matcher).1 = .ok b ∧ c'.matcher = (Md.matchKind k t c.matcher).2.2 ∧ t'.line = t.line := by
  have hl := matchTok_line (cfg := ⟨markdown, B, stop⟩) markdown_lawful k t c
  rw [h] at hl
  unfold matchTok at h
  rw [if_neg (by simp [he])] at h
  have hn := Md.matchKind_noparser k t c.matcher
  simp only [markdown] at h
  rcases hm : Md.matchKind k t c.matcher with ⟨r, t1, m1⟩
  rw [hm] at h hn
  simp only at h hn
  rcases r with e | r
  · cases e with
    | parser e => exact absurd rfl (hn e)
    | crash x => simp [handle] at h
  · simp only [handle, Prod.mk.injEq, Except.ok.injEq] at h
    obtain ⟨rfl, rfl, rfl⟩ := h
    exact ⟨rfl, rfl, hl⟩

theorem md_matchAny {d : Dialect} {f : Str} {l : Line} (hf : fenceOf l.text = none ∨ fenceOf l.text = some f) {ks : List Kind} (hks : .eof ∉ ks) :
    ∀ {t t' : Token} {c c' : Ctx MdState σ} {b : Bool}, t.line = l → t.eof = false → Md.Good d f c.matcher →
    matchAny ⟨markdown, B, stop⟩ ks t c = (.ok b, t', c') →
    b = ks.any fun k => match (Md.matchKind k (Token.fresh l) (Md.canon d)).1 with | .ok b => b | .error _ => false := by
  induction ks with
  | nil => intro t t' c c' b _ _ _ h; simp [matchAny] at h; simp [h.1]
  | cons k ks ih =>
    intro t t' c c' b ht he hg h
    unfold matchAny at h
    rcases hm : matchTok ⟨markdown, B, stop⟩ k t c with ⟨r, t1, c1⟩
    rw [hm] at h
    rcases r with x | r
    · simp at h
    · obtain ⟨h1, h2, h3⟩ := md_matchTok (by intro hk; exact hks (by simp [hk])) he hm
      have hs := Md.kind_settled (d := d) hf k
      have h4 := hs.answer ht (t' := Token.fresh l) rfl hg (Md.canon_good d f)
      rw [h1] at h4
      rw [List.any_cons, ← h4]
      cases r with
      | true => simp only [Prod.mk.injEq, Except.ok.injEq] at h; simp [← h.1]
      | false =>
        simp only [Bool.false_or]
        exact ih (fun hk => hks (by simp [hk])) (h3.trans ht) (by rw [Token.eof, h3]; exact he) (by rw [h2]; exact hs.keep ht hg) h

theorem orElse_false {d : Dialect} {f : Str} {l : Line} {gs : List (Token → MdState → Except MExc Bool × Token × MdState)}
    (h : ∀ g ∈ gs, Md.Settled d f l g) : ∀ {t : Token} {m : MdState}, t.line = l → Md.Good d f m → (Md.orElse gs t m).1 = .ok false →
    ∀ g ∈ gs, (g t m).1 = .ok false := by
  induction gs with
  | nil => simp
  | cons g gs ih =>
    intro t m ht hm ho
    have hg := h g (by simp)
    have h1 := hg.line t m
    have h2 := hg.keep ht hm
    unfold Md.orElse at ho
    rcases hx : g t m with ⟨r, t1, m1⟩
    rw [hx] at ho h1 h2
    simp only at h1 h2
    have hr : r = .ok false := by
      rcases r with e | b
      · simp at ho
      · cases b
        · rfl
        · simp at ho
    subst hr
    have := ih (fun g hg => h g (by simp [hg])) (h1.trans ht) h2 ho
    intro g' hg'
    simp only [List.mem_cons] at hg'
    rcases hg' with rfl | hg'
    · rw [hx]
    · have hs := h g' (by simp [hg'])
      rw [hs.answer ht (h1.trans ht) hm h2]
      exact this g' hg'

theorem findTags_infix {s : Str} : ∀ {pos skip : Nat}, Md.findTags s pos skip ≠ [] → ∃ a b, s = a ++ py"`@" ++ b := by
  induction s with
  | nil => intro pos skip h; simp [Md.findTags] at h
  | cons c cs ih =>
    intro pos skip h
    have rec_ : ∀ {p k}, Md.findTags cs p k ≠ [] → ∃ a b, c :: cs = a ++ py"`@" ++ b := by
      intro p k hr
      obtain ⟨a, b, e⟩ := ih hr
      exact ⟨c :: a, b, by rw [e]; simp⟩
    unfold Md.findTags at h
    cases skip with
    | succ k => exact rec_ h
    | zero =>
      simp only at h
      split at h
      · rename_i rest
        exact ⟨[], rest, rfl⟩
      · exact rec_ h

theorem headed_sharp {l : Line} {ks : List Str} {suf : Str} (h : (Md.searchTitle (Md.headerPrefix l.lineText) ks suf).isSome = true) :
    l.trimmed.head? = some '#' := by
  have : Md.headerPrefix l.lineText ≠ [] := by
    intro hn; rw [hn] at h; simp [Md.searchTitle] at h
  unfold Md.headerPrefix at this
  simp only at this
  change l.lineText.head? = _
  cases hl : l.lineText with
  | nil => rw [hl] at this; simp at this
  | cons c cs =>
    rw [hl] at this
    by_cases hc : c = '#'
    · simp [hc]
    · have : (c == '#') = false := by simpa using hc
      simp [this] at *

theorem md_heading {d : Dialect} {f : Str} {l : Line} (hf : fenceOf l.text = none ∨ fenceOf l.text = some f)
    (hp : (lstrip l.text).head? = some '#' → ¬ ∃ a b, l.text = a ++ py"`@" ++ b)
    {k : Kind} (hk : k = .scenarioLine ∨ k = .examplesLine ∨ k = .ruleLine) {t : Token} {m : MdState} (ht : t.line = l) (hm : Md.Good d f m) (h : (Md.matchKind k t m).1 = .ok true) :
    Md.skipped d l = false := by
  have hs := Md.kind_settled (d := d) hf k
  have h1 : (Md.matchKind k (Token.fresh l) (Md.canon d)).1 = .ok true := by
    rw [← hs.answer ht (t' := Token.fresh l) rfl hm (Md.canon_good d f)]; exact h
  have hsharp : l.trimmed.head? = some '#' := by
    rcases hk with rfl | rfl | rfl
    · simp only [Md.matchKind, (Md.scenario_state _ _).2, Except.ok.injEq, Bool.or_eq_true] at h1
      rcases h1 with h1 | h1 <;> exact headed_sharp h1
    all_goals
      simp only [Md.matchKind, Md.matchHeaded, (Md.matchTitle_state _ _ _ _ _ _).2, Except.ok.injEq] at h1
      exact headed_sharp h1
  have hblank : l.isBlank = false := by
    unfold Line.isBlank
    cases hl : l.trimmed with
    | nil => rw [hl] at hsharp; simp at hsharp
    | cons => rfl
  have hbar : l.startsWith ['|'] = false := by
    cases hb : l.startsWith ['|'] with
    | false => rfl
    | true =>
      obtain ⟨rest, hr⟩ := (startsWith_char l '|').1 hb
      rw [hr] at hsharp; simp at hsharp
  have htags : Md.findTags l.lineText 0 0 = [] := by
    apply Classical.byContradiction
    intro hn
    obtain ⟨a, b, e⟩ := findTags_infix hn
    obtain ⟨w, hw⟩ : ∃ w, l.text = w ++ l.lineText := by
      refine ⟨l.text.takeWhile isSpace, ?_⟩
      simp only [Line.lineText, Line.trimmed, lstrip, lstripBy]
      rw [List.takeWhile_append_dropWhile]
    exact hp hsharp ⟨w ++ a, b, by rw [hw, e]; simp⟩
  have hempty : (Md.matchEmpty (Token.fresh l) (Md.canon d)).1 ≠ .ok true := by
    intro he
    have hps := Md.probes_settled (d := d) hf
    have hnf := orElse_false hps (t := Token.fresh l) rfl (Md.canon_good d f)
    have hmem : Md.matchKind k ∈ Md.emptyProbes := by
      rcases hk with rfl | rfl | rfl <;> simp only [Md.emptyProbes, List.mem_cons]
      · exact .inr (.inr (.inl rfl))
      · exact .inr (.inr (.inr (.inr (.inl rfl))))
      · exact .inr (.inr (.inr (.inr (.inr (.inl rfl)))))
    unfold Md.matchEmpty at he
    have hbl : (Token.fresh l).line.isBlank = false := hblank
    rcases hx : Md.orElse Md.emptyProbes (Token.fresh l) (Md.canon d) with ⟨r, t1, m1⟩
    rw [hx] at he hnf
    rcases r with e | b
    · simp at he
    · cases b with
      | true => simp [hbl] at he
      | false =>
        have := hnf rfl _ hmem
        rw [h1] at this; simp at this
  unfold Md.skipped
  simp only [skipKinds, List.any_cons, List.any_nil, Bool.or_false, Bool.or_eq_false_iff]
  refine ⟨?_, ?_, ?_⟩
  · simp only [Md.matchKind]
    rcases hx : (Md.matchEmpty (Token.fresh l) (Md.canon d)).1 with e | b
    · rfl
    · cases b
      · rfl
      · exact absurd hx hempty
  · simp only [Md.matchKind, Md.matchComment]
    have hbar' : (Token.fresh l).line.startsWith ['|'] = false := hbar
    simp [hbar']
  · simp only [Md.matchKind, (Md.tag_state _ _).2]
    have : (Token.fresh l).line.lineText = l.lineText := rfl
    rw [this, htags]; rfl

theorem md_expected {d : Dialect} {f : Str} {l : Line} (hf : fenceOf l.text = none ∨ fenceOf l.text = some f)
    (hp : (lstrip l.text).head? = some '#' → ¬ ∃ a b, l.text = a ++ py"`@" ++ b)
    {la : LA} {t : Token} {m : MdState} (ht : t.line = l) (hm : Md.Good d f m) (h : (Md.matchKind la.expected t m).1 = .ok true) :
    Md.skipped d l = false :=
  md_heading hf hp (by cases la <;> simp [LA.expected]) ht hm h

theorem md_steady {text : Str} (d : Dialect) {f : Str} (hf : ∀ s ∈ splitLines text, fenceOf s = none ∨ fenceOf s = some f) (hp : PlainHeadings text) :
    Steady (⟨markdown, B, stop⟩ : Config MdState σ ρ) (tokenLines text) (Md.Mild d f) (Md.Good d f) (Md.skipped d) := by
  have hfl : ∀ l ∈ tokenLines text, fenceOf l.text = none ∨ fenceOf l.text = some f := by
    intro l hl
    simp only [tokenLines, sourceLines, eofLine, List.mem_append, List.mem_map, List.mem_singleton] at hl
    rcases hl with ⟨⟨s, n⟩, hs, rfl⟩ | rfl
    · exact hf s (List.fst_mem_of_mem_zipIdx hs)
    · left; exact (by decide : fenceOf [] = none)
  have hpl : ∀ l ∈ tokenLines text, (lstrip l.text).head? = some '#' → ¬ ∃ a b, l.text = a ++ py"`@" ++ b := by
    intro l hl
    simp only [tokenLines, sourceLines, eofLine, List.mem_append, List.mem_map, List.mem_singleton] at hl
    rcases hl with ⟨⟨s, n⟩, hs, rfl⟩ | rfl
    · exact hp s (List.fst_mem_of_mem_zipIdx hs)
    · intro h; exact absurd h (by decide : ¬ (lstrip []).head? = some '#')
  refine ⟨markdown_lawful, fun h => h.1, ?_, ?_, ?_, ?_, ?_⟩
  · intro k t m ht hm; exact Md.mild_keep (hfl _ ht) k hm
  · intro k t m ht hm; exact (Md.kind_settled (hfl _ ht) k).keep rfl hm
  · intro t m ht hm h
    refine ⟨Md.mild_keep (hfl _ ht) .featureLine hm, ?_⟩
    simp only [markdown, Md.matchKind] at h ⊢
    unfold Md.matchFeature at h ⊢
    split
    · rename_i hmf; rw [if_pos hmf] at h; simp at h
    · split <;> rfl
  · intro la t t' c c' ht he hg h
    obtain ⟨h1, _, _⟩ := md_matchTok (by cases la <;> simp [LA.expected]) he h
    exact md_expected (hfl _ ht) (hpl _ ht) rfl hg h1
  · intro t b t' c c' ht he hg h
    exact md_matchAny (hfl _ ht) (by decide) rfl he hg h

end

end Gherkin
