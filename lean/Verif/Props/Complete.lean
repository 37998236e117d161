import Verif.Spec.Complete
import Verif.Props.Messages

/-! # C96: what Cucumber requires is there -/

namespace Gherkin

open Cst

theorem parsed_tokens {μ : Type} {M : Matcher μ} (hM : M.Lawful) {stop : Bool} {text : Str} {m : μ} {b : BState} {d : Document}
    (h : (parse ⟨M, astBuilder, stop⟩ text m b).1 = .ok (some d)) :
    (∀ e ∈ d.entries, ∃ k t, Built M k t ∧ e ∈ t.entries) ∧ (∀ c ∈ d.comments, ∃ t, Built M .comment t ∧ c.text = t.text) := by
  rcases hp : parse ⟨M, astBuilder, stop⟩ text m b with ⟨x, c⟩
  obtain ⟨D, h1, h2, h3, _⟩ := parsed_doc hM h
  rw [hp] at h h2 h3
  simp only at h
  subst h
  obtain ⟨_, _, kids, hA⟩ := (parse_cases (cfg := ⟨M, astBuilder, stop⟩) hM text m b).1 _ c hp
  constructor
  · intro e he
    rw [h3, doc_entries h1, h2, entries_core, List.mem_flatMap] at he
    obtain ⟨t, ht, he⟩ := he
    obtain ⟨hs, k, hk, hkeof, hb⟩ := hA.tokens t ht
    exact ⟨k, t, hb, he⟩
  · intro e he
    have hcm : d.comments = commentsOf (builds c.log) := by
      rw [h3]; rfl
    rw [hcm, commentsOf, List.mem_map] at he
    obtain ⟨t, ht, rfl⟩ := he
    rw [List.mem_filter] at ht
    obtain ⟨hs, k, hk, hkeof, hb⟩ := hA.tokens t ht.1
    have h5 : t.type = some .comment := by simpa using ht.2
    rw [hk] at h5
    simp only [Option.some.injEq] at h5
    subst h5
    exact ⟨t, hb, rfl⟩

theorem setMatched_complete {d : Str} {t : Token} {k : Option Kind} {x kw : Option Str} {kt : Option KType} {i : Option Nat} {its : List MItem}
    (h : k = some .stepLine → x.isSome ∧ kw.isSome ∧ kt.isSome)
    (h' : (∃ k' ∈ [Kind.featureLine, .ruleLine, .backgroundLine, .scenarioLine, .examplesLine], k = some k') → x.isSome ∧ kw.isSome) :
    ∀ e ∈ (setMatched d t k x kw kt i its).entries, e.Complete := by
  intro e he
  cases k with
  | none => simp [Token.entries, setMatched] at he
  | some k =>
    cases k <;> simp [Token.entries, setMatched] at he h h'
    case tagLine => obtain ⟨_, _, rfl⟩ := he; trivial
    all_goals subst he; first | trivial | simp [Entry.Complete, h, h']

theorem classic_complete {k : Kind} {t : Token} (hb : Built classic k t) : ∀ e ∈ t.entries, e.Complete := by
  obtain ⟨t0, m, m', -, h⟩ := hb
  simp only [classic] at h
  cases k <;> simp only [Classic.matchKind, Classic.matchEof, Classic.matchEmpty, Classic.matchComment, Classic.matchTagLine, Classic.matchTitle,
    Classic.matchStep, Classic.matchDocSep, Classic.matchSep, Classic.matchTableRow, Classic.matchLanguage, Classic.matchOther] at h <;>
    (repeat' split at h) <;>
    first
    | (simp at h; done)
    | (simp only [Prod.mk.injEq, true_and] at h
       rw [← h.1]
       exact setMatched_complete (by simp) (by simp))

theorem classic_comment {t : Token} (hb : Built classic .comment t) : t.text.isSome := by
  obtain ⟨t0, m, m', -, h⟩ := hb
  simp only [classic, Classic.matchKind, Classic.matchComment] at h
  split at h
  · simp only [Prod.mk.injEq, true_and] at h
    rw [← h.1]; rfl
  · simp at h

theorem complete_but {e : Entry} (h : e.Complete) : e.CompleteButFeature := by
  cases e with
  | feature l k n g => exact h.2
  | _ => exact h

theorem md_title_complete {k : Kind} {p : Str → List Md.PrefixMatch} {kws : List Str} {suf : Str} {t t0 : Token} {m m' : MdState}
    (hk : k = .stepLine → kws = m.dialect.stepKeywords)
    (h : Md.matchTitle k p kws suf t0 m = (.ok true, t, m')) : ∀ e ∈ t.entries, e.Complete := by
  unfold Md.matchTitle at h
  split at h
  · rename_i n kw rest hs
    simp only [Prod.mk.injEq, true_and] at h
    rw [← h.1]
    refine setMatched_complete ?_ (by simp)
    intro hk'
    simp only [Option.some.injEq] at hk'
    refine ⟨rfl, rfl, ?_⟩
    have := keywordTypes_ne_nil (hk hk' ▸ searchTitle_mem hs)
    cases hc : m.dialect.keywordTypes kw with
    | nil => exact absurd hc this
    | cons _ _ => rfl
  · simp at h

theorem markdown_complete {k : Kind} {t : Token} (hb : Built markdown k t) : ∀ e ∈ t.entries, e.CompleteButFeature := by
  obtain ⟨t0, m, m', -, h⟩ := hb
  simp only [markdown] at h
  cases k <;> simp only [Md.matchKind] at h
  case stepLine => exact fun e he => complete_but (md_title_complete (fun _ => rfl) h e he)
  case ruleLine => exact fun e he => complete_but (md_title_complete (by simp) h e he)
  case backgroundLine => exact fun e he => complete_but (md_title_complete (by simp) h e he)
  case examplesLine => exact fun e he => complete_but (md_title_complete (by simp) h e he)
  case scenarioLine =>
    unfold Md.matchScenario at h
    split at h
    · exact fun e he => complete_but (md_title_complete (by simp) h e he)
    · exact fun e he => complete_but (md_title_complete (by simp) h e he)
  case featureLine =>
    unfold Md.matchFeature at h
    split at h
    · simp at h
    · split at h
      · rename_i heq
        simp only [Prod.mk.injEq, true_and] at h
        rw [← h.1]
        exact fun e he => complete_but (md_title_complete (by simp) heq e he)
      · simp only [Prod.mk.injEq, true_and] at h
        rw [← h.1]
        intro e he
        simp [Token.entries, setMatched] at he
        subst he
        simp [Entry.CompleteButFeature]
  case empty =>
    unfold Md.matchEmpty at h
    split at h
    · simp at h
    · split at h
      · simp only [Prod.mk.injEq, true_and] at h
        rw [← h.1]
        exact fun e he => complete_but (setMatched_complete (by simp) (by simp) e he)
      · simp at h
  case comment =>
    unfold Md.matchComment at h
    (repeat' split at h) <;>
    first
    | (simp at h; done)
    | (simp only [Prod.mk.injEq] at h
       rw [← h.2.1]
       exact fun e he => complete_but (setMatched_complete (by simp) (by simp) e he))
  all_goals
    simp only [Md.matchEof, Md.matchTagLine, Md.matchDocSep, Md.matchSep, Md.matchTableRow, Md.matchLanguage, Md.matchOther] at h
    (repeat' split at h) <;>
    first
    | (simp at h; done)
    | (simp only [Prod.mk.injEq, true_and] at h
       rw [← h.1]
       exact fun e he => complete_but (setMatched_complete (by simp) (by simp) e he))

/-- **C96.** In the document of a text everything has the fields that Cucumber requires: keyword and title, type and text of steps, the language, and the text of comments. -/
theorem C96_complete (stop : Bool) (text : Str) (m : CState) (b : BState) (d : Document) (h : (parse ⟨classic, astBuilder, stop⟩ text m b).1 = .ok (some d)) :
    (∀ e ∈ d.entries, e.Complete) ∧ ∀ c ∈ d.comments, c.text.isSome := by
  obtain ⟨h1, h2⟩ := parsed_tokens classic_lawful h
  constructor
  · intro e he
    obtain ⟨k, t, hb, ht⟩ := h1 e he
    exact classic_complete hb e ht
  · intro c hc
    obtain ⟨t, hb, ht⟩ := h2 c hc
    rw [ht]; exact classic_comment hb

/-- **C96** for Markdown: the feature may be without keyword. -/
theorem C96_markdown (stop : Bool) (text : Str) (m : MdState) (b : BState) (d : Document) (h : (parse ⟨markdown, astBuilder, stop⟩ text m b).1 = .ok (some d)) :
    ∀ e ∈ d.entries, e.CompleteButFeature := by
  obtain ⟨h1, _⟩ := parsed_tokens markdown_lawful h
  intro e he
  obtain ⟨k, t, hb, ht⟩ := h1 e he
  exact markdown_complete hb e ht

namespace Sample.Complete

def md : Str := py"just a line

## Scenario: s

* Given a
  | x |
  | - |
  | 1 |
"

end Sample.Complete

/-- The same is not true of Markdown: a first line that is no title makes a feature without keyword, and the separator below the header of a table is a comment without text. -/
theorem C96_markdown_missing :
    (Robot.parseFile py"a.feature.md" Sample.Complete.md).toOption.map (fun d => d.map fun d => (d.feature.map (·.keyword), d.comments.map (·.text))) = some (some (some none, [none])) := by
  decide +kernel

/-- A text with many parts, all complete. -/
example : (Robot.parseFile py"a.feature" Sample.Messages.text).toOption.map (fun d => d.map fun d => (d.entries.length, d.comments.map (·.text))) = some (some (12, [some py"# c"])) := by
  decide +kernel

end Gherkin
