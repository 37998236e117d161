import Verif.Proofs.PickleFacts
import Verif.Props.Document

/-! Parsed documents have everything the compiler asks for. -/

namespace Gherkin

open Cst

/-- The fields that the compiler and the Robot model read are there. -/
def Entry.Filled : Entry → Prop
  | .feature _ _ name language => name.isSome ∧ language.isSome
  | .rule _ _ name => name.isSome
  | .background _ _ name => name.isSome
  | .scenario loc _ name => loc.column.isSome ∧ name.isSome
  | .examples _ kw name => kw.isSome ∧ name.isSome
  | .step loc kw ty text => loc.column.isSome ∧ kw.isSome ∧ ty.isSome ∧ text.isSome
  | .tag _ _ => True
  | .row _ _ => True

/-- A matcher that fills in these fields. -/
def Matcher.Filling {μ : Type} (M : Matcher μ) : Prop := ∀ k t, Built M k t → ∀ e ∈ t.entries, e.Filled

theorem setMatched_entries_filled {d : Str} {t : Token} {k : Option Kind} {x kw : Option Str} {kt : Option KType} {i : Option Nat} {its : List MItem}
    (h : k = some .stepLine → x.isSome ∧ kw.isSome ∧ kt.isSome)
    (h2 : k = some .examplesLine → kw.isSome)
    (h' : (∃ k' ∈ [Kind.featureLine, .ruleLine, .backgroundLine, .scenarioLine, .examplesLine], k = some k') → x.isSome) :
    ∀ e ∈ (setMatched d t k x kw kt i its).entries, e.Filled := by
  intro e he
  cases k with
  | none => simp [Token.entries, setMatched] at he
  | some k =>
    cases k <;> simp [Token.entries, setMatched] at he h h' h2
    case tagLine => obtain ⟨_, _, rfl⟩ := he; trivial
    case stepLine => subst he; exact ⟨rfl, h.2.1, h.2.2, by simp [h.1]⟩
    all_goals subst he; first | trivial | simp [Entry.Filled, h', h2]

theorem classic_filling : classic.Filling := by
  rintro k t ⟨t0, m, m', -, h⟩
  simp only [classic] at h
  cases k <;> simp only [Classic.matchKind, Classic.matchEof, Classic.matchEmpty, Classic.matchComment, Classic.matchTagLine, Classic.matchTitle,
    Classic.matchStep, Classic.matchDocSep, Classic.matchSep, Classic.matchTableRow, Classic.matchLanguage, Classic.matchOther] at h <;>
    (repeat' split at h) <;>
    first
    | (simp at h; done)
    | (simp only [Prod.mk.injEq, true_and] at h
       rw [← h.1]
       exact setMatched_entries_filled (by simp) (by simp) (by simp))

theorem searchTitle_mem {ps : List Md.PrefixMatch} {kws : List Str} {suf : Str} {n : Nat} {kw rest : Str}
    (h : Md.searchTitle ps kws suf = some (n, kw, rest)) : kw ∈ kws := by
  unfold Md.searchTitle at h
  obtain ⟨⟨n', r'⟩, _, h⟩ := List.exists_of_findSome?_eq_some h
  simp only [Option.map_eq_some_iff, Prod.mk.injEq] at h
  obtain ⟨kw', hk, _, rfl, _⟩ := h
  exact List.mem_of_find?_eq_some hk

theorem keywordTypes_ne_nil {d : Dialect} {kw : Str} (h : kw ∈ d.stepKeywords) : d.keywordTypes kw ≠ [] := by
  simp only [Dialect.stepKeywords, List.mem_append] at h
  simp only [Dialect.keywordTypes]
  intro hn
  simp only [List.append_eq_nil_iff, List.map_eq_nil_iff, List.filter_eq_nil_iff, List.mem_append] at hn
  obtain ⟨⟨⟨h1, h2⟩, h3⟩, h4⟩ := hn
  rcases h with (((h | h) | h) | h) | h
  · exact h1 kw h (by simp)
  · exact h2 kw h (by simp)
  · exact h3 kw h (by simp)
  · exact h4 kw (.inl h) (by simp)
  · exact h4 kw (.inr h) (by simp)

theorem md_title_filled {k : Kind} {p : Str → List Md.PrefixMatch} {kws : List Str} {suf : Str} {t t0 : Token} {m m' : MdState}
    (hk : k = .stepLine → kws = m.dialect.stepKeywords)
    (h : Md.matchTitle k p kws suf t0 m = (.ok true, t, m')) : ∀ e ∈ t.entries, e.Filled := by
  unfold Md.matchTitle at h
  split at h
  · rename_i n kw rest hs
    simp only [Prod.mk.injEq, true_and] at h
    rw [← h.1]
    refine setMatched_entries_filled ?_ (by simp) (by simp)
    intro hk'
    simp only [Option.some.injEq] at hk'
    refine ⟨rfl, rfl, ?_⟩
    have := keywordTypes_ne_nil (hk hk' ▸ searchTitle_mem hs)
    cases hc : m.dialect.keywordTypes kw with
    | nil => exact absurd hc this
    | cons _ _ => rfl
  · simp at h

theorem markdown_filling : markdown.Filling := by
  rintro k t ⟨t0, m, m', -, h⟩
  simp only [markdown] at h
  cases k <;> simp only [Md.matchKind] at h
  case stepLine => exact md_title_filled (fun _ => rfl) h
  case ruleLine => exact md_title_filled (by simp) h
  case backgroundLine => exact md_title_filled (by simp) h
  case examplesLine => exact md_title_filled (by simp) h
  case scenarioLine =>
    unfold Md.matchScenario at h
    split at h
    · exact md_title_filled (by simp) h
    · exact md_title_filled (by simp) h
  case featureLine =>
    unfold Md.matchFeature at h
    split at h
    · simp at h
    · split at h
      · rename_i heq
        simp only [Prod.mk.injEq, true_and] at h
        rw [← h.1]
        exact md_title_filled (by simp) heq
      · simp only [Prod.mk.injEq, true_and] at h
        rw [← h.1]
        exact setMatched_entries_filled (by simp) (by simp) (by simp)
  case empty =>
    unfold Md.matchEmpty at h
    split at h
    · simp at h
    · split at h
      · simp only [Prod.mk.injEq, true_and] at h
        rw [← h.1]
        exact setMatched_entries_filled (by simp) (by simp) (by simp)
      · simp at h
  case comment =>
    unfold Md.matchComment at h
    (repeat' split at h) <;>
    first
    | (simp at h; done)
    | (simp only [Prod.mk.injEq] at h
       rw [← h.2.1]
       exact setMatched_entries_filled (by simp) (by simp) (by simp))
  all_goals
    simp only [Md.matchEof, Md.matchTagLine, Md.matchDocSep, Md.matchSep, Md.matchTableRow, Md.matchLanguage, Md.matchOther] at h
    (repeat' split at h) <;>
    first
    | (simp at h; done)
    | (simp only [Prod.mk.injEq, true_and] at h
       rw [← h.1]
       exact setMatched_entries_filled (by simp) (by simp) (by simp))

theorem parsed_filled {μ : Type} {M : Matcher μ} (hM : M.Lawful) (hF : M.Filling) {stop : Bool} {text : Str} {m : μ} {b : BState} {d : Document}
    (h : (parse ⟨M, astBuilder, stop⟩ text m b).1 = .ok (some d)) : ∀ e ∈ d.entries, e.Filled := by
  rcases hp : parse ⟨M, astBuilder, stop⟩ text m b with ⟨x, c⟩
  obtain ⟨D, h1, h2, h3, _⟩ := parsed_doc hM h
  rw [hp] at h h2 h3
  simp only at h
  subst h
  obtain ⟨_, _, kids, hA⟩ := (parse_cases (cfg := ⟨M, astBuilder, stop⟩) hM text m b).1 _ c hp
  intro e he
  rw [h3, doc_entries h1, h2, entries_core, List.mem_flatMap] at he
  obtain ⟨t, ht, he⟩ := he
  obtain ⟨hs, k, hk, hkeof, hb⟩ := hA.tokens t ht
  exact hF k t hb e he

/-! ### Nodes and entries -/

theorem mem_child_background {c : FeatureChild} {b : Background} (h : b ∈ c.backgrounds) : ∀ e ∈ b.entries, e ∈ c.entries := by
  intro e he
  cases c with
  | background b' => simp [FeatureChild.backgrounds] at h; subst h; exact he
  | scenario s => simp [FeatureChild.backgrounds] at h
  | rule r =>
    simp only [FeatureChild.backgrounds, List.mem_flatMap] at h
    obtain ⟨rc, hrc, h⟩ := h
    cases rc with
    | scenario s => simp at h
    | background b' =>
      simp at h; subst h
      simp only [FeatureChild.entries, RuleNode.entries, List.mem_append, List.mem_cons, List.mem_flatMap]
      exact .inr (.inr ⟨_, hrc, he⟩)

theorem mem_child_scenario {c : FeatureChild} {s : Scenario} (h : s ∈ c.scenarios) : ∀ e ∈ s.entries, e ∈ c.entries := by
  intro e he
  cases c with
  | scenario b' => simp [FeatureChild.scenarios] at h; subst h; exact he
  | background s => simp [FeatureChild.scenarios] at h
  | rule r =>
    simp only [FeatureChild.scenarios, List.mem_flatMap] at h
    obtain ⟨rc, hrc, h⟩ := h
    cases rc with
    | background s => simp at h
    | scenario b' =>
      simp at h; subst h
      simp only [FeatureChild.entries, RuleNode.entries, List.mem_append, List.mem_cons, List.mem_flatMap]
      exact .inr (.inr ⟨_, hrc, he⟩)

theorem mem_doc_background {d : Document} {b : Background} (h : b ∈ d.backgrounds) : ∀ e ∈ b.entries, e ∈ d.entries := by
  intro e he
  simp only [Document.backgrounds, List.mem_flatMap, Option.mem_toList] at h
  obtain ⟨f, hf, c, hc, hb⟩ := h
  simp only [Document.entries, Feature.entries, List.mem_flatMap, Option.mem_toList, List.mem_append, List.mem_cons]
  exact ⟨f, hf, .inr (.inr ⟨c, hc, mem_child_background hb e he⟩)⟩

theorem mem_doc_scenario {d : Document} {b : Scenario} (h : b ∈ d.scenarios) : ∀ e ∈ b.entries, e ∈ d.entries := by
  intro e he
  simp only [Document.scenarios, List.mem_flatMap, Option.mem_toList] at h
  obtain ⟨f, hf, c, hc, hb⟩ := h
  simp only [Document.entries, Feature.entries, List.mem_flatMap, Option.mem_toList, List.mem_append, List.mem_cons]
  exact ⟨f, hf, .inr (.inr ⟨c, hc, mem_child_scenario hb e he⟩)⟩

theorem mem_doc_step {d : Document} {s : Step} (h : s ∈ d.steps) : ∀ e ∈ s.entries, e ∈ d.entries := by
  intro e he
  simp only [Document.steps, List.mem_append, List.mem_flatMap] at h
  rcases h with ⟨b, hb, hs⟩ | ⟨b, hb, hs⟩
  · refine mem_doc_background hb e ?_
    simp only [Background.entries, List.mem_cons, List.mem_flatMap]; exact .inr ⟨s, hs, he⟩
  · refine mem_doc_scenario hb e ?_
    simp only [Scenario.entries, List.mem_append, List.mem_cons, List.mem_flatMap]; exact .inr (.inr (.inl ⟨s, hs, he⟩))

/-- No examples table has a header cell with a character that is special in regular expressions. -/
def Document.PlainHeaders (d : Document) : Prop := ∀ e ∈ d.examples, ∀ h ∈ e.header, ∀ c ∈ h.cells, c.value.any Pickles.isMeta = false

/-- Every header cell of an examples table can be read as (part of) a regular expression. -/
def Document.ReadableHeaders (d : Document) : Prop :=
  ∀ e ∈ d.examples, ∀ h ∈ e.header, ∀ c ∈ h.cells, (Regex.read ('<' :: (c.value ++ ['>']))).isSome = true

theorem Document.PlainHeaders.readable {d : Document} (hd : d.PlainHeaders) : d.ReadableHeaders :=
  fun e he h hh c hc => Pickles.readable_plain (hd e he h hh c hc)

theorem parsed_compilable {μ : Type} {M : Matcher μ} (hM : M.Lawful) (hF : M.Filling) {stop : Bool} {text : Str} {m : μ} {b : BState} {d : Document}
    (h : (parse ⟨M, astBuilder, stop⟩ text m b).1 = .ok (some d)) (hh : d.ReadableHeaders) : d.Compilable := by
  have hfl := parsed_filled hM hF h
  refine ⟨?_, ?_, ?_, ?_⟩
  · intro f hf
    have : (Entry.feature f.loc f.keyword f.name f.language).Filled := hfl _ (by
      simp only [Document.entries, Feature.entries, List.mem_flatMap, Option.mem_toList, List.mem_append, List.mem_cons]
      exact ⟨f, hf, .inr (.inl rfl)⟩)
    exact this.2
  · intro s hs
    exact (show (Entry.scenario s.loc s.keyword s.name).Filled from hfl _ (mem_doc_scenario hs _ (by simp [Scenario.entries]))).2
  · intro s hs
    have := hfl (.step s.loc s.keyword s.keywordType s.text) (mem_doc_step hs _ (by simp [Step.entries]))
    exact ⟨this.2.2.2, this.2.2.1⟩
  · intro e he hd hhd
    refine ⟨hh e he hd hhd, fun r hr => ?_⟩
    obtain ⟨_, w, hw⟩ := (C16_tables_rectangular M hM stop text m b d h).2 e he
    exact Nat.le_of_eq ((hw hd (by simp [hhd])).trans (hw r (by simp [hr])).symm)

theorem parsed_backgroundFirst {μ : Type} {M : Matcher μ} (hM : M.Lawful) {stop : Bool} {text : Str} {m : μ} {b : BState} {d : Document}
    (h : (parse ⟨M, astBuilder, stop⟩ text m b).1 = .ok (some d)) : d.BackgroundFirst := by
  obtain ⟨D, _, _, h3, _⟩ := parsed_doc hM h
  rw [h3]; exact doc_backgroundFirst D _ _

end Gherkin
