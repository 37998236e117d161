import Verif.Proofs.TransPickles
import Verif.Props.Samples
import Verif.Props.Lines

/-! C79: translating the keywords does not change the tests. -/

namespace Gherkin

open Pickles

/-- **C79, the document.** If a text in one language is accepted, so is its translation to another language, and the document is the same apart from the
language, the keywords and the columns: the same titles, steps with the same types, tags, tables, doc strings and descriptions on the same lines, with the same
ids. -/
theorem C79_same_document (m m' : CState) (hm : m.Valid) (hm' : m'.Valid) (stop : Bool) (text text' : Str) (b : BState) (doc : Document) (f : Feature)
    (h : (parse ⟨classic, astBuilder, stop⟩ text m b).1 = .ok (some doc)) (hf : doc.feature = some f) (lang lang' : Str) (d d' : Dialect)
    (hl : f.language = some lang) (hd : dialects.lookup lang = some d) (hd' : dialects.lookup lang' = some d')
    (hu : lang ∉ unsortedDialects) (hu' : lang' ∉ unsortedDialects) (htr : Translates d lang' m'.defaultName d' text doc text') :
    ∃ doc' f', (parse ⟨classic, astBuilder, stop⟩ text' m' b).1 = .ok (some doc') ∧ doc'.feature = some f' ∧ f'.language = some lang' ∧
      f'.uncolumned.wordless = f.uncolumned.wordless :=
  translate_parse hm hm' h hf hl hd hd' hu hu' htr

/-- **C79, the pickles.** The pickles of a translation are those of the text, except for the language they name; if one cannot be compiled, neither can the
other. -/
theorem C79_same_pickles (m m' : CState) (hm : m.Valid) (hm' : m'.Valid) (stop : Bool) (text text' : Str) (b : BState) (doc : Document) (f : Feature)
    (h : (parse ⟨classic, astBuilder, stop⟩ text m b).1 = .ok (some doc)) (hf : doc.feature = some f) (lang lang' : Str) (d d' : Dialect)
    (hl : f.language = some lang) (hd : dialects.lookup lang = some d) (hd' : dialects.lookup lang' = some d')
    (hu : lang ∉ unsortedDialects) (hu' : lang' ∉ unsortedDialects) (htr : Translates d lang' m'.defaultName d' text doc text') :
    ∃ doc', (parse ⟨classic, astBuilder, stop⟩ text' m' b).1 = .ok (some doc') ∧ ∀ (eng : Engine) (uri : Str) (n : Nat),
      compile eng uri doc' n = match compile eng uri doc n with
        | .ok (pickles, n') => .ok (pickles.map fun p => { p with language := lang' }, n')
        | .error e => .error e := by
  obtain ⟨doc', f', h1, h2, h3, h4⟩ := translate_parse hm hm' h hf hl hd hd' hu hu' htr
  refine ⟨doc', h1, fun eng uri n => ?_⟩
  rw [compile_wordless eng uri lang lang' hf h2 hl h3 h4 n]
  cases compile eng uri doc n <;> rfl

/-! ### A translation -/

namespace Sample

/-- Does a line begin with a keyword? -/
def keyworded (d : Dialect) (s : Str) : Bool :=
  titleLists.any (fun kws => (kws d).any fun kw => (kw ++ [':']).isPrefixOf (lstrip s)) || d.stepKeywords.any fun kw => kw.isPrefixOf (lstrip s)

theorem keyworded_iff {d : Dialect} (hd : d.Known) {s : Str} (h : Keyworded d s) : keyworded d s = true := by
  obtain ⟨w, kw, rest, hw, ⟨kws, h1, h2, rfl⟩ | ⟨h1, rfl⟩⟩ := h
  · obtain ⟨K, hK⟩ := titleLists_kind h1
    have hh := hd.title_head (k := K) (by rw [hK]; exact h2)
    rw [keyworded, Bool.or_eq_true, List.any_eq_true]
    refine .inl ⟨kws, h1, List.any_eq_true.2 ⟨kw, h2, ?_⟩⟩
    rw [lstrip_pre hw (head_space hh), List.isPrefixOf_iff_prefix]
    exact ⟨rest, by simp⟩
  · have hh := hd.step_head h1
    rw [keyworded, Bool.or_eq_true]
    refine .inr (List.any_eq_true.2 ⟨kw, h1, ?_⟩)
    rw [lstrip_pre hw (head_space hh), List.isPrefixOf_iff_prefix]
    exact ⟨rest, rfl⟩

/-- Do two lines say the same in two languages? -/
def sameLine (d d' : Dialect) (s s' : Str) : Bool :=
  (titleLists.any fun kws => (kws d).any fun kw => (kws d').any fun kw' =>
    (kw ++ [':']).isPrefixOf (lstrip s) && (lstrip s' == kw' ++ [':'] ++ (lstrip s).drop (kw.length + 1))) ||
  (d.stepKeywords.any fun kw => d'.stepKeywords.any fun kw' =>
    kw.isPrefixOf (lstrip s) && (lstrip s' == kw' ++ (lstrip s).drop kw.length) &&
      d.stepKeywords.all (fun k => !k.isPrefixOf (lstrip s) || decide (k.length ≤ kw.length)) &&
      d'.stepKeywords.all (fun k => !k.isPrefixOf (lstrip s') || decide (k.length ≤ kw'.length)) &&
      [KType.context, .action, .outcome, .conjunction, .unknown].all fun ty => (d.ofType ty).contains kw == (d'.ofType ty).contains kw') ||
  ((s == s') && !keyworded d s && !keyworded d' s)

theorem sameLine_ok {d d' : Dialect} (hd : d.Known) (hd' : d'.Known) {s s' : Str} (h : sameLine d d' s s' = true) : SameLine d d' s s' := by
  obtain ⟨w, hw, e⟩ := lstrip_split s
  obtain ⟨w', hw', e'⟩ := lstrip_split s'
  simp only [sameLine, Bool.or_eq_true, List.any_eq_true, Bool.and_eq_true, List.isPrefixOf_iff_prefix, beq_iff_eq] at h
  rcases h with (⟨kws, h0, kw, h1, kw', h2, ⟨r, h3⟩, h4⟩ | ⟨kw, h1, kw', h2, ⟨⟨⟨⟨r, h3⟩, h4⟩, h5⟩, h6⟩, h7⟩) | ⟨⟨h1, h2⟩, h3⟩
  · have hr : (lstrip s).drop (kw.length + 1) = r := by
      rw [← h3, show kw.length + 1 = (kw ++ [':']).length by simp, List.drop_left]
    rw [hr] at h4
    rw [e, e', ← h3, h4]
    simp only [List.append_assoc, List.singleton_append]
    exact .title h0 hw hw' h1 h2
  · have hr : (lstrip s).drop kw.length = r := by rw [← h3, List.drop_left]
    rw [hr] at h4
    rw [List.all_eq_true] at h5 h6 h7
    rw [e, e', ← h3, h4]
    refine .step hw hw' ⟨h1, ⟨r, rfl⟩, fun k hk hp => ?_⟩ ⟨h2, ⟨r, rfl⟩, fun k hk hp => ?_⟩ fun ty => ?_
    · have := h5 k hk
      rw [← h3, List.isPrefixOf_iff_prefix.2 hp] at this
      simpa using this
    · have := h6 k hk
      rw [h4, List.isPrefixOf_iff_prefix.2 hp] at this
      simpa using this
    · have := h7 ty (by cases ty <;> simp)
      rw [beq_iff_eq] at this
      simp only [List.contains_eq_mem, decide_eq_decide] at this
      exact this
  · subst h1
    exact .plain (fun h => by rw [keyworded_iff hd h] at h2; simp at h2) (fun h => by rw [keyworded_iff hd' h] at h3; simp at h3)

def english : Str := py"# language: en
@smoke
Feature: Basket
  when nobody looks

Background:
  Given a shop
Rule: sale
  Scenario Outline: buy <x>
    When I buy <x>
      \"\"\"
      Given raw text
      \"\"\"
    And pay
    * all is well
    Scenarios: few
      | x |
      | a |
"

def englishFr : Str := py"#language: fr
@smoke
Fonctionnalité: Basket
  when nobody looks

  Contexte:
    Soit a shop
  Règle: sale
  Plan du scénario: buy <x>
    Lorsque I buy <x>
      \"\"\"
      Given raw text
      \"\"\"
    Et pay
    * all is well
Exemples: few
      | x |
      | a |
"

def englishDoc : Document := ((parse ⟨classic, astBuilder, false⟩ english en fresh).1.toOption.getD none).getD default
def fr : Dialect := (matcher py"fr").dialect

theorem fr_known : dialects.lookup py"fr" = some fr := by decide +kernel
theorem en_known : dialects.lookup py"en" = some en.dialect := by decide +kernel
theorem english_doc : (parse ⟨classic, astBuilder, false⟩ english en fresh).1 = .ok (some englishDoc) := by decide +kernel

theorem english_header : HeaderAt english 1 py"en" := by
  refine ⟨⟨py"# language: en\n", ⟨by decide, by decide +kernel⟩, languageName_iff.1 (by decide +kernel)⟩, ?_⟩
  intro k hk s ⟨h1, _⟩
  omega

theorem english_header_only {n : Nat} {name : Str} (h : HeaderAt english n name) : n = 1 := by
  obtain ⟨⟨s, ⟨h1, _⟩, _⟩, h2⟩ := h
  by_cases hn : 1 < n
  · obtain ⟨s1, hs1, hh⟩ := english_header.1
    rcases h2 1 hn s1 hs1 with h3 | ⟨_, h3⟩
    · obtain ⟨_, _, a, b, c, d, e, _, _, _, _, _, rfl⟩ := hh
      have := h3 '#' (by simp)
      exact absurd this (by decide)
    · exact absurd hh (h3 _)
  · omega

theorem translated : Translates en.dialect py"fr" py"en" fr english englishDoc englishFr := by
  have hd : (dialectFor py"en") = some en.dialect := en_known
  refine ⟨by decide +kernel, ?_, ?_, ?_, ?_⟩
  · intro n name h s' hs'
    obtain rfl := english_header_only h
    have : s' = py"#language: fr\n" := by
      have h3 : (splitLines englishFr)[1 - 1]? = some py"#language: fr\n" := by decide +kernel
      exact Option.some.inj (hs'.2.symm.trans h3)
    subst this
    exact languageName_iff.1 (by decide +kernel)
  · intro h
    exact absurd english_header (h _ _)
  · have key : ∀ n ∈ [4, 5, 12, 13], ∀ s s', LineIs english n s → LineIs englishFr n s' → s' = s := by
      intro n hn s s' hs hs'
      have : ∀ n ∈ [4, 5, 12, 13], (splitLines englishFr)[n - 1]? = (splitLines english)[n - 1]? := by decide +kernel
      exact Option.some.inj (hs'.2.symm.trans ((this n hn).trans hs.2))
    rintro n (⟨x, hx, hn⟩ | ⟨f, name, dialect, h1, h2, h3, p, loc, s, hp, l, hl, rfl⟩)
    · refine key n ?_
      have : ∀ x ∈ englishDoc.docStrings, ∀ n ∈ x.lines english, n ∈ [4, 5, 12, 13] := by decide +kernel
      exact this x hx n hn
    · refine key _ ?_
      have hf : englishDoc.feature.bind (·.language) = some py"en" := by decide +kernel
      rw [h1] at hf
      simp only [Option.bind_some] at hf
      rw [h2] at hf
      simp only [Option.some.injEq] at hf
      subst hf
      have hd : dialect = Sample.en.dialect := by rw [en_known] at h3; simpa using h3.symm
      subst hd
      have hparts : ∀ x ∈ englishDoc.parts, ∀ l ∈ descriptionLines en.dialect english x.1 x.2.1.line, l.number ∈ [4, 5, 12, 13] := by decide +kernel
      exact hparts _ hp _ hl
  · intro n hdoc hh s s' hs hs'
    have hlt : n - 1 < (splitLines english).length := by
      have := hs.2
      rw [List.getElem?_eq_some_iff] at this
      exact this.1
    have key : ∀ i < (splitLines english).length, i = 0 ∨ (∃ x ∈ englishDoc.docStrings, (i + 1) ∈ x.lines english) ∨
        sameLine en.dialect fr ((splitLines english)[i]?.getD []) ((splitLines englishFr)[i]?.getD []) = true := by decide +kernel
    have h1 := hs.1
    rcases key _ hlt with h | ⟨x, hx, hn⟩ | h
    · have : n = 1 := by omega
      subst this
      exact absurd english_header (hh _)
    · rw [show n - 1 + 1 = n by omega] at hn
      exact absurd ⟨x, hx, hn⟩ hdoc
    · rw [hs.2, hs'.2] at h
      exact sameLine_ok ⟨_, en_known⟩ ⟨_, fr_known⟩ h

end Sample

example : ∃ doc' f', (parse ⟨classic, astBuilder, false⟩ Sample.englishFr Sample.en Sample.fresh).1 = .ok (some doc') ∧ doc'.feature = some f' ∧
    f'.language = some py"fr" ∧ some f'.uncolumned.wordless = Sample.englishDoc.feature.map (fun f => f.uncolumned.wordless) := by
  obtain ⟨f, hf⟩ : ∃ f, Sample.englishDoc.feature = some f := Option.isSome_iff_exists.1 (by decide +kernel)
  have hl : f.language = some py"en" := by
    have : Sample.englishDoc.feature.bind (·.language) = some py"en" := by decide +kernel
    rw [hf] at this; exact this
  obtain ⟨doc', f', h1, h2, h3, h4⟩ := C79_same_document Sample.en Sample.en ⟨by decide +kernel, by decide +kernel⟩ ⟨by decide +kernel, by decide +kernel⟩ false
    Sample.english Sample.englishFr Sample.fresh Sample.englishDoc f Sample.english_doc hf py"en" py"fr" Sample.en.dialect Sample.fr hl
    Sample.en_known Sample.fr_known (by decide) (by decide) Sample.translated
  exact ⟨doc', f', h1, h2, h3, by rw [hf, Option.map_some, h4]⟩

/-- The feature is not trivial: its pickles have steps of all types. -/
example : (match compile (fun _ _ s => .ok s) py"u" Sample.englishDoc 100 with
    | .ok (ps, _) => ps.map fun p => (p.name, p.steps.map fun s => (s.type, s.text)) | .error _ => []) =
    [(some py"buy a", [(some .context, some py"a shop"), (some .action, some py"I buy a"), (some .action, some py"pay"), (some .unknown, some py"all is well")])] := by
  decide +kernel

/-- A step must keep its type: `Then` for `Quand` gives another pickle. -/
theorem C79_other_type :
    let types t m := ((parse ⟨classic, astBuilder, false⟩ t m Sample.fresh).1.toOption.getD none).bind fun d => d.feature.map fun f =>
      f.children.map fun c => match c with | .scenario s => s.steps.map (·.keywordType) | _ => []
    types py"Fonctionnalité: f\nScénario: s\nQuand x\n" (Sample.matcher py"fr") = some [[some .action]] ∧
    types py"Feature: f\nScenario: s\nThen x\n" Sample.en = some [[some .outcome]] := by decide +kernel

/-- Without the condition on the order of keywords the claim fails: in Slovak the step `A tiež x` begins with a keyword for `And`, and this is the longest one,
but it is read as the step `tiež x` after the keyword `A `. -/
theorem C79_unsorted :
    let texts t m := ((parse ⟨classic, astBuilder, false⟩ t m Sample.fresh).1.toOption.getD none).bind fun d => d.feature.map fun f =>
      f.children.map fun c => match c with | .scenario s => s.steps.map (·.text) | _ => []
    py"A tiež " ∈ (Sample.matcher py"sk").dialect.and_ ∧
    texts py"Feature: f\nScenario: s\nGiven y\nAnd x\n" Sample.en = some [[some py"y", some py"x"]] ∧
    texts py"Vlastnosť: f\nScenár: s\nPokiaľ y\nA tiež x\n" (Sample.matcher py"sk") = some [[some py"y", some py"tiež x"]] := by decide +kernel

end Gherkin
