import Verif.Proofs.Reformat
import Verif.Proofs.LayCheck

/-! # C91: formatting a feature file changes nothing -/

namespace Gherkin

open Pickles Robot Auto

/-- Documents whose features are the same, positions and ids apart, build to the same suite. -/
theorem suite_unplaced {eng : Engine} {printable : Char → Bool} {es : List DirEntry} {uri name text text' : Str} {d d' : Document} {f f' : Feature}
    (hd : parseFile name text = .ok (some d)) (hd' : parseFile name text' = .ok (some d')) (hf : d.feature = some f) (hf' : d'.feature = some f') (h : f'.unplaced = f.unplaced)
    {sets : List Setting} {tests : List Test} {fn : Option Str} (hb : build eng printable es uri name text = .ok (.suite sets tests, fn)) :
    ∃ tests', build eng printable es uri name text' = .ok (.suite sets tests', fn) ∧ tests'.map Test.unplaced = tests.map Test.unplaced := by
  have hcase : ∀ (e : Document) (g : Feature), e.feature = some g → e.cases = g.cases := by
    intro e g he
    simp only [Document.cases, he, Option.toList_some, List.flatMap_cons, List.flatMap_nil, List.append_nil]
  refine suite_same_faces hd hd' hf hf' ?_ ?_ ?_ ?_ ?_ hb
  · exact (congrArg Feature.name h : _)
  · have hnm : ∀ x : Feature, x.unplaced.tags.length = x.tags.length := by intro x; simp [Feature.unplaced, Feature.change]
    rw [← hnm f', ← hnm f, h]
  · rw [← settings_unplaced es f', ← settings_unplaced es f, h]
  · rw [hcase d' f' hf', hcase d f hf, ← faces_unplaced f', ← faces_unplaced f, h]
  · exact compile_alike eng uri hf' hf h 0 0

/-- **C91.** Two texts that are formatted in different ways - other indentation, other blank lines and comments, other padding of cells, other lines for the tags (`SameFile`) - give the
same document, positions and ids apart. -/
theorem C91_same_document {m : CState} (hm : m.Valid) {F F' : Layout.File} (hF : F.Ok m.defaultName) (hF' : F'.Ok m.defaultName) (h : Layout.SameFile F F') {text text' : Str}
    (ht : splitLines text = F.texts) (ht' : splitLines text' = F'.texts) (b : BState) (stop : Bool) :
    ∃ d d' f f', (parse (classicCfg astBuilder stop) text m b).1 = .ok (some d) ∧ (parse (classicCfg astBuilder stop) text' m b).1 = .ok (some d') ∧
      d.feature = some f ∧ d'.feature = some f' ∧ f'.unplaced = f.unplaced := by
  obtain ⟨d, f, h1, h2, h3⟩ := layout_says hm hF ht b stop
  obtain ⟨d', f', h1', h2', h3'⟩ := layout_says hm hF' ht' b stop
  refine ⟨d, d', f, f', h1, h1', h2, h2', ?_⟩
  rw [h3, h3', Reformat.matcher_same _ hF h, Reformat.featured_same (Reformat.matcher_calm (reset_calm hm) hF) h]

/-- **C91, the pickles.** They are the same, ids apart; if the pickles of one text cannot be made, neither can those of the other, for the same reason. -/
theorem C91_same_pickles {m : CState} (hm : m.Valid) {F F' : Layout.File} (hF : F.Ok m.defaultName) (hF' : F'.Ok m.defaultName) (h : Layout.SameFile F F') {text text' : Str}
    (ht : splitLines text = F.texts) (ht' : splitLines text' = F'.texts) (b : BState) (stop : Bool) :
    ∃ d d', (parse (classicCfg astBuilder stop) text m b).1 = .ok (some d) ∧ (parse (classicCfg astBuilder stop) text' m b).1 = .ok (some d') ∧
      ∀ (eng : Engine) (uri : Str) (n k : Nat), (compile eng uri d' n).map (fun p => p.1.map Pickle.content) = (compile eng uri d k).map fun p => p.1.map Pickle.content := by
  obtain ⟨d, d', f, f', h1, h2, h3, h4, h5⟩ := C91_same_document hm hF hF' h ht ht' b stop
  exact ⟨d, d', h1, h2, fun eng uri n k => compile_alike eng uri h4 h3 h5 n k⟩

/-- **C91, the suites.** One file builds just if the other one does, to the same suite, positions apart. -/
theorem C91_same_suite (eng : Engine) (printable : Char → Bool) (es : List DirEntry) (uri name : Str) (hn : suffix name ≠ py".md") {F F' : Layout.File} (hF : F.Ok py"en")
    (hF' : F'.Ok py"en") (h : Layout.SameFile F F') {text text' : Str} (ht : splitLines text = F.texts) (ht' : splitLines text' = F'.texts) (sets : List Setting) (fn : Option Str) :
    (∀ tests, build eng printable es uri name text = .ok (.suite sets tests, fn) →
      ∃ tests', build eng printable es uri name text' = .ok (.suite sets tests', fn) ∧ tests'.map Test.unplaced = tests.map Test.unplaced) ∧
    ∀ tests', build eng printable es uri name text' = .ok (.suite sets tests', fn) →
      ∃ tests, build eng printable es uri name text = .ok (.suite sets tests, fn) ∧ tests.map Test.unplaced = tests'.map Test.unplaced := by
  obtain ⟨d, d', f, f', h1, h2, h3, h4, h5⟩ := C91_same_document (m := defaultMatcher) default_valid hF hF' h ht ht' newBuilder false
  rw [← classic_file hn] at h1 h2
  exact ⟨fun tests hb => suite_unplaced h1 h2 h3 h4 h5 hb, fun tests hb => suite_unplaced h2 h1 h4 h3 h5.symm hb⟩

/-! ### The hypotheses can be met -/

namespace Sample.Fmt
open Layout

def rough : Layout.File :=
  ⟨[], none, ⟨[⟨py"@a @b\n", []⟩], ⟨py"Feature: f\n", [], [], []⟩, none,
    [⟨[], ⟨py"  Scenario Outline: s\n", [], [], []⟩,
      [⟨⟨py"    Given x\n", []⟩, .table ⟨py"      | a | b\\|c |\n", []⟩ []⟩,
       ⟨⟨py"    When <h>\n", []⟩, .doc py"      \"\"\"json\n" [py"        text\n"] ⟨py"      \"\"\"\n", []⟩⟩],
      [⟨[], ⟨py"    Examples:\n", [], [], []⟩, [⟨py"      | h |\n", []⟩, ⟨py"      | 1 |\n", []⟩]⟩]⟩], []⟩⟩

def neat : Layout.File :=
  ⟨[py"\n", py"# neat\n"], none, ⟨[⟨py"  @a   # first\n", []⟩, ⟨py"@b\n", []⟩], ⟨py"Feature:   f  \n", [py"\n", py"# why\n"], [], []⟩, none,
    [⟨[], ⟨py"Scenario Outline:s\n", [py"\n"], [], []⟩,
      [⟨⟨py"Given  \t x  \n", [py"# here\n"]⟩, .table ⟨py"|a|   b\\|c|\n", []⟩ []⟩,
       ⟨⟨py" When <h>\n", []⟩, .doc py" \"\"\"json  \n" [py"   text\n"] ⟨py"      \"\"\"\n", [py"\n"]⟩⟩],
      [⟨[], ⟨py" Examples:\n", [], [], []⟩, [⟨py" | h   |\n", []⟩, ⟨py"\t|  1|\n", [py"\n"]⟩]⟩]⟩], []⟩⟩

theorem en_known : dialectFor py"en" = some en.dialect := by decide +kernel

theorem rough_ok : rough.Ok py"en" := by
  refine ⟨by intro s hs; simp [rough] at hs, by intro s hs; simp [rough] at hs, en.dialect, en_known, tagsB_ok (by decide +kernel), headB_ok (by decide +kernel),
    by simp [rough], ?_, by simp [rough]⟩
  intro s hs
  simp only [rough, List.mem_singleton] at hs
  subst hs
  refine ⟨tagsB_ok (by decide +kernel), headB_ok (by decide +kernel), ?_, ?_⟩
  · intro x hx
    simp only [List.mem_cons, List.not_mem_nil, or_false] at hx
    rcases hx with rfl | rfl
    · exact ⟨lnB_ok (by decide +kernel), argB_ok (n := 2) (by decide +kernel)⟩
    · exact ⟨lnB_ok (by decide +kernel), argB_ok (n := 0) (by decide +kernel)⟩
  · intro x hx
    simp only [List.mem_singleton] at hx
    subst hx
    exact ⟨tagsB_ok (by decide +kernel), headB_ok (by decide +kernel), rowsB_ok (n := 1) (by decide +kernel)⟩

theorem neat_ok : neat.Ok py"en" := by
  refine ⟨noiseB_ok (by decide +kernel), ?_, en.dialect, en_known, tagsB_ok (by decide +kernel), headB_ok (by decide +kernel),
    by simp [neat], ?_, by simp [neat]⟩
  · intro s hs name h
    have := languageName_iff.2 h
    simp only [neat, List.mem_cons, List.not_mem_nil, or_false] at hs
    rcases hs with rfl | rfl
    · rw [show Classic.languageName py"\n" = none by decide +kernel] at this; simp at this
    · rw [show Classic.languageName py"# neat\n" = none by decide +kernel] at this; simp at this
  intro s hs
  simp only [neat, List.mem_singleton] at hs
  subst hs
  refine ⟨tagsB_ok (by decide +kernel), headB_ok (by decide +kernel), ?_, ?_⟩
  · intro x hx
    simp only [List.mem_cons, List.not_mem_nil, or_false] at hx
    rcases hx with rfl | rfl
    · exact ⟨lnB_ok (by decide +kernel), argB_ok (n := 2) (by decide +kernel)⟩
    · exact ⟨lnB_ok (by decide +kernel), argB_ok (n := 0) (by decide +kernel)⟩
  · intro x hx
    simp only [List.mem_singleton] at hx
    subst hx
    exact ⟨tagsB_ok (by decide +kernel), headB_ok (by decide +kernel), rowsB_ok (n := 1) (by decide +kernel)⟩

def barelyB (s : Str) : Bool := dialects.any fun p => (p.2.given ++ p.2.when_ ++ p.2.then_ ++ p.2.and_ ++ p.2.but_).any fun kw => strip kw == strip s

theorem not_bare {s : Str} (h : barelyB s = false) : ¬ BareKeyword s := by
  rintro ⟨name, d, hd, kw, hk, hw⟩
  simp only [barelyB, List.any_eq_false] at h
  refine h _ (lookup_mem hd) ?_
  simp only [List.any_eq_true, beq_iff_eq]
  exact ⟨kw, hk, Reformat.words_strip hw⟩

def onlyB (kw s s' : Str) : Bool := dialects.all fun p => (p.2.given ++ p.2.when_ ++ p.2.then_ ++ p.2.and_ ++ p.2.but_).all fun kw' => !(kw'.isPrefixOf s || kw'.isPrefixOf s') || kw' == kw

theorem only_one {kw s s' : Str} (h : onlyB kw s s' = true) (name : Str) (d : Dialect) (hd : dialectFor name = some d) :
    ∀ kw' ∈ d.given ++ d.when_ ++ d.then_ ++ d.and_ ++ d.but_, kw' <+: s ∨ kw' <+: s' → kw' = kw := by
  intro kw' hk hp
  simp only [onlyB, List.all_eq_true] at h
  have := h _ (lookup_mem hd) kw' hk
  rw [Bool.or_eq_true, beq_iff_eq, Bool.not_eq_true', Bool.or_eq_false_iff] at this
  rcases this with ⟨h1, h2⟩ | h
  · rw [← Bool.not_eq_true, List.isPrefixOf_iff_prefix] at h1 h2
    tauto
  · exact h

def whiteB (s : Str) : Bool := s.all isSpace
theorem white {s : Str} (h : whiteB s = true) : White s := by simpa [whiteB, White] using h

theorem same_words {s s' : Str} (a x b a' b' : Str) (h : (whiteB a && whiteB b && whiteB a' && whiteB b' && s == a ++ x ++ b && s' == a' ++ x ++ b') = true) : SameWords s s' := by
  simp only [Bool.and_eq_true, beq_iff_eq] at h
  obtain ⟨⟨⟨⟨⟨h1, h2⟩, h3⟩, h4⟩, h5⟩, h6⟩ := h
  exact ⟨a, x, b, a', b', white h1, white h2, white h3, white h4, h5, h6⟩

theorem same_title {s s' : Str} (a kw w name b a' w' b' : Str) (h : (whiteB a && whiteB w && whiteB b && whiteB a' && whiteB w' && whiteB b' && !kw.contains ':' &&
    s == a ++ kw ++ ':' :: w ++ name ++ b && s' == a' ++ kw ++ ':' :: w' ++ name ++ b') = true) : SameTitle s s' := by
  simp only [Bool.and_eq_true, beq_iff_eq, Bool.not_eq_true', List.contains_eq_mem, decide_eq_false_iff_not] at h
  obtain ⟨⟨⟨⟨⟨⟨⟨⟨h1, h2⟩, h3⟩, h4⟩, h5⟩, h6⟩, h7⟩, h8⟩, h9⟩ := h
  exact ⟨a, kw, w, name, b, a', w', b', white h1, white h2, white h3, white h4, white h5, white h6, h7, h8, h9⟩

theorem cell_ok (l r v p : Str) (hp : ∀ c ∈ l ++ r, isSpace c = true ∧ c ≠ '\n') (hr : Reads v p) (hv : ∀ c ∈ p, isSpace c = false) : RCell.Ok ⟨l, v, p, r⟩ := by
  refine ⟨fun c hc => hp c (by simp at hc ⊢; exact .inl hc), fun c hc => hp c (by simp at hc ⊢; exact .inr hc), hr, ⟨fun c hc => .inl (hv c (List.mem_of_mem_head? hc)),
    fun c hc => .inl (hv c (List.mem_of_getLast? hc))⟩, fun _ c _ hc => .inl (hv c (List.dropLast_subset _ (List.mem_of_getLast? hc)))⟩

/-- The two samples are formatted differently only. -/
theorem rough_neat : SameFile rough neat where
  language := .none
  tags := by
    refine ⟨[py"a", py"b"], .cons (ns := [py"a", py"b"]) (nss := []) ?_ .nil, .cons (ns := [py"a"]) (nss := [py"b"]) ?_ (.cons (ns := [py"b"]) (nss := []) ?_ .nil)⟩
    · refine ⟨[], [⟨[], py"a", py" "⟩, ⟨[], py"b", py"\n"⟩], [], by simp [White], by simp, ?_, .nil, by decide, rfl⟩
      intro t ht
      simp only [List.mem_cons, List.not_mem_nil, or_false] at ht
      rcases ht with rfl | rfl <;> exact ⟨rfl, by unfold TagName; decide, by unfold White; decide⟩
    · refine ⟨py"  ", [⟨[], py"a", py"  "⟩], py" # first\n", by unfold White; decide, by simp, ?_, .comment (by decide), by decide, rfl⟩
      intro t ht
      simp only [List.mem_cons, List.not_mem_nil, or_false] at ht
      subst ht; exact ⟨rfl, by unfold TagName; decide, by unfold White; decide⟩
    · refine ⟨[], [⟨[], py"b", py"\n"⟩], [], by simp [White], by simp, ?_, .nil, by decide, rfl⟩
      intro t ht
      simp only [List.mem_cons, List.not_mem_nil, or_false] at ht
      subst ht; exact ⟨rfl, by unfold TagName; decide, by unfold White; decide⟩
  head := ⟨same_title [] py"Feature" py" " py"f" py"\n" [] py"   " py"  \n" (by decide), rfl⟩
  background := .none
  scenarios := by
    refine .cons ⟨⟨[], .nil, .nil⟩, ⟨same_title py"  " py"Scenario Outline" py" " py"s" py"\n" [] [] py"\n" (by decide), rfl⟩, .cons ⟨.inr (.inr ?_), ?_⟩
      (.cons ⟨.inl ⟨?_, not_bare (by decide +kernel)⟩, ?_⟩ .nil), .cons ⟨⟨[], .nil, .nil⟩, ?_, .cons (.inr ⟨[py"h"], ?_, ?_⟩) (.cons (.inr ⟨[py"1"], ?_, ?_⟩) .nil)⟩ .nil⟩ .nil
    · exact ⟨py"    ", py"Given ", [], py"x", py"\n", [], py" \t ", py"  \n", by unfold White; decide, by simp [White], by unfold White; decide, by simp [White], by unfold White; decide,
        by unfold White; decide, ⟨'G', rfl, rfl⟩, rfl, rfl, fun name d hd => only_one (by decide +kernel) name d hd⟩
    · refine .table (.cons (.inr ⟨[py"a", py"b|c"], ?_, ?_⟩) .nil)
      · refine ⟨py"      ", [⟨py" ", py"a", py"a", py" "⟩, ⟨py" ", py"b\\|c", py"b|c", py" "⟩], py"\n", by unfold White; decide, by unfold White; decide, ?_, by decide, rfl⟩
        intro c hc
        simp only [List.mem_cons, List.not_mem_nil, or_false] at hc
        rcases hc with rfl | rfl
        · exact cell_ok _ _ _ _ (by decide) (.plain (by decide) (by decide) .nil) (by decide)
        · exact cell_ok _ _ _ _ (by decide) (.plain (by decide) (by decide) (.escaped (.inl rfl) (.plain (by decide) (by decide) .nil))) (by decide)
      · refine ⟨[], [⟨[], py"a", py"a", []⟩, ⟨py"   ", py"b\\|c", py"b|c", []⟩], py"\n", by simp [White], by unfold White; decide, ?_, by decide, rfl⟩
        intro c hc
        simp only [List.mem_cons, List.not_mem_nil, or_false] at hc
        rcases hc with rfl | rfl
        · exact cell_ok _ _ _ _ (by decide) (.plain (by decide) (by decide) .nil) (by decide)
        · exact cell_ok _ _ _ _ (by decide) (.plain (by decide) (by decide) (.escaped (.inl rfl) (.plain (by decide) (by decide) .nil))) (by decide)
    · exact same_words py"    " py"When <h>" py"\n" py" " py"\n" (by decide)
    · exact .doc (delim := py"\"\"\"") (same_words py"      " py"\"\"\"json" py"\n" py" " py"  \n" (by decide)) (by decide) (by decide) (by decide +kernel)
    · exact ⟨same_title py"    " py"Examples" [] [] py"\n" py" " [] py"\n" (by decide), rfl⟩
    · refine ⟨py"      ", [⟨py" ", py"h", py"h", py" "⟩], py"\n", by unfold White; decide, by unfold White; decide, ?_, by decide, rfl⟩
      intro c hc
      simp only [List.mem_singleton] at hc
      subst hc
      exact cell_ok _ _ _ _ (by decide) (.plain (by decide) (by decide) .nil) (by decide)
    · refine ⟨py" ", [⟨py" ", py"h", py"h", py"   "⟩], py"\n", by unfold White; decide, by unfold White; decide, ?_, by decide, rfl⟩
      intro c hc
      simp only [List.mem_singleton] at hc
      subst hc
      exact cell_ok _ _ _ _ (by decide) (.plain (by decide) (by decide) .nil) (by decide)
    · refine ⟨py"      ", [⟨py" ", py"1", py"1", py" "⟩], py"\n", by unfold White; decide, by unfold White; decide, ?_, by decide, rfl⟩
      intro c hc
      simp only [List.mem_singleton] at hc
      subst hc
      exact cell_ok _ _ _ _ (by decide) (.plain (by decide) (by decide) .nil) (by decide)
    · refine ⟨py"\t", [⟨py"  ", py"1", py"1", []⟩], py"\n", by unfold White; decide, by unfold White; decide, ?_, by decide, rfl⟩
      intro c hc
      simp only [List.mem_singleton] at hc
      subst hc
      exact cell_ok _ _ _ _ (by decide) (.plain (by decide) (by decide) .nil) (by decide)
  rules := .nil

end Sample.Fmt

example : splitLines Sample.Fmt.rough.texts.flatten = Sample.Fmt.rough.texts ∧ splitLines Sample.Fmt.neat.texts.flatten = Sample.Fmt.neat.texts ∧ Sample.Fmt.neat.texts ≠ Sample.Fmt.rough.texts := by decide +kernel

/-- The condition on steps that are a mere keyword cannot be dropped: in French, a space at the end of the line `Et que` makes it another step. -/
theorem C91_bare_keyword :
    let read (t : Str) : List (List (Option Str × Option Str)) := match (parse ⟨classic, astBuilder, false⟩ t (Sample.matcher py"fr") Sample.fresh).1 with
      | .ok (some ⟨some f, _⟩) => f.children.map fun (c : FeatureChild) => match c with | .scenario s => s.steps.map fun (x : Step) => (x.keyword, x.text) | _ => []
      | _ => []
    Layout.SameWords py"Et que \n" py"Et que\n" ∧
    read py"Fonctionnalité: f\nScénario: s\nEt que \n" = [[(some py"Et que ", some [])]] ∧
    read py"Fonctionnalité: f\nScénario: s\nEt que\n" = [[(some py"Et ", some py"que")]] :=
  ⟨⟨[], py"Et que", py" \n", [], py"\n", by simp [White], by unfold White; decide, by simp [White], by unfold White; decide, by decide, by decide⟩, by decide +kernel, by decide +kernel⟩

end Gherkin
