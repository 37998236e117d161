import Verif.Spec.Header
import Verif.Props.Flat
import Verif.Proofs.TransParse

/-! # C84: it does not matter how the language of a text is given -/

namespace Gherkin

open Pickles Robot Auto

/-- The matcher with another default language. -/
def CState.by (m : CState) (x : Str) : CState := { m with defaultName := x }

theorem tokOf_by (m : CState) (x : Str) (k : Kind) (s : Str) (n : Nat) : tokOf (m.by x) k s n = tokOf m k s n := by
  unfold tokOf
  cases k <;>
    simp only [CState.by, Classic.matchKind, Classic.matchEof, Classic.matchEmpty, Classic.matchComment, Classic.matchTagLine, Classic.matchTitle,
      Classic.matchStep, Classic.matchDocSep, Classic.matchSep, Classic.matchTableRow, Classic.matchLanguage, Classic.matchOther] <;>
    (repeat' split) <;> first | rfl | (exfalso; simp_all; done) | simp_all

theorem inside_by (m : CState) (x : Str) (o : Str) : inside (m.by x) o = (inside m o).by x := by
  unfold inside
  simp only [CState.by, Classic.matchKind, Classic.matchDocSep, Classic.matchSep]
  (repeat' split) <;> first | rfl | (exfalso; simp_all; done) | simp_all

theorem argCst_by (m : CState) (x : Str) (n : Nat) (a : Layout.Arg) : argCst (m.by x) n a = argCst m n a := by
  cases a <;> simp only [argCst, rowToks, others, inside_by, tokOf_by]

theorem featureCst_by (m : CState) (x : Str) (f : Layout.Feature) : featured (m.by x) f = featured m f := by
  have h1 : stepCst (m.by x) = stepCst m := by funext n s; simp only [stepCst, tokOf_by, argCst_by]
  have h2 : headDesc (m.by x) = headDesc m := by funext n s; simp only [headDesc, others, tokOf_by]
  have h3 : tagToks (m.by x) = tagToks m := by funext n s; simp only [tagToks, tokOf_by]
  have h4 : examplesCst (m.by x) = examplesCst m := by funext n s; simp only [examplesCst, h2, h3, tokOf_by, rowToks]
  have h5 : scenarioCst (m.by x) = scenarioCst m := by funext n s; simp only [scenarioCst, h1, h2, h3, h4, tokOf_by, stepsCst]
  have h6 : backgroundCst (m.by x) = backgroundCst m := by funext n s; simp only [backgroundCst, h1, h2, tokOf_by, stepsCst]
  have h7 : scen (m.by x) = scen m := by funext s; simp only [scen, h5]
  have h8 : back (m.by x) = back m := by funext s; simp only [back, h6]
  have h9 : tagged (m.by x) = tagged m := by funext s; simp only [tagged, h3]
  have h10 : ruled (m.by x) = ruled m := by funext s; simp only [ruled, h2, h7, h8, h9, tokOf_by]
  simp only [featured, h2, h7, h8, h9, h10, tokOf_by]

/-- The matcher at the feature knows the language, and nothing else of what stood before. -/
theorem spoken_matcher {m : CState} (hm : m.Valid) {F : Layout.File} (hF : F.Ok m.defaultName) {name : Str} (hs : F.Speaks m.defaultName name) :
    ∃ d, dialectFor name = some d ∧ fileMatcher (Classic.reset m) F = ⟨m.defaultName, name, d, 0, none⟩ := by
  obtain ⟨h1, h2, h3⟩ := reset_calm hm
  have h4 := reset_name hm
  have h5 := reset_known hm
  have h6 : (Classic.reset m).defaultName = m.defaultName := by
    unfold Classic.reset
    split
    · split <;> rfl
    · rfl
  obtain ⟨_, _, h7⟩ := hF
  unfold Layout.File.Speaks at hs
  unfold fileMatcher
  cases hl : F.language with
  | none =>
    rw [hl] at hs
    subst hs
    refine ⟨_, h5, ?_⟩
    generalize Classic.reset m = r at *
    cases r
    simp_all
  | some l =>
    rw [hl] at hs h7
    obtain ⟨_, x, d, h8, h9, _⟩ := h7
    have h10 : name = x := by
      have a := languageName_iff.2 hs
      have b := languageName_iff.2 h8
      rw [a] at b
      simpa using b
    subst h10
    refine ⟨d, h9, ?_⟩
    have h11 : Classic.languageName (Token.fresh ⟨l.text, 0⟩).line.lineText = some name := header_iff.2 hs
    simp only [Classic.matchKind, Classic.matchLanguage, h11, h9]
    generalize Classic.reset m = r at *
    cases r
    simp_all

theorem title_dialect {m : CState} {s : Str} {n : Nat} {l : Str} (h : (tokOf m .featureLine s n).dialect = some l) : l = m.dialectName := by
  unfold tokOf at h
  simp only [Classic.matchKind, Classic.matchTitle] at h
  split at h <;> simp_all [Token.fresh, setMatched]

/-- Two texts with the same feature, in the same language. -/
theorem header_says {m m' : CState} (hm : m.Valid) (hm' : m'.Valid) {F F' : Layout.File} (hF : F.Ok m.defaultName) (hF' : F'.Ok m'.defaultName) (hh : F'.feature = F.feature)
    {name : Str} (hs : F.Speaks m.defaultName name) (hs' : F'.Speaks m'.defaultName name) {text text' : Str} (ht : splitLines text = F.texts) (ht' : splitLines text' = F'.texts)
    (b b' : BState) (stop stop' : Bool) :
    ∃ d d' f f', (parse (classicCfg astBuilder stop) text m b).1 = .ok (some d) ∧ (parse (classicCfg astBuilder stop') text' m' b').1 = .ok (some d') ∧
      d.feature = some f ∧ d'.feature = some f' ∧ f'.unplaced = f.unplaced ∧ f.language = some name := by
  obtain ⟨d, f, h1, h2, h3⟩ := layout_says hm hF ht b stop
  obtain ⟨d', f', h1', h2', h3'⟩ := layout_says hm' hF' ht' b' stop'
  obtain ⟨e, e1, e2⟩ := spoken_matcher hm hF hs
  obtain ⟨e', e1', e2'⟩ := spoken_matcher hm' hF' hs'
  have : e' = e := by rw [e1] at e1'; simpa using e1'.symm
  subst this
  have key : f'.unplaced = f.unplaced := by
    rw [h3, h3', hh, e2, e2']
    exact featureCst_by ⟨m.defaultName, name, e', 0, none⟩ m'.defaultName F.feature
  refine ⟨d, d', f, f', h1, h1', h2, h2', key, ?_⟩
  obtain ⟨l, _, hl, _⟩ := C49_descriptions stop text m hm b d h1 f h2
  have hl1 : f.unplaced.language = some l := hl
  rw [h3] at hl1
  have := title_dialect hl1
  rw [e2] at this
  rw [hl, this]

theorem names_kept (f : Feature) : f.unplaced.tags.map Tag.name = f.tags.map Tag.name := by
  simp [Feature.unplaced, Feature.change, Tag.change, Function.comp_def]

theorem cases_kept {e : Document} {g : Feature} (h : e.feature = some g) : e.cases.map Case.content = g.unplaced.cases.map Case.content := by
  simp only [Document.cases, h, Option.toList_some, List.flatMap_cons, List.flatMap_nil, List.append_nil]
  exact contents_unplaced g

/-! ### C84 -/

/-- **C84, the pickles.** Take two texts with the same feature in the same language: it is named by a language header, or it is the default of the matcher and there is no
header; comments and blank lines before the feature may differ. Both are read. Their features are in this language, and are the same except for positions; and so are the cases,
and, except for ids, the pickles: if one of them cannot be compiled, the other one cannot, for the same reason. -/
theorem C84_pickles {m m' : CState} (hm : m.Valid) (hm' : m'.Valid) {F F' : Layout.File} (hF : F.Ok m.defaultName) (hF' : F'.Ok m'.defaultName) (hh : F'.feature = F.feature)
    {name : Str} (hs : F.Speaks m.defaultName name) (hs' : F'.Speaks m'.defaultName name) {text text' : Str} (ht : splitLines text = F.texts) (ht' : splitLines text' = F'.texts)
    (b b' : BState) (stop stop' : Bool) :
    ∃ d d' f f', (parse (classicCfg astBuilder stop) text m b).1 = .ok (some d) ∧ (parse (classicCfg astBuilder stop') text' m' b').1 = .ok (some d') ∧
      d.feature = some f ∧ d'.feature = some f' ∧ f.language = some name ∧ f'.unplaced = f.unplaced ∧ d'.cases.map Case.content = d.cases.map Case.content ∧
      ∀ (eng : Engine) (uri : Str) (n k : Nat), (compile eng uri d' n).map (fun p => p.1.map Pickle.content) = (compile eng uri d k).map fun p => p.1.map Pickle.content := by
  obtain ⟨d, d', f, f', h1, h2, h3, h4, h5, h6⟩ := header_says hm hm' hF hF' hh hs hs' ht ht' b b' stop stop'
  exact ⟨d, d', f, f', h1, h2, h3, h4, h6, h5, by rw [cases_kept h4, cases_kept h3, h5], fun eng uri n k => compile_alike eng uri h4 h3 h5 n k⟩

/-- **C84, the suites.** Two files with the same feature in the same language build to the same suites, except for positions. -/
theorem C84_suite (eng : Engine) (printable : Char → Bool) (es : List DirEntry) (uri name : Str) (hn : suffix name ≠ py".md") (F F' : Layout.File) (hF : F.Ok py"en")
    (hF' : F'.Ok py"en") (hh : F'.feature = F.feature) (lang : Str) (hs : F.Speaks py"en" lang) (hs' : F'.Speaks py"en" lang)
    (text text' : Str) (ht : splitLines text = F.texts) (ht' : splitLines text' = F'.texts) (sets : List Setting) (tests : List Test) (fn : Option Str)
    (hb : build eng printable es uri name text = .ok (.suite sets tests, fn)) :
    ∃ tests', build eng printable es uri name text' = .ok (.suite sets tests', fn) ∧ tests'.map Test.unplaced = tests.map Test.unplaced := by
  obtain ⟨d, d', f, f', h1, h2, h3, h4, _, h5, h6, h7⟩ := C84_pickles (m := defaultMatcher) (m' := defaultMatcher) default_valid default_valid hF hF' hh hs hs' ht ht' newBuilder newBuilder false false
  rw [← classic_file hn] at h1 h2
  refine suite_same h1 h2 h3 h4 ?_ ?_ ?_ h6 (h7 eng uri 0 0) hb
  · rw [show f'.name = f'.unplaced.name from rfl, show f.name = f.unplaced.name from rfl, h5]
  · rw [← names_kept f', ← names_kept f, h5]
  · rw [← settings_unplaced es f', ← settings_unplaced es f, h5]

/-! ### The hypotheses can be met -/

namespace Sample

/-- The sample text without its language header; and with it, otherwise spaced, below comments. -/
def unheaded : Layout.File := { layout with language := none }
def headed : Layout.File := { layout with before := [py"# a shop\n", py"\n"], language := some ⟨py"  #language :  en  \n", [py"\n", py"# first\n"]⟩ }

/-- A matcher whose default is French. -/
def matcherFr : CState := matcher py"fr"

theorem unheaded_ok : unheaded.Ok py"en" := by
  obtain ⟨_, _, _, h⟩ := layout_en
  exact ⟨by intro s hs; simp [unheaded, layout] at hs, by intro s hs; simp [unheaded, layout] at hs, _, by decide +kernel, h⟩

theorem headed_ok : headed.Ok py"en" := by
  obtain ⟨name, h1, h2, h3⟩ := layout_en
  have h4 := languageName_iff.2 h1
  have h5 : Classic.languageName py"# language: en\n" = some py"en" := by decide +kernel
  rw [h5] at h4
  have h6 : name = py"en" := by simpa using h4.symm
  subst h6
  refine ⟨Layout.noiseB_ok (by decide +kernel), ?_, Layout.noiseB_ok (by decide +kernel), py"en", _, languageName_iff.1 (by decide +kernel), h2, h3⟩
  intro s hs name hn
  have := languageName_iff.2 hn
  have none' : ∀ s ∈ headed.before, Classic.languageName s = none := by decide +kernel
  rw [none' s hs] at this
  cases this

end Sample

/-- Both speak English. -/
example : Sample.unheaded.Speaks py"en" py"en" ∧ Sample.headed.Speaks py"en" py"en" ∧ Sample.headed.feature = Sample.unheaded.feature :=
  ⟨rfl, languageName_iff.1 (by decide +kernel), rfl⟩

/-- Only the one with a header does if the default is another language. -/
example : ¬ Sample.unheaded.Speaks py"fr" py"en" ∧ Sample.headed.Speaks py"fr" py"en" :=
  ⟨by intro h; exact absurd (show py"en" = py"fr" from h) (by decide), languageName_iff.1 (by decide +kernel)⟩

example : testsOf Sample.headed.texts.flatten = testsOf Sample.unheaded.texts.flatten ∧ (testsOf Sample.unheaded.texts.flatten).length = 3 := by decide +kernel

/-- Matchers with other default languages read the one with the header the same way. -/
example : ∃ d d' f f', (parse (classicCfg astBuilder false) Sample.headed.texts.flatten Sample.matcherFr newBuilder).1 = .ok (some d) ∧
    (parse (classicCfg astBuilder false) Sample.unheaded.texts.flatten defaultMatcher newBuilder).1 = .ok (some d') ∧
    d.feature = some f ∧ d'.feature = some f' ∧ f.language = some py"en" ∧ f'.unplaced = f.unplaced := by
  obtain ⟨d, d', f, f', h1, h2, h3, h4, h5, h6, _⟩ := C84_pickles (m := Sample.matcherFr) (m' := defaultMatcher) (F := Sample.headed) (F' := Sample.unheaded) (name := py"en")
    ⟨by decide +kernel, by decide +kernel⟩ default_valid Sample.headed_ok Sample.unheaded_ok rfl (languageName_iff.1 (by decide +kernel)) rfl
    (text := Sample.headed.texts.flatten) (text' := Sample.unheaded.texts.flatten) (by decide +kernel) (by decide +kernel) newBuilder newBuilder false false
  exact ⟨d, d', f, f', h1, h2, h3, h4, h5, h6⟩

end Gherkin
