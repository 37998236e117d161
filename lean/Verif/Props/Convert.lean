import Verif.Proofs.Uri
import Verif.Props.Rewrite
import Verif.Props.MdPrint
import Verif.Spec.Convert

/-! # C90: from a classic file to a Markdown file, and to another place -/

namespace Gherkin

open Pickles Robot Auto

theorem settings_es {es es' : List DirEntry} (h : Files.resourceImports es' = Files.resourceImports es) (f : Feature) : settings es' f = settings es f := by
  unfold settings; rw [h]

/-- **C90, moving a file.** A file gives the same suite, except for positions, under any name of the same kind and at any path, if there are the same resource files beside it. -/
theorem C90_move (eng : Engine) (printable : Char → Bool) (es es' : List DirEntry) (uri uri' name name' text : Str) (hk : SameKind suffix name name')
    (he : Files.resourceImports es' = Files.resourceImports es) (sets : List Setting) (tests : List Test) (fn : Option Str)
    (hb : build eng printable es uri name text = .ok (.suite sets tests, fn)) :
    ∃ tests', build eng printable es' uri' name' text = .ok (.suite sets tests', fn) ∧ tests'.map Test.unplaced = tests.map Test.unplaced := by
  obtain ⟨d, f, ps, n, g1, g2, _⟩ := build_suite hb
  have g1' : parseFile name' text = .ok (some d) := by
    rw [← g1]
    unfold parseFile
    by_cases h : suffix name = py".md"
    · rw [if_pos h, if_pos (hk.1 h)]
    · rw [if_neg h, if_neg (fun h' => h (hk.2 h'))]
  exact suite_same_anywhere g1 g1' g2 g2 rfl rfl (settings_es he f) rfl rfl hb

/-- **C90, converting.** Take a classic text that is read, write its feature as a Markdown text, in any style, and read this with a Markdown matcher for the feature's language: it is
the same feature except for positions and ids, with the same cases and pickles; and written as a classic text again it is the text that the feature read at first is written as. -/
theorem C90_convert {m : CState} (hm : m.Valid) {text : Str} {b : BState} {stop : Bool} {d : Document} {f : Feature}
    (h : (parse ⟨classic, astBuilder, stop⟩ text m b).1 = .ok (some d)) (hf : d.feature = some f) (hw : d.Rewritable) (hb : MdPrintable.Beyond f)
    {lang : Str} (hl : f.language = some lang) {y : MdStyle} (hy : y.Ok) {m' : MdState} (hm' : MdState.new lang = some m') (b' : BState) (stop' : Bool) :
    ∃ d' f', (parse ⟨markdown, astBuilder, stop'⟩ (MdPrint.text y f) m' b').1 = .ok (some d') ∧ d'.feature = some f' ∧ f'.unplaced = f.unplaced ∧
      d'.cases.map Case.content = d.cases.map Case.content ∧
      (∀ (eng : Engine) (uri : Str) (n k : Nat), (compile eng uri d' n).map (fun p => p.1.map Pickle.content) = (compile eng uri d k).map fun p => p.1.map Pickle.content) ∧
      ∀ z : Style, Print.text z f' = Print.text z f := by
  obtain ⟨d', f', h1, h2, h3⟩ := C87_round_trip hm' hy hl ⟨C88_printable hm h hf hw, hb⟩ b' stop'
  exact ⟨d', f', h1, h2, h3, by rw [cases_kept h2, cases_kept hf, h3], fun eng uri n k => compile_alike eng uri h2 hf h3 n k,
    fun z => by rw [← Print.text_unplaced z f', ← Print.text_unplaced z f, h3]⟩

/-- **C90, the suites.** An English feature file that gives a suite, and the Markdown file with its feature, anywhere with the same resource files beside it, give the same suite except
for positions. -/
theorem C90_suite (eng : Engine) (printable : Char → Bool) (es es' : List DirEntry) (uri uri' name name' text : Str) (hn : suffix name ≠ py".md") (hn' : suffix name' = py".md")
    (he : Files.resourceImports es' = Files.resourceImports es) (d : Document) (f : Feature) (hd : parseFile name text = .ok (some d)) (hf : d.feature = some f) (hw : d.Rewritable)
    (hl : f.language = some py"en") (hmd : MdPrintable.Beyond f) {y : MdStyle} (hy : y.Ok)
    (sets : List Setting) (tests : List Test) (fn : Option Str) (hb : build eng printable es uri name text = .ok (.suite sets tests, fn)) :
    ∃ tests', build eng printable es' uri' name' (MdPrint.text y f) = .ok (.suite sets tests', fn) ∧ tests'.map Test.unplaced = tests.map Test.unplaced := by
  have h1 := hd
  rw [classic_file hn] at h1
  have hm : MdState.new py"en" = some defaultMarkdown := by
    obtain ⟨name, d, e1, e2, _⟩ := C88_printable default_valid h1 hf hw
    rw [hl] at e1; cases e1
    unfold defaultMarkdown MdState.new; rw [e2]; rfl
  obtain ⟨d', f', h2, h4, h5, h6, h7, _⟩ := C90_convert default_valid h1 hf hw hmd hl hy hm newBuilder false
  rw [← markdown_file hn'] at h2
  refine suite_same_anywhere hd h2 hf h4 ?_ ?_ ?_ h6 (h7 eng uri 0 0) hb
  · rw [show f'.name = f'.unplaced.name from rfl, show f.name = f.unplaced.name from rfl, h5]
  · rw [← names_kept f', ← names_kept f, h5]
  · rw [settings_es he, ← settings_unplaced es f', ← settings_unplaced es f, h5]

/-! ### The hypotheses can be met -/

namespace Sample

/-- A classic text without descriptions. -/
def plainText : Str := py"# a comment\n@web  @slow\nFeature:  Shop\n\n  Scenario Outline:buy <x>\n   Given   a user\n | a|b \\| |\n  Examples:\n|x|\n  | egg|\n"

def markdownOf (text : Str) : Str := (((documentOf text).bind (·.feature)).map (MdPrint.text mdStyle)).getD []

example : markdownOf plainText = py"`@web` `@slow`
# Feature: Shop
## Scenario Outline: buy <x>
  - Given a user
    | a | b \\| |
### Examples: 
    | x |
    | egg |
" := by decide +kernel

end Sample

/-- The feature of the text. -/
def Sample.plainFeature : Feature where
  tags := [⟨6, ⟨2, some 1⟩, py"@web"⟩, ⟨7, ⟨2, some 7⟩, py"@slow"⟩]
  loc := ⟨3, some 1⟩
  language := some py"en"
  keyword := some py"Feature"
  name := some py"Shop"
  description := []
  children := [
    .scenario ⟨5, [], ⟨5, some 3⟩, some py"Scenario Outline", some py"buy <x>", [],
      [⟨1, ⟨6, some 4⟩, some py"Given ", some .context, some py"a user",
        .table ⟨⟨7, some 2⟩, [⟨0, ⟨7, some 2⟩, [⟨⟨7, some 4⟩, py"a"⟩, ⟨⟨7, some 6⟩, py"b |"⟩]⟩]⟩⟩],
      [⟨4, [], ⟨8, some 3⟩, some py"Examples", some [], [], some ⟨2, ⟨9, some 1⟩, [⟨⟨9, some 2⟩, py"x"⟩]⟩, [⟨3, ⟨10, some 3⟩, [⟨⟨10, some 5⟩, py"egg"⟩]⟩]⟩]⟩]

theorem Sample.plain_beyond : MdPrintable.Beyond Sample.plainFeature := by
  refine ⟨by unfold MdPrintable.Tags; decide, ⟨by unfold MdPrintable.NoTag; decide, rfl⟩, ?_⟩
  intro x hx
  simp only [Sample.plainFeature, List.mem_singleton] at hx
  subst hx
  refine ⟨by unfold MdPrintable.Tags; decide, ⟨by unfold MdPrintable.NoTag; decide, rfl⟩, ?_, ?_⟩
  · intro x hx
    simp only [List.mem_singleton] at hx
    subst hx
    refine ⟨by decide, by unfold MdPrintable.NoTag; decide, Sample.md_rows ?_⟩
    intro r hr c hc
    simp only [List.mem_singleton] at hr
    subst hr
    simp only [List.mem_cons, List.not_mem_nil, or_false] at hc
    rcases hc with rfl | rfl <;> exact ⟨by decide, .inr (by decide)⟩
  · intro x hx
    simp only [List.mem_singleton] at hx
    subst hx
    refine ⟨by unfold MdPrintable.Tags; decide, ⟨by unfold MdPrintable.NoTag; decide, rfl⟩, Sample.md_rows ?_⟩
    intro r hr c hc
    simp only [Option.toList_some, List.singleton_append, List.mem_cons, List.not_mem_nil, or_false] at hr
    rcases hr with rfl | rfl
    · simp only [List.mem_singleton] at hc
      subst hc
      exact ⟨by decide, .inr (by decide)⟩
    · simp only [List.mem_singleton] at hc
      subst hc
      exact ⟨by decide, .inr (by decide)⟩

/-- Every hypothesis of C90 is met by the text. -/
example : ∃ d f, (parse (classicCfg astBuilder false) Sample.plainText defaultMatcher newBuilder).1 = .ok (some d) ∧ d.feature = some f ∧ d.Rewritable ∧
    f.language = some py"en" ∧ MdPrintable.Beyond f := by
  have h : ((Sample.documentOf Sample.plainText).bind (·.feature)) = some Sample.plainFeature := by decide +kernel
  unfold Sample.documentOf at h
  rcases hp : (parse (classicCfg astBuilder false) Sample.plainText defaultMatcher newBuilder).1 with e | o
  · rw [hp] at h; simp at h
  · rw [hp] at h
    obtain ⟨d, h3, h4⟩ := Option.bind_eq_some_iff.1 h
    simp only at h3
    subst h3
    refine ⟨d, _, rfl, h4, C88_apart ?_, rfl, Sample.plain_beyond⟩
    intro g hg name hn dl hdl
    rw [h4] at hg
    obtain rfl : Sample.plainFeature = g := Option.some.inj hg
    obtain rfl : py"en" = name := Option.some.inj hn
    have : dialectFor py"en" = some Sample.enD := by decide +kernel
    rw [this] at hdl
    obtain rfl : Sample.enD = dl := Option.some.inj hdl
    exact Sample.en_apart

end Gherkin
