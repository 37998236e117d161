import Verif.Proofs.IndentDoc
import Verif.Props.Mirror

/-! # C72: indentation does not matter -/

namespace Gherkin

open Robot Pickles

/-- **C72.** Take an accepted text and change the white space at the beginning of its lines (`Reindented`, Spec/Indent.lean): the lines of descriptions stay
as they are, the content of a doc string keeps its place relative to the opening line, everything else may be moved freely. The new text is accepted, and its
feature is the same: the same titles, tags, steps, tables, doc strings, descriptions and ids, in the same order and in the same lines; only columns differ.
For every valid matcher, every state of the builder and both error modes. -/
theorem C72_indentation (m : CState) (hm : m.Valid) (stop : Bool) (text text' : Str) (b : BState) (doc : Document)
    (h : (parse ⟨classic, astBuilder, stop⟩ text m b).1 = .ok (some doc)) (hre : Reindented text doc text') :
    ∃ doc', (parse ⟨classic, astBuilder, stop⟩ text' m b).1 = .ok (some doc') ∧
      doc'.feature.map Feature.uncolumned = doc.feature.map Feature.uncolumned :=
  reindent_parse hm h hre

/-- **C72, the pickles.** The pickles of the two texts are the same. -/
theorem C72_same_pickles (m : CState) (hm : m.Valid) (stop : Bool) (text text' : Str) (b : BState) (doc : Document)
    (h : (parse ⟨classic, astBuilder, stop⟩ text m b).1 = .ok (some doc)) (hre : Reindented text doc text') :
    ∃ doc', (parse ⟨classic, astBuilder, stop⟩ text' m b).1 = .ok (some doc') ∧ ∀ eng uri, compile eng uri doc' = compile eng uri doc := by
  obtain ⟨doc', h1, h2⟩ := reindent_parse hm h hre
  refine ⟨doc', h1, fun eng uri => ?_⟩
  rw [← compile_change (g := ⟨fun l => ⟨l.line, none⟩, fun i => i, fun s => s⟩) (fun _ => rfl) eng uri doc' ⟨doc'.feature.map Feature.uncolumned, []⟩ rfl,
    ← compile_change (g := ⟨fun l => ⟨l.line, none⟩, fun i => i, fun s => s⟩) (fun _ => rfl) eng uri doc ⟨doc.feature.map Feature.uncolumned, []⟩ rfl, h2]

/-- **C72, the suites.** If a `.feature` file builds to a suite, so does the file indented in another way: same name, same settings, same tests except for
their positions. -/
theorem C72_same_suite (eng : Engine) (printable : Char → Bool) (es : List DirEntry) (uri name content content' : Str)
    (hn : suffix name ≠ py".md") (doc : Document) (h : parseFile name content = .ok (some doc)) (hre : Reindented content doc content')
    (sets : List Setting) (tests : List Test) (fn : Option Str) (hb : build eng printable es uri name content = .ok (.suite sets tests, fn)) :
    ∃ tests', build eng printable es uri name content' = .ok (.suite sets tests', fn) ∧ tests'.map Test.unplaced = tests.map Test.unplaced := by
  have hp : (parse ⟨classic, astBuilder, false⟩ content defaultMatcher newBuilder).1 = .ok (some doc) := by
    unfold parseFile at h; rw [if_neg hn] at h; exact h
  obtain ⟨doc', e1, e2⟩ := reindent_parse ⟨by decide +kernel, by decide +kernel⟩ hp hre
  have h' : parseFile name content' = .ok (some doc') := by unfold parseFile; rw [if_neg hn]; exact e1
  exact suite_uncolumned eng printable es uri uri name name content content' doc doc' h h' e2 sets tests fn hb

/-! ### The hypotheses can be met -/

/-- `Sample.blocks`, indented in another way. -/
def Sample.blocksMoved : Str := py"   
      # a comment
# language : en
  Feature: f

  first line
    Given no step

 # another comment
    Scenario: s
Given x
  ```json
  # no comment
    Scenario: no scenario
  \"\"\"
  @tag
a \\`\\`\\` b
        ```
"

theorem Sample.blocks_moved : Reindented Sample.blocks Sample.blocksDoc Sample.blocksMoved := by
  refine ⟨by decide +kernel, ?_, ?_⟩
  · rintro n ⟨f, name, dialect, h1, h2, h3, p, loc, s, hp, l, hl, rfl⟩ s' hs'
    have hf : Sample.blocksDoc.feature.bind (·.language) = some py"en" := by decide +kernel
    rw [h1] at hf
    simp only [Option.bind_some] at hf
    rw [h2] at hf
    simp only [Option.some.injEq] at hf
    subst hf
    have hd : dialect = Sample.en.dialect := by
      have : dialects.lookup py"en" = some Sample.en.dialect := by decide +kernel
      rw [h3] at this; simpa using this
    subst hd
    have hparts : ∀ x ∈ Sample.blocksDoc.parts, ∀ l ∈ descriptionLines Sample.en.dialect Sample.blocks x.1 x.2.1.line,
        (splitLines Sample.blocksMoved)[l.number - 1]? = (splitLines Sample.blocks)[l.number - 1]? := by decide +kernel
    exact ⟨hs'.1, (hparts _ hp _ hl).trans hs'.2⟩
  · intro x hx delim hdelim l hl o o' s' ho ho' hs'
    have : Sample.blocksDoc.docStrings = [Sample.blocksString] := by decide +kernel
    rw [this, List.mem_singleton] at hx
    subst hx
    simp only [Sample.blocksString, Option.some.injEq] at hdelim hl ho ho'
    subst hdelim
    have h1 : o = py"    ```json\n" := by
      have : (splitLines Sample.blocks)[12 - 1]? = some py"    ```json\n" := by decide +kernel
      exact Option.some.inj (ho.2.symm.trans this)
    have h2 : o' = py"  ```json\n" := by
      have : (splitLines Sample.blocksMoved)[12 - 1]? = some py"  ```json\n" := by decide +kernel
      exact Option.some.inj (ho'.2.symm.trans this)
    subst h1; subst h2
    have key : ∀ l ∈ docBody Sample.blocks 12 py"```", ((splitLines Sample.blocksMoved)[l.number - 1]?).map (outdent 2) = some (outdent 4 l.text) := by decide +kernel
    have := key l hl
    rw [hs'.2, Option.map_some] at this
    exact Option.some.inj this

example : ∃ doc', (parse ⟨classic, astBuilder, false⟩ Sample.blocksMoved Sample.en Sample.fresh).1 = .ok (some doc') ∧
    doc'.feature.map Feature.uncolumned = Sample.blocksDoc.feature.map Feature.uncolumned :=
  C72_indentation Sample.en ⟨by decide +kernel, by decide +kernel⟩ false Sample.blocks Sample.blocksMoved Sample.fresh Sample.blocksDoc (by decide +kernel) Sample.blocks_moved

/-- The code points of the characters with the Unicode property White_Space or a separating bidirectional class, which `str.isspace` accepts. -/
def whiteSpacePoints : List Nat :=
  [0x09, 0x0A, 0x0B, 0x0C, 0x0D, 0x1C, 0x1D, 0x1E, 0x1F, 0x20, 0x85, 0xA0, 0x1680, 0x2000, 0x2001, 0x2002, 0x2003, 0x2004, 0x2005, 0x2006, 0x2007, 0x2008,
    0x2009, 0x200A, 0x2028, 0x2029, 0x202F, 0x205F, 0x3000]

/-- **C72, white space.** What counts as white space: these 29 characters and no others. -/
theorem C72_white_space (c : Char) : isSpace c = true ↔ c.toNat ∈ whiteSpacePoints := by
  simp only [isSpace, whiteSpacePoints, Bool.or_eq_true, Bool.and_eq_true, decide_eq_true_eq, beq_iff_eq, List.mem_cons, List.not_mem_nil, or_false]
  omega

/-- The condition on descriptions cannot be dropped: they keep their indentation. -/
theorem C72_description_moved :
    let read t := ((parse ⟨classic, astBuilder, false⟩ t Sample.en Sample.fresh).1.toOption.getD none).bind fun d => d.feature.map (·.description)
    read py"Feature: f\n  words\n" = some py"  words" ∧ read py"Feature: f\n    words\n" = some py"    words" := by decide +kernel

/-- Nor can the one on doc strings: when only the opening line moves, the content changes. -/
theorem C72_docstring_moved :
    let read t := ((parse ⟨classic, astBuilder, false⟩ t Sample.en Sample.fresh).1.toOption.getD none).map fun d => d.docStrings.map (·.content)
    read py"Feature: f\nScenario: s\n  * x\n  ```\n    a\n  ```\n" = some [py"  a"] ∧
    read py"Feature: f\nScenario: s\n  * x\n    ```\n    a\n  ```\n" = some [py"a"] := by decide +kernel

end Gherkin
