import Verif.Props.Mirror
import Verif.Props.Reformat

/-! # C91 for Markdown files -/

namespace Gherkin

open Markdown Robot Pickles

/-- **C91, Markdown.** Two Markdown files that say line by line (C63) what two classic files say that differ in formatting only: one builds just if the other one does, wherever they are in
the directory, to the same suite, positions apart. -/
theorem C91_markdown (eng : Engine) (printable : Char → Bool) (es : List DirEntry) (uri uri' name name' : Str) (hn : suffix name = py".md") (hn' : suffix name' = py".md")
    (dl : Dialect) (hd : dialectFor py"en" = some dl) {F F' : Layout.File} (hF : F.Ok py"en") (hF' : F'.Ok py"en") (hs : Layout.SameFile F F') {text text' content content' : Str}
    (ht : splitLines text = F.texts) (ht' : splitLines text' = F'.texts) (hm : Mirrors dl .start F.texts (splitLines content)) (hm' : Mirrors dl .start F'.texts (splitLines content'))
    (hp : ∀ d, parseFile py"a.feature" text = .ok (some d) → ∀ p ∈ d.parts, p.2.2 = []) (hp' : ∀ d, parseFile py"a.feature" text' = .ok (some d) → ∀ p ∈ d.parts, p.2.2 = [])
    (sets : List Setting) (tests : List Test) (fn : Option Str) (hb : build eng printable es uri name content = .ok (.suite sets tests, fn)) :
    ∃ tests', build eng printable es uri' name' content' = .ok (.suite sets tests', fn) ∧ tests'.map Test.unplaced = tests.map Test.unplaced := by
  have hc : suffix py"a.feature" ≠ py".md" := by decide +kernel
  obtain ⟨d, d', _, _, h1, h2, _⟩ := C91_same_document (m := defaultMatcher) default_valid hF hF' hs ht ht' newBuilder false
  rw [← classic_file hc] at h1 h2
  obtain ⟨ts, b1, b2⟩ := C63_same_suite_back eng printable es uri uri py"a.feature" name text content hc hn dl hd (ht ▸ hm) d h1 (hp d h1) sets tests fn hb
  obtain ⟨ts', c1, c2⟩ := (C91_same_suite eng printable es uri py"a.feature" hc hF hF' hs ht ht' sets fn).1 ts b1
  obtain ⟨us, e1, e2⟩ := C63_same_suite eng printable es uri uri' py"a.feature" name' text' content' hc hn' dl hd (ht' ▸ hm') d' h2 (hp' d' h2) sets ts' fn c1
  exact ⟨us, e1, by rw [e2, c2, b2]⟩

/-! ### The hypotheses can be met -/

namespace Sample.FmtMd
open Layout Sample.Fmt

def short : Layout.File :=
  ⟨[], none, ⟨[], ⟨py"Feature: a\n", [], [], []⟩, none, [⟨[], ⟨py"  Scenario: b\n", [], [], []⟩, [⟨⟨py"    Given c\n", []⟩, .none⟩], []⟩], []⟩⟩

def long : Layout.File :=
  ⟨[], none, ⟨[], ⟨py"Feature:   a\n", [py"\n"], [], []⟩, none, [⟨[], ⟨py"Scenario:  b\n", [], [], []⟩, [⟨⟨py"\tGiven   c\n", []⟩, .none⟩], []⟩], []⟩⟩

theorem short_ok : short.Ok py"en" := by
  refine ⟨by intro s hs; simp [short] at hs, by intro s hs; simp [short] at hs, en.dialect, en_known, tagsB_ok (by decide +kernel), headB_ok (by decide +kernel), by simp [short], ?_, by simp [short]⟩
  intro s hs
  simp only [short, List.mem_singleton] at hs
  subst hs
  refine ⟨tagsB_ok (by decide +kernel), headB_ok (by decide +kernel), ?_, by simp⟩
  intro x hx
  simp only [List.mem_singleton] at hx
  subst hx
  exact ⟨lnB_ok (by decide +kernel), trivial⟩

theorem long_ok : long.Ok py"en" := by
  refine ⟨by intro s hs; simp [long] at hs, by intro s hs; simp [long] at hs, en.dialect, en_known, tagsB_ok (by decide +kernel), headB_ok (by decide +kernel), by simp [long], ?_, by simp [long]⟩
  intro s hs
  simp only [long, List.mem_singleton] at hs
  subst hs
  refine ⟨tagsB_ok (by decide +kernel), headB_ok (by decide +kernel), ?_, by simp⟩
  intro x hx
  simp only [List.mem_singleton] at hx
  subst hx
  exact ⟨lnB_ok (by decide +kernel), trivial⟩

theorem short_long : SameFile short long where
  language := .none
  tags := ⟨[], .nil, .nil⟩
  head := ⟨same_title [] py"Feature" py" " py"a" py"\n" [] py"   " py"\n" (by decide), rfl⟩
  background := .none
  scenarios := by
    refine .cons ⟨⟨[], .nil, .nil⟩, ⟨same_title py"  " py"Scenario" py" " py"b" py"\n" [] py"  " py"\n" (by decide), rfl⟩, .cons ⟨.inr (.inr ?_), .none⟩ .nil, .nil⟩ .nil
    exact ⟨py"    ", py"Given ", [], py"c", py"\n", py"\t", py"  ", py"\n", by unfold White; decide, by simp [White], by unfold White; decide, by unfold White; decide, by unfold White; decide,
      by unfold White; decide, ⟨'G', rfl, rfl⟩, rfl, rfl, fun name d hd => only_one (by decide +kernel) name d hd⟩
  rules := .nil

def shortMd : Str := py"# Feature: a
## Scenario: b
- Given c
"

def longMd : Str := py"# Feature:   a
Some words.
### Scenario:  b
* Given   c
"

theorem title (w w' kw rest : Str) (n : Nat) (ks : List Str) (h1 : White w) (h2 : White w') (h3 : kw ∈ ks) (h4 : 1 ≤ n) (h5 : n ≤ 6)
    (h6 : '`' ∉ w' ++ (List.replicate n '#' ++ ' ' :: (kw ++ ':' :: rest))) :
    TitleLines en.dialect ks (w ++ (kw ++ ':' :: rest)) (w' ++ (List.replicate n '#' ++ ' ' :: (kw ++ ':' :: rest))) :=
  ⟨w, w', kw, rest, n, ' ', h1, h2, h3, h4, h5, by decide, rfl, rfl, Md.no_tick_tags h6⟩

theorem step (w kw rest : Str) (b : Char) (h1 : White w) (h2 : kw ∈ en.dialect.given ++ en.dialect.when_ ++ en.dialect.then_ ++ en.dialect.and_ ++ en.dialect.but_)
    (h3 : kw ≠ bullet) (h4 : b = '*' ∨ b = '+' ∨ b = '-') (h5 : '`' ∉ b :: ([' '] ++ (kw ++ rest))) : StepLines en.dialect (w ++ (kw ++ rest)) (b :: ([' '] ++ (kw ++ rest))) :=
  ⟨w, [], kw, rest, b, [' '], h1, by simp [White], h2, h3, h4, by unfold White; decide, rfl, rfl, Md.no_tick_tags h5⟩

theorem short_mirrors : Mirrors en.dialect .start short.texts (splitLines shortMd) := by
  have e1 : short.texts = [py"Feature: a\n", py"  Scenario: b\n", py"    Given c\n"] := by decide +kernel
  have e2 : splitLines shortMd = [py"# Feature: a\n", py"## Scenario: b\n", py"- Given c\n"] := by decide +kernel
  rw [e1, e2]
  refine .feature (title [] [] py"Feature" py" a\n" 1 _ ?_ ?_ ?_ ?_ ?_ ?_) (.line (.title (title py"  " [] py"Scenario" py" b\n" 2 _ ?_ ?_ ?_ ?_ ?_ ?_))
    (.line (.step (step py"    " py"Given " py"c\n" '-' ?_ ?_ ?_ ?_ ?_)) .done))
  all_goals first
    | (unfold White; decide)
    | decide +kernel

theorem long_mirrors : Mirrors en.dialect .start long.texts (splitLines longMd) := by
  have e1 : long.texts = [py"Feature:   a\n", py"\n", py"Scenario:  b\n", py"\tGiven   c\n"] := by decide +kernel
  have e2 : splitLines longMd = [py"# Feature:   a\n", py"Some words.\n", py"### Scenario:  b\n", py"* Given   c\n"] := by decide +kernel
  rw [e1, e2]
  refine .feature (title [] [] py"Feature" py"   a\n" 1 _ ?_ ?_ ?_ ?_ ?_ ?_) (.line (.prose ⟨?_, prose_of ?_ ?_, ?_, ?_⟩) (.line (.title (title [] [] py"Scenario" py"  b\n" 3 _ ?_ ?_ ?_ ?_ ?_ ?_))
    (.line (.step (step py"\t" py"Given " py"  c\n" '*' ?_ ?_ ?_ ?_ ?_)) .done)))
  all_goals first
    | (unfold White; decide)
    | decide +kernel
    | (intro c hc; revert c; decide +kernel)

/-- No part of the document has a description. -/
def bareB (text : Str) : Bool := match parseFile py"a.feature" text with
  | .ok (some d) => d.parts.all fun p => p.2.2.isEmpty
  | _ => true

theorem bare {text : Str} (h : bareB text = true) : ∀ d, parseFile py"a.feature" text = .ok (some d) → ∀ p ∈ d.parts, p.2.2 = [] := by
  intro d hd p hp
  unfold bareB at h
  rw [hd] at h
  simp only [List.all_eq_true] at h
  simpa using h p hp

/-- The Markdown files build to the same suite. -/
example (eng : Engine) (printable : Char → Bool) (es : List DirEntry) (uri uri' : Str) (sets : List Setting) (tests : List Test) (fn : Option Str)
    (hb : build eng printable es uri py"a.feature.md" shortMd = .ok (.suite sets tests, fn)) :
    ∃ tests', build eng printable es uri' py"b.feature.md" longMd = .ok (.suite sets tests', fn) ∧ tests'.map Test.unplaced = tests.map Test.unplaced :=
  C91_markdown eng printable es uri uri' _ _ (by decide +kernel) (by decide +kernel) en.dialect en_known short_ok long_ok short_long (text := short.texts.flatten)
    (text' := long.texts.flatten) (by decide +kernel) (by decide +kernel) short_mirrors long_mirrors (bare (by decide +kernel)) (bare (by decide +kernel)) sets tests fn hb

example : ∃ sets tests fn, build Sample.noEngine (fun _ => true) [] [] py"a.feature.md" shortMd = .ok (.suite sets tests, fn) ∧ tests.length = 1 := by
  have : (match build Sample.noEngine (fun _ => true) [] [] py"a.feature.md" shortMd with | .ok (.suite _ tests, _) => tests.length | _ => 0) = 1 := by decide +kernel
  revert this
  split
  · rename_i h; intro hl; exact ⟨_, _, _, h, hl⟩
  · intro h; simp at h

end Sample.FmtMd

end Gherkin
