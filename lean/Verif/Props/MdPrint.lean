import Verif.Proofs.MdPrintMir
import Verif.Proofs.ChangeTwice
import Verif.Props.Runs
import Verif.Props.Mirror

/-! # C87: a feature written in Markdown is read back, and run -/

namespace Gherkin

open Auto Robot Markdown

theorem unplaced_of_uncolumned {f g : Feature} (h : f.uncolumned = g.uncolumned) : f.unplaced = g.unplaced := by
  have key : ∀ f : Feature, f.unplaced = f.uncolumned.unplaced := fun f =>
    (Feature.twice ⟨fun l => ⟨l.line, none⟩, fun i => i, fun s => s⟩ ⟨fun _ => .zero, fun _ => 0, fun s => s⟩ f).symm
  rw [key f, key g, h]

/-- The classic text without language header, read by a matcher for the language. -/
theorem headerless {lang : Str} {d : Dialect} {m : CState} (hd : dialectFor lang = some d) (hm : CState.new lang = some m) (y : MdStyle) {f : Feature}
    (hl : f.language = some lang) (hf : Printable.Feature f) (b : BState) (stop : Bool) :
    ∃ doc g, (parse (classicCfg astBuilder stop) (MdPrint.classicLines y f).flatten m b).1 = .ok (some doc) ∧ doc.feature = some g ∧ g.unplaced = f.unplaced := by
  have hfull := MdPrint.classic_fulls y hf
  obtain ⟨name, d', e1, e2, h0, h1, h2, bg, ss, rs, hch, h3, h4, h5⟩ := hf
  rw [hl] at e1; cases e1
  rw [hd] at e2; cases e2
  have hv := CState.new_valid hm
  have hm0 : m = { defaultName := lang, dialectName := lang, dialect := d, indentToRemove := 0, active := none } := by
    simp only [CState.new, hd, Option.map_some, Option.some.injEq] at hm
    exact hm.symm
  have hc := reset_calm hv
  have hr : Classic.reset m = m := by rw [hm0]; simp [Classic.reset]
  rw [hr] at hc
  subst hm0
  obtain ⟨F, g1, g2, g3⟩ := Print.pFeature hc (MdPrint.plainStyle y) h0 h1 h2 hch h3 h4 h5 hl
  let file : Layout.File := ⟨[], none, F⟩
  have hok : file.Ok lang := ⟨Print.noise_nil, by intro s hs; simp [file] at hs, d, hd, g2⟩
  have ht : splitLines (MdPrint.classicLines y f).flatten = file.texts := by
    rw [Print.split_fulls hfull]
    simp [file, Layout.File.texts, g1, MdPrint.classicLines]
  obtain ⟨_, cm, h⟩ := file_parses hv hok ht b stop
  refine ⟨_, _, h, rfl, ?_⟩
  rw [hr]
  exact g3 _ _ _

/-- What can be written in Markdown has no descriptions. -/
theorem md_no_descriptions {f : Feature} (h : MdPrintable.Feature f) : ∀ p ∈ f.parts, p.2.2 = [] := by
  obtain ⟨_, _, h1, h2⟩ := h
  have bg : ∀ b : Background, MdPrintable.Background b → ∀ p ∈ b.parts, p.2.2 = [] := by
    intro b hb p hp
    simp only [Background.parts, List.mem_singleton] at hp
    subst hp; exact hb.1.2
  have sc : ∀ s : Scenario, MdPrintable.Scenario s → ∀ p ∈ s.parts, p.2.2 = [] := by
    intro s hs p hp
    simp only [Scenario.parts, List.mem_cons, List.mem_flatMap] at hp
    rcases hp with rfl | ⟨e, he, hp⟩
    · exact hs.2.1.2
    · simp only [Examples.parts, List.mem_singleton] at hp
      subst hp; exact (hs.2.2.2 e he).2.1.2
  intro p hp
  simp only [Feature.parts, List.mem_cons, List.mem_flatMap] at hp
  rcases hp with rfl | ⟨c, hc, hp⟩
  · exact h1.2
  · have hx := h2 c hc
    cases c with
    | background b => exact bg b hx p hp
    | scenario s => exact sc s hx p hp
    | rule r =>
      simp only [FeatureChild.parts, RuleNode.parts, List.mem_cons, List.mem_flatMap] at hp
      rcases hp with rfl | ⟨x, hm, hp⟩
      · exact hx.2.1.2
      · have := hx.2.2 x hm
        cases x with
        | background b => exact bg b this p hp
        | scenario s => exact sc s this p hp

/-- **C87.** Write any feature that can be written in Markdown at all as a Markdown text, with headings of any level, any list marker and any indentation, and parse the text
with a Markdown matcher for the feature's language: the parser accepts it, in both error modes, and the document has the same feature again: the same language, tags, keywords,
names, steps, tables, doc strings, examples and rules, in the same order, nothing more and nothing less; only locations and ids are new. -/
theorem C87_round_trip {lang : Str} {m : MdState} (hm : MdState.new lang = some m) {y : MdStyle} (hy : y.Ok) {f : Feature} (hl : f.language = some lang)
    (hf : MdPrintable.Feature f) (b : BState) (stop : Bool) :
    ∃ d g, (parse ⟨markdown, astBuilder, stop⟩ (MdPrint.text y f) m b).1 = .ok (some d) ∧ d.feature = some g ∧ g.unplaced = f.unplaced := by
  obtain ⟨d, hd⟩ : ∃ d, dialectFor lang = some d := by
    obtain ⟨⟨name, d, e1, e2, _⟩, _⟩ := hf
    rw [hl] at e1; cases e1
    exact ⟨d, e2⟩
  obtain ⟨mc, hc⟩ : ∃ mc, CState.new lang = some mc := by simp [CState.new, hd]
  obtain ⟨doc, g, k1, k2, k3⟩ := headerless hd hc y hl hf.1 b stop
  have hmir := MdPrint.feature_mir hd hy hl hf
  rw [← Print.split_fulls (MdPrint.classic_fulls y hf.1), ← Print.split_fulls (MdPrint.feature_fulls hy hf.1)] at hmir
  have hdesc : ∀ p ∈ doc.parts, p.2.2 = [] := by
    intro p hp
    simp only [Document.parts, k2, Option.toList_some, List.flatMap_cons, List.flatMap_nil, List.append_nil] at hp
    have e : g.parts.map (·.2.2) = f.parts.map (·.2.2) := by
      have a := parts_change ⟨fun _ => .zero, fun _ => 0, fun s => s⟩ g
      have b := parts_change ⟨fun _ => .zero, fun _ => 0, fun s => s⟩ f
      rw [← Feature.unplaced] at a b
      rw [← a, ← b, k3]
    have : p.2.2 ∈ g.parts.map (·.2.2) := List.mem_map.2 ⟨p, hp, rfl⟩
    rw [e] at this
    obtain ⟨q, hq, e⟩ := List.mem_map.1 this
    rw [← e]; exact md_no_descriptions hf q hq
  obtain ⟨doc', r1, r2⟩ := C63_markdown_mirrors_classic lang d mc m stop _ _ b doc hd hc hm hmir k1 hdesc
  rw [k2] at r2
  cases hx : doc'.feature with
  | none => rw [hx] at r2; simp at r2
  | some g' =>
    rw [hx] at r2
    simp only [Option.map_some, Option.some.injEq] at r2
    exact ⟨doc', g', r1, hx, (unplaced_of_uncolumned r2).trans k3⟩

/-- **C87, what runs.** Write an English feature that can be written in Markdown into a file whose name ends with `.md`, and run it: Robot Framework gets a suite with the
feature's name and tags, and exactly one test per case of the feature, with its name, tags and calls, just as for a classic file (C61). -/
theorem C87_what_runs (eng : Engine) (printable : Char → Bool) (es : List DirEntry) (uri name : Str) (hn : suffix name = py".md")
    {y : MdStyle} (hy : y.Ok) {f : Feature} (hl : f.language = some py"en") (hf : MdPrintable.Feature f) (hp : (Document.mk (some f) []).PlainExamples) :
    ∃ sets tests, build eng printable es uri name (MdPrint.text y f) = .ok (.suite sets tests, f.name) ∧ SettingsFor f sets ∧
      List.Forall₂ (fun (c : Case) (t : Test) => TestFor f c t) f.cases tests := by
  have hm : MdState.new py"en" = some defaultMarkdown := by
    obtain ⟨⟨name, d, e1, e2, _⟩, _⟩ := hf
    rw [hl] at e1; cases e1
    unfold defaultMarkdown MdState.new; rw [e2]; rfl
  obtain ⟨d, g, h1, h2, h3⟩ := C87_round_trip hm hy hl hf newBuilder false
  have h1' : parseFile name (MdPrint.text y f) = .ok (some d) := by rw [parseFile, if_pos hn]; exact h1
  obtain ⟨gf, cm⟩ := d
  simp only at h2
  subst h2
  let u : Change := ⟨fun _ => .zero, fun _ => 0, fun s => s⟩
  have hu : u.description = id := rfl
  have h3' : g.change u = f.change u := h3
  obtain ⟨sets, tests, r1, r2, r3⟩ := C61_what_runs eng printable es uri name _ _ g h1' rfl (by
    rw [← plain_change u g cm [], h3', plain_change u f []]; exact hp)
  have hname : g.name = f.name := by
    have := congrArg Feature.name h3'
    exact this
  refine ⟨sets, tests, by rw [r1, hname], ?_, ?_⟩
  · rw [← settingsFor_change u hu, ← h3', settingsFor_change u hu]; exact r2
  · have r4 : List.Forall₂ (fun (c : Case) (t : Test) => TestFor g c t) g.cases tests := by simpa [Document.cases] using r3
    have r5 : List.Forall₂ (fun (c : Case) (t : Test) => TestFor (f.change u) c t) (g.cases.map (Case.change u)) tests := by
      rw [forall₂_of_map]
      exact r4.imp fun c t ht => by rw [← h3']; exact (testFor_change u hu g c t).2 ht
    rw [← cases_change, h3', cases_change, forall₂_of_map] at r5
    exact r5.imp fun c t ht => (testFor_change u hu f c t).1 ht

/-! ### The hypotheses can be met -/

theorem no_dashes {s : Str} (h : s = [] ∨ ∃ x ∈ s, x ≠ '-' ∧ x ≠ ':' ∧ x ≠ '\n') : ∀ v e, s = v ++ e → (e = [] ∨ e = ['\n']) → ¬ Markdown.Dashes v := by
  rintro v e rfl he ⟨a, n, b, ha, hb, rfl⟩
  rcases h with h | ⟨x, hx, h1, h2, h3⟩
  · simp [List.replicate_succ] at h
  · simp only [List.mem_append, List.mem_replicate] at hx
    rcases hx with ((hx | hx) | hx) | hx
    · rcases ha with rfl | rfl
      · simp at hx
      · simp at hx; exact h2 hx
    · exact h1 hx.2
    · rcases hb with rfl | rfl
      · simp at hx
      · simp at hx; exact h2 hx
    · rcases he with rfl | rfl
      · simp at hx
      · simp at hx; exact h3 hx

namespace Sample

/-- An English feature with tags, a background, an outline with a doc string and a table, and a rule. -/
def mdShop : Feature where
  tags := [aTag py"@web", aTag py"@slow#1"]
  loc := nowhere
  language := some py"en"
  keyword := some py"Feature"
  name := some py"The shop"
  description := []
  children := [
    .background ⟨0, nowhere, some py"Background", some [], [], [aStep .context py"Given " py"a `user`" .none]⟩,
    .scenario ⟨0, [aTag py"@x"], nowhere, some py"Scenario Outline", some py"buy <what>", [],
      [aStep .action py"When " py"they buy <what>" (.doc ⟨nowhere, py"{\n  ```\n\n  }", some py"```", some py"json"⟩),
        aStep .outcome py"Then " py"they pay" (.table ⟨nowhere, [aRow [py"a|b", py"\\n"], aRow [[], py"x\ny"]]⟩)],
      [⟨0, [aTag py"@cheap"], nowhere, some py"Examples", some [], [], some (aRow [py"what"]), [aRow [py"egg"]]⟩]⟩,
    .rule ⟨0, [], nowhere, some py"Rule", some py"a rule", [],
      [.scenario ⟨0, [], nowhere, some py"Example", some py"simple", [], [aStep .conjunction py"And " [] .none], []⟩]⟩]

def mdStyle : MdStyle := ⟨1, 2, 2, 3, '-', 2, 4⟩

example : MdPrint.text mdStyle mdShop = py"`@web` `@slow#1`
# Feature: The shop
## Background: 
  - Given a `user`
`@x`
## Scenario Outline: buy <what>
  - When they buy <what>
    ```json
    {
      \\`\\`\\`
    
      }
    ```
  - Then they pay
    | a\\|b | \\\\n |
    |  | x\\ny |
`@cheap`
### Examples: 
    | what |
    | egg |
## Rule: a rule
## Example: simple
  - And 
" := by decide +kernel

theorem md_rows {rs : List Row} (h : ∀ r ∈ rs, ∀ c ∈ r.cells, ¬ py"`@" <:+: c.value ∧ (c.value = [] ∨ ∃ x ∈ c.value, x ≠ '-' ∧ x ≠ ':' ∧ x ≠ '\n')) :
    MdPrintable.Rows rs := fun r hr c hc => ⟨(h r hr c hc).1, no_dashes (h r hr c hc).2⟩

def enD : Dialect := (dialectFor py"en").getD default

theorem mdShop_printable : Printable.Feature mdShop := by
  refine ⟨py"en", enD, rfl, by decide +kernel, ?_, ⟨⟨_, by decide +kernel, rfl⟩, _, rfl, by decide, by decide⟩, .inl rfl,
    some _, [_], [_], rfl, ?_, ?_, ?_⟩
  · intro t ht
    simp only [mdShop, List.mem_cons, List.not_mem_nil, or_false] at ht
    rcases ht with rfl | rfl
    · exact ⟨_, rfl, by unfold TagName; decide⟩
    · exact ⟨_, rfl, by unfold TagName; decide⟩
  · intro x hx
    simp only [Option.mem_def, Option.some.injEq] at hx
    subst hx
    refine ⟨⟨⟨_, by decide +kernel, rfl⟩, _, rfl, by decide, by decide⟩, .inl rfl, ?_⟩
    intro x hx
    simp only [List.mem_singleton] at hx
    subst hx
    exact ⟨⟨_, _, rfl, rfl, ⟨by decide, by decide⟩, by decide +kernel, by decide +kernel⟩, trivial⟩
  · intro x hx
    simp only [List.mem_singleton] at hx
    subst hx
    refine ⟨?_, ⟨⟨_, by decide +kernel, rfl⟩, _, rfl, by decide, by decide⟩, .inl rfl, ?_, ?_⟩
    · intro t ht
      simp only [List.mem_singleton] at ht
      subst ht
      exact ⟨_, rfl, by unfold TagName; decide⟩
    · intro x hx
      simp only [List.mem_cons, List.not_mem_nil, or_false] at hx
      rcases hx with rfl | rfl
      · refine ⟨⟨_, _, rfl, rfl, ⟨by decide, by decide⟩, by decide +kernel, by decide +kernel⟩, _, by decide, rfl, ?_, lines_can (by decide)⟩
        intro s hs
        obtain rfl : _ = s := Option.some.inj hs
        exact ⟨by decide, by decide, by decide⟩
      · refine ⟨⟨_, _, rfl, rfl, ⟨by decide, by decide⟩, by decide +kernel, by decide +kernel⟩, by simp, ?_, 2, by decide⟩
        intro r hr c hc
        simp only [List.mem_cons, List.not_mem_nil, or_false] at hr
        rcases hr with rfl | rfl <;>
        · simp only [aRow, List.map_cons, List.map_nil, List.mem_cons, List.not_mem_nil, or_false] at hc
          rcases hc with rfl | rfl <;> exact cellValue_of (by decide)
    · intro x hx
      simp only [List.mem_singleton] at hx
      subst hx
      refine ⟨?_, ⟨⟨_, by decide +kernel, rfl⟩, _, rfl, by decide, by decide⟩, .inl rfl, by simp, ?_, 1, by decide⟩
      · intro t ht
        simp only [List.mem_singleton] at ht
        subst ht
        exact ⟨_, rfl, by unfold TagName; decide⟩
      intro r hr c hc
      simp only [Option.toList_some, List.singleton_append, List.mem_cons, List.not_mem_nil, or_false] at hr
      rcases hr with rfl | rfl <;>
      · simp only [aRow, List.map_cons, List.map_nil, List.mem_cons, List.not_mem_nil, or_false] at hc
        subst hc
        exact cellValue_of (by decide)
  · intro x hx
    simp only [List.mem_singleton] at hx
    subst hx
    refine ⟨by intro t ht; simp at ht, ⟨⟨_, by decide +kernel, rfl⟩, _, rfl, by decide, by decide⟩, .inl rfl, none, [_], rfl, by simp, ?_⟩
    intro x hx
    simp only [List.mem_singleton] at hx
    subst hx
    refine ⟨by intro t ht; simp at ht, ⟨⟨_, by decide +kernel, rfl⟩, _, rfl, by decide, by decide⟩, .inl rfl, ?_, by intro e he; simp at he⟩
    intro x hx
    simp only [List.mem_singleton] at hx
    subst hx
    exact ⟨⟨_, _, rfl, rfl, ⟨by decide, by decide⟩, by decide +kernel, by decide +kernel⟩, trivial⟩

theorem mdShop_ok : MdPrintable.Feature mdShop := by
  have hw : ∀ s : Str, (∀ x ∈ some s, MdPrintable.NoTag x) ↔ ¬ py"`@" <:+: s := by
    intro s
    exact ⟨fun h => h s rfl, fun h x hx => by obtain rfl : s = x := Option.some.inj hx; exact h⟩
  refine ⟨mdShop_printable, by unfold MdPrintable.Tags; decide, ⟨(hw _).2 (by decide), rfl⟩, ?_⟩
  intro x hx
  simp only [mdShop, List.mem_cons, List.not_mem_nil, or_false] at hx
  rcases hx with rfl | rfl | rfl
  · refine ⟨⟨(hw _).2 (by decide), rfl⟩, ?_⟩
    intro x hx
    simp only [List.mem_singleton] at hx
    subst hx
    exact ⟨by decide, (hw _).2 (by decide), trivial⟩
  · refine ⟨by unfold MdPrintable.Tags; decide, ⟨(hw _).2 (by decide), rfl⟩, ?_, ?_⟩
    · intro x hx
      simp only [List.mem_cons, List.not_mem_nil, or_false] at hx
      rcases hx with rfl | rfl
      · refine ⟨by decide, (hw _).2 (by decide), ?_⟩
        intro _ s hs
        obtain rfl : _ = s := Option.some.inj hs
        decide
      · exact ⟨by decide, (hw _).2 (by decide), md_rows (by decide)⟩
    · intro x hx
      simp only [List.mem_singleton] at hx
      subst hx
      exact ⟨by unfold MdPrintable.Tags; decide, ⟨(hw _).2 (by decide), rfl⟩, md_rows (by decide)⟩
  · refine ⟨by unfold MdPrintable.Tags; decide, ⟨(hw _).2 (by decide), rfl⟩, ?_⟩
    intro x hx
    simp only [List.mem_singleton] at hx
    subst hx
    refine ⟨by unfold MdPrintable.Tags; decide, ⟨(hw _).2 (by decide), rfl⟩, ?_, by intro e he; simp at he⟩
    intro x hx
    simp only [List.mem_singleton] at hx
    subst hx
    exact ⟨by decide, (hw _).2 (by decide), trivial⟩

end Sample

/-- Every hypothesis of C87 is met. -/
example : Sample.mdStyle.Ok ∧ MdPrintable.Feature Sample.mdShop ∧ (Document.mk (some Sample.mdShop) []).PlainExamples ∧ suffix py"a.md" = py".md" :=
  ⟨by unfold MdStyle.Ok; decide, Sample.mdShop_ok, plainExamples_of (by decide +kernel), by decide +kernel⟩

example : outline (build Sample.noEngine (fun _ => true) [] [] py"a.md" (MdPrint.text Sample.mdStyle Sample.mdShop)) =
    [(py"buy egg what = egg", [py"x", py"cheap"], [([py"Given a `user`"], 4), ([py"When they buy egg"], 7), ([py"Then they pay"], 14)]),
     (py"simple", [], [([py"Given a `user`"], 4), ([py"And "], 23)])] := by decide +kernel

end Gherkin
