import Verif.Proofs.PrintText
import Verif.Props.Samples
import Verif.Props.Blocks

/-! # C44: printing a feature and parsing the text gives the feature back -/

namespace Gherkin

open Auto

/-- **C44.** Print any feature that can be written at all, with any indentation, and parse the text: the parser accepts it, in both error modes and
whatever its default language is, and the document has the same feature again: the same language, tags, keywords, names, descriptions, steps, tables,
doc strings, examples and rules, in the same order, nothing more and nothing less; only locations and ids are new. -/
theorem C44_round_trip {m : CState} (hm : m.Valid) (y : Style) {f : Feature} (hf : Printable.Feature f) (b : BState) (stop : Bool) :
    ∃ d g, (parse (classicCfg astBuilder stop) (Print.text y f) m b).1 = .ok (some d) ∧ d.feature = some g ∧ g.unplaced = f.unplaced := by
  obtain ⟨name, d, hl, hd, h0, h1, h2, bg, ss, rs, hch, h3, h4, h5⟩ := hf
  have hn := dialect_name hd
  have hc := reset_calm hm
  let m1 : CState := { Classic.reset m with dialectName := name, dialect := d }
  have hc1 : m1.Calm := ⟨⟨hd, hc.valid.dflt⟩, hc.active, hc.indent⟩
  obtain ⟨F, g1, g2, g3⟩ := Print.pFeature hc1 y h0 h1 h2 hch h3 h4 h5 hl
  have hh := Print.header_is hn
  let file : Layout.File := ⟨[], some (Print.ln (Print.line 0 (py"# language: " ++ name))), F⟩
  have hok : file.Ok m.defaultName :=
    ⟨Print.noise_nil, by intro s hs; simp [file] at hs, Print.noise_nil, name, d, hh, hd, g2⟩
  have ht : splitLines (Print.text y f) = file.texts := by
    have hd1 : d.Known := ⟨name, hd⟩
    have : file.texts = Print.feature y f := by
      simp [file, Layout.File.texts, Print.ln, Layout.Ln.texts, Print.feature, hl, g1]
    rw [this, Print.text]
    refine Print.split_fulls ?_
    rw [Print.feature, hl, Option.getD_some]
    exact .cons (Print.header_full hn) (.append (.append (Print.tags_fulls y h0) (Print.head_fulls hd1 (k := .featureLine) y _ h1))
      (Print.children_fulls hd1 y hch h3 h4 h5))
  obtain ⟨_, cm, h⟩ := file_parses hm hok ht b stop
  refine ⟨_, _, h, rfl, ?_⟩
  have hm1 : fileMatcher (Classic.reset m) file = m1 := by
    simp only [fileMatcher, file, Print.ln]
    exact (header_go (m := Classic.reset m) hh hd 0 [] (by simp [Print.line])).2.1
  rw [hm1]
  exact g3 _ _ _

/-! ### The hypothesis can be met -/

namespace Sample

theorem cellValue_of {v : Str} (h : (∀ c ∈ v.head?, isSpace c = false ∨ c = '\n') ∧ ∀ c ∈ v.getLast?, isSpace c = false ∨ c = '\n') : CellValue v :=
  ⟨fun c hc => h.1 c hc, fun c hc => h.2 c hc⟩

def nowhere : Location := ⟨0, none⟩
def aTag (s : Str) : Tag := ⟨0, nowhere, s⟩
def aRow (vs : List Str) : Row := ⟨0, nowhere, vs.map fun v => ⟨nowhere, v⟩⟩
def aStep (t : KType) (kw x : Str) (a : StepArg) : Step := ⟨0, nowhere, some kw, some t, some x, a⟩

/-- A French feature with tags, a description, a background, an outline with a doc string and a table, and a rule. -/
def french : Feature where
  tags := [aTag py"@web", aTag py"@lent#1"]
  loc := nowhere
  language := some py"fr"
  keyword := some py"Fonctionnalité"
  name := some py"Le magasin"
  description := py"Une description.\n\n  * avec deux lignes"
  children := [
    .background ⟨0, nowhere, some py"Contexte", some [], [], [aStep .context py"Soit " py"un client" .none]⟩,
    .scenario ⟨0, [aTag py"@x"], nowhere, some py"Plan du scénario", some py"acheter <quoi>", [],
      [aStep .action py"Lorsqu'" py"il achète <quoi>"
          (.doc ⟨nowhere, py"{\n  \"\"\"\n\n  }", some py"\"\"\"", some py"json"⟩),
        aStep .outcome py"Alors " py"il paie" (.table ⟨nowhere, [aRow [py"a|b", py"\\n"], aRow [[], py"x\ny"]]⟩)],
      [⟨0, [], nowhere, some py"Exemples", some [], py"Les exemples", some (aRow [py"quoi"]), [aRow [py"œuf"]]⟩]⟩,
    .rule ⟨0, [], nowhere, some py"Règle", some py"une règle", [],
      [.scenario ⟨0, [], nowhere, some py"Exemple", some py"simple", [], [aStep .unknown py"* " [] .none], []⟩]⟩]

def frD : Dialect := (dialectFor py"fr").getD default

theorem lines_can {delim content : Str} (h : ∀ l ∈ splitChar '\n' content, l.getLast? ≠ some '\r' ∧ ¬ escaped delim <:+: l) :
    ∀ l ∈ splitChar '\n' content, l.getLast? ≠ some '\r' ∧ Escapable delim l := fun l hl => ⟨(h l hl).1, escapable_of_not (h l hl).2⟩

theorem oneLine_of {s : Str} (h : '\n' ∉ s ∧ strip s = s) : Printable.OneLine s := h

theorem french_ok : Printable.Feature french := by
  refine ⟨py"fr", frD, rfl, by decide +kernel, ?_, ⟨⟨_, by decide +kernel, rfl⟩, _, rfl, by decide, by decide⟩, .inr ⟨by decide, by decide, by decide +kernel⟩,
    some _, [_], [_], rfl, ?_, ?_, ?_⟩
  · intro t ht
    simp only [french, List.mem_cons, List.not_mem_nil, or_false] at ht
    rcases ht with rfl | rfl
    · exact ⟨_, rfl, by unfold TagName; decide⟩
    · exact ⟨_, rfl, by unfold TagName; decide⟩
  · intro x hx
    simp only [Option.mem_def, Option.some.injEq] at hx
    subst hx
    refine ⟨⟨⟨_, by decide +kernel, rfl⟩, _, rfl, by decide, by decide⟩, .inl rfl, ?_⟩
    intro x hx
    simp only [List.mem_singleton] at hx
    subst hx
    exact ⟨⟨_, _, rfl, rfl, ⟨by decide, by decide⟩, by decide +kernel, by decide +kernel⟩, trivial⟩
  · intro x hx
    simp only [List.mem_singleton] at hx
    subst hx
    refine ⟨?_, ⟨⟨_, by decide +kernel, rfl⟩, _, rfl, by decide, by decide⟩, .inl rfl, ?_, ?_⟩
    · intro t ht
      simp only [List.mem_singleton] at ht
      subst ht
      exact ⟨_, rfl, by unfold TagName; decide⟩
    · intro x hx
      simp only [List.mem_cons, List.not_mem_nil, or_false] at hx
      rcases hx with rfl | rfl
      · refine ⟨⟨_, _, rfl, rfl, ⟨by decide, by decide⟩, by decide +kernel, by decide +kernel⟩, _, by decide, rfl, ?_, lines_can (by decide)⟩
        intro s hs
        obtain rfl : _ = s := Option.some.inj hs
        exact ⟨by decide, by decide, by decide⟩
      · refine ⟨⟨_, _, rfl, rfl, ⟨by decide, by decide⟩, by decide +kernel, by decide +kernel⟩, by simp, ?_, 2, by decide⟩
        intro r hr c hc
        simp only [List.mem_cons, List.not_mem_nil, or_false] at hr
        rcases hr with rfl | rfl <;>
        · simp only [aRow, List.map_cons, List.map_nil, List.mem_cons, List.not_mem_nil, or_false] at hc
          rcases hc with rfl | rfl <;> exact cellValue_of (by decide)
    · intro x hx
      simp only [List.mem_singleton] at hx
      subst hx
      refine ⟨by intro t ht; simp at ht, ⟨⟨_, by decide +kernel, rfl⟩, _, rfl, by decide, by decide⟩, .inr ⟨by decide, by decide, by decide +kernel⟩, by simp, ?_,
        1, by decide⟩
      intro r hr c hc
      simp only [Option.toList_some, List.singleton_append, List.mem_cons, List.not_mem_nil, or_false] at hr
      rcases hr with rfl | rfl <;>
      · simp only [aRow, List.map_cons, List.map_nil, List.mem_cons, List.not_mem_nil, or_false] at hc
        subst hc
        exact cellValue_of (by decide)
  · intro x hx
    simp only [List.mem_singleton] at hx
    subst hx
    refine ⟨by intro t ht; simp at ht, ⟨⟨_, by decide +kernel, rfl⟩, _, rfl, by decide, by decide⟩, .inl rfl, none, [_], rfl, by simp, ?_⟩
    intro x hx
    simp only [List.mem_singleton] at hx
    subst hx
    refine ⟨by intro t ht; simp at ht, ⟨⟨_, by decide +kernel, rfl⟩, _, rfl, by decide, by decide⟩, .inl rfl, ?_, by intro t ht; simp at ht⟩
    intro x hx
    simp only [List.mem_singleton] at hx
    subst hx
    exact ⟨⟨_, _, rfl, rfl, ⟨by decide, by decide⟩, by decide +kernel, by decide +kernel⟩, trivial⟩

/-- The printed text. -/
theorem french_text : Print.text ⟨0, 2, 4, 6⟩ french = py"# language: fr\n@web @lent#1\n  Fonctionnalité: Le magasin\nUne description.\n\n  * avec deux lignes\n  Contexte: \n    Soit un client\n@x\n  Plan du scénario: acheter <quoi>\n    Lorsqu'il achète <quoi>\n      \"\"\"json\n      {\n        \\\"\\\"\\\"\n      \n        }\n      \"\"\"\n    Alors il paie\n      | a\\|b | \\\\n |\n      |  | x\\ny |\n  Exemples: \nLes exemples\n      | quoi |\n      | œuf |\n  Règle: une règle\n  Exemple: simple\n    * \n" := by
  decide +kernel

example (b : BState) (stop : Bool) :
    ∃ d g, (parse (classicCfg astBuilder stop) (Print.text ⟨0, 2, 4, 6⟩ french) en b).1 = .ok (some d) ∧ d.feature = some g ∧ g.unplaced = french.unplaced :=
  C44_round_trip (m := en) ⟨by decide +kernel, by decide +kernel⟩ _ french_ok b stop

end Sample

end Gherkin
