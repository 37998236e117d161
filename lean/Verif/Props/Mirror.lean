import Verif.Proofs.MirrorDoc
import Verif.Proofs.Bare
import Verif.Props.Independent
import Verif.Props.Markdown

/-! # C63: a Markdown feature file means what the classic file it mirrors means -/

namespace Gherkin

open Markdown Robot Pickles

/-- **C63.** Take a classic text and a Markdown text that says line by line the same (`Mirrors`, Spec/Mirror.lean): titles as headings, steps as list items, tags in
back quotes, rows and doc strings as they are, comments where Markdown has separator rows, blank lines where it has prose. If the classic text is accepted, and its document
has no descriptions, then the Markdown text is accepted, and its feature is the same: same tags, titles, steps, types, tables, doc strings, ids, in the same order
and in the same lines; only columns differ. For every language the two matchers may start with, every state of the builder and both error modes. -/
theorem C63_markdown_mirrors_classic (lang : Str) (d : Dialect) (mc : CState) (mm : MdState) (stop : Bool) (text text' : Str) (b : BState) (doc : Document)
    (hd : dialectFor lang = some d) (hc : CState.new lang = some mc) (hm : MdState.new lang = some mm)
    (hmir : Mirrors d .start (splitLines text) (splitLines text')) (h : (parse ⟨classic, astBuilder, stop⟩ text mc b).1 = .ok (some doc))
    (hdesc : ∀ p ∈ doc.parts, p.2.2 = []) :
    ∃ doc', (parse ⟨markdown, astBuilder, stop⟩ text' mm b).1 = .ok (some doc') ∧
      doc'.feature.map Feature.uncolumned = doc.feature.map Feature.uncolumned :=
  mirror_parse hd hc hm hmir h hdesc

/-! ### The suites -/

/-- `y` is `x` with its result changed by `h`. -/
def Via {α β : Type} (h : α → β) (x : M α) (y : M β) : Prop :=
  ∀ n, y n = match x n with | .ok (a, n') => .ok (h a, n') | .error e => .error e

theorem Via.bind {α β γ δ : Type} {h : α → β} {k : γ → δ} {x : M α} {y : M β} {f : α → M γ} {g : β → M δ} (hx : Via h x y)
    (hf : ∀ a, Via k (f a) (g (h a))) : Via k (x >>= f) (y >>= g) := by
  intro n
  show Pickles.bind y g n = match Pickles.bind x f n with | .ok (a, n') => .ok (k a, n') | .error e => .error e
  unfold Pickles.bind
  rw [hx n]
  cases x n with
  | error e => rfl
  | ok r => exact hf r.1 r.2

theorem Via.refl {α : Type} (x : M α) : Via (fun a => a) x x := by
  intro n
  cases x n <;> rfl

theorem Via.pure {α β : Type} {h : α → β} {a : α} {b : β} (e : b = h a) : Via h (Pure.pure a : M α) (Pure.pure b) := by
  intro n; subst e; rfl

theorem Via.each {α β γ : Type} {h : β → γ} {f : α → M β} {g : α → M γ} (hf : ∀ a, Via h (f a) (g a)) : ∀ as : List α, Via (List.map h) (Pickles.each f as) (Pickles.each g as)
  | [] => Via.pure rfl
  | a :: as => (hf a).bind fun _ => (Via.each hf as).bind fun _ => Via.pure rfl

/-- The pickle with another uri. -/
def Pickle.at (uri : Str) (p : Pickle) : Pickle := { p with uri := uri }

section
variable (eng : Engine) (u v : Str)

theorem compileAny_uri (tags : List Tag) (bg : List Step) (s : Scenario) (l : Str) :
    Via (List.map (Pickle.at v)) (compileAny eng u tags bg s l) (compileAny eng v tags bg s l) := by
  unfold compileAny
  split
  · exact (Via.refl _).bind fun _ => (Via.refl _).bind fun _ => (Via.refl _).bind fun _ => Via.pure rfl
  · refine (Via.each (h := List.map (Pickle.at v)) (fun e => ?_) s.examples).bind fun pss => Via.pure (by rw [List.map_flatten])
    cases e.header with
    | none => exact Via.pure rfl
    | some hd =>
      refine Via.each (f := fun row => compileRow eng u tags bg s l e hd row) (g := fun row => compileRow eng v tags bg s l e hd row) (fun r => ?_) _
      exact (Via.refl _).bind fun _ => (Via.refl _).bind fun _ => (Via.refl _).bind fun _ => (Via.refl _).bind fun _ => Via.pure rfl

theorem compileRuleChildren_uri (tags : List Tag) (l : Str) : ∀ (cs : List RuleChild) (bg : List Step),
    Via (List.map (Pickle.at v)) (compileRuleChildren eng u tags l bg cs) (compileRuleChildren eng v tags l bg cs)
  | [], _ => Via.pure rfl
  | .background _ :: cs, _ => compileRuleChildren_uri tags l cs _
  | .scenario s :: cs, bg =>
    (compileAny_uri eng u v tags bg s l).bind fun _ => (compileRuleChildren_uri tags l cs bg).bind fun _ => Via.pure (by rw [List.map_append])

theorem compileChildren_uri (tags : List Tag) (l : Str) : ∀ (cs : List FeatureChild) (bg : List Step),
    Via (List.map (Pickle.at v)) (compileChildren eng u tags l bg cs) (compileChildren eng v tags l bg cs)
  | [], _ => Via.pure rfl
  | .background _ :: cs, _ => compileChildren_uri tags l cs _
  | .scenario s :: cs, bg =>
    (compileAny_uri eng u v tags bg s l).bind fun _ => (compileChildren_uri tags l cs bg).bind fun _ => Via.pure (by rw [List.map_append])
  | .rule r :: cs, bg =>
    (compileRuleChildren_uri eng u v _ l r.children bg).bind fun _ => (compileChildren_uri tags l cs bg).bind fun _ => Via.pure (by rw [List.map_append])

/-- The uri is only copied to the pickles. -/
theorem compile_uri (d : Document) : Via (List.map (Pickle.at v)) (compile eng u d) (compile eng v d) := by
  unfold compile
  split
  · exact Via.pure rfl
  · split
    · exact Via.pure rfl
    · exact (Via.refl _).bind fun _ => compileChildren_uri eng u v _ _ _ _

end

theorem case_content_change {g : Change} (hg : g.description = id) (c : Case) : (c.change g).content = c.content := by
  have hs : ∀ ss : List Step, (ss.map (Step.change g)).map (Step.change ⟨fun _ => .zero, fun _ => 0, fun s => s⟩) = ss.map (Step.change ⟨fun _ => .zero, fun _ => 0, fun s => s⟩) := by
    intro ss
    rw [List.map_map]
    apply List.map_congr_left
    intro s _
    simp only [Function.comp, Step.change]
    congr 1
    cases s.arg with
    | none => rfl
    | table t => simp [StepArg.change, DataTable.change, Row.change, Cell.change, List.map_map, Function.comp_def]
    | doc d => rfl
  unfold Case.content
  rw [case_tags_change]
  simp only [Case.change, Scenario.change, hs, hg, id, Option.map_map]
  congr 1
  cases c.row with
  | none => rfl
  | some x => simp [rowContent, Examples.change, Row.change, Cell.change, List.map_map, Function.comp_def]

/-- Features that agree, columns apart, have cases that agree. -/
theorem cases_uncolumned {f f' : Feature} (h : f'.uncolumned = f.uncolumned) : f'.cases.map Case.content = f.cases.map Case.content := by
  have key : ∀ f : Feature, f.cases.map Case.content = f.uncolumned.cases.map Case.content := by
    intro f
    unfold Feature.uncolumned
    rw [cases_change, List.map_map]
    apply List.map_congr_left
    intro c _
    exact (case_content_change rfl c).symm
  rw [key f', key f, h]

theorem settings_change {g : Change} (hg : g.description = id) (es : List DirEntry) (f : Feature) : settings es (f.change g) = settings es f := by
  unfold settings
  simp only [Feature.change, hg, id, List.map_eq_nil_iff, List.map_map]
  rfl

/-- Two files whose features agree, columns apart: if one builds to a suite, so does the other, with the same name, settings and tests, except for positions. -/
theorem suite_uncolumned (eng : Engine) (printable : Char → Bool) (es : List DirEntry) (uri uri' name name' content content' : Str)
    (doc doc' : Document) (h : parseFile name content = .ok (some doc)) (h' : parseFile name' content' = .ok (some doc'))
    (e2 : doc'.feature.map Feature.uncolumned = doc.feature.map Feature.uncolumned) (sets : List Setting) (tests : List Test) (fn : Option Str)
    (hb : build eng printable es uri name content = .ok (.suite sets tests, fn)) :
    ∃ tests', build eng printable es uri' name' content' = .ok (.suite sets tests', fn) ∧ tests'.map Test.unplaced = tests.map Test.unplaced := by
  obtain ⟨d0, f, ps, n, g1, g2, g3, g4, g5, g6⟩ := build_suite hb
  have hd0 : d0 = doc := by rw [h] at g1; simpa using g1.symm
  subst hd0
  rw [g2] at e2
  obtain ⟨f', hf', e3⟩ : ∃ f', doc'.feature = some f' ∧ f'.uncolumned = f.uncolumned := by
    cases hx : doc'.feature with
    | none => rw [hx] at e2; simp at e2
    | some f' => rw [hx] at e2; exact ⟨f', rfl, by simpa using e2⟩
  have hcomp : compile eng uri doc' = compile eng uri d0 := by
    rw [← compile_change (g := ⟨fun l => ⟨l.line, none⟩, fun i => i, fun s => s⟩) (fun _ => rfl) eng uri doc' ⟨doc'.feature.map Feature.uncolumned, []⟩ rfl,
      ← compile_change (g := ⟨fun l => ⟨l.line, none⟩, fun i => i, fun s => s⟩) (fun _ => rfl) eng uri d0 ⟨d0.feature.map Feature.uncolumned, []⟩ rfl, hf', g2]
    simp only [Option.map_some, e3]
  have hcomp' : compile eng uri' doc' 0 = .ok (ps.map (Pickle.at uri'), n) := by
    rw [compile_uri eng uri uri' doc' 0, hcomp, g3]
  have hlen := (built eng printable es uri name content d0 f h g2 ps n g3)
  obtain ⟨l1, tests', b1, b2⟩ := built eng printable es uri' name' content' doc' f' h' hf' _ n hcomp'
  have hset : settings es f' = settings es f := by
    rw [← settings_change (g := ⟨fun l => ⟨l.line, none⟩, fun i => i, fun s => s⟩) rfl es f', ← settings_change (g := ⟨fun l => ⟨l.line, none⟩, fun i => i, fun s => s⟩) rfl es f]
    exact congrArg (settings es) e3
  have hname : f'.name = f.name := (congrArg Feature.name e3 : f'.uncolumned.name = f.uncolumned.name)
  have htags : f.tags.map Tag.name = f'.tags.map Tag.name := by
    have := congrArg (fun x : Feature => x.tags.map Tag.name) e3
    simp only [Feature.uncolumned, Feature.change, names_change] at this
    exact this.symm
  refine ⟨tests', by rw [b1, hset, hname, g5, g6], ?_⟩
  have hcases : doc'.cases.map Case.content = d0.cases.map Case.content := by
    simp only [Document.cases, hf', g2, Option.toList_some, List.flatMap_cons, List.flatMap_nil, List.append_nil]
    exact cases_uncolumned e3
  obtain ⟨c1, tests0, c2, c3⟩ := hlen
  have ht0 : tests0 = tests := by rw [hb] at c2; simp only [Except.ok.injEq, Prod.mk.injEq, File.suite.injEq] at c2; exact c2.1.2.symm
  subst ht0
  have n1 := b2.length_eq
  have n2 := c3.length_eq
  have n3 : doc'.cases.length = d0.cases.length := by simpa using congrArg List.length hcases
  rw [List.length_zip] at n1 n2
  apply List.ext_getElem?
  intro i
  rw [List.getElem?_map, List.getElem?_map]
  by_cases hi : i < tests0.length
  · have hi' : i < tests'.length := by simp only [List.length_map] at n1 l1; omega
    have hci : i < d0.cases.length := by simp only [List.length_map] at n1 l1; omega
    have hci' : i < doc'.cases.length := by omega
    rw [List.getElem?_eq_getElem hi, List.getElem?_eq_getElem hi']
    simp only [Option.map_some, Option.some.injEq]
    refine (C62_tests_are_independent eng printable es uri name content sets tests0 fn d0 f es uri' name' content' _ tests' _ doc' f' hb h g2 b1 h' hf' htags i i
      _ _ _ _ (List.getElem?_eq_getElem hci) (List.getElem?_eq_getElem hi) (List.getElem?_eq_getElem hci') (List.getElem?_eq_getElem hi') ?_).symm
    have := congrArg (fun l : List Case.Content => l[i]?) hcases
    simp only [List.getElem?_map, List.getElem?_eq_getElem hci, List.getElem?_eq_getElem hci', Option.map_some, Option.some.injEq] at this
    exact this.symm
  · have hi' : ¬ i < tests'.length := by simp only [List.length_map] at n1 l1; omega
    rw [List.getElem?_eq_none (by omega), List.getElem?_eq_none (by omega)]

/-- **C63, the suites.** If the classic file builds to a suite, so does the Markdown file that mirrors it, wherever it is: with the same name and settings (in the
same directory) and the same tests, except for their positions. -/
theorem C63_same_suite (eng : Engine) (printable : Char → Bool) (es : List DirEntry) (uri uri' name name' content content' : Str)
    (hn : suffix name ≠ py".md") (hn' : suffix name' = py".md") (dl : Dialect) (hd : dialectFor py"en" = some dl)
    (hmir : Mirrors dl .start (splitLines content) (splitLines content')) (doc : Document) (h : parseFile name content = .ok (some doc))
    (hdesc : ∀ p ∈ doc.parts, p.2.2 = []) (sets : List Setting) (tests : List Test) (fn : Option Str)
    (hb : build eng printable es uri name content = .ok (.suite sets tests, fn)) :
    ∃ tests', build eng printable es uri' name' content' = .ok (.suite sets tests', fn) ∧ tests'.map Test.unplaced = tests.map Test.unplaced := by
  have hp : (parse ⟨classic, astBuilder, false⟩ content defaultMatcher newBuilder).1 = .ok (some doc) := by
    unfold parseFile at h; rw [if_neg hn] at h; exact h
  have hc : CState.new py"en" = some defaultMatcher := by unfold defaultMatcher CState.new; rw [hd]; rfl
  have hm : MdState.new py"en" = some defaultMarkdown := by unfold defaultMarkdown MdState.new; rw [hd]; rfl
  obtain ⟨doc', e1, e2⟩ := mirror_parse hd hc hm hmir hp hdesc
  have h' : parseFile name' content' = .ok (some doc') := by unfold parseFile; rw [if_pos hn']; exact e1
  exact suite_uncolumned eng printable es uri uri' name name' content content' doc doc' h h' e2 sets tests fn hb

/-- **C63, the suites, the other way.** If the Markdown file builds to a suite, so does the accepted classic file it mirrors, to the same one except for positions. -/
theorem C63_same_suite_back (eng : Engine) (printable : Char → Bool) (es : List DirEntry) (uri uri' name name' content content' : Str)
    (hn : suffix name ≠ py".md") (hn' : suffix name' = py".md") (dl : Dialect) (hd : dialectFor py"en" = some dl)
    (hmir : Mirrors dl .start (splitLines content) (splitLines content')) (doc : Document) (h : parseFile name content = .ok (some doc))
    (hdesc : ∀ p ∈ doc.parts, p.2.2 = []) (sets : List Setting) (tests' : List Test) (fn : Option Str)
    (hb : build eng printable es uri' name' content' = .ok (.suite sets tests', fn)) :
    ∃ tests, build eng printable es uri name content = .ok (.suite sets tests, fn) ∧ tests.map Test.unplaced = tests'.map Test.unplaced := by
  have hp : (parse ⟨classic, astBuilder, false⟩ content defaultMatcher newBuilder).1 = .ok (some doc) := by
    unfold parseFile at h; rw [if_neg hn] at h; exact h
  have hc : CState.new py"en" = some defaultMatcher := by unfold defaultMatcher CState.new; rw [hd]; rfl
  have hm : MdState.new py"en" = some defaultMarkdown := by unfold defaultMarkdown MdState.new; rw [hd]; rfl
  obtain ⟨doc', e1, e2⟩ := mirror_parse hd hc hm hmir hp hdesc
  have h' : parseFile name' content' = .ok (some doc') := by unfold parseFile; rw [if_pos hn']; exact e1
  exact suite_uncolumned eng printable es uri' uri name' name content' content doc' doc h' h e2.symm sets tests' fn hb

/-! ### The hypotheses can be met -/

/-- A classic file. -/
def Sample.shop : Str := py"@smoke @slow
Feature: shop

  Background:
    Given a shop
  @one
  Scenario Outline: buy <what>
    When I order
      | item |
      # ----
      | tea  |
    Then it says
      \"\"\"
      Hello
        * Given nothing
      \"\"\"
    Examples:
      | what |
      | tea  |
"

/-- The Markdown file that mirrors it. -/
def Sample.shopMd : Str := py"`@smoke` and `@slow`
# Feature: shop
Some words.
## Background:
* Given a shop
`@one`
## Scenario Outline: buy <what>
- When I order
  | item |
  |------|
  | tea  |
- Then it says
      \"\"\"
      Hello
        * Given nothing
      \"\"\"
### Examples:
  | what |
  | tea  |
"

theorem prose_of {d : Dialect} {s : Str} (h1 : '`' ∉ s) (h2 : ∀ c, (lstrip s).head? = some c → c ∉ ['#', '*', '+', '-', '|']) : ∀ f, ¬ HasForm d s f := by
  have hl : ∀ (w : Str) (c : Char) (r : Str), White w → isSpace c = false → lstrip (w ++ c :: r) = c :: r := by
    intro w c r hw hc
    exact lstrip_pre hw (by intro x hx; simp at hx; subst hx; exact hc)
  have hh : ∀ (ks : List Str), ¬ HeadingLine ks s := by
    rintro ks ⟨kw, pre, n, sp, rest, _, hp, hn, _, _, e⟩
    obtain ⟨k, rfl⟩ : ∃ k, n = k + 1 := ⟨n - 1, by omega⟩
    rw [List.replicate_succ, List.append_assoc, List.cons_append] at e
    have := hl pre '#' (List.replicate k '#' ++ sp :: (kw ++ ':' :: rest)) hp (by decide)
    rw [← e] at this
    exact h2 '#' (by rw [this]; rfl) (by simp)
  intro f hf
  cases f with
  | tags => exact Md.no_tick_tags (d := d) h1 hf
  | rule => exact hh _ hf
  | background => exact hh _ hf
  | scenario => exact hh _ hf
  | examples => exact hh _ hf
  | step =>
    obtain ⟨kw, pre, b, gap, rest, _, hp, hb, _, e⟩ := hf
    have := hl pre b (gap ++ kw ++ rest) hp (by rcases hb with rfl | rfl | rfl <;> decide)
    rw [← e] at this
    exact h2 b (by rw [this]; rfl) (by rcases hb with rfl | rfl | rfl <;> simp)
  | row =>
    obtain ⟨pre, rest, hp, _, e, _⟩ := hf
    have := hl pre '|' rest hp (by decide)
    rw [← e] at this
    exact h2 '|' (by rw [this]; rfl) (by simp)

example : Mirrors Sample.enMd.dialect .start (splitLines Sample.shop) (splitLines Sample.shopMd) := by
  have e1 : splitLines Sample.shop = [py"@smoke @slow\n", py"Feature: shop\n", py"\n", py"  Background:\n", py"    Given a shop\n", py"  @one\n", py"  Scenario Outline: buy <what>\n", py"    When I order\n", py"      | item |\n", py"      # ----\n", py"      | tea  |\n", py"    Then it says\n", py"      \"\"\"\n", py"      Hello\n", py"        * Given nothing\n", py"      \"\"\"\n", py"    Examples:\n", py"      | what |\n", py"      | tea  |\n"] := by decide +kernel
  have e2 : splitLines Sample.shopMd = [py"`@smoke` and `@slow`\n", py"# Feature: shop\n", py"Some words.\n", py"## Background:\n", py"* Given a shop\n", py"`@one`\n", py"## Scenario Outline: buy <what>\n", py"- When I order\n", py"  | item |\n", py"  |------|\n", py"  | tea  |\n", py"- Then it says\n", py"      \"\"\"\n", py"      Hello\n", py"        * Given nothing\n", py"      \"\"\"\n", py"### Examples:\n", py"  | what |\n", py"  | tea  |\n"] := by decide +kernel
  rw [e1, e2]
  refine .tags ⟨[], [], [⟨py"smoke", py" ", py" and "⟩, ⟨py"slow", py"\n", py"\n"⟩], by simp [White], by simp [White], by simp, ?_, by decide, by decide⟩ ?_
  · unfold TagPair.Ok TagName White; decide
  have title : ∀ (w w' kw rest : Str) (n : Nat) (ks : List Str), White w → White w' → kw ∈ ks → 1 ≤ n → n ≤ 6 → '`' ∉ w' ++ (List.replicate n '#' ++ ' ' :: (kw ++ ':' :: rest)) →
      TitleLines Sample.enMd.dialect ks (w ++ (kw ++ ':' :: rest)) (w' ++ (List.replicate n '#' ++ ' ' :: (kw ++ ':' :: rest))) :=
    fun w w' kw rest n ks h1 h2 h3 h4 h5 h6 => ⟨w, w', kw, rest, n, ' ', h1, h2, h3, h4, h5, by decide, rfl, rfl, Md.no_tick_tags h6⟩
  have step : ∀ (w kw rest : Str) (b : Char), White w → kw ∈ Sample.enMd.dialect.given ++ Sample.enMd.dialect.when_ ++ Sample.enMd.dialect.then_ ++ Sample.enMd.dialect.and_ ++ Sample.enMd.dialect.but_ →
      kw ≠ bullet → (b = '*' ∨ b = '+' ∨ b = '-') → '`' ∉ b :: ([' '] ++ (kw ++ rest)) → StepLines Sample.enMd.dialect (w ++ (kw ++ rest)) (b :: ([' '] ++ (kw ++ rest))) :=
    fun w kw rest b h1 h2 h3 h4 h5 => ⟨w, [], kw, rest, b, [' '], h1, by simp [White], h2, h3, h4, by unfold White; decide, rfl, rfl, Md.no_tick_tags h5⟩
  have row : ∀ (w w' rest : Str), White w → White w' → w'.length ≤ 5 → '-' ∉ rest → '\\' ∉ rest → '`' ∉ w' ++ '|' :: rest →
      RowLines Sample.enMd.dialect (w ++ '|' :: rest) (w' ++ '|' :: rest) :=
    fun w w' rest h1 h2 h3 h4 h5 h6 => ⟨w, w', rest, h1, h2, h3, noDash h4 h5, rfl, rfl, Md.no_tick_tags h6⟩
  refine .feature (title [] [] py"Feature" py" shop\n" 1 _ ?_ ?_ ?_ ?_ ?_ ?_) ?_
  rotate_left 6
  refine .line (.prose ⟨?_, prose_of ?_ ?_, ?_, ?_⟩) ?_
  rotate_left 5
  refine .line (.title (title py"  " [] py"Background" py"\n" 2 _ ?_ ?_ ?_ ?_ ?_ ?_)) ?_
  rotate_left 6
  refine .line (.step (step py"    " py"Given " py"a shop\n" '*' ?_ ?_ ?_ ?_ ?_)) ?_
  rotate_left 5
  refine .line (.tags ⟨py"  ", [], [⟨py"one", py"\n", py"\n"⟩], ?_, ?_, ?_, ?_, ?_, ?_⟩) ?_
  rotate_left 6
  refine .line (.title (title py"  " [] py"Scenario Outline" py" buy <what>\n" 2 _ ?_ ?_ ?_ ?_ ?_ ?_)) ?_
  rotate_left 6
  refine .line (.step (step py"    " py"When " py"I order\n" '-' ?_ ?_ ?_ ?_ ?_)) ?_
  rotate_left 5
  refine .line (.row (row py"      " py"  " py" item |\n" ?_ ?_ ?_ ?_ ?_ ?_)) ?_
  rotate_left 6
  refine .line (.separator ⟨⟨py"      ", py" ----\n", ?_, ?_⟩, py"  ", [⟨[], py"------", []⟩], py"\n", ?_, ?_, ?_, ?_, ?_⟩) ?_
  rotate_left 7
  refine .line (.row (row py"      " py"  " py" tea  |\n" ?_ ?_ ?_ ?_ ?_ ?_)) ?_
  rotate_left 6
  refine .line (.step (step py"    " py"Then " py"it says\n" '-' ?_ ?_ ?_ ?_ ?_)) ?_
  rotate_left 5
  refine .opening (delim := py"\"\"\"") ?_ ?_ (.content ?_ (.content ?_ (.closing ?_ ?_)))
  rotate_left 5
  refine .line (.title (title py"    " [] py"Examples" py"\n" 3 _ ?_ ?_ ?_ ?_ ?_ ?_)) ?_
  rotate_left 6
  refine .line (.row (row py"      " py"  " py" what |\n" ?_ ?_ ?_ ?_ ?_ ?_)) ?_
  rotate_left 6
  refine .line (.row (row py"      " py"  " py" tea  |\n" ?_ ?_ ?_ ?_ ?_ ?_)) .done
  all_goals first
    | (unfold White; decide)
    | decide +kernel
    | (intro c hc; rw [List.mem_singleton] at hc; subst hc; unfold TagPair.Ok TagName White; decide)
    | (intro c hc; rw [List.mem_singleton] at hc; subst hc; exact ⟨by unfold Pad; decide, ⟨[], 5, [], .inl rfl, .inl rfl, by decide⟩, by unfold Pad; decide⟩)
    | (intro c hc; revert c; decide +kernel)
    | skip

/-- The classic file is accepted, and its document has no descriptions. -/
example : ∃ doc, (parse ⟨classic, astBuilder, false⟩ Sample.shop Sample.en Sample.fresh).1 = .ok (some doc) ∧ ∀ p ∈ doc.parts, p.2.2 = [] := by
  refine ⟨((parse ⟨classic, astBuilder, false⟩ Sample.shop Sample.en Sample.fresh).1.toOption.getD none).getD default, ?_⟩
  decide +kernel

/-- Why there are no descriptions in the classic text: in Markdown a description is prose, and prose is skipped. -/
example :
    (match (parse ⟨classic, astBuilder, false⟩ py"Feature: f\n  words\n" Sample.en Sample.fresh).1,
      (parse ⟨markdown, astBuilder, false⟩ py"# Feature: f\n  words\n" Sample.enMd Sample.fresh).1 with
      | .ok (some d), .ok (some d') => (d.feature.map (·.description), d'.feature.map (·.description))
      | _, _ => (none, none)) = (some py"  words", some []) := by
  decide +kernel

end Gherkin
