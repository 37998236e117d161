import Verif.Proofs.PartsRows
import Verif.Props.Parts

/-! # C82: an outline's tests are those of its rows, one after the other -/

namespace Gherkin

open Pickles Robot Auto

/-! ### What a scenario of a layout says, part by part -/

/-- What a row of a layout says. -/
def rowed (m : CState) (l : Layout.Ln) : Row := bareRow (tokOf m .tableRow l.text 0)

/-- What examples of a layout say. -/
def exam (m : CState) (e : Layout.Examples) : Examples where
  id := 0
  tags := tagged m e.tags
  loc := .zero
  keyword := (tokOf m .examplesLine e.head.line 0).keyword
  name := (tokOf m .examplesLine e.head.line 0).text
  description := Cst.description (headDesc m 0 e.head)
  header := e.table.head?.map (rowed m)
  body := e.table.tail.map (rowed m)

/-- What a step of a layout says. -/
def stepped (m : CState) (s : Layout.Step) : Step := bareStep (stepCst m 0 s)

theorem rowed_place (m : CState) (n : Nat) (rs : List Layout.Ln) : (rowToks m n rs).map bareRow = rs.map (rowed m) :=
  Gherkin.place_same (g := bareRow) (fun n l => rowTok_bare m l.text n) rs n

theorem exam_says (m : CState) (n : Nat) (e : Layout.Examples) : bareExamples (examplesCst m n e) = exam m e := by
  have h : ∀ k, ((Cst.thread Cst.row (examplesCst m n e).table k).1).map (Row.change unplacing) = e.table.map (rowed m) := by
    intro k
    rw [rows_bare]
    exact rowed_place m _ e.table
  have h1 : ∀ k, ((Cst.thread Cst.row (examplesCst m n e).table k).1.head?).map (Row.change unplacing) = e.table.head?.map (rowed m) := by
    intro k
    rw [(head_tail_map (h k)).1, List.head?_map]
  have h2 : ∀ k, ((Cst.thread Cst.row (examplesCst m n e).table k).1.tail).map (Row.change unplacing) = e.table.tail.map (rowed m) := by
    intro k
    rw [(head_tail_map (h k)).2, List.map_tail]
  simp only [bareExamples, Cst.CExamples.ast, Examples.change, tags_bare, h1, h2, exam, tagged]
  simp only [examplesCst, tagToks_bare m n, headDesc_bare m (n + _), tok_keyword m _ _ (n + _), tok_text m _ _ (n + _)]

/-- What a scenario of a layout says. -/
def saying (m : CState) (s : Layout.Scenario) : Scenario where
  id := 0
  tags := tagged m s.tags
  loc := .zero
  keyword := (tokOf m .scenarioLine s.head.line 0).keyword
  name := (tokOf m .scenarioLine s.head.line 0).text
  description := Cst.description (headDesc m 0 s.head)
  steps := s.steps.map (stepped m)
  examples := s.examples.map (exam m)

theorem scen_says (m : CState) (s : Layout.Scenario) : scen m s = saying m s := by
  have h1 : ∀ n, (stepsCst m n s.steps).map bareStep = s.steps.map (stepped m) := Gherkin.place_same (g := bareStep) (fun n x => step_bare m n x) s.steps
  have h2 : ∀ n, ((Layout.place (fun e => e.texts.length) (examplesCst m) n s.examples).map bareExamples) = s.examples.map (exam m) := by
    intro n
    rw [Gherkin.place_same (g := bareExamples) (fun n x => examples_bare m n x)]
    exact List.map_congr_left fun e _ => exam_says m 0 e
  simp only [saying, scen, bareScenario, Cst.CScenario.ast, Scenario.change, tags_bare, steps_bare, examplesAst_bare]
  simp only [scenarioCst, h1, h2, tagged, headDesc_bare m (0 + _), tok_keyword m _ _ (0 + _), tok_text m _ _ (0 + _)]

theorem rows_say (m : CState) (s : Layout.Scenario) : s.rows.map (scen m) = (scen m s).split := by
  have hs := scen_says m s
  unfold Layout.Scenario.rows Scenario.split
  have he : (scen m s).examples = s.examples.map (exam m) := by rw [hs]; rfl
  have hi : (scen m s).examples.isEmpty = s.examples.isEmpty := by rw [he]; simp
  rw [hi]
  split
  · rfl
  · rw [he, List.flatMap_map, List.map_flatMap]
    refine List.flatMap_congr fun e _ => ?_
    have e1 : (exam m e).header.toList = e.table.head?.toList.map (rowed m) := by
      cases ht : e.table <;> simp [exam, ht]
    rw [e1, List.flatMap_map, List.map_flatMap]
    refine List.flatMap_congr fun h _ => ?_
    have e2 : (exam m e).body = e.table.tail.map (rowed m) := rfl
    rw [e2, List.map_map, List.map_map]
    refine List.map_congr_left fun r _ => ?_
    simp only [Function.comp, Layout.Scenario.onlyRow]
    rw [scen_says, hs]
    simp [exam, saying]

/-! ### The rows of a text -/

theorem rows_lines {s x : Layout.Scenario} (h : x ∈ s.rows) : x.texts.Sublist s.texts := by
  unfold Layout.Scenario.rows at h
  split at h
  · simp only [List.mem_singleton] at h
    rw [h]
  · obtain ⟨e, he, h⟩ := List.mem_flatMap.1 h
    obtain ⟨hd, hh, h⟩ := List.mem_flatMap.1 h
    obtain ⟨r, hr, rfl⟩ := List.mem_map.1 h
    simp only [Layout.Scenario.texts, Layout.Scenario.onlyRow, List.flatMap_cons, List.flatMap_nil, List.append_nil]
    refine (List.Sublist.refl _).append ((List.Sublist.refl _).append ((List.Sublist.refl _).append ?_))
    refine List.Sublist.trans ?_ (flatMap_sublist he)
    simp only [Layout.Examples.texts]
    refine (List.Sublist.refl _).append ((List.Sublist.refl _).append ?_)
    cases ht : e.table with
    | nil => rw [ht] at hr; simp at hr
    | cons a l =>
      rw [ht] at hh hr
      simp only [List.head?_cons, Option.toList_some, List.mem_singleton] at hh
      subst hh
      rw [List.flatMap_cons, List.flatMap_cons, List.flatMap_cons, List.flatMap_nil, List.append_nil]
      exact (List.Sublist.refl _).append (flatMap_sublist hr)

theorem rowOf_ok {d : Dialect} {s x : Layout.Scenario} (h : x ∈ s.rows) (hs : s.Ok d) : x.Ok d := by
  unfold Layout.Scenario.rows at h
  split at h
  · simp only [List.mem_singleton] at h
    rw [h]
    exact hs
  · obtain ⟨e, he, h⟩ := List.mem_flatMap.1 h
    obtain ⟨hd, hh, h⟩ := List.mem_flatMap.1 h
    obtain ⟨r, hr, rfl⟩ := List.mem_map.1 h
    obtain ⟨s1, s2, s3, s4⟩ := hs
    obtain ⟨e1, e2, e3, n, e4⟩ := s4 e he
    refine ⟨s1, s2, s3, ?_⟩
    intro y hy
    simp only [Layout.Scenario.onlyRow, List.mem_singleton] at hy
    subst hy
    have hm : ∀ z ∈ [hd, r], z ∈ e.table := by
      intro z hz
      simp only [List.mem_cons, List.not_mem_nil, or_false] at hz
      rcases hz with rfl | rfl
      · exact List.mem_of_mem_head? (by simpa using hh)
      · exact List.mem_of_mem_tail hr
    exact ⟨e1, e2, fun z hz => e3 z (hm z hz), n, fun z hz => e4 z (hm z hz)⟩

theorem rowPieces_mem {F G : Layout.File} (h : G ∈ F.rowPieces) : (∃ s ∈ F.feature.scenarios, ∃ x ∈ s.rows, G = F.only x) ∨
    ∃ r ∈ F.feature.rules, ∃ s ∈ r.scenarios, ∃ x ∈ s.rows, G = F.onlyIn r x := by
  unfold Layout.File.rowPieces at h
  rcases List.mem_append.1 h with h | h
  · obtain ⟨s, hs, h⟩ := List.mem_flatMap.1 h
    obtain ⟨x, hx, rfl⟩ := List.mem_map.1 h
    exact .inl ⟨s, hs, x, hx, rfl⟩
  · obtain ⟨r, hr, h⟩ := List.mem_flatMap.1 h
    obtain ⟨s, hs, h⟩ := List.mem_flatMap.1 h
    obtain ⟨x, hx, rfl⟩ := List.mem_map.1 h
    exact .inr ⟨r, hr, s, hs, x, hx, rfl⟩

theorem rowPiece_lines {F G : Layout.File} (h : G ∈ F.rowPieces) : G.texts.Sublist F.texts := by
  rcases rowPieces_mem h with ⟨s, hs, x, hx, rfl⟩ | ⟨r, hr, s, hs, x, hx, rfl⟩
  · have h1 : (F.only s).texts.Sublist F.texts := piece_lines (by unfold Layout.File.pieces; exact List.mem_append.2 (.inl (List.mem_map.2 ⟨s, hs, rfl⟩)))
    refine List.Sublist.trans ?_ h1
    simp only [Layout.File.texts, Layout.File.only, Layout.Feature.texts, List.flatMap_cons, List.flatMap_nil, List.append_nil]
    exact (List.Sublist.refl _).append ((List.Sublist.refl _).append ((List.Sublist.refl _).append ((List.Sublist.refl _).append ((List.Sublist.refl _).append (rows_lines hx)))))
  · have h1 : (F.onlyIn r s).texts.Sublist F.texts :=
      piece_lines (by unfold Layout.File.pieces; exact List.mem_append.2 (.inr (List.mem_flatMap.2 ⟨r, hr, List.mem_map.2 ⟨s, hs, rfl⟩⟩)))
    refine List.Sublist.trans ?_ h1
    simp only [Layout.File.texts, Layout.File.onlyIn, Layout.Feature.texts, Layout.Rule.texts, List.flatMap_cons, List.flatMap_nil, List.append_nil, List.nil_append]
    exact (List.Sublist.refl _).append ((List.Sublist.refl _).append ((List.Sublist.refl _).append ((List.Sublist.refl _).append ((List.Sublist.refl _).append
      ((List.Sublist.refl _).append ((List.Sublist.refl _).append ((List.Sublist.refl _).append (rows_lines hx))))))))

/-- A text with another feature part. -/
theorem file_ok {F G : Layout.File} (hb : G.before = F.before) (hl : G.language = F.language) (key : ∀ d, F.feature.Ok d → G.feature.Ok d) {name : Str} (hF : F.Ok name) : G.Ok name := by
  obtain ⟨a, b, c⟩ := hF
  rw [← hb] at a b
  refine ⟨a, b, ?_⟩
  rw [hl]
  split at c
  · obtain ⟨d, d1, d2⟩ := c
    exact ⟨d, d1, key d d2⟩
  · obtain ⟨c1, nm, d, d1, d2, d3⟩ := c
    exact ⟨c1, nm, d, d1, d2, key d d3⟩

theorem rowPiece_ok {F G : Layout.File} (h : G ∈ F.rowPieces) {name : Str} (hF : F.Ok name) : G.Ok name := by
  rcases rowPieces_mem h with ⟨s, hs, x, hx, rfl⟩ | ⟨r, hr, s, hs, x, hx, rfl⟩
  · refine file_ok (F := F) (G := F.only x) rfl rfl ?_ hF
    rintro d ⟨h1, h2, h3, h4, h5⟩
    exact ⟨h1, h2, h3, by simpa [Layout.File.only] using rowOf_ok hx (h4 s hs), by simp [Layout.File.only]⟩
  · refine file_ok (F := F) (G := F.onlyIn r x) rfl rfl ?_ hF
    rintro d ⟨h1, h2, h3, h4, h5⟩
    obtain ⟨r1, r2, r3, r4⟩ := h5 r hr
    refine ⟨h1, h2, h3, by simp [Layout.File.onlyIn], ?_⟩
    intro y hy
    simp only [Layout.File.onlyIn, List.mem_singleton] at hy
    subst hy
    exact ⟨r1, r2, r3, by simpa using rowOf_ok hx (r4 s hs)⟩

theorem rows_cut (F : Layout.File) : Cuts F F.rowPieces where
  lines _ h := rowPiece_lines h
  ok _ hF _ h := rowPiece_ok h hF
  language G h := by rcases rowPieces_mem h with ⟨s, hs, x, hx, rfl⟩ | ⟨r, hr, s, hs, x, hx, rfl⟩ <;> rfl
  head G h := by rcases rowPieces_mem h with ⟨s, hs, x, hx, rfl⟩ | ⟨r, hr, s, hs, x, hx, rfl⟩ <;> exact ⟨rfl, rfl⟩
  contents M := by
    rw [featured_cases, List.map_append, List.map_flatMap, List.map_flatMap]
    unfold Layout.File.rowPieces
    rw [List.flatMap_append, List.flatMap_assoc, List.flatMap_assoc]
    congr 1
    · refine List.flatMap_congr fun s _ => ?_
      rw [split_contents, ← rows_say, List.flatMap_map, List.flatMap_map]
      refine List.flatMap_congr fun x _ => ?_
      rw [featured_cases]
      simp [Layout.File.only]
    · refine List.flatMap_congr fun r _ => ?_
      rw [List.map_flatMap, List.flatMap_assoc]
      refine List.flatMap_congr fun s _ => ?_
      rw [split_contents, ← rows_say, List.flatMap_map, List.flatMap_map]
      refine List.flatMap_congr fun x _ => ?_
      rw [featured_cases]
      simp [Layout.File.onlyIn]
  results M eng uri l hl := by
    rw [featured_outcome M F.feature eng uri l hl _ rfl]
    unfold Layout.File.rowPieces
    rw [List.map_append, gather_append, gather_append, List.map_flatMap, gather_flatMap, List.map_flatMap, gather_flatMap, gather_flatMap]
    congr 1
    · congr 1
      refine List.map_congr_left fun s _ => ?_
      rw [split_outcome, ← rows_say, List.map_map, List.map_map]
      congr 1
      refine List.map_congr_left fun x _ => ?_
      have := featured_outcome M (F.only x).feature eng uri l hl ⟨some (featured M (F.only x).feature), []⟩ rfl
      simp only [Function.comp]
      rw [this]
      simp only [Layout.File.only, List.map_cons, List.map_nil, List.flatMap_nil, List.append_nil, gather_one]
    · congr 1
      refine List.map_congr_left fun r _ => ?_
      rw [List.map_flatMap, gather_flatMap]
      congr 1
      refine List.map_congr_left fun s _ => ?_
      rw [split_outcome, ← rows_say, List.map_map, List.map_map]
      congr 1
      refine List.map_congr_left fun x _ => ?_
      have := featured_outcome M (F.onlyIn r x).feature eng uri l hl ⟨some (featured M (F.onlyIn r x).feature), []⟩ rfl
      simp only [Function.comp]
      rw [this]
      simp only [Layout.File.onlyIn, List.map_cons, List.map_nil, List.flatMap_cons, List.flatMap_nil, List.append_nil, List.nil_append, gather_one]

/-! ### The texts with each row as an outline of its own -/

theorem rows_rows {s x : Layout.Scenario} (h : x ∈ s.rows) : x.rows = [x] := by
  unfold Layout.Scenario.rows at h
  split at h
  · rename_i he
    simp only [List.mem_singleton] at h
    subst h
    unfold Layout.Scenario.rows
    rw [if_pos he]
  · obtain ⟨e, he, h⟩ := List.mem_flatMap.1 h
    obtain ⟨hd, hh, h⟩ := List.mem_flatMap.1 h
    obtain ⟨r, hr, rfl⟩ := List.mem_map.1 h
    simp [Layout.Scenario.rows, Layout.Scenario.onlyRow]

theorem rows_flat_rows (ss : List Layout.Scenario) {β : Type} (f : Layout.Scenario → β) :
    (ss.flatMap Layout.Scenario.rows).flatMap (fun s => s.rows.map f) = ss.flatMap fun s => s.rows.map f := by
  rw [List.flatMap_assoc]
  refine List.flatMap_congr fun s _ => ?_
  rw [List.map_eq_flatMap]
  refine List.flatMap_congr fun x hx => ?_
  rw [rows_rows hx]
  rfl

theorem unrolled_pieces (F : Layout.File) : F.unrolled.rowPieces = F.rowPieces := by
  unfold Layout.File.rowPieces
  congr 1
  · exact rows_flat_rows _ _
  · simp only [Layout.File.unrolled, List.flatMap_map]
    refine List.flatMap_congr fun r _ => ?_
    exact rows_flat_rows _ _

theorem unrolled_ok {F : Layout.File} {name : Str} (hF : F.Ok name) : F.unrolled.Ok name := by
  refine file_ok (F := F) (G := F.unrolled) rfl rfl ?_ hF
  rintro d ⟨h1, h2, h3, h4, h5⟩
  refine ⟨h1, h2, h3, ?_, ?_⟩
  · intro x hx
    simp only [Layout.File.unrolled, List.mem_flatMap] at hx
    obtain ⟨s, hs, hx⟩ := hx
    exact rowOf_ok hx (h4 s hs)
  · intro y hy
    simp only [Layout.File.unrolled, List.mem_map] at hy
    obtain ⟨r, hr, rfl⟩ := hy
    obtain ⟨r1, r2, r3, r4⟩ := h5 r hr
    refine ⟨r1, r2, r3, ?_⟩
    intro x hx
    obtain ⟨s, hs, hx⟩ := List.mem_flatMap.1 hx
    exact rowOf_ok hx (r4 s hs)

/-! ### Files whose documents say the same -/

/-- Files whose features have the same name, tags and settings, and whose cases and pickles say the same, build to the same suite, positions apart. -/
theorem suite_same {eng : Engine} {printable : Char → Bool} {es : List DirEntry} {uri name text text' : Str} {d d' : Document} {f f' : Feature}
    (hd : parseFile name text = .ok (some d)) (hd' : parseFile name text' = .ok (some d')) (hf : d.feature = some f) (hf' : d'.feature = some f') (hn : f'.name = f.name)
    (ht : f'.tags.map Tag.name = f.tags.map Tag.name) (hs : settings es f' = settings es f) (hc : d'.cases.map Case.content = d.cases.map Case.content)
    (hp : (compile eng uri d' 0).map (fun p => p.1.map Pickle.content) = (compile eng uri d 0).map fun p => p.1.map Pickle.content)
    {sets : List Setting} {tests : List Test} {fn : Option Str} (hb : build eng printable es uri name text = .ok (.suite sets tests, fn)) :
    ∃ tests', build eng printable es uri name text' = .ok (.suite sets tests', fn) ∧ tests'.map Test.unplaced = tests.map Test.unplaced := by
  obtain ⟨d0, f0, ps, n, g1, g2, g3, _, g5, g6⟩ := build_suite hb
  have hd0 : d0 = d := by rw [hd] at g1; simpa using g1.symm
  subst hd0
  have hf0 : f0 = f := by rw [hf] at g2; simpa using g2.symm
  subst hf0
  rw [g3] at hp
  rcases hq : compile eng uri d' 0 with x | ⟨qs, k⟩
  · rw [hq] at hp; cases hp
  · obtain ⟨_, tests', b1, _⟩ := built eng printable es uri name text' d' f' hd' hf' qs k hq
    rw [hs, hn, ← g5, ← g6] at b1
    refine ⟨tests', b1, ?_⟩
    have t1 := suite_tests hb hd hf
    have t2 := suite_tests b1 hd' hf'
    rw [ht, hc] at t2
    exact forall₂_unique (R := SuiteTest eng printable (f0.tags.map Tag.name)) (fun _ _ _ h h' => SuiteTest.unique h h') t2 t1

/-- Texts made of the same texts say the same. -/
theorem same_cuts {F F' : Layout.File} {L : List Layout.File} (hL : Cuts F L) (hL' : Cuts F' L) (hl : F'.language = F.language) (hh : F'.feature.tags = F.feature.tags ∧ F'.feature.head = F.feature.head)
    {m : CState} (hm : m.Valid) (hF : F.Ok m.defaultName) (hF' : F'.Ok m.defaultName) {text text' : Str} (ht : splitLines text = F.texts) (ht' : splitLines text' = F'.texts)
    (b : BState) (stop : Bool) :
    ∃ d d' f f', (parse (classicCfg astBuilder stop) text m b).1 = .ok (some d) ∧ (parse (classicCfg astBuilder stop) text' m b).1 = .ok (some d') ∧
      d.feature = some f ∧ d'.feature = some f' ∧ f'.name = f.name ∧ f'.tags.map Tag.name = f.tags.map Tag.name ∧ (∀ es, settings es f' = settings es f) ∧
      d'.cases.map Case.content = d.cases.map Case.content ∧
      ∀ (eng : Engine) (uri : Str) (n k : Nat), (compile eng uri d' n).map (fun p => p.1.map Pickle.content) = (compile eng uri d k).map fun p => p.1.map Pickle.content := by
  obtain ⟨d, f, h1, h2, h3⟩ := layout_says hm hF ht b stop
  obtain ⟨d', f', h1', h2', h3'⟩ := layout_says hm hF' ht' b stop
  have hM : fileMatcher (Classic.reset m) F' = fileMatcher (Classic.reset m) F := by unfold fileMatcher; rw [hl]
  rw [hM] at h3'
  generalize fileMatcher (Classic.reset m) F = M at h3 h3'
  obtain ⟨p1, p2, p3⟩ := same_head hh M
  have hnm : ∀ x : Feature, x.unplaced.tags.map Tag.name = x.tags.map Tag.name := by
    intro x
    simp [Feature.unplaced, Feature.change, Tag.change, Function.comp_def]
  have hcase : ∀ (e : Document) (g : Feature), e.feature = some g → e.cases.map Case.content = g.unplaced.cases.map Case.content := by
    intro e g he
    simp only [Document.cases, he, Option.toList_some, List.flatMap_cons, List.flatMap_nil, List.append_nil]
    exact contents_unplaced g
  refine ⟨d, d', f, f', h1, h1', h2, h2', ?_, ?_, ?_, ?_, ?_⟩
  · rw [show f'.name = f'.unplaced.name from rfl, show f.name = f.unplaced.name from rfl, h3, h3', p1]
  · rw [← hnm f', ← hnm f, h3, h3', p2]
  · intro es
    rw [← settings_unplaced es f', ← settings_unplaced es f, h3, h3']
    unfold settings
    rw [p2, p3]
  · rw [hcase d' f' h2', hcase d f h2, h3, h3', hL.contents, hL'.contents]
  · intro eng uri n k
    obtain ⟨l, _, hlg, _⟩ := C49_descriptions stop text m hm b d h1 f h2
    have hl1 : (featured M F.feature).language = some l := by rw [← h3]; exact hlg
    have hl2 : (featured M F'.feature).language = some l := by rw [← hl1]; simp only [featured, hh.2]
    have key : ∀ (e : Document) (g : Feature) (x : Layout.Feature), e.feature = some g → g.unplaced = featured M x → ∀ k,
        (compile eng uri e k).map (fun p => p.1.map Pickle.content) = outcome (compile eng uri ⟨some (featured M x), []⟩) := by
      intro e g x he hg k
      exact compile_alike eng uri he rfl (by rw [← hg, unplaced_twice]) k 0
    rw [key d' f' F'.feature h2' h3' n, key d f F.feature h2 h3 k, hL.results M eng uri l hl1, hL'.results M eng uri l hl2]

/-! ### C82 -/

/-- **C82, the pickles.** Take a text that is read, cut into its parts. For each of its scenarios without examples, and for each example row, there is the text with only this
scenario or row (`rowPieces`): some of the lines of the text. These texts are read too. The cases and the pickles of the text are theirs, one after the other (pickles without ids): if one of
them cannot be compiled, the text cannot be, for the reason of the first one. -/
theorem C82_pickles {m : CState} (hm : m.Valid) {F : Layout.File} (hF : F.Ok m.defaultName) {text : Str} (ht : splitLines text = F.texts) (b : BState) (stop : Bool) :
    ∃ d ds, (parse (classicCfg astBuilder stop) text m b).1 = .ok (some d) ∧
      List.Forall₂ (fun (G : Layout.File) e => (parse (classicCfg astBuilder stop) G.texts.flatten m b).1 = .ok (some e)) F.rowPieces ds ∧
      d.cases.map Case.content = ds.flatMap (fun e => e.cases.map Case.content) ∧
      ∀ (eng : Engine) (uri : Str) (n k : Nat), (compile eng uri d n).map (fun p => p.1.map Pickle.content) =
        gather (ds.map fun e => (compile eng uri e k).map fun p => p.1.map Pickle.content) :=
  cuts_pickles hm hF (rows_cut F) ht b stop

/-- **C82, the suites.** A file builds to a suite just if the files with one of its scenarios or rows each do. These have all the name and the settings of the whole; and the
tests of the file are their tests, one after the other, except for positions. -/
theorem C82_suite (eng : Engine) (printable : Char → Bool) (es : List DirEntry) (uri name : Str) (hn : suffix name ≠ py".md") (F : Layout.File) (hF : F.Ok py"en") (text : Str)
    (ht : splitLines text = F.texts) :
    (∀ sets tests fn, build eng printable es uri name text = .ok (.suite sets tests, fn) →
      ∃ tss, List.Forall₂ (fun (G : Layout.File) ts => build eng printable es uri name G.texts.flatten = .ok (.suite sets ts, fn)) F.rowPieces tss ∧
        tests.map Test.unplaced = tss.flatten.map Test.unplaced) ∧
    ((∀ G ∈ F.rowPieces, ∃ sets ts fn, build eng printable es uri name G.texts.flatten = .ok (.suite sets ts, fn)) →
      ∃ sets tests fn, build eng printable es uri name text = .ok (.suite sets tests, fn)) :=
  cuts_suite eng printable es uri name hn F hF F.rowPieces (rows_cut F) text ht

/-- **C82, rows written out: pickles.** A text in which each row is written as an outline of its own has the cases and the pickles of the text with the outlines, ids apart. -/
theorem C82_unrolled_pickles {m : CState} (hm : m.Valid) {F : Layout.File} (hF : F.Ok m.defaultName) {text text' : Str} (ht : splitLines text = F.texts)
    (ht' : splitLines text' = F.unrolled.texts) (b : BState) (stop : Bool) :
    ∃ d d', (parse (classicCfg astBuilder stop) text m b).1 = .ok (some d) ∧ (parse (classicCfg astBuilder stop) text' m b).1 = .ok (some d') ∧
      d'.cases.map Case.content = d.cases.map Case.content ∧
      ∀ (eng : Engine) (uri : Str) (n k : Nat), (compile eng uri d' n).map (fun p => p.1.map Pickle.content) = (compile eng uri d k).map fun p => p.1.map Pickle.content := by
  obtain ⟨d, d', f, f', h1, h2, _, _, _, _, _, h3, h4⟩ := same_cuts (F' := F.unrolled) (rows_cut F) (by rw [← unrolled_pieces]; exact rows_cut _) rfl ⟨rfl, rfl⟩ hm hF (unrolled_ok hF) ht ht' b stop
  exact ⟨d, d', h1, h2, h3, h4⟩

/-- **C82, rows written out: suites.** And it builds just if this does, to the same suite, except for positions. -/
theorem C82_unrolled_suite (eng : Engine) (printable : Char → Bool) (es : List DirEntry) (uri name : Str) (hn : suffix name ≠ py".md") (F : Layout.File) (hF : F.Ok py"en")
    (text text' : Str) (ht : splitLines text = F.texts) (ht' : splitLines text' = F.unrolled.texts) (sets : List Setting) (fn : Option Str) :
    (∀ tests, build eng printable es uri name text = .ok (.suite sets tests, fn) →
      ∃ tests', build eng printable es uri name text' = .ok (.suite sets tests', fn) ∧ tests'.map Test.unplaced = tests.map Test.unplaced) ∧
    ∀ tests', build eng printable es uri name text' = .ok (.suite sets tests', fn) →
      ∃ tests, build eng printable es uri name text = .ok (.suite sets tests, fn) ∧ tests.map Test.unplaced = tests'.map Test.unplaced := by
  obtain ⟨d, d', f, f', h1, h2, h3, h4, h5, h6, h7, h8, h9⟩ := same_cuts (F' := F.unrolled) (m := defaultMatcher) (rows_cut F) (by rw [← unrolled_pieces]; exact rows_cut _) rfl ⟨rfl, rfl⟩
    default_valid hF (unrolled_ok hF) ht ht' newBuilder false
  rw [← classic_file hn] at h1 h2
  exact ⟨fun tests hb => suite_same h1 h2 h3 h4 h5 h6 (h7 es) h8 (h9 eng uri 0 0) hb,
    fun tests hb => suite_same h2 h1 h4 h3 h5.symm h6.symm (h7 es).symm h8.symm (h9 eng uri 0 0).symm hb⟩

/-- **C82, another order.** A file with the same scenarios and rows in another order builds just as well, and has the same tests, in another order. -/
theorem C82_reorder (eng : Engine) (printable : Char → Bool) (es : List DirEntry) (uri name : Str) (hn : suffix name ≠ py".md") (F F' : Layout.File) (hF : F.Ok py"en")
    (hF' : F'.Ok py"en") (text text' : Str) (ht : splitLines text = F.texts) (ht' : splitLines text' = F'.texts) (hp : F.rowPieces.Perm F'.rowPieces)
    (sets : List Setting) (tests : List Test) (fn : Option Str) (hb : build eng printable es uri name text = .ok (.suite sets tests, fn)) :
    ∃ sets' tests' fn', build eng printable es uri name text' = .ok (.suite sets' tests', fn') ∧ (tests.map Test.unplaced).Perm (tests'.map Test.unplaced) :=
  cuts_reorder eng printable es uri name hn F F' hF hF' _ _ (rows_cut F) (rows_cut F') text text' ht ht' hp sets tests fn hb

/-- **C82, fewer rows.** A file with some of the scenarios and rows of another one, in the same order, builds if the other one does; its tests are some of the other one's, in
the same order. -/
theorem C82_remove (eng : Engine) (printable : Char → Bool) (es : List DirEntry) (uri name : Str) (hn : suffix name ≠ py".md") (F F' : Layout.File) (hF : F.Ok py"en")
    (hF' : F'.Ok py"en") (text text' : Str) (ht : splitLines text = F.texts) (ht' : splitLines text' = F'.texts) (hp : F'.rowPieces.Sublist F.rowPieces)
    (sets : List Setting) (tests : List Test) (fn : Option Str) (hb : build eng printable es uri name text = .ok (.suite sets tests, fn)) :
    ∃ sets' tests' fn', build eng printable es uri name text' = .ok (.suite sets' tests', fn') ∧ (tests'.map Test.unplaced).Sublist (tests.map Test.unplaced) :=
  cuts_remove eng printable es uri name hn F F' hF hF' _ _ (rows_cut F) (rows_cut F') text text' ht ht' hp sets tests fn hb

/-! ### The hypotheses can be met -/

/-- The sample text has an outline with two rows, and a scenario; the text with the second row only: -/
example : Sample.layout.rowPieces.length = 3 ∧ (Sample.layout.rowPieces[1]?.map fun G => (G.texts.drop 11).flatten) = some py"  @x
  Scenario Outline: buy <what>
    When the user buys <what>
      \"\"\"json
      { \"a\": 1 }
      \"\"\"
    Then the price is <price>

    @cheap
    Examples:
      | what | price |
      | milk | 2     |

" := by decide +kernel

example : (testsOf Sample.text).length = 3 ∧ Sample.layout.rowPieces.map (fun G => testsOf G.texts.flatten) = (testsOf Sample.text).map fun t => [t] := by decide +kernel

/-- The rows written out: -/
example : Sample.layout.unrolled.texts.length = 39 ∧ Sample.layout.unrolled.feature.scenarios.length = 2 := by decide +kernel

example (eng : Engine) (printable : Char → Bool) (es : List DirEntry) (uri : Str) (sets : List Setting) (fn : Option Str) (tests : List Test)
    (hb : build eng printable es uri py"a.feature" Sample.text = .ok (.suite sets tests, fn)) :
      ∃ tests', build eng printable es uri py"a.feature" Sample.layout.unrolled.texts.flatten = .ok (.suite sets tests', fn) ∧
        tests'.map Test.unplaced = tests.map Test.unplaced :=
  (C82_unrolled_suite eng printable es uri py"a.feature" (by decide +kernel) Sample.layout Sample.layout_ok Sample.text _ Sample.layout_texts (by decide +kernel) sets fn).1 tests hb

example : testsOf Sample.layout.unrolled.texts.flatten = testsOf Sample.text := by decide +kernel

namespace Sample

/-- Rows of an outline with two columns. -/
def rowLines (rs : List Str) : List Layout.Ln := rs.map fun r => ⟨r, []⟩

/-- An outline with rows in an order, and a file with only this outline. -/
def priced (rs : List Str) : Layout.File := inRow [{ outline with examples := [⟨[], ⟨py"    Examples:\n", [], [], []⟩, rowLines rs⟩] }]

end Sample

/-- Other orders of the rows. -/
example : (Sample.priced [py"|what|price|\n", py"|egg|1|\n", py"|milk|2|\n"]).rowPieces.Perm (Sample.priced [py"|what|price|\n", py"|milk|2|\n", py"|egg|1|\n"]).rowPieces :=
  List.Perm.swap _ _ _

/-- And fewer rows. -/
example : (Sample.priced [py"|what|price|\n", py"|milk|2|\n"]).rowPieces.Sublist (Sample.priced [py"|what|price|\n", py"|egg|1|\n", py"|milk|2|\n"]).rowPieces :=
  List.Sublist.cons _ (List.Sublist.refl _)

end Gherkin
