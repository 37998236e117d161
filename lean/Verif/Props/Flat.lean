import Verif.Proofs.PartsFlat
import Verif.Props.Rows

/-! # C83: rules and backgrounds are abbreviations -/

namespace Gherkin

open Pickles Robot Auto

/-! ### A test is made from the pickle and a few things of the case -/

def callFor (printable : Char → Bool) (k : Option Str) (q : Option KType × Str × Option PArg) : Robot.Item :=
  .call (callTokens ((if q.1 = some .unknown then [] else k.getD []) ++ q.2.1) (callArgs printable q.2.2))

/-- The test of a pickle and the rest of its case; `n` tags are the feature's. -/
def faceTest (printable : Char → Bool) (n : Nat) (c : Case.Face) (p : Pickle.Content) : Test where
  name := p.name ++ c.suffix
  pos := none
  body := (if c.description = [] then [] else [Robot.Item.documentation (strip c.description)]) ++
      (if c.tags.drop n = [] then [] else [Robot.Item.tags ((c.tags.drop n).map fun t => t.drop 1)]) ++ List.zipWith (callFor printable) c.keywords p.steps

theorem exactTest_face {printable : Char → Bool} {ft own : List Tag} {c : Case} (h : c.tags = ft ++ own) (p : Pickle) :
    exactTest printable own c p = faceTest printable ft.length c.face p.content := by
  have e1 : c.face.tags.drop ft.length = own.map Tag.name := by
    simp only [Case.face, h, List.map_append]
    rw [List.drop_append_of_le_length (by simp)]
    simp
  unfold exactTest faceTest
  rw [e1]
  have e2 : (if own.map Tag.name = [] then ([] : List Robot.Item) else [Robot.Item.tags ((own.map Tag.name).map fun t => t.drop 1)]) =
      if own = [] then [] else [Robot.Item.tags (own.map fun t => t.name.drop 1)] := by
    cases own with
    | nil => rfl
    | cons a l => simp [Function.comp_def]
  rw [e2]
  have e3 : (c.steps.zip p.steps).map (fun (s, q) => Robot.Item.call (callTokens ((if q.type = some .unknown then [] else s.keyword.getD []) ++ q.text) (callArgs printable q.arg))) =
      List.zipWith (callFor printable) c.face.keywords p.content.steps := by
    simp only [Case.face, Pickle.content, List.zipWith_map]
    rw [List.map_zip_eq_zipWith]
    rfl
  rw [e3]
  rfl

theorem forall₂_zip_map {α β γ δ : Type} {g : γ → δ} {f : α → β → δ} : ∀ {as : List α} {bs : List β} {cs : List γ}, as.length = bs.length →
    List.Forall₂ (fun (x : α × β) c => g c = f x.1 x.2) (as.zip bs) cs → cs.map g = List.zipWith f as bs
  | [], [], _, _, h => by cases h; rfl
  | [], _ :: _, _, hl, _ => by simp at hl
  | _ :: _, [], _, hl, _ => by simp at hl
  | a :: as, b :: bs, _, hl, h => by
    cases h with
    | cons h1 h2 => simp only [List.map_cons, List.zipWith_cons_cons, h1, forall₂_zip_map (by simpa using hl) h2]

/-- The tests of a suite, positions apart, are made from the pickles and from what tests take from the cases. -/
theorem suite_faces {eng : Engine} {printable : Char → Bool} {es : List DirEntry} {uri name content : Str} {d : Document} {f : Feature}
    (h : parseFile name content = .ok (some d)) (hf : d.feature = some f) {ps : List Pickle} {n : Nat} (hc : compile eng uri d 0 = .ok (ps, n)) :
    ∃ tests, build eng printable es uri name content = .ok (.suite (settings es f) tests, f.name) ∧
      tests.map Test.unplaced = List.zipWith (faceTest printable f.tags.length) (d.cases.map Case.face) (ps.map Pickle.content) := by
  obtain ⟨_, tests, hb, _⟩ := built eng printable es uri name content d f h hf ps n hc
  refine ⟨tests, hb, ?_⟩
  obtain ⟨d', f', ps', n', g1, g2, g3, g4, _⟩ := build_suite hb
  rw [h] at g1
  simp only [Except.ok.injEq, Option.some.injEq] at g1
  subst g1
  rw [hf] at g2
  simp only [Option.some.injEq] at g2
  subst g2
  rw [hc] at g3
  simp only [Except.ok.injEq, Prod.mk.injEq] at g3
  obtain ⟨rfl, rfl⟩ := g3
  obtain ⟨hr, hbf, _⟩ := parseFile_ready h
  obtain ⟨lang, _, hp⟩ := compile_forall₂ hbf hc
  obtain ⟨tests', t1, t2⟩ := forall₂_each (f := testCase printable (d.withUri uri) (f.tags.map (·.id)))
    (Q := fun c p t => t.unplaced = faceTest printable f.tags.length c.face p.content)
    (forall₂_and_mem hp) (by
      rintro c p ⟨h1, h2⟩
      obtain ⟨t, own, e1, e2, _, e3⟩ := testCase_full (printable := printable) hr (uri := uri) hf h1 h2
      exact ⟨t, e1, by rw [e3, exactTest_face e2]⟩)
  rw [g4] at t1
  simp only [Except.ok.injEq] at t1
  subst t1
  rw [List.zipWith_map]
  exact forall₂_zip_map hp.length_eq t2

/-- Files whose features have the same name, number of tags and settings, whose cases show the same and whose pickles say the same, build to the same suite, positions apart. -/
theorem suite_same_faces {eng : Engine} {printable : Char → Bool} {es : List DirEntry} {uri name text text' : Str} {d d' : Document} {f f' : Feature}
    (hd : parseFile name text = .ok (some d)) (hd' : parseFile name text' = .ok (some d')) (hf : d.feature = some f) (hf' : d'.feature = some f') (hn : f'.name = f.name)
    (ht : f'.tags.length = f.tags.length) (hs : settings es f' = settings es f) (hc : d'.cases.map Case.face = d.cases.map Case.face)
    (hp : (compile eng uri d' 0).map (fun p => p.1.map Pickle.content) = (compile eng uri d 0).map fun p => p.1.map Pickle.content)
    {sets : List Setting} {tests : List Test} {fn : Option Str} (hb : build eng printable es uri name text = .ok (.suite sets tests, fn)) :
    ∃ tests', build eng printable es uri name text' = .ok (.suite sets tests', fn) ∧ tests'.map Test.unplaced = tests.map Test.unplaced := by
  obtain ⟨d0, f0, ps, n, g1, g2, g3, _, g5, g6⟩ := build_suite hb
  have hd0 : d0 = d := by rw [hd] at g1; simpa using g1.symm
  subst hd0
  have hf0 : f0 = f := by rw [hf] at g2; simpa using g2.symm
  subst hf0
  obtain ⟨ts, b1, b2⟩ := suite_faces (printable := printable) (es := es) hd hf g3
  have : ts = tests := by rw [hb] at b1; simp only [Except.ok.injEq, Prod.mk.injEq, File.suite.injEq] at b1; exact b1.1.2.symm
  subst this
  rw [g3] at hp
  rcases hq : compile eng uri d' 0 with x | ⟨qs, k⟩
  · rw [hq] at hp; cases hp
  · rw [hq] at hp
    have hp' : qs.map Pickle.content = ps.map Pickle.content := by simpa [Except.map] using hp
    obtain ⟨ts', c1, c2⟩ := suite_faces (printable := printable) (es := es) hd' hf' hq
    rw [hs, hn, ← g5, ← g6] at c1
    exact ⟨ts', c1, by rw [c2, b2, ht, hc, hp']⟩

/-! ### What the flat text says -/

theorem tagged_lines (m : CState) (ts : List Layout.Ln) : tagged m ts = ts.flatMap fun l => (tokOf m .tagLine l.text 0).items.map fun i => ⟨0, .zero, i.text⟩ := by
  have h : ∀ n, (tagToks m n ts).map (fun t => t.items.map fun i => (⟨0, .zero, i.text⟩ : Tag)) = ts.map fun l => (tokOf m .tagLine l.text 0).items.map fun i => ⟨0, .zero, i.text⟩ :=
    Gherkin.place_same (g := fun t : Token => t.items.map fun i => (⟨0, .zero, i.text⟩ : Tag)) (fun n l => by rw [tok_items]) ts
  unfold tagged bareTags
  rw [List.flatMap_def, List.flatMap_def, h 0]

theorem tagged_append (m : CState) (a b : List Layout.Ln) : tagged m (a ++ b) = tagged m a ++ tagged m b := by
  simp only [tagged_lines, List.flatMap_append]

theorem back_steps (m : CState) (b : Option Layout.Background) : backSteps m b = (Layout.stepsOf b).map (stepped m) := by
  cases b with
  | none => rfl
  | some b =>
    have h1 : ∀ n, (stepsCst m n b.steps).map bareStep = b.steps.map (stepped m) := Gherkin.place_same (g := bareStep) (fun n x => step_bare m n x) b.steps
    simp only [backSteps, Layout.stepsOf, Option.toList_some, List.map_cons, List.map_nil, List.flatMap_cons, List.flatMap_nil, List.append_nil]
    simp only [back, bareBackground, Cst.CBackground.ast, Background.change, steps_bare]
    exact h1 _

theorem scen_under (m : CState) (ts : List Layout.Ln) (ss : List Layout.Step) (s : Layout.Scenario) :
    scen m (s.under ts ss) = (scen m s).under (tagged m ts) (ss.map (stepped m)) := by
  rw [scen_says, scen_says]
  unfold saying Layout.Scenario.under Scenario.under
  simp only [tagged_append, List.isEmpty_map]
  congr 1
  split
  · rfl
  · rw [List.map_append]

theorem under_faces (ft rt : List Tag) (bg : List Step) (s : Scenario) : (s.cases (ft ++ rt) bg).map Case.face = ((s.under rt bg).cases ft []).map Case.face := by
  unfold Scenario.cases
  rw [show (s.under rt bg).rows = s.rows from rfl, List.map_map, List.map_map]
  refine List.map_congr_left fun r _ => ?_
  have h1 : (Case.steps ⟨ft ++ rt, bg, s, r⟩) = Case.steps ⟨ft, [], s.under rt bg, r⟩ := by
    unfold Case.steps
    by_cases he : s.steps = []
    · simp [Scenario.under, he]
    · simp [Scenario.under, he]
  simp only [Function.comp, Case.face, h1, Case.tags, Scenario.under, List.append_assoc]
  rfl

theorem flat_scenarios (F : Layout.File) (m : CState) : (featured m F.flat.feature).cases.map Case.face = (featured m F.feature).cases.map Case.face := by
  rw [featured_cases, featured_cases]
  simp only [Layout.File.flat, List.flatMap_nil, List.append_nil, List.flatMap_append, List.map_append, List.flatMap_map, List.map_flatMap, List.flatMap_assoc]
  have h0 : backSteps m (none : Option Layout.Background) = [] := rfl
  congr 1
  · refine List.flatMap_congr fun s _ => ?_
    rw [scen_under, ← back_steps, h0]
    have := under_faces (tagged m F.feature.tags) (tagged m []) (backSteps m F.feature.background) (scen m s)
    rw [← this]
    simp [tagged_lines]
  · refine List.flatMap_congr fun r _ => List.flatMap_congr fun s _ => ?_
    rw [scen_under, List.map_append, ← back_steps, ← back_steps, h0]
    exact (under_faces (tagged m F.feature.tags) (tagged m r.tags) (backSteps m F.feature.background ++ backSteps m r.background) (scen m s)).symm

/-- The condition for what a feature says. -/
def PlainCases (eng : Engine) (cs : List Case) : Prop :=
  ∀ c ∈ cs, c.scenario.steps ≠ [] → ∀ e h r, c.row = some (e, h, r) → ∀ s ∈ c.background, Leaves eng h r s

theorem plain_scenario {eng : Engine} {tags : List Tag} {bg : List Step} {s : Scenario} (h : PlainCases eng (s.cases tags bg)) :
    s.steps ≠ [] → ∀ e ∈ s.examples, ∀ x ∈ e.header, ∀ r ∈ e.body, ∀ st ∈ bg, Leaves eng x r st := by
  intro hne e he x hx r hr
  refine h ⟨tags, bg, s, some (e, x, r)⟩ ?_ hne e x r rfl
  refine List.mem_map.2 ⟨some (e, x, r), ?_, rfl⟩
  unfold Scenario.rows
  cases hs : s.examples with
  | nil => rw [hs] at he; simp at he
  | cons a l =>
    simp only
    rw [← hs]
    exact List.mem_flatMap.2 ⟨e, he, List.mem_flatMap.2 ⟨x, by simpa using hx, List.mem_map.2 ⟨r, hr, rfl⟩⟩⟩

theorem flat_outcome (F : Layout.File) (m : CState) (eng : Engine) (uri l : Str) (hl : (featured m F.feature).language = some l) (hp : PlainCases eng (featured m F.feature).cases) :
    outcome (compile eng uri ⟨some (featured m F.flat.feature), []⟩) = outcome (compile eng uri ⟨some (featured m F.feature), []⟩) := by
  rw [featured_outcome m F.flat.feature eng uri l hl _ rfl, featured_outcome m F.feature eng uri l hl _ rfl]
  rw [featured_cases] at hp
  simp only [Layout.File.flat, List.flatMap_nil, List.append_nil, List.map_append, List.map_map, List.map_flatMap]
  have h0 : backSteps m (none : Option Layout.Background) = [] := rfl
  congr 2
  · refine List.map_congr_left fun s hs => ?_
    simp only [Function.comp]
    rw [scen_under, ← back_steps, h0]
    have := (under_alike eng uri (tagged m F.feature.tags) (tagged m []) (backSteps m F.feature.background) (scen m s) l (plain_scenario (tags := tagged m F.feature.tags) ?_)).outcome
    · rw [← this]
      simp [tagged_lines]
    · intro c hc
      exact hp c (List.mem_append.2 (.inl (List.mem_flatMap.2 ⟨s, hs, hc⟩)))
  · refine List.flatMap_congr fun r hr => List.map_congr_left fun s hs => ?_
    simp only [Function.comp]
    rw [scen_under, List.map_append, ← back_steps, ← back_steps, h0]
    refine ((under_alike eng uri (tagged m F.feature.tags) (tagged m r.tags) (backSteps m F.feature.background ++ backSteps m r.background) (scen m s) l
      (plain_scenario (tags := tagged m F.feature.tags ++ tagged m r.tags) ?_)).outcome).symm
    · intro c hc
      exact hp c (List.mem_append.2 (.inr (List.mem_flatMap.2 ⟨r, hr, List.mem_flatMap.2 ⟨s, hs, hc⟩⟩)))

theorem face_change (c : Case) : (c.change unplacing).face = c.face := by
  obtain ⟨ot, bg, s, row⟩ := c
  have hs : (Case.change unplacing ⟨ot, bg, s, row⟩).steps = (Case.mk ot bg s row).steps.map (Step.change unplacing) := by
    unfold Case.steps
    simp only [Case.change, Scenario.change, List.map_eq_nil_iff]
    split
    · rfl
    · rw [List.map_append]
  have h1 : ∀ ts : List Tag, (ts.map (Tag.change unplacing)).map Tag.name = ts.map Tag.name := by intro ts; simp [Tag.change, Function.comp_def]
  have h2 : ∀ ss : List Step, (ss.map (Step.change unplacing)).map Step.keyword = ss.map Step.keyword := by intro ss; simp [Step.change, Function.comp_def]
  unfold Case.face
  rw [hs, h2]
  cases row with
  | none =>
    simp only [Case.change, Case.tags, Case.suffix, Option.map_none, List.map_append, Scenario.change, h1, Option.elim_none, List.append_nil]
  | some x =>
    obtain ⟨e, h, r⟩ := x
    have h3 : rowSuffix (h.change unplacing) (r.change unplacing) = rowSuffix h r := by
      unfold rowSuffix
      simp [Row.change, Cell.change, List.zip_map, List.flatMap_map]
    simp only [Case.change, Case.tags, Case.suffix, Option.map_some, List.map_append, Scenario.change, h1, Examples.change, h3, Option.elim_some]

theorem faces_unplaced (f : Feature) : f.unplaced.cases.map Case.face = f.cases.map Case.face := by
  unfold Feature.unplaced
  rw [cases_change, List.map_map]
  exact List.map_congr_left fun c _ => face_change c

theorem texts_change (s : Step) : (s.change unplacing).texts = s.texts := by
  unfold Step.texts
  congr 1
  simp only [Step.change]
  cases s.arg with
  | none => rfl
  | doc d => rfl
  | table t => simp [StepArg.change, StepArg.texts, DataTable.change, Row.change, Cell.change, List.flatMap_map, Function.comp_def]

theorem plain_unplaced {eng : Engine} {f : Feature} (h : PlainCases eng f.cases) : PlainCases eng f.unplaced.cases := by
  unfold Feature.unplaced
  rw [cases_change]
  intro c' hc' hne e' x' r' hrow s' hs' t ht
  obtain ⟨c, hc, rfl⟩ := List.mem_map.1 hc'
  simp only [Case.change, Option.map_eq_some_iff, Prod.mk.injEq] at hrow
  obtain ⟨⟨e, x, r⟩, h1, h2, h3, h4⟩ := hrow
  simp only [Case.change, List.mem_map] at hs'
  obtain ⟨s, h5, rfl⟩ := hs'
  rw [texts_change] at ht
  have := h c hc (by intro h0; exact hne (by simp [Case.change, Scenario.change, h0])) e x r h1 s h5 t ht
  rw [← this, ← h3, ← h4]
  refine interpolateFrom_values eng ?_ ?_ 0 t <;> simp [Row.change, Cell.change, Function.comp_def]

/-! ### C83 -/

theorem flat_ok {F : Layout.File} {name : Str} (hF : F.Ok name) : F.flat.Ok name := by
  refine file_ok (F := F) (G := F.flat) rfl rfl ?_ hF
  rintro d ⟨h1, h2, h3, h4, h5⟩
  have key : ∀ {s : Layout.Scenario} {ts : List Layout.Ln} {ss : List Layout.Step}, s.Ok d → Layout.TagsOk d ts → (∀ x ∈ ss, x.Ok d) → (s.under ts ss).Ok d := by
    rintro s ts ss ⟨s1, s2, s3, s4⟩ ht hs
    refine ⟨?_, s2, ?_, s4⟩
    · intro t h
      rcases List.mem_append.1 h with h | h
      · exact ht t h
      · exact s1 t h
    · intro x hx
      simp only [Layout.Scenario.under] at hx
      split at hx
      · simp at hx
      · rcases List.mem_append.1 hx with hx | hx
        · exact hs x hx
        · exact s3 x hx
  have hb : ∀ {b : Option Layout.Background}, (∀ x ∈ b, x.Ok d) → ∀ x ∈ Layout.stepsOf b, x.Ok d := by
    intro b hb x hx
    cases b with
    | none => simp [Layout.stepsOf] at hx
    | some b => exact (hb b rfl).2 x (by simpa [Layout.stepsOf] using hx)
  refine ⟨h1, h2, by simp [Layout.File.flat], ?_, by simp [Layout.File.flat]⟩
  intro x hx
  simp only [Layout.File.flat, List.mem_append, List.mem_map, List.mem_flatMap] at hx
  rcases hx with ⟨s, hs, rfl⟩ | ⟨r, hr, s, hs, rfl⟩
  · exact key (h4 s hs) (by intro t ht; simp at ht) (hb h3)
  · obtain ⟨r1, r2, r3, r4⟩ := h5 r hr
    refine key (r4 s hs) r1 ?_
    intro y hy
    rcases List.mem_append.1 hy with hy | hy
    · exact hb h3 y hy
    · exact hb r3 y hy

/-- The documents of a text and of the one without rules and backgrounds. -/
theorem flat_says {m : CState} (hm : m.Valid) {F : Layout.File} (hF : F.Ok m.defaultName) {text text' : Str} (ht : splitLines text = F.texts) (ht' : splitLines text' = F.flat.texts)
    (b : BState) (stop : Bool) :
    ∃ d d' f f', (parse (classicCfg astBuilder stop) text m b).1 = .ok (some d) ∧ (parse (classicCfg astBuilder stop) text' m b).1 = .ok (some d') ∧
      d.feature = some f ∧ d'.feature = some f' ∧ f'.name = f.name ∧ f'.tags.length = f.tags.length ∧ (∀ es, settings es f' = settings es f) ∧
      d'.cases.map Case.face = d.cases.map Case.face ∧
      ∀ (eng : Engine) (uri : Str) (n k : Nat), d.BackgroundPlain eng →
        (compile eng uri d' n).map (fun p => p.1.map Pickle.content) = (compile eng uri d k).map fun p => p.1.map Pickle.content := by
  obtain ⟨d, f, h1, h2, h3⟩ := layout_says hm hF ht b stop
  obtain ⟨d', f', h1', h2', h3'⟩ := layout_says hm (flat_ok hF) ht' b stop
  have hM : fileMatcher (Classic.reset m) F.flat = fileMatcher (Classic.reset m) F := rfl
  rw [hM] at h3'
  generalize fileMatcher (Classic.reset m) F = M at h3 h3'
  obtain ⟨p1, p2, p3⟩ := same_head (f := F.feature) (g := F.flat.feature) ⟨rfl, rfl⟩ M
  have hcase : ∀ (e : Document) (g : Feature), e.feature = some g → e.cases = g.cases := by
    intro e g he
    simp only [Document.cases, he, Option.toList_some, List.flatMap_cons, List.flatMap_nil, List.append_nil]
  refine ⟨d, d', f, f', h1, h1', h2, h2', ?_, ?_, ?_, ?_, ?_⟩
  · rw [show f'.name = f'.unplaced.name from rfl, show f.name = f.unplaced.name from rfl, h3, h3', p1]
  · have hnm : ∀ x : Feature, x.unplaced.tags.length = x.tags.length := by
      intro x
      simp [Feature.unplaced, Feature.change]
    rw [← hnm f', ← hnm f, h3, h3', p2]
  · intro es
    rw [← settings_unplaced es f', ← settings_unplaced es f, h3, h3']
    unfold settings
    rw [p2, p3]
  · rw [hcase d' f' h2', hcase d f h2, ← faces_unplaced f', ← faces_unplaced f, h3, h3', flat_scenarios]
  · intro eng uri n k hp
    obtain ⟨l, _, hlg, _⟩ := C49_descriptions stop text m hm b d h1 f h2
    have hl1 : (featured M F.feature).language = some l := by rw [← h3]; exact hlg
    have key : ∀ (e : Document) (g : Feature) (x : Layout.Feature), e.feature = some g → g.unplaced = featured M x → ∀ k,
        (compile eng uri e k).map (fun p => p.1.map Pickle.content) = outcome (compile eng uri ⟨some (featured M x), []⟩) := by
      intro e g x he hg k
      exact compile_alike eng uri he rfl (by rw [← hg, unplaced_twice]) k 0
    rw [key d' f' F.flat.feature h2' h3' n, key d f F.feature h2 h3 k]
    refine flat_outcome F M eng uri l hl1 ?_
    rw [← h3]
    refine plain_unplaced ?_
    rw [← hcase d f h2]
    intro c hc hne e h r hrow s hs x hx
    exact hp c hc hne e h r hrow s hs x hx

/-- **C83, the pickles.** Take a text that is read, and the one without rules and backgrounds: each scenario gets the tag lines of its rule above its own, and, if it has steps, the steps
of the backgrounds before its own. This is read too. Its cases show the same (description, row, tags and keywords), and its pickles are the same, ids apart, if no placeholder of an example
row is in the background steps. -/
theorem C83_pickles {m : CState} (hm : m.Valid) {F : Layout.File} (hF : F.Ok m.defaultName) {text text' : Str} (ht : splitLines text = F.texts)
    (ht' : splitLines text' = F.flat.texts) (b : BState) (stop : Bool) :
    ∃ d d', (parse (classicCfg astBuilder stop) text m b).1 = .ok (some d) ∧ (parse (classicCfg astBuilder stop) text' m b).1 = .ok (some d') ∧
      d'.cases.map Case.face = d.cases.map Case.face ∧
      ∀ (eng : Engine) (uri : Str) (n k : Nat), d.BackgroundPlain eng →
        (compile eng uri d' n).map (fun p => p.1.map Pickle.content) = (compile eng uri d k).map fun p => p.1.map Pickle.content := by
  obtain ⟨d, d', f, f', h1, h2, _, _, _, _, _, h3, h4⟩ := flat_says hm hF ht ht' b stop
  exact ⟨d, d', h1, h2, h3, h4⟩

/-- **C83, the suites.** And the file builds just if the other one does, to the same suite, except for positions. -/
theorem C83_suite (eng : Engine) (printable : Char → Bool) (es : List DirEntry) (uri name : Str) (hn : suffix name ≠ py".md") (F : Layout.File) (hF : F.Ok py"en")
    (text text' : Str) (ht : splitLines text = F.texts) (ht' : splitLines text' = F.flat.texts) (hp : ∀ d, parseFile name text = .ok (some d) → d.BackgroundPlain eng)
    (sets : List Setting) (fn : Option Str) :
    (∀ tests, build eng printable es uri name text = .ok (.suite sets tests, fn) →
      ∃ tests', build eng printable es uri name text' = .ok (.suite sets tests', fn) ∧ tests'.map Test.unplaced = tests.map Test.unplaced) ∧
    ∀ tests', build eng printable es uri name text' = .ok (.suite sets tests', fn) →
      ∃ tests, build eng printable es uri name text = .ok (.suite sets tests, fn) ∧ tests.map Test.unplaced = tests'.map Test.unplaced := by
  obtain ⟨d, d', f, f', h1, h2, h3, h4, h5, h6, h7, h8, h9⟩ := flat_says (m := defaultMatcher) default_valid hF ht ht' newBuilder false
  rw [← classic_file hn] at h1 h2
  have h9 := fun n k => h9 eng uri n k (hp d h1)
  exact ⟨fun tests hb => suite_same_faces h1 h2 h3 h4 h5 h6 (h7 es) h8 (h9 0 0) hb,
    fun tests hb => suite_same_faces h2 h1 h4 h3 h5.symm h6.symm (h7 es).symm h8.symm (h9 0 0).symm hb⟩

theorem leave_plain {eng : Engine} {x : Str} (hx : '<' ∉ x) {vs : List Cell} : ∀ {hs : List Cell} {i : Nat}, (∀ h ∈ hs, h.value.any isMeta = false) → i + hs.length ≤ vs.length →
    interpolateFrom eng vs i hs x = .ok x
  | [], _, _, _ => rfl
  | h :: hs, i, hh, hl => by
    rw [interpolateFrom]
    simp only [List.length_cons] at hl
    rw [List.getElem?_eq_getElem (by omega)]
    simp only
    rw [reSub_plain (hh h (by simp))]
    simp only
    have : replaceAll ('<' :: (h.value ++ ['>'])) (vs[i]'(by omega)).value x = x := by
      unfold replaceAll
      have := replaceGo_none (old := '<' :: (h.value ++ ['>'])) (new := (vs[i]'(by omega)).value) (s := x) ?_
      · simpa using this
      · intro hi
        exact hx (hi.subset (by simp))
    rw [this]
    exact leave_plain hx (fun y hy => hh y (by simp [hy])) (by omega)

/-- **C83, when this is so.** No `<` in the texts of the background steps, and no special characters of regular expressions in the headers of the examples. -/
theorem C83_plain {m : CState} {text : Str} {b : BState} {stop : Bool} {d : Document} (h : (parse (classicCfg astBuilder stop) text m b).1 = .ok (some d)) (eng : Engine)
    (hb : ∀ c ∈ d.cases, ∀ s ∈ c.background, ∀ x ∈ s.texts, '<' ∉ x) (hh : ∀ c ∈ d.cases, ∀ e h r, c.row = some (e, h, r) → ∀ v ∈ h.cells, v.value.any isMeta = false) :
    d.BackgroundPlain eng := by
  have hr := parsed_ready classic_lawful classic_filling h
  intro c hc _ e x r hrow s hs t ht
  obtain ⟨a1, a2, a3⟩ := (case_ids hc).2.2.2 e x r hrow
  obtain ⟨f, hf⟩ : ∃ f, d.feature = some f := by
    cases hf : d.feature with
    | none => simp [Document.cases, hf] at hc
    | some f => exact ⟨f, rfl⟩
  have hl := hr.tables e (by simp only [Document.examples, List.mem_flatMap]; exact ⟨_, (case_nodes hf hc).1, a1⟩) x a2 r a3
  exact leave_plain (hb c hc s hs t ht) (hh c hc e x r hrow) (by omega)

/-! ### The hypotheses can be met -/

namespace Sample

/-- The condition of `C83_plain`, checked. -/
def plainB (d : Document) : Bool :=
  d.cases.all fun c => (c.background.all fun s => s.texts.all fun x => !x.contains '<') && (c.row.all fun x => x.2.1.cells.all fun v => !v.value.any isMeta)

theorem plainB_ok {text : Str} {d : Document} {name : Str} (hn : suffix name ≠ py".md") (h : parseFile name text = .ok (some d)) (hb : plainB d = true) (eng : Engine) : d.BackgroundPlain eng := by
  rw [classic_file hn] at h
  unfold plainB at hb
  rw [List.all_eq_true] at hb
  refine C83_plain h eng ?_ ?_
  · intro c hc s hs x hx
    have := hb c hc
    simp only [Bool.and_eq_true, List.all_eq_true, Bool.not_eq_true'] at this
    have := this.1 s hs x hx
    simpa using this
  · intro c hc e h r hrow v hv
    have := hb c hc
    simp only [hrow, Option.all_some, Bool.and_eq_true, List.all_eq_true, Bool.not_eq_true'] at this
    exact this.2 v hv

/-- The sample with a background and tags in the rule. -/
def ruledFile : Layout.File :=
  { layout with feature := { layout.feature with
      rules := [⟨[⟨py"  @in-rule\n", []⟩], ⟨py"  Rule: second\n", [], [], []⟩,
        some ⟨⟨py"    Background:\n", [], [], []⟩, [⟨⟨py"      And more\n", []⟩, .none⟩]⟩, [ruleScenario, outline]⟩] } }

theorem layout_en : ∃ name, IsHeader name py"# language: en\n" ∧ dialectFor name = some en.dialect ∧ layout.feature.Ok en.dialect := by
  obtain ⟨a, b, c1, name, d, c2, c3, c4⟩ := layout_ok
  have h1 := (languageName_iff (s := py"# language: en\n")).2 c2
  have h2 : Classic.languageName py"# language: en\n" = some py"en" := by decide +kernel
  rw [h2] at h1
  have h3 : name = py"en" := by simpa using h1.symm
  rw [h3] at c3
  have h4 : dialectFor py"en" = some en.dialect := by decide +kernel
  rw [h4] at c3
  have h5 : en.dialect = d := by simpa using c3
  rw [← h5] at c4
  exact ⟨name, c2, by rw [h3]; exact h4, c4⟩

theorem ruledFile_ok : ruledFile.Ok py"en" := by
  obtain ⟨name, c2, c3, d1, d2, d3, d4, d5⟩ := layout_en
  refine ⟨layout_ok.1, layout_ok.2.1, by intro s hs; simp at hs, name, _, c2, c3, d1, d2, d3, d4, ?_⟩
  intro r hr
  simp only [ruledFile, List.mem_singleton] at hr
  subst hr
  refine ⟨Layout.tagsB_ok (by decide +kernel), Layout.headB_ok (by decide +kernel), ?_, ?_⟩
  · intro x hx
    simp only [Option.mem_def, Option.some.injEq] at hx
    subst hx
    refine ⟨Layout.headB_ok (by decide +kernel), ?_⟩
    intro s hs
    simp only [List.mem_singleton] at hs
    subst hs
    exact ⟨Layout.lnB_ok (by decide +kernel), trivial⟩
  · intro s hs
    simp only [List.mem_cons, List.not_mem_nil, or_false] at hs
    rcases hs with rfl | rfl
    · exact (d5 ⟨[], ⟨py"  Rule: second\n", [], [], []⟩, none, [ruleScenario]⟩ (by simp [layout])).2.2.2 _ (by simp)
    · exact d4 _ (by simp [layout])

/-- A background with a placeholder. -/
def holed : Layout.File :=
  { layout with feature := { layout.feature with background := some ⟨⟨py"  Background:\n", [], [], []⟩, [⟨⟨py"    Given a <what>\n", []⟩, .none⟩]⟩, rules := [] } }

theorem holed_ok : holed.Ok py"en" := by
  obtain ⟨name, c2, c3, d1, d2, d3, d4, d5⟩ := layout_en
  refine ⟨layout_ok.1, layout_ok.2.1, by intro s hs; simp at hs, name, _, c2, c3, d1, d2, ?_, d4, by simp [holed]⟩
  intro x hx
  simp only [holed, Option.mem_def, Option.some.injEq] at hx
  subst hx
  refine ⟨Layout.headB_ok (by decide +kernel), ?_⟩
  intro s hs
  simp only [List.mem_singleton] at hs
  subst hs
  exact ⟨Layout.lnB_ok (by decide +kernel), trivial⟩

end Sample

/-- The scenario of the rule, with the tags and the steps written out: -/
example : ((Sample.ruledFile.flat.feature.scenarios[1]?).map fun s => s.texts.flatten) = some py"  @in-rule
    Example: other
    Given a user
      | name | age |
      | Ann  | 7   |

  # a comment
      And more
      * a step
" := by decide +kernel

example (eng : Engine) (printable : Char → Bool) (es : List DirEntry) (uri : Str) (sets : List Setting) (fn : Option Str) (tests : List Test)
    (hb : build eng printable es uri py"a.feature" Sample.ruledFile.texts.flatten = .ok (.suite sets tests, fn)) :
      ∃ tests', build eng printable es uri py"a.feature" Sample.ruledFile.flat.texts.flatten = .ok (.suite sets tests', fn) ∧
        tests'.map Test.unplaced = tests.map Test.unplaced := by
  refine (C83_suite eng printable es uri py"a.feature" (by decide +kernel) Sample.ruledFile Sample.ruledFile_ok _ _ (by decide +kernel) (by decide +kernel) ?_ sets fn).1 tests hb
  intro d hd
  refine Sample.plainB_ok (by decide +kernel) hd ?_ eng
  have : ((parseFile py"a.feature" Sample.ruledFile.texts.flatten).map fun d => d.map Sample.plainB) = .ok (some true) := by decide +kernel
  rw [hd] at this
  simpa [Except.map] using this

example : testsOf Sample.ruledFile.flat.texts.flatten = testsOf Sample.ruledFile.texts.flatten ∧ (testsOf Sample.ruledFile.texts.flatten).length = 5 := by decide +kernel

/-- **C83, the condition is needed.** Placeholders are filled in the steps of an outline, and not in the background. -/
theorem C83_background_not_filled : ∃ F : Layout.File, F.Ok py"en" ∧ splitLines F.texts.flatten = F.texts ∧ splitLines F.flat.texts.flatten = F.flat.texts ∧
    (testsOf F.flat.texts.flatten).length = 2 ∧ (testsOf F.texts.flatten).length = 2 ∧ testsOf F.flat.texts.flatten ≠ testsOf F.texts.flatten :=
  ⟨Sample.holed, Sample.holed_ok, by decide +kernel, by decide +kernel, by decide +kernel, by decide +kernel, by decide +kernel⟩

end Gherkin
