import Verif.Spec.TagsDown
import Verif.Props.Flat

/-! # C98: tags may be written once above, or at every place below -/

namespace Gherkin

open Pickles Robot Auto

namespace TagsDown

/-- The same for what a scenario says. -/
def lowered (tags : List Tag) (s : Scenario) : Scenario :=
  if s.examples.isEmpty then { s with tags := tags ++ s.tags }
  else { s with tags := [], examples := s.examples.map fun e => { e with tags := tags ++ s.tags ++ e.tags } }

theorem scen_tagged (m : CState) (ts : List Layout.Ln) (s : Layout.Scenario) : scen m (s.tagged ts) = lowered (tagged m ts) (scen m s) := by
  rw [scen_says, scen_says]
  unfold saying Layout.Scenario.tagged lowered
  by_cases he : s.examples = []
  · simp [he, tagged_append]
  · simp only [List.isEmpty_map, List.isEmpty_eq_false_iff.2 he, Bool.false_eq_true, if_false, List.map_map]
    congr 1
    refine List.map_congr_left fun e _ => ?_
    simp [exam, tagged_append]

theorem lowered_any (eng : Engine) (uri : Str) (ts : List Tag) (bg : List Step) (s : Scenario) (lang : Str) :
    compileAny eng uri [] bg (lowered ts s) lang = compileAny eng uri ts bg s lang := by
  unfold compileAny lowered
  by_cases he : s.examples = []
  · simp only [he, List.isEmpty_nil, if_true]
    unfold compileScenario
    simp [scenarioSteps]
  · simp only [List.isEmpty_map, List.isEmpty_eq_false_iff.2 he, Bool.false_eq_true, if_false]
    unfold compileOutline
    have : ∀ (f : Examples → M (List Pickle)) (g : Examples → Examples) (l : List Examples), Pickles.each f (l.map g) = Pickles.each (f ∘ g) l := by
      intro f g l
      induction l with
      | nil => rfl
      | cons a l ih => simp [Pickles.each, ih]
    rw [this]
    congr 2

theorem rows_examples {s : Scenario} (h : s.examples ≠ []) : s.rows = s.examples.flatMap fun e => e.header.toList.flatMap fun h => e.body.map fun r => some (e, h, r) := by
  unfold Scenario.rows
  split
  · rename_i hx; exact absurd hx h
  · rfl

theorem lowered_faces (ts : List Tag) (bg : List Step) (s : Scenario) : ((lowered ts s).cases [] bg).map Case.face = (s.cases ts bg).map Case.face := by
  unfold Scenario.cases lowered
  by_cases he : s.examples = []
  · simp [he, Scenario.rows, Case.face, Case.steps, Case.tags, Case.suffix]
  · simp only [List.isEmpty_eq_false_iff.2 he, Bool.false_eq_true, if_false]
    rw [rows_examples he, rows_examples (s := { s with tags := [], examples := _ }) (by simpa using he)]
    simp only [List.map_flatMap, List.flatMap_map, List.map_map]
    refine List.flatMap_congr fun e _ => List.flatMap_congr fun h _ => List.map_congr_left fun r _ => ?_
    simp [Case.face, Case.steps, Case.tags, Case.suffix]

theorem down_faces (F : Layout.File) (m : CState) : (featured m F.tagsDown.feature).cases.map Case.face = (featured m F.feature).cases.map Case.face := by
  rw [featured_cases, featured_cases]
  have h0 : tagged m [] = [] := rfl
  simp only [Layout.File.tagsDown, List.map_append, List.flatMap_map, List.map_flatMap, scen_tagged, h0, List.nil_append, lowered_faces, tagged_append]

theorem down_outcome (F : Layout.File) (m : CState) (eng : Engine) (uri l : Str) (hl : (featured m F.feature).language = some l) :
    outcome (compile eng uri ⟨some (featured m F.tagsDown.feature), []⟩) = outcome (compile eng uri ⟨some (featured m F.feature), []⟩) := by
  rw [featured_outcome m F.tagsDown.feature eng uri l hl _ rfl, featured_outcome m F.feature eng uri l hl _ rfl]
  have h0 : tagged m [] = [] := rfl
  simp only [Layout.File.tagsDown, List.map_map, List.flatMap_map, Function.comp_def, scen_tagged, h0, List.nil_append, lowered_any, tagged_append]

theorem down_ok {F : Layout.File} {name : Str} (hF : F.Ok name) : F.tagsDown.Ok name := by
  refine file_ok (F := F) (G := F.tagsDown) rfl rfl ?_ hF
  rintro d ⟨h1, h2, h3, h4, h5⟩
  have app : ∀ {a b : List Layout.Ln}, Layout.TagsOk d a → Layout.TagsOk d b → Layout.TagsOk d (a ++ b) := by
    intro a b ha hb t h
    rcases List.mem_append.1 h with h | h
    · exact ha t h
    · exact hb t h
  have nil : Layout.TagsOk d [] := by intro t h; simp at h
  have key : ∀ {s : Layout.Scenario} {ts : List Layout.Ln}, s.Ok d → Layout.TagsOk d ts → (s.tagged ts).Ok d := by
    rintro s ts ⟨s1, s2, s3, s4⟩ ht
    unfold Layout.Scenario.tagged
    split
    · exact ⟨app ht s1, s2, s3, s4⟩
    · refine ⟨nil, s2, s3, ?_⟩
      intro x hx
      obtain ⟨e, he, rfl⟩ := List.mem_map.1 hx
      obtain ⟨e1, e2, e3⟩ := s4 e he
      exact ⟨app (app ht s1) e1, e2, e3⟩
  refine ⟨nil, h2, h3, ?_, ?_⟩
  · intro x hx
    obtain ⟨s, hs, rfl⟩ := List.mem_map.1 hx
    exact key (h4 s hs) h1
  · intro x hx
    obtain ⟨r, hr, rfl⟩ := List.mem_map.1 hx
    obtain ⟨r1, r2, r3, r4⟩ := h5 r hr
    refine ⟨nil, r2, r3, ?_⟩
    intro y hy
    obtain ⟨s, hs, rfl⟩ := List.mem_map.1 hy
    exact key (r4 s hs) (app h1 r1)

/-- The documents of a text and of the one with the tags moved down. -/
theorem down_says {m : CState} (hm : m.Valid) {F : Layout.File} (hF : F.Ok m.defaultName) {text text' : Str} (ht : splitLines text = F.texts)
    (ht' : splitLines text' = F.tagsDown.texts) (b : BState) (stop : Bool) :
    ∃ d d' f f', (parse (classicCfg astBuilder stop) text m b).1 = .ok (some d) ∧ (parse (classicCfg astBuilder stop) text' m b).1 = .ok (some d') ∧
      d.feature = some f ∧ d'.feature = some f' ∧ f'.name = f.name ∧ f'.tags = [] ∧ f'.description = f.description ∧
      d'.cases.map Case.face = d.cases.map Case.face ∧
      ∀ (eng : Engine) (uri : Str) (n k : Nat),
        (compile eng uri d' n).map (fun p => p.1.map Pickle.content) = (compile eng uri d k).map fun p => p.1.map Pickle.content := by
  obtain ⟨d, f, h1, h2, h3⟩ := layout_says hm hF ht b stop
  obtain ⟨d', f', h1', h2', h3'⟩ := layout_says hm (down_ok hF) ht' b stop
  have hM : fileMatcher (Classic.reset m) F.tagsDown = fileMatcher (Classic.reset m) F := rfl
  rw [hM] at h3'
  generalize fileMatcher (Classic.reset m) F = M at h3 h3'
  have hcase : ∀ (e : Document) (g : Feature), e.feature = some g → e.cases = g.cases := by
    intro e g he
    simp only [Document.cases, he, Option.toList_some, List.flatMap_cons, List.flatMap_nil, List.append_nil]
  refine ⟨d, d', f, f', h1, h1', h2, h2', ?_, ?_, ?_, ?_, ?_⟩
  · rw [show f'.name = f'.unplaced.name from rfl, show f.name = f.unplaced.name from rfl, h3, h3']; rfl
  · have : f'.unplaced.tags = [] := by rw [h3']; rfl
    simpa [Feature.unplaced, Feature.change] using this
  · rw [show f'.description = f'.unplaced.description from rfl, show f.description = f.unplaced.description from rfl, h3, h3']; rfl
  · rw [hcase d' f' h2', hcase d f h2, ← faces_unplaced f', ← faces_unplaced f, h3, h3', down_faces]
  · intro eng uri n k
    obtain ⟨l, _, hlg, _⟩ := C49_descriptions stop text m hm b d h1 f h2
    have hl1 : (featured M F.feature).language = some l := by rw [← h3]; exact hlg
    have key : ∀ (e : Document) (g : Feature) (x : Layout.Feature), e.feature = some g → g.unplaced = featured M x → ∀ k,
        (compile eng uri e k).map (fun p => p.1.map Pickle.content) = outcome (compile eng uri ⟨some (featured M x), []⟩) := by
      intro e g x he hg k
      exact compile_alike eng uri he rfl (by rw [← hg, unplaced_twice]) k 0
    rw [key d' f' F.tagsDown.feature h2' h3' n, key d f F.feature h2 h3 k]
    exact down_outcome F M eng uri l hl1

end TagsDown

open TagsDown

/-- **C98, the pickles.** Take a text that is read, and the one in which the tag lines of the feature, of rules and of outlines stand above every scenario and every examples block
below them instead. This is read too. Its cases show the same - tags in the same order -, and its pickles are the same, ids apart. -/
theorem C98_pickles {m : CState} (hm : m.Valid) {F : Layout.File} (hF : F.Ok m.defaultName) {text text' : Str} (ht : splitLines text = F.texts)
    (ht' : splitLines text' = F.tagsDown.texts) (b : BState) (stop : Bool) :
    ∃ d d', (parse (classicCfg astBuilder stop) text m b).1 = .ok (some d) ∧ (parse (classicCfg astBuilder stop) text' m b).1 = .ok (some d') ∧
      d'.cases.map Case.face = d.cases.map Case.face ∧
      ∀ (eng : Engine) (uri : Str) (n k : Nat),
        (compile eng uri d' n).map (fun p => p.1.map Pickle.content) = (compile eng uri d k).map fun p => p.1.map Pickle.content := by
  obtain ⟨d, d', _, _, h1, h2, _, _, _, _, _, h3, h4⟩ := down_says hm hF ht ht' b stop
  exact ⟨d, d', h1, h2, h3, h4⟩

/-! ### Suites -/

namespace TagsDown

theorem unplaced_given (t : Test) : t.unplaced.body.flatMap Item.given = t.body.flatMap Item.given := by
  simp only [Robot.Test.unplaced, List.flatMap_map]
  refine List.flatMap_congr fun i _ => ?_
  cases i <;> rfl

theorem face_untagged (printable : Char → Bool) (n : Nat) (c : Case.Face) (p : Pickle.Content) :
    (faceTest printable n c p).untagged = (if c.description = [] then [] else [Robot.Item.documentation (strip c.description)]) ++ List.zipWith (callFor printable) c.keywords p.steps := by
  have h : ∀ (ks : List (Option Str)) (qs : List (Option KType × Str × Option PArg)),
      (List.zipWith (callFor printable) ks qs).filter (fun i => !i.isTags) = List.zipWith (callFor printable) ks qs := by
    intro ks
    induction ks with
    | nil => intro qs; rfl
    | cons k ks ih =>
      intro qs
      cases qs with
      | nil => rfl
      | cons q qs => rw [List.zipWith_cons_cons, List.filter_cons_of_pos (by rfl), ih]
  unfold Robot.Test.untagged faceTest
  simp only [List.filter_append, h]
  congr 1
  split <;> split <;> simp [Item.isTags]

theorem face_given (printable : Char → Bool) (n : Nat) (c : Case.Face) (p : Pickle.Content) :
    (faceTest printable n c p).body.flatMap Item.given = (c.tags.drop n).map fun t => t.drop 1 := by
  have h : ∀ (ks : List (Option Str)) (qs : List (Option KType × Str × Option PArg)), (List.zipWith (callFor printable) ks qs).flatMap Item.given = [] := by
    intro ks
    induction ks with
    | nil => intro qs; rfl
    | cons k ks ih =>
      intro qs
      cases qs with
      | nil => rfl
      | cons q qs => rw [List.zipWith_cons_cons, List.flatMap_cons, ih]; rfl
  unfold faceTest
  simp only [List.flatMap_append, h]
  split <;> split <;> simp_all [Item.given]

theorem settings_given (es : List DirEntry) (f : Feature) : (settings es f).flatMap Setting.given = f.tags.map fun t => t.name.drop 1 := by
  unfold settings
  have : ∀ rs : List Str, (rs.map Setting.resource).flatMap Setting.given = [] := by
    intro rs; induction rs with
    | nil => rfl
    | cons a l ih => simp [Setting.given]
  simp only [List.flatMap_append, this]
  split <;> split <;> simp_all [Setting.given]

theorem settings_rest (es : List DirEntry) (f : Feature) : (settings es f).filter (fun s => !s.OnTags) =
    (if strip f.description = [] then [] else [.documentation (strip f.description)]) ++ [.library py"GherkinParser.Library"] ++ (Files.resourceImports es).map .resource := by
  unfold settings
  have : ∀ rs : List Str, (rs.map Setting.resource).filter (fun s => !s.OnTags) = rs.map .resource := by
    intro rs; induction rs with
    | nil => rfl
    | cons a l ih => rw [List.map_cons, List.filter_cons_of_pos (by rfl), ih]
  simp only [List.filter_append, this]
  split <;> split <;> simp [Setting.OnTags]

theorem zip_rel {α β γ : Type} {P : α → Prop} {f g : α → β → γ} {R : γ → γ → Prop} (h : ∀ a b, P a → R (f a b) (g a b)) :
    ∀ {as : List α} {bs : List β}, (∀ a ∈ as, P a) → List.Forall₂ R (List.zipWith f as bs) (List.zipWith g as bs)
  | [], _, _ => .nil
  | _ :: _, [], _ => .nil
  | a :: as, b :: bs, hp => .cons (h a b (hp a (by simp))) (zip_rel h fun a ha => hp a (by simp [ha]))

theorem face_own {d : Document} {f : Feature} (hf : d.feature = some f) {c : Case.Face} (h : c ∈ d.cases.map Case.face) : ∃ own, c.tags = f.tags.map Tag.name ++ own := by
  obtain ⟨k, hk, rfl⟩ := List.mem_map.1 h
  obtain ⟨_, _, _, own, h1, _⟩ := case_nodes hf hk
  exact ⟨own.map Tag.name ++ (k.scenario.tags.map Tag.name ++ (k.row.elim [] fun (e, _, _) => e.tags).map Tag.name), by
    simp only [Case.face, Case.tags, h1, List.map_append, List.append_assoc]⟩

theorem moved {eng : Engine} {printable : Char → Bool} {es : List DirEntry} {uri name text text' : Str} {d d' : Document} {f f' : Feature}
    (hd : parseFile name text = .ok (some d)) (hd' : parseFile name text' = .ok (some d')) (hf : d.feature = some f) (hf' : d'.feature = some f')
    (hs : f'.description = f.description) (ht : f'.tags = []) (hc : d'.cases.map Case.face = d.cases.map Case.face)
    {ps qs : List Pickle} {n n' : Nat} (h1 : compile eng uri d 0 = .ok (ps, n)) (h2 : compile eng uri d' 0 = .ok (qs, n')) (hp : qs.map Pickle.content = ps.map Pickle.content) :
    ∃ tests tests', build eng printable es uri name text = .ok (.suite (settings es f) tests, f.name) ∧
      build eng printable es uri name text' = .ok (.suite (settings es f') tests', f'.name) ∧ TagsMoved (settings es f) tests (settings es f') tests' := by
  obtain ⟨ts, b1, b2⟩ := suite_faces (printable := printable) (es := es) hd hf h1
  obtain ⟨ts', c1, c2⟩ := suite_faces (printable := printable) (es := es) hd' hf' h2
  refine ⟨ts, ts', b1, c1, ?_, ?_, ?_⟩
  · rw [settings_rest, settings_rest, hs]
  · intro s hs
    have : (settings es f').filter (fun s => !s.OnTags) = settings es f' := by
      rw [settings_rest]
      unfold settings
      simp [ht]
    rw [← this, List.mem_filter] at hs
    simpa using hs.2
  · have key : List.Forall₂ (fun t t' : Test => t'.name = t.name ∧ t'.untagged = t.untagged ∧ t'.given (settings es f') = t.given (settings es f))
        (ts.map Test.unplaced) (ts'.map Test.unplaced) := by
      rw [b2, c2, hc, hp, ht]
      refine zip_rel (P := fun c : Case.Face => ∃ own, c.tags = f.tags.map Tag.name ++ own) ?_ fun c h => face_own hf h
      rintro c p ⟨own, ho⟩
      refine ⟨rfl, by rw [face_untagged, face_untagged], ?_⟩
      unfold Robot.Test.given
      rw [face_given, face_given, settings_given, settings_given, ht, ho]
      simp
    rw [List.forall₂_map_left_iff, List.forall₂_map_right_iff] at key
    refine key.imp ?_
    rintro t t' ⟨k1, k2, k3⟩
    refine ⟨k1, k2, ?_⟩
    unfold Robot.Test.given at k3 ⊢
    rwa [unplaced_given, unplaced_given] at k3

end TagsDown

open TagsDown

/-- **C98, the suites.** One of the files builds to a suite just if the other one does. Then the suites have the same name and differ only in where the tags are given (`TagsMoved`):
every test has the same tags as before. -/
theorem C98_suite (eng : Engine) (printable : Char → Bool) (es : List DirEntry) (uri name : Str) (hn : suffix name ≠ py".md") (F : Layout.File) (hF : F.Ok py"en")
    (text text' : Str) (ht : splitLines text = F.texts) (ht' : splitLines text' = F.tagsDown.texts) :
    (∀ sets tests fn, build eng printable es uri name text = .ok (.suite sets tests, fn) →
      ∃ sets' tests', build eng printable es uri name text' = .ok (.suite sets' tests', fn) ∧ TagsMoved sets tests sets' tests') ∧
    ∀ sets' tests' fn, build eng printable es uri name text' = .ok (.suite sets' tests', fn) →
      ∃ sets tests, build eng printable es uri name text = .ok (.suite sets tests, fn) ∧ TagsMoved sets tests sets' tests' := by
  obtain ⟨d, d', f, f', h1, h2, h3, h4, h5, h6, h7, h8, h9⟩ := down_says (m := defaultMatcher) default_valid hF ht ht' newBuilder false
  rw [← classic_file hn] at h1 h2
  have h9 := h9 eng uri 0 0
  have fin : ∀ {ps qs : List Pickle} {n n' : Nat}, compile eng uri d 0 = .ok (ps, n) → compile eng uri d' 0 = .ok (qs, n') →
      ∃ tests tests', build eng printable es uri name text = .ok (.suite (settings es f) tests, f.name) ∧
        build eng printable es uri name text' = .ok (.suite (settings es f') tests', f'.name) ∧ TagsMoved (settings es f) tests (settings es f') tests' := by
    intro ps qs n n' c1 c2
    refine moved h1 h2 h3 h4 h7 h6 h8 c1 c2 ?_
    rw [c1, c2] at h9
    simpa [Except.map] using h9
  constructor
  · intro sets tests fn hb
    obtain ⟨d0, f0, ps, n, g1, g2, g3, _⟩ := build_suite hb
    have e0 : d0 = d := by rw [h1] at g1; simpa using g1.symm
    subst e0
    rcases hq : compile eng uri d' 0 with x | ⟨qs, k⟩
    · rw [g3, hq] at h9; cases h9
    · obtain ⟨ts, ts', b1, b2, b3⟩ := fin g3 hq
      rw [hb] at b1
      simp only [Except.ok.injEq, Prod.mk.injEq, File.suite.injEq] at b1
      obtain ⟨⟨rfl, rfl⟩, rfl⟩ := b1
      rw [h5] at b2
      exact ⟨_, _, b2, b3⟩
  · intro sets tests fn hb
    obtain ⟨d0, f0, qs, n, g1, g2, g3, _⟩ := build_suite hb
    have e0 : d0 = d' := by rw [h2] at g1; simpa using g1.symm
    subst e0
    rcases hq : compile eng uri d 0 with x | ⟨ps, k⟩
    · rw [g3, hq] at h9; cases h9
    · obtain ⟨ts, ts', b1, b2, b3⟩ := fin hq g3
      rw [hb] at b2
      simp only [Except.ok.injEq, Prod.mk.injEq, File.suite.injEq] at b2
      obtain ⟨⟨rfl, rfl⟩, rfl⟩ := b2
      rw [← h5] at b1
      exact ⟨_, _, b1, b3⟩

/-! ### The hypotheses can be met -/

namespace Sample.TagsDown

/-- Number of settings about tags, and all tags of each test. -/
def tagsOf (text : Str) : Nat × List (List Str) :=
  match build Sample.noEngine (fun _ => true) [] [] py"a.feature" text with
  | .ok (.suite sets tests, _) => ((sets.filter Setting.OnTags).length, tests.map (·.given sets))
  | _ => (0, [])

end Sample.TagsDown

/-- The end of the sample with the tags moved down. -/
example : ((Sample.ruledFile.tagsDown.feature.rules[0]?).map fun r => (r.texts.take 9).flatten) = some py"  Rule: second
    Background:
      And more
@web @slow
  @in-rule
    Example: other
      * a step
  Scenario Outline: buy <what>
    When the user buys <what>
" := by decide +kernel

example : Sample.TagsDown.tagsOf Sample.ruledFile.texts.flatten = (2,
      [[py"web", py"slow", py"x", py"cheap"], [py"web", py"slow", py"x", py"cheap"], [py"web", py"slow", py"in-rule"],
       [py"web", py"slow", py"in-rule", py"x", py"cheap"], [py"web", py"slow", py"in-rule", py"x", py"cheap"]]) ∧
    Sample.TagsDown.tagsOf Sample.ruledFile.tagsDown.texts.flatten = (0, (Sample.TagsDown.tagsOf Sample.ruledFile.texts.flatten).2) := by decide +kernel

example (eng : Engine) (printable : Char → Bool) (es : List DirEntry) (uri : Str) (sets : List Setting) (fn : Option Str) (tests : List Test)
    (hb : build eng printable es uri py"a.feature" Sample.ruledFile.texts.flatten = .ok (.suite sets tests, fn)) :
      ∃ sets' tests', build eng printable es uri py"a.feature" Sample.ruledFile.tagsDown.texts.flatten = .ok (.suite sets' tests', fn) ∧ TagsMoved sets tests sets' tests' :=
  (C98_suite eng printable es uri py"a.feature" (by decide +kernel) Sample.ruledFile Sample.ruledFile_ok _ _ (by decide +kernel) (by decide +kernel)).1 sets tests fn hb

end Gherkin
