import Verif.Proofs.PartsGather
import Verif.Props.Layout
import Verif.Props.Blocks
import Verif.Props.Quiet

/-! # C81: a file's tests are those of its scenarios, one after the other -/

namespace Gherkin

open Pickles Robot Auto

/-! ### Texts made of some of the lines of a text -/

theorem split_some {body : Str} (hb : '\n' ∉ body) (s : Str) : splitLines (body ++ ['\n'] ++ s) = (body ++ ['\n']) :: splitLines s := by
  induction body with
  | nil => simp [splitLines]
  | cons c cs ih =>
    have hc : c ≠ '\n' := by rintro rfl; simp at hb
    have := ih (by simp at hb; exact hb.2)
    simp only [List.cons_append, splitLines, beq_iff_eq, hc, if_false, this]

/-- Some of the lines of a text, in their order, are the lines of what they make together. -/
theorem split_sublist (text : Str) : ∀ {ls : List Str}, ls.Sublist (splitLines text) → splitLines ls.flatten = ls := by
  refine lines_ind (P := fun text => ∀ {ls : List Str}, ls.Sublist (splitLines text) → splitLines ls.flatten = ls) ?_ ?_ ?_ text.length text (Nat.le_refl _)
  · intro ls h
    simp only [splitLines, List.sublist_nil] at h
    subst h
    rfl
  · intro body h1 h2 ls h
    rw [splitLines_last h1 h2] at h
    cases h with
    | cons _ h =>
      simp only [List.sublist_nil] at h
      subst h
      rfl
    | cons_cons _ h =>
      simp only [List.sublist_nil] at h
      subst h
      simp [splitLines_last h1 h2]
  · intro body s h1 ih ls h
    rw [split_some h1] at h
    cases h with
    | cons _ h => exact ih h
    | cons_cons _ h => rw [List.flatten_cons, split_some h1, ih h]

theorem flatMap_sublist {α β : Type} {f : α → List β} {a : α} {l : List α} (h : a ∈ l) : (f a).Sublist (l.flatMap f) := by
  rw [List.flatMap_def]
  exact List.sublist_flatten_of_mem (List.mem_map.2 ⟨a, h, rfl⟩)

/-- The lines of a piece are some of the lines of the text. -/
theorem piece_lines {F G : Layout.File} (h : G ∈ F.pieces) : G.texts.Sublist F.texts := by
  unfold Layout.File.pieces at h
  rcases List.mem_append.1 h with h | h
  · obtain ⟨s, hs, rfl⟩ := List.mem_map.1 h
    simp only [Layout.File.texts, Layout.File.only, Layout.Feature.texts, List.flatMap_cons, List.flatMap_nil, List.append_nil]
    refine (List.Sublist.refl _).append ((List.Sublist.refl _).append ((List.Sublist.refl _).append ((List.Sublist.refl _).append ((List.Sublist.refl _).append ?_))))
    exact (flatMap_sublist hs).trans (List.sublist_append_left _ _)
  · obtain ⟨r, hr, h⟩ := List.mem_flatMap.1 h
    obtain ⟨s, hs, rfl⟩ := List.mem_map.1 h
    simp only [Layout.File.texts, Layout.File.onlyIn, Layout.Feature.texts, List.flatMap_cons, List.flatMap_nil, List.append_nil, List.nil_append]
    refine (List.Sublist.refl _).append ((List.Sublist.refl _).append ((List.Sublist.refl _).append ((List.Sublist.refl _).append ((List.Sublist.refl _).append ?_))))
    refine List.Sublist.trans ?_ (List.sublist_append_right _ _)
    refine List.Sublist.trans ?_ (flatMap_sublist hr)
    simp only [Layout.Rule.texts, List.flatMap_cons, List.flatMap_nil, List.append_nil]
    exact (List.Sublist.refl _).append ((List.Sublist.refl _).append ((List.Sublist.refl _).append (flatMap_sublist hs)))

/-- The pieces are arranged as Gherkin asks for. -/
theorem piece_ok {F G : Layout.File} (h : G ∈ F.pieces) {name : Str} (hF : F.Ok name) : G.Ok name := by
  have key : ∀ d, F.feature.Ok d → G.feature.Ok d := by
    intro d ⟨h1, h2, h3, h4, h5⟩
    unfold Layout.File.pieces at h
    rcases List.mem_append.1 h with h | h
    · obtain ⟨s, hs, rfl⟩ := List.mem_map.1 h
      exact ⟨h1, h2, h3, by simpa [Layout.File.only] using h4 s hs, by simp [Layout.File.only]⟩
    · obtain ⟨r, hr, h⟩ := List.mem_flatMap.1 h
      obtain ⟨s, hs, rfl⟩ := List.mem_map.1 h
      obtain ⟨r1, r2, r3, r4⟩ := h5 r hr
      refine ⟨h1, h2, h3, by simp [Layout.File.onlyIn], ?_⟩
      intro x hx
      simp only [Layout.File.onlyIn, List.mem_singleton] at hx
      subst hx
      exact ⟨r1, r2, r3, by simpa using r4 s hs⟩
  have e1 : G.before = F.before ∧ G.language = F.language := by
    unfold Layout.File.pieces at h
    rcases List.mem_append.1 h with h | h
    · obtain ⟨s, hs, rfl⟩ := List.mem_map.1 h
      exact ⟨rfl, rfl⟩
    · obtain ⟨r, hr, h⟩ := List.mem_flatMap.1 h
      obtain ⟨s, hs, rfl⟩ := List.mem_map.1 h
      exact ⟨rfl, rfl⟩
  obtain ⟨a, b, c⟩ := hF
  rw [← e1.1] at a b
  refine ⟨a, b, ?_⟩
  rw [e1.2]
  split at c
  · obtain ⟨d, d1, d2⟩ := c
    exact ⟨d, d1, key d d2⟩
  · obtain ⟨c1, nm, d, d1, d2, d3⟩ := c
    exact ⟨c1, nm, d, d1, d2, key d d3⟩

/-! ### What the feature of a layout says, cut into its scenarios -/

section

variable (m : CState) (f : Layout.Feature)

/-- The background steps of a feature. -/
def backSteps (b : Option Layout.Background) : List Step := (b.toList.map (back m)).flatMap (·.steps)

theorem featured_outcome (eng : Engine) (uri l : Str) (hl : (featured m f).language = some l) (d : Document) (hd : d.feature = some (featured m f)) :
    outcome (compile eng uri d) =
      gather (f.scenarios.map (fun s => outcome (compileAny eng uri (tagged m f.tags) (backSteps m f.background) (scen m s) l)) ++
        f.rules.flatMap fun r => r.scenarios.map fun s => outcome (compileAny eng uri (tagged m f.tags ++ tagged m r.tags)
          (backSteps m f.background ++ backSteps m r.background) (scen m s) l)) := by
  have hr : ∀ r : Layout.Rule, outcome (compileRule eng uri (tagged m f.tags) (backSteps m f.background) (ruled m r) l) =
      gather (r.scenarios.map fun s => outcome (compileAny eng uri (tagged m f.tags ++ tagged m r.tags) (backSteps m f.background ++ backSteps m r.background) (scen m s) l)) := by
    intro r
    unfold compileRule
    refine (rule_outcome eng uri (tagged m f.tags ++ tagged m r.tags) l (r.background.toList.map (back m)) (backSteps m f.background) (r.scenarios.map (scen m))).trans ?_
    rw [List.map_map]
    rfl
  have hmain : outcome (compileChildren eng uri (featured m f).tags l [] (featured m f).children) = _ :=
    feature_outcome eng uri (tagged m f.tags) l (f.rules.map (ruled m)) (f.scenarios.map (scen m)) (f.background.toList.map (back m)) []
  rw [List.nil_append, List.map_map, List.map_map, gather_append] at hmain
  have e : gather (List.map ((fun r => outcome (compileRule eng uri (tagged m f.tags) ((f.background.toList.map (back m)).flatMap (·.steps)) r l)) ∘ ruled m) f.rules) =
      gather (f.rules.flatMap fun r => r.scenarios.map fun s => outcome (compileAny eng uri (tagged m f.tags ++ tagged m r.tags)
          (backSteps m f.background ++ backSteps m r.background) (scen m s) l)) := by
    rw [gather_flatMap]
    congr 1
    exact List.map_congr_left fun r _ => hr r
  rw [e, ← gather_append] at hmain
  have hgo : outcome (compile eng uri d) = if (featured m f).children.isEmpty then .ok [] else outcome (compileChildren eng uri (featured m f).tags l [] (featured m f).children) := by
    unfold outcome compile
    rw [hd]
    simp only [hl]
    split
    · rfl
    · rfl
  rw [hgo]
  split
  · rename_i he
    have h0 : (featured m f).children = [] := by simpa using he
    have h1 : f.scenarios = [] ∧ f.rules = [] := by
      simp only [featured, List.append_eq_nil_iff, List.map_eq_nil_iff] at h0
      exact ⟨h0.1.2, h0.2⟩
    rw [h1.1, h1.2]
    rfl
  · exact hmain

theorem featured_cases : (featured m f).cases =
    (f.scenarios.flatMap fun s => (scen m s).cases (tagged m f.tags) (backSteps m f.background)) ++
      f.rules.flatMap fun r => r.scenarios.flatMap fun s => (scen m s).cases (tagged m f.tags ++ tagged m r.tags) (backSteps m f.background ++ backSteps m r.background) := by
  have e1 : (featured m f).backgroundSteps = backSteps m f.background := by
    simp [Feature.backgroundSteps, featured, backSteps, List.flatMap_append, List.flatMap_map, FeatureChild.backgroundSteps]
  have e2 : ∀ r : Layout.Rule, (ruled m r).backgroundSteps = backSteps m r.background := by
    intro r
    simp [RuleNode.backgroundSteps, ruled, backSteps, List.flatMap_append, List.flatMap_map]
  have e3 : ∀ r : Layout.Rule, (ruled m r).scenarios = r.scenarios.map (scen m) := by
    intro r
    simp only [RuleNode.scenarios, ruled, List.flatMap_append, List.flatMap_map]
    have h1 : ∀ l : List Layout.Background, (l.flatMap fun _ => ([] : List Scenario)) = [] := by intro l; induction l <;> simp_all
    have h2 : ∀ l : List Layout.Scenario, (l.flatMap fun s => [scen m s]) = l.map (scen m) := by intro l; induction l <;> simp_all
    rw [h1, h2, List.nil_append]
  unfold Feature.cases
  rw [e1]
  simp only [featured, List.flatMap_append, List.flatMap_map, FeatureChild.cases, RuleNode.cases, e2, e3]
  simp [ruled]

end

/-- What the document of a layout says. -/
theorem layout_says {m : CState} (hm : m.Valid) {F : Layout.File} (hF : F.Ok m.defaultName) {text : Str} (ht : splitLines text = F.texts) (b : BState) (stop : Bool) :
    ∃ d f, (parse (classicCfg astBuilder stop) text m b).1 = .ok (some d) ∧ d.feature = some f ∧ f.unplaced = featured (fileMatcher (Classic.reset m) F) F.feature := by
  obtain ⟨_, cm, h2⟩ := file_parses hm hF ht b stop
  exact ⟨_, _, h2, rfl, feature_bare _ _ _ _ _⟩

theorem unplaced_twice (f : Feature) : f.unplaced.unplaced = f.unplaced := by
  have tg : ∀ ts : List Tag, (ts.map (Tag.change unplacing)).map (Tag.change unplacing) = ts.map (Tag.change unplacing) := by
    intro ts; rw [List.map_map]; rfl
  have rw' : ∀ rs : List Row, (rs.map (Row.change unplacing)).map (Row.change unplacing) = rs.map (Row.change unplacing) := by
    intro rs; rw [List.map_map]; apply List.map_congr_left; intro r _
    simp [Row.change, Cell.change, Function.comp_def]
  have st : ∀ ss : List Step, (ss.map (Step.change unplacing)).map (Step.change unplacing) = ss.map (Step.change unplacing) := by
    intro ss; rw [List.map_map]; apply List.map_congr_left; intro s _
    simp only [Function.comp, Step.change]
    cases s.arg with
    | none => rfl
    | doc d => rfl
    | table t => simp only [StepArg.change, DataTable.change, rw']
  have bg : ∀ x : Background, (x.change unplacing).change unplacing = x.change unplacing := by
    intro x; simp only [Background.change, st]
  have ex : ∀ x : Examples, (x.change unplacing).change unplacing = x.change unplacing := by
    intro x
    have : (x.header.map (Row.change unplacing)).map (Row.change unplacing) = x.header.map (Row.change unplacing) := by
      cases x.header with
      | none => rfl
      | some r => have := rw' [r]; simpa using this
    simp only [Examples.change, tg, rw', this]
  have sc : ∀ x : Scenario, (x.change unplacing).change unplacing = x.change unplacing := by
    intro x
    simp only [Scenario.change, tg, st, List.map_map]
    congr 1
    exact List.map_congr_left fun e _ => ex e
  have ru : ∀ x : RuleNode, (x.change unplacing).change unplacing = x.change unplacing := by
    intro x
    simp only [RuleNode.change, tg, List.map_map]
    congr 1
    refine List.map_congr_left fun c _ => ?_
    cases c <;> simp [RuleChild.change, bg, sc]
  simp only [Feature.unplaced]
  show ((f.change unplacing).change unplacing) = f.change unplacing
  simp only [Feature.change, tg, List.map_map]
  congr 1
  refine List.map_congr_left fun c _ => ?_
  cases c <;> simp [FeatureChild.change, bg, sc, ru]

theorem contents_unplaced (f : Feature) : f.cases.map Case.content = f.unplaced.cases.map Case.content := by
  unfold Feature.unplaced
  rw [cases_change, List.map_map]
  exact List.map_congr_left fun c _ => (case_content_change rfl c).symm

theorem forall₂_exists {α β : Type} {R : α → β → Prop} : ∀ {as : List α}, (∀ a ∈ as, ∃ b, R a b) → ∃ bs, List.Forall₂ R as bs
  | [], _ => ⟨[], .nil⟩
  | a :: as, h => by
    obtain ⟨b, hb⟩ := h a (by simp)
    obtain ⟨bs, hbs⟩ := forall₂_exists (as := as) fun x hx => h x (by simp [hx])
    exact ⟨b :: bs, .cons hb hbs⟩

theorem forall₂_maps {α β γ : Type} {R : α → β → Prop} {f : α → γ} {g : β → γ} (h : ∀ a b, R a b → g b = f a) : ∀ {as : List α} {bs : List β},
    List.Forall₂ R as bs → bs.map g = as.map f
  | _, _, .nil => rfl
  | _, _, .cons h1 hs => by rw [List.map_cons, List.map_cons, h _ _ h1, forall₂_maps h hs]

theorem pieces_contents (M : CState) (F : Layout.File) : (featured M F.feature).cases = F.pieces.flatMap fun G => (featured M G.feature).cases := by
  rw [featured_cases]
  unfold Layout.File.pieces
  rw [List.flatMap_append, List.flatMap_map, List.flatMap_assoc]
  congr 1
  · refine List.flatMap_congr fun s _ => ?_
    rw [featured_cases]
    simp [Layout.File.only]
  · refine List.flatMap_congr fun r _ => ?_
    rw [List.flatMap_map]
    refine List.flatMap_congr fun s _ => ?_
    rw [featured_cases]
    simp [Layout.File.onlyIn]

theorem pieces_outcome (M : CState) (F : Layout.File) (eng : Engine) (uri l : Str) (hl : (featured M F.feature).language = some l) (d : Document)
    (hd : d.feature = some (featured M F.feature)) :
    outcome (compile eng uri d) = gather (F.pieces.map fun G => outcome (compile eng uri ⟨some (featured M G.feature), []⟩)) := by
  rw [featured_outcome M F.feature eng uri l hl d hd]
  unfold Layout.File.pieces
  rw [List.map_append, List.map_map, List.map_flatMap]
  congr 2
  · refine List.map_congr_left fun s _ => ?_
    have := featured_outcome M (F.only s).feature eng uri l hl ⟨some (featured M (F.only s).feature), []⟩ rfl
    simp only [Function.comp]
    rw [this]
    simp only [Layout.File.only, List.map_cons, List.map_nil, List.flatMap_nil, List.append_nil, gather_one]
  · refine List.flatMap_congr fun r _ => ?_
    rw [List.map_map]
    refine List.map_congr_left fun s _ => ?_
    have := featured_outcome M (F.onlyIn r s).feature eng uri l hl ⟨some (featured M (F.onlyIn r s).feature), []⟩ rfl
    simp only [Function.comp]
    rw [this]
    simp only [Layout.File.onlyIn, List.map_cons, List.map_nil, List.flatMap_cons, List.flatMap_nil, List.append_nil, List.nil_append, gather_one]

/-- Texts that together say what a text says: each of them has some of its lines, with the same language and feature line, and is arranged as Gherkin asks for; cases and pickles are
theirs. -/
structure Cuts (F : Layout.File) (L : List Layout.File) : Prop where
  lines : ∀ G ∈ L, G.texts.Sublist F.texts
  ok : ∀ name, F.Ok name → ∀ G ∈ L, G.Ok name
  language : ∀ G ∈ L, G.language = F.language
  head : ∀ G ∈ L, G.feature.tags = F.feature.tags ∧ G.feature.head = F.feature.head
  contents : ∀ M, (featured M F.feature).cases.map Case.content = L.flatMap fun G => (featured M G.feature).cases.map Case.content
  results : ∀ (M : CState) (eng : Engine) (uri l : Str), (featured M F.feature).language = some l →
    outcome (compile eng uri ⟨some (featured M F.feature), []⟩) = gather (L.map fun G => outcome (compile eng uri ⟨some (featured M G.feature), []⟩))

theorem pieces_same {F G : Layout.File} (h : G ∈ F.pieces) : G.language = F.language ∧ G.feature.tags = F.feature.tags ∧ G.feature.head = F.feature.head := by
  unfold Layout.File.pieces at h
  rcases List.mem_append.1 h with h | h
  · obtain ⟨s, hs, rfl⟩ := List.mem_map.1 h
    exact ⟨rfl, rfl, rfl⟩
  · obtain ⟨r, hr, h⟩ := List.mem_flatMap.1 h
    obtain ⟨s, hs, rfl⟩ := List.mem_map.1 h
    exact ⟨rfl, rfl, rfl⟩

theorem pieces_cut (F : Layout.File) : Cuts F F.pieces where
  lines _ h := piece_lines h
  ok _ hF _ h := piece_ok h hF
  language _ h := (pieces_same h).1
  head _ h := (pieces_same h).2
  contents M := by rw [pieces_contents, List.map_flatMap]
  results M eng uri l hl := pieces_outcome M F eng uri l hl _ rfl

theorem Cuts.split {F : Layout.File} {L : List Layout.File} (hL : Cuts F L) {G : Layout.File} (h : G ∈ L) {text : Str} (ht : splitLines text = F.texts) :
    splitLines G.texts.flatten = G.texts := split_sublist text (by rw [ht]; exact hL.lines G h)

theorem same_head {f g : Layout.Feature} (h : g.tags = f.tags ∧ g.head = f.head) (M : CState) : (featured M g).name = (featured M f).name ∧
    (featured M g).tags = (featured M f).tags ∧ (featured M g).description = (featured M f).description := by
  simp only [featured, h.1, h.2, and_self]

/-- The documents of a text and of its pieces. -/
theorem pieces_say {m : CState} (hm : m.Valid) {F : Layout.File} (hF : F.Ok m.defaultName) {L : List Layout.File} (hL : Cuts F L) {text : Str} (ht : splitLines text = F.texts)
    (b : BState) (stop : Bool) :
    ∃ d f M, (parse (classicCfg astBuilder stop) text m b).1 = .ok (some d) ∧ d.feature = some f ∧ f.unplaced = featured M F.feature ∧
      ∃ ds, List.Forall₂ (fun (G : Layout.File) e => (parse (classicCfg astBuilder stop) G.texts.flatten m b).1 = .ok (some e) ∧
        ∃ g, e.feature = some g ∧ g.unplaced = featured M G.feature) L ds := by
  obtain ⟨d, f, h1, h2, h3⟩ := layout_says hm hF ht b stop
  refine ⟨d, f, _, h1, h2, h3, forall₂_exists fun G hG => ?_⟩
  obtain ⟨e, g, g1, g2, g3⟩ := layout_says hm (hL.ok _ hF G hG) (hL.split hG ht) b stop
  refine ⟨e, g1, g, g2, ?_⟩
  rw [g3]
  unfold fileMatcher
  rw [hL.language G hG]

theorem cuts_pickles {m : CState} (hm : m.Valid) {F : Layout.File} (hF : F.Ok m.defaultName) {L : List Layout.File} (hL : Cuts F L) {text : Str} (ht : splitLines text = F.texts) (b : BState) (stop : Bool) :
    ∃ d ds, (parse (classicCfg astBuilder stop) text m b).1 = .ok (some d) ∧
      List.Forall₂ (fun (G : Layout.File) e => (parse (classicCfg astBuilder stop) G.texts.flatten m b).1 = .ok (some e)) L ds ∧
      d.cases.map Case.content = ds.flatMap (fun e => e.cases.map Case.content) ∧
      ∀ (eng : Engine) (uri : Str) (n k : Nat), (compile eng uri d n).map (fun p => p.1.map Pickle.content) =
        gather (ds.map fun e => (compile eng uri e k).map fun p => p.1.map Pickle.content) := by
  obtain ⟨d, f, M, h1, h2, h3, ds, h4⟩ := pieces_say hm hF hL ht b stop
  refine ⟨d, ds, h1, h4.imp fun _ _ h => h.1, ?_, ?_⟩
  · have e1 : d.cases.map Case.content = (featured M F.feature).cases.map Case.content := by
      simp only [Document.cases, h2, Option.toList_some, List.flatMap_cons, List.flatMap_nil, List.append_nil]
      rw [contents_unplaced, h3]
    have e2 : ds.map (fun e => e.cases.map Case.content) = L.map fun G => (featured M G.feature).cases.map Case.content := by
      refine forall₂_maps ?_ h4
      rintro G e ⟨_, g, g1, g2⟩
      simp only [Document.cases, g1, Option.toList_some, List.flatMap_cons, List.flatMap_nil, List.append_nil]
      rw [contents_unplaced, g2]
    rw [e1, hL.contents, List.flatMap_def, List.flatMap_def, e2]
  · intro eng uri n k
    obtain ⟨l, _, hl, _⟩ := C49_descriptions stop text m hm b d h1 f h2
    have hl' : (featured M F.feature).language = some l := by rw [← h3]; exact hl
    have key : ∀ (e : Document) (g : Feature) (x : Layout.Feature), e.feature = some g → g.unplaced = featured M x → ∀ k cm,
        (compile eng uri e k).map (fun p => p.1.map Pickle.content) = outcome (compile eng uri ⟨some (featured M x), cm⟩) := by
      intro e g x he hg k cm
      exact compile_alike eng uri he rfl (by rw [← hg, unplaced_twice]) k 0
    rw [key d f F.feature h2 h3 n [], hL.results M eng uri l hl']
    congr 1
    refine (forall₂_maps ?_ h4).symm
    rintro G e ⟨_, g, g1, g2⟩
    exact key e g G.feature g1 g2 k []

/-- **C81, the pickles.** Take a text that is read, cut into its parts. For each of its scenarios there is the text with only this scenario: everything above the first
scenario (or rule), if it is in a rule the lines of the rule above its first scenario, and the lines of the scenario. These texts are read too. The cases of the text are
their cases, one after the other; and so are its pickles, ids apart: if one of them cannot be compiled, the text cannot be, for the reason of the first one. -/
theorem C81_pickles {m : CState} (hm : m.Valid) {F : Layout.File} (hF : F.Ok m.defaultName) {text : Str} (ht : splitLines text = F.texts) (b : BState) (stop : Bool) :
    ∃ d ds, (parse (classicCfg astBuilder stop) text m b).1 = .ok (some d) ∧
      List.Forall₂ (fun (G : Layout.File) e => (parse (classicCfg astBuilder stop) G.texts.flatten m b).1 = .ok (some e)) F.pieces ds ∧
      d.cases.map Case.content = ds.flatMap (fun e => e.cases.map Case.content) ∧
      ∀ (eng : Engine) (uri : Str) (n k : Nat), (compile eng uri d n).map (fun p => p.1.map Pickle.content) =
        gather (ds.map fun e => (compile eng uri e k).map fun p => p.1.map Pickle.content) :=
  cuts_pickles hm hF (pieces_cut F) ht b stop

/-! ### Suites -/

/-- A test of a file with the content of a case and the names of the feature's tags. -/
def SuiteTest (eng : Engine) (printable : Char → Bool) (tags : List Str) (c : Case.Content) (t : Test) : Prop :=
  ∃ es uri name content sets tests fn d f, ∃ (i : Nat) (k : Case) (t' : Test), build eng printable es uri name content = .ok (.suite sets tests, fn) ∧ parseFile name content = .ok (some d) ∧
    d.feature = some f ∧ f.tags.map Tag.name = tags ∧ d.cases[i]? = some k ∧ tests[i]? = some t' ∧ k.content = c ∧ t'.unplaced = t

theorem SuiteTest.unique {eng : Engine} {printable : Char → Bool} {tags : List Str} {c : Case.Content} {t t' : Test} (h : SuiteTest eng printable tags c t)
    (h' : SuiteTest eng printable tags c t') : t = t' := by
  obtain ⟨es, uri, name, content, sets, tests, fn, d, f, i, k, u, a1, a2, a3, a4, a5, a6, a7, a8⟩ := h
  obtain ⟨es', uri', name', content', sets', tests', fn', d', f', i', k', u', b1, b2, b3, b4, b5, b6, b7, b8⟩ := h'
  rw [← a8, ← b8]
  exact C62_tests_are_independent eng printable es uri name content sets tests fn d f es' uri' name' content' sets' tests' fn' d' f' a1 a2 a3 b1 b2 b3 (by rw [a4, b4])
    i i' k k' u u' a5 a6 b5 b6 (by rw [a7, b7])

theorem forall₂_of_get {α β : Type} {R : α → β → Prop} : ∀ {as : List α} {bs : List β}, as.length = bs.length →
    (∀ (i : Nat) (a : α) (b : β), as[i]? = some a → bs[i]? = some b → R a b) → List.Forall₂ R as bs
  | [], [], _, _ => .nil
  | [], _ :: _, h, _ => by simp at h
  | _ :: _, [], h, _ => by simp at h
  | a :: as, b :: bs, h, hR => .cons (hR 0 a b rfl rfl) (forall₂_of_get (by simpa using h) fun i x y hx hy => hR (i + 1) x y (by simpa using hx) (by simpa using hy))

/-- The tests of a suite belong to the cases of the document. -/
theorem suite_tests {eng : Engine} {printable : Char → Bool} {es : List DirEntry} {uri name content : Str} {sets : List Setting} {tests : List Test} {fn : Option Str}
    (hb : build eng printable es uri name content = .ok (.suite sets tests, fn)) {d : Document} (hd : parseFile name content = .ok (some d)) {f : Feature}
    (hf : d.feature = some f) : List.Forall₂ (SuiteTest eng printable (f.tags.map Tag.name)) (d.cases.map Case.content) (tests.map Test.unplaced) := by
  obtain ⟨d0, f0, ps, n, g1, g2, g3, _, _, _⟩ := build_suite hb
  have hd0 : d0 = d := by rw [hd] at g1; simpa using g1.symm
  subst hd0
  have hf0 : f0 = f := by rw [hf] at g2; simpa using g2.symm
  subst hf0
  obtain ⟨l1, tests', b1, b2⟩ := built eng printable es uri name content d0 f0 hd hf ps n g3
  have ht : tests' = tests := by rw [hb] at b1; simp only [Except.ok.injEq, Prod.mk.injEq, File.suite.injEq] at b1; exact b1.1.2.symm
  subst ht
  have hl : d0.cases.length = tests'.length := by
    have := b2.length_eq
    rw [List.length_zip] at this
    omega
  refine forall₂_of_get (by simpa using hl) fun i c t hc ht => ?_
  rw [List.getElem?_map] at hc ht
  obtain ⟨k, k1, k2⟩ := Option.map_eq_some_iff.1 hc
  obtain ⟨u, u1, u2⟩ := Option.map_eq_some_iff.1 ht
  exact ⟨es, uri, name, content, sets, tests', fn, d0, f0, i, k, u, hb, hd, hf, rfl, k1, u1, k2, u2⟩

theorem forall₂_append' {α β : Type} {R : α → β → Prop} {as cs : List α} {bs ds : List β} (h : List.Forall₂ R as bs) (h' : List.Forall₂ R cs ds) :
    List.Forall₂ R (as ++ cs) (bs ++ ds) := by
  induction h with
  | nil => exact h'
  | cons h1 _ ih => exact .cons h1 ih

theorem forall₂_flat {α β γ δ : Type} {R : α → β → Prop} {S : γ → δ → Prop} {f : α → List γ} {g : β → List δ} (h : ∀ a b, R a b → List.Forall₂ S (f a) (g b)) :
    ∀ {as : List α} {bs : List β}, List.Forall₂ R as bs → List.Forall₂ S (as.flatMap f) (bs.flatMap g)
  | _, _, .nil => .nil
  | _, _, .cons h1 hs => by rw [List.flatMap_cons, List.flatMap_cons]; exact forall₂_append' (h _ _ h1) (forall₂_flat h hs)

theorem gather_oks {ε α : Type} : ∀ {l : List (Except ε (List α))} {xs : List α}, gather l = .ok xs → ∀ x ∈ l, ∃ a, x = .ok a
  | [], _, _, _, hx => by simp at hx
  | y :: l, xs, h, x, hx => by
    rw [gather] at h
    rcases y with e | a
    · simp [follow] at h
    · rcases hg : gather l with e | c
      · rw [hg] at h; simp [follow] at h
      · rcases List.mem_cons.1 hx with rfl | hx
        · exact ⟨_, rfl⟩
        · exact gather_oks hg x hx

theorem gather_of_oks {ε α : Type} : ∀ {l : List (Except ε (List α))}, (∀ x ∈ l, ∃ a, x = .ok a) → ∃ xs, gather l = .ok xs
  | [], _ => ⟨[], rfl⟩
  | y :: l, h => by
    obtain ⟨a, rfl⟩ := h y (by simp)
    obtain ⟨xs, hx⟩ := gather_of_oks (l := l) fun x hx => h x (by simp [hx])
    exact ⟨a ++ xs, by rw [gather, hx]; rfl⟩

theorem settings_unplaced (es : List DirEntry) (f : Feature) : settings es f.unplaced = settings es f := settings_change (g := unplacing) rfl es f

theorem forall₂_with_mem {α β : Type} {R : α → β → Prop} : ∀ {as : List α} {bs : List β}, List.Forall₂ R as bs → List.Forall₂ (fun a b => a ∈ as ∧ b ∈ bs ∧ R a b) as bs
  | _, _, .nil => .nil
  | _, _, .cons h hs => .cons ⟨by simp, by simp, h⟩ ((forall₂_with_mem hs).imp fun _ _ x => ⟨by simp [x.1], by simp [x.2.1], x.2.2⟩)

theorem forall₂_left {α β : Type} {R : α → β → Prop} {as : List α} {bs : List β} (h : List.Forall₂ R as bs) {a : α} (ha : a ∈ as) : ∃ b, b ∈ bs ∧ R a b := by
  induction h with
  | nil => simp at ha
  | cons h1 _ ih =>
    rcases List.mem_cons.1 ha with rfl | ha
    · exact ⟨_, by simp, h1⟩
    · obtain ⟨b, hb, hr⟩ := ih ha
      exact ⟨b, by simp [hb], hr⟩

theorem forall₂_compose {α β γ : Type} {R : α → β → Prop} {S : β → γ → Prop} {T : α → γ → Prop} (h : ∀ a b c, R a b → S b c → T a c) :
    ∀ {as : List α} {bs : List β} {cs : List γ}, List.Forall₂ R as bs → List.Forall₂ S bs cs → List.Forall₂ T as cs
  | _, _, _, .nil, .nil => .nil
  | _, _, _, .cons h1 hs, .cons h2 hs' => .cons (h _ _ _ h1 h2) (forall₂_compose h hs hs')

theorem forall₂_flip {α β : Type} {R : α → β → Prop} {as : List α} {bs : List β} (h : List.Forall₂ R as bs) : List.Forall₂ (fun b a => R a b) bs as := by
  induction h with
  | nil => exact .nil
  | cons h1 _ ih => exact .cons h1 ih

/-- Files with the same document build to the same. -/
theorem build_by_document {eng : Engine} {printable : Char → Bool} {es : List DirEntry} {uri name content content' : Str} {d : Document}
    (h : parseFile name content = .ok (some d)) (h' : parseFile name content' = .ok (some d)) :
    build eng printable es uri name content = build eng printable es uri name content' := by
  unfold build tryBuild
  rw [h, h']

/-- Everything about a file and its pieces. -/
theorem file_pieces {name : Str} (hn : suffix name ≠ py".md") {F : Layout.File} (hF : F.Ok py"en") {L : List Layout.File} (hL : Cuts F L) {text : Str} (ht : splitLines text = F.texts) :
    ∃ d f ds, parseFile name text = .ok (some d) ∧ d.feature = some f ∧
      List.Forall₂ (fun (G : Layout.File) e => parseFile name G.texts.flatten = .ok (some e) ∧
        ∃ g, e.feature = some g ∧ g.name = f.name ∧ g.tags.map Tag.name = f.tags.map Tag.name ∧ ∀ es, settings es g = settings es f) L ds ∧
      d.cases.map Case.content = ds.flatMap (fun e => e.cases.map Case.content) ∧
      ∀ (eng : Engine) (uri : Str), (compile eng uri d 0).map (fun p => p.1.map Pickle.content) =
        gather (ds.map fun e => (compile eng uri e 0).map fun p => p.1.map Pickle.content) := by
  have hF' : F.Ok defaultMatcher.defaultName := hF
  obtain ⟨d, f, M, h1, h2, h3, ds, h4⟩ := pieces_say default_valid hF' hL ht newBuilder false
  obtain ⟨d', ds', c1, c2, c3, c4⟩ := cuts_pickles default_valid hF' hL ht newBuilder false
  have hd : d' = d := by rw [h1] at c1; simpa using c1.symm
  subst hd
  have hds : ds' = ds := by
    refine forall₂_unique (R := fun (G : Layout.File) e => (parse (classicCfg astBuilder false) G.texts.flatten defaultMatcher newBuilder).1 = .ok (some e)) ?_ c2 (h4.imp fun _ _ h => h.1)
    intro G e e' a b
    rw [a] at b
    simpa using b
  subst hds
  refine ⟨d', f, ds', by rw [classic_file hn]; exact h1, h2, ?_, c3, fun eng uri => c4 eng uri 0 0⟩
  refine (forall₂_with_mem h4).imp ?_
  rintro G e ⟨hG, _, g0, g, g1, g2⟩
  obtain ⟨p1, p2, p3⟩ := same_head (hL.head G hG) M
  have hnm : ∀ x : Feature, x.unplaced.tags.map Tag.name = x.tags.map Tag.name := by
    intro x
    simp [Feature.unplaced, Feature.change, Tag.change, Function.comp_def]
  refine ⟨by rw [classic_file hn]; exact g0, g, g1, ?_, ?_, ?_⟩
  · rw [show g.name = g.unplaced.name from rfl, show f.name = f.unplaced.name from rfl, g2, h3, p1]
  · rw [← hnm g, ← hnm f, g2, h3, p2]
  · intro es
    rw [← settings_unplaced es g, ← settings_unplaced es f, g2, h3]
    unfold settings
    rw [p2, p3]

theorem cuts_suite (eng : Engine) (printable : Char → Bool) (es : List DirEntry) (uri name : Str) (hn : suffix name ≠ py".md") (F : Layout.File) (hF : F.Ok py"en") (L : List Layout.File) (hL : Cuts F L) (text : Str)
    (ht : splitLines text = F.texts) :
    (∀ sets tests fn, build eng printable es uri name text = .ok (.suite sets tests, fn) →
      ∃ tss, List.Forall₂ (fun (G : Layout.File) ts => build eng printable es uri name G.texts.flatten = .ok (.suite sets ts, fn)) L tss ∧
        tests.map Test.unplaced = tss.flatten.map Test.unplaced) ∧
    ((∀ G ∈ L, ∃ sets ts fn, build eng printable es uri name G.texts.flatten = .ok (.suite sets ts, fn)) →
      ∃ sets tests fn, build eng printable es uri name text = .ok (.suite sets tests, fn)) := by
  obtain ⟨d, f, ds, h1, h2, h3, h4, h5⟩ := file_pieces hn hF hL ht
  have h5 := h5 eng uri
  constructor
  · intro sets tests fn hb
    obtain ⟨d0, f0, ps, n, g1, g2, g3, _, g5, g6⟩ := build_suite hb
    have hd0 : d0 = d := by rw [h1] at g1; simpa using g1.symm
    subst hd0
    have hf0 : f0 = f := by rw [h2] at g2; simpa using g2.symm
    subst hf0
    rw [g3] at h5
    have hok := gather_oks h5.symm
    have hts : ∃ tss, List.Forall₂ (fun (e : Document) ts => ∀ G : Layout.File, (parseFile name G.texts.flatten = .ok (some e) ∧
        ∃ g, e.feature = some g ∧ g.name = f0.name ∧ g.tags.map Tag.name = f0.tags.map Tag.name ∧ ∀ es, settings es g = settings es f0) →
        build eng printable es uri name G.texts.flatten = .ok (.suite sets ts, fn)) ds tss := by
      refine forall₂_exists fun e he => ?_
      obtain ⟨a, ha⟩ := hok _ (List.mem_map.2 ⟨e, he, rfl⟩)
      rcases hc : compile eng uri e 0 with x | ⟨qs, k⟩
      · rw [hc] at ha; cases ha
      · obtain ⟨G0, hG0, hx⟩ : ∃ G ∈ L, parseFile name G.texts.flatten = .ok (some e) ∧
            ∃ g, e.feature = some g ∧ g.name = f0.name ∧ g.tags.map Tag.name = f0.tags.map Tag.name ∧ ∀ es, settings es g = settings es f0 := by
          have := forall₂_mem_right h3 he
          exact this
        obtain ⟨g0, g, e1, e2, e3, e4⟩ := hx
        obtain ⟨_, ts, b1, _⟩ := built eng printable es uri name G0.texts.flatten e g g0 e1 qs k hc
        refine ⟨ts, ?_⟩
        rintro G ⟨x1, g', y1, y2, y3, y4⟩
        obtain ⟨_, ts', b1', _⟩ := built eng printable es uri name G.texts.flatten e g x1 e1 qs k hc
        have : ts' = ts := by
          have := build_by_document (eng := eng) (printable := printable) (es := es) (uri := uri) g0 x1
          rw [b1, b1'] at this
          simp only [Except.ok.injEq, Prod.mk.injEq, File.suite.injEq] at this
          exact this.1.2.symm
        rw [b1', this, e4, g5, g6, e2]
    obtain ⟨tss, htss⟩ := hts
    refine ⟨tss, forall₂_compose (fun G e ts a b => b G a) h3 htss, ?_⟩
    have t1 := suite_tests hb h1 h2
    rw [h4] at t1
    have t2 : List.Forall₂ (SuiteTest eng printable (f0.tags.map Tag.name)) (ds.flatMap fun e => e.cases.map Case.content) (tss.flatMap fun ts => ts.map Test.unplaced) := by
      have h3' : List.Forall₂ (fun (e : Document) (G : Layout.File) => parseFile name G.texts.flatten = .ok (some e) ∧
        ∃ g, e.feature = some g ∧ g.name = f0.name ∧ g.tags.map Tag.name = f0.tags.map Tag.name ∧ ∀ es, settings es g = settings es f0) ds L := forall₂_flip h3
      have hb' : List.Forall₂ (fun (G : Layout.File) ts => build eng printable es uri name G.texts.flatten = .ok (.suite sets ts, fn)) L tss :=
        forall₂_compose (fun G e ts a b => b G a) h3 htss
      refine forall₂_flat (R := fun (e : Document) ts => ∃ G : Layout.File, (parseFile name G.texts.flatten = .ok (some e) ∧
        ∃ g, e.feature = some g ∧ g.name = f0.name ∧ g.tags.map Tag.name = f0.tags.map Tag.name ∧ ∀ es, settings es g = settings es f0) ∧
        build eng printable es uri name G.texts.flatten = .ok (.suite sets ts, fn)) ?_ (forall₂_compose (fun e G ts a b => ⟨G, a, b⟩) h3' hb')
      rintro e ts ⟨G, ⟨x1, g, y1, y2, y3, y4⟩, hbG⟩
      have := suite_tests hbG x1 y1
      rw [y3] at this
      exact this
    have := forall₂_unique (R := SuiteTest eng printable (f0.tags.map Tag.name)) (fun _ _ _ h h' => SuiteTest.unique h h') t1 t2
    rw [this, List.map_flatten, List.flatMap_def]
  · intro hG
    have hall : ∃ xs, gather (ds.map fun e => (compile eng uri e 0).map fun p => p.1.map Pickle.content) = .ok xs := by
      refine gather_of_oks fun x hx => ?_
      obtain ⟨e, he, rfl⟩ := List.mem_map.1 hx
      obtain ⟨G, hGm, x1, _⟩ := forall₂_mem_right h3 he
      obtain ⟨sets, ts, fn, hb⟩ := hG G hGm
      obtain ⟨d0, f0, ps, n, g1, g2, g3, _⟩ := build_suite hb
      have hd0 : d0 = e := by rw [x1] at g1; simpa using g1.symm
      subst hd0
      rw [g3]
      exact ⟨_, rfl⟩
    obtain ⟨xs, hxs⟩ := hall
    rw [hxs] at h5
    rcases hc : compile eng uri d 0 with x | ⟨qs, k⟩
    · rw [hc] at h5; cases h5
    · obtain ⟨_, ts, b1, _⟩ := built eng printable es uri name text d f h1 h2 qs k hc
      exact ⟨_, _, _, b1⟩

/-- **C81, the suites.** A file builds to a suite just if the files with one of its scenarios each do. These have all the name and the settings of the whole; and the tests
of the file are their tests, one after the other, except for positions. -/
theorem C81_suite (eng : Engine) (printable : Char → Bool) (es : List DirEntry) (uri name : Str) (hn : suffix name ≠ py".md") (F : Layout.File) (hF : F.Ok py"en") (text : Str)
    (ht : splitLines text = F.texts) :
    (∀ sets tests fn, build eng printable es uri name text = .ok (.suite sets tests, fn) →
      ∃ tss, List.Forall₂ (fun (G : Layout.File) ts => build eng printable es uri name G.texts.flatten = .ok (.suite sets ts, fn)) F.pieces tss ∧
        tests.map Test.unplaced = tss.flatten.map Test.unplaced) ∧
    ((∀ G ∈ F.pieces, ∃ sets ts fn, build eng printable es uri name G.texts.flatten = .ok (.suite sets ts, fn)) →
      ∃ sets tests fn, build eng printable es uri name text = .ok (.suite sets tests, fn)) :=
  cuts_suite eng printable es uri name hn F hF F.pieces (pieces_cut F) text ht

theorem forall₂_perm {α β : Type} {R : α → β → Prop} (hR : ∀ a b b', R a b → R a b' → b = b') {as as' : List α} (hp : as.Perm as') :
    ∀ {bs bs' : List β}, List.Forall₂ R as bs → List.Forall₂ R as' bs' → bs.Perm bs' := by
  induction hp with
  | nil => intro bs bs' h h'; cases h; cases h'; exact .refl _
  | cons x _ ih =>
    intro bs bs' h h'
    cases h with
    | cons h1 h2 => cases h' with
      | cons h1' h2' => rw [hR _ _ _ h1 h1']; exact (ih h2 h2').cons _
  | swap x y l =>
    intro bs bs' h h'
    cases h with
    | cons h1 h2 => cases h2 with
      | cons h2 h3 => cases h' with
        | cons h1' h2' => cases h2' with
          | cons h2' h3' =>
            rw [hR _ _ _ h1 h2', hR _ _ _ h2 h1', forall₂_unique hR h3 h3']
            exact List.Perm.swap _ _ _
  | trans p q ih1 ih2 =>
    intro bs bs' h h'
    rename_i l1 l2 l3
    have : ∃ cs, List.Forall₂ R l2 cs := forall₂_exists fun a ha => by
      obtain ⟨b, hb⟩ := forall₂_left h (p.mem_iff.2 ha)
      exact ⟨b, hb.2⟩
    obtain ⟨cs, hcs⟩ := this
    exact (ih1 h hcs).trans (ih2 hcs h')

theorem forall₂_sublist {α β : Type} {R : α → β → Prop} (hR : ∀ a b b', R a b → R a b' → b = b') {as as' : List α} (hp : as.Sublist as') :
    ∀ {bs bs' : List β}, List.Forall₂ R as bs → List.Forall₂ R as' bs' → bs.Sublist bs' := by
  induction hp with
  | slnil => intro bs bs' h h'; cases h; cases h'; exact .slnil
  | cons x _ ih =>
    intro bs bs' h h'
    cases h' with
    | cons h1' h2' => exact (ih h h2').cons _
  | cons_cons x _ ih =>
    intro bs bs' h h'
    cases h with
    | cons h1 h2 => cases h' with
      | cons h1' h2' => rw [hR _ _ _ h1 h1']; exact (ih h2 h2').cons_cons _

theorem flatten_sublist {α : Type} {as bs : List (List α)} (h : as.Sublist bs) : as.flatten.Sublist bs.flatten := by
  induction h with
  | slnil => exact .slnil
  | cons x _ ih => rw [List.flatten_cons]; exact ih.trans (List.sublist_append_right _ _)
  | cons_cons x _ ih => rw [List.flatten_cons, List.flatten_cons]; exact (List.Sublist.refl _).append ih

theorem pieces_built {eng : Engine} {printable : Char → Bool} {es : List DirEntry} {uri name : Str} {sets : List Setting} {fn : Option Str} {L : List Layout.File} {tss : List (List Test)}
    (h : List.Forall₂ (fun (G : Layout.File) ts => build eng printable es uri name G.texts.flatten = .ok (.suite sets ts, fn)) L tss) :
    List.Forall₂ (fun (G : Layout.File) ts => ∃ sets fn, build eng printable es uri name G.texts.flatten = .ok (.suite sets ts, fn)) L tss :=
  h.imp fun _ _ x => ⟨_, _, x⟩

theorem piece_tests_unique (eng : Engine) (printable : Char → Bool) (es : List DirEntry) (uri name : Str) (G : Layout.File) (ts ts' : List Test)
    (h : ∃ sets fn, build eng printable es uri name G.texts.flatten = .ok (.suite sets ts, fn))
    (h' : ∃ sets fn, build eng printable es uri name G.texts.flatten = .ok (.suite sets ts', fn)) : ts = ts' := by
  obtain ⟨_, _, h⟩ := h
  obtain ⟨_, _, h'⟩ := h'
  rw [h] at h'
  simp only [Except.ok.injEq, Prod.mk.injEq, File.suite.injEq] at h'
  exact h'.1.2

theorem cuts_reorder (eng : Engine) (printable : Char → Bool) (es : List DirEntry) (uri name : Str) (hn : suffix name ≠ py".md") (F F' : Layout.File) (hF : F.Ok py"en")
    (hF' : F'.Ok py"en") (L L' : List Layout.File) (hL : Cuts F L) (hL' : Cuts F' L') (text text' : Str) (ht : splitLines text = F.texts) (ht' : splitLines text' = F'.texts) (hp : L.Perm L')
    (sets : List Setting) (tests : List Test) (fn : Option Str) (hb : build eng printable es uri name text = .ok (.suite sets tests, fn)) :
    ∃ sets' tests' fn', build eng printable es uri name text' = .ok (.suite sets' tests', fn') ∧ (tests.map Test.unplaced).Perm (tests'.map Test.unplaced) := by
  obtain ⟨h1, _⟩ := cuts_suite eng printable es uri name hn F hF L hL text ht
  obtain ⟨h1', h2'⟩ := cuts_suite eng printable es uri name hn F' hF' L' hL' text' ht'
  obtain ⟨tss, a1, a2⟩ := h1 sets tests fn hb
  obtain ⟨sets', tests', fn', hb'⟩ := h2' fun G hG => by
    obtain ⟨ts, x⟩ := forall₂_left a1 (hp.mem_iff.2 hG)
    exact ⟨sets, ts, fn, x.2⟩
  obtain ⟨tss', b1, b2⟩ := h1' sets' tests' fn' hb'
  refine ⟨sets', tests', fn', hb', ?_⟩
  rw [a2, b2]
  exact (forall₂_perm (piece_tests_unique eng printable es uri name) hp (pieces_built a1) (pieces_built b1)).flatten.map _

/-- **C81, another order.** A file with the same scenarios in another order - the pieces are the same, in another order - builds just as well, and has the same tests, in
another order. -/
theorem C81_reorder (eng : Engine) (printable : Char → Bool) (es : List DirEntry) (uri name : Str) (hn : suffix name ≠ py".md") (F F' : Layout.File) (hF : F.Ok py"en")
    (hF' : F'.Ok py"en") (text text' : Str) (ht : splitLines text = F.texts) (ht' : splitLines text' = F'.texts) (hp : F.pieces.Perm F'.pieces)
    (sets : List Setting) (tests : List Test) (fn : Option Str) (hb : build eng printable es uri name text = .ok (.suite sets tests, fn)) :
    ∃ sets' tests' fn', build eng printable es uri name text' = .ok (.suite sets' tests', fn') ∧ (tests.map Test.unplaced).Perm (tests'.map Test.unplaced) :=
  cuts_reorder eng printable es uri name hn F F' hF hF' _ _ (pieces_cut F) (pieces_cut F') text text' ht ht' hp sets tests fn hb

theorem cuts_remove (eng : Engine) (printable : Char → Bool) (es : List DirEntry) (uri name : Str) (hn : suffix name ≠ py".md") (F F' : Layout.File) (hF : F.Ok py"en")
    (hF' : F'.Ok py"en") (L L' : List Layout.File) (hL : Cuts F L) (hL' : Cuts F' L') (text text' : Str) (ht : splitLines text = F.texts) (ht' : splitLines text' = F'.texts) (hp : L'.Sublist L)
    (sets : List Setting) (tests : List Test) (fn : Option Str) (hb : build eng printable es uri name text = .ok (.suite sets tests, fn)) :
    ∃ sets' tests' fn', build eng printable es uri name text' = .ok (.suite sets' tests', fn') ∧ (tests'.map Test.unplaced).Sublist (tests.map Test.unplaced) := by
  obtain ⟨h1, _⟩ := cuts_suite eng printable es uri name hn F hF L hL text ht
  obtain ⟨h1', h2'⟩ := cuts_suite eng printable es uri name hn F' hF' L' hL' text' ht'
  obtain ⟨tss, a1, a2⟩ := h1 sets tests fn hb
  obtain ⟨sets', tests', fn', hb'⟩ := h2' fun G hG => by
    obtain ⟨ts, x⟩ := forall₂_left a1 (hp.subset hG)
    exact ⟨sets, ts, fn, x.2⟩
  obtain ⟨tss', b1, b2⟩ := h1' sets' tests' fn' hb'
  refine ⟨sets', tests', fn', hb', ?_⟩
  rw [a2, b2]
  exact (flatten_sublist (forall₂_sublist (piece_tests_unique eng printable es uri name) hp (pieces_built b1) (pieces_built a1))).map _

/-- **C81, fewer scenarios.** A file with some of the scenarios of another one, in the same order, builds if the other one does; its tests are some of the other one's, in the
same order. -/
theorem C81_remove (eng : Engine) (printable : Char → Bool) (es : List DirEntry) (uri name : Str) (hn : suffix name ≠ py".md") (F F' : Layout.File) (hF : F.Ok py"en")
    (hF' : F'.Ok py"en") (text text' : Str) (ht : splitLines text = F.texts) (ht' : splitLines text' = F'.texts) (hp : F'.pieces.Sublist F.pieces)
    (sets : List Setting) (tests : List Test) (fn : Option Str) (hb : build eng printable es uri name text = .ok (.suite sets tests, fn)) :
    ∃ sets' tests' fn', build eng printable es uri name text' = .ok (.suite sets' tests', fn') ∧ (tests'.map Test.unplaced).Sublist (tests.map Test.unplaced) :=
  cuts_remove eng printable es uri name hn F F' hF hF' _ _ (pieces_cut F) (pieces_cut F') text text' ht ht' hp sets tests fn hb

/-! ### The hypotheses can be met -/

namespace Sample

/-- The scenarios of the sample next to each other, in the one order and the other. -/
def inRow (ss : List Layout.Scenario) : Layout.File := { layout with feature := { layout.feature with scenarios := ss, rules := [] } }

theorem inRow_ok (ss : List Layout.Scenario) (h : ∀ s ∈ ss, s = outline ∨ s = ruleScenario) : (inRow ss).Ok py"en" := by
  obtain ⟨a, b, c1, name, d, c2, c3, d1, d2, d3, d4, d5⟩ := layout_ok
  refine ⟨a, b, c1, name, d, c2, c3, d1, d2, d3, ?_, by simp [inRow]⟩
  intro s hs
  rcases h s hs with rfl | rfl
  · exact d4 _ (by simp [layout])
  · exact (d5 ⟨[], ⟨py"  Rule: second\n", [], [], []⟩, none, [ruleScenario]⟩ (by simp [layout])).2.2.2 _ (by simp)

theorem inRow_texts (ss : List Layout.Scenario) (h : ∀ s ∈ ss, s = outline ∨ s = ruleScenario) : splitLines (inRow ss).texts.flatten = (inRow ss).texts := by
  refine Blind.split_flat fun l hl => ?_
  have h1 : ∀ s, (s = outline ∨ s = ruleScenario) → s.texts.all (fun l => (l.dropLast.all (· != '\n')) && l.getLast? == some '\n') = true := by
    rintro s (rfl | rfl) <;> decide +kernel
  have h2 : (inRow []).texts.all (fun l => (l.dropLast.all (· != '\n')) && l.getLast? == some '\n') = true := by decide +kernel
  have h3 : (l.dropLast.all (· != '\n') && l.getLast? == some '\n') = true := by
    have hm : l ∈ (inRow []).texts ∨ ∃ s ∈ ss, l ∈ s.texts := by
      simp only [inRow, Layout.File.texts, Layout.Feature.texts, List.mem_append, List.flatMap_nil, List.append_nil, List.mem_flatMap] at hl ⊢
      rcases hl with hl | hl | hl | hl | hl | hl
      · exact .inl (.inl hl)
      · exact .inl (.inr (.inl hl))
      · exact .inl (.inr (.inr (.inl hl)))
      · exact .inl (.inr (.inr (.inr (.inl hl))))
      · exact .inl (.inr (.inr (.inr (.inr hl))))
      · exact .inr hl
    rcases hm with hm | ⟨s, hs, hm⟩
    · exact List.all_eq_true.1 h2 l hm
    · exact List.all_eq_true.1 (h1 s (h s hs)) l hm
  simp only [Bool.and_eq_true, List.all_eq_true, bne_iff_ne, ne_eq, beq_iff_eq] at h3
  obtain ⟨x, hx⟩ := List.getLast?_eq_some_iff.1 h3.2
  refine ⟨x, ?_, hx⟩
  intro hn
  exact h3.1 '\n' (by rw [hx, List.dropLast_concat]; exact hn) rfl

end Sample

/-- The sample text has two scenarios, one of them in a rule; the text with only this one: -/
example : Sample.layout.pieces.length = 2 ∧ (Sample.layout.pieces[1]?.map fun G => G.texts.flatten) = some py"# language: en
@web @slow
Feature: Shop
  A description.

  Background:
    Given a user
      | name | age |
      | Ann  | 7   |

  # a comment
  Rule: second
    Example: other
      * a step
" := by decide +kernel

/-- The numbers of tests, of the whole and the parts. -/
def testsOf (text : Str) : List Test :=
  match build Sample.noEngine (fun _ => true) [] [] py"a.feature" text with
  | .ok (.suite _ tests, _) => tests.map Test.unplaced
  | _ => []

example : (testsOf Sample.text).length = 3 ∧ Sample.layout.pieces.map (fun G => (testsOf G.texts.flatten).length) = [2, 1] := by decide +kernel

/-- The suite of the sample is put together from those of its pieces. -/
example (eng : Engine) (printable : Char → Bool) (es : List DirEntry) (uri : Str) (sets : List Setting) (tests : List Test) (fn : Option Str)
    (hb : build eng printable es uri py"a.feature" Sample.text = .ok (.suite sets tests, fn)) :
    ∃ tss, List.Forall₂ (fun (G : Layout.File) ts => build eng printable es uri py"a.feature" G.texts.flatten = .ok (.suite sets ts, fn)) Sample.layout.pieces tss ∧
        tests.map Test.unplaced = tss.flatten.map Test.unplaced :=
  (C81_suite eng printable es uri py"a.feature" (by decide +kernel) Sample.layout Sample.layout_ok Sample.text Sample.layout_texts).1 sets tests fn hb

/-- Two scenarios change places. -/
example (eng : Engine) (printable : Char → Bool) (es : List DirEntry) (uri : Str) (sets : List Setting) (tests : List Test) (fn : Option Str)
    (hb : build eng printable es uri py"a.feature" (Sample.inRow [Sample.outline, Sample.ruleScenario]).texts.flatten = .ok (.suite sets tests, fn)) :
    ∃ sets' tests' fn', build eng printable es uri py"a.feature" (Sample.inRow [Sample.ruleScenario, Sample.outline]).texts.flatten = .ok (.suite sets' tests', fn') ∧
      (tests.map Test.unplaced).Perm (tests'.map Test.unplaced) :=
  C81_reorder eng printable es uri py"a.feature" (by decide +kernel) _ _ (Sample.inRow_ok _ (by simp)) (Sample.inRow_ok _ (by simp)) _ _
    (Sample.inRow_texts _ (by simp)) (Sample.inRow_texts _ (by simp))
    (show (Sample.inRow [Sample.outline, Sample.ruleScenario]).pieces.Perm (Sample.inRow [Sample.ruleScenario, Sample.outline]).pieces from List.Perm.swap _ _ _) sets tests fn hb

/-- One of them is taken away. -/
example (eng : Engine) (printable : Char → Bool) (es : List DirEntry) (uri : Str) (sets : List Setting) (tests : List Test) (fn : Option Str)
    (hb : build eng printable es uri py"a.feature" (Sample.inRow [Sample.outline, Sample.ruleScenario]).texts.flatten = .ok (.suite sets tests, fn)) :
    ∃ sets' tests' fn', build eng printable es uri py"a.feature" (Sample.inRow [Sample.ruleScenario]).texts.flatten = .ok (.suite sets' tests', fn') ∧
      (tests'.map Test.unplaced).Sublist (tests.map Test.unplaced) :=
  C81_remove eng printable es uri py"a.feature" (by decide +kernel) _ _ (Sample.inRow_ok _ (by simp)) (Sample.inRow_ok _ (by simp)) _ _
    (Sample.inRow_texts _ (by simp)) (Sample.inRow_texts _ (by simp)) (List.Sublist.cons _ (List.Sublist.refl _)) sets tests fn hb

example : (testsOf (Sample.inRow [Sample.outline, Sample.ruleScenario]).texts.flatten).length = 3 ∧
    testsOf (Sample.inRow [Sample.ruleScenario]).texts.flatten = (testsOf (Sample.inRow [Sample.outline, Sample.ruleScenario]).texts.flatten).drop 2 ∧
    (testsOf (Sample.inRow [Sample.ruleScenario]).texts.flatten).length = 1 := by decide +kernel

end Gherkin
