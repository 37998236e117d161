import Verif.Proofs.LayStepP

/-! Pieces of runs: backgrounds, examples, scenarios, rules, features, whole texts. -/

namespace Gherkin

namespace Auto

open Layout (Ln place)

/-- The states of a level (feature or rule): header, background, scenario, examples. -/
structure Level where
  head : Nat
  bg : Nat × Nat
  sc : Nat × Nat
  ex : Nat
  scTags : Nat
  exTags : Nat

def levelF : Level := ⟨3, (6, 49), (12, 47), 18, 11, 17⟩
def levelR : Level := ⟨23, (26, 45), (32, 43), 38, 31, 37⟩

def Level.headS (v : Level) : List Nat := [v.head, v.head + 1, v.head + 2]
def Level.exS (v : Level) : List Nat := [v.ex, v.ex + 1, v.ex + 2, v.ex + 3]
def Level.all (v : Level) : List Nat := v.headS ++ slotStates v.bg ++ slotStates v.sc ++ v.exS

def Level.ok (v : Level) : Bool :=
  leads v.headS .backgroundLine [v.bg.1] &&
  (still [v.scTags] && leads [v.scTags] .scenarioLine [v.sc.1] && leadsTag [v.scTags] .scenarioLine v.scTags && leads v.all .scenarioLine [v.sc.1] &&
    leadsTag v.all .scenarioLine v.scTags) &&
  (still [v.exTags] && leads [v.exTags] .examplesLine [v.ex] && leadsTag [v.exTags] .examplesLine v.exTags &&
    leads (slotStates v.sc ++ v.exS) .examplesLine [v.ex] && leadsTag (slotStates v.sc ++ v.exS) .examplesLine v.exTags) &&
  (leads v.exS .tableRow [v.ex + 3] && leads [v.ex + 3] .tableRow [v.ex + 3] && still [v.ex + 3]) &&
  (still [22] && leads [22] .ruleLine [23] && leadsTag [22] .ruleLine 22 && leads v.all .ruleLine [23] && leadsTag v.all .ruleLine 22)

theorem level_ok : ∀ v ∈ [levelF, levelR], v.ok = true := by simp only [List.mem_cons, List.not_mem_nil, or_false]; rintro v (rfl | rfl) <;> decide +kernel

theorem Piece.cast {m : CState} {S S' : List Nat} {n n' : Nat} {a a' : List Str} {t t' : List Token} (h : Piece m S n a t S') (e1 : n = n') (e2 : a = a')
    (e3 : t = t') : Piece m S n' a' t' S' := by subst e1 e2 e3; exact h

/-- Tag lines, a title and its description. -/
theorem Piece.taggedHead {m : CState} (hc : m.Calm) {p : Part} {T : Nat} (hT : T ∈ titleStates p) {k : Kind} {h : Layout.Head} (hh : h.Ok m.dialect k p)
    (h1 : k ≠ .tagLine) (h2 : k ≠ .empty) (h3 : k ≠ .comment) (h4 : k ≠ .tableRow) (h5 : k ≠ .other) (h6 : k ≠ .docStringSeparator) {G : Nat} (hG0 : 0 ≠ G)
    (hG : still [G] = true) (hG1 : leads [G] k [T] = true) (hG2 : leadsTag [G] k G = true) {ts : List Ln} (hts : Layout.TagsOk m.dialect ts)
    {S : List Nat} (hS : leads S k [T] = true) (hS2 : leadsTag S k G = true) {n : Nat} :
    Piece m S n (ts.flatMap Ln.texts ++ h.texts) (tagToks m n ts ++ tokOf m k h.line (n + tagLen ts) :: headDesc m (n + tagLen ts) h) [T, T + 1, T + 2] := by
  have a := Piece.tagged hc hh.1 h1 h2 h3 h4 h5 h6 hG0 hG hG1 hG2 hts hS hS2 (n := n)
  have b := a.seq (Piece.cast (Piece.head hc hT hh (n := n + tagLen ts)) (by simp [tagLen, Nat.add_assoc]) rfl rfl)
  exact b.cast rfl (by simp [Layout.Head.texts]) (by simp [tagLen])

/-! ### Background -/

theorem background_ok {m : CState} (hc : m.Calm) {b : Layout.Background} (h : b.Ok m.dialect) (hne : ∀ x ∈ b.texts, x ≠ []) (n : Nat) : (backgroundCst m n b).Ok :=
  ⟨tokOf_plain hc h.1.1 (by simp) (by simp) n, others_ok _ _ _, steps_ok hc h.2 (fun x hx => hne x (by simp only [Layout.Background.texts, List.mem_append]; exact .inr hx)) _⟩

theorem Piece.background {m : CState} (hc : m.Calm) {v : Level} (hv : v ∈ [levelF, levelR]) {b : Layout.Background} (h : b.Ok m.dialect) {n : Nat} :
    Piece m v.headS n b.texts (backgroundCst m n b).toks (slotStates v.bg) := by
  have ok := level_ok v hv
  simp only [Level.ok, Bool.and_eq_true] at ok
  obtain ⟨⟨⟨⟨o1, _⟩, _⟩, _⟩, _⟩ := ok
  have hT : v.bg.1 ∈ titleStates .background := by simp at hv; rcases hv with rfl | rfl <;> decide
  have hs : v.bg ∈ slots := by simp at hv; rcases hv with rfl | rfl <;> decide
  have a := Piece.titleLine hc h.1.1 (by simp) (by simp) (by simp) (by simp) (by simp) (by simp) o1 (n := n)
  have b' := a.seq (Piece.head hc hT h.1 (n := n))
  have c := b'.mono (fun _ h => h) (S1' := slotStates v.bg) (by simp [slotStates])
  have d := c.seq (Piece.cast (Piece.steps hc hs h.2 (n := n + b.head.texts.length)) (by simp [Layout.Head.texts]) rfl rfl)
  exact d.cast rfl (by simp [Layout.Background.texts, Layout.Head.texts]) (by simp [backgroundCst, Cst.CBackground.toks])

/-! ### Examples -/

theorem examples_ok {m : CState} (hc : m.Calm) {b : Layout.Examples} (h : b.Ok m.dialect) (n : Nat) : (examplesCst m n b).Ok := by
  have r := rowToks_ok hc h.2.2 (n + tagLen b.tags + b.head.texts.length)
  exact ⟨tagToks_ok hc h.1 n, tokOf_plain hc h.2.1.1 (by simp) (by simp) _, others_ok _ _ _, r.1, r.2.elim fun w hw => rect_of hw⟩

theorem Piece.examples {m : CState} (hc : m.Calm) {v : Level} (hv : v ∈ [levelF, levelR]) {b : Layout.Examples} (h : b.Ok m.dialect) {n : Nat} :
    Piece m (slotStates v.sc ++ v.exS) n b.texts (examplesCst m n b).toks v.exS := by
  have ok := level_ok v hv
  simp only [Level.ok, Bool.and_eq_true] at ok
  obtain ⟨⟨⟨_, ⟨⟨⟨o1, o2⟩, o3⟩, o4⟩, o5⟩, ⟨o6, o7⟩, o8⟩, _⟩ := ok
  have hT : v.ex ∈ titleStates .examples := by simp at hv; rcases hv with rfl | rfl <;> decide
  have h0 : 0 ≠ v.exTags ∧ 0 ≠ v.ex := by simp at hv; rcases hv with rfl | rfl <;> decide
  have a := (Piece.taggedHead hc hT h.2.1 (by simp) (by simp) (by simp) (by simp) (by simp) (by simp) h0.1 o1 o2 o3 h.1 o4 o5 (n := n)).mono (fun _ h => h)
    (S1' := v.exS) (by simp [Level.exS])
  have r : Piece m v.exS (n + tagLen b.tags + b.head.texts.length) (b.table.flatMap Ln.texts)
      (rowToks m (n + tagLen b.tags + b.head.texts.length) b.table) v.exS := by
    cases ht : b.table with
    | nil => exact Piece.nil
    | cons r rs => exact (Piece.rows hc o6 o7 o8 (by simp [Level.exS]; omega) (by simp) (by rw [← ht]; exact h.2.2.1)).mono (fun _ h => h) (by simp [Level.exS])
  have d := a.seq (r.cast (by simp [tagLen, Nat.add_assoc]) rfl rfl)
  exact d.cast rfl (by simp [Layout.Examples.texts]) (by simp [examplesCst, Cst.CExamples.toks])

/-! ### Scenarios -/

theorem scenario_ok {m : CState} (hc : m.Calm) {b : Layout.Scenario} (h : b.Ok m.dialect) (hne : ∀ x ∈ b.texts, x ≠ []) (n : Nat) : (scenarioCst m n b).Ok := by
  refine ⟨tagToks_ok hc h.1 n, tokOf_plain hc h.2.1.1 (by simp) (by simp) _, others_ok _ _ _,
    steps_ok hc h.2.2.1 (fun x hx => hne x (by simp only [Layout.Scenario.texts, List.mem_append]; exact .inr (.inr (.inl hx)))) _, ?_⟩
  intro e he
  obtain ⟨y, hy, n', rfl⟩ := place_mem he
  exact examples_ok hc (h.2.2.2 y hy) n'

theorem Piece.scenario {m : CState} (hc : m.Calm) {v : Level} (hv : v ∈ [levelF, levelR]) {b : Layout.Scenario} (h : b.Ok m.dialect) {n : Nat} :
    Piece m v.all n b.texts (scenarioCst m n b).toks v.all := by
  have ok := level_ok v hv
  simp only [Level.ok, Bool.and_eq_true] at ok
  obtain ⟨⟨⟨⟨_, ⟨⟨⟨o1, o2⟩, o3⟩, o4⟩, o5⟩, _⟩, _⟩, _⟩ := ok
  have hT : v.sc.1 ∈ titleStates .scenario := by simp at hv; rcases hv with rfl | rfl <;> decide
  have hs : v.sc ∈ slots := by simp at hv; rcases hv with rfl | rfl <;> decide
  have h0 : 0 ≠ v.scTags := by simp at hv; rcases hv with rfl | rfl <;> decide
  have a := (Piece.taggedHead hc hT h.2.1 (by simp) (by simp) (by simp) (by simp) (by simp) (by simp) h0 o1 o2 o3 h.1 o4 o5 (n := n)).mono (fun _ h => h)
    (S1' := slotStates v.sc) (by simp [slotStates])
  have b' := (a.seq (Piece.cast (Piece.steps hc hs h.2.2.1 (n := n + tagLen b.tags + b.head.texts.length)) (by simp [tagLen, Nat.add_assoc]) rfl rfl)).mono
    (fun _ h => h) (S1' := slotStates v.sc ++ v.exS) (by intro q hq; simp [hq])
  have c : Piece m (slotStates v.sc ++ v.exS) (n + tagLen b.tags + b.head.texts.length + (b.steps.flatMap Layout.Step.texts).length)
      (b.examples.flatMap Layout.Examples.texts) ((scenarioCst m n b).examples.flatMap Cst.CExamples.toks) (slotStates v.sc ++ v.exS) :=
    Piece.flatMap fun x hx n => (Piece.examples hc hv (h.2.2.2 x hx)).mono (fun _ h => h) (by intro q hq; simp [hq])
  have d := (b'.seq (c.cast (by simp [tagLen, Nat.add_assoc]) rfl rfl)).mono (fun _ h => h) (S1' := v.all) (by
    intro q hq
    simp only [Level.all, List.mem_append] at hq ⊢
    exact hq.imp .inr id)
  exact d.cast rfl (by simp [Layout.Scenario.texts]) (by simp [scenarioCst, Cst.CScenario.toks])

theorem Piece.scenarios {m : CState} (hc : m.Calm) {v : Level} (hv : v ∈ [levelF, levelR]) {ss : List Layout.Scenario} (h : ∀ s ∈ ss, s.Ok m.dialect) {n : Nat} :
    Piece m v.all n (ss.flatMap Layout.Scenario.texts) ((place (fun s => s.texts.length) (scenarioCst m) n ss).flatMap Cst.CScenario.toks) v.all :=
  Piece.flatMap fun s hs _ => Piece.scenario hc hv (h s hs)

theorem scenarios_ok {m : CState} (hc : m.Calm) {ss : List Layout.Scenario} (h : ∀ s ∈ ss, s.Ok m.dialect) (hne : ∀ x ∈ ss.flatMap Layout.Scenario.texts, x ≠ [])
    (n : Nat) : ∀ s ∈ place (fun s => s.texts.length) (scenarioCst m) n ss, s.Ok := by
  intro s hs
  obtain ⟨y, hy, n', rfl⟩ := place_mem hs
  exact scenario_ok hc (h y hy) (fun x hx => hne x (List.mem_flatMap.2 ⟨y, hy, hx⟩)) n'

theorem Piece.backgroundOpt {m : CState} (hc : m.Calm) {v : Level} (hv : v ∈ [levelF, levelR]) {b : Option Layout.Background} (h : ∀ x ∈ b, x.Ok m.dialect) {n : Nat} :
    Piece m v.headS n (b.toList.flatMap Layout.Background.texts) ((b.map (backgroundCst m n)).toList.flatMap Cst.CBackground.toks) v.all := by
  cases b with
  | none => exact Piece.nil.mono (fun _ h => h) (by intro q hq; simp [Level.all, hq])
  | some b =>
    have := (Piece.background hc hv (h b (by simp)) (n := n)).mono (fun _ h => h) (S1' := v.all) (by intro q hq; simp [Level.all, hq])
    exact this.cast rfl (by simp) (by simp)

theorem backgroundOpt_ok {m : CState} (hc : m.Calm) {b : Option Layout.Background} (h : ∀ x ∈ b, x.Ok m.dialect)
    (hne : ∀ x ∈ b.toList.flatMap Layout.Background.texts, x ≠ []) (n : Nat) : ∀ x ∈ b.map (backgroundCst m n), x.Ok := by
  cases b with
  | none => simp
  | some b =>
    intro x hx
    simp at hx
    subst hx
    exact background_ok hc (h b (by simp)) (fun x hx => hne x (by simpa using hx)) n

/-! ### Rules -/

theorem rule_ok {m : CState} (hc : m.Calm) {b : Layout.Rule} (h : b.Ok m.dialect) (hne : ∀ x ∈ b.texts, x ≠ []) (n : Nat) : (ruleCst m n b).Ok := by
  simp only [Layout.Rule.texts, List.mem_append] at hne
  exact ⟨tagToks_ok hc h.1 n, tokOf_plain hc h.2.1.1 (by simp) (by simp) _, others_ok _ _ _,
    backgroundOpt_ok hc h.2.2.1 (fun x hx => hne x (.inr (.inr (.inl hx)))) _, scenarios_ok hc h.2.2.2 (fun x hx => hne x (.inr (.inr (.inr hx)))) _⟩

theorem Piece.rule {m : CState} (hc : m.Calm) {b : Layout.Rule} (h : b.Ok m.dialect) {n : Nat} :
    Piece m (levelF.all ++ levelR.all) n b.texts (ruleCst m n b).toks levelR.all := by
  have ok1 := level_ok levelF (by simp)
  have ok2 := level_ok levelR (by simp)
  simp only [Level.ok, Bool.and_eq_true] at ok1 ok2
  obtain ⟨_, ⟨⟨⟨o1, o2⟩, o3⟩, o4⟩, o5⟩ := ok1
  obtain ⟨_, ⟨_, o4'⟩, o5'⟩ := ok2
  have l : leads (levelF.all ++ levelR.all) .ruleLine [23] = true := by simp only [leads, List.all_append, Bool.and_eq_true] at o4 o4' ⊢; exact ⟨o4, o4'⟩
  have l' : leadsTag (levelF.all ++ levelR.all) .ruleLine 22 = true := by simp only [leadsTag, List.all_append, Bool.and_eq_true] at o5 o5' ⊢; exact ⟨o5, o5'⟩
  have a := Piece.taggedHead hc (p := .rule) (T := 23) (by decide) h.2.1 (by simp) (by simp) (by simp) (by simp) (by simp) (by simp) (by simp) o1 o2 o3 h.1 l l' (n := n)
  have b' := a.seq (Piece.cast (Piece.backgroundOpt hc (v := levelR) (by simp) h.2.2.1 (n := n + tagLen b.tags + b.head.texts.length)) (by simp [tagLen, Nat.add_assoc]) rfl rfl)
  have c := b'.seq (Piece.cast (Piece.scenarios hc (v := levelR) (by simp) h.2.2.2 (n := n + tagLen b.tags + b.head.texts.length + backgroundsLen b.background))
    (by simp [tagLen, backgroundsLen, Nat.add_assoc]) rfl rfl)
  exact c.cast rfl (by simp [Layout.Rule.texts]) (by simp [ruleCst, Cst.CRule.toks])

/-! ### Features -/

theorem feature_ok' {m : CState} (hc : m.Calm) {b : Layout.Feature} (h : b.Ok m.dialect) (hne : ∀ x ∈ b.texts, x ≠ []) (n : Nat) {lang : Option Token}
    (hl : ∀ t ∈ lang, t.type = some .language) : (featureCst m n lang b).Ok := by
  simp only [Layout.Feature.texts, List.mem_append] at hne
  refine ⟨hl, tagToks_ok hc h.1 n, tokOf_plain hc h.2.1.1 (by simp) (by simp) _, others_ok _ _ _,
    backgroundOpt_ok hc h.2.2.1 (fun x hx => hne x (.inr (.inr (.inl hx)))) _, scenarios_ok hc h.2.2.2.1 (fun x hx => hne x (.inr (.inr (.inr (.inl hx))))) _, ?_⟩
  intro r hr
  obtain ⟨y, hy, n', rfl⟩ := place_mem hr
  exact rule_ok hc (h.2.2.2.2 y hy) (fun x hx => hne x (.inr (.inr (.inr (.inr (List.mem_flatMap.2 ⟨y, hy, hx⟩)))))) n'

def headOk : Bool := still [2] && leads [2] .featureLine [3] && leadsTag [2] .featureLine 2 && leads [0, 1] .featureLine [3] && leadsTag [0, 1] .featureLine 2 &&
  still [0] && still [1] && (levelF.all ++ levelR.all).all fun q => goes q .eof false false == some 42

theorem head_ok : headOk = true := by decide +kernel

theorem Piece.feature {m : CState} (hc : m.Calm) {b : Layout.Feature} (h : b.Ok m.dialect) {n : Nat} :
    Piece m [0, 1] n b.texts (featureCst m n none b).toks (levelF.all ++ levelR.all) := by
  have ok := head_ok
  simp only [headOk, Bool.and_eq_true] at ok
  obtain ⟨⟨⟨⟨⟨⟨⟨o1, o2⟩, o3⟩, o4⟩, o5⟩, _⟩, _⟩, _⟩ := ok
  have a := Piece.taggedHead hc (p := .feature) (T := 3) (by decide) h.2.1 (by simp) (by simp) (by simp) (by simp) (by simp) (by simp) (by simp) o1 o2 o3 h.1 o4 o5 (n := n)
  have b' := a.seq (Piece.cast (Piece.backgroundOpt hc (v := levelF) (by simp) h.2.2.1 (n := n + tagLen b.tags + b.head.texts.length)) (by simp [tagLen, Nat.add_assoc]) rfl rfl)
  have c := b'.seq (Piece.cast (Piece.scenarios hc (v := levelF) (by simp) h.2.2.2.1 (n := n + tagLen b.tags + b.head.texts.length + backgroundsLen b.background))
    (by simp [tagLen, backgroundsLen, Nat.add_assoc]) rfl rfl)
  have r : Piece m (levelF.all ++ levelR.all) (n + tagLen b.tags + b.head.texts.length + backgroundsLen b.background + (b.scenarios.flatMap Layout.Scenario.texts).length)
      (b.rules.flatMap Layout.Rule.texts) ((featureCst m n none b).rules.flatMap Cst.CRule.toks) (levelF.all ++ levelR.all) :=
    Piece.flatMap fun x hx n => (Piece.rule hc (h.2.2.2.2 x hx)).mono (fun _ h => h) (by intro q hq; simp only [List.mem_append]; exact .inr hq)
  have d := (c.mono (fun _ h => h) (S1' := levelF.all ++ levelR.all) (by intro q hq; simp only [List.mem_append]; exact .inl hq)).seq
    (r.cast (by simp [tagLen, backgroundsLen, Nat.add_assoc]) rfl rfl)
  exact d.cast rfl (by simp [Layout.Feature.texts]) (by simp [featureCst, Cst.CFeature.toks])

end Auto

end Gherkin
