import Verif.Props.Robot

/-! C50–C52: which files are read how, what reaches the keywords, and what tests and suites are documented with. -/

namespace Gherkin

open Robot Pickles

/-! ### C50 -/

theorem suffix_dot (a b : Str) (ha : a ≠ []) (hb : b ≠ []) (hd : '.' ∉ b) : suffix (a ++ '.' :: b) = '.' :: b := by
  have h1 : (a ++ '.' :: b).reverse = b.reverse ++ '.' :: a.reverse := by simp
  have h2 : ∀ (r x : Str), '.' ∉ r → (r ++ '.' :: x).dropWhile (· != '.') = '.' :: x ∧ (r ++ '.' :: x).takeWhile (· != '.') = r := by
    intro r x
    induction r with
    | nil => intro _; exact ⟨rfl, rfl⟩
    | cons c r ih =>
      intro h
      simp only [List.mem_cons, not_or] at h
      have hc : (c != '.') = true := by simpa using fun e => h.1 e.symm
      obtain ⟨i1, i2⟩ := ih h.2
      exact ⟨by rw [List.cons_append, List.dropWhile_cons, if_pos hc, i1], by rw [List.cons_append, List.takeWhile_cons, if_pos hc, i2]⟩
  obtain ⟨h3, h4⟩ := h2 b.reverse a.reverse (by simpa using hd)
  have : Files.stem (a ++ '.' :: b) = a := by
    unfold Files.stem
    rw [h1, h3, h4]
    simp [ha, hb]
  rw [suffix, this]; simp

/-- C50: a file whose name ends in `.feature.md` is read as Markdown, one whose name ends in `.feature` as plain Gherkin, both in the
language `en` unless the text says otherwise. -/
theorem C50_reader (name content : Str) :
    (py".feature.md" <:+ name → parseFile name content = (parse ⟨markdown, astBuilder, false⟩ content ((MdState.new py"en").getD default) newBuilder).1) ∧
    (py".feature" <:+ name → parseFile name content = (parse ⟨classic, astBuilder, false⟩ content ((CState.new py"en").getD default) newBuilder).1) := by
  constructor
  · rintro ⟨a, rfl⟩
    have : suffix (a ++ py".feature.md") = py".md" := by
      have := suffix_dot (a ++ py".feature") py"md" (by simp) (by simp) (by simp)
      simpa using this
    rw [parseFile, if_pos this]; rfl
  · rintro ⟨a, rfl⟩
    have : suffix (a ++ py".feature") ≠ py".md" := by
      cases a with
      | nil => decide
      | cons c a =>
        have := suffix_dot (c :: a) py"feature" (by simp) (by simp) (by simp)
        rw [this]; simp
    rw [parseFile, if_neg this]; rfl

/-! ### C51 -/

theorem forall₂_zip_left {α β γ : Type} {R : α × β → γ → Prop} {S : α → β → Prop} {T : α → γ → Prop} (hT : ∀ a b c, S a b → R (a, b) c → T a c) :
    ∀ {as : List α} {bs : List β} {cs : List γ}, List.Forall₂ S as bs → List.Forall₂ R (as.zip bs) cs → List.Forall₂ T as cs
  | _, _, _, .nil, h => by cases h; exact .nil
  | _, _, _, .cons hab hrest, h => by
    cases h with
    | cons h1 h2 => exact .cons (hT _ _ _ hab h1) (forall₂_zip_left hT hrest h2)

/-- C51: in the test of a scenario without examples, the call made of a step has no argument if the step has none; for a data table it has one,
which stands for the dictionary with exactly the table's cell values, row by row; for a doc string one that stands for the dictionary with
the doc string's content and media type. (With examples: C28 says what the pickle's argument is, and C30 that it is passed.) -/
theorem C51_step_arguments (eng : Engine) (printable : Char → Bool) (es : List DirEntry) (uri name content : Str) (d : Document) (f : Feature)
    (h : parseFile name content = .ok (some d)) (hf : d.feature = some f) (ps : List Pickle) (n : Nat) (hc : compile eng uri d 0 = .ok (ps, n)) :
    ∃ sets tests, build eng printable es uri name content = .ok (.suite sets tests, f.name) ∧
      List.Forall₂ (fun (c : Case) (t : Test) => c.row = none →
        List.Forall₂ (fun (s : Step) toks => ∃ a, ArgRel Eq s.arg a ∧ PyLit.Passed a (values .argument toks)) c.steps t.calls) d.cases tests := by
  obtain ⟨_, tests, h2, h3⟩ := built eng printable es uri name content d f h hf ps n hc
  obtain ⟨_, hb, _⟩ := parseFile_ready h
  obtain ⟨lang, _, hp⟩ := compile_forall₂ hb hc
  refine ⟨_, tests, h2, forall₂_zip_left ?_ hp h3⟩
  rintro c p t hr ⟨_, _, own, _, ht⟩ hrow
  have hs := hr.steps
  rw [hrow] at hs
  refine forall₂_zip_left ?_ hs (calls_of ht)
  rintro s q toks ⟨ty, k, k', hq⟩ hcall
  obtain ⟨_, _, _, h4, _⟩ := pickleStep_ok hq
  exact ⟨q.arg, pickleArg_rel (interpolate_nil eng) h4, hcall.args⟩

/-! ### C52 -/

/-- C52: each test is documented with the description of its scenario, and stands at the scenario's line and column; the suite is documented
with the feature's description and carries its name. -/
theorem C52_documentation (eng : Engine) (printable : Char → Bool) (es : List DirEntry) (uri name content : Str) (d : Document) (f : Feature)
    (h : parseFile name content = .ok (some d)) (hf : d.feature = some f) (ps : List Pickle) (n : Nat) (hc : compile eng uri d 0 = .ok (ps, n)) :
    ∃ sets tests, build eng printable es uri name content = .ok (.suite sets tests, f.name) ∧
      (∀ s, .documentation s ∈ sets ↔ strip f.description ≠ [] ∧ s = strip f.description) ∧
      List.Forall₂ (fun (c : Case) (t : Test) => t.docs = docOf c.scenario.description ∧
        ∃ col, c.scenario.loc.column = some col ∧ t.pos = some (c.scenario.loc.line, (col : Int) - 1)) d.cases tests := by
  obtain ⟨_, tests, h2, h3⟩ := built eng printable es uri name content d f h hf ps n hc
  obtain ⟨_, hb, _⟩ := parseFile_ready h
  obtain ⟨lang, _, hp⟩ := compile_forall₂ hb hc
  refine ⟨_, tests, h2, ?_, forall₂_zip_left ?_ hp h3⟩
  · intro s
    simp only [settings, List.mem_append, List.mem_singleton, List.mem_map]
    constructor
    · rintro (((h | h) | ⟨_, _, h⟩) | h)
      · split at h
        · simp at h
        · rename_i hne; simp at h; exact ⟨hne, h⟩
      · cases h
      · cases h
      · split at h <;> simp at h
    · rintro ⟨hne, rfl⟩
      exact .inl (.inl (.inl (by rw [if_neg hne]; simp)))
  · rintro c p t hr ⟨_, _, own, _, ht⟩
    refine ⟨?_, ht.pos⟩
    obtain ⟨calls, _, hbody⟩ := ht.body
    rw [Test.docs, hbody, List.filterMap_append, List.filterMap_append, List.filterMap_map]
    have e2 : (if own = [] then [] else [Item.tags (own.map fun t => t.name.drop 1)]).filterMap
      Item.doc? = [] := by split <;> rfl
    have e3 : calls.filterMap (Item.doc? ∘ Item.call) = ([] : List Str) := by
      rw [List.filterMap_eq_nil_iff]; intro a _; rfl
    rw [e2, e3, docOf]
    split <;> rfl

/-! ### The hypotheses can be met -/

/-- A step with a table and one with a doc string. -/
def Sample.args : Str := py"Feature: f
  About f.

  Scenario: s
    About s.
    Given a
      | it's | \\|=  |
    When b
      ```json
      {\"x\":  1}
      ```
"

/-- The arguments of all calls. -/
def arguments : Except Crash (File × Option Str) → List (List Str)
  | .ok (.suite _ tests, _) => tests.flatMap fun t => t.calls.map (values .argument)
  | _ => []

example : arguments (build Sample.noEngine (fun _ => true) [] [] py"a.feature" Sample.args) =
    [[py"&{{{\\'rows\\': [{\\'cells\\': [{\\'value\\': \"it\\'s\"}, {\\'value\\': \\'|\\=\\'}]}]}}}"],
      [py"&{{{\\'content\\': \\'{\"x\": \\ 1}\\', \\'mediaType\\': \\'json\\'}}}"]] := by
  decide +kernel

end Gherkin
