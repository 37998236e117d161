import Verif.Props.Columns

/-! # C94: an example row is a scenario written out -/

namespace Gherkin

open Robot Pickles

theorem suffix_none {c : Case} (h : c.row = none) : c.suffix = [] := by
  unfold Case.suffix
  rw [h]

theorem lastType_of_types {l l' : List Step} (h : l.map (·.keywordType) = l'.map (·.keywordType)) : lastType l = lastType l' := by
  have hfm : ∀ l : List Step, l.filterMap (·.keywordType) = (l.map (·.keywordType)).filterMap id := by intro l; rw [List.filterMap_map]; rfl
  unfold lastType
  rw [hfm, hfm, h]

/-- **C94.** A plain scenario that is what an outline says with a row's values in place of the placeholders, below a background that says the same, gives the test of that row: the same
calls, and the same name without the list of values. The first step is not one with `And` or `But`. -/
theorem C94_written_out (eng : Engine) (printable : Char → Bool)
    (es : List DirEntry) (uri name content : Str) (sets : List Setting) (tests : List Test) (fn : Option Str) (d : Document)
    (es' : List DirEntry) (uri' name' content' : Str) (sets' : List Setting) (tests' : List Test) (fn' : Option Str) (d' : Document)
    (hb : build eng printable es uri name content = .ok (.suite sets tests, fn)) (hd : parseFile name content = .ok (some d))
    (hb' : build eng printable es' uri' name' content' = .ok (.suite sets' tests', fn')) (hd' : parseFile name' content' = .ok (some d'))
    (i j : Nat) (c c' : Case) (t t' : Test) (hc : d.cases[i]? = some c) (ht : tests[i]? = some t) (hc' : d'.cases[j]? = some c') (ht' : tests'[j]? = some t')
    (e : Examples) (h r : Row) (hrow : c.row = some (e, h, r)) (hrow' : c'.row = none)
    (hh : ∀ x ∈ h.cells, ∀ ch ∈ x.value, isMeta ch = false)
    (hbg : c.background.map Step.bare = c'.background.map Step.bare)
    (hname : Option.Rel (ReplacedAll (columns h r)) c.scenario.name c'.scenario.name)
    (hsteps : List.Forall₂ (SameStep (ReplacedAll (columns h r))) c.scenario.steps c'.scenario.steps)
    (hfirst : ∀ s ∈ c.steps.head?, ∃ k, s.keywordType = some k ∧ k ≠ .conjunction) :
    t.bareCalls = t'.bareCalls ∧ t.name = t'.name ++ c.suffix := by
  have main := same_calls hb hd hb' hd' hc ht hc' ht' (R := ReplacedAll (columns h r)) ?_ ?_ hbg hname hsteps
  · obtain ⟨m1, n, m2, m3⟩ := main
    rw [suffix_none hrow', List.append_nil] at m3
    exact ⟨m1, by rw [m2, m3]⟩
  · intro s s' x y hs hx hy
    have e1 : c.fillBy (interpolated eng) = interpolated eng (columns h r) := by funext a b; unfold Case.fillBy; rw [hrow]
    have e2 : c'.fillBy (interpolated eng) = Eq := by funext a b; unfold Case.fillBy; rw [hrow']
    rw [e1] at hx
    rw [e2] at hy
    subst hy
    have e : columns ⟨0, ⟨1, none⟩, (columns h r).map fun (c : Str × Str) => cellOf c.1⟩ ⟨0, ⟨1, none⟩, (columns h r).map fun (c : Str × Str) => cellOf c.2⟩ = columns h r := columns_cells _
    have := (C28_replaces_partial eng ⟨0, ⟨1, none⟩, (columns h r).map fun (c : Str × Str) => cellOf c.1⟩ ⟨0, ⟨1, none⟩, (columns h r).map fun (c : Str × Str) => cellOf c.2⟩ ?_ (by simp) s x).1 hx
    · rw [e] at this
      exact replacedAll_unique this hs
    · simp only [List.mem_map]
      rintro _ ⟨v, hv, rfl⟩ ch hch
      obtain ⟨z, hz, hz2⟩ := List.mem_map.1 (List.of_mem_zip hv).1
      exact hh z hz ch (by rw [hz2]; exact hch)
  · intro htypes k hk
    obtain ⟨ty, hty⟩ : ∃ ty, lastType (c.steps.take (k + 1)) = some ty := by
      apply lastType_some
      cases hcs : c.steps with
      | nil => simp [hcs] at hk
      | cons z zs => exact ⟨z, by simp, hfirst z (by simp [hcs])⟩
    have hty' : lastType (c'.steps.take (k + 1)) = some ty := by
      rw [← hty]
      exact lastType_of_types (by rw [List.map_take, List.map_take, htypes])
    rw [typeAt_last, typeAt_last, ← List.map_take, ← List.map_take, lastType_bare, lastType_bare, hty, hty']
    simp only [Option.some_or]

/-! ### The hypotheses can be met -/

namespace Sample.WrittenOut

def shorthand : Str := py"Feature: f
  Background:
    * a shop

  Scenario Outline: buy <what>
    And I buy <number> <what>
      | <what> |

    Examples:
      | number | what |
      | 7      | figs |
"

def byHand : Str := py"Feature: f
  Background:
    * a shop

  Scenario: buy figs
    And I buy 7 figs
      | figs |
"

/-- The outline without a background, and written out. -/
def shorthand' : Str := py"Feature: f
  Scenario Outline: buy
    And I buy <what>
    Examples:
      | what |
      | figs |
"

def byHand' : Str := py"Feature: f
  Scenario: buy
    And I buy figs
"

/-- What a step says, its type and the cells of its table. -/
structure Said where
  text : Option Str
  type : Option KType
  cells : List (List Str)
  deriving DecidableEq

def said (s : Step) : Said :=
  ⟨s.text, s.keywordType, match s.arg with
    | .table t => t.rows.map fun r => r.cells.map (·.value)
    | _ => []⟩

end Sample.WrittenOut

open Sample.WrittenOut Sample.Columns in
/-- An outline and a scenario: row, background, name, steps; and the tests. -/
example : Sample.Columns.cols shorthand = [(py"number", py"7"), (py"what", py"figs")] ∧ (first byHand).map (fun x => x.1.row.isNone) = some true ∧
    (first shorthand).map (fun x => x.1.background.map Step.bare) = (first byHand).map (fun x => x.1.background.map Step.bare) ∧
    (first shorthand).map (fun x => (x.1.scenario.name, x.1.scenario.steps.map said)) = some (some py"buy <what>", [⟨some py"I buy <number> <what>", some .conjunction, [[py"<what>"]]⟩]) ∧
    (first byHand).map (fun x => (x.1.scenario.name, x.1.scenario.steps.map said)) = some (some py"buy figs", [⟨some py"I buy 7 figs", some .conjunction, [[py"figs"]]⟩]) ∧
    (first shorthand).map (fun x => x.1.steps.head?.map (·.keywordType)) = some (some (some .unknown)) ∧
    (first shorthand).map (fun x => x.2.bareCalls) = (first byHand).map (fun x => x.2.bareCalls) ∧ (first byHand).map (fun x => x.2.bareCalls.length) = some 2 ∧
    (first shorthand).map (fun x => x.2.name) = some py"buy figs number = 7 what = figs" ∧ (first byHand).map (fun x => x.2.name) = some py"buy figs" := by
  refine ⟨by decide +kernel, by decide +kernel, by decide +kernel, by decide +kernel, by decide +kernel, by decide +kernel, by decide +kernel, by decide +kernel, by decide +kernel, by decide +kernel⟩

/-- The filled texts of the example are those that `ReplacedAll` means. -/
example : ReplacedAll [(py"number", py"7"), (py"what", py"figs")] py"I buy <number> <what>" py"I buy 7 figs" := by
  refine ⟨py"I buy 7 <what>", .some (p := py"I buy ") (s := py" <what>") (s' := py" <what>") (by decide) (.none (by decide)), py"I buy 7 figs",
    .some (p := py"I buy 7 ") (s := []) (s' := []) (by decide) (.none (by decide)), rfl⟩

open Sample.WrittenOut Sample.Columns in
/-- The condition on the first step cannot be dropped: an `And` with which an outline begins is part of the name of the call, one with which a scenario begins is not. -/
theorem C94_first_and :
    (first shorthand').map (fun x => (x.2.name, x.2.bareCalls.map (values .keyword))) = some (py"buy what = figs", [[py"And I buy figs"]]) ∧
    (first byHand').map (fun x => (x.2.name, x.2.bareCalls.map (values .keyword))) = some (py"buy", [[py"I buy figs"]]) := by decide +kernel

end Gherkin
