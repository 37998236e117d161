import Verif.Props.Suite
import Verif.Props.Samples

/-! # C73: escaped texts are plain arguments; C74: step arguments are dictionary variables -/

namespace Gherkin

open Robot Pickles Escape

/-- **C73.** The text that `escape` makes is one plain argument for Robot Framework, for every text and whatever `str.isprintable` says: no two white space
characters stand next to each other (they would end the argument), every `=` is escaped (it would make a named argument), and it is not one of the words
`ELSE`, `ELSE IF`, `AND`. -/
theorem C73_plain_argument (printable : Char → Bool) (item : Str) :
    (∀ pre x y post, escape printable item = pre ++ x :: y :: post → isSpace x = false ∨ isSpace y = false) ∧
    (∀ pre post, escape printable item = pre ++ '=' :: post → EscapedAfter pre) ∧
    escape printable item ∉ [py"ELSE", py"ELSE IF", py"AND"] := by
  refine ⟨?_, units_escaped (escape_units printable item), ?_⟩
  · unfold escape
    split
    · rename_i h
      simp only [controlWords, List.mem_cons, List.not_mem_nil, or_false] at h
      intro pre x y post e
      have key : ∀ w : Str, (∀ i, (w[i]?.map isSpace).getD false = false ∨ (w[i + 1]?.map isSpace).getD false = false) → w = pre ++ x :: y :: post →
          isSpace x = false ∨ isSpace y = false := by
        intro w hw e
        have := hw pre.length
        rw [e] at this
        simpa using this
      have small : ∀ w : Str, (∀ i < w.length, (w[i]?.map isSpace).getD false = false ∨ (w[i + 1]?.map isSpace).getD false = false) →
          ∀ i, (w[i]?.map isSpace).getD false = false ∨ (w[i + 1]?.map isSpace).getD false = false := by
        intro w h i
        by_cases hi : i < w.length
        · exact h i hi
        · left; rw [List.getElem?_eq_none (by omega)]; rfl
      rcases h with rfl | rfl | rfl <;> exact key _ (small _ (by decide)) e
    · exact (escapeWhitespace_single _ false).2
  · intro h
    have hu := C35_unescape_escape printable item
    have hin : ∀ w ∈ [py"ELSE", py"ELSE IF", py"AND"], unescape w = w ∧ escape printable w = '\\' :: w := by
      intro w hw
      simp only [List.mem_cons, List.not_mem_nil, or_false] at hw
      rcases hw with rfl | rfl | rfl <;> exact ⟨by decide, by unfold escape; rw [if_pos (by decide)]⟩
    obtain ⟨h1, h2⟩ := hin _ h
    rw [hu] at h1
    rw [← h1] at h2
    rw [← h1] at h2
    have := congrArg List.length h2
    simp at this

/-- **C74.** Partial. In the tests of a feature file, the call made of a pickle step with a table or doc string has one argument, and this argument is one
dictionary variable for Robot Framework iff the braces in the dictionary (`bracesOf`: its own and those in the texts) are closed. -/
theorem C74_one_variable_partial (eng : Engine) (printable : Char → Bool) (es : List DirEntry) (uri name content : Str) (d : Document) (f : Feature)
    (h : parseFile name content = .ok (some d)) (hf : d.feature = some f) (ps : List Pickle) (n : Nat) (hc : compile eng uri d 0 = .ok (ps, n)) :
    ∃ sets tests, build eng printable es uri name content = .ok (.suite sets tests, f.name) ∧ tests.length = ps.length ∧
      ∀ (i : Nat) (p : Pickle) (t : Test), ps[i]? = some p → tests[i]? = some t → t.calls.length = p.steps.length ∧ ∀ (j : Nat) (q : PStep) (toks : List Tok), p.steps[j]? = some q → t.calls[j]? = some toks →
        ∀ a, q.arg = some a → ∃ v, values .argument toks = [v] ∧ (DictVariable v ↔ BracesClose (bracesOf a)) := by
  obtain ⟨h1, sets, tests, h2, h3⟩ := C30_one_test_per_pickle eng printable es uri name content d f h hf ps n hc
  have hlen := h3.length_eq
  rw [List.length_zip, h1, Nat.min_self] at hlen
  refine ⟨sets, tests, h2, hlen.symm, ?_⟩
  intro i p t hp ht
  obtain ⟨hi, _⟩ := List.getElem?_eq_some_iff.1 hp
  have hz : (d.cases.zip ps)[i]? = some (d.cases[i]'(by omega), p) := by
    rw [List.getElem?_zip_eq_some]; exact ⟨List.getElem?_eq_getElem _, hp⟩
  have get : ∀ {α β : Type} {R : α → β → Prop} {xs : List α} {ys : List β}, List.Forall₂ R xs ys → ∀ {k : Nat} {x : α} {y : β},
      xs[k]? = some x → ys[k]? = some y → R x y := by
    intro α β R xs ys hr
    induction hr with
    | nil => intro k x y hx; simp at hx
    | cons hab _ ih =>
      intro k x y hx hy
      cases k with
      | zero => simp at hx hy; subst hx; subst hy; exact hab
      | succ k => simp at hx hy; exact ih hx hy
  obtain ⟨g1, g2⟩ := get h3 hz ht
  have g3 := g2.length_eq
  rw [List.length_zip, g1, Nat.min_self] at g3
  refine ⟨g3.symm, ?_⟩
  intro j q toks hq htoks a ha
  obtain ⟨hj, _⟩ := List.getElem?_eq_some_iff.1 hq
  simp only at g1
  have hz2 : ((d.cases[i]'(by omega)).steps.zip p.steps)[j]? = some ((d.cases[i]'(by omega)).steps[j]'(by omega), q) := by
    rw [List.getElem?_zip_eq_some]; exact ⟨List.getElem?_eq_getElem _, hq⟩
  exact (get g2 hz2 htoks).oneVar a ha

theorem count_brace (s : Str) : (s.filter isBrace).count '{' = s.count '{' ∧ (s.filter isBrace).count '}' = s.count '}' :=
  ⟨List.count_filter (by decide), List.count_filter (by decide)⟩

theorem prefix_braces {s p : Str} (h : p <+: s.filter isBrace) : ∃ p', p' <+: s ∧ p'.filter isBrace = p := by
  obtain ⟨p', h1, h2⟩ := List.prefix_filter_iff.1 h
  exact ⟨p', h1, h2.symm⟩

theorem Robot.BalancedBraces.filter {s : Str} (h : BalancedBraces s) : BalancedBraces (s.filter isBrace) := by
  refine ⟨fun p hp => ?_, by rw [(count_brace s).1, (count_brace s).2]; exact h.2⟩
  obtain ⟨p', h1, rfl⟩ := prefix_braces hp
  rw [(count_brace p').1, (count_brace p').2]
  exact h.1 p' h1

theorem Robot.BalancedBraces.nil : BalancedBraces [] := ⟨by simp, rfl⟩

theorem prefix_append_cases {p a b : Str} (h : p <+: a ++ b) : p <+: a ∨ ∃ q, p = a ++ q ∧ q <+: b := by
  rcases List.prefix_or_prefix_of_prefix h (List.prefix_append a b) with h1 | ⟨q, rfl⟩
  · exact .inl h1
  · exact .inr ⟨q, rfl, (List.prefix_append_right_inj a).1 h⟩

theorem Robot.BalancedBraces.append {a b : Str} (ha : BalancedBraces a) (hb : BalancedBraces b) : BalancedBraces (a ++ b) := by
  refine ⟨fun p hp => ?_, by rw [List.count_append, List.count_append, ha.2, hb.2]⟩
  rcases prefix_append_cases hp with h | ⟨q, rfl, h⟩
  · exact ha.1 p h
  · rw [List.count_append, List.count_append, ha.2]
    have := hb.1 q h
    omega

theorem Robot.BalancedBraces.wrap {a : Str} (ha : BalancedBraces a) : BalancedBraces (['{'] ++ a ++ ['}']) := by
  refine ⟨fun p hp => ?_, by simp [List.count_append, ha.2]⟩
  rcases prefix_append_cases hp with h | ⟨q, rfl, h⟩
  · rcases prefix_append_cases h with h' | ⟨q, rfl, h'⟩
    · rcases List.prefix_cons_iff.1 h' with rfl | ⟨t, rfl, ht⟩
      · simp
      · have : t = [] := List.prefix_nil.1 ht
        subst this; decide
    · have := ha.1 q h'
      simp [List.count_append] at this ⊢
      omega
  · have : q.count '}' ≤ 1 := by
      have := h.sublist.count_le '}'
      simpa using this
    simp [List.count_append, ha.2]
    omega

theorem Robot.BalancedBraces.flatMap {α : Type} {f : α → Str} : ∀ {xs : List α}, (∀ x ∈ xs, BalancedBraces (f x)) → BalancedBraces (xs.flatMap f)
  | [], _ => Robot.BalancedBraces.nil
  | x :: xs, h => by
    rw [List.flatMap_cons]
    exact (h x (by simp)).append (Robot.BalancedBraces.flatMap fun y hy => h y (by simp [hy]))

/-- **C74.** The condition holds if in each text (cell, content, media type) every brace has its partner. -/
theorem C74_balanced_texts (a : PArg) (h : ∀ s ∈ textsOf a, BalancedBraces s) : BracesClose (bracesOf a) := by
  have : BalancedBraces (bracesOf a) := by
    cases a with
    | table rows =>
      refine (BalancedBraces.flatMap fun cells hc => (BalancedBraces.flatMap fun v hv => ?_).wrap).wrap
      exact (h v (by simp only [textsOf, List.mem_flatten]; exact ⟨cells, hc, hv⟩)).filter.wrap
    | doc content mt =>
      show BalancedBraces (['{'] ++ content.filter isBrace ++ (mt.getD []).filter isBrace ++ ['}'])
      rw [List.append_assoc ['{']]
      refine BalancedBraces.wrap ((h content (by simp [textsOf])).filter.append ?_)
      cases mt with
      | none => exact Robot.BalancedBraces.nil
      | some mt => exact (h mt (by simp [textsOf])).filter
  exact ⟨fun p hp => by have := this.1 p hp; omega, this.2⟩

/-- **C74.** It fails if the texts together do not have as many closing as opening braces. -/
theorem C74_unequal_braces (a : PArg) (h : (textsOf a).flatten.count '}' ≠ (textsOf a).flatten.count '{') : ¬ BracesClose (bracesOf a) := by
  rintro ⟨_, hc⟩
  apply h
  cases a with
  | table rows =>
    have inner : ∀ cells : List Str, (cells.flatMap (fun v => ['{'] ++ v.filter isBrace ++ ['}'])).count '}' = cells.flatten.count '}' + cells.length ∧
        (cells.flatMap (fun v => ['{'] ++ v.filter isBrace ++ ['}'])).count '{' = cells.flatten.count '{' + cells.length := by
      intro cells
      induction cells with
      | nil => simp
      | cons v cells ih =>
        simp only [List.flatMap_cons, List.count_append, ih.1, ih.2, (count_brace v).1, (count_brace v).2, List.flatten_cons, List.length_cons]
        constructor <;> simp [List.count_cons] <;> omega
    have outer : ∀ rows : List (List Str), (rows.flatMap (fun cells => ['{'] ++ cells.flatMap (fun v => ['{'] ++ v.filter isBrace ++ ['}']) ++ ['}'])).count '}' + rows.flatten.flatten.count '{' =
        (rows.flatMap (fun cells => ['{'] ++ cells.flatMap (fun v => ['{'] ++ v.filter isBrace ++ ['}']) ++ ['}'])).count '{' + rows.flatten.flatten.count '}' := by
      intro rows
      induction rows with
      | nil => simp
      | cons cells rows ih =>
        simp only [List.flatMap_cons, List.count_append, (inner cells).1, (inner cells).2, List.flatten_cons, List.flatten_append]
        simp [List.count_cons] at ih ⊢; omega
    have := outer rows
    simp only [bracesOf, List.count_append, textsOf] at hc ⊢
    simp only [List.count_cons, List.count_nil] at hc
    simp at hc
    have h1 := outer rows
    simp only [List.cons_append, List.nil_append] at h1
    omega
  | doc content mt =>
    simp only [bracesOf, List.count_append, (count_brace _).1, (count_brace _).2, textsOf] at hc ⊢
    cases mt <;> simp [List.count_cons] at hc ⊢ <;> omega

/-! ### A case where it fails, and cases that meet the hypotheses -/

/-- A test for `DictVariable`. -/
def isDictVariable : Str → Bool
  | '&' :: '{' :: s => closeVar 1 false s == some []
  | _ => false

theorem isDictVariable_iff (a : Str) : isDictVariable a = true ↔ DictVariable a := by
  unfold isDictVariable DictVariable
  split
  · rename_i s
    constructor
    · intro h; exact ⟨s, rfl, by simpa using h⟩
    · rintro ⟨t, h1, h2⟩; cases h1; simpa using h2
  · rename_i h
    constructor
    · intro h; cases h
    · rintro ⟨t, h1, _⟩; exact absurd h1 (h t)

/-- A step with a doc string and one with a table, both with a closing brace only. -/
def Sample.brace : Str := py"Feature: f
  Scenario: s
    Given a
      ```
      }
      ```
    And b
      | } |
"

/-- **C74.** Counterexample: a closing brace alone in a doc string or cell, and Robot Framework does not see the argument as one variable. -/
theorem C74_counterexample : arguments (build Sample.noEngine (fun _ => true) [] [] py"a.feature" Sample.brace) =
      [[py"&{{{'content': '}'}}}"], [py"&{{{'rows': [{'cells': [{'value': '}'}]}]}}}"]] ∧
    ∀ as ∈ arguments (build Sample.noEngine (fun _ => true) [] [] py"a.feature" Sample.brace), ∀ a ∈ as, ¬ DictVariable a := by
  have h : arguments (build Sample.noEngine (fun _ => true) [] [] py"a.feature" Sample.brace) =
      [[py"&{{{'content': '}'}}}"], [py"&{{{'rows': [{'cells': [{'value': '}'}]}]}}}"]] := by decide +kernel
  refine ⟨h, ?_⟩
  rw [h]
  simp only [← isDictVariable_iff]
  decide +kernel

/-- Balanced braces in a doc string (JSON). -/
example : (arguments (build Sample.noEngine (fun _ => true) [] [] py"a.feature" Sample.args)).map (·.map isDictVariable) = [[true], [true]] := by
  decide +kernel

example : BalancedBraces py"{\"x\": {}}" ∧ ¬ BalancedBraces py"}{" := by
  constructor
  · refine ⟨fun p hp => ?_, by decide⟩
    rw [List.prefix_iff_eq_take] at hp
    have : ∀ k ≤ 9, ((py"{\"x\": {}}").take k).count '}' ≤ ((py"{\"x\": {}}").take k).count '{' := by decide
    rw [hp]
    by_cases hk : p.length ≤ 9
    · exact this _ hk
    · rw [List.take_of_length_le (by show 9 ≤ _; omega)]; decide
  · intro h
    exact absurd (h.1 ['}'] (by decide)) (by decide)

/-- C73: white space runs, equals signs and a control word. -/
example : escape (fun _ => true) py"a  b=c" = py"a \\ b\\=c" ∧ escape (fun _ => true) py"ELSE" = py"\\ELSE" := by decide

end Gherkin
