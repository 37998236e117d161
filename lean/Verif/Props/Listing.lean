import Verif.Proofs.Listing
import Verif.Proofs.Reuse

/-! C43: token listings. -/

namespace Gherkin

theorem run_listing : ∀ {src : List Line} {e : Line} {q : Nat} {m : CState} {mv : List Auto.Move} {q' : Nat} {m' : CState},
    Auto.Run q m (src ++ [e]) mv q' m' → Auto.Inv q m → (∀ l ∈ src, l.isEof = false) → e.isEof = true →
    ∃ ss, (mv.map (·.tok)).mapM Fmt.formatToken = .ok (ss ++ [py"EOF"]) ∧ Listing m.listAt src ss := by
  intro src
  induction src with
  | nil =>
    intro e q m mv q' m' h hi _ he
    cases h with
    | @last _ _ _ _ tr t m1 hst he' =>
      have sp := Auto.step_spec hst
      have ht := (matched_of sp.matched).1
      refine ⟨[], ?_, ?_⟩
      · have : t.eof = true := by unfold Token.eof; rw [ht]; exact he'
        simp [Fmt.formatToken, this]
      · refine .nil ?_
        have hk : tr.kind = .eof := by
          rcases sp.eof with h | h
          · exact h
          · rw [he] at h; simp at h
        have : q ∉ Auto.openStates := by
          intro ho
          rcases sp.facts.inside ho with h | ⟨h, _⟩ <;> rw [hk] at h <;> simp at h
        have hac : m.active = none := by
          cases hac : m.active with
          | none => rfl
          | some s => exact absurd (hi.active.2 (by rw [hac]; simp)) this
        simp [CState.listAt, hac]
    | cons hst he' _ => rw [he] at he'; simp at he'
  | cons l src ih =>
    intro e q m mv q' m' h hi hsrc he
    have hl := hsrc l (by simp)
    cases h with
    | last hst he' => rw [hl] at he'; simp at he'
    | @cons _ _ _ _ tr t m1 mv' _ _ hst he' hr =>
      have sp := Auto.step_spec hst
      obtain ⟨s, h1, h2⟩ := listed_step hi hl sp
      obtain ⟨ss, h3, h4⟩ := ih hr (Auto.inv_step hi sp) (fun x hx => hsrc x (by simp [hx])) he
      refine ⟨s :: ss, ?_, .cons h2 h4⟩
      simp only [List.map_cons, List.mapM_cons, h1, h3]
      rfl

theorem formatter_fold : ∀ (evs : List Ev) (b : List Token), evs.foldl (applyEv formatter) b = b ++ builds evs := by
  intro evs
  induction evs with
  | nil => intro b; simp [builds]
  | cons e evs ih =>
    intro b
    rw [List.foldl_cons, ih, show builds (e :: evs) = builds [e] ++ builds evs from builds_append [e] evs, ← List.append_assoc]
    congr 1
    cases e <;> simp [applyEv, formatter, builds]

theorem formatter_ok : ∀ (evs : List Ev) (b : List Token), BuildsOk formatter b evs := by
  intro evs
  induction evs with
  | nil => intro b; trivial
  | cons e evs ih => intro b; exact ⟨by cases e <;> rfl, ih _⟩

theorem run_builds {q : Nat} {m : CState} {lines : List Line} {mv : List Auto.Move} {q' : Nat} {m' : CState} (h : Auto.Run q m lines mv q' m') :
    builds (mv.flatMap Auto.Move.evs) = mv.map (·.tok) := by
  have one : ∀ {q l rest m tr t m'}, Auto.step q l rest m = some (tr, t, m') → builds (Auto.Move.evs ⟨q, tr, t⟩) = [t] := by
    intro q l rest m tr t m' hst
    obtain ⟨row, pre, post, h1, h2, _⟩ := (Auto.step_spec hst).row
    have := builds_prods t tr.prods (table_builds h1 (by rw [h2]; simp)).1
    simpa [Auto.Move.evs, builds] using this
  induction h with
  | nil => rfl
  | last hst he => simp [one hst]
  | cons hst he hr ih => rw [List.flatMap_cons, builds_append, one hst, ih]; rfl

theorem allEvs_builds {q : Nat} {m : CState} {lines : List Line} {mv : List Auto.Move} {q' : Nat} {m' : CState} (h : Auto.Run q m lines mv q' m') :
    builds (allEvs mv) = mv.map (·.tok) := by
  have := run_builds h
  unfold allEvs
  rw [show (Ev.start Rule.gherkinDocument :: (mv.flatMap Auto.Move.evs ++ [Ev.stop Rule.gherkinDocument])) =
    [Ev.start Rule.gherkinDocument] ++ (mv.flatMap Auto.Move.evs ++ [Ev.stop Rule.gherkinDocument]) from rfl, builds_append, builds_append, this]
  simp [builds]

theorem run_formatted {text : Str} {m : CState} (hm : m.Valid) {mv : List Auto.Move} {q : Nat} {m' : CState}
    (hr : Auto.Run 0 (Classic.reset m) (tokenLines text) mv q m') (b : List Token) :
    ∃ ss, Listing (Classic.reset m).listAt (sourceLines text) ss ∧
      formatter.result ((allEvs mv).foldl (applyEv formatter) (formatter.reset b)) = .ok (joinStr py"\n" (ss ++ [py"EOF"])) := by
  obtain ⟨ss, h1, h2⟩ := run_listing hr (Auto.inv_start hm) (fun l hl => Auto.sourceLines_noteof hl) rfl
  refine ⟨ss, h2, ?_⟩
  rw [formatter_fold, allEvs_builds hr, show formatter.reset b = [] from rfl, List.nil_append]
  show Fmt.result _ = _
  rw [Fmt.result, h1]

theorem start_at {m : CState} (hm : m.Valid) {d : Dialect} (hd : dialectFor m.defaultName = some d) : (Classic.reset m).listAt = ⟨d, none⟩ := by
  have h1 := (Classic.reset_valid hm).cur
  have h2 : (Classic.reset m).dialectName = m.defaultName := by
    unfold Classic.reset
    by_cases h : m.dialectName = m.defaultName <;> simp [h, hd]
  have h3 : (Classic.reset m).active = none := by unfold Classic.reset; rfl
  have : dialectFor (Classic.reset m).dialectName = some (Classic.reset m).dialect := h1
  rw [h2, hd] at this
  simp only [Option.some.injEq] at this
  simp [CState.listAt, h3, this]

/-- C43: when a parse with the token formatter gives a result, the result has one line for each line of the source, in order, and a last line
`EOF`, separated by newlines; what the line for a source line shows — line number, column, type, keyword, text and items — is said in
`Spec/Listing.lean` (`Listed`). -/
theorem C43_listing (stop : Bool) (text : Str) (m : CState) (hm : m.Valid) (d : Dialect) (hd : dialectFor m.defaultName = some d) (b : List Token)
    (r : Str) (h : (parse ⟨classic, formatter, stop⟩ text m b).1 = .ok r) :
    ∃ shown, Listing ⟨d, none⟩ (sourceLines text) shown ∧ r = joinStr py"\n" (shown ++ [py"EOF"]) := by
  obtain ⟨mv, q, m', hr, _, _, _, _, hres⟩ := accepted_run formatter_plain hm h
  obtain ⟨ss, h1, h2⟩ := run_formatted hm hr b
  rw [h2] at hres
  simp only [Except.ok.injEq] at hres
  rw [start_at hm hd] at h1
  exact ⟨ss, h1, hres.symm⟩

/-- C43: every text that has a document has a listing. (The converse is not true: the token formatter does not compare the lengths of table
rows, see the example below.) -/
theorem C43_listing_of_document (stop stop' : Bool) (text : Str) (m : CState) (hm : m.Valid) (b : BState) (ts : List Token) (d : Option Document)
    (h : (parse ⟨classic, astBuilder, stop⟩ text m b).1 = .ok d) : ∃ r, (parse ⟨classic, formatter, stop'⟩ text m ts).1 = .ok r := by
  obtain ⟨mv, q, m', hr, _⟩ := accepted_run astBuilder_plain hm h
  obtain ⟨ss, _, h2⟩ := run_formatted hm hr ts
  exact ⟨_, run_accepted formatter_plain hm hr (formatter_ok _ _) h2⟩

/-- The sample text has a listing. -/
example : ∃ r, (parse ⟨classic, formatter, false⟩ Sample.text Sample.en []).1 = .ok r := by
  exact ⟨_, (by decide +kernel : (parse ⟨classic, formatter, false⟩ Sample.text Sample.en []).1 = .ok (py"(1:1)Language:/en/
(2:1)TagLine://1:@web,6:@slow
(3:1)FeatureLine:()Feature/Shop/
(4:1)Other:/  A description./
(5:1)Other://
(6:3)BackgroundLine:()Background//
(7:5)StepLine:(Context)Given /a user/
(8:7)TableRow://9:name,16:age
(9:7)TableRow://9:Ann,16:7
(10:1)Empty://
(11:1)Comment:/  # a comment/
(12:3)TagLine://3:@x
(13:3)ScenarioLine:()Scenario Outline/buy <what>/
(14:5)StepLine:(Action)When /the user buys <what>/
(15:7)DocStringSeparator:()\"\"\"/json/
(16:1)Other:/{ \"a\": 1 }/
(17:7)DocStringSeparator:()\"\"\"//
(18:5)StepLine:(Outcome)Then /the price is <price>/
(19:1)Empty://
(20:5)TagLine://5:@cheap
(21:5)ExamplesLine:()Examples//
(22:7)TableRow://9:what,16:price
(23:7)TableRow://9:egg,16:1
(24:7)TableRow://9:milk,16:2
(25:1)Empty://
(26:3)RuleLine:()Rule/second/
(27:5)ScenarioLine:()Example/other/
(28:7)StepLine:(Unknown)* /a step/
EOF"))⟩

/-- A text with a ragged table has a listing but no document. -/
example : (match (parse ⟨classic, formatter, false⟩ Sample.bad Sample.en []).1 with | .ok _ => true | .error _ => false) = true ∧
    (match (parse ⟨classic, astBuilder, false⟩ Sample.bad Sample.en Sample.fresh).1 with | .ok _ => true | .error _ => false) = false := by
  decide +kernel

end Gherkin
