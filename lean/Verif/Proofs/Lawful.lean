import Verif.Proofs.Fuel

/-! Both matchers satisfy what the driver relies on. -/

namespace Gherkin

@[simp] theorem setMatched_line (d : Str) (t : Token) (k : Option Kind) (x : Option Str) (kw : Option Str)
    (kt : Option KType) (i : Option Nat) (its : List MItem) : (setMatched d t k x kw kt i its).line = t.line := rfl
@[simp] theorem setMatched_locLine (d : Str) (t : Token) (k : Option Kind) (x : Option Str) (kw : Option Str)
    (kt : Option KType) (i : Option Nat) (its : List MItem) :
    (setMatched d t k x kw kt i its).loc.line = t.loc.line := rfl
@[simp] theorem setMatched_type (d : Str) (t : Token) (k : Option Kind) (x : Option Str) (kw : Option Str)
    (kt : Option KType) (i : Option Nat) (its : List MItem) : (setMatched d t k x kw kt i its).type = k := rfl
@[simp] theorem setMatched_column (d : Str) (t : Token) (k : Option Kind) (x : Option Str) (kw : Option Str)
    (kt : Option KType) (i : Option Nat) (its : List MItem) :
    (setMatched d t k x kw kt i its).loc.column.isSome = true := rfl

/-- The properties of one `match_K` call that `Matcher.Lawful` asks for. -/
structure GoodMatch {μ : Type} (k : Kind) (t : Token) (r : Except MExc Bool × Token × μ) : Prop where
  line : r.2.1.line = t.line
  locLine : r.2.1.loc.line = t.loc.line
  type : r.1 = .ok true → r.2.1.type = some k ∧ r.2.1.loc.column.isSome

namespace Classic

theorem matchSep_good (sep : Str) (o : Bool) (t : Token) (m : CState) :
    GoodMatch .docStringSeparator t (matchSep sep o t m) := by
  unfold matchSep
  split
  · cases o <;> exact ⟨rfl, rfl, fun _ => ⟨rfl, rfl⟩⟩
  · exact ⟨rfl, rfl, by simp⟩

theorem matchKind_good (k : Kind) (t : Token) (m : CState) : GoodMatch k t (matchKind k t m) := by
  cases k <;> simp only [matchKind]
  case docStringSeparator =>
    unfold matchDocSep
    split
    · split <;> exact matchSep_good _ _ _ _
    · exact matchSep_good _ _ _ _
  case language =>
    unfold matchLanguage
    split
    · exact ⟨rfl, rfl, by simp⟩
    · simp only
      split
      · exact ⟨rfl, rfl, fun _ => ⟨rfl, rfl⟩⟩
      · exact ⟨rfl, rfl, by simp⟩
  case tableRow =>
    unfold matchTableRow
    split
    · split
      · exact ⟨rfl, rfl, fun _ => ⟨rfl, rfl⟩⟩
      · exact ⟨rfl, rfl, by simp⟩
    · exact ⟨rfl, rfl, by simp⟩
  case tagLine =>
    unfold matchTagLine
    split
    · split
      · exact ⟨rfl, rfl, fun _ => ⟨rfl, rfl⟩⟩
      · exact ⟨rfl, rfl, by simp⟩
    · exact ⟨rfl, rfl, by simp⟩
  all_goals
    first
    | unfold matchTitle
    | unfold matchEof
    | unfold matchEmpty
    | unfold matchComment
    | unfold matchStep
    | unfold matchOther
  all_goals
    try split
  all_goals
    first
    | exact ⟨rfl, rfl, fun _ => ⟨rfl, rfl⟩⟩
    | exact ⟨rfl, rfl, by simp⟩

end Classic

theorem classic_lawful : classic.Lawful where
  line k t m := (Classic.matchKind_good k t m).line
  locLine k t m := (Classic.matchKind_good k t m).locLine
  type k t m h := ((Classic.matchKind_good k t m).type h).1
  column k t m h := ((Classic.matchKind_good k t m).type h).2
  eof t m := by
    simp only [classic, Classic.matchKind, Classic.matchEof]
    split <;> simp_all

namespace Md

theorem matchTitle_good (k : Kind) (p : Str → List PrefixMatch) (ks : List Str) (s : Str) (t : Token) (m : MdState) :
    GoodMatch k t (matchTitle k p ks s t m) := by
  unfold matchTitle
  split
  · exact ⟨rfl, rfl, fun _ => ⟨rfl, rfl⟩⟩
  · exact ⟨rfl, rfl, by simp⟩

theorem matchSep_good (sep : Str) (o : Bool) (t : Token) (m : MdState) :
    GoodMatch .docStringSeparator t (matchSep sep o t m) := by
  unfold matchSep
  split
  · cases o <;> exact ⟨rfl, rfl, fun _ => ⟨rfl, rfl⟩⟩
  · exact ⟨rfl, rfl, by simp⟩

theorem matchDocSep_good (t : Token) (m : MdState) : GoodMatch .docStringSeparator t (matchDocSep t m) := by
  unfold matchDocSep
  split
  · split
    · exact matchSep_good _ _ _ _
    · split <;> exact matchSep_good _ _ _ _
  · exact matchSep_good _ _ _ _

theorem matchFeature_good (t : Token) (m : MdState) : GoodMatch .featureLine t (matchFeature t m) := by
  unfold matchFeature
  split
  · exact ⟨rfl, rfl, by simp⟩
  · have h := matchTitle_good .featureLine headerPrefix m.dialect.feature [':'] t m
    split
    · rename_i t' m' heq
      rw [heq] at h
      exact ⟨h.line, h.locLine, fun _ => h.type rfl⟩
    · exact ⟨rfl, rfl, fun _ => ⟨rfl, rfl⟩⟩

theorem matchScenario_good (t : Token) (m : MdState) : GoodMatch .scenarioLine t (matchScenario t m) := by
  unfold matchScenario
  have h := matchTitle_good .scenarioLine headerPrefix m.dialect.scenario [':'] t m
  split
  · rename_i t' m' heq
    rw [heq] at h
    have h2 := matchTitle_good .scenarioLine headerPrefix m.dialect.scenarioOutline [':'] t' m'
    exact ⟨h2.line.trans h.line, h2.locLine.trans h.locLine, h2.type⟩
  · exact h

theorem matchTableRow_good (t : Token) (m : MdState) : GoodMatch .tableRow t (matchTableRow t m) := by
  unfold matchTableRow
  split
  · split
    · split
      · exact ⟨rfl, rfl, by simp⟩
      · exact ⟨rfl, rfl, fun _ => ⟨rfl, rfl⟩⟩
    · exact ⟨rfl, rfl, by simp⟩
  · exact ⟨rfl, rfl, by simp⟩

theorem matchComment_good (t : Token) (m : MdState) : GoodMatch .comment t (matchComment t m) := by
  unfold matchComment
  simp only
  split
  · split
    · exact ⟨rfl, rfl, fun _ => ⟨rfl, rfl⟩⟩
    · exact ⟨rfl, rfl, by simp⟩
  · exact ⟨rfl, rfl, by simp⟩

theorem matchTagLine_good (t : Token) (m : MdState) : GoodMatch .tagLine t (matchTagLine t m) := by
  unfold matchTagLine
  simp only
  split
  · exact ⟨rfl, rfl, by simp⟩
  · exact ⟨rfl, rfl, fun _ => ⟨rfl, rfl⟩⟩

theorem matchEof_good (t : Token) (m : MdState) : GoodMatch .eof t (matchEof t m) := by
  unfold matchEof
  split
  · exact ⟨rfl, rfl, fun _ => ⟨rfl, rfl⟩⟩
  · exact ⟨rfl, rfl, by simp⟩

theorem orElse_line (fs : List (Token → MdState → Except MExc Bool × Token × MdState))
    (h : ∀ f ∈ fs, ∀ t m, ∃ k, GoodMatch k t (f t m)) (t : Token) (m : MdState) :
    (orElse fs t m).2.1.line = t.line ∧ (orElse fs t m).2.1.loc.line = t.loc.line := by
  induction fs generalizing t m with
  | nil => exact ⟨rfl, rfl⟩
  | cons f fs ih =>
    obtain ⟨k, hk⟩ := h f (by simp) t m
    unfold orElse
    split
    · rename_i t' m' heq
      rw [heq] at hk
      have := ih (fun g hg => h g (by simp [hg])) t' m'
      exact ⟨this.1.trans hk.line, this.2.trans hk.locLine⟩
    · exact ⟨hk.line, hk.locLine⟩

theorem emptyProbes_good : ∀ f ∈ emptyProbes, ∀ t m, ∃ k, GoodMatch k t (f t m) := by
  intro f hf t m
  simp only [emptyProbes, List.mem_cons, List.not_mem_nil, or_false] at hf
  rcases hf with h | h | h | h | h | h | h | h | h | h | h | h <;> subst h
  · exact ⟨_, matchTagLine_good t m⟩
  · exact ⟨_, matchFeature_good t m⟩
  · exact ⟨_, matchScenario_good t m⟩
  · exact ⟨_, matchTitle_good _ _ _ _ t m⟩
  · exact ⟨_, matchTitle_good _ _ _ _ t m⟩
  · exact ⟨_, matchTitle_good _ _ _ _ t m⟩
  · exact ⟨_, matchTableRow_good t m⟩
  · exact ⟨_, matchComment_good t m⟩
  · exact ⟨.language, ⟨rfl, rfl, by simp [matchLanguage]⟩⟩
  · exact ⟨_, matchDocSep_good t m⟩
  · exact ⟨_, matchEof_good t m⟩
  · exact ⟨_, matchTitle_good _ _ _ _ t m⟩

theorem matchEmpty_good (t : Token) (m : MdState) : GoodMatch .empty t (matchEmpty t m) := by
  have h := orElse_line emptyProbes emptyProbes_good t m
  unfold matchEmpty
  split
  · rename_i heq
    rw [heq] at h
    exact ⟨h.1, h.2, by simp⟩
  · rename_i heq
    rw [heq] at h
    split
    · exact ⟨h.1, h.2, fun _ => ⟨rfl, rfl⟩⟩
    · exact ⟨h.1, h.2, by simp⟩

theorem matchKind_good (k : Kind) (t : Token) (m : MdState) : GoodMatch k t (matchKind k t m) := by
  cases k <;> simp only [matchKind]
  case eof => exact matchEof_good t m
  case empty => exact matchEmpty_good t m
  case comment => exact matchComment_good t m
  case tagLine => exact matchTagLine_good t m
  case featureLine => exact matchFeature_good t m
  case scenarioLine => exact matchScenario_good t m
  case docStringSeparator => exact matchDocSep_good t m
  case tableRow => exact matchTableRow_good t m
  case language => exact ⟨rfl, rfl, by simp [matchLanguage]⟩
  case other => exact ⟨rfl, rfl, fun _ => ⟨rfl, rfl⟩⟩
  all_goals exact matchTitle_good _ _ _ _ t m

end Md

theorem markdown_lawful : markdown.Lawful where
  line k t m := (Md.matchKind_good k t m).line
  locLine k t m := (Md.matchKind_good k t m).locLine
  type k t m h := ((Md.matchKind_good k t m).type h).1
  column k t m h := ((Md.matchKind_good k t m).type h).2
  eof t m := by
    simp only [markdown, Md.matchKind, Md.matchEof]
    split <;> simp_all

end Gherkin
