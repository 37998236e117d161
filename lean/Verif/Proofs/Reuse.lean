import Verif.Proofs.Inv
import Verif.Proofs.Shift
import Verif.Proofs.ClassicMatch

/-! What stays of matcher and builder objects between parses. -/

namespace Gherkin

/-! ### The classic matcher -/

theorem classic_reset_same {m m' : CState} (h : m.Valid) (h' : m'.Valid) (hd : m'.defaultName = m.defaultName) :
    Classic.reset m' = Classic.reset m := by
  obtain ⟨d, hdd⟩ := Option.isSome_iff_exists.1 h.dflt
  obtain ⟨dn, n, di, i, a⟩ := m
  obtain ⟨dn', n', di', i', a'⟩ := m'
  have hc := h.cur
  have hc' := h'.cur
  simp only at hd hdd hc hc'
  subst hd
  unfold Classic.reset
  simp only [hdd]
  by_cases e : n = dn' <;> by_cases e' : n' = dn'
  · subst e; subst e'; rw [hc] at hc'; cases hc'; simp
  · subst e; rw [hc] at hdd; cases hdd; simp [e']
  · subst e'; rw [hc'] at hdd; cases hdd; simp [e]
  · simp [e, e']

theorem classic_match_default (k : Kind) (t : Token) (m : CState) : (Classic.matchKind k t m).2.2.defaultName = m.defaultName := by
  cases k <;>
    simp only [Classic.matchKind, Classic.matchEof, Classic.matchEmpty, Classic.matchComment, Classic.matchTagLine, Classic.matchTitle,
      Classic.matchStep, Classic.matchDocSep, Classic.matchSep, Classic.matchTableRow, Classic.matchOther, Classic.matchLanguage] <;>
    (repeat' split) <;> rfl

theorem classic_reset_default (m : CState) : (Classic.reset m).defaultName = m.defaultName := by
  unfold Classic.reset
  simp only
  split
  · split <;> rfl
  · rfl

/-- A valid matcher for the default dialect `name`. -/
def CState.For (name : Str) (m : CState) : Prop := m.Valid ∧ m.defaultName = name

theorem CState.new_for {name : Str} {m : CState} (h : CState.new name = some m) : m.For name := by
  refine ⟨CState.new_valid h, ?_⟩
  unfold CState.new at h
  cases hd : dialectFor name with
  | none => rw [hd] at h; simp at h
  | some d => rw [hd] at h; simp at h; subst h; rfl

/-! ### The Markdown matcher -/

/-- The attributes that no `match_K` of the Markdown matcher changes. -/
def MdState.For (name : Str) (d : Dialect) (m : MdState) : Prop := m.defaultName = name ∧ m.dialectName = name ∧ m.dialect = d

theorem MdState.new_for {name : Str} {m : MdState} (h : MdState.new name = some m) : m.For name m.dialect := by
  unfold MdState.new at h
  cases hd : dialectFor name with
  | none => rw [hd] at h; simp at h
  | some d => rw [hd] at h; simp at h; subst h; exact ⟨rfl, rfl, rfl⟩

theorem md_reset_same {name : Str} {d : Dialect} {m m' : MdState} (h : m.For name d) (h' : m'.For name d) : Md.reset m' = Md.reset m := by
  obtain ⟨dn, n, di, i, a, f⟩ := m
  obtain ⟨dn', n', di', i', a', f'⟩ := m'
  obtain ⟨h1, h2, h3⟩ := h
  obtain ⟨h1', h2', h3'⟩ := h'
  simp only at *
  subst h1 h3 h1' h3' h2'
  simp [Md.reset, h2]

theorem md_reset_for {name : Str} {d : Dialect} {m : MdState} (h : m.For name d) : (Md.reset m).For name d := by
  obtain ⟨h1, h2, h3⟩ := h
  unfold Md.reset
  simp [h1, h2, h3, MdState.For]

section
variable {name : Str} {d : Dialect}

theorem md_matchTitle_for (k : Kind) (p : Str → List Md.PrefixMatch) (ks : List Str) (s : Str) (t : Token) {m : MdState} (h : m.For name d) :
    (Md.matchTitle k p ks s t m).2.2.For name d := by
  unfold Md.matchTitle; split <;> exact h

theorem md_matchFeature_for (t : Token) {m : MdState} (h : m.For name d) : (Md.matchFeature t m).2.2.For name d := by
  unfold Md.matchFeature
  split
  · exact h
  · have := md_matchTitle_for (d := d) .featureLine Md.headerPrefix m.dialect.feature [':'] t h
    split
    · rename_i e; rw [e] at this; exact this
    · exact h

theorem md_matchScenario_for (t : Token) {m : MdState} (h : m.For name d) : (Md.matchScenario t m).2.2.For name d := by
  unfold Md.matchScenario
  have := md_matchTitle_for (d := d) .scenarioLine Md.headerPrefix m.dialect.scenario [':'] t h
  split
  · rename_i e; rw [e] at this; exact md_matchTitle_for _ _ _ _ _ this
  · exact this

theorem md_matchTableRow_for (t : Token) {m : MdState} (h : m.For name d) : (Md.matchTableRow t m).2.2.For name d := by
  unfold Md.matchTableRow
  (repeat' split) <;> exact h

theorem md_matchComment_for (t : Token) {m : MdState} (h : m.For name d) : (Md.matchComment t m).2.2.For name d := by
  unfold Md.matchComment
  simp only
  (repeat' split) <;> exact h

theorem md_matchTagLine_for (t : Token) {m : MdState} (h : m.For name d) : (Md.matchTagLine t m).2.2.For name d := by
  unfold Md.matchTagLine
  simp only
  split <;> exact h

theorem md_matchDocSep_for (t : Token) {m : MdState} (h : m.For name d) : (Md.matchDocSep t m).2.2.For name d := by
  unfold Md.matchDocSep Md.matchSep
  (repeat' split) <;> exact h

theorem md_matchEof_for (t : Token) {m : MdState} (h : m.For name d) : (Md.matchEof t m).2.2.For name d := by
  unfold Md.matchEof
  split <;> exact h

theorem md_orElse_for (fs : List (Token → MdState → Except MExc Bool × Token × MdState))
    (hfs : ∀ f ∈ fs, ∀ t (m : MdState), m.For name d → (f t m).2.2.For name d) (t : Token) {m : MdState} (h : m.For name d) :
    (Md.orElse fs t m).2.2.For name d := by
  induction fs generalizing t m with
  | nil => exact h
  | cons f fs ih =>
    simp only [Md.orElse]
    have := hfs f (by simp) t m h
    split
    · rename_i e; rw [e] at this; exact ih (fun g hg => hfs g (by simp [hg])) _ this
    · exact this

theorem md_matchEmpty_for (t : Token) {m : MdState} (h : m.For name d) : (Md.matchEmpty t m).2.2.For name d := by
  unfold Md.matchEmpty
  have := md_orElse_for Md.emptyProbes (name := name) (d := d) (by
    intro f hf t m h
    simp only [Md.emptyProbes, List.mem_cons, List.not_mem_nil, or_false] at hf
    rcases hf with rfl | rfl | rfl | rfl | rfl | rfl | rfl | rfl | rfl | rfl | rfl | rfl
    · exact md_matchTagLine_for _ h
    · exact md_matchFeature_for _ h
    · exact md_matchScenario_for _ h
    · exact md_matchTitle_for _ _ _ _ _ h
    · exact md_matchTitle_for _ _ _ _ _ h
    · exact md_matchTitle_for _ _ _ _ _ h
    · exact md_matchTableRow_for _ h
    · exact md_matchComment_for _ h
    · exact h
    · exact md_matchDocSep_for _ h
    · exact md_matchEof_for _ h
    · exact md_matchTitle_for _ _ _ _ _ h) t h
  split
  · rename_i e; rw [e] at this; exact this
  · rename_i e; rw [e] at this; split <;> exact this

theorem md_match_for (k : Kind) (t : Token) {m : MdState} (h : m.For name d) : (Md.matchKind k t m).2.2.For name d := by
  cases k <;> simp only [Md.matchKind]
  · exact md_matchEof_for _ h
  · exact md_matchEmpty_for _ h
  · exact md_matchComment_for _ h
  · exact md_matchTagLine_for _ h
  · exact md_matchFeature_for _ h
  · exact md_matchTitle_for _ _ _ _ _ h
  · exact md_matchTitle_for _ _ _ _ _ h
  · exact md_matchScenario_for _ h
  · exact md_matchTitle_for _ _ _ _ _ h
  · exact md_matchTitle_for _ _ _ _ _ h
  · exact md_matchDocSep_for _ h
  · exact md_matchTableRow_for _ h
  · exact h
  · exact h

end

/-! ### The builder -/

open AstB in
theorem getTags_grows (items : List Item) (n : Nat) : n ≤ (getTags items n).2 := by
  unfold getTags
  split
  · simp
  · exact Nat.le_refl _

open AstB in
theorem transform_grows (r : Rule) (items : List Item) (cm : List Comment) (n : Nat) : n ≤ (transform r items cm n).2 := by
  cases r <;> simp only [transform, Nat.le_refl]
  case step => unfold mkStep; split <;> simp
  case docString => unfold mkDocString; (repeat' split) <;> simp
  case dataTable =>
    have : n ≤ (getTableRows items n).2 := by unfold getTableRows; simp only; split <;> simp
    unfold mkDataTable
    split <;> (rename_i e; rw [e] at this; exact this)
  case examplesTable =>
    have : n ≤ (getTableRows items n).2 := by unfold getTableRows; simp only; split <;> simp
    unfold mkExamplesTable
    split <;> (rename_i e; rw [e] at this; exact this)
  case background => unfold mkBackground; split <;> simp
  case scenarioDefinition =>
    have := getTags_grows items n
    unfold mkScenario; simp only; (repeat' split) <;> simp <;> omega
  case examplesDefinition =>
    have := getTags_grows items n
    unfold mkExamples; simp only; (repeat' split) <;> simp <;> omega
  case description => unfold mkDescription; (repeat' split) <;> simp
  case rule =>
    unfold mkRule
    split
    · simp
    · rename_i h _
      have := getTags_grows h n
      simp only; split <;> simp <;> omega
  case feature =>
    unfold mkFeature
    split
    · simp
    · rename_i h _
      have := getTags_grows h n
      simp only; (repeat' split) <;> simp <;> omega

open AstB in
theorem endRule_grows (r : Rule) (b : BState) : b.nextId ≤ (endRule r b).2.nextId := by
  unfold endRule
  split
  · exact Nat.le_refl _
  · exact Nat.le_refl _
  · rename_i r items pr pitems rest e
    have := transform_grows r items b.comments b.nextId
    split <;> (rename_i e; rw [e] at this; exact this)

open AstB in
theorem build_sameId (t : Token) (b : BState) : (build t b).2.nextId = b.nextId := by
  unfold build
  split
  · rfl
  · split <;> rfl

/-- The id counter never goes down, whatever happens in a parse. -/
theorem parse_nextId_mono {μ : Type} (M : Matcher μ) (stop : Bool) (text : Str) (m : μ) (b : BState) :
    b.nextId ≤ (parse ⟨M, astBuilder, stop⟩ text m b).2.builder.nextId := by
  apply parse_keeps (cfg := ⟨M, astBuilder, stop⟩) (P := fun _ b' => b.nextId ≤ b'.nextId)
  · constructor
    · intro k t m b' h; exact h
    · intro r m b' h; exact h
    · intro r m b' h; exact Nat.le_trans h (endRule_grows r b')
    · intro t m b' h; show _ ≤ (AstB.build t b').2.nextId; rw [build_sameId]; exact h
  · exact Nat.le_refl _

theorem astReset_shift (b : BState) (k : Nat) : AstB.reset { b with nextId := b.nextId + k } = BState.shift k (AstB.reset b) := rfl

theorem classic_parse_for {name : Str} (stop : Bool) (text : Str) {m : CState} (h : m.For name) (b : BState) :
    (parse ⟨classic, astBuilder, stop⟩ text m b).2.matcher.For name := by
  apply parse_keeps (cfg := ⟨classic, astBuilder, stop⟩) (P := fun m _ => m.For name)
  · constructor
    · intro k t m b h; exact ⟨Classic.matchKind_valid h.1, (classic_match_default k t m).trans h.2⟩
    · intro r m b h; exact h
    · intro r m b h; exact h
    · intro r m b h; exact h
  · exact ⟨Classic.reset_valid h.1, (classic_reset_default m).trans h.2⟩

theorem md_parse_for {name : Str} {d : Dialect} (stop : Bool) (text : Str) {m : MdState} (h : m.For name d) (b : BState) :
    (parse ⟨markdown, astBuilder, stop⟩ text m b).2.matcher.For name d := by
  apply parse_keeps (cfg := ⟨markdown, astBuilder, stop⟩) (P := fun m _ => m.For name d)
  · constructor
    · intro k t m b h; exact md_match_for k t h
    · intro r m b h; exact h
    · intro r m b h; exact h
    · intro r m b h; exact h
  · exact md_reset_for h

end Gherkin
