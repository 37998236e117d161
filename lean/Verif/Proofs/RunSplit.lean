import Verif.Proofs.RunFacts

/-! Taking runs apart. -/

namespace Gherkin.Auto

/-- The lines of a source: no end-of-file line but the last one. -/
structure Src (lines : List Line) : Prop where
  shape : ∃ src e, lines = src ++ [e] ∧ e.isEof = true ∧ ∀ l ∈ src, l.isEof = false

theorem Src.tail {l : Line} {rest : List Line} (h : Src (l :: rest)) (he : l.isEof = false) : Src rest := by
  obtain ⟨src, e, h1, h2, h3⟩ := h.shape
  cases src with
  | nil => simp at h1; rw [h1.1, h2] at he; simp at he
  | cons x xs =>
    simp at h1
    exact ⟨xs, e, h1.2, h2, fun y hy => h3 y (by simp [hy])⟩

theorem Src.eof {l : Line} {rest : List Line} (h : Src (l :: rest)) (he : l.isEof = true) : rest = [] := by
  obtain ⟨src, e, h1, h2, h3⟩ := h.shape
  cases src with
  | nil => simp at h1; exact h1.2
  | cons x xs => simp at h1; have := h3 x (by simp); rw [← h1.1, he] at this; simp at this

theorem Src.ne {lines : List Line} (h : Src lines) : lines ≠ [] := by
  obtain ⟨src, e, h1, _⟩ := h.shape; rw [h1]; simp

theorem splitLines_ne (text : Str) : ∀ s ∈ splitLines text, s ≠ [] := by
  induction text with
  | nil => simp [splitLines]
  | cons c cs ih =>
    simp only [splitLines]
    split
    · intro s hs; rcases List.mem_cons.1 hs with rfl | hs
      · simp
      · exact ih s hs
    · split
      · simp
      · rename_i l ls h
        intro s hs
        rcases List.mem_cons.1 hs with rfl | hs
        · simp
        · exact ih s (by rw [h]; simp [hs])

theorem sourceLines_noteof {text : Str} {l : Line} (h : l ∈ sourceLines text) : l.isEof = false := by
  simp only [sourceLines, List.mem_map] at h
  obtain ⟨⟨s, n⟩, hs, rfl⟩ := h
  have hm : s ∈ splitLines text := by rw [(List.mem_zipIdx hs).2.2]; exact List.getElem_mem _
  have := splitLines_ne text s hm
  cases s <;> simp_all [Line.isEof]

theorem tokenLines_src (text : Str) : Src (tokenLines text) :=
  ⟨_, _, rfl, rfl, fun _ h => sourceLines_noteof h⟩

/-- The first step of a run over a source, and the rest. -/
theorem run_cons {q : Nat} {m : CState} {lines : List Line} {mv : List Move} {q' : Nat} {m' : CState} (h : Run q m lines mv q' m')
    (hs : Src lines) :
    ∃ l rest x mv' m1, lines = l :: rest ∧ mv = x :: mv' ∧ x.state = q ∧ StepSpec q l rest m x.tr x.tok m1 ∧ x.tok.Of l ∧
      ((l.isEof = true ∧ rest = [] ∧ mv' = [] ∧ q' = x.tr.target ∧ m' = m1) ∨
       (l.isEof = false ∧ Src rest ∧ Run x.tr.target m1 rest mv' q' m')) := by
  cases h with
  | nil => exact absurd rfl hs.ne
  | @last _ _ l rest tr t m1 hst he =>
    have sp := step_spec hst
    exact ⟨l, rest, _, [], m', rfl, rfl, rfl, sp, matched_of sp.matched, .inl ⟨he, hs.eof he, rfl, rfl, rfl⟩⟩
  | @cons _ _ l rest tr t m1 mv' _ _ hst he hr =>
    have sp := step_spec hst
    exact ⟨l, rest, _, mv', m1, rfl, rfl, rfl, sp, matched_of sp.matched, .inr ⟨he, hs.tail he, hr⟩⟩

/-- The move at any place of a run. -/
theorem run_at {mv1 : List Move} : ∀ {q : Nat} {m : CState} {lines : List Line} {x : Move} {mv2 : List Move} {q' : Nat} {m' : CState},
    Run q m lines (mv1 ++ x :: mv2) q' m' → Src lines → Inv q m →
    ∃ l1 l l2 m1 m2, lines = l1 ++ l :: l2 ∧ l1.length = mv1.length ∧ StepSpec x.state l l2 m1 x.tr x.tok m2 ∧ x.tok.Of l ∧
      Inv x.state m1 ∧ Inv x.tr.target m2 ∧ l1 = mv1.map (fun y => y.tok.line) ∧
      ((l.isEof = true ∧ l2 = [] ∧ mv2 = [] ∧ q' = x.tr.target ∧ m' = m2) ∨
       (l.isEof = false ∧ Src l2 ∧ Run x.tr.target m2 l2 mv2 q' m')) := by
  induction mv1 with
  | nil =>
    intro q m lines x mv2 q' m' h hs hi
    obtain ⟨l, rest, x', mv', m1, rfl, h1, rfl, h2, h3, h4⟩ := run_cons h hs
    simp only [List.nil_append, List.cons.injEq] at h1
    obtain ⟨rfl, rfl⟩ := h1
    exact ⟨[], l, rest, m, m1, rfl, rfl, h2, h3, hi, inv_step hi h2, rfl, h4⟩
  | cons y mv1 ih =>
    intro q m lines x mv2 q' m' h hs hi
    obtain ⟨l, rest, x', mv', m1, rfl, h1, rfl, h2, h3, h4⟩ := run_cons h hs
    simp only [List.cons_append, List.cons.injEq] at h1
    obtain ⟨rfl, rfl⟩ := h1
    rcases h4 with ⟨_, _, h5, _⟩ | ⟨_, h5, h6⟩
    · simp at h5
    · obtain ⟨l1, l', l2, m2, m3, rfl, e1, e2⟩ := ih h6 h5 (inv_step hi h2)
      refine ⟨l :: l1, l', l2, m2, m3, rfl, by simp [e1], e2.1, e2.2.1, e2.2.2.1, e2.2.2.2.1, ?_, e2.2.2.2.2.2⟩
      rw [e2.2.2.2.2.1]
      simp [h3.1]

/-- The tokens of a run are those of its lines. -/
theorem run_lines {q : Nat} {m : CState} {lines : List Line} {mv : List Move} {q' : Nat} {m' : CState} (h : Run q m lines mv q' m')
    (hs : Src lines) : mv.map (fun y => y.tok.line) = lines := by
  induction h with
  | nil => exact absurd rfl hs.ne
  | last hst he => rw [hs.eof he]; simp [(matched_of (step_spec hst).matched).1]
  | cons hst he hr ih => simp [(matched_of (step_spec hst).matched).1, ih (hs.tail he)]

/-- Every token has the type of the transition that was taken. -/
theorem run_types {q : Nat} {m : CState} {lines : List Line} {mv : List Move} {q' : Nat} {m' : CState} (h : Run q m lines mv q' m') :
    ∀ x ∈ mv, x.tok.type = some x.tr.kind := by
  induction h with
  | nil => simp
  | last hst he => intro x hx; simp at hx; subst hx; exact matched_type (step_spec hst).matched
  | cons hst he hr ih =>
    intro x hx
    rcases List.mem_cons.1 hx with rfl | hx
    · exact matched_type (step_spec hst).matched
    · exact ih x hx

/-- The rest of a doc string: content lines up to the closing delimiter. -/
theorem run_open {s : Str} : ∀ {lines : List Line} {q : Nat} {m : CState} {mv : List Move} {q' : Nat} {m' : CState},
    Run q m lines mv q' m' → Src lines → Inv q m → m.active = some s →
    ∃ content closing rest mvC x mv', lines = content ++ closing :: rest ∧ (∀ l ∈ content, l.startsWith s = false) ∧
      closing.startsWith s = true ∧ closing.isEof = false ∧ mv = mvC ++ x :: mv' ∧
      mvC.map (·.tok) = content.map (fun l => (Classic.matchOther (Token.fresh l) m).2.1) ∧
      x.tr.kind = .docStringSeparator ∧ x.tok.Of closing ∧ x.tok.text = none ∧ (∀ y ∈ mvC, y.tr.kind = .other) ∧
      (∀ y ∈ mvC, y.state = q) ∧ x.state = q ∧
      Src rest ∧ Run x.tr.target { m with active := none, indentToRemove := 0 } rest mv' q' m' := by
  intro lines
  induction lines with
  | nil => intro q m mv q' m' h hs; exact absurd rfl hs.ne
  | cons l rest ih =>
    intro q m mv q' m' h hs hi ha
    obtain ⟨l', rest', x, mv', m1, h0, rfl, rfl, h2, h3, h4⟩ := run_cons h hs
    simp only [List.cons.injEq] at h0
    obtain ⟨rfl, rfl⟩ := h0
    have hq : x.state ∈ openStates := by rw [hi.active, ha]; simp
    have hne : l.isEof = false := by
      rcases h2.eof with h | h
      · rcases h2.facts.inside hq with h' | h' <;> simp [h] at h'
      · exact h
    rcases h4 with ⟨h4, _⟩ | ⟨_, hs', hr⟩
    · rw [hne] at h4; simp at h4
    by_cases hk : x.tr.kind = .docStringSeparator
    · have hm := h2.matched
      rw [hk] at hm
      rcases docSep_cases hi.sep hm with ⟨ha', _⟩ | ⟨s', ha', e1, e2, e3⟩
      · rw [ha'] at ha; simp at ha
      · rw [ha] at ha'; cases ha'
        refine ⟨[], l, rest, [], x, mv', rfl, by simp, e1, hne, rfl, rfl, hk, h3, by rw [e3]; rfl, by simp, by simp, rfl, hs', ?_⟩
        rw [← e2]; exact hr
    · obtain ⟨ko, kt⟩ := (h2.facts.inside hq).resolve_left hk
      have hm := h2.matched
      rw [ko] at hm
      have hmm : m1 = m := by
        simp only [Classic.matchKind, Classic.matchOther, Prod.mk.injEq] at hm
        exact hm.2.2.symm
      subst hmm
      have hstart : l.startsWith s = false := by
        -- the separator transition comes before `other` in the row
        obtain ⟨row, pre, post, hrow, htr, hpass⟩ := h2.row
        have : ∃ y ∈ pre, y.kind = .docStringSeparator := by
          have hall : ∀ q ∈ openStates, ∀ row, table q = some row → row.trans.head?.map (·.kind) = some .docStringSeparator := by
            intro q hq row hr
            simp only [openStates, List.mem_cons, List.not_mem_nil, or_false] at hq
            rcases hq with rfl | rfl | rfl | rfl <;> (simp only [table, Option.some.injEq] at hr; subst hr; rfl)
          have hh := hall _ hq row hrow
          rw [htr] at hh
          cases pre with
          | nil => simp [ko] at hh
          | cons y pre => exact ⟨y, by simp, by simpa using hh⟩
        obtain ⟨y, hy, hyk⟩ := this
        have hp := hpass y hy
        unfold Passed at hp
        rw [hyk] at hp
        have hms : ∀ b, (Classic.matchKind .docStringSeparator (Token.fresh l) m1).1 = .ok b → l.startsWith s = b := by
          intro b
          simp only [Classic.matchKind, Classic.matchDocSep, ha, Classic.matchSep]
          have : (Token.fresh l).line = l := rfl
          rw [this]
          split <;> rename_i h1 <;> simp [h1]
        rcases hp with hp | hp | ⟨la, hp1, hp2, hp3⟩
        · rw [hne] at hp; simp at hp
        · exact hms _ hp
        · exfalso
          have hla := (row_facts hrow).1
          unfold laOnTags at hla
          rw [List.all_eq_true] at hla
          have := hla y (by rw [htr]; simp [hy])
          rw [hp1, hyk] at this
          simp at this
      obtain ⟨content, closing, rest2, mvC, x2, mv2, e1, e2, e3, e4, e5, e6, e7⟩ := ih (hr) hs' (inv_step hi h2) ha
      subst e1; subst e5
      refine ⟨l :: content, closing, rest2, x :: mvC, x2, mv2, rfl, ?_, e3, e4, rfl, ?_, e7.1, e7.2.1, e7.2.2.1, ?_, ?_, ?_, e7.2.2.2.2.2.2⟩
      · intro y hy; rcases List.mem_cons.1 hy with rfl | hy
        · exact hstart
        · exact e2 y hy
      · simp only [List.map_cons, e6]
        simp only [Classic.matchKind] at hm
        rw [hm]
      · intro y hy; rcases List.mem_cons.1 hy with rfl | hy
        · exact ko
        · exact e7.2.2.2.1 y hy
      · intro y hy; rcases List.mem_cons.1 hy with rfl | hy
        · rfl
        · exact (e7.2.2.2.2.1 y hy).trans kt
      · exact e7.2.2.2.2.2.1.trans kt

end Gherkin.Auto
