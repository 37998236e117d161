import Verif.Proofs.LayDoc
import Verif.Proofs.Language

/-! Whole texts: a text with a layout is read, and its document is the syntax tree of the layout. -/

namespace Gherkin

namespace Auto

open Layout (Ln place)

/-- The matcher after the language header. -/
def fileMatcher (m : CState) (F : Layout.File) : CState :=
  match F.language with
  | none => m
  | some l => (Classic.matchKind .language (Token.fresh ⟨l.text, 0⟩) m).2.2

def langTok (m : CState) (F : Layout.File) : Option Token := F.language.map fun l => tokOf m .language l.text (1 + F.before.length)

def fileCst (m : CState) (F : Layout.File) : Cst.CDoc :=
  ⟨some (featureCst (fileMatcher m F) (1 + F.before.length + (F.language.toList.flatMap Ln.texts).length) (langTok m F) F.feature),
    tokOf (fileMatcher m F) .eof [] (F.texts.length + 1)⟩

theorem linesFrom_zipIdx : ∀ (ss : List Str) (n : Nat), (ss.zipIdx n).map (fun (s, n) => (⟨s, n⟩ : Line)) = linesFrom n ss
  | [], _ => rfl
  | s :: ss, n => by simp [linesFrom, linesFrom_zipIdx ss (n + 1)]

theorem tokenLines_from (text : Str) : tokenLines text = linesFrom 1 (splitLines text) ++ [⟨[], (splitLines text).length + 1⟩] := by
  rw [tokenLines, sourceLines, linesFrom_zipIdx]; rfl

/-- The end of the file. -/
theorem eof_run {m : CState} {q : Nat} {q' : Nat} (h : goes q .eof false false = some q') (n : Nat) :
    ∃ tr, Run q m [⟨[], n⟩] [⟨q, tr, tokOf m .eof [] n⟩] q' m := by
  obtain ⟨_, tr, h1, h2⟩ := goes_some h
  refine ⟨tr, ?_⟩
  rw [← h2]
  have he : Line.isEof ⟨[], n⟩ = true := rfl
  refine .last ?_ he
  unfold sel at h1
  cases hrow : table q with
  | none => rw [hrow] at h1; simp at h1
  | some row =>
    rw [hrow] at h1
    simp only [Option.bind_some, List.find?_eq_some_iff_append] at h1
    obtain ⟨g1, pre, post, g2, g3⟩ := h1
    simp only [Bool.and_eq_true, beq_iff_eq] at g1
    refine step_make hrow g2 ?_ (by rw [g1.1]; rfl) (.inl g1.1) ?_
    · intro x hx
      refine .inl ⟨?_, he⟩
      intro hk
      have := g3 x hx
      rw [hk] at this
      cases hl : x.la with
      | none => rw [hl] at this; simp [laOk] at this
      | some la =>
        have := (row_facts hrow).1
        simp only [laOnTags, List.all_eq_true, Bool.or_eq_true, beq_iff_eq] at this
        rcases this x (by rw [g2]; simp [hx]) with h | h
        · rw [h] at hl; simp at hl
        · rw [h] at hk; simp at hk
    · intro la hl
      have := g1.2
      rw [hl] at this
      cases la <;> simp [laOk] at this

/-- The language header. -/
theorem header_go {m : CState} {s name : Str} {d : Dialect} (hs : IsHeader name s) (hd : dialectFor name = some d) (n : Nat) (rest : List Line)
    (hne : s ≠ []) : Go 0 m [⟨s, n⟩] rest [tokOf m .language s n] 1 { m with dialectName := name, dialect := d } ∧
      (Classic.matchKind .language (Token.fresh ⟨s, 0⟩) m).2.2 = { m with dialectName := name, dialect := d } ∧
      (tokOf m .language s n).type = some .language := by
  have hl : ∀ k, Classic.languageName (Token.fresh ⟨s, k⟩).line.lineText = some name := fun k => header_iff.2 hs
  have hm : ∀ k, Classic.matchKind .language (Token.fresh ⟨s, k⟩) m = (.ok true, tokOf m .language s k, { m with dialectName := name, dialect := d }) := by
    intro k
    have : Classic.languageName ({ text := s, number := k } : Line).lineText = some name := hl k
    simp [tokOf, Classic.matchKind, Classic.matchLanguage, hl k, hd]
  have he : Line.isEof ⟨s, n⟩ = false := by simpa [Line.isEof] using hne
  have ht := matched_type (hm n)
  refine ⟨?_, by rw [hm 0], ht⟩
  have hst : step 0 ⟨s, n⟩ rest m = some (⟨.language, none, [.start .feature, .start .featureHeader, .build], 1⟩, tokOf m .language s n, { m with dialectName := name, dialect := d }) := by
    refine step_make (row := state0) (pre := [⟨.eof, none, [.build], 42⟩]) rfl rfl ?_ (hm n) (.inr he) (by simp)
    intro x hx
    obtain rfl : x = _ := by simpa using hx
    refine .inr (.inl ?_)
    have : (Token.fresh ⟨s, n⟩).eof = false := he
    simp [Classic.matchKind, Classic.matchEof, this]
  exact Go.core hst he ht (by simp) (by simp)

theorem reset_calm {m : CState} (hm : m.Valid) : (Classic.reset m).Calm :=
  have hi := inv_start hm
  have ha : (Classic.reset m).active = none := by unfold Classic.reset; rfl
  ⟨hi.valid, ha, hi.indent ha⟩

theorem reset_dialect {m : CState} (hm : m.Valid) {d : Dialect} (hd : dialectFor m.defaultName = some d) : (Classic.reset m).dialect = d := by
  have h1 := (reset_calm hm).valid.cur
  rw [reset_name hm, hd] at h1
  exact (Option.some.inj h1).symm

theorem featureCst_toks (m : CState) (n : Nat) (t : Option Token) (f : Layout.Feature) :
    (featureCst m n t f).toks = t.toList ++ (featureCst m n none f).toks := by
  simp [featureCst, Cst.CFeature.toks]

theorem file_run {m : CState} (hm : m.Valid) {F : Layout.File} (hF : F.Ok m.defaultName) {text : Str} (ht : splitLines text = F.texts) :
    ∃ mv q, Run 0 (Classic.reset m) (tokenLines text) mv q (fileMatcher (Classic.reset m) F) ∧
      coreToks mv = (fileCst (Classic.reset m) F).toks ∧ (fileCst (Classic.reset m) F).Ok := by
  have hc := reset_calm hm
  have ok := head_ok
  simp only [headOk, Bool.and_eq_true] at ok
  obtain ⟨⟨⟨_, o6⟩, o7⟩, o8⟩ := ok
  simp only [List.all_eq_true, beq_iff_eq] at o8
  have hne : ∀ s ∈ F.texts, s ≠ [] := by rw [← ht]; exact splitLines_ne text
  obtain ⟨hb1, hb2, hF⟩ := hF
  have hb : Piece (Classic.reset m) [0] 1 F.before [] [0] := Piece.noise hc o6 hb1 (.inr fun s hs => by
    rw [languageName_lstrip]
    cases h : Classic.languageName s with
    | none => rfl
    | some name => exact absurd (languageName_iff.1 h) (hb2 s hs name))
  obtain ⟨q0, hq0, gb⟩ := hb (fun s hs => hne s (by simp [Layout.File.texts, hs])) 0 (by simp)
  obtain rfl : q0 = 0 := by simpa using hq0
  rw [tokenLines_from, ht]
  cases hl : F.language with
  | none =>
    rw [hl] at hF
    obtain ⟨d, hd, hf⟩ := hF
    have hm1 : fileMatcher (Classic.reset m) F = Classic.reset m := by simp [fileMatcher, hl]
    have hl1 : langTok (Classic.reset m) F = none := by simp [langTok, hl]
    rw [← reset_dialect hm hd] at hf
    have e : F.texts = F.before ++ F.feature.texts := by simp [Layout.File.texts, hl]
    obtain ⟨q1, hq1, gf⟩ := Piece.feature hc hf (n := 1 + F.before.length) (fun s hs => hne s (by simp [e, hs])) 0 (by simp)
    obtain ⟨tr, re⟩ := eof_run (m := Classic.reset m) (o8 q1 hq1) (F.texts.length + 1)
    obtain ⟨mv1, r1, t1⟩ := gf _ _ _ _ re
    obtain ⟨mv2, r2, t2⟩ := gb _ _ _ _ r1
    refine ⟨mv2, 42, ?_, ?_, ?_⟩
    · rw [e, linesFrom_append, List.append_assoc, hm1, ← e]; exact r2
    · rw [t2, t1]
      simp only [fileCst, hl1, hm1, hl]
      simp [Cst.CDoc.toks, coreToks]
      rfl
    · simp only [fileCst, hl1, hm1]
      refine ⟨?_, rfl⟩
      intro f hf'
      simp only [Option.mem_def, Option.some.injEq] at hf'
      subst hf'
      exact feature_ok' hc hf (fun s hs => hne s (by simp [e, hs])) _ (by simp)
  | some l =>
    rw [hl] at hF
    obtain ⟨hla, name, d, hh, hd, hf⟩ := hF
    have e : F.texts = F.before ++ (l.text :: (l.after ++ F.feature.texts)) := by simp [Layout.File.texts, hl, Ln.texts]
    have hlne : l.text ≠ [] := hne _ (by simp [e])
    have hg := fun n rest => header_go (m := Classic.reset m) hh hd n rest hlne
    have hm1 : fileMatcher (Classic.reset m) F = { Classic.reset m with dialectName := name, dialect := d } := by
      simp only [fileMatcher, hl]; exact (hg 0 []).2.1
    have hl1 : langTok (Classic.reset m) F = some (tokOf (Classic.reset m) .language l.text (1 + F.before.length)) := by simp [langTok, hl]
    have hc1 : (fileMatcher (Classic.reset m) F).Calm := by
      rw [hm1]
      exact ⟨⟨hd, hc.valid.dflt⟩, hc.active, hc.indent⟩
    have hdd : (fileMatcher (Classic.reset m) F).dialect = d := by rw [hm1]
    rw [← hdd] at hf
    obtain ⟨q1, hq1, gn⟩ := Piece.noise hc1 o7 hla (.inl (by simp)) (n := 1 + F.before.length + 1) (fun s hs => hne s (by simp [e, hs])) 1 (by simp)
    obtain rfl : q1 = 1 := by simpa using hq1
    obtain ⟨q2, hq2, gf⟩ := Piece.feature hc1 hf (n := 1 + F.before.length + 1 + l.after.length) (fun s hs => hne s (by simp [e, hs])) 1 (by simp)
    obtain ⟨tr, re⟩ := eof_run (m := fileMatcher (Classic.reset m) F) (o8 q2 hq2) (F.texts.length + 1)
    obtain ⟨mv1, r1, t1⟩ := gf _ _ _ _ re
    obtain ⟨mv2, r2, t2⟩ := gn _ _ _ _ r1
    have hg1 := (hg (1 + F.before.length) (linesFrom (1 + F.before.length + 1) l.after ++ (linesFrom (1 + F.before.length + 1 + l.after.length) F.feature.texts ++ [⟨[], F.texts.length + 1⟩]))).1
    rw [← hm1] at hg1
    obtain ⟨mv3, r3, t3⟩ := hg1 _ _ _ r2
    obtain ⟨mv4, r4, t4⟩ := gb _ _ _ _ r3
    refine ⟨mv4, 42, ?_, ?_, ?_⟩
    · rw [e, linesFrom_append, ← e]
      simp only [linesFrom, linesFrom_append, List.cons_append, List.append_assoc] at r4 ⊢
      exact r4
    · rw [t4, t3, t2, t1]
      simp only [fileCst, hl1, hl, Cst.CDoc.toks]
      simp only [Option.toList, List.flatMap_cons, List.flatMap_nil, List.append_nil]
      have en : 1 + F.before.length + l.texts.length = 1 + F.before.length + 1 + l.after.length := by simp [Ln.texts]; omega
      rw [en, featureCst_toks _ _ (some _)]
      simp [coreToks]
      rfl
    · simp only [fileCst, hl1]
      refine ⟨?_, rfl⟩
      intro f hf'
      simp only [Option.mem_def, Option.some.injEq] at hf'
      subst hf'
      refine feature_ok' hc1 hf (fun s hs => hne s (by simp [e, hs])) _ ?_
      intro t ht
      simp only [Option.mem_def, Option.some.injEq] at ht
      subst ht
      exact (hg _ []).2.2

end Auto

/-- A text with a layout is accepted, and its document is the tree of the layout. -/
theorem file_parses {m : CState} (hm : m.Valid) {F : Layout.File} (hF : F.Ok m.defaultName) {text : Str} (ht : splitLines text = F.texts) (b : BState) (stop : Bool) :
    (Auto.fileCst (Classic.reset m) F).Ok ∧
    ∃ cm, (parse (classicCfg astBuilder stop) text m b).1 = .ok (some ((Auto.fileCst (Classic.reset m) F).ast cm b.nextId).1) := by
  obtain ⟨mv, q, h1, h2, h3⟩ := Auto.file_run hm hF ht
  exact ⟨h3, _, run_doc hm h1 h3 h2.symm b stop⟩

end Gherkin
