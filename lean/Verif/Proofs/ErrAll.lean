import Verif.Proofs.Total3
import Verif.Proofs.Language
import Verif.Spec.Errors

/-! All errors of the classic parser are about the text. -/

namespace Gherkin

open Auto

theorem takeWhile_dropWhile_length {α : Type} (p : α → Bool) (s : List α) : (s.takeWhile p).length + (s.dropWhile p).length = s.length := by
  rw [← List.length_append, List.takeWhile_append_dropWhile]

theorem firstColumn_eq (l : Line) : firstColumn l = l.indent + 1 := by
  have := takeWhile_dropWhile_length isSpace l.text
  simp only [firstColumn, Line.indent, Line.trimmed, lstrip, lstripBy]
  omega

theorem line_unique {text : Str} {l l' : Line} (h : l ∈ tokenLines text) (h' : l' ∈ tokenLines text) (hn : l.number = l'.number) : l = l' := by
  have hp := (tokenLines_numbered text).inc
  have hnd : ((tokenLines text).map (·.number)).Nodup := by
    exact hp.imp (by intro a b h; omega)
  exact inj_on_of_nodup_map' hnd h h' hn
where
  inj_on_of_nodup_map' {ls : List Line} (hnd : (ls.map (·.number)).Nodup) {a b : Line} (ha : a ∈ ls) (hb : b ∈ ls)
      (h : a.number = b.number) : a = b := by
    induction ls with
    | nil => simp at ha
    | cons x xs ih =>
      simp only [List.map_cons, List.nodup_cons, List.mem_map, not_exists, not_and] at hnd
      rcases List.mem_cons.1 ha with rfl | ha
      · rcases List.mem_cons.1 hb with rfl | hb
        · rfl
        · exact absurd h.symm (hnd.1 b hb)
      · rcases List.mem_cons.1 hb with rfl | hb
        · rename_i ha'
          exact absurd h (hnd.1 a (by assumption))
        · exact ih hnd.2 ha hb

theorem mem_source {text : Str} {l : Line} (h : l ∈ tokenLines text) (he : l.isEof = false) : l ∈ sourceLines text := by
  simp only [tokenLines, List.mem_append, List.mem_singleton] at h
  rcases h with h | rfl
  · exact h
  · simp [eofLine, Line.isEof] at he

theorem mem_eof {text : Str} {l : Line} (h : l ∈ tokenLines text) (he : l.isEof = true) : l = eofLine text := by
  simp only [tokenLines, List.mem_append, List.mem_singleton] at h
  rcases h with h | h
  · exfalso
    have := (tokenLines_numbered text).eof l (by simp [tokenLines, h])
    rw [he] at this; simp at this
  · exact h

theorem source_mem {text : Str} {l : Line} (h : l ∈ sourceLines text) : l ∈ tokenLines text := by simp [tokenLines, h]

theorem numberedFrom_of {n : Nat} {ls : List Line} (h : (ls.map (·.number)).Pairwise (· < ·)) (h0 : ∀ l ∈ ls, n < l.number) :
    NumberedFrom n ls := by
  induction ls generalizing n with
  | nil => trivial
  | cons l ls ih =>
    simp only [List.map_cons, List.pairwise_cons, List.mem_map, forall_exists_index, and_imp, forall_apply_eq_imp_iff₂] at h
    exact ⟨h0 l (by simp), ih h.2 h.1⟩

theorem tokenLines_pos {text : Str} {l : Line} (h : l ∈ tokenLines text) : 0 < l.number := by
  have h1 : l.number ∈ (tokenLines text).map (·.number) := List.mem_map.2 ⟨l, h, rfl⟩
  rw [tokenLines_numbers] at h1
  simp [List.mem_range'] at h1
  omega

theorem numberedFrom_tokenLines (text : Str) : NumberedFrom 0 (tokenLines text) :=
  numberedFrom_of (tokenLines_numbered text).inc fun _ h => tokenLines_pos h

/-- Each expected kind has a transition without look-ahead. -/
def rowOkX (q : Nat) : Bool :=
  match table q with
  | some row => !row.expected.isEmpty && row.expected.all fun k => row.trans.any fun tr => tr.kind == k && tr.la == none
  | none => true

theorem rows_okX : ∀ q ∈ allStates, rowOkX q = true := by decide +kernel

theorem expected_row {q : Nat} {row : StateRow} (h : table q = some row) : row.expected ≠ [] ∧
    ∀ k ∈ row.expected, ∃ tr ∈ row.trans, tr.kind = k ∧ tr.la = none := by
  have := rows_okX q (mem_allStates h)
  unfold rowOkX at this
  rw [h] at this
  simp only [Bool.and_eq_true, List.all_eq_true, List.any_eq_true, beq_iff_eq, Bool.not_eq_true'] at this
  exact ⟨by intro h; rw [h] at this; simp at this, this.2⟩

theorem kindsText_eq (ks : List Kind) : kindsText ks = expectedStr ks := rfl
theorem posText_eq (n c : Nat) : posText n c = Location.pre ⟨n, some c⟩ := rfl

/-- The errors that may be on record after line `n`. -/
def QAt (dflt text : Str) (n : Nat) (e : Err) : Prop :=
  ErrorAt dflt text e ∧ ∀ k, e.aliasOf = some k → k ≤ n ∧ e.loc.line = k ∧ ∃ name, e.kind = .noSuchLanguage name

theorem lstrip_lstrip (s : Str) : lstrip (lstrip s) = lstrip s := by
  obtain ⟨_, _, _, h⟩ := lstripBy_spec (p := isSpace) s
  exact lstripBy_id h

/-- What is known of tokens. -/
def PAt (text : Str) (t : Token) : Prop :=
  t.type = some .tableRow → ∃ l ∈ sourceLines text, t.loc = ⟨l.number, some (l.indent + 1)⟩ ∧ firstIs '|' l = true ∧ l.tableCells = .ok t.items

theorem langErr_spec {l : Line} {m : CState} {e : Err} (h : LangErr l m e) (hl : l.isEof = false) : ∃ name, IsHeader name l.text ∧
    dialectFor name = none ∧ e = Err.mkNoSuchLanguage name ⟨l.number, some (l.indent + 1)⟩ (some l.number) := by
  unfold LangErr at h
  simp only [Classic.matchKind, Classic.matchLanguage] at h
  have hf : (Token.fresh l).line = l := rfl
  rw [hf] at h
  split at h
  · simp at h
  · rename_i name hn
    split at h
    · simp at h
    · rename_i hd
      refine ⟨name, header_iff.1 hn, hd, ?_⟩
      simp only [Except.error.injEq, MExc.parser.injEq] at h
      rw [← h]
      simp [setMatched, hf, hl, Token.fresh]

theorem row_token {l : Line} {m m' : CState} {t : Token} (hl : l.isEof = false)
    (h : Classic.matchKind .tableRow (Token.fresh l) m = (.ok true, t, m')) :
    t.loc = ⟨l.number, some (l.indent + 1)⟩ ∧ firstIs '|' l = true ∧ l.tableCells = .ok t.items := by
  simp only [Classic.matchKind, Classic.matchTableRow] at h
  have hf : (Token.fresh l).line = l := rfl
  rw [hf] at h
  split at h
  · rename_i hb
    split at h
    · rename_i cells hcells
      simp only [Prod.mk.injEq] at h
      refine ⟨?_, by rw [firstIs_iff]; exact hb, by rw [← h.2.1]; exact hcells⟩
      rw [← h.2.1]
      simp [setMatched, hf, hl, Token.fresh]
    · simp at h
  · simp at h

theorem mkUnexpected_eq {t : Token} {l : Line} (hat : t.At l) (exp : List Kind) : Err.mkUnexpectedToken t exp =
    { kind := .unexpectedToken exp (strip t.value),
      msg := Location.pre ⟨l.number, some (l.indent + 1)⟩ ++ (py"expected: " ++ expectedStr exp ++ py", got '" ++ strip t.value ++ py"'"),
      loc := ⟨l.number, some (l.indent + 1)⟩, aliasOf := none } := by
  unfold Err.mkUnexpectedToken
  rcases hat.2 with h | ⟨_, h⟩
  · rw [h]; rfl
  · rw [h, hat.1.2]

theorem reports (dflt text : Str) : Reports (QAt dflt text) (PAt text) (fun m => InForce dflt text m.dialect) (tokenLines text) where
  closed l hl := by
    refine ⟨?_, ?_⟩
    · intro e t he ha ht hcol
      obtain ⟨h1, h2⟩ := he
      rw [ht.1] at ha
      obtain ⟨h3, h4, name, h5⟩ := h2 _ ha
      refine ⟨?_, ?_⟩
      · unfold ErrorAt at h1 ⊢
        simp only [h5] at h1 ⊢
        obtain ⟨l0, k1, k2, k3, k4⟩ := h1
        have : l0 = l := line_unique (source_mem k1) hl (by rw [← k2, h4])
        subst this
        refine ⟨l0, k1, ht.2, ?_, k4⟩
        rw [firstColumn_eq]; exact hcol
      · intro k hk
        simp only at hk
        rw [ha] at hk
        simp at hk; subst hk
        exact ⟨h3, ht.2, name, h5⟩
    · intro m e he
      have hle : l.isEof = false := by
        cases hh : l.isEof
        · rfl
        · exfalso
          rw [mem_eof hl hh] at he
          unfold LangErr at he
          simp [Classic.matchKind, Classic.matchLanguage, eofLine, Token.fresh, Line.lineText, Line.trimmed, lstrip, lstripBy,
            Classic.languageName, Classic.dropPre] at he
      obtain ⟨name, k1, k2, rfl⟩ := langErr_spec he hle
      refine ⟨?_, ?_⟩
      · simp only [ErrorAt, Err.mkNoSuchLanguage]
        refine ⟨l, mem_source hl hle, rfl, .inr (by rw [firstColumn_eq]), k1, k2, ?_⟩
        rw [firstColumn_eq, posText_eq, List.append_assoc]
      · intro k hk
        simp only [Err.mkNoSuchLanguage, Option.some.injEq] at hk
        subst hk
        exact ⟨Nat.le_refl _, rfl, name, rfl⟩
  mono n n' e hn h := ⟨h.1, fun k hk => by
    obtain ⟨h1, h2, h3⟩ := h.2 k hk
    exact ⟨by omega, h2, h3⟩⟩
  below n e k h hk := (h.2 k hk).1
  row e h := by
    obtain ⟨t, t0, h1, h2, h3, h4, h5, rfl⟩ := h
    obtain ⟨l, k1, k2, k3, k4⟩ := h1 h2
    obtain ⟨l0, j1, j2, j3, j4⟩ := h3 h4
    refine ⟨?_, by simp [Err.mkAst]⟩
    simp only [ErrorAt, Err.mkAst]
    rw [k2]
    refine ⟨l, k1, by rw [firstColumn_eq], k3, ⟨l0, j1, j3, _, _, k4, j4, h5⟩, ?_⟩
    rw [firstColumn_eq, posText_eq]
  tok l hl k m m' t h hk := by
    intro ht
    rw [matched_type h] at ht
    simp at ht; subst ht
    have hle : l.isEof = false := by simpa using hk
    exact ⟨l, mem_source hl hle, row_token hle h⟩
  keep l hl k m m' t hM h hk := by
    by_cases hlang : k = .language
    · subst hlang
      have hle : l.isEof = false := by simpa using hk
      simp only [Classic.matchKind, Classic.matchLanguage] at h
      split at h
      · simp at h
      · rename_i name hn
        split at h
        · rename_i d hd
          simp only [Prod.mk.injEq] at h
          rw [← h.2.2]
          exact .inr ⟨l, mem_source hl hle, name, header_iff.1 hn, hd⟩
        · simp at h
    · by_cases hsep : k = .docStringSeparator
      · subst hsep
        have : m'.dialect = m.dialect := by
          revert h
          simp only [Classic.matchKind, Classic.matchDocSep, Classic.matchSep]
          (repeat' split) <;> simp <;> (intro _ h; rw [← h])
        rw [this]; exact hM
      · have := Classic.matchKind_state hlang hsep (Token.fresh l) m
        rw [h] at this
        simp only at this
        rw [this]; exact hM
  unexp q row l rest m t hrow hinv hM hsuf hat hpass := by
    have hl : l ∈ tokenLines text := hsuf.subset (by simp)
    obtain ⟨x1, x2⟩ := expected_row hrow
    have hte : t.eof = l.isEof := by rw [Token.eof, hat.1.1]
    unfold unexpected
    rw [hte]
    cases hle : l.isEof with
    | true =>
      have := mem_eof hl hle
      simp only [if_true]
      have htf : t = Token.fresh l := by
        rcases hat.2 with h | ⟨h, _⟩
        · exact h
        · rw [hle] at h; simp at h
      refine ⟨?_, by simp [Err.mkUnexpectedEof]⟩
      simp only [ErrorAt, Err.mkUnexpectedEof]
      have hlen : (sourceLines text).length = (splitLines text).length := by simp [sourceLines]
      rw [htf, this, hlen]
      refine ⟨rfl, x1, ?_, ?_⟩
      · intro he
        obtain ⟨tr, y1, y2, y3⟩ := x2 _ he
        rcases hpass tr y1 with h | ⟨h, _⟩
        · rcases h with ⟨h, _⟩ | h | ⟨la, h, _⟩
          · exact h y2
          · rw [y2] at h
            simp [Classic.matchKind, Classic.matchEof, Token.eof, Token.fresh, hle] at h
          · rw [y3] at h; simp at h
        · rw [y2] at h; simp at h
      · rw [List.append_assoc]; rfl
    | false =>
      simp only [Bool.false_eq_true, if_false]
      refine ⟨?_, by simp [Err.mkUnexpectedToken]⟩
      have hq : q ∉ openStates := by
        intro hq
        have : ∃ tr ∈ row.trans, tr.kind = .other := by
          have hd : ∀ q ∈ openStates, ∀ row, table q = some row → ∃ tr ∈ row.trans, tr.kind = .other := by
            intro q hq
            simp only [openStates, List.mem_cons, List.not_mem_nil, or_false] at hq
            rcases hq with rfl | rfl | rfl | rfl <;> (intro row hr; simp only [table, Option.some.injEq] at hr; subst hr; decide)
          exact hd q hq row hrow
        obtain ⟨tr, y1, y2⟩ := this
        rcases hpass tr y1 with h | ⟨h, _⟩
        · rcases h with ⟨_, h⟩ | h | ⟨la, h, _⟩
          · rw [hle] at h; simp at h
          · rw [y2] at h; simp [Classic.matchKind, Classic.matchOther] at h
          · have := (row_facts hrow).1
            simp only [laOnTags, List.all_eq_true] at this
            have := this tr y1
            rw [h, y2] at this; simp at this
        · rw [y2] at h; simp at h
      have hact : m.active = none := by rw [hinv.active] at hq; simpa using hq
      have hval : strip t.value = strip l.text := by
        have : t.eof = false := by rw [hte, hle]
        simp [Token.value, this, hat.1.1, Line.lineText, Line.trimmed, strip, lstrip_lstrip]
      rw [mkUnexpected_eq hat, hval]
      simp only [ErrorAt]
      refine ⟨l, mem_source hl hle, by rw [firstColumn_eq], rfl, x1, ⟨m.dialect, hM, ?_⟩, ?_⟩
      · intro he
        obtain ⟨tr, y1, y2, y3⟩ := x2 _ he
        rcases hpass tr y1 with h | ⟨h, _⟩
        · rcases h with ⟨_, h⟩ | h | ⟨la, h, _⟩
          · rw [hle] at h; simp at h
          · rw [y2, match_fits hact (lineKind_language _ _) (lineKind_eof _ _), lineKind_fits] at h
            simp at h
          · rw [y3] at h; simp at h
        · rw [y2] at h; exact lineKind_language _ _ h
      · rw [firstColumn_eq, posText_eq, kindsText_eq]
        simp only [List.append_assoc]

/-- Every outcome of the classic parser. -/
theorem parse_out (stop : Bool) (text : Str) {m : CState} (hm : m.Valid) (b : BState) :
    Out (QAt m.defaultName text) (tokenLines text) stop (parse ⟨classic, astBuilder, stop⟩ text m b).1 := by
  have h := pure_out (stop := stop) (reports m.defaultName text) (numberedFrom_tokenLines text) hm (b := b) (by
    left
    have hv := Classic.reset_valid hm
    have := hv.cur
    rw [reset_name hm] at this
    exact this)
  rw [(parse_sim (stop := stop) astBuilder_plain text hm b).1]
  exact h

end Gherkin
