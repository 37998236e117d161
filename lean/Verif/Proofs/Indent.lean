import Verif.Proofs.MirrorDoc
import Verif.Spec.Indent

/-! Runs over lines that differ in their indentation. -/

namespace Gherkin

open Auto Cst Md

/-- The same line, indented in another way. -/
structure Twin (l l' : Line) : Prop where
  number : l'.number = l.number
  trimmed : l'.trimmed = l.trimmed
  eof : l'.isEof = l.isEof

theorem Twin.symm {l l' : Line} (h : Twin l l') : Twin l' l := ⟨h.number.symm, h.trimmed.symm, h.eof.symm⟩

/-- The same state, the indentation of doc strings apart. -/
structure TwinState (m m' : CState) : Prop where
  dflt : m'.defaultName = m.defaultName
  name : m'.dialectName = m.dialectName
  dialect : m'.dialect = m.dialect
  active : m'.active = m.active

theorem TwinState.symm {m m' : CState} (h : TwinState m m') : TwinState m' m := ⟨h.dflt.symm, h.name.symm, h.dialect.symm, h.active.symm⟩

theorem tagLoop_twin : ∀ (items : List Str) (c c' : Nat),
    (∀ e, tagLoop items c = .error e ↔ tagLoop items c' = .error e) ∧
    (∀ ts, tagLoop items c = .ok ts → ∃ ts', tagLoop items c' = .ok ts' ∧ ts'.map (·.text) = ts.map (·.text))
  | [], _, _ => by simp [tagLoop]
  | i :: is, c, c' => by
    obtain ⟨h1, h2⟩ := tagLoop_twin is (c + i.length + 1) (c' + i.length + 1)
    unfold tagLoop
    simp only
    split
    · simp
    · cases ha : tagLoop is (c + i.length + 1) with
      | error e =>
        rw [(h1 e).1 ha]
        simp
      | ok ts =>
        obtain ⟨ts', e1, e2⟩ := h2 ts ha
        rw [e1]
        simp [e2]

theorem twin_tags {l l' : Line} (h : Twin l l') :
    (∀ e, l.tags = .error e ↔ l'.tags = .error e) ∧ ∀ ts, l.tags = .ok ts → ∃ ts', l'.tags = .ok ts' ∧ ts'.map (·.text) = ts.map (·.text) := by
  unfold Line.tags
  rw [h.trimmed]
  exact tagLoop_twin _ _ _

theorem twin_cells {l l' : Line} (h : Twin l l') :
    (∀ e, l.tableCells = .error e ↔ l'.tableCells = .error e) ∧
    ∀ ts, l.tableCells = .ok ts → ∃ ts', l'.tableCells = .ok ts' ∧ ts'.map (·.text) = ts.map (·.text) := by
  unfold Line.tableCells
  rw [h.trimmed]
  cases splitCells (strip l.trimmed) 0 1 [] true with
  | error e => simp
  | ok cells => simp [List.map_map, Function.comp_def]

/-- What is the same for twins. -/
theorem Twin.same {l l' : Line} (h : Twin l l') : (∀ p, l'.startsWith p = l.startsWith p) ∧ (∀ p, l'.startsWithTitle p = l.startsWithTitle p) ∧
    (∀ n, l'.restTrimmed n = l.restTrimmed n) ∧ l'.isBlank = l.isBlank ∧ l'.lineText = l.lineText := by
  simp [Line.startsWith, Line.startsWithTitle, Line.restTrimmed, Line.isBlank, Line.lineText, h.trimmed]

/-- What a test that succeeds gives for the twin. -/
theorem twin_match {k : Kind} {l l' : Line} (h : Twin l l') {m m' : CState} (hm : TwinState m m') {t : Token} {m1 : CState}
    (hr : Classic.matchKind k (Token.fresh l) m = (.ok true, t, m1))
    (ho : k = .other → rstripEol (Classic.unescapeDoc m.active (l'.lineTextFrom m'.indentToRemove)) = rstripEol (Classic.unescapeDoc m.active (l.lineTextFrom m.indentToRemove))) :
    ∃ t' m1', Classic.matchKind k (Token.fresh l') m' = (.ok true, t', m1') ∧ t'.flat = t.flat ∧ TwinState m1 m1' ∧
      (k ≠ .docStringSeparator → m1.indentToRemove = m.indentToRemove ∧ m1'.indentToRemove = m'.indentToRemove) ∧
      (k = .docStringSeparator → m.active = none → m1.indentToRemove = l.indent ∧ m1'.indentToRemove = l'.indent) := by
  obtain ⟨s1, s2, s3, s4, s5⟩ := h.same
  have hf : ∀ l : Line, (Token.fresh l).line = l := fun _ => rfl
  have hnum := h.number.symm
  have title : ∀ {K : Kind} {kws : List Str}, K ∉ [Kind.comment, .docStringSeparator, .tableRow, .stepLine] →
      Classic.matchTitle K kws (Token.fresh l) m = (.ok true, t, m1) →
      ∃ t' m1', Classic.matchTitle K kws (Token.fresh l') m' = (.ok true, t', m1') ∧ t'.flat = t.flat ∧ TwinState m1 m1' ∧
      (K ≠ .docStringSeparator → m1.indentToRemove = m.indentToRemove ∧ m1'.indentToRemove = m'.indentToRemove) ∧
      (K = .docStringSeparator → m.active = none → m1.indentToRemove = l.indent ∧ m1'.indentToRemove = l'.indent) := by
    intro K kws hK hr
    unfold Classic.matchTitle at hr ⊢
    simp only [hf, s2, s3] at hr ⊢
    cases hfind : kws.find? (fun kw => l.startsWithTitle kw) with
    | none => rw [hfind] at hr; simp at hr
    | some kw =>
      rw [hfind] at hr
      simp only [Prod.mk.injEq, true_and] at hr
      obtain ⟨rfl, rfl⟩ := hr
      refine ⟨_, _, rfl, ?_, hm, fun _ => ⟨rfl, rfl⟩, fun e => absurd e (by intro e; subst e; simp at hK)⟩
      rw [hm.name]
      exact flat_set hnum rfl rfl rfl rfl
  cases k
  case eof =>
    simp only [Classic.matchKind, Classic.matchEof, Token.eof, hf, h.eof] at hr ⊢
    split at hr
    · rename_i he
      simp only [Prod.mk.injEq, true_and] at hr
      obtain ⟨rfl, rfl⟩ := hr
      rw [if_pos he]
      refine ⟨_, _, rfl, ?_, hm, fun _ => ⟨rfl, rfl⟩, by simp⟩
      rw [hm.name]
      exact flat_set hnum rfl rfl rfl rfl
    · simp at hr
  case empty =>
    simp only [Classic.matchKind, Classic.matchEmpty, hf, s4] at hr ⊢
    split at hr
    · rename_i he
      simp only [Prod.mk.injEq, true_and] at hr
      obtain ⟨rfl, rfl⟩ := hr
      rw [if_pos he]
      refine ⟨_, _, rfl, ?_, hm, fun _ => ⟨rfl, rfl⟩, by simp⟩
      rw [hm.name]
      exact flat_set hnum rfl rfl rfl rfl
    · simp at hr
  case comment =>
    simp only [Classic.matchKind, Classic.matchComment, hf, s1] at hr ⊢
    split at hr
    · rename_i he
      simp only [Prod.mk.injEq, true_and] at hr
      obtain ⟨rfl, rfl⟩ := hr
      rw [if_pos he]
      refine ⟨_, _, rfl, ?_, hm, fun _ => ⟨rfl, rfl⟩, by simp⟩
      rw [hm.name]
      exact flat_set hnum (by simp) rfl rfl rfl
    · simp at hr
  case tagLine =>
    simp only [Classic.matchKind, Classic.matchTagLine, hf, s1] at hr ⊢
    split at hr
    · rename_i he
      rw [if_pos he]
      cases ht : l.tags with
      | error e => rw [ht] at hr; simp at hr
      | ok ts =>
        rw [ht] at hr
        simp only [Prod.mk.injEq, true_and] at hr
        obtain ⟨rfl, rfl⟩ := hr
        obtain ⟨ts', e1, e2⟩ := (twin_tags h).2 ts ht
        rw [e1]
        refine ⟨_, _, rfl, ?_, hm, fun _ => ⟨rfl, rfl⟩, by simp⟩
        rw [hm.name]
        exact flat_set hnum rfl rfl rfl e2
    · simp at hr
  case tableRow =>
    simp only [Classic.matchKind, Classic.matchTableRow, hf, s1] at hr ⊢
    split at hr
    · rename_i he
      rw [if_pos he]
      cases ht : l.tableCells with
      | error e => rw [ht] at hr; simp at hr
      | ok ts =>
        rw [ht] at hr
        simp only [Prod.mk.injEq, true_and] at hr
        obtain ⟨rfl, rfl⟩ := hr
        obtain ⟨ts', e1, e2⟩ := (twin_cells h).2 ts ht
        rw [e1]
        refine ⟨_, _, rfl, ?_, hm, fun _ => ⟨rfl, rfl⟩, by simp⟩
        rw [hm.name]
        exact flat_set hnum rfl rfl rfl e2
    · simp at hr
  case stepLine =>
    simp only [Classic.matchKind, Classic.matchStep, hf, s1, s3, hm.dialect] at hr ⊢
    cases hfind : m.dialect.stepKeywords.find? (fun kw => l.startsWith kw) with
    | none => rw [hfind] at hr; simp at hr
    | some kw =>
      rw [hfind] at hr
      simp only [Prod.mk.injEq, true_and] at hr
      obtain ⟨rfl, rfl⟩ := hr
      refine ⟨_, _, rfl, ?_, hm, fun _ => ⟨rfl, rfl⟩, by simp⟩
      rw [hm.name]
      exact flat_set hnum rfl rfl rfl rfl
  case language =>
    simp only [Classic.matchKind, Classic.matchLanguage, hf, s5] at hr ⊢
    cases hn : Classic.languageName l.lineText with
    | none => rw [hn] at hr; simp at hr
    | some name =>
      rw [hn] at hr
      simp only at hr ⊢
      cases hd : dialectFor name with
      | none => rw [hd] at hr; simp at hr
      | some d =>
        rw [hd] at hr
        simp only [Prod.mk.injEq, true_and] at hr
        obtain ⟨rfl, rfl⟩ := hr
        refine ⟨_, _, rfl, ?_, ⟨hm.dflt, rfl, rfl, hm.active⟩, fun _ => ⟨rfl, rfl⟩, by simp⟩
        rw [hm.name]
        exact flat_set hnum rfl rfl rfl rfl
  case other =>
    simp only [Classic.matchKind, Classic.matchOther, hf, Prod.mk.injEq, true_and] at hr ⊢
    obtain ⟨rfl, rfl⟩ := hr
    refine ⟨_, _, ⟨rfl, rfl⟩, ?_, hm, fun _ => ⟨rfl, rfl⟩, by simp⟩
    rw [hm.name, hm.active]
    refine flat_set hnum ?_ rfl rfl rfl
    simp only [Option.map_some, ho rfl]
  case docStringSeparator =>
    simp only [Classic.matchKind, Classic.matchDocSep, hm.active] at hr ⊢
    cases ha : m.active with
    | none =>
      rw [ha] at hr
      simp only at hr ⊢
      have key : ∀ sep, Classic.matchSep sep true (Token.fresh l) m = (.ok true, t, m1) →
          ∃ t' m1', Classic.matchSep sep true (Token.fresh l') m' = (.ok true, t', m1') ∧ t'.flat = t.flat ∧ TwinState m1 m1' ∧
            m1.indentToRemove = l.indent ∧ m1'.indentToRemove = l'.indent := by
        intro sep hr
        unfold Classic.matchSep at hr ⊢
        simp only [hf, s1, s3] at hr ⊢
        split at hr
        · rename_i he
          simp only [if_true, Prod.mk.injEq, true_and] at hr
          obtain ⟨rfl, rfl⟩ := hr
          rw [if_pos he]
          refine ⟨_, _, rfl, ?_, ⟨hm.dflt, hm.name, hm.dialect, rfl⟩, rfl, rfl⟩
          rw [hm.name]
          exact flat_set hnum rfl rfl rfl rfl
        · simp at hr
      simp only [hf, s1] at hr ⊢
      split at hr
      · rename_i he
        rw [if_pos he]
        obtain ⟨t', m1', g1, g2, g3, g4, g5⟩ := key _ hr
        exact ⟨t', m1', g1, g2, g3, by simp, fun _ _ => ⟨g4, g5⟩⟩
      · rename_i he
        rw [if_neg he]
        obtain ⟨t', m1', g1, g2, g3, g4, g5⟩ := key _ hr
        exact ⟨t', m1', g1, g2, g3, by simp, fun _ _ => ⟨g4, g5⟩⟩
    | some sep =>
      rw [ha] at hr
      simp only at hr ⊢
      unfold Classic.matchSep at hr ⊢
      simp only [hf, s1, s3] at hr ⊢
      split at hr
      · rename_i he
        simp only [Bool.false_eq_true, if_false, Prod.mk.injEq, true_and] at hr ⊢
        obtain ⟨rfl, rfl⟩ := hr
        rw [if_pos he]
        refine ⟨_, _, rfl, ?_, ⟨hm.dflt, hm.name, hm.dialect, rfl⟩, by simp, by simp⟩
        rw [hm.name]
        exact flat_set hnum rfl rfl rfl rfl
      · simp at hr
  all_goals
    simp only [Classic.matchKind, hm.dialect] at hr ⊢
    exact title (by simp) hr

/-- Whether a test succeeds or fails is the same for the twin. -/
theorem twin_true {k : Kind} {l l' : Line} (h : Twin l l') {m m' : CState} (hm : TwinState m m') 
    (hr : (Classic.matchKind k (Token.fresh l) m).1 = .ok true) : (Classic.matchKind k (Token.fresh l') m').1 = .ok true := by
  by_cases hk : k = .other
  · subst hk; rfl
  · rcases hx : Classic.matchKind k (Token.fresh l) m with ⟨r, t, m1⟩
    rw [hx] at hr
    simp only at hr
    subst hr
    obtain ⟨t', m1', e, _⟩ := twin_match h hm hx (fun e => absurd e hk)
    rw [e]

theorem twin_false {k : Kind} {l l' : Line} (h : Twin l l') {m m' : CState} (hm : TwinState m m') 
    (hr : (Classic.matchKind k (Token.fresh l) m).1 = .ok false) : (Classic.matchKind k (Token.fresh l') m').1 = .ok false := by
  obtain ⟨s1, s2, s3, s4, s5⟩ := h.same
  have hf : ∀ l : Line, (Token.fresh l).line = l := fun _ => rfl
  cases k <;> simp only [Classic.matchKind, Classic.matchEof, Classic.matchEmpty, Classic.matchComment, Classic.matchTagLine, Classic.matchTitle,
      Classic.matchStep, Classic.matchDocSep, Classic.matchSep, Classic.matchTableRow, Classic.matchLanguage, Classic.matchOther, Token.eof, hf, s1, s2, s3, s4, s5,
      hm.dialect, hm.active, h.eof] at hr ⊢
  case tagLine =>
    split at hr
    · split at hr <;> simp at hr
    · rename_i he; rw [if_neg he]
  case tableRow =>
    split at hr
    · split at hr <;> simp at hr
    · rename_i he; rw [if_neg he]
  case language =>
    cases he : Classic.languageName l.lineText with
    | none => rfl
    | some n => rw [he] at hr; simp only at hr; split at hr <;> simp at hr
  case docStringSeparator =>
    revert hr
    cases m.active <;> simp only <;> (repeat' split) <;> simp_all
  case other => simp at hr
  all_goals (split at hr <;> first | (rename_i he; rw [he]; done) | (rename_i he; simp [he]; done) | simp at hr)

inductive Twins : List Line → List Line → Prop
  | nil : Twins [] []
  | cons {l l' ls ls'} : Twin l l' → Twins ls ls' → Twins (l :: ls) (l' :: ls')

theorem twin_peek {la : LA} {m m' : CState} (hm : TwinState m m') {ls ls' : List Line} (h : Twins ls ls') :
    ∀ {b : Bool}, Pure.peek la m ls = .ok b → Pure.peek la m' ls' = .ok b := by
  induction h with
  | nil => intro b h; exact h
  | @cons l l' ls ls' hl hls ih =>
    intro b hb
    obtain ⟨s1, s2, s3, s4, s5⟩ := hl.same
    unfold Pure.peek at hb ⊢
    rw [hl.eof, s1, s1, s4]
    split at hb
    · rename_i he; rw [if_pos he]; exact hb
    · rename_i he
      rw [if_neg he]
      have rest : (if (l.isBlank || l.startsWith ['#']) = true then Pure.peek la m ls
          else if l.startsWith ['@'] = true then match l.tags with | .ok _ => Pure.peek la m ls | .error x => .error x else .ok false) = .ok b →
          (if (l.isBlank || l.startsWith ['#']) = true then Pure.peek la m' ls'
          else if l.startsWith ['@'] = true then match l'.tags with | .ok _ => Pure.peek la m' ls' | .error x => .error x else .ok false) = .ok b := by
        intro hb
        split at hb
        · rename_i h1; rw [if_pos h1]; exact ih hb
        · rename_i h1
          rw [if_neg h1]
          split at hb
          · rename_i h2
            rw [if_pos h2]
            cases ht : l.tags with
            | error e => rw [ht] at hb; simp at hb
            | ok ts =>
              obtain ⟨ts', e1, _⟩ := (twin_tags hl).2 ts ht
              rw [ht] at hb
              rw [e1]
              exact ih hb
          · rename_i h2
            rw [if_neg h2]; exact hb
      by_cases hx : (Classic.matchKind la.expected (Token.fresh l) m).1 = .ok true
      · rw [twin_true hl hm hx]
        rw [hx] at hb
        exact hb
      · have hx' : (Classic.matchKind la.expected (Token.fresh l') m').1 ≠ .ok true := fun e => hx (twin_true hl.symm hm.symm e)
        revert hb hx hx'
        generalize (Classic.matchKind la.expected (Token.fresh l) m).1 = x
        generalize (Classic.matchKind la.expected (Token.fresh l') m').1 = x'
        intro hb hx hx'
        have hb' := rest (by
          cases x with
          | error e => exact hb
          | ok c =>
            cases c with
            | true => exact absurd rfl hx
            | false => exact hb)
        cases x' with
        | error e => exact hb'
        | ok c =>
          cases c with
          | true => exact absurd rfl hx'
          | false => exact hb'

theorem twin_passed {l l' : Line} {rest rest' : List Line} {m m' : CState} {x : Trans} (hl : Twin l l') (hr : Twins rest rest') (hm : TwinState m m')
    (h : Passed l rest m x) : Passed l' rest' m' x := by
  rcases h with ⟨h1, h2⟩ | h | ⟨la, h1, h2, h3⟩
  · exact .inl ⟨h1, by rw [hl.eof]; exact h2⟩
  · exact .inr (.inl (twin_false hl hm h))
  · exact .inr (.inr ⟨la, h1, twin_peek hm hr h2, twin_true hl hm h3⟩)

/-- What the other lines of a run say in the other text. -/
structure OthersOk (mvF : List Move) (L' : List Line) : Prop where
  plain : ∀ mv1 x mv2, mvF = mv1 ++ x :: mv2 → x.tr.kind = .other → x.state ∉ openStates → ∀ l', L'[mv1.length]? = some l' → l'.text = x.tok.line.text
  inside : ∀ a o b x mv2, mvF = a ++ o :: (b ++ x :: mv2) → x.tr.kind = .other → x.state ∈ openStates → o.tr.kind = .docStringSeparator →
    o.state ∉ openStates → (∀ y ∈ b, y.tr.kind = .other) → ∀ lo' l', L'[a.length]? = some lo' → L'[a.length + 1 + b.length]? = some l' →
    outdent lo'.indent l'.text = outdent o.tok.line.indent x.tok.line.text

/-- The indentation the matchers take away belongs to the opening line. -/
def Opened (mv1 : List Move) (L' : List Line) (m m2 : CState) : Prop :=
  m.active ≠ none → ∃ a o b lo', mv1 = a ++ o :: b ∧ o.tr.kind = .docStringSeparator ∧ o.state ∉ openStates ∧ (∀ y ∈ b, y.tr.kind = .other) ∧
    L'[a.length]? = some lo' ∧ m.indentToRemove = o.tok.line.indent ∧ m2.indentToRemove = lo'.indent

theorem twin_step {q : Nat} {m m' m2 : CState} {l l' : Line} {rest rest' : List Line} {tr : Trans} {t : Token} (hst : step q l rest m = some (tr, t, m'))
    (hi : Inv q m) (hi2 : Inv q m2) (hl : Twin l l') (hr : Twins rest rest') (hm : TwinState m m2) {mv1 mv2 : List Move} {L' : List Line}
    (hL : L'[mv1.length]? = some l') (ho : Opened mv1 L' m m2) (hok : OthersOk (mv1 ++ ⟨q, tr, t⟩ :: mv2) L') :
    ∃ t' m2', step q l' rest' m2 = some (tr, t', m2') ∧ t'.flat = t.flat ∧ TwinState m' m2' ∧ Opened (mv1 ++ [⟨q, tr, t⟩]) L' m' m2' ∧
      Inv tr.target m' ∧ Inv tr.target m2' := by
  have sp := step_spec hst
  have hline : t.line = l := (matched_of sp.matched).1
  obtain ⟨row, pre, post, r1, r2, r3⟩ := sp.row
  obtain ⟨t', m2', e1, e2, e3, e4, e5⟩ := twin_match hl hm sp.matched (by
    intro hk
    by_cases ha : m.active = none
    · have hq : q ∉ openStates := by rw [hi.active, ha]; simp
      have := hok.plain mv1 _ mv2 rfl hk hq l' hL
      rw [hi.indent ha, hi2.indent (by rw [hm.active]; exact ha), outdent_eq, outdent_eq, this, hline]
    · obtain ⟨a, o, b, lo', rfl, o1, o2, o3, o4, o5, o6⟩ := ho ha
      have := hok.inside a o b ⟨q, tr, t⟩ mv2 (by simp) hk (hi.active.2 ha) o1 o2 o3 lo' l' o4 (by rw [← hL]; simp; congr 1; omega)
      rw [outdent_eq, outdent_eq, o5, o6, this, hline])
  have hi' := inv_next hi sp.matched sp.facts
  refine ⟨t', m2', step_make r1 r2 (fun x hx => twin_passed hl hr hm (r3 x hx)) e1 (by rw [hl.eof]; exact sp.eof)
    (fun la h => twin_peek hm hr (sp.peek la h)), e2, e3, ?_, hi', inv_next hi2 e1 sp.facts⟩
  intro ha'
  by_cases hk : tr.kind = .docStringSeparator
  · have hmt := sp.matched
    rw [hk] at hmt
    rcases docSep_cases hi.sep hmt with ⟨ha, s, _, _, _, _⟩ | ⟨s, _, _, hm', _⟩
    · obtain ⟨i1, i2⟩ := e5 hk ha
      exact ⟨mv1, ⟨q, tr, t⟩, [], l', rfl, hk, by rw [hi.active, ha]; simp, by simp, hL, by rw [i1, hline], i2⟩
    · rw [hm'] at ha'; simp at ha'
  · have hq : tr.target ∈ openStates := hi'.active.2 ha'
    have hq' : q ∈ openStates := (sp.facts.keep hk).1 hq
    obtain ⟨a, o, b, lo', rfl, o1, o2, o3, o4, o5, o6⟩ := ho (hi.active.1 hq')
    obtain ⟨i1, i2⟩ := e4 hk
    refine ⟨a, o, b ++ [⟨q, tr, t⟩], lo', by simp, o1, o2, ?_, o4, by rw [i1, o5], by rw [i2, o6]⟩
    intro y hy
    simp only [List.mem_append, List.mem_singleton] at hy
    rcases hy with hy | rfl
    · exact o3 y hy
    · rcases sp.facts.inside hq' with h | h
      · exact absurd h hk
      · exact h.1

theorem twin_run : ∀ {q : Nat} {m : CState} {ls : List Line} {mv : List Move} {q' : Nat} {m' : CState}, Run q m ls mv q' m' →
    ∀ {m2 : CState} {ls' : List Line} {mv1 : List Move} {L1 : List Line}, Inv q m → Inv q m2 → Twins ls ls' → TwinState m m2 → L1.length = mv1.length →
    Opened mv1 (L1 ++ ls') m m2 → OthersOk (mv1 ++ mv) (L1 ++ ls') →
    ∃ mv' m2', Run q m2 ls' mv' q' m2' ∧ mv'.map moveKey = mv.map moveKey := by
  intro q m ls mv q' m' h
  induction h with
  | nil q m =>
    intro m2 ls' mv1 L1 _ _ ht _ _ _ _
    cases ht
    exact ⟨[], m2, .nil _ _, rfl⟩
  | @last q m l rest tr t m' hst he =>
    intro m2 ls' mv1 L1 hi hi2 ht hm hlen ho hok
    cases ht with
    | @cons _ l' _ rest' hl hr =>
      obtain ⟨t', m2', g1, g2, _⟩ := twin_step hst hi hi2 hl hr hm (by rw [← hlen]; simp) ho hok
      exact ⟨_, _, .last g1 (by rw [hl.eof]; exact he), by simp [moveKey, g2]⟩
  | @cons q m l rest tr t m' mv q' m'' hst he hrun ih =>
    intro m2 ls' mv1 L1 hi hi2 ht hm hlen ho hok
    cases ht with
    | @cons _ l' _ rest' hl hr =>
      obtain ⟨t', m2', g1, g2, g3, g4, g5, g6⟩ := twin_step hst hi hi2 hl hr hm (by rw [← hlen]; simp) ho hok
      obtain ⟨mv', m3, k1, k2⟩ := ih (L1 := L1 ++ [l']) (mv1 := mv1 ++ [⟨q, tr, t⟩]) g5 g6 hr g3 (by simp [hlen]) (by simpa using g4) (by simpa using hok)
      exact ⟨_, _, .cons g1 (by rw [hl.eof]; exact he) k1, by simp [moveKey, g2]; exact k2⟩

end Gherkin
