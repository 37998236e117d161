import Verif.Proofs.TransLine

/-! Runs over a text and over its translation. -/

namespace Gherkin

open Auto Cst Md

theorem word_match {k : Kind} (hk : k ∈ wordKinds) {l : Line} {m : CState} : 
    (Classic.matchKind k (Token.fresh l) m).1 = .ok (fits m.dialect l k) := by
  have ff : (Token.fresh l).line = l := rfl
  have title : ∀ (K : Kind) (kws : List Str), (Classic.matchTitle K kws (Token.fresh l) m).1 = .ok (isTitle kws l) := by
    intro K kws
    unfold Classic.matchTitle
    rw [ff, isTitle_iff]
    cases hf : kws.find? (fun kw => l.startsWithTitle kw) with
    | none => simp only; congr 1; symm; rw [List.any_eq_false]; simpa [List.find?_eq_none] using hf
    | some kw => simp only; congr 1; symm; rw [List.any_eq_true]; exact ⟨kw, List.mem_of_find?_eq_some hf, by simpa using List.find?_some hf⟩
  simp only [wordKinds, titleKinds, List.mem_cons, List.not_mem_nil, or_false] at hk
  rcases hk with rfl | rfl | rfl | rfl | rfl | rfl
  · simp only [Classic.matchKind, Classic.matchStep, fits, isStep_iff, ff]
    cases hf : m.dialect.stepKeywords.find? (fun kw => l.startsWith kw) with
    | none => simp only; congr 1; symm; rw [List.any_eq_false]; simpa [List.find?_eq_none] using hf
    | some kw => simp only; congr 1; symm; rw [List.any_eq_true]; exact ⟨kw, List.mem_of_find?_eq_some hf, by simpa using List.find?_some hf⟩
  all_goals exact title _ _

/-- What a line of the translation says, compared with the move over the line. -/
structure FitT (lang : Str) (d : Dialect) (lang' : Str) (d' : Dialect) (x : Move) (l' : Line) : Prop where
  inside : x.state ∈ openStates → l' = x.tok.line
  other : x.tr.kind = .other → l' = x.tok.line
  pair : x.state ∉ openStates → x.tr.kind ≠ .language → PairL d d' x.tok.line l'
  header : x.tr.kind = .language → IsHeader lang x.tok.line.text ∧ IsHeader lang' l'.text ∧ l'.number = x.tok.line.number

inductive FitsT (lang : Str) (d : Dialect) (lang' : Str) (d' : Dialect) : List Move → List Line → Prop
  | nil : FitsT lang d lang' d' [] []
  | cons {x l' mv ls'} : FitT lang d lang' d' x l' → FitsT lang d lang' d' mv ls' → FitsT lang d lang' d' (x :: mv) (l' :: ls')

/-- Lines that are skipped in the look-ahead do not open a doc string. -/
theorem skip_target {q : Nat} {l : Line} {rest : List Line} {m m' : CState} {tr : Trans} {t : Token} (hi : Inv q m) (h : StepSpec q l rest m tr t m')
    (hq : q ∉ openStates) {k : Kind} (hk : k ∉ wordKinds ∧ k ≠ .other ∧ k ≠ .docStringSeparator) (hf : fits m.dialect l k = true) : tr.target ∉ openStates := by
  have ha : m.active = none := by
    apply Classical.byContradiction
    intro hc; exact hq (hi.active.2 hc)
  have : tr.kind ≠ .docStringSeparator := by
    intro e
    have hm := h.matched
    rw [e] at hm
    have hf' : fits m.dialect l .docStringSeparator = true := by
      cases hx : fits m.dialect l .docStringSeparator with
      | true => rfl
      | false => have := (match_fits ha (by simp) (by simp)).2 hx; rw [hm] at this; simp at this
    exact hk.2.2 (fits_unique hi.valid.known hf hf' hk.2.1 (by simp))
  intro hc
  exact hq ((h.facts.keep this).1 hc)

theorem trans_peek {lang : Str} {d : Dialect} {lang' : Str} {d' : Dialect} {la : LA} {m0 m0' : CState} (hd : d.Known) (hd' : d'.Known) (h0 : m0.dialect = d) (h0' : m0'.dialect = d') :
    ∀ {q : Nat} {m : CState} {ls : List Line} {mv : List Move} {q' : Nat} {m' : CState}, Run q m ls mv q' m' → Inv q m → q ∉ openStates → q ≠ 0 → m.dialect = d →
    ∀ {ls' : List Line}, FitsT lang d lang' d' mv ls' → ∀ {b : Bool}, Pure.peek la m0 ls = .ok b → Pure.peek la m0' ls' = .ok b := by
  intro q m ls mv q' m' h
  induction h with
  | nil q m =>
    intro _ _ _ _ ls' hf b hb
    cases hf
    exact hb
  | @last q m l rest tr t m' hst he =>
    intro hi hq h1 hdm ls' hf b hb
    cases hf with
    | @cons _ l' _ ls' hx hrest =>
      cases hrest
      have sp := step_spec hst
      have hline : t.line = l := (matched_of sp.matched).1
      have hp := hx.pair hq (fun e => h1 (sp.facts.lang e).1)
      simp only [hline] at hp
      unfold Pure.peek at hb ⊢
      rw [if_pos he] at hb
      rw [pair_eof hd hd' hp, if_pos he]
      exact hb
  | @cons q m l rest tr t m' mv q' m'' hst he hrun ih =>
    intro hi hq h1 hdm ls' hf b hb
    cases hf with
    | @cons _ l' _ ls' hx hrest =>
      have sp := step_spec hst
      have hline : t.line = l := (matched_of sp.matched).1
      have hnl : tr.kind ≠ .language := fun e => h1 (sp.facts.lang e).1
      have hp := hx.pair hq hnl
      simp only [hline] at hp
      have hk : la.expected ∈ wordKinds := by cases la <;> decide
      have rec_ : ∀ {k : Kind}, k ∉ wordKinds ∧ k ≠ .other ∧ k ≠ .docStringSeparator → fits d l k = true → ∀ {b : Bool}, Pure.peek la m0 rest = .ok b → Pure.peek la m0' ls' = .ok b := by
        intro k hk hf b hb
        exact ih (inv_step hi sp) (skip_target hi sp hq hk (by rw [hdm]; exact hf)) (fun e => h1 (sp.facts.zero e)) (by rw [(step_dialect sp hi hnl).1, hdm]) hrest hb
      unfold Pure.peek at hb ⊢
      have hne : ¬ (l.isEof = true) := by rw [he]; simp
      rw [if_neg hne] at hb
      rw [pair_eof hd hd' hp, if_neg hne]
      rw [word_match hk, h0] at hb
      rw [word_match hk, h0', ← pair_fits hd hd' hp]
      cases hfe : fits d l la.expected with
      | true => rw [hfe] at hb; exact hb
      | false =>
        rw [hfe] at hb
        simp only at hb ⊢
        have e1 : l'.isBlank = l.isBlank := by
          rw [← isBlankLine_iff, ← isBlankLine_iff]; exact (pair_fits hd hd' hp .empty).symm
        have e2 : l'.startsWith ['#'] = l.startsWith ['#'] := by
          rw [← firstIs_iff, ← firstIs_iff]; exact (pair_fits hd hd' hp .comment).symm
        have e3 : l'.startsWith ['@'] = l.startsWith ['@'] := by
          rw [← firstIs_iff, ← firstIs_iff]; exact (pair_fits hd hd' hp .tagLine).symm
        rw [e1, e2, e3]
        by_cases c1 : (l.isBlank || l.startsWith ['#']) = true
        · rw [if_pos c1] at hb ⊢
          rw [Bool.or_eq_true] at c1
          rcases c1 with c1 | c1
          · exact rec_ (k := .empty) (by decide) (by simp only [fits]; rw [isBlankLine_iff]; exact c1) hb
          · exact rec_ (k := .comment) (by decide) (by simp only [fits]; rw [firstIs_iff]; exact c1) hb
        · rw [if_neg c1] at hb ⊢
          by_cases c2 : l.startsWith ['@'] = true
          · rw [if_pos c2] at hb ⊢
            have hft : fits d l .tagLine = true := by simp only [fits]; rw [firstIs_iff]; exact c2
            have : l' = l := pair_same hd hp (k := .tagLine) (by decide) (by simp) hft
            subst this
            cases ht : l'.tags with
            | error e => rw [ht] at hb; simp at hb
            | ok ts =>
              rw [ht] at hb
              exact rec_ (k := .tagLine) (by decide) hft hb
          · rw [if_neg c2] at hb ⊢
            exact hb

/-- A move outside doc strings that is no language header. -/
theorem trans_closed {q : Nat} {m m' m2 : CState} {l l' : Line} {rest rest' : List Line} {tr : Trans} {t : Token} (sp : StepSpec q l rest m tr t m')
    (hi : Inv q m) (hi2 : Inv q m2) (hm : LangState m m2) (hq : q ∉ openStates) (hp : PairL m.dialect m2.dialect l l') (ho : tr.kind = .other → l' = l)
    (hl : tr.kind ≠ .language)
    (hpeek : fits m.dialect l .tagLine = true → ∀ la b, Pure.peek la m rest = .ok b → Pure.peek la m2 rest' = .ok b) :
    ∃ t' m2', step q l' rest' m2 = some (tr, t', m2') ∧ t'.mute = t.mute ∧ LangState m' m2' ∧ m'.dialect = m.dialect ∧ m2'.dialect = m2.dialect ∧
      Inv tr.target m' ∧ Inv tr.target m2' := by
  have hd := hi.valid.known
  have hd' := hi2.valid.known
  have ha : m.active = none := by
    apply Classical.byContradiction
    intro hc; exact hq (hi.active.2 hc)
  have ha' : m2.active = none := by rw [hm.active]; exact ha
  obtain ⟨row, pre, post, r1, r2, r3⟩ := sp.row
  obtain ⟨t', m2', e1, e2, e3, e4, e5⟩ := pair_match hd hd' hp hm ha hl ho sp.matched
  have tags : ∀ x ∈ row.trans, ∀ la, x.la = some la → x.kind = .tagLine := by
    intro x hx la hla
    have := List.all_eq_true.1 (row_facts r1).1 x hx
    rw [hla] at this
    simpa using this
  have tagFits : (Classic.matchKind .tagLine (Token.fresh l) m).1 = .ok true → fits m.dialect l .tagLine = true := by
    intro h
    cases hx : fits m.dialect l .tagLine with
    | true => rfl
    | false => have := (match_fits ha (by simp) (by simp)).2 hx; rw [this] at h; simp at h
  refine ⟨t', m2', step_make r1 r2 ?_ e1 (by rw [pair_eof hd hd' hp]; exact sp.eof) ?_, e2, e3, e4, e5, inv_next hi sp.matched sp.facts, inv_next hi2 e1 sp.facts⟩
  · intro x hx
    rcases r3 x hx with ⟨h1, h2⟩ | h | ⟨la, h1, h2, h3⟩
    · exact .inl ⟨h1, by rw [pair_eof hd hd' hp]; exact h2⟩
    · exact .inr (.inl (pair_fails hd hd' hp ha ha' h))
    · have hk := tags x (by rw [r2]; simp [hx]) la h1
      rw [hk] at h3
      have hf := tagFits h3
      have e : l' = l := pair_same hd hp (k := .tagLine) (by decide) (by simp) hf
      refine .inr (.inr ⟨la, h1, hpeek hf la _ h2, ?_⟩)
      rw [hk, e]
      rcases hx : Classic.matchKind .tagLine (Token.fresh l) m with ⟨r, t0, m0⟩
      rw [hx] at h3
      simp only at h3
      subst h3
      obtain ⟨t1, m1, g, _⟩ := match_same (by decide) (by simp) hm hx
      rw [g]
  · intro la hla
    have hk := tags tr (by rw [r2]; simp) la hla
    refine hpeek (tagFits ?_) la _ (sp.peek la hla)
    rw [← hk, sp.matched]

/-- A move inside a doc string. -/
theorem trans_open {q : Nat} {m m' m2 : CState} {l : Line} {rest rest' : List Line} {tr : Trans} {t : Token} (sp : StepSpec q l rest m tr t m')
    (hi : Inv q m) (hi2 : Inv q m2) (hm : LangState m m2) (hq : q ∈ openStates) :
    ∃ t' m2', step q l rest' m2 = some (tr, t', m2') ∧ t'.mute = t.mute ∧ LangState m' m2' ∧ m'.dialect = m.dialect ∧ m2'.dialect = m2.dialect ∧
      Inv tr.target m' ∧ Inv tr.target m2' := by
  obtain ⟨row, pre, post, r1, r2, r3⟩ := sp.row
  have kinds : ∀ x ∈ row.trans, (x.kind ∉ wordKinds ∧ x.kind ≠ .language) ∧ x.la = none := by
    intro x hx
    have hin := ((row_facts r1).2 x hx).inside hq
    have hla := List.all_eq_true.1 (row_facts r1).1 x hx
    rcases hin with h | ⟨h, _⟩ <;> rw [h] at hla ⊢ <;> refine ⟨by decide, ?_⟩ <;> simpa using hla
  obtain ⟨⟨k1, k2⟩, k3⟩ := kinds tr (by rw [r2]; simp)
  obtain ⟨t', m2', e1, e2, e3, e4, e5⟩ := match_same k1 k2 hm sp.matched
  refine ⟨t', m2', step_make r1 r2 ?_ e1 sp.eof (by rw [k3]; simp), e2, e3, e4, e5, inv_next hi sp.matched sp.facts, inv_next hi2 e1 sp.facts⟩
  intro x hx
  obtain ⟨⟨j1, j2⟩, j3⟩ := kinds x (by rw [r2]; simp [hx])
  rcases r3 x hx with h | h | ⟨la, h1, _⟩
  · exact .inl h
  · rcases hy : Classic.matchKind x.kind (Token.fresh l) m with ⟨r, t0, m0⟩
    rw [hy] at h
    simp only at h
    subst h
    obtain ⟨t1, m1, g, _⟩ := match_same j1 j2 hm hy
    exact .inr (.inl (by rw [g]))
  · rw [j3] at h1; simp at h1

/-- The language header. -/
theorem trans_header {q : Nat} {m m' m2 : CState} {l l' : Line} {rest rest' : List Line} {tr : Trans} {t : Token} (sp : StepSpec q l rest m tr t m')
    (hi : Inv q m) (hi2 : Inv q m2) (hm : LangState m m2) (hk : tr.kind = .language) {lang lang' : Str} {d d' : Dialect} (hlang : dialectFor lang = some d)
    (hlang' : dialectFor lang' = some d') (h1 : IsHeader lang l.text) (h2 : IsHeader lang' l'.text) (hn : l'.number = l.number) :
    ∃ t' m2', step q l' rest' m2 = some (tr, t', m2') ∧ t'.mute = t.mute ∧ LangState m' m2' ∧ m'.dialect = d ∧ (m2'.dialect = d' ∧ m2'.dialectName = lang') ∧
      Inv tr.target m' ∧ Inv tr.target m2' := by
  obtain ⟨row, pre, post, r1, r2, r3⟩ := sp.row
  have q0 := (sp.facts.lang hk).1
  have ha : ∀ {m : CState}, Inv q m → m.active = none := by
    intro m hi
    apply Classical.byContradiction
    intro hc; have := hi.active.2 hc; rw [q0] at this; simp [openStates] at this
  have hl := header_iff.2 h1
  have hl' := header_iff.2 h2
  have e1 : Classic.matchKind tr.kind (Token.fresh l') m2 = (.ok true, setMatched m2.dialectName (Token.fresh l') (some .language) (some lang') none none none [], { m2 with dialectName := lang', dialect := d' }) := by
    rw [hk]
    simp only [Classic.matchKind, Classic.matchLanguage, show (Token.fresh l').line = l' from rfl, hl', hlang']
  have e0 := sp.matched
  rw [hk] at e0
  simp only [Classic.matchKind, Classic.matchLanguage, show (Token.fresh l).line = l from rfl, hl, hlang, Prod.mk.injEq, true_and] at e0
  obtain ⟨rfl, rfl⟩ := e0
  have noEof : ∀ {l : Line} {nm : Str}, IsHeader nm l.text → l.isEof = false := by
    intro l nm h
    cases he : l.isEof with
    | false => rfl
    | true =>
      have : l.text = [] := by simpa [Line.isEof] using he
      rw [this] at h
      obtain ⟨a, b, _, h⟩ := header_comment h
      simp at h
  have c1 : fits m.dialect l .comment = true := comment_iff.2 (header_comment h1)
  have c2 : fits m2.dialect l' .comment = true := comment_iff.2 (header_comment h2)
  refine ⟨_, _, step_make r1 r2 ?_ e1 (.inr (noEof h2)) ?_, ?_, ⟨hm.active, hm.indent⟩, rfl, ⟨rfl, rfl⟩, inv_next hi sp.matched sp.facts, inv_next hi2 e1 sp.facts⟩
  · intro x hx
    have hla : ∀ la, x.la = some la → x.kind = .tagLine := by
      intro la hla
      have := List.all_eq_true.1 (row_facts r1).1 x (by rw [r2]; simp [hx])
      rw [hla] at this
      simpa using this
    rcases r3 x hx with ⟨_, h⟩ | h | ⟨la, g1, _, g3⟩
    · rw [noEof h1] at h; simp at h
    · refine .inr (.inl ?_)
      by_cases k1 : x.kind = .language
      · rw [k1] at h
        simp only [Classic.matchKind, Classic.matchLanguage, show (Token.fresh l).line = l from rfl, hl, hlang] at h
        simp at h
      · by_cases k2 : x.kind = .eof
        · rw [k2]
          simp only [Classic.matchKind, Classic.matchEof]
          rw [if_neg (by rw [show (Token.fresh l').eof = l'.isEof from rfl, noEof h2]; simp)]
        · rw [match_fits (ha hi) k1 k2] at h
          rw [match_fits (ha hi2) k1 k2]
          have k3 : x.kind ≠ .other := by intro e; rw [e] at h; simp [fits] at h
          have k4 : x.kind ≠ .comment := by intro e; rw [e, c1] at h; simp at h
          exact fits_false hi2.valid.known c2 (by simp) k3 k4
    · rw [hla la g1] at g3
      have : fits m.dialect l .tagLine = true := by
        cases hx : fits m.dialect l .tagLine with
        | true => rfl
        | false => have := (match_fits (ha hi) (by simp) (by simp)).2 hx; rw [this] at g3; simp at g3
      have := fits_unique hi.valid.known this c1 (by simp) (by simp)
      simp at this
  · intro la h
    have := List.all_eq_true.1 (row_facts r1).1 tr (by rw [r2]; simp)
    rw [h, hk] at this
    simp at this
  · simp only [Token.mute, Token.hush, Token.flat, setMatched, Token.fresh]
    simp [hn]

/-- A blank line or comment is the same in all languages. -/
theorem noise_pair {d d' e e' : Dialect} (hd : d.Known) (he : e.Known) (he' : e'.Known) {l l' : Line} (h : PairL d d' l l') {k : Kind} (hk : k ∉ wordKinds) (ho : k ≠ .other)
    (hf : fits d l k = true) : PairL e e' l l' := by
  have := pair_same hd h hk ho hf
  subst this
  refine .plain rfl fun K hK => ?_
  have hne : K ≠ k := fun e => hk (e ▸ hK)
  exact ⟨fits_false he (by rw [fits_plain e d l' hk]; exact hf) ho (word_other hK).1 hne, fits_false he' (by rw [fits_plain e' d l' hk]; exact hf) ho (word_other hK).1 hne⟩

def muteKey (x : Move) : Nat × Trans × Token := (x.state, x.tr, x.tok.mute)

/-- No header after the first state. -/
theorem no_header {q : Nat} {m : CState} {ls : List Line} {mv : List Move} {q' : Nat} {m' : CState} (h : Run q m ls mv q' m') : q ≠ 0 → ∀ x ∈ mv, x.tr.kind ≠ .language := by
  induction h with
  | nil => intro _ x hx; simp at hx
  | last hst he =>
    intro hq x hx
    simp only [List.mem_singleton] at hx
    subst hx
    exact fun e => hq ((step_spec hst).facts.lang e).1
  | cons hst he hrun ih =>
    intro hq x hx
    simp only [List.mem_cons] at hx
    rcases hx with rfl | hx
    · exact fun e => hq ((step_spec hst).facts.lang e).1
    · exact ih (fun e => hq ((step_spec hst).facts.zero e)) x hx

theorem trans_run {lang lang' : Str} {d d' : Dialect} (hlang : dialectFor lang = some d) (hlang' : dialectFor lang' = some d') :
    ∀ {q : Nat} {m : CState} {ls : List Line} {mv : List Move} {q' : Nat} {m' : CState}, Run q m ls mv q' m' →
    ∀ {m2 : CState} {ls' : List Line}, Inv q m → Inv q m2 → FitsT lang d lang' d' mv ls' → LangState m m2 →
    (m.dialect = d ∧ m2.dialect = d' ∧ m2.dialectName = lang') ∨ (q = 0 ∧ ∃ x ∈ mv, x.tr.kind = .language) →
    ∃ mv' m2', Run q m2 ls' mv' q' m2' ∧ mv'.map muteKey = mv.map muteKey ∧ m2'.dialectName = lang' := by
  have hd : d.Known := ⟨lang, hlang⟩
  have hd' : d'.Known := ⟨lang', hlang'⟩
  intro q m ls mv q' m' h
  -- one move
  have one : ∀ {q : Nat} {m m' m2 : CState} {l l' : Line} {rest rest' : List Line} {tr : Trans} {t : Token} {mv : List Move}, StepSpec q l rest m tr t m' →
      Inv q m → Inv q m2 → LangState m m2 → FitT lang d lang' d' ⟨q, tr, t⟩ l' → 
      (m.dialect = d ∧ m2.dialect = d' ∧ m2.dialectName = lang') ∨ (q = 0 ∧ ∃ x ∈ (⟨q, tr, t⟩ :: mv : List Move), x.tr.kind = .language) →
      (tr.target ≠ 0 → ∀ x ∈ mv, x.tr.kind ≠ .language) →
      (m.dialect = d → m2.dialect = d' → q ∉ openStates → fits d l .tagLine = true → ∀ la b, Pure.peek la m rest = .ok b → Pure.peek la m2 rest' = .ok b) →
      ∃ t' m2', step q l' rest' m2 = some (tr, t', m2') ∧ t'.mute = t.mute ∧ LangState m' m2' ∧ l'.isEof = l.isEof ∧ 
        ((m'.dialect = d ∧ m2'.dialect = d' ∧ m2'.dialectName = lang') ∨ (tr.target = 0 ∧ ∃ x ∈ mv, x.tr.kind = .language)) ∧ Inv tr.target m' ∧ Inv tr.target m2' := by
    intro q m m' m2 l l' rest rest' tr t mv sp hi hi2 hm hx hmode hlater hpeek
    have hline : t.line = l := (matched_of sp.matched).1
    by_cases hk : tr.kind = .language
    · obtain ⟨g1, g2, g3⟩ := hx.header hk
      simp only [hline] at g1 g3
      obtain ⟨t', m2', a1, a2, a3, a4, a5, a6, a7⟩ := trans_header (rest' := rest') sp hi hi2 hm hk hlang hlang' g1 g2 g3
      refine ⟨t', m2', a1, a2, a3, ?_, .inl ⟨a4, a5⟩, a6, a7⟩
      have noEof : ∀ {l : Line} {nm : Str}, IsHeader nm l.text → l.isEof = false := by
        intro l nm h
        cases he : l.isEof with
        | false => rfl
        | true =>
          have : l.text = [] := by simpa [Line.isEof] using he
          rw [this] at h
          obtain ⟨a, b, _, h⟩ := header_comment h
          simp at h
      rw [noEof g1, noEof g2]
    · by_cases hq : q ∈ openStates
      · have e := hx.inside hq
        simp only [hline] at e
        subst e
        obtain ⟨t', m2', a1, a2, a3, a4, a5, a6, a7⟩ := trans_open (rest' := rest') sp hi hi2 hm hq
        refine ⟨t', m2', a1, a2, a3, rfl, ?_, a6, a7⟩
        rcases hmode with ⟨g1, g2, g3⟩ | ⟨g1, _⟩
        · exact .inl ⟨a4.trans g1, a5.trans g2, (step_dialect (step_spec a1) hi2 hk).2.trans g3⟩
        · rw [g1] at hq; simp [openStates] at hq
      · have hp := hx.pair hq hk
        have ho := hx.other
        simp only [hline] at hp ho
        rcases hmode with ⟨g1, g2, g3⟩ | ⟨rfl, g2⟩
        · obtain ⟨t', m2', a1, a2, a3, a4, a5, a6, a7⟩ := trans_closed (rest' := rest') sp hi hi2 hm hq (by rw [g1, g2]; exact hp) ho hk
            (fun hf => hpeek g1 g2 hq (by rw [← g1]; exact hf))
          exact ⟨t', m2', a1, a2, a3, pair_eof hd hd' hp, .inl ⟨a4.trans g1, a5.trans g2, (step_dialect (step_spec a1) hi2 hk).2.trans g3⟩, a6, a7⟩
        · have hex : ∃ x ∈ mv, x.tr.kind = .language := by
            obtain ⟨x, hx, hxk⟩ := g2
            simp only [List.mem_cons] at hx
            rcases hx with rfl | hx
            · exact absurd hxk hk
            · exact ⟨x, hx, hxk⟩
          have ht : tr.target = 0 := by
            apply Classical.byContradiction
            intro hc
            obtain ⟨x, hx, hxk⟩ := hex
            exact hlater hc x hx hxk
          have ha : m.active = none := by
            apply Classical.byContradiction
            intro hc; exact hq (hi.active.2 hc)
          obtain ⟨row, hrow, htr⟩ := step_row sp
          have hce := ((row9 hrow htr).1 rfl).2.2 ht
          have hf : ∃ k, (k = .comment ∨ k = .empty) ∧ fits m.dialect l k = true := by
            refine ⟨tr.kind, hce, ?_⟩
            cases hx : fits m.dialect l tr.kind with
            | true => rfl
            | false =>
              have := (match_fits ha hk (by rcases hce with e | e <;> rw [e] <;> simp)).2 hx
              rw [sp.matched] at this; simp at this
          obtain ⟨k, hk', hf⟩ := hf
          have kw : k ∉ wordKinds := by rcases hk' with rfl | rfl <;> decide
          have ko : k ≠ .other := by rcases hk' with rfl | rfl <;> simp
          have kt : k ≠ .tagLine := by rcases hk' with rfl | rfl <;> simp
          have hfd : fits d l k = true := by rw [fits_plain d m.dialect l kw]; exact hf
          obtain ⟨t', m2', a1, a2, a3, a4, a5, a6, a7⟩ := trans_closed (rest' := rest') sp hi hi2 hm hq (noise_pair hd hi.valid.known hi2.valid.known hp kw ko hfd) ho hk
            (fun hft => absurd (fits_unique hi.valid.known hf hft ko (by simp)) kt)
          exact ⟨t', m2', a1, a2, a3, pair_eof hd hd' hp, .inr ⟨ht, hex⟩, a6, a7⟩
  induction h with
  | nil q m =>
    intro m2 ls' _ _ hf _ hmode
    cases hf
    refine ⟨[], m2, .nil _ _, rfl, ?_⟩
    rcases hmode with h | ⟨_, x, hx, _⟩
    · exact h.2.2
    · simp at hx
  | @last q m l rest tr t m' hst he =>
    intro m2 ls' hi hi2 hf hm hmode
    cases hf with
    | @cons _ l' _ rest' hx hr =>
      cases hr
      obtain ⟨t', m2', a1, a2, a3, a4, a5, _⟩ := one (rest' := []) (mv := []) (step_spec hst) hi hi2 hm hx hmode (by simp) (by
        intro g1 g2 hq hft
        exfalso
        have : l.text = [] := by simpa [Line.isEof] using he
        have := fits_unique hd (k := .empty) (by simp [fits, isBlankLine, this]) hft (by simp) (by simp)
        simp at this)
      refine ⟨_, _, .last a1 (by rw [a4]; exact he), by simp [muteKey, a2], ?_⟩
      rcases a5 with h | ⟨_, x, hx, _⟩
      · exact h.2.2
      · simp at hx
  | @cons q m l rest tr t m' mv q' m'' hst he hrun ih =>
    intro m2 ls' hi hi2 hf hm hmode
    cases hf with
    | @cons _ l' _ rest' hx hr =>
      have sp := step_spec hst
      obtain ⟨t', m2', a1, a2, a3, a4, a5, a6, a7⟩ := one (rest' := rest') (mv := mv) sp hi hi2 hm hx hmode (no_header hrun) (by
        intro g1 g2 hq hft la b hb
        have hnl : tr.kind ≠ .language := by
          intro e
          obtain ⟨g1', _⟩ := hx.header e
          have hline : t.line = l := (matched_of sp.matched).1
          simp only [hline] at g1'
          have := fits_unique hd (k := .comment) (comment_iff.2 (header_comment g1')) hft (by simp) (by simp)
          simp at this
        have hft' : fits m.dialect l .tagLine = true := by rw [g1]; exact hft
        refine trans_peek hd hd' g1 g2 hrun (inv_step hi sp) (skip_target hi sp hq (by decide) hft') ?_ (by rw [(step_dialect sp hi hnl).1, g1]) hr hb
        intro h0
        have hq0 := sp.facts.zero h0
        subst hq0
        obtain ⟨row, hrow, htr⟩ := step_row sp
        have hce := ((row9 hrow htr).1 rfl).2.2 h0
        have ha : m.active = none := by
          apply Classical.byContradiction
          intro hc; exact hq (hi.active.2 hc)
        have : fits m.dialect l tr.kind = true := by
          cases hx : fits m.dialect l tr.kind with
          | true => rfl
          | false =>
            have := (match_fits ha hnl (by rcases hce with e | e <;> rw [e] <;> simp)).2 hx
            rw [sp.matched] at this; simp at this
        have := fits_unique hi.valid.known this hft' (by rcases hce with e | e <;> rw [e] <;> simp) (by simp)
        rw [this] at hce
        simp at hce)
      obtain ⟨mv', m3, k1, k2, k3⟩ := ih a6 a7 hr a3 a5
      exact ⟨_, _, .cons a1 (by rw [a4]; exact he) k1, by simp [muteKey, a2]; exact k2, k3⟩

end Gherkin
