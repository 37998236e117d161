import Verif.Proofs.MirrorLine
import Verif.Proofs.MdDoc2

/-! A run of the line automaton on a classic text, repeated on a Markdown text that mirrors it. -/

namespace Gherkin

open Markdown Cst Auto Md

/-- Lines a look-ahead passes over. -/
def skipLine (l : Line) : Bool := isBlankLine l || firstIs '#' l || firstIs '@' l

/-- Two lines at the same place, neither of them the end of the file. -/
structure LinePair (sk : Line → Bool) (l l' : Line) : Prop where
  number : l.number = l'.number
  sk : sk l' = skipLine l
  lf : OneLf l'.text
  ne : l.isEof = false
  ne' : l'.isEof = false

/-- Lines that mirror each other, up to the end of the file. -/
inductive MirL (d : Dialect) (sk : Line → Bool) : Place → List Line → List Line → Prop
  | done {l l'} : l.isEof = true → l'.isEof = true → l.number = l'.number → MirL d sk .body [l] [l']
  | tags {l l' ls ls'} : LinePair sk l l' → TagLines l.text l'.text → MirL d sk .start ls ls' → MirL d sk .start (l :: ls) (l' :: ls')
  | feature {l l' ls ls'} : LinePair sk l l' → TitleLines d d.feature l.text l'.text → MirL d sk .body ls ls' → MirL d sk .start (l :: ls) (l' :: ls')
  | line {l l' ls ls'} : LinePair sk l l' → SaysSame d l.text l'.text → MirL d sk .body ls ls' → MirL d sk .body (l :: ls) (l' :: ls')
  | opening {l l' ls ls' delim} : LinePair sk l l' → l'.text = l.text → delim ∈ docDelimiters → fenceOf l.text = some delim →
      MirL d sk (.doc delim) ls ls' → MirL d sk .body (l :: ls) (l' :: ls')
  | content {l l' ls ls' delim} : LinePair sk l l' → l'.text = l.text → ¬ delim <+: lstrip l.text → MirL d sk (.doc delim) ls ls' →
      MirL d sk (.doc delim) (l :: ls) (l' :: ls')
  | closing {l l' ls ls' delim} : LinePair sk l l' → l'.text = l.text → delim <+: lstrip l.text → MirL d sk .body ls ls' →
      MirL d sk (.doc delim) (l :: ls) (l' :: ls')

/-! ### Look-aheads -/

/-- What follows tags: lines that are passed over, then a title. -/
inductive Ahead (d : Dialect) (mc : CState) (m : MdState) (sk : Line → Bool) : List Line → List Line → Prop
  | stop {l l' ls ls' K} : LinePair sk l l' → Agree d mc m l l' → l.Sound → K ∈ titleKinds → fits d l K = true →
      Ahead d mc m sk (l :: ls) (l' :: ls')
  | skip {l l' ls ls' K} : LinePair sk l l' → Agree d mc m l l' → l.Sound → K ∈ skipKinds → fits d l K = true → Ahead d mc m sk ls ls' →
      Ahead d mc m sk (l :: ls) (l' :: ls')

theorem test_agree {d : Dialect} {mc : CState} {m : MdState} {l l' : Line} (h : Agree d mc m l l') (hne : l'.isEof = false) {k : Kind}
    (hk : k ∈ Kind.empty :: calmKinds) :
    ∃ t, MdAuto.test k l' m = (.ok (fits d l k), t, m) ∧ (fits d l k = true → t.flat = (Classic.matchKind k (Token.fresh l) mc).2.1.flat) := by
  unfold MdAuto.test
  rw [if_neg (by rw [hne]; simp)]
  exact h k hk

theorem any_agree {d : Dialect} {mc : CState} {m : MdState} {l l' : Line} (h : Agree d mc m l l') (hne : l'.isEof = false) :
    ∀ {ks : List Kind}, (∀ k ∈ ks, k ∈ Kind.empty :: calmKinds) → MdAuto.any ks l' m = some (ks.any (fits d l), m) := by
  intro ks
  induction ks with
  | nil => intro _; rfl
  | cons k ks ih =>
    intro hk
    obtain ⟨t, h1, _⟩ := test_agree h hne (hk k (by simp))
    simp only [MdAuto.any, h1, List.any_cons]
    cases hf : fits d l k with
    | true => simp
    | false => simpa using ih fun x hx => hk x (by simp [hx])

theorem skip_any (d : Dialect) (l : Line) : skipKinds.any (fits d l) = skipLine l := by
  simp [skipKinds, skipLine, fits, Bool.or_assoc]

theorem peek_mirror {d : Dialect} {mc : CState} {m : MdState} {sk : Line → Bool} (hp : Peer d mc m) (la : LA) {ls ls' : List Line}
    (h : Ahead d mc m sk ls ls') : ∃ b, Pure.peek la mc ls = .ok b ∧ MdAuto.peek sk la ls' m = some (b, m) := by
  have hlat : la.expected ∈ titleKinds := by cases la <;> decide
  have hlac : la.expected ∈ Kind.empty :: calmKinds := by cases la <;> decide
  have hl1 : la.expected ≠ .language := by cases la <;> decide
  have hl2 : la.expected ≠ .eof := by cases la <;> decide
  have hl3 : la.expected ≠ .other := by cases la <;> decide
  have hcl : ∀ {l : Line}, l.Sound → (Classic.matchKind la.expected (Token.fresh l) mc).1 = .ok (fits d l la.expected) := by
    intro l hs
    cases hf : fits d l la.expected with
    | true => exact match_true hp.ca hl1 hl2 hs (by rw [hp.cd]; exact hf)
    | false => exact (match_fits hp.ca hl1 hl2).2 (by rw [hp.cd]; exact hf)
  have hks : ∀ k ∈ skipKinds, k ∈ Kind.empty :: calmKinds := by decide
  induction h with
  | @stop l l' ls ls' K hpair ha hs hK hf =>
    have hKo : K ≠ .other := by rintro rfl; revert hK; decide
    have hno : ∀ k ∈ skipKinds, fits d l k = false := fun k hk =>
      fits_ne hp.known hf hKo (calm_other (hks k hk)) (by rintro rfl; revert hk hK; cases k <;> decide)
    have hsk : skipLine l = false := by
      rw [← skip_any d, List.any_eq_false]
      intro k hk; rw [hno k hk]; simp
    obtain ⟨t, h1, _⟩ := test_agree ha hpair.ne' hlac
    have hany := any_agree ha hpair.ne' hks
    rw [skip_any, hsk] at hany
    have e1 : l.isBlank = false := by rw [← isBlankLine_iff]; exact hno .empty (by decide)
    have e2 : l.startsWith ['#'] = false := by rw [← firstIs_iff]; exact hno .comment (by decide)
    have e3 : l.startsWith ['@'] = false := by rw [← firstIs_iff]; exact hno .tagLine (by decide)
    have hq := hcl hs
    simp only [Pure.peek, hpair.ne, hq, MdAuto.peek, h1, e1, e2, e3]
    cases hfe : fits d l la.expected with
    | true => exact ⟨true, by simp, by simp [hpair.sk, hsk]⟩
    | false => exact ⟨false, by simp, by simp [hany, hpair.sk, hsk]⟩
  | @skip l l' ls ls' K hpair ha hs hK hf _ ih =>
    obtain ⟨b, i1, i2⟩ := ih
    have hKo : K ≠ .other := by rintro rfl; revert hK; decide
    have hfe : fits d l la.expected = false := fits_ne hp.known hf hKo hl3 (by rintro rfl; revert hK; cases la <;> decide)
    have hsk : skipLine l = true := by
      rw [← skip_any d, List.any_eq_true]; exact ⟨K, hK, hf⟩
    obtain ⟨t, h1, _⟩ := test_agree ha hpair.ne' hlac
    have hany := any_agree ha hpair.ne' hks
    rw [skip_any, hsk] at hany
    have hq := hcl hs
    refine ⟨b, ?_, ?_⟩
    · simp only [Pure.peek, hpair.ne, hq, hfe, Bool.false_eq_true, if_false]
      by_cases hbc : (l.isBlank || l.startsWith ['#']) = true
      · rw [if_pos hbc]; exact i1
      · rw [if_neg hbc]
        simp only [skipLine, isBlankLine_iff, firstIs_iff] at hsk
        simp only [Bool.not_eq_true] at hbc
        rw [hbc, Bool.false_or] at hsk
        rw [if_pos hsk]
        obtain ⟨ts, hts⟩ := hs.1 (by rw [firstIs_iff]; exact hsk)
        rw [hts]; exact i1
    · simp only [MdAuto.peek, h1, hfe, hany, hpair.sk, hsk, if_true]; exact i2

/-! ### The tests of a state -/

theorem pick_mem {rows : List Trans} {l : Line} {rest : List Line} : ∀ {m m' : CState} {tr : Trans} {t : Token},
    Auto.pick rows l rest m = some (tr, t, m') → tr ∈ rows := by
  induction rows with
  | nil => intro m m' tr t h; simp [Auto.pick] at h
  | cons x xs ih =>
    intro m m' tr t h
    simp only [Auto.pick] at h
    split at h
    · exact List.mem_cons_of_mem _ (ih h)
    · split at h
      · split at h
        · simp only [Option.some.injEq, Prod.mk.injEq] at h; rw [← h.1]; simp
        · split at h
          · simp only [Option.some.injEq, Prod.mk.injEq] at h; rw [← h.1]; simp
          · exact List.mem_cons_of_mem _ (ih h)
          · simp at h
      · exact List.mem_cons_of_mem _ (ih h)
      · simp at h

theorem agree_noSep {d : Dialect} {mc : CState} {m : MdState} {l l' : Line} (hp : Peer d mc m) (h : Agree d mc m l l') :
    fits d l .docStringSeparator = false := by
  cases hf : fits d l .docStringSeparator with
  | false => rfl
  | true =>
    exfalso
    obtain ⟨t, h1, _⟩ := h .docStringSeparator (by decide)
    rw [hf] at h1
    simp only [matchKind, matchDocSep, hp.ma, matchSep, if_true] at h1
    have ha := hp.ma
    repeat' split at h1
    all_goals
      simp only [Prod.mk.injEq, Except.ok.injEq, Bool.false_eq_true, false_and, true_and] at h1
      try (rw [← h1.2] at ha; simp at ha)

/-- In a line outside doc strings the Markdown parser takes the same transition. -/
theorem pick_mirror {d : Dialect} {mc : CState} {m : MdState} {sk : Line → Bool} {l l' : Line} {rest rest' : List Line} (hp : Peer d mc m)
    (hpair : LinePair sk l l') (ha : Agree d mc m l l') (hs : l.Sound) (hah : fits d l .tagLine = true → Ahead d mc m sk rest rest') :
    ∀ {rows : List Trans} {tr : Trans} {t : Token} {mc' : CState}, laOnTags rows = true → (∀ x ∈ rows, x.kind ≠ .featureLine ∧ x.kind ≠ .language) →
      Auto.pick rows l rest mc = some (tr, t, mc') → tr.kind ≠ .other →
      ∃ t', MdAuto.pick sk rows l' rest' m = some (tr, t', m) ∧ t'.flat = t.flat ∧ mc' = mc ∧ fits d l tr.kind = true := by
  intro rows
  induction rows with
  | nil => intro tr t mc' _ _ h; simp [Auto.pick] at h
  | cons x xs ih =>
    intro tr t mc' hla hkinds h hother
    have hla' : laOnTags xs = true := by simp only [laOnTags, List.all_cons, Bool.and_eq_true] at hla; exact hla.2
    have hx := hkinds x (by simp)
    have hrec := fun {tr t mc'} => ih (tr := tr) (t := t) (mc' := mc') hla' (fun y hy => hkinds y (by simp [hy]))
    have htest : ∀ k, MdAuto.test k l' m = matchKind k (Token.fresh l') m := by
      intro k; unfold MdAuto.test; rw [if_neg (by rw [hpair.ne']; simp)]
    simp only [Auto.pick] at h
    rw [if_neg (by rw [hpair.ne]; simp)] at h
    simp only [MdAuto.pick]
    by_cases he : x.kind = .eof
    · have hc : Classic.matchKind x.kind (Token.fresh l) mc = (.ok false, Token.fresh l, mc) := by
        rw [he]; simp [Classic.matchKind, Classic.matchEof, show (Token.fresh l).eof = l.isEof from rfl, hpair.ne]
      have hm : MdAuto.test x.kind l' m = (.ok false, Token.fresh l', m) := by
        rw [htest, he]; simp [matchKind, matchEof, show (Token.fresh l').eof = l'.isEof from rfl, hpair.ne']
      rw [hc] at h
      rw [hm]
      exact hrec h hother
    · by_cases ho : x.kind = .other
      · exfalso
        have hxla : x.la = none := by
          simp only [laOnTags, List.all_cons, Bool.and_eq_true] at hla
          have := hla.1
          rw [ho] at this; simpa using this
        have hc : (Classic.matchKind x.kind (Token.fresh l) mc).1 = .ok true := by rw [ho]; rfl
        rcases hr : Classic.matchKind x.kind (Token.fresh l) mc with ⟨r, t1, m1⟩
        rw [hr] at hc h
        simp only at hc
        subst hc
        simp only [hxla, Option.some.injEq, Prod.mk.injEq] at h
        exact hother (by rw [← h.1]; exact ho)
      · have hkc : x.kind ∈ Kind.empty :: calmKinds := by
          revert hx he ho; cases x.kind <;> decide
        have hxl : x.kind ≠ .language := hx.2
        obtain ⟨t', h1, h2⟩ := test_agree ha hpair.ne' hkc
        rw [h1]
        cases hf : fits d l x.kind with
        | false =>
          have hc := (match_fits hp.ca (l := l) (k := x.kind) hxl he).2 (by rw [hp.cd]; exact hf)
          rcases hr : Classic.matchKind x.kind (Token.fresh l) mc with ⟨r, t1, m1⟩
          rw [hr] at hc h
          simp only at hc
          subst hc
          exact hrec h hother
        | true =>
          have hc := match_true hp.ca (l := l) (k := x.kind) hxl he hs (by rw [hp.cd]; exact hf)
          have hns : x.kind ≠ .docStringSeparator := by
            intro e; rw [e, agree_noSep hp ha] at hf; simp at hf
          have hst := Classic.matchKind_state hxl hns (Token.fresh l) mc
          have hfl := h2 hf
          rcases hr : Classic.matchKind x.kind (Token.fresh l) mc with ⟨r, t1, m1⟩
          rw [hr] at hc h hst hfl
          simp only at hc hst hfl
          subst hc
          subst hst
          simp only at h
          cases hxla : x.la with
          | none =>
            simp only [hxla, Option.some.injEq, Prod.mk.injEq] at h
            obtain ⟨rfl, rfl, rfl⟩ := h
            exact ⟨t', rfl, hfl, rfl, hf⟩
          | some la =>
            simp only [hxla] at h
            have hxt : x.kind = .tagLine := by
              simp only [laOnTags, List.all_cons, Bool.and_eq_true] at hla
              have := hla.1
              rw [hxla] at this; simpa using this
            obtain ⟨b, p1, p2⟩ := peek_mirror hp la (hah (by rw [← hxt]; exact hf))
            simp only [p2]
            rw [p1] at h
            cases b with
            | true =>
              simp only [Option.some.injEq, Prod.mk.injEq] at h
              obtain ⟨rfl, rfl, rfl⟩ := h
              exact ⟨t', rfl, hfl, rfl, hf⟩
            | false => exact hrec h hother

/-- The end of the file. -/
theorem pick_eof {mc : CState} {m : MdState} {sk : Line → Bool} {l l' : Line} {rest rest' : List Line} (hn : l.number = l'.number)
    (he : l.isEof = true) (he' : l'.isEof = true) (hname : mc.dialectName = m.dialectName) :
    ∀ {rows : List Trans} {tr : Trans} {t : Token} {mc' : CState}, laOnTags rows = true →
      Auto.pick rows l rest mc = some (tr, t, mc') → ∃ t', MdAuto.pick sk rows l' rest' m = some (tr, t', m) ∧ t'.flat = t.flat := by
  intro rows
  induction rows with
  | nil => intro tr t mc' _ h; simp [Auto.pick] at h
  | cons x xs ih =>
    intro tr t mc' hla h
    have hla' : laOnTags xs = true := by simp only [laOnTags, List.all_cons, Bool.and_eq_true] at hla; exact hla.2
    simp only [Auto.pick] at h
    simp only [MdAuto.pick, MdAuto.test]
    by_cases hk : x.kind = .eof
    · rw [if_neg (by rw [hk]; simp)] at h ⊢
      have hxla : x.la = none := by
        simp only [laOnTags, List.all_cons, Bool.and_eq_true] at hla
        have := hla.1
        rw [hk] at this; simpa using this
      rw [hk] at h ⊢
      simp only [Classic.matchKind, Classic.matchEof, show (Token.fresh l).eof = l.isEof from rfl, he, if_true, hxla, Option.some.injEq,
        Prod.mk.injEq] at h
      obtain ⟨rfl, rfl, rfl⟩ := h
      simp only [matchKind, matchEof, show (Token.fresh l').eof = l'.isEof from rfl, he', if_true, hxla, Option.some.injEq, Prod.mk.injEq, true_and,
        and_true, exists_eq_left']
      rw [hname]
      exact flat_set hn rfl rfl rfl rfl
    · rw [if_pos ⟨hk, he⟩] at h
      rw [if_pos ⟨hk, he'⟩]
      exact ih hla' h

/-! ### Static facts -/

/-- The states before the title of the feature. -/
def startStates : List Nat := [0, 1, 2]

/-- At a fence only the end of the file and rows are asked for before the doc string. -/
def fenceRows : List Trans → Bool
  | [] => true
  | tr :: trs => (if tr.kind == .docStringSeparator then tr.la == none else tr.kind == .eof || tr.kind == .tableRow || trs.all (·.kind != .docStringSeparator)) &&
      fenceRows trs

def bodyRow (q : Nat) : Bool :=
  startStates.contains q || openStates.contains q ||
  match table q with
  | none => true
  | some row => fenceRows row.trans && row.trans.all fun tr =>
      tr.kind != .featureLine && tr.kind != .language && !startStates.contains tr.target &&
      (tr.kind != .tagLine || tagStates.contains tr.target) &&
      (!tagStates.contains q || (skipKinds.contains tr.kind && tr.target == q) || (titleKinds.contains tr.kind))

theorem body_rows : ∀ q ∈ allStates, bodyRow q = true := by decide +kernel

def docRow (q : Nat) : Bool :=
  !openStates.contains q ||
  match table q with
  | none => true
  | some row => match row.trans with
    | [a, b] => a.kind == .docStringSeparator && a.la == none && b.kind == .other && b.la == none && !startStates.contains a.target
    | _ => false

theorem doc_rows : ∀ q ∈ allStates, docRow q = true := by decide +kernel

structure BodyFacts (q : Nat) (row : StateRow) : Prop where
  fence : fenceRows row.trans = true
  kinds : ∀ x ∈ row.trans, x.kind ≠ .featureLine ∧ x.kind ≠ .language
  target : ∀ x ∈ row.trans, x.target ∉ startStates
  tags : ∀ x ∈ row.trans, x.kind = .tagLine → x.target ∈ tagStates
  tagState : q ∈ tagStates → ∀ x ∈ row.trans, (x.kind ∈ skipKinds ∧ x.target = q) ∨ x.kind ∈ titleKinds

theorem body_facts {q : Nat} {row : StateRow} (h : table q = some row) (h1 : q ∉ startStates) (h2 : q ∉ openStates) : BodyFacts q row := by
  have hq := body_rows q (mem_allStates h)
  unfold bodyRow at hq
  rw [h] at hq
  have e1 : startStates.contains q = false := by simpa using h1
  have e2 : openStates.contains q = false := by simpa using h2
  rw [e1, e2] at hq
  simp only [Bool.false_or, Bool.and_eq_true, List.all_eq_true] at hq
  refine ⟨hq.1, ?_, ?_, ?_, ?_⟩
  · intro x hx; obtain ⟨⟨⟨⟨a, b⟩, c⟩, e⟩, f⟩ := hq.2 x hx; exact ⟨by simpa using a, by simpa using b⟩
  · intro x hx; obtain ⟨⟨⟨⟨a, b⟩, c⟩, e⟩, f⟩ := hq.2 x hx; simpa using c
  · intro x hx hk; obtain ⟨⟨⟨⟨a, b⟩, c⟩, e⟩, f⟩ := hq.2 x hx; rw [hk] at e; simpa using e
  · intro ht x hx
    obtain ⟨⟨⟨⟨a, b⟩, c⟩, e⟩, f⟩ := hq.2 x hx
    have : tagStates.contains q = true := by simpa using ht
    rw [this] at f
    simpa using f

/-! ### Sound lines -/

/-- A line that the classic parser takes for what it is can be read. -/
theorem step_sound {q : Nat} {l : Line} {rest : List Line} {mc mc' : CState} {tr : Trans} {t : Token} (hi : Inv q mc) (ha : mc.active = none)
    (hne : l.isEof = false) (h : StepSpec q l rest mc tr t mc') (ho : tr.kind ≠ .other) (hl : tr.kind ≠ .language) :
    l.Sound ∧ fits mc.dialect l tr.kind = true := by
  have hk : tr.kind = lineKind mc.dialect l := by
    rcases step_kind hi ha hne h with ⟨h1, _⟩ | ⟨h1, _⟩ | ⟨h1, _⟩
    · exact absurd h1 hl
    · exact h1
    · exact absurd h1 ho
  have hm := h.matched
  have hl0 : (Token.fresh l).line = l := rfl
  refine ⟨⟨?_, ?_⟩, by rw [hk]; exact lineKind_fits _ _⟩
  · intro hf
    have : lineKind mc.dialect l = .tagLine := (lineKind_iff hi.valid.known (by simp)).2 hf
    rw [hk, this] at hm
    rw [firstIs_iff] at hf
    simp only [Classic.matchKind, Classic.matchTagLine, hl0, hf, if_true] at hm
    split at hm
    · rename_i ts hts; exact ⟨ts, hts⟩
    · simp at hm
  · intro hf
    have : lineKind mc.dialect l = .tableRow := (lineKind_iff hi.valid.known (by simp)).2 hf
    rw [hk, this] at hm
    rw [firstIs_iff] at hf
    simp only [Classic.matchKind, Classic.matchTableRow, hl0, hf, if_true] at hm
    split at hm
    · rename_i ts hts; exact ⟨ts, hts⟩
    · simp at hm

theorem fence_fits {d : Dialect} {l : Line} {delim : Str} (hd : delim ∈ docDelimiters) (h : fenceOf l.text = some delim) :
    fits d l .docStringSeparator = true := by
  unfold fenceOf at h
  have := List.find?_some h
  rw [decide_eq_true_eq] at this
  show docDelimiters.any (isDelim · l) = true
  rw [List.any_eq_true]
  refine ⟨delim, hd, ?_⟩
  show delim.isPrefixOf (lstrip l.text) = true
  rw [List.isPrefixOf_iff_prefix]
  exact List.prefix_iff_eq_take.2 this.symm

/-! ### After tags -/

/-- Tags are followed by lines to skip and a title. -/
theorem ahead_of {d : Dialect} {sk : Line → Bool} {m : MdState} : ∀ {q : Nat} {mc : CState} {ls : List Line} {mv : List Auto.Move} {q' : Nat}
    {mc' : CState}, Auto.Run q mc ls mv q' mc' → q ∈ tagStates → Inv q mc → Peer d mc m → ∀ {ls' : List Line}, MirL d sk .body ls ls' →
    Ahead d mc m sk ls ls' := by
  intro q mc ls mv q' mc' h
  have hop : ∀ q ∈ tagStates, q ∉ openStates ∧ q ∉ startStates := by decide
  have hkt : ∀ k ∈ titleKinds, k ≠ Kind.other ∧ k ≠ .language ∧ k ≠ .docStringSeparator ∧ k ≠ .eof := by decide
  have hks : ∀ k ∈ skipKinds, k ≠ Kind.other ∧ k ≠ .language ∧ k ≠ .docStringSeparator ∧ k ≠ .eof := by decide
  induction h with
  | nil => intro _ _ _ ls' h; cases h
  | @last q mc l rest tr t mc' hst he =>
    intro hq hi hp ls' h
    have hsp := step_spec hst
    obtain ⟨row, pre, post, hrow, htr, _⟩ := hsp.row
    have := (body_facts hrow (hop q hq).2 (hop q hq).1).tagState hq tr (by rw [htr]; simp)
    have hke : tr.kind ≠ .eof := by
      rcases this with h | h
      · exact (hks _ h.1).2.2.2
      · exact (hkt _ h).2.2.2
    rcases hsp.eof with h | h
    · exact absurd h hke
    · rw [he] at h; simp at h
  | @cons q mc l rest tr t m1 mv q' m2 hst he hrun ih =>
    intro hq hi hp ls' h
    have hsp := step_spec hst
    obtain ⟨row, pre, post, hrow, htr, _⟩ := hsp.row
    have hcase := (body_facts hrow (hop q hq).2 (hop q hq).1).tagState hq tr (by rw [htr]; simp)
    have hk : tr.kind ≠ .other ∧ tr.kind ≠ .language ∧ tr.kind ≠ .docStringSeparator ∧ tr.kind ≠ .eof := by
      rcases hcase with h | h
      · exact hks _ h.1
      · exact hkt _ h
    obtain ⟨hs, hf⟩ := step_sound hi hp.ca he hsp hk.1 hk.2.1
    rw [hp.cd] at hf
    have hm1 : m1 = mc := by
      have := Classic.matchKind_state hk.2.1 hk.2.2.1 (Token.fresh l) mc
      rw [hsp.matched] at this; exact this
    cases h with
    | done h1 => rw [he] at h1; simp at h1
    | opening hpair h1 h2 h3 =>
      exact absurd (fits_unique hp.known hf (fence_fits h2 h3) hk.1 (by simp)) hk.2.2.1
    | @line _ l' _ ls'' hpair hsame hrest =>
      have hag := says_agree hp hpair.number hpair.lf hpair.ne' hs hsame
      rcases hcase with ⟨h1, h2⟩ | h1
      · refine .skip hpair hag hs h1 hf ?_
        have hi1 := inv_step hi hsp
        rw [hm1, h2] at hi1
        rw [hm1, h2] at ih
        exact ih hq hi1 hp hrest
      · exact .stop hpair hag hs h1 hf

/-! ### Doc strings -/

/-- A classic and a Markdown matcher in the same doc string. -/
structure PeerDoc (d : Dialect) (delim : Str) (mc : CState) (m : MdState) : Prop where
  known : d.Known
  cd : mc.dialect = d
  md : m.dialect = d
  name : mc.dialectName = m.dialectName
  ca : mc.active = some delim
  ma : m.active = some delim
  indent : mc.indentToRemove = m.indentToRemove
  feature : m.matchedFeature = true

theorem fence_starts {s : Str} {delim : Str} (hd : delim ∈ docDelimiters) (h : fenceOf s = some delim) (n n' : Nat) :
    (delim = Classic.quotes ∧ (Line.mk s n).startsWith Classic.quotes = true) ∨
    (delim = Classic.ticks ∧ (Line.mk s n).startsWith Classic.quotes = false ∧ (Line.mk s n').startsWith ticks4 = false ∧
      (Line.mk s n).startsWith Classic.ticks = true) := by
  have hp : ∀ f : Str, ((lstrip s).take f.length = f) ↔ startsWith (lstrip s) f = true := by
    intro f
    unfold startsWith
    rw [List.isPrefixOf_iff_prefix, List.prefix_iff_eq_take]
    exact eq_comm
  unfold fenceOf at h
  simp only [hp, Bool.decide_eq_true, List.find?_cons, List.find?_nil] at h
  simp only [Line.startsWith, Line.trimmed, Classic.quotes, ticks4, Classic.ticks]
  simp only [docDelimiters, List.mem_cons, List.not_mem_nil, or_false] at hd
  cases h1 : startsWith (lstrip s) py"\"\"\"" with
  | true => left; simp [h1] at h; exact ⟨h.symm, rfl⟩
  | false =>
    right
    simp only [h1] at h
    cases h2 : startsWith (lstrip s) py"````" with
    | true => simp [h2] at h; exact absurd hd (by rw [← h]; decide)
    | false =>
      simp only [h2] at h
      cases h3 : startsWith (lstrip s) py"```" with
      | true => simp [h3] at h; exact ⟨h.symm, rfl, rfl, rfl⟩
      | false => simp [h3] at h

theorem sep_open {d : Dialect} {mc : CState} {m : MdState} {l l' : Line} (hp : Peer d mc m) (hn : l.number = l'.number) (he : l'.text = l.text)
    {delim : Str} (hd : delim ∈ docDelimiters) (hf : fenceOf l.text = some delim) :
    ∃ t t' mc' m', Classic.matchKind .docStringSeparator (Token.fresh l) mc = (.ok true, t, mc') ∧
      matchKind .docStringSeparator (Token.fresh l') m = (.ok true, t', m') ∧ t'.flat = t.flat ∧ PeerDoc d delim mc' m' := by
  have htr : l'.trimmed = l.trimmed := by unfold Line.trimmed; rw [he]
  have hst : ∀ f, l'.startsWith f = l.startsWith f := by intro f; unfold Line.startsWith; rw [htr]
  have hin : l'.indent = l.indent := by unfold Line.indent; rw [he, htr]
  have hrt : ∀ n, l'.restTrimmed n = l.restTrimmed n := by intro n; unfold Line.restTrimmed; rw [htr]
  have hl : (Token.fresh l).line = l := rfl
  have hl' : (Token.fresh l').line = l' := rfl
  have hs := fence_starts hd hf l.number l.number
  have hll : Line.mk l.text l.number = l := rfl
  rw [hll] at hs
  rcases hs with ⟨rfl, h1⟩ | ⟨rfl, h1, h2, h3⟩
  · refine ⟨_, _, _, _, by simp only [Classic.matchKind, Classic.matchDocSep, hp.ca, hl, h1, if_true, Classic.matchSep]; rfl,
      by simp only [matchKind, matchDocSep, hp.ma, hl', hst, h1, if_true, matchSep]; rfl, ?_, ?_⟩
    · rw [hp.name, hrt]; exact flat_set hn rfl rfl rfl rfl
    · exact ⟨hp.known, hp.cd, hp.md, hp.name, rfl, rfl, hin.symm, hp.feature⟩
  · refine ⟨_, _, _, _, by simp only [Classic.matchKind, Classic.matchDocSep, hp.ca, hl, h1, h3, if_true, Classic.matchSep]; rfl,
      by simp only [matchKind, matchDocSep, hp.ma, hl', hst, h1, h2, h3, if_true, matchSep]; rfl, ?_, ?_⟩
    · rw [hp.name, hrt]; exact flat_set hn rfl rfl rfl rfl
    · exact ⟨hp.known, hp.cd, hp.md, hp.name, rfl, rfl, hin.symm, hp.feature⟩

/-- At a fence both parsers open a doc string. -/
theorem pick_fence {d : Dialect} {mc : CState} {m : MdState} {sk : Line → Bool} {l l' : Line} {rest rest' : List Line} (hp : Peer d mc m)
    (hpair : LinePair sk l l') (he : l'.text = l.text) {delim : Str} (hd : delim ∈ docDelimiters) (hf : fenceOf l.text = some delim) :
    ∀ {rows : List Trans} {tr : Trans} {t : Token} {mc' : CState}, fenceRows rows = true →
      Auto.pick rows l rest mc = some (tr, t, mc') → tr.kind = .docStringSeparator →
      ∃ t' m', MdAuto.pick sk rows l' rest' m = some (tr, t', m') ∧ t'.flat = t.flat ∧ PeerDoc d delim mc' m' := by
  have hbar : fits d l .tableRow = false := fits_ne hp.known (fence_fits hd hf) (by simp) (by simp) (by simp)
  have hb : l.startsWith ['|'] = false := by rw [← firstIs_iff]; exact hbar
  have hb' : l'.startsWith ['|'] = false := by unfold Line.startsWith Line.trimmed; rw [he]; exact hb
  have htest : ∀ k, MdAuto.test k l' m = matchKind k (Token.fresh l') m := by
    intro k; unfold MdAuto.test; rw [if_neg (by rw [hpair.ne']; simp)]
  intro rows
  induction rows with
  | nil => intro tr t mc' _ h; simp [Auto.pick] at h
  | cons x xs ih =>
    intro tr t mc' hok h hk
    simp only [fenceRows, Bool.and_eq_true] at hok
    simp only [Auto.pick] at h
    rw [if_neg (by rw [hpair.ne]; simp)] at h
    simp only [MdAuto.pick, htest]
    by_cases hx : x.kind = .docStringSeparator
    · have hla : x.la = none := by have := hok.1; rw [hx] at this; simpa using this
      obtain ⟨t1, t1', mc1, m1, s1, s2, s3, s4⟩ := sep_open hp hpair.number he hd hf
      rw [hx, s1] at h
      simp only [hla, Option.some.injEq, Prod.mk.injEq] at h
      obtain ⟨rfl, rfl, rfl⟩ := h
      rw [hx, s2]
      simp only [hla]
      exact ⟨_, _, rfl, s3, s4⟩
    · have hmem : ∀ {tr t mc'}, Auto.pick xs l rest mc = some (tr, t, mc') → tr ∈ xs := pick_mem
      have hxk : x.kind = .eof ∨ x.kind = .tableRow ∨ xs.all (·.kind != .docStringSeparator) = true := by
        have := hok.1
        rw [if_neg (by simpa using hx)] at this
        simp only [Bool.or_eq_true, beq_iff_eq] at this
        rcases this with (h | h) | h
        · exact .inl h
        · exact .inr (.inl h)
        · exact .inr (.inr h)
      have key : x.kind = .eof ∨ x.kind = .tableRow → ∃ t' m', (match Md.matchKind x.kind (Token.fresh l') m with
          | (.ok true, t, m') =>
            match x.la with
            | none => some (x, t, m')
            | some la => match MdAuto.peek sk la rest' m' with
              | some (true, m'') => some (x, t, m'')
              | some (false, m'') => MdAuto.pick sk xs l' rest' m''
              | none => none
          | (.ok false, _, m') => MdAuto.pick sk xs l' rest' m'
          | (.error _, _, _) => none) = some (tr, t', m') ∧ t'.flat = t.flat ∧ PeerDoc d delim mc' m' := by
        intro hxk
        have hc : Classic.matchKind x.kind (Token.fresh l) mc = (.ok false, Token.fresh l, mc) := by
          rcases hxk with e | e <;> rw [e]
          · simp [Classic.matchKind, Classic.matchEof, show (Token.fresh l).eof = l.isEof from rfl, hpair.ne]
          · simp [Classic.matchKind, Classic.matchTableRow, show (Token.fresh l).line = l from rfl, hb]
        have hm : matchKind x.kind (Token.fresh l') m = (.ok false, Token.fresh l', m) := by
          rcases hxk with e | e <;> rw [e]
          · simp [matchKind, matchEof, show (Token.fresh l').eof = l'.isEof from rfl, hpair.ne']
          · simp [matchKind, matchTableRow, show (Token.fresh l').line = l' from rfl, hb']
        rw [hc] at h
        rw [hm]
        exact ih hok.2 h hk
      rcases hxk with e | e | e
      · exact key (.inl e)
      · exact key (.inr e)
      · exfalso
        have : tr ∈ x :: xs := pick_mem (rows := x :: xs) (l := l) (rest := rest) (m := mc) (by
          simp only [Auto.pick]; rw [if_neg (by rw [hpair.ne]; simp)]; exact h)
        rcases List.mem_cons.1 this with rfl | hm
        · exact hx hk
        · rw [List.all_eq_true] at e
          have := e tr hm
          simp [hk] at this

end Gherkin
