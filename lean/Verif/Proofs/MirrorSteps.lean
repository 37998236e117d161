import Verif.Proofs.MirrorRun

/-! Steps inside doc strings and before the title of the feature, and the induction over the lines. -/

namespace Gherkin

open Markdown Cst Auto Md

/-! ### Doc strings -/

theorem doc_step {d : Dialect} {delim : Str} {mc : CState} {m : MdState} {sk : Line → Bool} {l l' : Line} {rest rest' : List Line} {q : Nat}
    (hp : PeerDoc d delim mc m) (hpair : LinePair sk l l') (he : l'.text = l.text) (hq : q ∈ openStates) {tr : Trans} {t : Token} {mc' : CState}
    (h : Auto.step q l rest mc = some (tr, t, mc')) :
    ∃ t' m', MdAuto.step sk q l' rest' m = some (tr, t', m') ∧ t'.flat = t.flat ∧
      ((delim <+: lstrip l.text ∧ tr.kind = .docStringSeparator ∧ tr.target ∉ startStates ∧ Peer d mc' m') ∨
       (¬ delim <+: lstrip l.text ∧ tr.kind = .other ∧ PeerDoc d delim mc' m')) := by
  have hrow := h
  unfold Auto.step at hrow
  cases ht : table q with
  | none => rw [ht] at hrow; simp at hrow
  | some row =>
    rw [ht] at hrow
    have hd := doc_rows q (mem_allStates ht)
    unfold docRow at hd
    rw [ht] at hd
    have : openStates.contains q = true := by simpa using hq
    rw [this] at hd
    simp only [Bool.not_true, Bool.false_or] at hd
    split at hd
    · rename_i a b hab
      simp only [Bool.and_eq_true, beq_iff_eq, Bool.not_eq_true'] at hd
      obtain ⟨⟨⟨⟨ha, hla⟩, hb⟩, hlb⟩, hst⟩ := hd
      have hll : ∀ x : Line, (Token.fresh x).line = x := fun _ => rfl
      have htr : l'.trimmed = l.trimmed := by unfold Line.trimmed; rw [he]
      have hss : l'.startsWith delim = l.startsWith delim := by unfold Line.startsWith; rw [htr]
      have hlt : ∀ n, l'.lineTextFrom n = l.lineTextFrom n := by
        intro n
        unfold Line.lineTextFrom
        simp only [Line.indent, Line.trimmed, he]
        rfl
      unfold MdAuto.step
      simp only [ht]
      simp only at hrow
      rw [hab] at hrow ⊢
      simp only [Auto.pick, ha, hb, hla, hlb, hpair.ne, Bool.false_eq_true, and_false, if_false, Classic.matchKind, Classic.matchDocSep, hp.ca,
        Classic.matchSep, hll, Classic.matchOther] at hrow
      simp only [MdAuto.pick, MdAuto.test, ha, hb, hla, hlb, hpair.ne', Bool.false_eq_true, and_false, if_false, matchKind, matchDocSep, hp.ma,
        matchSep, hll, matchOther, hss, hlt]
      have hpre : (delim <+: lstrip l.text) ↔ l.startsWith delim = true := by
        unfold Line.startsWith startsWith Line.trimmed
        rw [List.isPrefixOf_iff_prefix]
      rw [hpre]
      cases hc : l.startsWith delim with
      | true =>
        simp only [hc, if_true, Option.some.injEq, Prod.mk.injEq] at hrow ⊢
        obtain ⟨rfl, rfl, rfl⟩ := hrow
        refine ⟨_, _, ⟨rfl, rfl, rfl⟩, ?_, .inl ⟨trivial, ha, by simpa using hst, ⟨hp.known, hp.cd, hp.md, hp.name, rfl, rfl, hp.feature⟩⟩⟩
        rw [hp.name]
        exact flat_set hpair.number rfl rfl rfl rfl
      | false =>
        simp only [hc, Bool.false_eq_true, if_false, Option.some.injEq, Prod.mk.injEq] at hrow ⊢
        obtain ⟨rfl, rfl, rfl⟩ := hrow
        refine ⟨_, _, ⟨rfl, rfl, rfl⟩, ?_, .inr ⟨by simp, hb, hp⟩⟩
        rw [hp.name, hp.indent, hp.ma]
        exact flat_set hpair.number rfl rfl rfl rfl
    · simp at hd

/-! ### Before the title of the feature -/

/-- A classic and a Markdown matcher before the title of the feature. -/
structure PeerStart (d : Dialect) (mc : CState) (m : MdState) : Prop where
  known : d.Known
  cd : mc.dialect = d
  md : m.dialect = d
  name : mc.dialectName = m.dialectName
  ca : mc.active = none
  ma : m.active = none
  feature : m.matchedFeature = false

theorem PeerStart.body {d : Dialect} {mc : CState} {m : MdState} (h : PeerStart d mc m) : Peer d mc { m with matchedFeature := true } :=
  ⟨h.known, h.cd, h.md, h.name, h.ca, h.ma, rfl⟩

theorem feature_agree {d : Dialect} {mc : CState} {m : MdState} {l l' : Line} (hp : PeerStart d mc m) (hn : l.number = l'.number)
    (hlf : OneLf l'.text) (h : TitleLines d d.feature l.text l'.text) : fits d l .featureLine = true ∧ Ans l' m .tagLine false ∧
    ∃ t, matchKind .featureLine (Token.fresh l') m = (.ok true, t, { m with matchedFeature := true }) ∧
      t.flat = (Classic.matchKind .featureLine (Token.fresh l) mc).2.1.flat := by
  obtain ⟨w, w', kw, rest, n, sp, hw, hw', hkw, h1, h6, hsp, e, e', htag⟩ := h
  have hho := hp.known.title_head (k := .featureLine) hkw
  have hnh : NoHead isSpace (kw ++ ':' :: rest) := by
    intro c hc
    cases kw with
    | nil => simp [headOk] at hho
    | cons c' kw =>
      simp at hc; subst hc
      simp only [headOk, isMarker] at hho
      simp at hho
      exact hho.1.1.1.1.1
  have ht : l.trimmed = kw ++ ':' :: rest := by
    cases l with | mk x num =>
    simp only at e; subst e
    exact trimmed_append hw hnh
  have hh : NoHead isSpace (List.replicate n '#' ++ sp :: (kw ++ ':' :: rest)) := by
    intro c hc
    obtain ⟨k, rfl⟩ : ∃ k, n = k + 1 := ⟨n - 1, by omega⟩
    simp [List.replicate_succ] at hc; subst hc; decide
  have ht' : l'.lineText = List.replicate n '#' ++ sp :: (kw ++ ':' :: rest) := by
    cases l' with | mk x num =>
    simp only at e'; subst e'
    exact trimmed_append hw' hh
  have hpre : headerPrefix l'.lineText = [(n + 1, kw ++ ':' :: rest)] := by rw [ht']; exact headerPrefix_of h1 h6 hsp _
  have hstw : ∀ kw', startsWith (kw ++ ':' :: rest) (kw' ++ [':']) = l.startsWithTitle kw' := by
    intro kw'; unfold Line.startsWithTitle; rw [ht]
  have hf : fits d l .featureLine = true := by
    show isTitle d.feature l = true
    rw [isTitle_iff, List.any_eq_true]
    exact ⟨kw, hkw, by unfold Line.startsWithTitle startsWith; rw [ht, List.isPrefixOf_iff_prefix]; exact ⟨rest, by simp⟩⟩
  have hlf' : ∀ j, strip (((kw ++ ':' :: rest).drop j).takeWhile (· != '\n')) = strip ((kw ++ ':' :: rest).drop j) := by
    intro j
    apply strip_takeWhile (a := w' ++ (List.replicate n '#' ++ sp :: (kw ++ ':' :: rest).take j))
    have : w' ++ (List.replicate n '#' ++ sp :: (kw ++ ':' :: rest).take j) ++ (kw ++ ':' :: rest).drop j = l'.text := by
      rw [e']; simp only [List.append_assoc, List.cons_append, List.take_append_drop]
    rw [this]; exact hlf
  refine ⟨hf, tags_no htag, ?_⟩
  obtain ⟨kw', hk'⟩ : ∃ kw', d.feature.find? (fun k => l.startsWithTitle k) = some kw' := by
    rw [← Option.isSome_iff_exists, List.find?_isSome]
    change isTitle d.feature l = true at hf
    rw [isTitle_iff, List.any_eq_true] at hf
    exact hf
  have hmt := title_found (m := m) hpre .featureLine m.dialect.feature
  rw [hp.md] at hmt
  simp only [hstw, hk'] at hmt
  simp only [matchKind, matchFeature, hp.feature, hp.md, hmt, Bool.false_eq_true, if_false]
  refine ⟨_, rfl, ?_⟩
  simp only [Classic.matchKind, Classic.matchTitle, hp.cd, show (Token.fresh l).line = l from rfl, hk', hp.name]
  refine flat_set hn ?_ rfl rfl rfl
  rw [hlf']
  simp [Line.restTrimmed, ht]

theorem start_rows {q : Nat} (hq : q = 0 ∨ q = 2) : ∃ row pre tg ft post, table q = some row ∧ row.trans = pre ++ tg :: ft :: post ∧
    (∀ x ∈ pre, x.kind = .eof ∨ x.kind = .language) ∧ (∀ x ∈ post, x.kind = .comment ∨ x.kind = .empty) ∧
    tg.kind = .tagLine ∧ tg.la = none ∧ tg.target = 2 ∧ ft.kind = .featureLine ∧ ft.la = none ∧ ft.target = 3 := by
  rcases hq with rfl | rfl
  · exact ⟨state0, [_, _], _, _, _, rfl, rfl, by simp, by simp, rfl, rfl, rfl, rfl, rfl, rfl⟩
  · exact ⟨state2, [], _, _, _, rfl, rfl, by simp, by simp, rfl, rfl, rfl, rfl, rfl, rfl⟩

theorem no_language {l : Line} {c : Char} {cs : Str} (h : l.trimmed = c :: cs) (hc : c ≠ '#') : Classic.languageName l.lineText = none := by
  rw [show l.lineText = lstrip l.text from rfl, languageName_lstrip]
  unfold Classic.languageName
  rw [show lstrip l.text = l.trimmed from rfl, h]
  simp [Classic.dropPre, List.isPrefixOf, Ne.symm hc]

/-- The transition the classic parser takes before the title of the feature. -/
theorem start_classic {q : Nat} {l : Line} {rest : List Line} {mc mc' : CState} {tr : Trans} {t : Token} (hq : q = 0 ∨ q = 2) (hi : Inv q mc)
    (ha : mc.active = none) (hne : l.isEof = false) (h : StepSpec q l rest mc tr t mc') {K : Kind} (hK : K = .tagLine ∨ K = .featureLine)
    (hf : fits mc.dialect l K = true) : tr.kind = K := by
  have hKo : K ≠ .other := by rcases hK with rfl | rfl <;> simp
  have hlk : lineKind mc.dialect l = K := (lineKind_iff hi.valid.known hKo).2 hf
  rcases step_kind hi ha hne h with ⟨h1, _, h2⟩ | ⟨h1, _⟩ | ⟨h1, h2⟩
  · exfalso
    have hc : fits mc.dialect l .comment = true := by
      show firstIs '#' l = true
      cases hf : firstIs '#' l with
      | true => rfl
      | false =>
        exfalso
        rcases head_cases l with h3 | ⟨c, cs, h3, _⟩
        · have : Classic.languageName l.lineText = none := by
            rw [show l.lineText = lstrip l.text from rfl, languageName_lstrip]
            unfold Classic.languageName
            rw [show lstrip l.text = l.trimmed from rfl, h3]
            rfl
          rw [this] at h2; simp at h2
        · rw [no_language h3 (by
            rintro rfl
            rw [firstIs_iff] at hf
            unfold Line.startsWith startsWith at hf
            rw [h3] at hf; simp [List.isPrefixOf] at hf)] at h2
          simp at h2
    have := fits_unique hi.valid.known hf hc hKo (by simp)
    rcases hK with rfl | rfl <;> simp at this
  · rw [h1, hlk]
  · exfalso
    obtain ⟨row, pre, tg, ft, post, hrow, htr, hpre, hpost, ht1, _, _, hf1, _⟩ := start_rows hq
    obtain ⟨row', _, _, hrow', htr', _⟩ := h.row
    rw [hrow] at hrow'
    simp only [Option.some.injEq] at hrow'
    subst hrow'
    have hmem : tr ∈ pre ++ tg :: ft :: post := by rw [← htr, htr']; simp
    simp only [List.mem_append, List.mem_cons] at hmem
    rcases hmem with hm | rfl | rfl | hm
    · rcases hpre _ hm with e | e <;> rw [e] at h1 <;> simp at h1
    · rw [ht1] at h1; simp at h1
    · rw [hf1] at h1; simp at h1
    · rcases hpost _ hm with e | e <;> rw [e] at h1 <;> simp at h1

theorem start_skip {m : MdState} {sk : Line → Bool} {l' : Line} {rest' : List Line} (hne : l'.isEof = false) {rows : List Trans} : ∀ {pre : List Trans},
    (∀ x ∈ pre, x.kind = .eof ∨ x.kind = .language) → MdAuto.pick sk (pre ++ rows) l' rest' m = MdAuto.pick sk rows l' rest' m := by
  intro pre
  induction pre with
  | nil => intro _; rfl
  | cons x xs ih =>
    intro h
    simp only [List.cons_append, MdAuto.pick]
    have : MdAuto.test x.kind l' m = (.ok false, Token.fresh l', m) := by
      unfold MdAuto.test
      rw [if_neg (by rw [hne]; simp)]
      rcases h x (by simp) with e | e <;> rw [e]
      · simp [matchKind, matchEof, Token.eof, show (Token.fresh l').line = l' from rfl, hne]
      · rfl
    rw [this]
    exact ih fun y hy => h y (by simp [hy])

theorem start_member {q : Nat} {l : Line} {rest : List Line} {mc mc' : CState} {tr : Trans} {t : Token} (h : StepSpec q l rest mc tr t mc')
    {row : StateRow} {pre post : List Trans} {tg ft : Trans} (hrow : table q = some row) (htr : row.trans = pre ++ tg :: ft :: post)
    (hpre : ∀ x ∈ pre, x.kind = .eof ∨ x.kind = .language) (hpost : ∀ x ∈ post, x.kind = .comment ∨ x.kind = .empty)
    (ht : tg.kind = .tagLine) (hf : ft.kind = .featureLine) : (tr.kind = .tagLine → tr = tg) ∧ (tr.kind = .featureLine → tr = ft) := by
  obtain ⟨row', _, _, hrow', htr', _⟩ := h.row
  rw [hrow] at hrow'
  simp only [Option.some.injEq] at hrow'
  subst hrow'
  have hmem : tr ∈ pre ++ tg :: ft :: post := by rw [← htr, htr']; simp
  simp only [List.mem_append, List.mem_cons] at hmem
  rcases hmem with hm | rfl | rfl | hm
  · rcases hpre _ hm with e | e <;> rw [e] <;> simp
  · exact ⟨fun _ => rfl, fun e => by rw [ht] at e; simp at e⟩
  · exact ⟨fun e => by rw [hf] at e; simp at e, fun _ => rfl⟩
  · rcases hpost _ hm with e | e <;> rw [e] <;> simp

theorem start_tags {d : Dialect} {mc : CState} {m : MdState} {sk : Line → Bool} {l l' : Line} {rest rest' : List Line} {q : Nat}
    (hp : PeerStart d mc m) (hpair : LinePair sk l l') (hq : q = 0 ∨ q = 2) (hi : Inv q mc) (h : TagLines l.text l'.text) {tr : Trans} {t : Token}
    {mc' : CState} (hst : Auto.step q l rest mc = some (tr, t, mc')) :
    ∃ t', MdAuto.step sk q l' rest' m = some (tr, t', m) ∧ t'.flat = t.flat ∧ mc' = mc ∧ tr.target = 2 ∧ tr.kind = .tagLine := by
  obtain ⟨_, hf, t', ht', hfl⟩ := tags_agree (d := d) hpair.number hp.name h
  have hsp := step_spec hst
  have hk := start_classic hq hi hp.ca hpair.ne hsp (.inl rfl) (by rw [hp.cd]; exact hf)
  obtain ⟨row, pre, tg, ft, post, hrow, htr, hpre, hpost, ht1, ht2, ht3, hf1, _⟩ := start_rows hq
  have htg := (start_member hsp hrow htr hpre hpost ht1 hf1).1 hk
  subst htg
  have hm := hsp.matched
  rw [hk] at hm
  rw [hm] at hfl
  have hmc := Classic.matchKind_state (k := .tagLine) (by simp) (by simp) (Token.fresh l) mc
  rw [hm] at hmc
  refine ⟨t', ?_, hfl, hmc, ht3, hk⟩
  unfold MdAuto.step
  rw [hrow]
  simp only [htr]
  rw [start_skip hpair.ne' hpre]
  simp only [MdAuto.pick, MdAuto.test, hpair.ne', hk, ht', ht2]
  simp

theorem start_feature {d : Dialect} {mc : CState} {m : MdState} {sk : Line → Bool} {l l' : Line} {rest rest' : List Line} {q : Nat}
    (hp : PeerStart d mc m) (hpair : LinePair sk l l') (hq : q = 0 ∨ q = 2) (hi : Inv q mc) (h : TitleLines d d.feature l.text l'.text) {tr : Trans}
    {t : Token} {mc' : CState} (hst : Auto.step q l rest mc = some (tr, t, mc')) :
    ∃ t' m', MdAuto.step sk q l' rest' m = some (tr, t', m') ∧ t'.flat = t.flat ∧ Peer d mc' m' ∧ tr.target = 3 ∧ tr.kind = .featureLine := by
  obtain ⟨hf, ⟨t0, htag⟩, t', ht', hfl⟩ := feature_agree hp hpair.number hpair.lf h
  have hsp := step_spec hst
  have hk := start_classic hq hi hp.ca hpair.ne hsp (.inr rfl) (by rw [hp.cd]; exact hf)
  obtain ⟨row, pre, tg, ft, post, hrow, htr, hpre, hpost, ht1, ht2, ht3, hf1, hf2, hf3⟩ := start_rows hq
  have htg := (start_member hsp hrow htr hpre hpost ht1 hf1).2 hk
  subst htg
  have hm := hsp.matched
  rw [hk] at hm
  rw [hm] at hfl
  have hmc := Classic.matchKind_state (k := .featureLine) (by simp) (by simp) (Token.fresh l) mc
  rw [hm] at hmc
  simp only at hmc
  refine ⟨t', _, ?_, hfl, by rw [hmc]; exact hp.body, hf3, hk⟩
  unfold MdAuto.step
  rw [hrow]
  simp only [htr]
  rw [start_skip hpair.ne' hpre]
  simp only [MdAuto.pick, MdAuto.test, hpair.ne', ht1, htag, hk, hf2]
  simp
  rw [ht']

/-! ### All lines -/

/-- The matchers and the state of the parser at a place. -/
def MirAt (d : Dialect) (q : Nat) (mc : CState) (m : MdState) : Place → Prop
  | .start => (q = 0 ∨ q = 2) ∧ PeerStart d mc m
  | .body => q ∉ startStates ∧ q ∉ openStates ∧ Peer d mc m
  | .doc delim => q ∈ openStates ∧ PeerDoc d delim mc m

/-- What two moves have in common. -/
def moveKey (x : Auto.Move) : Nat × Trans × Token := (x.state, x.tr, x.tok.flat)

theorem mirror_step {d : Dialect} {sk : Line → Bool} {q : Nat} {mc mc' : CState} {m : MdState} {p : Place} {l l' : Line} {rest rest' : List Line}
    {tr : Trans} {t : Token} (hst : Auto.step q l rest mc = some (tr, t, mc')) (hi : Inv q mc) (hat : MirAt d q mc m p) (hne : l.isEof = false)
    (hother : tr.kind = .other → q ∈ openStates) {mv : List Auto.Move} {q' : Nat} {m2 : CState} (hrun : Auto.Run tr.target mc' rest mv q' m2)
    (h : MirL d sk p (l :: rest) (l' :: rest')) :
    ∃ t' m' p', MdAuto.step sk q l' rest' m = some (tr, t', m') ∧ t'.flat = t.flat ∧ l'.isEof = false ∧ MirAt d tr.target mc' m' p' ∧
      MirL d sk p' rest rest' := by
  have hsp := step_spec hst
  obtain ⟨row, _, _, hrow, htr, _⟩ := hsp.row
  have hpick : Auto.pick row.trans l rest mc = some (tr, t, mc') := by
    have := hst
    unfold Auto.step at this
    rw [hrow] at this; exact this
  have hmdp : MdAuto.step sk q l' rest' m = MdAuto.pick sk row.trans l' rest' m := by unfold MdAuto.step; rw [hrow]
  have hmem : tr ∈ row.trans := by rw [htr]; simp
  have hla := (row_facts hrow).1
  cases h with
  | done h1 => rw [hne] at h1; simp at h1
  | tags hpair h1 h2 =>
    obtain ⟨hq, hp⟩ := hat
    obtain ⟨t', a1, a2, a3, a4, a5⟩ := start_tags (rest' := rest') hp hpair hq hi h1 hst
    exact ⟨t', m, .start, a1, a2, hpair.ne', ⟨.inr a4, by rw [a3]; exact hp⟩, h2⟩
  | feature hpair h1 h2 =>
    obtain ⟨hq, hp⟩ := hat
    obtain ⟨t', m', a1, a2, a3, a4, a5⟩ := start_feature (rest' := rest') hp hpair hq hi h1 hst
    exact ⟨t', m', .body, a1, a2, hpair.ne', ⟨by rw [a4]; decide, by rw [a4]; decide, a3⟩, h2⟩
  | line hpair h1 h2 =>
    obtain ⟨hq1, hq2, hp⟩ := hat
    have hbf := body_facts hrow hq1 hq2
    have ho : tr.kind ≠ .other := fun e => hq2 (hother e)
    have hl := (hbf.kinds tr hmem).2
    obtain ⟨hs, hf⟩ := step_sound hi hp.ca hne hsp ho hl
    rw [hp.cd] at hf
    have hag := says_agree hp hpair.number hpair.lf hpair.ne' hs h1
    have hns : tr.kind ≠ .docStringSeparator := by intro e; rw [e, agree_noSep hp hag] at hf; simp at hf
    have hi' := inv_step hi hsp
    have hmc : mc' = mc := by
      have := Classic.matchKind_state hl hns (Token.fresh l) mc
      rw [hsp.matched] at this; exact this
    have hah : fits d l .tagLine = true → Ahead d mc m sk rest rest' := by
      intro htg
      have hk : tr.kind = .tagLine := fits_unique hp.known hf htg ho (by simp)
      have := ahead_of (d := d) (sk := sk) (m := m) hrun (hbf.tags tr hmem hk) hi' (by rw [hmc]; exact hp) h2
      rw [hmc] at this; exact this
    obtain ⟨t', a1, a2, a3, a4⟩ := pick_mirror hp hpair hag hs hah hla hbf.kinds hpick ho
    refine ⟨t', m, .body, by rw [hmdp]; exact a1, a2, hpair.ne', ⟨hbf.target tr hmem, ?_, by rw [hmc]; exact hp⟩, h2⟩
    exact fun e => hq2 ((hsp.facts.keep hns).1 e)
  | @opening _ _ _ _ delim hpair h1 h2 h3 h4 =>
    obtain ⟨hq1, hq2, hp⟩ := hat
    have hbf := body_facts hrow hq1 hq2
    have ho : tr.kind ≠ .other := fun e => hq2 (hother e)
    have hl := (hbf.kinds tr hmem).2
    obtain ⟨hs, hf⟩ := step_sound hi hp.ca hne hsp ho hl
    rw [hp.cd] at hf
    have hk : tr.kind = .docStringSeparator := fits_unique hp.known hf (fence_fits h2 h3) ho (by simp)
    obtain ⟨t', m', a1, a2, a3⟩ := pick_fence (rest' := rest') hp hpair h1 h2 h3 hbf.fence hpick hk
    exact ⟨t', m', .doc delim, by rw [hmdp]; exact a1, a2, hpair.ne', ⟨(hsp.facts.sep hk).2 hq2, a3⟩, h4⟩
  | @content _ _ _ _ delim hpair h1 h2 h3 =>
    obtain ⟨hq, hp⟩ := hat
    obtain ⟨t', m', a1, a2, a3⟩ := doc_step (rest' := rest') hp hpair h1 hq hst
    rcases a3 with ⟨b1, _⟩ | ⟨_, b2, b3⟩
    · exact absurd b1 h2
    · exact ⟨t', m', .doc delim, a1, a2, hpair.ne', ⟨(hsp.facts.keep (by rw [b2]; simp)).2 hq, b3⟩, h3⟩
  | closing hpair h1 h2 h3 =>
    obtain ⟨hq, hp⟩ := hat
    obtain ⟨t', m', a1, a2, a3⟩ := doc_step (rest' := rest') hp hpair h1 hq hst
    rcases a3 with ⟨_, b2, b3, b4⟩ | ⟨b1, _⟩
    · exact ⟨t', m', .body, a1, a2, hpair.ne', ⟨b3, fun e => (hsp.facts.sep b2).1 e hq, b4⟩, h3⟩
    · exact absurd h2 b1

theorem mirror_run {d : Dialect} {sk : Line → Bool} : ∀ {q : Nat} {mc : CState} {ls : List Line} {mv : List Auto.Move} {q' : Nat}
    {mc' : CState}, Auto.Run q mc ls mv q' mc' → Inv q mc → (∀ x ∈ mv, x.tr.kind = .other → x.state ∈ openStates) →
    ∀ {m : MdState} {p : Place}, MirAt d q mc m p → ∀ {ls' : List Line}, MirL d sk p ls ls' →
    ∃ mv' m', MdAuto.Run sk q m ls' mv' q' m' ∧ mv'.map moveKey = mv.map moveKey := by
  intro q mc ls mv q' mc' h
  induction h with
  | nil => intro _ _ m p _ ls' h; cases h
  | @last q mc l rest tr t mc' hst he =>
    intro hi _ m p hat ls' h
    have hsp := step_spec hst
    obtain ⟨row, _, _, hrow, _⟩ := hsp.row
    have hpick : Auto.pick row.trans l rest mc = some (tr, t, mc') := by
      have := hst
      unfold Auto.step at this
      rw [hrow] at this; exact this
    cases h with
    | @done _ l' h1 h2 h3 =>
      obtain ⟨_, _, hp⟩ := hat
      obtain ⟨t', a1, a2⟩ := pick_eof (sk := sk) (rest' := []) h3 h1 h2 hp.name (row_facts hrow).1 hpick
      refine ⟨[⟨q, tr, t'⟩], m, .last ?_ h2, by simp [moveKey, a2]⟩
      unfold MdAuto.step; rw [hrow]; exact a1
    | tags hpair => rw [hpair.ne] at he; simp at he
    | feature hpair => rw [hpair.ne] at he; simp at he
    | line hpair => rw [hpair.ne] at he; simp at he
    | opening hpair => rw [hpair.ne] at he; simp at he
    | content hpair => rw [hpair.ne] at he; simp at he
    | closing hpair => rw [hpair.ne] at he; simp at he
  | @cons q mc l rest tr t m1 mv q' m2 hst he hrun ih =>
    intro hi hoth m p hat ls' h
    obtain ⟨l', rest', rfl⟩ : ∃ l' rest', ls' = l' :: rest' := by cases h <;> exact ⟨_, _, rfl⟩
    obtain ⟨t', m', p', a1, a2, a3, a4, a5⟩ := mirror_step hst hi hat he (hoth ⟨q, tr, t⟩ (by simp)) hrun h
    obtain ⟨mv', m'', b1, b2⟩ := ih (inv_step hi (step_spec hst)) (fun x hx => hoth x (by simp [hx])) a4 a5
    exact ⟨⟨q, tr, t'⟩ :: mv', m'', .cons a1 a3 b1, by simp [moveKey, a2, b2]⟩

end Gherkin
