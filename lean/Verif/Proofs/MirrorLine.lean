import Verif.Proofs.MdAuto
import Verif.Proofs.MdErrForms
import Verif.Proofs.StepKind
import Verif.Props.Lines
import Verif.Props.Tags
import Verif.Props.Cells
import Verif.Spec.Mirror

/-! What the two matchers answer on lines that say the same. -/

namespace Gherkin

open Markdown Cst

/-- A token without columns, and without what no part of a document takes from it. -/
def Token.flat (t : Token) : Token :=
  { line := ⟨[], 0⟩, loc := ⟨t.loc.line, none⟩,
    text := if t.type = some .comment then none else if t.type = some .docStringSeparator then some (textOf t) else t.text,
    type := t.type, items := t.items.map fun i => ⟨0, i.text⟩,
    keyword := if t.type = some .tableRow then none else t.keyword,
    keywordType := if t.type = some .stepLine then t.keywordType else none,
    indent := 0, dialect := t.dialect }

namespace Md

/-- The kinds whose tests leave the matcher alone on lines that are no fences. -/
def calmKinds : List Kind :=
  [.tagLine, .scenarioLine, .backgroundLine, .examplesLine, .ruleLine, .tableRow, .comment, .docStringSeparator, .stepLine]

/-- The matcher's answer, leaving its state alone. -/
def Ans (l : Line) (m : MdState) (k : Kind) (b : Bool) : Prop := ∃ t, matchKind k (Token.fresh l) m = (.ok b, t, m)

theorem Ans.any {l : Line} {m : MdState} {k : Kind} {b : Bool} (h : Ans l m k b) {t : Token} (ht : t.Of l) :
    ∃ t', matchKind k t m = (.ok b, t', m) ∧ t'.Of l := by
  obtain ⟨t0, h0⟩ := h
  have i := indep k ht m
  have e1 := i.res; have e2 := i.st; have e4 := i.of
  rcases hm : matchKind k t m with ⟨r, t1, m1⟩
  rw [hm, h0] at e1 e2
  rw [hm] at e4
  simp only at e1 e2 e4
  subst e1; subst e2
  exact ⟨t1, rfl, e4⟩

theorem orElse_ans {l : Line} {m : MdState} {f : Kind → Bool} : ∀ {ks : List Kind}, (∀ k ∈ ks, Ans l m k (f k)) → ∀ {t : Token}, t.Of l →
    ∃ t', orElse (ks.map matchKind) t m = (.ok (ks.any f), t', m) ∧ t'.Of l := by
  intro ks
  induction ks with
  | nil => intro _ t ht; exact ⟨t, rfl, ht⟩
  | cons k ks ih =>
    intro h t ht
    obtain ⟨t1, h1, o1⟩ := (h k (by simp)).any ht
    simp only [List.map_cons, orElse, h1, List.any_cons]
    cases hf : f k with
    | true => exact ⟨t1, by simp, o1⟩
    | false =>
      obtain ⟨t2, h2, o2⟩ := ih (fun x hx => h x (by simp [hx])) o1
      exact ⟨t2, by simpa using h2, o2⟩

/-- The answer for a blank or unknown line follows from the others. -/
theorem empty_ans {l : Line} {m : MdState} (hm : m.matchedFeature = true) (hne : l.isEof = false) {f : Kind → Bool}
    (h : ∀ k ∈ calmKinds, Ans l m k (f k)) :
    ∃ t, matchKind .empty (Token.fresh l) m = (.ok (l.isBlank || !calmKinds.any f), t, m) ∧
      ((l.isBlank || !calmKinds.any f) = true → t = setMatched m.dialectName (Token.fresh l) (some .empty) none none none (some 0) []) := by
  let g : Kind → Bool := fun k => if k ∈ calmKinds then f k else false
  have hg : ∀ k ∈ probeKinds, Ans l m k (g k) := by
    intro k hk
    by_cases hc : k ∈ calmKinds
    · simp only [g, if_pos hc]; exact h k hc
    · simp only [g, if_neg hc]
      have : k = .featureLine ∨ k = .language ∨ k = .eof := by revert hc hk; cases k <;> decide
      rcases this with rfl | rfl | rfl
      · exact ⟨_, by simp [matchKind, matchFeature, hm]; rfl⟩
      · exact ⟨_, rfl⟩
      · refine ⟨Token.fresh l, ?_⟩
        have : (Token.fresh l).eof = false := hne
        simp [matchKind, matchEof, this]
  obtain ⟨t, h1, o⟩ := orElse_ans hg (Token.fresh_of l)
  have ha : probeKinds.any g = calmKinds.any f := by
    simp only [g, probeKinds, calmKinds, List.any_cons, List.any_nil]
    simp
  rw [ha, ← probes_eq] at h1
  have hl : (Token.fresh l).line = l := rfl
  simp only [matchKind, matchEmpty, h1, hl]
  split
  · rename_i hb
    exact ⟨_, by rw [hb], fun _ => setMatched_same o (Token.fresh_of l) _ _ _ _ _ _ _⟩
  · rename_i hb
    simp only [Bool.not_eq_true] at hb
    exact ⟨_, by rw [hb], by rw [hb]; simp⟩

/-! ### Negative answers -/

theorem title_no {l : Line} {m : MdState} {kws : List Str} {ps : Str → List PrefixMatch} {suf : Str} {k : Kind} {t : Token} (ht : t.Of l)
    (h : searchTitle (ps l.lineText) kws suf = none) : matchTitle k ps kws suf t m = (.ok false, t, m) := by
  unfold matchTitle
  rw [ht.1, h]

theorem bulletPrefix_nil {s : Str} (h : ∀ c, s.head? = some c → c ≠ '*' ∧ c ≠ '+' ∧ c ≠ '-') : bulletPrefix s = [] := by
  unfold bulletPrefix
  split
  · rename_i c rest
    obtain ⟨h1, h2, h3⟩ := h c rfl
    simp [h1, h2, h3]
  · rfl

/-- Lines that do not begin with `#` are no titles. -/
theorem titles_no {l : Line} {m : MdState} (h : l.lineText.head? ≠ some '#') {k : Kind} (hk : k ∈ titleKinds) (hf : k ≠ .featureLine) :
    Ans l m k false := by
  have hs : ∀ kws, searchTitle (headerPrefix l.lineText) kws [':'] = none := by intro kws; rw [headerPrefix_nil h]; rfl
  have ho := Token.fresh_of l
  revert hk hf
  cases k <;> intro hk hf <;> first | exact absurd hk (by decide) | exact absurd rfl hf | skip
  case scenarioLine => exact ⟨_, by simp only [matchKind, matchScenario, title_no ho (hs _)]; rfl⟩
  all_goals exact ⟨_, by simp only [matchKind, matchHeaded, title_no ho (hs _)]; rfl⟩

theorem step_no {l : Line} {m : MdState} (h : ∀ c, l.lineText.head? = some c → c ≠ '*' ∧ c ≠ '+' ∧ c ≠ '-') : Ans l m .stepLine false := by
  refine ⟨Token.fresh l, ?_⟩
  simp only [matchKind, matchStep]
  exact title_no (Token.fresh_of l) (by rw [bulletPrefix_nil h]; rfl)

theorem bar_no {l : Line} {m : MdState} (h : l.lineText.head? ≠ some '|') {k : Kind} (hk : k = .tableRow ∨ k = .comment) : Ans l m k false := by
  have hb : l.startsWith ['|'] = false := by
    unfold Line.startsWith startsWith
    rw [show l.lineText = l.trimmed from rfl] at h
    cases ht : l.trimmed with
    | nil => rfl
    | cons c cs => rw [ht] at h; simp only [List.head?_cons, Option.some.injEq, ne_eq] at h; simp [List.isPrefixOf]; exact fun e => h e.symm
  have hl : (Token.fresh l).line = l := rfl
  rcases hk with rfl | rfl
  · exact ⟨Token.fresh l, by simp [matchKind, matchTableRow, hl, hb]⟩
  · exact ⟨_, by simp [matchKind, matchComment, hl, hb]; rfl⟩

theorem sep_no {l : Line} {m : MdState} (ha : m.active = none) (h : fenceOf l.text = none) : Ans l m .docStringSeparator false := by
  have hs : ∀ f ∈ [py"\"\"\"", py"````", py"```"], l.startsWith f = false := by
    intro f hf
    unfold fenceOf at h
    rw [List.find?_eq_none] at h
    have := h f hf
    unfold Line.startsWith startsWith
    rw [Bool.eq_false_iff]
    intro hp
    rw [List.isPrefixOf_iff_prefix] at hp
    apply this
    rw [decide_eq_true_eq]
    exact (List.prefix_iff_eq_take.1 hp).symm
  have h1 := hs _ (by simp : py"\"\"\"" ∈ _)
  have h2 := hs _ (by simp : py"````" ∈ _)
  have h3 := hs _ (by simp : py"```" ∈ _)
  have hl : (Token.fresh l).line = l := rfl
  refine ⟨Token.fresh l, ?_⟩
  simp [matchKind, matchDocSep, ha, hl, matchSep, Classic.quotes, Classic.ticks, ticks4, h1, h2, h3]

theorem fence_head {s : Str} (h : ∀ c, (lstrip s).head? = some c → c ≠ '"' ∧ c ≠ '`') : fenceOf s = none := by
  unfold fenceOf
  rw [List.find?_eq_none]
  intro f hf
  rw [decide_eq_true_eq]
  intro e
  cases hs : lstrip s with
  | nil => rw [hs] at e; simp at e; subst e; simp at hf
  | cons c cs =>
    obtain ⟨h1, h2⟩ := h c (by rw [hs]; rfl)
    rw [hs] at e
    simp only [List.mem_cons, List.not_mem_nil, or_false] at hf
    rcases hf with rfl | rfl | rfl <;> simp at e
    · exact h1 e.1
    · exact h2 e.1
    · exact h2 e.1

theorem tags_no {d : Dialect} {l : Line} {m : MdState} (h : ¬ HasForm d l.text .tags) : Ans l m .tagLine false := by
  have : findTags l.lineText 0 0 = [] := by
    cases hf : (findTags l.lineText 0 0).isEmpty with
    | true => simpa using hf
    | false => exact absurd (tag_sound hf) h
  exact ⟨Token.fresh l, by simp [matchKind, matchTagLine, show (Token.fresh l).line = l from rfl, this]⟩

/-! ### Lines that say the same -/

/-- A classic and a Markdown matcher in the same dialect, outside doc strings, after the title of the feature. -/
structure Peer (d : Dialect) (mc : CState) (m : MdState) : Prop where
  known : d.Known
  cd : mc.dialect = d
  md : m.dialect = d
  name : mc.dialectName = m.dialectName
  ca : mc.active = none
  ma : m.active = none
  feature : m.matchedFeature = true

/-- The matchers give the same answers, and, up to columns, the same tokens. -/
def Agree (d : Dialect) (mc : CState) (m : MdState) (l l' : Line) : Prop :=
  ∀ k ∈ Kind.empty :: calmKinds, ∃ t, matchKind k (Token.fresh l') m = (.ok (fits d l k), t, m) ∧
    (fits d l k = true → t.flat = (Classic.matchKind k (Token.fresh l) mc).2.1.flat)

theorem calm_other {k : Kind} (h : k ∈ Kind.empty :: calmKinds) : k ≠ .other := by rintro rfl; revert h; decide

theorem fits_ne {d : Dialect} (hd : d.Known) {l : Line} {K k : Kind} (h : fits d l K = true) (hK : K ≠ .other) (hk : k ≠ .other) (hne : k ≠ K) :
    fits d l k = false := by
  cases hf : fits d l k with
  | false => rfl
  | true => exact absurd (fits_unique hd hf h hk hK) hne

theorem agree_of {d : Dialect} {mc : CState} {m : MdState} {l l' : Line} (hp : Peer d mc m) {K : Kind} (hK : K ∈ calmKinds)
    (hf : fits d l K = true) (hb : l'.isBlank = false) (hno : ∀ k ∈ calmKinds, k ≠ K → Ans l' m k false)
    (hyes : ∃ t, matchKind K (Token.fresh l') m = (.ok true, t, m) ∧ t.flat = (Classic.matchKind K (Token.fresh l) mc).2.1.flat) :
    Agree d mc m l l' := by
  have hKo : K ≠ .other := calm_other (by simp [hK])
  have hne : l'.isEof = false := by
    unfold Line.isEof
    cases ht : l'.text with
    | nil => simp [Line.isBlank, Line.trimmed, ht, lstrip, lstripBy] at hb
    | cons c cs => rfl
  have hall : ∀ k ∈ calmKinds, Ans l' m k (k == K) := by
    intro k hk
    by_cases e : k = K
    · subst e; obtain ⟨t, h1, _⟩ := hyes; exact ⟨t, by simpa using h1⟩
    · rw [show (k == K) = false by simpa using e]; exact hno k hk e
  intro k hk
  rcases List.mem_cons.1 hk with rfl | hk
  · obtain ⟨t, h1, _⟩ := empty_ans hp.feature hne hall
    have hany : calmKinds.any (fun k => k == K) = true := List.any_eq_true.2 ⟨K, hK, by simp⟩
    have hfe : fits d l .empty = false := fits_ne hp.known hf hKo (by simp) (by rintro rfl; revert hK; decide)
    rw [hany, hb] at h1
    rw [hfe]
    exact ⟨t, h1, by simp⟩
  · by_cases e : k = K
    · subst e; rw [hf]; obtain ⟨t, h1, h2⟩ := hyes; exact ⟨t, h1, fun _ => h2⟩
    · rw [fits_ne hp.known hf hKo (calm_other (by simp [hk])) e]
      obtain ⟨t, h1⟩ := hno k hk e
      exact ⟨t, h1, by simp⟩

theorem blank_head {l : Line} {c : Char} {cs : Str} (h : l.trimmed = c :: cs) : l.isBlank = false := by simp [Line.isBlank, h]

theorem flat_set {dn : Str} {l l' : Line} (hn : l.number = l'.number) {k : Kind} {x x' : Option Str} {kw kw' : Option Str} {kt kt' : Option KType}
    {i i' : Option Nat} {its its' : List MItem}
    (hx : (if k = .comment then none else if k = .docStringSeparator then some ((x'.map rstripEol).getD []) else x'.map rstripEol) =
      (if k = .comment then none else if k = .docStringSeparator then some ((x.map rstripEol).getD []) else x.map rstripEol))
    (hkw : (if k = .tableRow then none else kw') = if k = .tableRow then none else kw)
    (hkt : (if k = .stepLine then kt' else none) = if k = .stepLine then kt else none)
    (hits : its'.map (·.text) = its.map (·.text)) :
    (setMatched dn (Token.fresh l') (some k) x' kw' kt' i' its').flat = (setMatched dn (Token.fresh l) (some k) x kw kt i its).flat := by
  have e : ∀ its : List MItem, its.map (fun i => (⟨0, i.text⟩ : MItem)) = (its.map (·.text)).map fun s => ⟨0, s⟩ := by
    intro its; rw [List.map_map]; rfl
  simp only [Token.flat, setMatched, Token.fresh, Option.some.injEq, textOf, hn, e, hits]
  simp only [hx, hkw, hkt]

/-! ### Titles -/

/-- A title found in a heading. -/
theorem searchTitle_one (n : Nat) (T : Str) (kws : List Str) (suf : Str) : searchTitle [(n, T)] kws suf =
    (kws.find? fun kw => startsWith T (kw ++ suf)).map fun kw => (n, kw, (T.drop (kw.length + suf.length)).takeWhile (· != '\n')) := by
  simp only [searchTitle, List.findSome?_cons, List.findSome?_nil]
  cases kws.find? fun kw => startsWith T (kw ++ suf) <;> rfl

/-- What the test for a title kind is. -/
theorem title_test {t : Token} {l : Line} {m : MdState} (ht : t.Of l) {n : Nat} {T : Str} (hl : headerPrefix l.lineText = [(n, T)]) {k : Kind}
    (hk : k ∈ titleKinds) (hf : k ≠ .featureLine) :
    matchKind k t m = matchTitle k headerPrefix (m.dialect.titles k) [':'] t m := by
  revert hk hf
  cases k <;> intro hk hf <;> first | exact absurd hk (by decide) | exact absurd rfl hf | skip
  case scenarioLine =>
    simp only [matchKind, matchScenario, matchTitle, Dialect.titles, ht.1, hl, searchTitle_one, List.find?_append]
    cases h1 : m.dialect.scenario.find? fun kw => startsWith T (kw ++ [':']) <;> simp [ht.1, hl, searchTitle_one]
  all_goals rfl

theorem title_found {l : Line} {m : MdState} {n : Nat} {T : Str} (hl : headerPrefix l.lineText = [(n, T)]) (k : Kind) (kws : List Str) :
    matchTitle k headerPrefix kws [':'] (Token.fresh l) m = match kws.find? fun kw => startsWith T (kw ++ [':']) with
      | some kw => (.ok true, setMatched m.dialectName (Token.fresh l) (some k) (some (strip ((T.drop (kw.length + 1)).takeWhile (· != '\n'))))
          (some kw) (m.dialect.keywordTypes kw).head? (some (l.indent + n)) [], m)
      | none => (.ok false, Token.fresh l, m) := by
  simp only [matchTitle, show (Token.fresh l).line = l from rfl, hl, searchTitle_one]
  cases kws.find? fun kw => startsWith T (kw ++ [':']) <;> rfl

/-- The line has a line feed at its end only. -/
def OneLf (s : Str) : Prop := ∃ body, '\n' ∉ body ∧ (s = body ∨ s = body ++ ['\n'])

theorem title_agree {d : Dialect} {mc : CState} {m : MdState} {l l' : Line} (hp : Peer d mc m) (hn : l.number = l'.number) (hlf : OneLf l'.text)
    {K : Kind} (hK : K ∈ titleKinds) (hKf : K ≠ .featureLine) (h : TitleLines d (d.titles K) l.text l'.text) : Agree d mc m l l' := by
  obtain ⟨w, w', kw, rest, n, sp, hw, hw', hkw, h1, h6, hsp, e, e', htag⟩ := h
  have hho := hp.known.title_head hkw
  have hnh : NoHead isSpace (kw ++ ':' :: rest) := by
    intro c hc
    cases kw with
    | nil => simp [headOk] at hho
    | cons c' kw =>
      simp at hc; subst hc
      simp only [headOk, isMarker] at hho
      simp at hho
      exact hho.1.1.1.1.1
  have ht : l.trimmed = kw ++ ':' :: rest := by
    cases l with | mk x num =>
    simp only at e; subst e
    exact trimmed_append hw hnh
  have hh : NoHead isSpace (List.replicate n '#' ++ sp :: (kw ++ ':' :: rest)) := by
    intro c hc
    obtain ⟨k, rfl⟩ : ∃ k, n = k + 1 := ⟨n - 1, by omega⟩
    simp [List.replicate_succ] at hc; subst hc; decide
  have ht' : l'.lineText = List.replicate n '#' ++ sp :: (kw ++ ':' :: rest) := by
    cases l' with | mk x num =>
    simp only at e'; subst e'
    exact trimmed_append hw' hh
  have hhash : l'.lineText.head? = some '#' := by
    obtain ⟨k, rfl⟩ : ∃ k, n = k + 1 := ⟨n - 1, by omega⟩
    rw [ht']; simp [List.replicate_succ]
  have hpre : headerPrefix l'.lineText = [(n + 1, kw ++ ':' :: rest)] := by rw [ht']; exact headerPrefix_of h1 h6 hsp _
  have hfk : ∀ k ∈ titleKinds, fits d l k = isTitle (d.titles k) l := by
    intro k hk; revert hk; cases k <;> intro hk <;> first | rfl | exact absurd hk (by decide)
  have hf : fits d l K = true := by
    rw [hfk K hK, isTitle_iff, List.any_eq_true]
    exact ⟨kw, hkw, by unfold Line.startsWithTitle startsWith; rw [ht, List.isPrefixOf_iff_prefix]; exact ⟨rest, by simp⟩⟩
  have hKo : K ≠ .other := by rintro rfl; revert hK; decide
  have hKc : K ∈ calmKinds := by revert hK hKf; cases K <;> decide
  have hb : l'.isBlank = false := by
    obtain ⟨c, cs, hc⟩ : ∃ c cs, l'.trimmed = c :: cs := by
      cases hc : l'.trimmed with
      | nil => rw [show l'.lineText = l'.trimmed from rfl, hc] at hhash; simp at hhash
      | cons c cs => exact ⟨c, cs, rfl⟩
    exact blank_head hc
  have hstw : ∀ kw', startsWith (kw ++ ':' :: rest) (kw' ++ [':']) = l.startsWithTitle kw' := by
    intro kw'; unfold Line.startsWithTitle; rw [ht]
  have hlf' : ∀ j, strip (((kw ++ ':' :: rest).drop j).takeWhile (· != '\n')) = strip ((kw ++ ':' :: rest).drop j) := by
    intro j
    apply strip_takeWhile (a := w' ++ (List.replicate n '#' ++ sp :: (kw ++ ':' :: rest).take j))
    have : w' ++ (List.replicate n '#' ++ sp :: (kw ++ ':' :: rest).take j) ++ (kw ++ ':' :: rest).drop j = l'.text := by
      rw [e']; simp only [List.append_assoc, List.cons_append, List.take_append_drop]
    rw [this]; exact hlf
  refine agree_of hp hKc hf hb ?_ ?_
  · intro k hk hne
    by_cases hkt : k ∈ titleKinds
    · have hkf : k ≠ .featureLine := by rintro rfl; revert hk; decide
      have hno := fits_ne hp.known hf hKo (calm_other (by simp [hk])) hne
      rw [hfk k hkt, isTitle_iff, List.any_eq_false] at hno
      refine ⟨Token.fresh l', ?_⟩
      rw [title_test (Token.fresh_of l') hpre hkt hkf, title_found hpre, hp.md]
      have : (d.titles k).find? (fun kw' => startsWith (kw ++ ':' :: rest) (kw' ++ [':'])) = none := by
        rw [List.find?_eq_none]; intro x hx; rw [hstw]; exact hno x hx
      rw [this]
    · have : k = .tagLine ∨ k = .tableRow ∨ k = .comment ∨ k = .docStringSeparator ∨ k = .stepLine := by revert hk hkt; cases k <;> decide
      rcases this with rfl | rfl | rfl | rfl | rfl
      · exact tags_no htag
      · exact bar_no (by rw [hhash]; simp) (.inl rfl)
      · exact bar_no (by rw [hhash]; simp) (.inr rfl)
      · exact sep_no hp.ma (fence_head (by
          intro c hc; rw [show lstrip l'.text = l'.lineText from rfl, hhash] at hc; simp at hc; subst hc; decide))
      · exact step_no (by intro c hc; rw [hhash] at hc; simp at hc; subst hc; decide)
  · rw [title_test (Token.fresh_of l') hpre hK hKf, title_found hpre, hp.md]
    have hcl : Classic.matchKind K (Token.fresh l) mc = Classic.matchTitle K (d.titles K) (Token.fresh l) mc := by
      rw [← hp.cd]; revert hK; cases K <;> intro hK <;> first | rfl | exact absurd hK (by decide)
    simp only [hcl, Classic.matchTitle, hstw, show (Token.fresh l).line = l from rfl]
    rw [hfk K hK, isTitle_iff] at hf
    cases hfd : (d.titles K).find? (fun kw => l.startsWithTitle kw) with
    | none =>
      rw [List.find?_eq_none] at hfd
      rw [List.any_eq_true] at hf
      obtain ⟨x, h1, h2⟩ := hf
      exact absurd h2 (hfd x h1)
    | some kw2 =>
      refine ⟨_, rfl, ?_⟩
      rw [hp.name]
      refine flat_set hn ?_ ?_ ?_ rfl
      · rw [hlf']; simp only [Line.restTrimmed, ht]
      · rfl
      · have : K ≠ .stepLine := by rintro rfl; revert hK; decide
        simp [this]

/-! ### Steps -/

theorem spaceRuns_first {gap s : Str} (hg : White gap) (hs : NoHead isSpace s) : ∀ n, ∃ more, spaceRuns n (gap ++ s) = (n + gap.length, s) :: more := by
  induction gap with
  | nil =>
    intro n
    cases s with
    | nil => exact ⟨[], rfl⟩
    | cons c cs => exact ⟨[], by simp [spaceRuns, hs c rfl]⟩
  | cons c gap ih =>
    intro n
    obtain ⟨more, hm⟩ := ih (fun x hx => hg x (by simp [hx])) (n + 1)
    refine ⟨more ++ [(n, c :: (gap ++ s))], ?_⟩
    simp only [List.cons_append, spaceRuns, hg c (by simp), if_true, hm, List.length_cons]
    rw [show n + 1 + gap.length = n + (gap.length + 1) by omega]

/-- Only the bullet begins with `*`. -/
def starOk (d : Dialect) : Bool := d.stepKeywords.all fun kw => kw.head? != some '*' || kw == bullet

theorem dialects_starOk : dialects.all (fun p => starOk p.2) = true := by decide +kernel

theorem step_agree {d : Dialect} {mc : CState} {m : MdState} {l l' : Line} (hp : Peer d mc m) (hn : l.number = l'.number) (hlf : OneLf l'.text)
    (h : StepLines d l.text l'.text) : Agree d mc m l l' := by
  obtain ⟨w, w', kw, rest, b, gap, hw, hw', hkw, hkb, hb3, hg, e, e', htag⟩ := h
  have hkw' : kw ∈ d.stepKeywords := hkw
  have hho := hp.known.step_head hkw'
  obtain ⟨c0, kw0, rfl⟩ : ∃ c kw0, kw = c :: kw0 := by
    cases kw with
    | nil => simp [headOk] at hho
    | cons c kw => exact ⟨c, kw, rfl⟩
  have hc0 : isSpace c0 = false := by
    simp only [headOk, isMarker] at hho
    simp at hho
    exact hho.1.1.1.1.1
  have hnh : NoHead isSpace (c0 :: kw0 ++ rest) := by intro c hc; simp at hc; subst hc; exact hc0
  have ht : l.trimmed = c0 :: kw0 ++ rest := by
    cases l with | mk x num =>
    simp only at e; subst e
    exact trimmed_append hw hnh
  have hbs : isSpace b = false := by rcases hb3 with rfl | rfl | rfl <;> decide
  have ht' : l'.lineText = b :: (gap ++ (c0 :: kw0 ++ rest)) := by
    cases l' with | mk x num =>
    simp only at e'; subst e'
    exact trimmed_append hw' (by intro c hc; simp at hc; subst hc; exact hbs)
  have hhd : l'.lineText.head? = some b := by rw [ht']; rfl
  have hf : fits d l .stepLine = true := by
    show isStep d l = true
    rw [isStep_iff, List.any_eq_true]
    exact ⟨_, hkw', by unfold Line.startsWith startsWith; rw [ht, List.isPrefixOf_iff_prefix]; exact ⟨rest, rfl⟩⟩
  obtain ⟨more, hruns⟩ := spaceRuns_first hg hnh 1
  have hpre : bulletPrefix l'.lineText = (1 + gap.length, c0 :: kw0 ++ rest) :: more := by
    rw [ht']
    have : (b == '*' || b == '+' || b == '-') = true := by rcases hb3 with rfl | rfl | rfl <;> rfl
    simp only [bulletPrefix, this, if_true]
    exact hruns
  refine agree_of hp (by decide) hf (blank_head (l := l') ht') ?_ ?_
  · intro k hk hne
    have : k ∈ titleKinds ∨ k = .tagLine ∨ k = .tableRow ∨ k = .comment ∨ k = .docStringSeparator := by revert hk hne; cases k <;> decide
    have hkf : k ≠ .featureLine := by rintro rfl; revert hk; decide
    rcases this with hkt | rfl | rfl | rfl | rfl
    · exact titles_no (by rw [hhd]; rcases hb3 with rfl | rfl | rfl <;> decide) hkt hkf
    · exact tags_no htag
    · exact bar_no (by rw [hhd]; rcases hb3 with rfl | rfl | rfl <;> decide) (.inl rfl)
    · exact bar_no (by rw [hhd]; rcases hb3 with rfl | rfl | rfl <;> decide) (.inr rfl)
    · exact sep_no hp.ma (fence_head (by
        intro c hc; rw [show lstrip l'.text = l'.lineText from rfl, hhd] at hc; simp at hc; subst hc; rcases hb3 with rfl | rfl | rfl <;> decide))
  · simp only [matchKind, matchStep, matchTitle, Classic.matchKind, Classic.matchStep, show (Token.fresh l).line = l from rfl,
      show (Token.fresh l').line = l' from rfl, hp.md, hp.cd, hpre]
    have hfe : (fun kw : Str => l.startsWith kw) = fun kw => startsWith (c0 :: kw0 ++ rest) (kw ++ []) := by
      funext kw; rw [List.append_nil]; unfold Line.startsWith; rw [ht]
    change isStep d l = true at hf
    rw [isStep_iff, List.any_eq_true] at hf
    cases hfd : d.stepKeywords.find? (fun kw => l.startsWith kw) with
    | none =>
      rw [List.find?_eq_none] at hfd
      obtain ⟨x, h1, h2⟩ := hf
      exact absurd h2 (hfd x h1)
    | some kw2 =>
      have hfd' := hfd
      rw [hfe] at hfd
      have hs : searchTitle ((1 + gap.length, c0 :: kw0 ++ rest) :: more) d.stepKeywords [] =
          some (1 + gap.length, kw2, ((c0 :: kw0 ++ rest).drop kw2.length).takeWhile (· != '\n')) := by
        simp only [searchTitle, List.findSome?_cons]
        rw [hfd]; rfl
      rw [hs]
      refine ⟨_, rfl, ?_⟩
      rw [hp.name]
      have hk2 := List.mem_of_find?_eq_some hfd
      have hpx := List.find?_some hfd
      have hnb : kw2 ≠ bullet := by
        rintro rfl
        have hstar := hp.known
        obtain ⟨nm, hnm⟩ := hstar
        have hstar := List.all_eq_true.1 dialects_starOk _ (lookup_mem hnm)
        unfold starOk at hstar
        rw [List.all_eq_true] at hstar
        have := hstar _ hkw'
        have hc : c0 = '*' := by
          simp [startsWith, bullet] at hpx
          exact hpx.1.symm
        subst hc
        simp at this
        exact hkb this
      obtain ⟨nm, hnm⟩ := hp.known
      have hty := List.all_eq_true.1 dialects_typesOk _ (lookup_mem hnm)
      unfold typesOk at hty
      rw [List.all_eq_true] at hty
      have hty := hty _ hk2
      rw [if_neg (by simpa using hnb)] at hty
      obtain ⟨ty, hty⟩ : ∃ ty, d.keywordTypes kw2 = [ty] := by
        rw [beq_iff_eq, List.length_eq_one_iff] at hty; exact hty
      refine flat_set hn ?_ rfl ?_ rfl
      · have : strip (((c0 :: kw0 ++ rest).drop kw2.length).takeWhile (· != '\n')) = strip ((c0 :: kw0 ++ rest).drop kw2.length) := by
          apply strip_takeWhile (a := w' ++ b :: (gap ++ (c0 :: kw0 ++ rest).take kw2.length))
          have : w' ++ b :: (gap ++ (c0 :: kw0 ++ rest).take kw2.length) ++ (c0 :: kw0 ++ rest).drop kw2.length = l'.text := by
            rw [e']; simp only [List.append_assoc, List.cons_append, List.take_append_drop]
          rw [this]; exact hlf
        rw [this]; simp only [Line.restTrimmed, ht]
      · simp only [if_true, Classic.stepType, hty, List.head?_cons]

/-! ### Rows -/

theorem cells_same {l l' : Line} (h : l.trimmed = l'.trimmed) {cs : List MItem} (hc : l.tableCells = .ok cs) :
    ∃ cs', l'.tableCells = .ok cs' ∧ cs'.map (·.text) = cs.map (·.text) := by
  unfold Line.tableCells at hc ⊢
  rw [← h]
  split at hc
  · simp at hc
  · rename_i cells hs
    simp only [Except.ok.injEq] at hc
    subst hc
    exact ⟨_, rfl, by simp only [List.map_map]; rfl⟩

theorem row_agree {d : Dialect} {mc : CState} {m : MdState} {l l' : Line} (hp : Peer d mc m) (hn : l.number = l'.number) (hl : l.Sound)
    (h : RowLines d l.text l'.text) : Agree d mc m l l' := by
  obtain ⟨w, w', rest, hw, hw', h5, hdash, e, e', htag⟩ := h
  have hnh : NoHead isSpace ('|' :: rest) := by intro c hc; simp at hc; subst hc; decide
  have ht : l.trimmed = '|' :: rest := by
    cases l with | mk x num =>
    simp only at e; subst e
    exact trimmed_append hw hnh
  have ht' : l'.trimmed = '|' :: rest := by
    cases l' with | mk x num =>
    simp only at e'; subst e'
    exact trimmed_append hw' hnh
  have hin : l'.indent = w'.length := by
    cases l' with | mk x num =>
    simp only at e'; subst e'
    exact indent_append hw' hnh
  have hhd : l'.lineText.head? = some '|' := by rw [show l'.lineText = l'.trimmed from rfl, ht']; rfl
  have hbar : ∀ {x : Line}, x.trimmed = '|' :: rest → x.startsWith ['|'] = true := by
    intro x hx; unfold Line.startsWith startsWith; rw [hx]; rfl
  have hf : fits d l .tableRow = true := by
    show firstIs '|' l = true
    rw [firstIs_iff]; exact hbar ht
  obtain ⟨cs, hcs⟩ := hl.2 hf
  obtain ⟨cs', hcs', htx⟩ := cells_same (l' := l') (by rw [ht, ht']) hcs
  have hsep : isGfmSeparator cs' = false := by
    cases hs : isGfmSeparator cs' with
    | false => rfl
    | true =>
      obtain ⟨pre', rest', hw'', e'', hd⟩ := separator_sound (hbar ht') hcs' hs
      rw [e'] at e''
      obtain ⟨_, rfl⟩ := bar_split hw' hw'' e''
      exact absurd hd hdash
  refine agree_of hp (by decide) hf (blank_head ht') ?_ ?_
  · intro k hk hne
    have : k ∈ titleKinds ∨ k = .tagLine ∨ k = .stepLine ∨ k = .comment ∨ k = .docStringSeparator := by revert hk hne; cases k <;> decide
    have hkf : k ≠ .featureLine := by rintro rfl; revert hk; decide
    rcases this with hkt | rfl | rfl | rfl | rfl
    · exact titles_no (by rw [hhd]; decide) hkt hkf
    · exact tags_no htag
    · exact step_no (by intro c hc; rw [hhd] at hc; simp at hc; subst hc; decide)
    · exact ⟨_, by simp only [matchKind, matchComment, show (Token.fresh l').line = l' from rfl, hbar ht', if_true, hcs', hsep]; rfl⟩
    · exact sep_no hp.ma (fence_head (by
        intro c hc; rw [show lstrip l'.text = l'.lineText from rfl, hhd] at hc; simp at hc; subst hc; decide))
  · simp only [matchKind, matchTableRow, Classic.matchKind, Classic.matchTableRow, show (Token.fresh l).line = l from rfl,
      show (Token.fresh l').line = l' from rfl, hbar ht, hbar ht', hcs, hcs', hin, hsep]
    rw [if_pos (by simpa using h5)]
    refine ⟨_, rfl, ?_⟩
    simp only [if_true]
    rw [hp.name]
    exact flat_set hn rfl rfl rfl htx

theorem no_tick_tags {d : Dialect} {s : Str} (h : '`' ∉ s) : ¬ HasForm d s .tags := by
  rintro ⟨pre, n, rest, _, _, rfl⟩
  exact h (by simp)

theorem separator_agree {d : Dialect} {mc : CState} {m : MdState} {l l' : Line} (hp : Peer d mc m) (hn : l.number = l'.number)
    (h : SeparatorLines l.text l'.text) : Agree d mc m l l' := by
  obtain ⟨⟨w, rest, hw, e⟩, w', cells, tr, hw', htr, hne, hcells, e'⟩ := h
  have ht : l.trimmed = '#' :: rest := by
    cases l with | mk x num =>
    simp only at e; subst e
    exact trimmed_append hw (by intro c hc; simp at hc; subst hc; decide)
  have hrow : ∃ r, writeRow cells = '|' :: r := ⟨_, rfl⟩
  obtain ⟨r, hr⟩ := hrow
  have ht' : l'.trimmed = '|' :: (r ++ tr) := by
    cases l' with | mk x num =>
    simp only at e'; subst e'
    rw [hr, List.append_assoc]
    exact trimmed_append hw' (by intro c hc; simp at hc; subst hc; decide)
  have hhd : l'.lineText.head? = some '|' := by rw [show l'.lineText = l'.trimmed from rfl, ht']; rfl
  have hbar : l'.startsWith ['|'] = true := by unfold Line.startsWith startsWith; rw [ht']; rfl
  have hf : fits d l .comment = true := by
    show firstIs '#' l = true
    rw [firstIs_iff]; unfold Line.startsWith startsWith; rw [ht]; rfl
  have hch : ∀ {v : Str}, Dashes v → ∀ c ∈ v, c = '-' ∨ c = ':' := by
    rintro v ⟨a, n, b, ha, hb, rfl⟩ c hc
    simp only [List.mem_append, List.mem_replicate] at hc
    rcases hc with (hc | hc) | hc
    · rcases ha with rfl | rfl <;> simp at hc; exact .inr hc
    · exact .inl hc.2
    · rcases hb with rfl | rfl <;> simp at hc; exact .inr hc
  have hesc : ∀ {v : Str}, (∀ c ∈ v, c = '-' ∨ c = ':') → escapeCell v = v := by
    intro v hv
    induction v with
    | nil => rfl
    | cons c v ih =>
      have h1 : (c = '-' ∨ c = ':') := hv c (by simp)
      have : (if c = '\n' then ['\\', 'n'] else if c = '|' then ['\\', '|'] else if c = '\\' then ['\\', '\\'] else [c]) = [c] := by
        rcases h1 with rfl | rfl <;> decide
      simp only [escapeCell, this, ih fun x hx => hv x (by simp [hx])]; rfl
  have hsp : ∀ {c : Char}, isSpace c = true → c ≠ '`' := by rintro c hc rfl; exact absurd hc (by decide)
  have htick : '`' ∉ l'.text := by
    rw [e']
    intro hm
    simp only [List.mem_append, writeRow, List.mem_cons, List.mem_flatMap, List.not_mem_nil, or_false] at hm
    rcases hm with (hm | hm | ⟨c, hc, hm⟩) | hm
    · exact hsp (hw' _ hm) rfl
    · exact absurd hm (by decide)
    · obtain ⟨p1, p2, p3⟩ := hcells c hc
      rw [hesc (hch p2)] at hm
      rcases hm with ((hm | hm) | hm) | hm
      · exact hsp (p1 _ hm).1 rfl
      · rcases hch p2 _ hm with h | h <;> exact absurd h (by decide)
      · exact hsp (p3 _ hm).1 rfl
      · exact absurd hm (by decide)
    · exact hsp (htr _ hm) rfl
  have hval : ∀ c ∈ cells, CellValue c.value ∧ (c.right = [] → Tight c.value) := by
    intro c hc
    have hd := hch (hcells c hc).2.1
    have ok : ∀ x ∈ c.value, isSpace x = false ∨ x = '\n' := by
      intro x hx; left; rcases hd x hx with rfl | rfl <;> decide
    refine ⟨⟨fun x hx => ok x (List.mem_of_mem_head? hx), fun x hx => ok x (List.mem_of_getLast? hx)⟩, ?_⟩
    intro _ x hx _
    rcases hd _ (List.mem_of_getLast? hx) with h | h <;> exact absurd h (by decide)
  obtain ⟨items, hi1, hi2⟩ := C14_row_roundtrip w' tr cells l'.number hw' htr (fun c hc => ⟨(hcells c hc).1, (hcells c hc).2.2⟩) hval
  rw [← e'] at hi1
  change l'.tableCells = .ok items at hi1
  have hsep : isGfmSeparator items = true := by
    obtain ⟨c, cs, rfl⟩ : ∃ c cs, cells = c :: cs := by
      cases cells with
      | nil => exact absurd rfl hne
      | cons c cs => exact ⟨c, cs, rfl⟩
    cases items with
    | nil => simp at hi2
    | cons i is =>
      simp only [List.map_cons, List.cons.injEq] at hi2
      simp [isGfmSeparator, hi2.1, dashes_sep (hcells c (by simp)).2.1]
  refine agree_of hp (by decide) hf (blank_head ht') ?_ ?_
  · intro k hk hne
    have : k ∈ titleKinds ∨ k = .tagLine ∨ k = .stepLine ∨ k = .tableRow ∨ k = .docStringSeparator := by revert hk hne; cases k <;> decide
    have hkf : k ≠ .featureLine := by rintro rfl; revert hk; decide
    rcases this with hkt | rfl | rfl | rfl | rfl
    · exact titles_no (by rw [hhd]; decide) hkt hkf
    · exact tags_no (no_tick_tags (d := d) htick)
    · exact step_no (by intro c hc; rw [hhd] at hc; simp at hc; subst hc; decide)
    · refine ⟨Token.fresh l', ?_⟩
      simp only [matchKind, matchTableRow, show (Token.fresh l').line = l' from rfl, hbar, hi1, hsep, if_true]
      split <;> rfl
    · exact sep_no hp.ma (fence_head (by
        intro c hc; rw [show lstrip l'.text = l'.lineText from rfl, hhd] at hc; simp at hc; subst hc; decide))
  · have hfl := hf
    change firstIs '#' l = true at hfl
    rw [firstIs_iff] at hfl
    simp only [matchKind, matchComment, Classic.matchKind, Classic.matchComment, show (Token.fresh l).line = l from rfl,
      show (Token.fresh l').line = l' from rfl, hbar, hi1, hsep, hfl, if_true]
    refine ⟨_, rfl, ?_⟩
    rw [hp.name]
    exact flat_set hn rfl rfl rfl rfl

/-! ### Tags -/

theorem findTags_skip (s : Str) : ∀ (p : Str) (pos : Nat), findTags (p ++ s) pos p.length = findTags s (pos + p.length) 0 := by
  intro p
  induction p with
  | nil => intro pos; rfl
  | cons c p ih => intro pos; simp only [List.cons_append, List.length_cons, findTags, ih]; congr 1; omega

theorem findTags_gap {g : Str} (hg : '`' ∉ g) (s : Str) : ∀ pos, findTags (g ++ s) pos 0 = findTags s (pos + g.length) 0 := by
  induction g with
  | nil => intro pos; rfl
  | cons c g ih =>
    intro pos
    simp only [List.mem_cons, not_or] at hg
    have : findTags (c :: (g ++ s)) pos 0 = findTags (g ++ s) (pos + 1) 0 := by
      rw [findTags]
      intro _ h1 _
      exact absurd h1.symm hg.1
    rw [List.cons_append, this, ih hg.2]; congr 1; simp; omega

theorem findTags_pairs : ∀ (tags : List TagPair), (∀ t ∈ tags, t.Ok) → ∀ pos,
    (findTags (tags.flatMap TagPair.markdown) pos 0).map (·.2) = tags.map fun t => '@' :: t.name := by
  intro tags
  induction tags with
  | nil => intro _ pos; rfl
  | cons t tags ih =>
    intro h pos
    obtain ⟨h1, h2, h3, h4, h5⟩ := h t (by simp)
    have htw : ∀ (n : Str) (r : Str), '`' ∉ n → (n ++ '`' :: r).takeWhile (· != '`') = n := by
      intro n r hn
      induction n with
      | nil => rfl
      | cons c n ih =>
        simp only [List.mem_cons, not_or] at hn
        have : (c != '`') = true := by simpa using fun e => hn.1 e.symm
        rw [List.cons_append, List.takeWhile_cons, if_pos this, ih hn.2]
    have e : findTags ((t :: tags).flatMap TagPair.markdown) pos 0 = (pos, '@' :: t.name) ::
        findTags ('@' :: (t.name ++ '`' :: (t.gap ++ tags.flatMap TagPair.markdown))) (pos + 1) (t.name.length + 2) := by
      simp only [List.flatMap_cons, TagPair.markdown, List.cons_append, List.append_assoc]
      conv => lhs; rw [findTags]
      have e0 : ∀ r, (t.name ++ '`' :: r).drop t.name.length = '`' :: r := fun r => List.drop_left
      simp only [htw _ _ h3, e0, List.head?_cons]
      rw [if_pos (by cases hn : t.name with | nil => exact absurd hn h1 | cons c cs => simp)]
    have e2 : findTags ('@' :: (t.name ++ '`' :: (t.gap ++ tags.flatMap TagPair.markdown))) (pos + 1) (t.name.length + 2) =
        findTags (tags.flatMap TagPair.markdown) (pos + 1 + (t.name.length + 2) + t.gap.length) 0 := by
      have := findTags_skip (t.gap ++ tags.flatMap TagPair.markdown) ('@' :: (t.name ++ ['`'])) (pos + 1)
      simp only [List.length_cons, List.length_append, List.length_nil, List.cons_append, List.append_assoc, List.nil_append] at this
      rw [this, findTags_gap h5]
    rw [e, e2, List.map_cons, ih fun x hx => h x (by simp [hx])]
    rfl

theorem tags_agree {d : Dialect} {mc : CState} {m : MdState} {l l' : Line} (hn : l.number = l'.number) (hname : mc.dialectName = m.dialectName)
    (h : TagLines l.text l'.text) : (∃ r, l'.trimmed = '`' :: '@' :: r) ∧ fits d l .tagLine = true ∧
    ∃ t, matchKind .tagLine (Token.fresh l') m = (.ok true, t, m) ∧ t.flat = (Classic.matchKind .tagLine (Token.fresh l) mc).2.1.flat := by
  obtain ⟨w, w', tags, hw, hw', hne, hok, e, e'⟩ := h
  obtain ⟨t0, ts, hts⟩ : ∃ c cs, tags = c :: cs := by
    cases tags with
    | nil => exact absurd rfl hne
    | cons c cs => exact ⟨c, cs, rfl⟩
  let src : TagPair → SrcTag := fun t => ⟨[], t.name, t.space⟩
  have hsrc : tags.flatMap TagPair.classic = (tags.map src).flatMap SrcTag.src := by
    rw [List.flatMap_map]; rfl
  have htext : l.text = w ++ (tags.map src).flatMap SrcTag.src ++ [] := by rw [e, hsrc]; simp
  obtain ⟨tc, h1, h2, h3⟩ := C13_tags_recognised w (tags.map src) [] l.number mc hw (by simpa using hne)
    (by intro t ht; obtain ⟨x, hx, rfl⟩ := List.mem_map.1 ht; exact ⟨rfl, (hok x hx).2.1, (hok x hx).2.2.2.1⟩) .nil
  rw [← htext] at h1
  change Classic.matchKind .tagLine (Token.fresh l) mc = _ at h1
  have ht' : l'.trimmed = tags.flatMap TagPair.markdown := by
    cases l' with | mk x num =>
    simp only at e'; subst e'
    refine trimmed_append hw' ?_
    rw [hts]; intro c hc; simp [TagPair.markdown] at hc; subst hc; decide
  have hl : (Token.fresh l').line = l' := rfl
  have hl0 : (Token.fresh l).line = l := rfl
  have hft := findTags_pairs tags hok 0
  rw [← ht'] at hft
  refine ⟨⟨_, by rw [ht', hts]; rfl⟩, ?_, ?_⟩
  · cases hf : fits d l .tagLine with
    | true => rfl
    | false =>
      change firstIs '@' l = false at hf
      rw [firstIs_iff] at hf
      simp [Classic.matchKind, Classic.matchTagLine, hl0, hf] at h1
  · have hemp : ((findTags l'.lineText 0 0).map fun (x : Nat × Str) => ({ column := l'.indent + x.1 + 2, text := x.2 } : MItem)).isEmpty = false := by
      rw [show l'.lineText = l'.trimmed from rfl]
      cases hx : findTags l'.trimmed 0 0 with
      | nil => rw [hx, hts] at hft; simp at hft
      | cons x xs => rfl
    refine ⟨setMatched m.dialectName (Token.fresh l') (some .tagLine) none none none none
      ((findTags l'.lineText 0 0).map fun (x : Nat × Str) => ({ column := l'.indent + x.1 + 2, text := x.2 } : MItem)), ?_, ?_⟩
    · simp only [matchKind, matchTagLine, hl]
      rw [if_neg (by rw [hemp]; simp)]
    · have hitems := h3
      simp only [Classic.matchKind, Classic.matchTagLine, hl0] at h1 ⊢
      split at h1
      · rename_i hs
        rw [if_pos hs]
        split at h1
        · rename_i its hits
          simp only [Prod.mk.injEq, true_and] at h1
          rw [← h1.1] at h3
          rw [hname]
          refine flat_set hn rfl rfl rfl ?_
          change its.map (·.text) = _ at h3
          rw [h3, List.map_map, List.map_map]
          rw [show l'.lineText = l'.trimmed from rfl]
          exact hft
        · simp at h1
      · simp at h1

theorem tags_agree_body {d : Dialect} {mc : CState} {m : MdState} {l l' : Line} (hp : Peer d mc m) (hn : l.number = l'.number)
    (h : TagLines l.text l'.text) : Agree d mc m l l' := by
  obtain ⟨⟨r, hr⟩, hf, hyes⟩ := tags_agree (d := d) hn hp.name h
  have hhd : l'.lineText.head? = some '`' := by rw [show l'.lineText = l'.trimmed from rfl, hr]; rfl
  refine agree_of hp (by decide) hf (blank_head hr) ?_ hyes
  intro k hk hne
  have : k ∈ titleKinds ∨ k = .comment ∨ k = .stepLine ∨ k = .tableRow ∨ k = .docStringSeparator := by revert hk hne; cases k <;> decide
  have hkf : k ≠ .featureLine := by rintro rfl; revert hk; decide
  rcases this with hkt | rfl | rfl | rfl | rfl
  · exact titles_no (by rw [hhd]; decide) hkt hkf
  · exact bar_no (by rw [hhd]; decide) (.inr rfl)
  · exact step_no (by intro c hc; rw [hhd] at hc; simp at hc; subst hc; decide)
  · exact bar_no (by rw [hhd]; decide) (.inl rfl)
  · refine sep_no hp.ma ?_
    unfold fenceOf
    rw [show lstrip l'.text = l'.trimmed from rfl, hr]
    simp

/-! ### Prose -/

theorem prose_agree {d : Dialect} {mc : CState} {m : MdState} {l l' : Line} (hp : Peer d mc m) (hn : l.number = l'.number) (hne : l'.isEof = false)
    (h : ProseLines d l.text l'.text) : Agree d mc m l l' := by
  obtain ⟨hw, hform, hfence, hbar⟩ := h
  have ht : l.trimmed = [] := by
    unfold Line.trimmed lstrip
    cases l with | mk x num =>
    have := lstripBy_append (p := isSpace) (w := x) (s := []) hw (by intro c hc; simp at hc)
    simpa using this
  have hf : fits d l .empty = true := isBlank_nil ht
  have hno : ∀ k ∈ calmKinds, Ans l' m k false := by
    have none_of : ∀ {ps kws suf}, ¬ (searchTitle ps kws suf).isSome = true → searchTitle ps kws suf = none := by
      intro ps kws suf h; cases hs : searchTitle ps kws suf with
      | none => rfl
      | some x => rw [hs] at h; simp at h
    have ho := Token.fresh_of l'
    intro k hk
    have : k = .tagLine ∨ k = .comment ∨ k = .stepLine ∨ k = .tableRow ∨ k = .docStringSeparator ∨ k = .scenarioLine ∨ k = .backgroundLine ∨
        k = .examplesLine ∨ k = .ruleLine := by revert hk; cases k <;> decide
    rcases this with rfl | rfl | rfl | rfl | rfl | rfl | rfl | rfl | rfl
    · exact tags_no (hform .tags)
    · exact bar_no hbar (.inr rfl)
    · refine ⟨Token.fresh l', ?_⟩
      simp only [matchKind, matchStep]
      exact title_no ho (none_of fun hs => hform .step (by rw [hp.md] at hs; exact item_sound hs))
    · exact bar_no hbar (.inl rfl)
    · exact sep_no hp.ma hfence
    · refine ⟨Token.fresh l', ?_⟩
      have s1 : searchTitle (headerPrefix l'.lineText) m.dialect.scenario [':'] = none := none_of fun hs => hform .scenario (by
        rw [hp.md] at hs
        obtain ⟨kw, pre, n, sp, rest, hk, more⟩ := heading_sound hs
        exact ⟨kw, pre, n, sp, rest, by simp [hk], more⟩)
      have s2 : searchTitle (headerPrefix l'.lineText) m.dialect.scenarioOutline [':'] = none := none_of fun hs => hform .scenario (by
        rw [hp.md] at hs
        obtain ⟨kw, pre, n, sp, rest, hk, more⟩ := heading_sound hs
        exact ⟨kw, pre, n, sp, rest, by simp [hk], more⟩)
      simp only [matchKind, matchScenario, title_no ho s1, title_no ho s2]
    · refine ⟨Token.fresh l', ?_⟩
      exact title_no ho (none_of fun hs => hform .background (by rw [hp.md] at hs; exact heading_sound hs))
    · refine ⟨Token.fresh l', ?_⟩
      exact title_no ho (none_of fun hs => hform .examples (by rw [hp.md] at hs; exact heading_sound hs))
    · refine ⟨Token.fresh l', ?_⟩
      exact title_no ho (none_of fun hs => hform .rule (by rw [hp.md] at hs; exact heading_sound hs))
  intro k hk
  rcases List.mem_cons.1 hk with rfl | hk
  · obtain ⟨t, h1, h2⟩ := empty_ans hp.feature hne (f := fun _ => false) hno
    have hb : (l'.isBlank || !calmKinds.any fun _ => false) = true := by simp
    rw [hb] at h1
    rw [hf]
    refine ⟨t, h1, fun _ => ?_⟩
    rw [h2 hb]
    have hbl : l.isBlank = true := by simp [Line.isBlank, ht]
    simp only [Classic.matchKind, Classic.matchEmpty, show (Token.fresh l).line = l from rfl, hbl, if_true]
    rw [hp.name]
    exact flat_set hn rfl rfl rfl rfl
  · rw [fits_ne hp.known hf (by simp) (calm_other (by simp [hk])) (by rintro rfl; revert hk; decide)]
    obtain ⟨t, h1⟩ := hno k hk
    exact ⟨t, h1, by simp⟩

theorem says_agree {d : Dialect} {mc : CState} {m : MdState} {l l' : Line} (hp : Peer d mc m) (hn : l.number = l'.number) (hlf : OneLf l'.text)
    (hne : l'.isEof = false) (hl : l.Sound) (h : SaysSame d l.text l'.text) : Agree d mc m l l' := by
  cases h with
  | title h =>
    obtain ⟨w, w', kw, rest, n, sp, hw, hw', hkw, more⟩ := h
    have : ∃ K ∈ titleKinds, K ≠ .featureLine ∧ kw ∈ d.titles K := by
      simp only [List.mem_append] at hkw
      rcases hkw with (((h | h) | h) | h) | h
      · exact ⟨.ruleLine, by decide, by decide, h⟩
      · exact ⟨.backgroundLine, by decide, by decide, h⟩
      · exact ⟨.scenarioLine, by decide, by decide, by simp [Dialect.titles, h]⟩
      · exact ⟨.scenarioLine, by decide, by decide, by simp [Dialect.titles, h]⟩
      · exact ⟨.examplesLine, by decide, by decide, h⟩
    obtain ⟨K, h1, h2, h3⟩ := this
    exact title_agree hp hn hlf h1 h2 ⟨w, w', kw, rest, n, sp, hw, hw', h3, more⟩
  | step h => exact step_agree hp hn hlf h
  | row h => exact row_agree hp hn hl h
  | tags h => exact tags_agree_body hp hn h
  | separator h => exact separator_agree hp hn h
  | prose h => exact prose_agree hp hn hne h

end Md

end Gherkin
