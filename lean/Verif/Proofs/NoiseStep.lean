import Verif.Proofs.Renum
import Verif.Proofs.Describe

/-! Blank lines and comments: how they are read. -/

namespace Gherkin

open Auto

/-- Blank or a comment. -/
def Line.isNoise (l : Line) : Bool := l.isBlank || l.startsWith ['#']

theorem noise_kind {l : Line} {d : Dialect} (hd : d.Known) : (l.isBlank = true → lineKind d l = .empty) ∧ (l.startsWith ['#'] = true → lineKind d l = .comment) := by
  constructor
  · intro h; rw [lineKind_iff hd (k := .empty) (by simp)]; simpa [fits, isBlankLine_iff] using h
  · intro h; rw [lineKind_iff hd (k := .comment) (by simp)]; simpa [fits, firstIs_iff] using h

theorem noise_title {l : Line} (hn : l.isNoise = true) {m : CState} (hm : m.Valid) (la : LA) :
    (Classic.matchKind la.expected (Token.fresh l) m).1 = .ok false := by
  have hd := hm.known
  have hk : lineKind m.dialect l = .empty ∨ lineKind m.dialect l = .comment := by
    simp only [Line.isNoise, Bool.or_eq_true] at hn
    exact hn.imp (noise_kind hd).1 (noise_kind hd).2
  have key : ∀ k, k ≠ .other → k ≠ .empty → k ≠ .comment → fits m.dialect l k = false := by
    intro k h0 h1 h2
    cases hf : fits m.dialect l k with
    | false => rfl
    | true =>
      have := (lineKind_iff hd h0).2 hf
      rw [this] at hk
      rcases hk with hk | hk
      · exact absurd hk h1
      · exact absurd hk h2
  have g : ∀ m0 : CState, m0.active = none → m0.dialect = m.dialect → (Classic.matchKind la.expected (Token.fresh l) m0).1 = .ok false := by
    intro m0 ha hdd
    rw [match_fits ha (by cases la <;> simp [LA.expected]) (by cases la <;> simp [LA.expected]), hdd]
    cases la <;> exact key _ (by simp [LA.expected]) (by simp [LA.expected]) (by simp [LA.expected])
  have := g { m with active := none } rfl rfl
  revert this
  cases la <;> simp only [LA.expected, Classic.matchKind, Classic.matchTitle] <;> split <;> simp

theorem peek_cons {la : LA} {m : CState} {l : Line} {r r' : List Line} (h : Pure.peek la m r = Pure.peek la m r') :
    Pure.peek la m (l :: r) = Pure.peek la m (l :: r') := by
  simp only [Pure.peek, h]

theorem peek_noise {la : LA} {m : CState} (hm : m.Valid) {l : Line} (hl : l.isNoise = true) (he : l.isEof = false) (r : List Line) :
    Pure.peek la m (l :: r) = Pure.peek la m r := by
  have h1 := noise_title hl hm la
  simp only [Line.isNoise] at hl
  simp only [Pure.peek, he, h1, hl]
  simp

theorem peek_insert {la : LA} {m : CState} (hm : m.Valid) {l : Line} (hl : l.isNoise = true) (he : l.isEof = false) {B B' : List Line}
    (hB : B.map (·.text) = B'.map (·.text)) (A : List Line) : Pure.peek la m (A ++ l :: B') = Pure.peek la m (A ++ B) := by
  induction A with
  | nil => rw [List.nil_append, peek_noise hm hl he]; exact (peek_renum la m hB).symm
  | cons a A ih => exact peek_cons ih

namespace Auto

/-- The title states. -/
def titles : List Nat := [3, 6, 12, 18, 23, 26, 32, 38]

/-- Where a blank line or comment leads. -/
def noiseTarget (q : Nat) (comment : Bool) : Nat :=
  if comment then (if titles.contains q then q + 2 else if titles.contains (q - 1) then q + 1 else q) else q

/-- Static facts: outside doc strings every state takes comments; blank lines too, except for the descriptions, which take them as other
lines; where both lead; no look-ahead. -/
def rowOkN (q : Nat) : Bool :=
  match table q with
  | some row => openStates.contains q ||
      ((row.trans.any fun tr => tr.kind == .comment) &&
       ((row.trans.any fun tr => tr.kind == .empty) || (row.trans.any fun tr => tr.kind == .other)) &&
       row.trans.all fun tr =>
        (tr.kind != .comment || (tr.la == none && tr.target == noiseTarget q true)) &&
        (tr.kind != .empty || (tr.la == none && tr.target == q)) &&
        (tr.kind != .other || tr.la == none) &&
        ((row.trans.any fun tr => tr.kind == .empty) || (tr.kind != .other || tr.target == q)))
  | none => true

theorem rows_okN : ∀ q ∈ allStates, rowOkN q = true := by decide +kernel

theorem first_split {α : Type} {p : α → Bool} : ∀ {xs : List α}, xs.any p = true → ∃ pre x post, xs = pre ++ x :: post ∧ p x = true ∧ ∀ y ∈ pre, p y = false
  | [], h => by simp at h
  | x :: xs, h => by
    by_cases hx : p x = true
    · exact ⟨[], x, xs, rfl, hx, by simp⟩
    · have hx' : p x = false := by simpa using hx
      simp only [List.any_cons, hx', Bool.false_or] at h
      obtain ⟨pre, y, post, rfl, h1, h2⟩ := first_split h
      refine ⟨x :: pre, y, post, rfl, h1, ?_⟩
      intro z hz
      rcases List.mem_cons.1 hz with rfl | hz
      · exact hx'
      · exact h2 z hz

/-- A line that is not of a kind is passed. -/
theorem passed_kind {q : Nat} {m : CState} (hi : Inv q m) (ha : m.active = none) {l : Line} (hne : l.isEof = false) {rest : List Line} {k : Kind}
    (hk : lineKind m.dialect l = k) (hh : q ≠ 0 ∨ Classic.languageName l.lineText = none) {x : Trans} (hx : RowFacts q x) (h1 : x.kind ≠ k) (h2 : x.kind ≠ .other) :
    Passed l rest m x := by
  by_cases hl : x.kind = .language
  · refine .inr (.inl ?_)
    rcases hh with hh | hh
    · exact absurd (hx.lang hl).1 hh
    · rw [hl]
      have : (Token.fresh l).line = l := rfl
      simp [Classic.matchKind, Classic.matchLanguage, this, hh]
  · by_cases he : x.kind = .eof
    · refine .inr (.inl ?_)
      rw [he]
      have : (Token.fresh l).eof = false := hne
      simp [Classic.matchKind, Classic.matchEof, this]
    · refine .inr (.inl ?_)
      rw [match_fits ha hl he]
      cases hf : fits m.dialect l x.kind with
      | false => rfl
      | true => exact absurd ((lineKind_iff hi.valid.known h2).2 hf |>.symm.trans hk) h1

/-- Reading a comment or blank line outside doc strings. -/
theorem noise_step {q : Nat} {m : CState} (hi : Inv q m) (hq : q ∉ openStates) {row : StateRow} (hrow : table q = some row) {l : Line}
    (hne : l.isEof = false) (hn : l.isNoise = true) (hh : q ≠ 0 ∨ Classic.languageName l.lineText = none) (rest : List Line) :
    ∃ tr t, step q l rest m = some (tr, t, m) ∧ tr.target = noiseTarget q (l.startsWith ['#']) ∧
      (tr.kind = .empty ∨ tr.kind = .comment ∨ tr.kind = .other) := by
  have ha : m.active = none := by
    apply Classical.byContradiction
    intro h; exact hq (hi.active.2 h)
  have hd := hi.valid.known
  have hN := rows_okN q (mem_allStates hrow)
  unfold rowOkN at hN
  rw [hrow] at hN
  have hq' : openStates.contains q = false := by simpa using hq
  simp only [hq', Bool.false_or, Bool.and_eq_true, List.all_eq_true] at hN
  obtain ⟨⟨hc, he⟩, hA⟩ := hN
  have facts := (row_facts hrow).2
  have hother : ∀ {pre post : List Trans} {x : Trans}, row.trans = pre ++ x :: post → ∀ y ∈ pre, y.kind ≠ .other := by
    intro pre post x hs y hy hk
    obtain ⟨p1, p2, rfl⟩ := List.append_of_mem hy
    have := other_last hrow (pre := p1) (tr := y) (post := p2 ++ x :: post) (by rw [hs]; simp) hk
    simp at this
  have sound : l.Sound := by
    have hk : lineKind m.dialect l = .empty ∨ lineKind m.dialect l = .comment := by
      simp only [Line.isNoise, Bool.or_eq_true] at hn
      exact hn.imp (noise_kind hd).1 (noise_kind hd).2
    constructor
    · intro h
      have := (lineKind_iff hd (l := l) (k := .tagLine) (by simp)).2 (by simpa [fits] using h)
      rw [this] at hk; simp at hk
    · intro h
      have := (lineKind_iff hd (l := l) (k := .tableRow) (by simp)).2 (by simpa [fits] using h)
      rw [this] at hk; simp at hk
  have done : ∀ k, (k = .empty ∨ k = .comment) → lineKind m.dialect l = k → (row.trans.any fun tr => tr.kind == k) = true →
      ∃ tr t, step q l rest m = some (tr, t, m) ∧ tr.kind = k ∧ tr ∈ row.trans := by
    intro k hk hl hany
    obtain ⟨pre, x, post, hs, hx, hpre⟩ := first_split hany
    have hx' : x.kind = k := by simpa using hx
    have hmem : x ∈ row.trans := by rw [hs]; simp
    have hmt := match_true ha (l := l) (k := k) (by rcases hk with rfl | rfl <;> simp) (by rcases hk with rfl | rfl <;> simp) sound (by rw [← hl]; exact lineKind_fits _ _)
    have hst : (Classic.matchKind k (Token.fresh l) m).2.2 = m :=
      Classic.matchKind_state (by rcases hk with rfl | rfl <;> simp) (by rcases hk with rfl | rfl <;> simp) _ _
    have hla : x.la = none := by
      have := hA x hmem
      rcases hk with rfl | rfl <;> simp [hx'] at this
      · exact this.1
      · exact this.1
    refine ⟨x, (Classic.matchKind k (Token.fresh l) m).2.1, step_make hrow hs ?_ ?_ (.inr hne) (by rw [hla]; simp), hx', hmem⟩
    · intro y hy
      exact passed_kind hi ha hne hl hh (facts y (by rw [hs]; simp [hy])) (by simpa using hpre y hy) (hother hs y hy)
    · rw [hx']; exact Prod.ext hmt (Prod.ext rfl hst)
  by_cases hcm : l.startsWith ['#'] = true
  · obtain ⟨tr, t, h1, h2, h3⟩ := done .comment (.inr rfl) ((noise_kind hd).2 hcm) hc
    refine ⟨tr, t, h1, ?_, .inr (.inl h2)⟩
    have := hA tr h3
    simp [h2] at this
    rw [hcm]; exact this.2
  · have hb : l.isBlank = true := by
      simp only [Line.isNoise, Bool.or_eq_true] at hn
      exact hn.resolve_right hcm
    have hcm' : l.startsWith ['#'] = false := by simpa using hcm
    by_cases hemp : (row.trans.any fun tr => tr.kind == .empty) = true
    · obtain ⟨tr, t, h1, h2, h3⟩ := done .empty (.inl rfl) ((noise_kind hd).1 hb) hemp
      refine ⟨tr, t, h1, ?_, .inl h2⟩
      have := hA tr h3
      simp [h2] at this
      rw [hcm']; exact this.2
    · have hemp' : (row.trans.any fun tr => tr.kind == .empty) = false := by simpa using hemp
      rw [hemp', Bool.false_or] at he
      obtain ⟨pre, x, post, hs, hx, hpre⟩ := first_split he
      have hx' : x.kind = .other := by simpa using hx
      have hmem : x ∈ row.trans := by rw [hs]; simp
      have := hA x hmem
      simp [hx', hemp'] at this
      refine ⟨x, (Classic.matchOther (Token.fresh l) m).2.1, step_make hrow hs ?_ ?_ (.inr hne) (by rw [this.1]; simp), ?_, .inr (.inr hx')⟩
      · intro y hy
        have hym : y ∈ row.trans := by rw [hs]; simp [hy]
        refine passed_kind hi ha hne ((noise_kind hd).1 hb) hh (facts y hym) ?_ (hother hs y hy)
        intro hk
        have : (row.trans.any fun tr => tr.kind == .empty) = true := List.any_eq_true.2 ⟨y, hym, by simp [hk]⟩
        rw [hemp'] at this; simp at this
      · rw [hx']; rfl
      · rw [hcm']; simpa [noiseTarget] using this.2

end Auto

end Gherkin
