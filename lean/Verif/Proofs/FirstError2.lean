import Verif.Proofs.FirstError
import Verif.Proofs.LayStepP

/-! Every beginning of a file without a syntax error can be completed. -/

namespace Gherkin

open Auto

/-- The states between tag lines and what they belong to. -/
def laStates : List Nat := [2, 11, 17, 22, 31, 37]

/-- What the tags of such a state have been seen to belong to. -/
def needLa (q : Nat) : Option LA := if q = 11 ∨ q = 31 then some .la0 else if q = 17 ∨ q = 37 then some .la1 else none

/-- The kinds of the lines look-aheads skip. -/
def skippedK (k : Kind) : Bool := k == .tagLine || k == .comment || k == .empty

def rowOkV (q : Nat) : Bool :=
  match table q with
  | some row => (row.trans.all fun tr =>
      (tr.kind != .tagLine || (laStates.contains tr.target && (tr.la == none || needLa tr.target == tr.la))) &&
      (!laStates.contains q || (tr.kind != .other && tr.kind != .language && (!skippedK tr.kind || (tr.target == q && tr.la == none)))) &&
      (needLa tr.target == none || (tr.kind == .tagLine && needLa tr.target == tr.la) || (tr.target == q && tr.la == none && skippedK tr.kind))) &&
      (match needLa q with | some la => row.trans.any fun tr => tr.kind == la.expected && tr.la == none | none => true)
  | none => true

theorem rows_okV : ∀ q ∈ allStates, rowOkV q = true := by decide +kernel

structure TagFacts (q : Nat) (row : StateRow) : Prop where
  tag : ∀ tr ∈ row.trans, tr.kind = .tagLine → tr.target ∈ laStates ∧ (tr.la = none ∨ needLa tr.target = tr.la)
  stay : q ∈ laStates → ∀ tr ∈ row.trans, tr.kind ≠ .other ∧ tr.kind ≠ .language ∧ (skippedK tr.kind = true → tr.target = q ∧ tr.la = none)
  come : ∀ tr ∈ row.trans, ∀ la, needLa tr.target = some la → (tr.kind = .tagLine ∧ tr.la = some la) ∨ (tr.target = q ∧ tr.la = none ∧ skippedK tr.kind = true)
  has : ∀ la, needLa q = some la → ∃ tr ∈ row.trans, tr.kind = la.expected ∧ tr.la = none

theorem tag_facts {q : Nat} {row : StateRow} (h : table q = some row) : TagFacts q row := by
  have hq := rows_okV q (mem_allStates h)
  unfold rowOkV at hq
  rw [h] at hq
  simp only [Bool.and_eq_true, List.all_eq_true] at hq
  obtain ⟨h1, h2⟩ := hq
  refine ⟨?_, ?_, ?_, ?_⟩
  · intro tr htr hk
    have := (h1 tr htr).1.1
    rw [hk] at this
    simpa using this
  · intro hq tr htr
    have := (h1 tr htr).1.2
    have hq' : laStates.contains q = true := by simpa using hq
    rw [hq'] at this
    simp only [Bool.not_true, Bool.false_or, Bool.and_eq_true, bne_iff_ne, ne_eq, Bool.or_eq_true, Bool.not_eq_true', beq_iff_eq] at this
    refine ⟨this.1.1, this.1.2, fun hs => ?_⟩
    rcases this.2 with h | h
    · rw [hs] at h; simp at h
    · exact h
  · intro tr htr la hn
    have := (h1 tr htr).2
    rw [hn] at this
    simp only [Bool.or_eq_true, Bool.and_eq_true, beq_iff_eq] at this
    rcases this with (h | h) | h
    · simp at h
    · exact .inl ⟨h.1, h.2.symm⟩
    · exact .inr ⟨h.1.1, h.1.2, h.2⟩
  · intro la hn
    rw [hn] at h2
    simpa using h2

/-! ### Look-aheads and skippedK lines -/

theorem skip_titleF {l : Line} (hs : l.isSkip = true) {m : CState} (hm : m.Valid) (la : LA) :
    (Classic.matchKind la.expected (Token.fresh l) m).1 = .ok false := by
  by_cases hn : l.isNoise = true
  · exact noise_title hn hm la
  · have ht : l.startsWith ['@'] = true := by
      simp only [Line.isSkip, Bool.or_eq_true] at hs
      simp only [Line.isNoise, Bool.or_eq_true] at hn
      exact hs.resolve_left hn
    have hd := hm.known
    have hk : lineKind m.dialect l = .tagLine := by
      rw [lineKind_iff hd (k := .tagLine) (by simp)]; simpa [fits, firstIs_iff] using ht
    have g : ∀ m0 : CState, m0.active = none → m0.dialect = m.dialect → (Classic.matchKind la.expected (Token.fresh l) m0).1 = .ok false := by
      intro m0 ha hdd
      rw [match_fits ha (by cases la <;> simp [LA.expected]) (by cases la <;> simp [LA.expected]), hdd]
      cases hf : fits m.dialect l la.expected with
      | false => rfl
      | true =>
        have := (lineKind_iff hd (by cases la <;> simp [LA.expected])).2 hf
        rw [hk] at this
        cases la <;> simp [LA.expected] at this
    have := g { m with active := none } rfl rfl
    revert this
    cases la <;> simp only [LA.expected, Classic.matchKind, Classic.matchTitle] <;> split <;> simp

/-- One skippedK line. -/
theorem peek_over {la : LA} {m : CState} (hm : m.Valid) {l : Line} (hs : l.isSkip = true) (he : l.isEof = false) {r : List Line} {v : Bool}
    (h : Pure.peek la m (l :: r) = .ok v) : Pure.peek la m r = .ok v ∧ ∀ r', Pure.peek la m (l :: r') = Pure.peek la m r' := by
  have ht := skip_titleF hs hm la
  have key : ∀ r', Pure.peek la m (l :: r') = Pure.peek la m r' := by
    intro r'
    refine peek_skip he ht ?_
    simp only [Line.isSkip, Bool.or_eq_true] at hs
    by_cases h1 : l.isBlank = true
    · exact .inl h1
    · by_cases h2 : l.startsWith ['#'] = true
      · exact .inr (.inl h2)
      · have h3 : l.startsWith ['@'] = true := hs.resolve_left (by simp [h1, h2])
        refine .inr (.inr ⟨h3, ?_⟩)
        cases hx : l.tags with
        | ok x => exact ⟨x, rfl⟩
        | error x =>
          rw [peek_crash he ht (by simpa using h1) (by simpa using h2) h3 hx] at h
          simp at h
  exact ⟨by rw [← key]; exact h, key⟩

theorem peek_overs {la : LA} {m : CState} (hm : m.Valid) : ∀ {b : List Line}, (∀ x ∈ b, x.isSkip = true ∧ x.isEof = false) → ∀ {r : List Line} {v : Bool},
    Pure.peek la m (b ++ r) = .ok v → Pure.peek la m r = .ok v ∧ ∀ r', Pure.peek la m (b ++ r') = Pure.peek la m r'
  | [], _, _, _, h => ⟨h, fun _ => rfl⟩
  | y :: b, hb, r, v, h => by
    obtain ⟨h1, h2⟩ := peek_over hm (hb y (by simp)).1 (hb y (by simp)).2 (r := b ++ r) h
    obtain ⟨h3, h4⟩ := peek_overs hm (b := b) (fun x hx => hb x (by simp [hx])) h1
    exact ⟨h3, fun r' => (h2 (b ++ r')).trans (h4 r')⟩

/-! ### Steps in tag states -/

theorem skip_lineKind {d : Dialect} (hd : d.Known) {l : Line} (hs : l.isSkip = true) : skippedK (lineKind d l) = true := by
  simp only [Line.isSkip, Bool.or_eq_true] at hs
  rcases hs with (h | h) | h
  · rw [(noise_kind hd).1 h]; rfl
  · rw [(noise_kind hd).2 h]; rfl
  · have : lineKind d l = .tagLine := by rw [lineKind_iff hd (k := .tagLine) (by simp)]; simpa [fits, firstIs_iff] using h
    rw [this]; rfl

theorem skipped_keeps {k : Kind} (hk : skippedK k = true) {l : Line} {m m' : CState} {t : Token}
    (h : Classic.matchKind k (Token.fresh l) m = (.ok true, t, m')) : m' = m ∧ l.isSkip = true := by
  revert h
  have hl : (Token.fresh l).line = l := rfl
  simp only [skippedK, Bool.or_eq_true, beq_iff_eq] at hk
  unfold Line.isSkip
  rcases hk with (rfl | rfl) | rfl
  · intro h
    refine ⟨tag_keeps h, ?_⟩
    revert h
    simp only [Classic.matchKind, Classic.matchTagLine, hl]
    split
    · rename_i h; simp [h]
    · simp
  · simp only [Classic.matchKind, Classic.matchComment, hl]
    split
    · rename_i h; intro h'; simp only [Prod.mk.injEq] at h'; exact ⟨h'.2.2.symm, by simp [h]⟩
    · simp
  · simp only [Classic.matchKind, Classic.matchEmpty, hl]
    split
    · rename_i h; intro h'; simp only [Prod.mk.injEq] at h'; exact ⟨h'.2.2.symm, by simp [h]⟩
    · simp

theorem tag_not_open : ∀ q ∈ laStates, q ∉ openStates ∧ q ≠ 0 := by decide

/-- Skipped lines change nothing in a tag state. -/
theorem stay_step {q : Nat} (hq : q ∈ laStates) {l : Line} (hs : l.isSkip = true) (he : l.isEof = false) {rest : List Line} {m m' : CState} {tr : Trans}
    {t : Token} (hi : Inv q m) (h : StepSpec q l rest m tr t m') : tr.target = q ∧ m' = m := by
  obtain ⟨hno, h0⟩ := tag_not_open q hq
  have ha : m.active = none := by
    cases hm : m.active with
    | none => rfl
    | some s => exact absurd (hi.active.2 (by rw [hm]; simp)) hno
  obtain ⟨row, pre, post, hrow, htr, _⟩ := h.row
  have hmem : tr ∈ row.trans := by rw [htr]; simp
  have hf := (tag_facts hrow).stay hq tr hmem
  rcases step_kind hi ha he h with ⟨h1, _⟩ | ⟨h1, _⟩ | ⟨h1, _⟩
  · exact absurd h1 hf.2.1
  · have hk : skippedK tr.kind = true := by rw [h1]; exact skip_lineKind hi.valid.known hs
    exact ⟨(hf.2.2 hk).1, (skipped_keeps hk h.matched).1⟩
  · exact absurd h1 hf.1

theorem stay_reach {suf : List Line} {q : Nat} {m : CState} {pre : List Line} {mv : List Move} {q' : Nat} {m' : CState}
    (h : Reach suf q m pre mv q' m') (hi : Inv q m) (hq : q ∈ laStates) (hs : ∀ x ∈ pre, x.isSkip = true) : q' = q ∧ m' = m := by
  induction h with
  | nil => exact ⟨rfl, rfl⟩
  | cons hst he _ ih =>
    have hsp := step_spec hst
    obtain ⟨h1, h2⟩ := stay_step hq (hs _ (by simp)) he hi hsp
    obtain ⟨h3, h4⟩ := ih (inv_step hi hsp) (by rw [h1]; exact hq) (fun x hx => hs x (by simp [hx]))
    exact ⟨h3.trans h1, h4.trans h2⟩

theorem reach_noEof {suf : List Line} {q : Nat} {m : CState} {pre : List Line} {mv : List Move} {q' : Nat} {m' : CState}
    (h : Reach suf q m pre mv q' m') : ∀ x ∈ pre, x.isEof = false := by
  induction h with
  | nil => simp
  | cons _ he _ ih =>
    intro x hx
    rcases List.mem_cons.1 hx with rfl | hx
    · exact he
    · exact ih x hx

/-- What the tags are for is still to come. -/
theorem need_reach {suf : List Line} {q : Nat} {m : CState} {pre : List Line} {mv : List Move} {q' : Nat} {m' : CState}
    (h : Reach suf q m pre mv q' m') (hi : Inv q m) (hn : ∀ la, needLa q = some la → Pure.peek la m (pre ++ suf) = .ok true) :
    ∀ la, needLa q' = some la → Pure.peek la m' suf = .ok true := by
  induction h with
  | nil => exact hn
  | @cons q m l pre tr t m1 mv q' m' hst he _ ih =>
    have hsp := step_spec hst
    refine ih (inv_step hi hsp) ?_
    intro la hla
    obtain ⟨row, p, post, hrow, htr, _⟩ := hsp.row
    have hmem : tr ∈ row.trans := by rw [htr]; simp
    rcases (tag_facts hrow).come tr hmem la hla with ⟨h1, h2⟩ | ⟨h1, h2, h3⟩
    · have := hsp.peek la h2
      have hm := hsp.matched
      rw [h1] at hm
      rw [tag_keeps hm]; exact this
    · obtain ⟨g1, g2⟩ := skipped_keeps h3 hsp.matched
      rw [h1] at hla
      rw [g1]
      exact (peek_over hi.valid g2 he (hn la hla)).1

/-- At a refused line no tags wait for what has been seen. -/
theorem no_need {q : Nat} {row : StateRow} (hrow : table q = some row) {m : CState} {l : Line} {rest : List Line}
    (hp : ∀ tr ∈ row.trans, Passed l rest m tr) (hn : ∀ la, needLa q = some la → Pure.peek la m (l :: rest) = .ok true) : needLa q = none := by
  cases hq : needLa q with
  | none => rfl
  | some la =>
    exfalso
    have h1 := hn la hq
    cases he : l.isEof with
    | true => simp [Pure.peek, he] at h1
    | false =>
      obtain ⟨tr, t1, t2, t3⟩ := (tag_facts hrow).has la hq
      have hf : (Classic.matchKind la.expected (Token.fresh l) m).1 = .ok false := by
        rcases hp tr t1 with ⟨_, h⟩ | h | ⟨la', h, _⟩
        · rw [he] at h; simp at h
        · rw [t2] at h; exact h
        · rw [t3] at h; simp at h
      rw [peek_stop he hf (error_line hrow hp he)] at h1
      simp at h1

/-! ### Other lines after the same beginning -/

theorem la_tag {q : Nat} {row : StateRow} (hrow : table q = some row) : ∀ x ∈ row.trans, ∀ la, x.la = some la → x.kind = .tagLine := by
  intro x hx la hxl
  have := (row_facts hrow).1
  simp only [laOnTags, List.all_eq_true, Bool.or_eq_true, beq_iff_eq] at this
  rcases this x hx with h | h
  · rw [h] at hxl; simp at hxl
  · exact h

/-- A step with other lines to come, for which the look-aheads that were made have the same answers. -/
theorem step_swap {q : Nat} {l : Line} {r r' : List Line} {m m' : CState} {tr : Trans} {t : Token} (h : StepSpec q l r m tr t m')
    (hf : ∀ row, table q = some row → ∀ x ∈ row.trans, ∀ la, x.la = some la → (Classic.matchKind .tagLine (Token.fresh l) m).1 = .ok true →
      Pure.peek la m r = .ok false → Pure.peek la m r' = .ok false)
    (ht : ∀ la, tr.la = some la → Pure.peek la m r' = .ok true) : step q l r' m = some (tr, t, m') := by
  obtain ⟨row, pre, post, hrow, htr, hpass⟩ := h.row
  refine step_make hrow htr ?_ h.matched h.eof ht
  intro x hx
  rcases hpass x hx with h1 | h1 | ⟨la, h1, h2, h3⟩
  · exact .inl h1
  · exact .inr (.inl h1)
  · have hmem : x ∈ row.trans := by rw [htr]; simp [hx]
    refine .inr (.inr ⟨la, h1, hf row hrow x hmem la h1 ?_ h2, h3⟩)
    rw [← la_tag hrow x hmem la h1]; exact h3

theorem la_states {row : StateRow} (h : table 0 = some row) : ∀ tr ∈ row.trans, tr.la = none := by
  have : table 0 = some state0 := rfl
  rw [this] at h
  cases h
  decide

/-- A run over the same lines with other lines to come. -/
theorem reach_swap {suf suf' : List Line} {q : Nat} {m : CState} {pre : List Line} {mv : List Move} {q' : Nat} {m' : CState}
    (h : Reach suf q m pre mv q' m') (hi : Inv q m)
    (H : q' ∈ laStates → needLa q' = none ∧ ∀ la, Pure.peek la m' suf' = .ok false) : Reach suf' q m pre mv q' m' := by
  induction h with
  | nil => exact .nil _ _
  | @cons q m l pre tr t m1 mv q' m' hst he hr ih =>
    have hsp := step_spec hst
    have hi1 := inv_step hi hsp
    refine .cons ?_ he (ih hi1 H)
    by_cases hb : ∃ x ∈ pre, x.isSkip = false
    · refine step_swap hsp ?_ ?_
      · intro _ _ _ _ la _ _ h; rw [← h]; exact peek_upto hb
      · intro la hla; rw [← hsp.peek la hla]; exact peek_upto hb
    · have hb' : ∀ x ∈ pre, x.isSkip = true ∧ x.isEof = false := by
        intro x hx
        refine ⟨?_, reach_noEof hr x hx⟩
        cases hs : x.isSkip with
        | true => rfl
        | false => exact absurd ⟨x, hx, hs⟩ hb
      obtain ⟨row, p, post, hrow, htr, hpass⟩ := hsp.row
      have hmem : tr ∈ row.trans := by rw [htr]; simp
      -- if the line is taken as a tag line, the look-aheads reach the end
      have tagged : tr.kind = .tagLine → needLa tr.target = none ∧ m1 = m ∧ ∀ la, Pure.peek la m suf' = .ok false := by
        intro hk
        have ht := ((tag_facts hrow).tag tr hmem hk).1
        obtain ⟨g1, g2⟩ := stay_reach hr hi1 ht (fun x hx => (hb' x hx).1)
        have hm : m1 = m := by
          have := hsp.matched
          rw [hk] at this
          exact tag_keeps this
        obtain ⟨k1, k2⟩ := H (by rw [g1]; exact ht)
        rw [g1] at k1
        rw [g2, hm] at k2
        exact ⟨k1, hm, k2⟩
      refine step_swap hsp ?_ ?_
      · intro row' hrow' x hx la hxl hmt hpf
        rw [hrow] at hrow'; cases hrow'
        have hxk := la_tag hrow x hx la hxl
        have hq0 : q ≠ 0 := by
          rintro rfl
          rw [la_states hrow x hx] at hxl; simp at hxl
        have hqo : q ∉ openStates := by
          intro ho
          rcases ((row_facts hrow).2 x hx).inside ho with h | ⟨h, _⟩ <;> rw [hxk] at h <;> simp at h
        have ha : m.active = none := by
          cases hma : m.active with
          | none => rfl
          | some s => exact absurd (hi.active.2 (by rw [hma]; simp)) hqo
        have hfit : fits m.dialect l .tagLine = true := by
          cases hf : fits m.dialect l .tagLine with
          | true => rfl
          | false =>
            rw [(match_fits ha (by simp) (by simp)).2 hf] at hmt; simp at hmt
        have hlk : lineKind m.dialect l = .tagLine := (lineKind_iff hi.valid.known (by simp)).2 hfit
        have hkt : tr.kind = .tagLine := by
          rcases step_kind hi ha he hsp with ⟨_, h, _⟩ | ⟨h, _⟩ | ⟨_, h⟩
          · exact absurd h hq0
          · rw [h, hlk]
          · rw [hlk] at h
            refine absurd ?_ h
            unfold kindsOf
            rw [hrow]
            exact List.mem_map.2 ⟨x, hx, hxk⟩
        obtain ⟨_, _, k⟩ := tagged hkt
        rw [(peek_overs hi.valid hb' hpf).2]
        exact k la
      · intro la hla
        have hkt := la_tag hrow tr hmem la hla
        obtain ⟨k1, _, _⟩ := tagged hkt
        rcases ((tag_facts hrow).tag tr hmem hkt).2 with h | h
        · rw [h] at hla; simp at hla
        · rw [k1, hla] at h; simp at h

end Gherkin
