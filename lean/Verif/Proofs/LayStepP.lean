import Verif.Proofs.LayCst

/-! Pieces of runs: tables, doc strings, steps. -/

namespace Gherkin

namespace Auto

open Layout (Ln place)

theorem tokOf_type {m : CState} (hc : m.Calm) {s : Str} {k : Kind} (hk : Layout.kind m.dialect s = k) {n : Nat} (hl : Line.Sound ⟨s, n⟩) :
    (tokOf m k s n).type = some k := by
  have hkl : lineKind m.dialect ⟨s, n⟩ = k := hk
  have hlang : k ≠ .language := by rw [← hk]; exact lineKind_language _ _
  have heof : k ≠ .eof := by rw [← hk]; exact lineKind_eof _ _
  have hmt := match_true hc.active (l := ⟨s, n⟩) (k := k) hlang heof hl (by rw [← hkl]; exact lineKind_fits _ _)
  rcases hx : Classic.matchKind k (Token.fresh ⟨s, n⟩) m with ⟨r, t, m1⟩
  rw [hx] at hmt
  simp only at hmt
  subst hmt
  simp only [tokOf, hx]
  exact matched_type hx

theorem tokOf_plain {m : CState} (hc : m.Calm) {s : Str} {k : Kind} (hk : Layout.kind m.dialect s = k) (h1 : k ≠ .tagLine) (h2 : k ≠ .tableRow) (n : Nat) :
    (tokOf m k s n).type = some k := tokOf_type hc hk (sound_plain (l := ⟨s, n⟩) hc.valid.known hk h1 h2)

theorem place_mem {α β : Type} {len : α → Nat} {f : Nat → α → β} : ∀ {xs : List α} {n : Nat} {y : β}, y ∈ place len f n xs → ∃ x ∈ xs, ∃ n, y = f n x
  | [], _, _, h => by simp [place] at h
  | x :: xs, n, y, h => by
    simp only [place, List.mem_cons] at h
    rcases h with rfl | h
    · exact ⟨x, by simp, n, rfl⟩
    · obtain ⟨z, h1, h2⟩ := place_mem h
      exact ⟨z, by simp [h1], h2⟩

theorem others_ok (m : CState) (n : Nat) (ls : List Str) : ∀ t ∈ others m n ls, t.type = some .other := by
  intro t ht
  obtain ⟨s, _, n', rfl⟩ := place_mem ht
  exact tokOf_other _ _ _

theorem tagToks_ok {m : CState} (hc : m.Calm) {ts : List Ln} (h : Layout.TagsOk m.dialect ts) (n : Nat) : Cst.TagsOk (tagToks m n ts) := by
  intro t ht
  obtain ⟨s, hs, n', rfl⟩ := place_mem ht
  have := h s hs
  obtain ⟨x, hx⟩ := sound_tag (n := n') hc.valid.known this.1.1 this.2
  exact tokOf_type hc this.1.1 (sound_of (l := ⟨s.text, n'⟩) hc.valid.known (fun _ => ⟨x, hx⟩) (fun h => by
    rw [show lineKind m.dialect ⟨s.text, n'⟩ = .tagLine from this.1.1] at h; simp at h))

theorem row_sound {m : CState} (hc : m.Calm) {r : Ln} (h : r.Ok m.dialect .tableRow ∧ ¬ BadRow r.text) (n : Nat) :
    Line.Sound ⟨r.text, n⟩ ∧ ∃ cs, Line.tableCells ⟨r.text, n⟩ = .ok cs ∧ (tokOf m .tableRow r.text n).items = cs := by
  obtain ⟨x, hx⟩ := sound_row (n := n) hc.valid.known h.1.1 h.2
  have hk : lineKind m.dialect ⟨r.text, n⟩ = .tableRow := h.1.1
  refine ⟨sound_of hc.valid.known (fun h => by rw [hk] at h; simp at h) (fun _ => ⟨x, hx⟩), x, hx, ?_⟩
  have hf := lineKind_fits m.dialect ⟨r.text, n⟩
  rw [hk] at hf
  simp only [fits, firstIs_iff] at hf
  have : (Token.fresh ⟨r.text, n⟩).line = ⟨r.text, n⟩ := rfl
  simp [tokOf, Classic.matchKind, Classic.matchTableRow, this, hf, hx, setMatched]

theorem rowToks_ok {m : CState} (hc : m.Calm) {rs : List Ln} (h : Layout.RowsOk m.dialect rs) (n : Nat) :
    (∀ t ∈ rowToks m n rs, t.type = some .tableRow) ∧ ∃ w, ∀ t ∈ rowToks m n rs, t.items.length = w := by
  obtain ⟨h1, w, h2⟩ := h
  refine ⟨fun t ht => ?_, w, fun t ht => ?_⟩
  · obtain ⟨r, hr, n', rfl⟩ := place_mem ht
    exact tokOf_type hc (h1 r hr).1.1 (row_sound hc (h1 r hr) n').1
  · obtain ⟨r, hr, n', rfl⟩ := place_mem ht
    obtain ⟨_, cs, e1, e2⟩ := row_sound hc (h1 r hr) n'
    rw [e2]
    exact h2 r hr cs e1

theorem rect_of {ts : List Token} {w : Nat} (h : ∀ t ∈ ts, t.items.length = w) : Cst.Rect ts := by
  cases ts with
  | nil => trivial
  | cons t ts => intro x hx; rw [h x (by simp [hx]), h t (by simp)]

/-- Table rows. -/
theorem Piece.rows {m : CState} (hc : m.Calm) {S R : List Nat} (hR : leads S .tableRow R = true)
    (hR2 : leads R .tableRow R = true) (hR3 : still R = true) (h0 : 0 ∉ S) (h0' : 0 ∉ R) {r : Ln} {rs : List Ln} (h : ∀ x ∈ r :: rs, x.Ok m.dialect .tableRow ∧ ¬ BadRow x.text) {n : Nat} :
    Piece m S n ((r :: rs).flatMap Ln.texts) (rowToks m n (r :: rs)) R := by
  have one : ∀ {S'} {x : Ln}, leads S' .tableRow R = true → 0 ∉ S' → x.Ok m.dialect .tableRow ∧ ¬ BadRow x.text → ∀ n,
      Piece m S' n x.texts [tokOf m .tableRow x.text n] R := by
    intro S' x hS' h0' hx n
    exact Piece.ln hc hx.1 (by simp) (by simp) (by simp) (by simp) (by simp) (row_sound hc hx n).1 hS' hR3 h0' (by assumption)
  have a := one hR h0 (h r (by simp)) n
  have b := Piece.flatMap (m := m) (S := R) (texts := Ln.texts) (f := fun n (l : Ln) => tokOf m .tableRow l.text n) (toks := fun t => [t]) (xs := rs)
    (n := n + r.texts.length) (fun x hx n => one hR2 h0' (h x (by simp [hx])) n)
  have := a.seq b
  simpa [rowToks, place] using this

/-! ### Doc strings -/

theorem open_row : ∀ q ∈ openStates, ∃ row ps ps', table q = some row ∧
    row.trans = [⟨.docStringSeparator, none, ps, q + 1⟩, ⟨.other, none, ps', q⟩] := by
  intro q hq
  simp only [openStates, List.mem_cons, List.not_mem_nil, or_false] at hq
  rcases hq with rfl | rfl | rfl | rfl <;> exact ⟨_, _, _, rfl, rfl⟩

theorem content_step {q : Nat} (hq : q ∈ openStates) {m : CState} {sep : Str} (ha : m.active = some sep) {s : Str} {n : Nat}
    (hs : Line.startsWith ⟨s, n⟩ sep = false) (hne : s ≠ []) (rest : List Line) :
    Go q m [⟨s, n⟩] rest [tokOf m .other s n] q m := by
  obtain ⟨row, ps, ps', h1, h2⟩ := open_row q hq
  have he : Line.isEof ⟨s, n⟩ = false := by simpa [Line.isEof] using hne
  have hst : step q ⟨s, n⟩ rest m = some (⟨.other, none, ps', q⟩, tokOf m .other s n, m) := by
    refine step_make h1 (pre := [⟨.docStringSeparator, none, ps, q + 1⟩]) (post := []) h2 ?_ (other_kind m s n) (.inr he) (by simp)
    intro x hx
    obtain rfl : x = _ := by simpa using hx
    refine .inr (.inl ?_)
    have : (Token.fresh ⟨s, n⟩).line = ⟨s, n⟩ := rfl
    simp [Classic.matchKind, Classic.matchDocSep, ha, Classic.matchSep, this, hs]
  exact Go.core hst he (tokOf_other _ _ _) (by simp) (by simp)

theorem contents_go {q : Nat} (hq : q ∈ openStates) {m : CState} {sep : Str} (ha : m.active = some sep) : ∀ {ls : List Str},
    (∀ s ∈ ls, Line.startsWith ⟨s, 0⟩ sep = false) → (∀ s ∈ ls, s ≠ []) → ∀ (n : Nat) (rest : List Line),
    Go q m (linesFrom n ls) rest (others m n ls) q m
  | [], _, _, n, rest => Go.nil q m rest
  | s :: ls, h, hne, n, rest => by
    exact (content_step hq ha (n := n) (h s (by simp)) (hne s (by simp)) _).trans
      (contents_go hq ha (fun x hx => h x (by simp [hx])) (fun x hx => hne x (by simp [hx])) (n + 1) rest)

theorem closing_step {q : Nat} (hq : q ∈ openStates) {m : CState} {sep : Str} (ha : m.active = some sep) {s : Str} {n : Nat}
    (hs : Line.startsWith ⟨s, n⟩ sep = true) (hne : s ≠ []) (rest : List Line) :
    Go q m [⟨s, n⟩] rest [tokOf m .docStringSeparator s n] (q + 1) { m with active := none, indentToRemove := 0 } ∧
    (tokOf m .docStringSeparator s n).type = some .docStringSeparator := by
  obtain ⟨row, ps, ps', h1, h2⟩ := open_row q hq
  have he : Line.isEof ⟨s, n⟩ = false := by simpa [Line.isEof] using hne
  have hm : Classic.matchKind .docStringSeparator (Token.fresh ⟨s, n⟩) m =
      (.ok true, tokOf m .docStringSeparator s n, { m with active := none, indentToRemove := 0 }) := by
    have : (Token.fresh ⟨s, n⟩).line = ⟨s, n⟩ := rfl
    simp [tokOf, Classic.matchKind, Classic.matchDocSep, ha, Classic.matchSep, this, hs]
  have ht := matched_type hm
  have hst : step q ⟨s, n⟩ rest m = some (⟨.docStringSeparator, none, ps, q + 1⟩, tokOf m .docStringSeparator s n, { m with active := none, indentToRemove := 0 }) :=
    step_make h1 (pre := []) (post := [⟨.other, none, ps', q⟩]) h2 (by simp) hm (.inr he) (by simp)
  exact ⟨Go.core hst he ht (by simp) (by simp), ht⟩

theorem delims : docDelimiters = [Classic.quotes, Classic.ticks] := rfl

/-- The line that opens a doc string. -/
theorem opening_step {q q' : Nat} (hq : leads [q] .docStringSeparator [q'] = true) (h0 : q ≠ 0) {m : CState} (hc : m.Calm) {sep : Str} (hsep : sep ∈ docDelimiters) {s : Str} {n : Nat}
    (hs : isDelim sep ⟨s, 0⟩ = true) (hne : s ≠ []) (rest : List Line) :
    Go q m [⟨s, n⟩] rest [tokOf m .docStringSeparator s n] q' (inside m s) ∧ (inside m s).active = some sep ∧
    { (inside m s) with active := none, indentToRemove := 0 } = m ∧
    (tokOf m .docStringSeparator s n).type = some .docStringSeparator ∧ (tokOf m .docStringSeparator s n).text.isSome = true := by
  have he : Line.isEof ⟨s, n⟩ = false := by simpa [Line.isEof] using hne
  have hd := hc.valid.known
  have hk : lineKind m.dialect ⟨s, n⟩ = .docStringSeparator := by
    refine (lineKind_iff hd (by simp)).2 ?_
    simp only [fits, List.any_eq_true]
    exact ⟨sep, hsep, hs⟩
  have hl : Line.Sound ⟨s, n⟩ := sound_plain hd hk (by simp) (by simp)
  obtain ⟨hq1, tr, hq2, hq3⟩ := leads_mem hq (q := q) (by simp)
  have hst := sel_step hq2 hc hq1 (l := ⟨s, n⟩) hk (by simp) hl he (.inl h0) (rest := rest) (by simp)
  have hmt := match_true hc.active (l := ⟨s, n⟩) (k := .docStringSeparator) (by simp) (by simp) hl (by rw [← hk]; exact lineKind_fits _ _)
  have e : (Classic.matchKind .docStringSeparator (Token.fresh ⟨s, n⟩) m).2.2 = inside m s := by
    have l1 : (Token.fresh ⟨s, n⟩).line = ⟨s, n⟩ := rfl
    have l2 : (Token.fresh ⟨s, 0⟩).line = ⟨s, 0⟩ := rfl
    simp only [inside, Classic.matchKind, Classic.matchDocSep, hc.active, l1, l2, Classic.matchSep, Line.startsWith, Line.trimmed, Line.indent]
    (repeat' split) <;> rfl
  rcases hx : Classic.matchKind .docStringSeparator (Token.fresh ⟨s, n⟩) m with ⟨r, t, m1⟩
  rw [hx] at hst hmt e
  simp only at hst hmt e
  subst hmt
  have htt : tokOf m .docStringSeparator s n = t := by simp [tokOf, hx]
  have ht := matched_type hx
  have hq4 : tr.target = q' := by simpa using hq3
  have gg := Go.core hst he ht (by simp) (by simp)
  rw [hq4] at gg
  rw [← e, htt]
  rcases docSep_cases (by rw [hc.active]; simp) hx with ⟨_, s', g1, g2, g3, g4⟩ | ⟨s', g1, _⟩
  · have hss : s' = sep := by
      rw [isDelim_eq] at hs
      have hs' : Line.startsWith ⟨s, n⟩ sep = true := hs
      rw [delims] at hsep
      simp only [List.mem_cons, List.not_mem_nil, or_false] at hsep
      have dis : ¬ (Line.startsWith ⟨s, n⟩ Classic.quotes = true ∧ Line.startsWith ⟨s, n⟩ Classic.ticks = true) := by
        rintro ⟨a, b⟩
        simp only [Line.startsWith, startsWith, Classic.quotes, Classic.ticks] at a b
        cases ht : Line.trimmed ⟨s, n⟩ with
        | nil => rw [ht] at a; simp at a
        | cons c cs =>
          rw [ht] at a b
          simp only [List.isPrefixOf_cons₂, Bool.and_eq_true, beq_iff_eq] at a b
          have := a.1.trans b.1.symm
          exact absurd this (by decide)
      rcases g1 with rfl | rfl <;> rcases hsep with rfl | rfl
      · rfl
      · exact absurd ⟨g2, hs'⟩ dis
      · exact absurd ⟨hs', g2⟩ dis
      · rfl
    refine ⟨gg, ?_, ?_, ht, ?_⟩
    · rw [g3, hss]
    · rw [g3]
      have a1 := hc.active; have a2 := hc.indent
      cases m; simp at a1 a2 ⊢; simp [a1, a2]
    · rw [g4]; rfl
  · rw [hc.active] at g1; simp at g1

/-! ### Steps -/

/-- The title state of a definition with steps, and the state inside its doc strings. -/
def slots : List (Nat × Nat) := [(6, 49), (26, 45), (12, 47), (32, 43)]

/-- The states of a definition with steps. -/
def slotStates (x : Nat × Nat) : List Nat := [x.1, x.1 + 1, x.1 + 2, x.1 + 3, x.1 + 4, x.2 + 1]

def slotOk (x : Nat × Nat) : Bool :=
  leads (slotStates x) .stepLine [x.1 + 3] && still [x.1 + 3] && leads [x.1 + 3] .tableRow [x.1 + 4] && leads [x.1 + 4] .tableRow [x.1 + 4] &&
  still [x.1 + 4] && leads [x.1 + 3] .docStringSeparator [x.2] && still [x.2 + 1] && x.1 != 0 && openStates.contains x.2

theorem slots_ok : ∀ x ∈ slots, slotOk x = true := by decide +kernel

theorem arg_ok {m : CState} (hc : m.Calm) {a : Layout.Arg} (h : a.Ok m.dialect) (hne : ∀ s ∈ a.texts, s ≠ []) (n : Nat) : (argCst m n a).Ok := by
  cases a with
  | none => trivial
  | table r rs =>
    have := rowToks_ok hc h n
    exact ⟨this.1, this.2.elim fun w hw => rect_of hw⟩
  | doc o ls c =>
    obtain ⟨sep, g1, g2, g3, g4, g5⟩ := h
    have a := opening_step (q := 9) (q' := 49) (by decide +kernel) (by simp) hc g1 (n := n) g2 (hne _ (by simp [Layout.Arg.texts])) []
    have b := closing_step (q := 49) (by decide +kernel) a.2.1 (s := c.text) (n := n + 1 + ls.length) g4
      (hne _ (by simp [Layout.Arg.texts, Ln.texts])) []
    exact ⟨a.2.2.2.1, a.2.2.2.2, others_ok _ _ _, b.2⟩

theorem Piece.arg {m : CState} (hc : m.Calm) {x : Nat × Nat} (hx : x ∈ slots) {a : Layout.Arg} (h : a.Ok m.dialect) {n : Nat} :
    Piece m [x.1 + 3] n a.texts (argCst m n a).toks (slotStates x) := by
  have ok := slots_ok x hx
  simp only [slotOk, Bool.and_eq_true, bne_iff_ne] at ok
  obtain ⟨⟨⟨⟨⟨⟨⟨⟨o1, o2⟩, o3⟩, o4⟩, o5⟩, o6⟩, o7⟩, o8⟩, o9⟩ := ok
  cases a with
  | none => exact Piece.nil.mono (fun _ h => h) (by simp [slotStates])
  | table r rs =>
    exact (Piece.rows hc o3 o4 o5 (by simp) (by simp) h.1).mono (fun _ h => h) (by simp [slotStates])
  | doc o ls c =>
    obtain ⟨sep, g1, g2, g3, g4, g5⟩ := h
    intro hne q hq
    obtain rfl : q = x.1 + 3 := by simpa using hq
    have hopen : x.2 ∈ openStates := by simpa using o9
    have nz := Piece.noise hc o7 g5 (.inl (by simp)) (n := n + 1 + ls.length + 1)
    obtain ⟨q', e1, e2⟩ := nz (fun s hs => hne s (by simp [Layout.Arg.texts, Ln.texts, hs])) (x.2 + 1) (by simp)
    obtain rfl : q' = x.2 + 1 := by simpa using e1
    refine ⟨x.2 + 1, by simp [slotStates], fun rest => ?_⟩
    have act := (opening_step o6 (by omega) hc g1 (n := n) g2 (hne _ (by simp [Layout.Arg.texts])) []).2.1
    have back := (opening_step o6 (by omega) hc g1 (n := n) g2 (hne _ (by simp [Layout.Arg.texts])) []).2.2.1
    have c1 := (closing_step hopen act (s := c.text) (n := n + 1 + ls.length) g4 (hne _ (by simp [Layout.Arg.texts, Ln.texts]))
      (linesFrom (n + 1 + ls.length + 1) c.after ++ rest)).1
    rw [back] at c1
    have c2 := c1.trans (e2 rest)
    have c3 := (contents_go hopen act (ls := ls) g3 (fun s hs => hne s (by simp [Layout.Arg.texts, hs])) (n + 1) _).trans c2
    have c4 := ((opening_step o6 (by omega) hc g1 (n := n) g2 (hne _ (by simp [Layout.Arg.texts])) _).1).trans c3
    simp only [Layout.Arg.texts, linesFrom, linesFrom_append, Ln.texts, argCst, Cst.Arg.toks]
    simpa using c4

theorem step_ok {m : CState} (hc : m.Calm) {s : Layout.Step} (h : s.Ok m.dialect) (hne : ∀ x ∈ s.texts, x ≠ []) (n : Nat) : (stepCst m n s).Ok :=
  ⟨tokOf_plain hc h.1.1 (by simp) (by simp) n, arg_ok hc h.2 (fun x hx => hne x (by simp [Layout.Step.texts, hx])) _⟩

theorem Piece.step {m : CState} (hc : m.Calm) {x : Nat × Nat} (hx : x ∈ slots) {s : Layout.Step} (h : s.Ok m.dialect) {n : Nat} :
    Piece m (slotStates x) n s.texts (stepCst m n s).toks (slotStates x) := by
  have ok := slots_ok x hx
  simp only [slotOk, Bool.and_eq_true, bne_iff_ne] at ok
  obtain ⟨⟨⟨⟨⟨⟨⟨⟨o1, o2⟩, o3⟩, o4⟩, o5⟩, o6⟩, o7⟩, o8⟩, o9⟩ := ok
  have a := Piece.ln hc h.1 (by simp) (by simp) (by simp) (by simp) (by simp) (n := n)
    (sound_plain (l := ⟨s.line.text, n⟩) hc.valid.known h.1.1 (by simp) (by simp)) o1 o2 (by simp [slotStates]; omega) (by simp)
  exact a.seq (Piece.arg hc hx h.2)

theorem Piece.steps {m : CState} (hc : m.Calm) {x : Nat × Nat} (hx : x ∈ slots) {ss : List Layout.Step} (h : ∀ s ∈ ss, s.Ok m.dialect) {n : Nat} :
    Piece m (slotStates x) n (ss.flatMap Layout.Step.texts) ((stepsCst m n ss).flatMap Cst.CStep.toks) (slotStates x) :=
  Piece.flatMap fun s hs _ => Piece.step hc hx (h s hs)

theorem steps_ok {m : CState} (hc : m.Calm) {ss : List Layout.Step} (h : ∀ s ∈ ss, s.Ok m.dialect) (hne : ∀ x ∈ ss.flatMap Layout.Step.texts, x ≠ []) (n : Nat) :
    ∀ s ∈ stepsCst m n ss, s.Ok := by
  intro s hs
  obtain ⟨y, hy, n', rfl⟩ := place_mem hs
  exact step_ok hc (h y hy) (fun x hx => hne x (List.mem_flatMap.2 ⟨y, hy, hx⟩)) n'

end Auto

end Gherkin
