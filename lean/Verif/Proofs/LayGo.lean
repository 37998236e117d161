import Verif.Proofs.LayStep

/-! Pieces of runs of the line automaton, put together. -/

namespace Gherkin

namespace Auto

/-- The significant tokens of moves. -/
def coreToks (mv : List Move) : List Token := (mv.map (·.tok)).filter Token.isCore

/-- The lines `ls`, followed by `rest`, lead from a state to another and give these significant tokens. -/
def Go (q : Nat) (m : CState) (ls rest : List Line) (toks : List Token) (q' : Nat) (m' : CState) : Prop :=
  ∀ mv2 q2 m2, Run q' m' rest mv2 q2 m2 → ∃ mv, Run q m (ls ++ rest) mv q2 m2 ∧ coreToks mv = toks ++ coreToks mv2

theorem Go.nil (q : Nat) (m : CState) (rest : List Line) : Go q m [] rest [] q m := fun mv2 _ _ h => ⟨mv2, h, rfl⟩

theorem Go.trans {q q1 q2 : Nat} {m m1 m2 : CState} {a b rest : List Line} {t u : List Token} (h1 : Go q m a (b ++ rest) t q1 m1)
    (h2 : Go q1 m1 b rest u q2 m2) : Go q m (a ++ b) rest (t ++ u) q2 m2 := by
  intro mv q3 m3 hr
  obtain ⟨mv2, e1, e2⟩ := h2 mv q3 m3 hr
  obtain ⟨mv1, e3, e4⟩ := h1 mv2 q3 m3 e1
  exact ⟨mv1, by rw [List.append_assoc]; exact e3, by rw [e4, e2, List.append_assoc]⟩

theorem Go.one {q : Nat} {m m' : CState} {l : Line} {rest : List Line} {tr : Trans} {t : Token} (hs : step q l rest m = some (tr, t, m'))
    (he : l.isEof = false) : Go q m [l] rest (if t.isCore then [t] else []) tr.target m' := by
  intro mv2 q2 m2 hr
  refine ⟨⟨q, tr, t⟩ :: mv2, .cons hs he hr, ?_⟩
  simp only [coreToks, List.map_cons, List.filter_cons]
  split <;> simp

theorem Go.core {q : Nat} {m m' : CState} {l : Line} {rest : List Line} {tr : Trans} {t : Token} (hs : step q l rest m = some (tr, t, m'))
    (he : l.isEof = false) {k : Kind} (ht : t.type = some k) (h1 : k ≠ .comment) (h2 : k ≠ .empty) : Go q m [l] rest [t] tr.target m' := by
  have := Go.one hs he
  rwa [core_kind ht h1 h2, if_pos rfl] at this

/-- From each state of `S` the lines lead to one of `S'`, whatever comes afterwards, and give these significant tokens. -/
def Piece (m : CState) (S : List Nat) (n : Nat) (texts : List Str) (toks : List Token) (S' : List Nat) : Prop :=
  (∀ s ∈ texts, s ≠ []) → ∀ q ∈ S, ∃ q' ∈ S', ∀ rest, Go q m (linesFrom n texts) rest toks q' m

theorem Piece.nil {m : CState} {S : List Nat} {n : Nat} : Piece m S n [] [] S := fun _ q hq => ⟨q, hq, fun rest => Go.nil q m rest⟩

theorem Piece.seq {m : CState} {S S1 S2 : List Nat} {n : Nat} {a b : List Str} {t u : List Token} (h1 : Piece m S n a t S1)
    (h2 : Piece m S1 (n + a.length) b u S2) : Piece m S n (a ++ b) (t ++ u) S2 := by
  intro hne q hq
  obtain ⟨q1, e1, e2⟩ := h1 (fun s hs => hne s (by simp [hs])) q hq
  obtain ⟨q2, e3, e4⟩ := h2 (fun s hs => hne s (by simp [hs])) q1 e1
  refine ⟨q2, e3, fun rest => ?_⟩
  rw [linesFrom_append]
  exact (e2 _).trans (e4 rest)

theorem Piece.mono {m : CState} {S S' S1 S1' : List Nat} {n : Nat} {a : List Str} {t : List Token} (h : Piece m S n a t S1)
    (h1 : ∀ q ∈ S', q ∈ S) (h2 : ∀ q ∈ S1, q ∈ S1') : Piece m S' n a t S1' := by
  intro hne q hq
  obtain ⟨q', e1, e2⟩ := h hne q (h1 q hq)
  exact ⟨q', h2 _ e1, e2⟩

open Layout (place)

theorem Piece.flatMap {m : CState} {S : List Nat} {α β : Type} {texts : α → List Str} {f : Nat → α → β} {toks : β → List Token} :
    ∀ {xs : List α} {n : Nat}, (∀ x ∈ xs, ∀ n, Piece m S n (texts x) (toks (f n x)) S) →
    Piece m S n (xs.flatMap texts) ((place (fun x => (texts x).length) f n xs).flatMap toks) S
  | [], n, _ => Piece.nil
  | x :: xs, n, h => by
    simp only [List.flatMap_cons, place]
    exact (h x (by simp) n).seq (Piece.flatMap fun y hy => h y (by simp [hy]))

/-- A first element from one set of states, the others from another. -/
theorem Piece.flatMap' {m : CState} {S0 S : List Nat} (h0 : ∀ q ∈ S, q ∈ S0) {α β : Type} {texts : α → List Str} {f : Nat → α → β}
    {toks : β → List Token} {xs : List α} {n : Nat} (h : ∀ x ∈ xs, ∀ n, Piece m S0 n (texts x) (toks (f n x)) S) :
    Piece m S0 n (xs.flatMap texts) ((place (fun x => (texts x).length) f n xs).flatMap toks) S0 :=
  Piece.flatMap fun x hx n => (h x hx n).mono (fun _ h => h) h0

/-- All states of `S` take lines of a kind, and get into `S'`. -/
def leads (S : List Nat) (k : Kind) (S' : List Nat) : Bool := S.all fun q => (goes q k false false).any fun x => S'.contains x

theorem goes_some {q : Nat} {k : Kind} {p0 p1 : Bool} {q' : Nat} (h : goes q k p0 p1 = some q') :
    q ∉ openStates ∧ ∃ tr, sel q k p0 p1 = some tr ∧ tr.target = q' := by
  unfold goes at h
  split at h
  · simp at h
  · rename_i hq
    exact ⟨hq, by simpa using h⟩

theorem leads_mem {S : List Nat} {k : Kind} {S' : List Nat} (h : leads S k S' = true) {q : Nat} (hq : q ∈ S) :
    q ∉ openStates ∧ ∃ tr, sel q k false false = some tr ∧ tr.target ∈ S' := by
  simp only [leads, List.all_eq_true] at h
  have := h q hq
  rw [Option.any_eq_true] at this
  obtain ⟨q', h1, h2⟩ := this
  obtain ⟨h3, tr, h4, h5⟩ := goes_some h1
  exact ⟨h3, tr, h4, by rw [h5]; simpa using h2⟩

/-- A line of a known kind. -/
theorem Piece.line {m : CState} (hc : m.Calm) {s : Str} {k : Kind} (hk : Layout.kind m.dialect s = k) (h1 : k ≠ .other) (h2 : k ≠ .tagLine)
    (h3 : k ≠ .docStringSeparator) {n : Nat} (hl : Line.Sound ⟨s, n⟩) {S S' : List Nat} (hS : leads S k S' = true)
    (h0 : 0 ∉ S ∨ Classic.languageName (lstrip s) = none) :
    Piece m S n [s] (if k = .comment ∨ k = .empty then [] else [tokOf m k s n]) S' := by
  intro hne q hq
  obtain ⟨hq1, tr, hq2, hq3⟩ := leads_mem hS hq
  refine ⟨tr.target, hq3, fun rest => ?_⟩
  have he : Line.isEof ⟨s, n⟩ = false := by
    have := hne s (by simp)
    simpa [Line.isEof] using this
  have hkl : lineKind m.dialect ⟨s, n⟩ = k := hk
  have hst := sel_step hq2 hc hq1 (l := ⟨s, n⟩) hkl h1 hl he (h0.imp (fun h e => h (e ▸ hq)) id) (rest := rest) (fun h => absurd h h2)
  have hlang : k ≠ .language := by rw [← hk]; exact lineKind_language _ _
  have heof : k ≠ .eof := by rw [← hk]; exact lineKind_eof _ _
  have hmt := match_true hc.active (l := ⟨s, n⟩) (k := k) hlang heof hl (by rw [← hkl]; exact lineKind_fits _ _)
  have hms := Classic.matchKind_state hlang h3 (Token.fresh ⟨s, n⟩) m
  rcases hx : Classic.matchKind k (Token.fresh ⟨s, n⟩) m with ⟨r, t, m1⟩
  rw [hx] at hst hmt hms
  simp only at hst hmt hms
  subst hmt hms
  have ht := matched_type hx
  have htt : tokOf m1 k s n = t := by simp [tokOf, hx]
  have := Go.one hst he
  simp only [linesFrom]
  rw [htt]
  rw [isCore_kind ht] at this
  have e : (k != .comment && k != .empty) = true ↔ ¬ (k = .comment ∨ k = .empty) := by simp
  by_cases hcore : k = .comment ∨ k = .empty
  · rw [if_pos hcore]; rwa [if_neg (by rw [e]; exact not_not_intro hcore)] at this
  · rw [if_neg hcore]; rwa [if_pos (e.2 hcore)] at this

theorem sound_of {d : Dialect} (hd : d.Known) {l : Line} (h1 : lineKind d l = .tagLine → ∃ ts, l.tags = .ok ts)
    (h2 : lineKind d l = .tableRow → ∃ cs, l.tableCells = .ok cs) : l.Sound := by
  constructor
  · intro h
    exact h1 ((lineKind_iff hd (by simp)).2 (by simpa [fits] using h))
  · intro h
    exact h2 ((lineKind_iff hd (by simp)).2 (by simpa [fits] using h))

theorem sound_plain {d : Dialect} (hd : d.Known) {l : Line} {k : Kind} (hk : lineKind d l = k) (h1 : k ≠ .tagLine) (h2 : k ≠ .tableRow) : l.Sound :=
  sound_of hd (fun h => absurd (hk.symm.trans h) h1) (fun h => absurd (hk.symm.trans h) h2)

theorem noise_kinds {d : Dialect} (hd : d.Known) {s : Str} : (Layout.Blank s → Layout.kind d s = .empty) ∧ (Layout.Hash s → Layout.kind d s = .comment) := by
  have := noise_kind (l := ⟨s, 0⟩) hd
  refine ⟨fun h => this.1 (by rw [← isBlankLine_iff]; exact h), fun h => this.2 (by rw [← firstIs_iff]; exact h)⟩

theorem Piece.blank {m : CState} (hc : m.Calm) {s : Str} (hs : Layout.Blank s) {S S' : List Nat} (hS : leads S .empty S' = true)
    (h0 : 0 ∉ S ∨ Classic.languageName (lstrip s) = none) {n : Nat} : Piece m S n [s] [] S' := by
  have hk := (noise_kinds hc.valid.known).1 hs
  exact Piece.line hc hk (by simp) (by simp) (by simp) (sound_plain (l := ⟨s, n⟩) hc.valid.known hk (by simp) (by simp)) hS h0

theorem Piece.comment {m : CState} (hc : m.Calm) {s : Str} (hs : Layout.Hash s) {S S' : List Nat} (hS : leads S .comment S' = true)
    (h0 : 0 ∉ S ∨ Classic.languageName (lstrip s) = none) {n : Nat} : Piece m S n [s] [] S' := by
  have hk := (noise_kinds hc.valid.known).2 hs
  exact Piece.line hc hk (by simp) (by simp) (by simp) (sound_plain (l := ⟨s, n⟩) hc.valid.known hk (by simp) (by simp)) hS h0

/-- The set of states does not change by blank lines and comments. -/
def still (S : List Nat) : Bool := leads S .empty S && leads S .comment S

/-- Blank lines and comments. -/
theorem Piece.noise {m : CState} (hc : m.Calm) {S : List Nat} (hS : still S = true) : ∀ {ls : List Str}, Layout.Noise ls →
    (0 ∉ S ∨ ∀ s ∈ ls, Classic.languageName (lstrip s) = none) → ∀ {n : Nat}, Piece m S n ls [] S
  | [], _, _, _ => Piece.nil
  | s :: ls, hn, h0, n => by
    simp only [still, Bool.and_eq_true] at hS
    have h1 : Piece m S n [s] [] S := by
      rcases hn s (by simp) with h | h
      · exact .blank hc h hS.1 (h0.imp id fun h => h s (by simp))
      · exact .comment hc h hS.2 (h0.imp id fun h => h s (by simp))
    exact h1.seq (Piece.noise hc (by simp [still, hS]) (fun x hx => hn x (by simp [hx])) (h0.imp id fun h x hx => h x (by simp [hx])))

theorem Piece.blanks {m : CState} (hc : m.Calm) {S : List Nat} (hS : leads S .empty S = true) : ∀ {ls : List Str}, (∀ s ∈ ls, Layout.Blank s) →
    0 ∉ S → ∀ {n : Nat}, Piece m S n ls [] S
  | [], _, _, _ => Piece.nil
  | s :: ls, hn, h0, n => by
    have h1 : Piece m S n [s] [] S := .blank hc (hn s (by simp)) hS (.inl h0)
    exact h1.seq (Piece.blanks hc hS (fun x hx => hn x (by simp [hx])) h0)

/-- A line with the blank lines and comments after it. -/
theorem Piece.ln {m : CState} (hc : m.Calm) {x : Layout.Ln} {k : Kind} (hk : x.Ok m.dialect k) (h1 : k ≠ .other) (h2 : k ≠ .tagLine)
    (h3 : k ≠ .docStringSeparator) (h4 : k ≠ .comment) (h5 : k ≠ .empty) {n : Nat} (hl : Line.Sound ⟨x.text, n⟩) {S S' : List Nat}
    (hS : leads S k S' = true) (hS' : still S' = true) (h0 : 0 ∉ S) (h0' : 0 ∉ S') : Piece m S n x.texts [tokOf m k x.text n] S' := by
  have a := Piece.line hc hk.1 h1 h2 h3 hl hS (.inl h0)
  rw [if_neg (by simp [h4, h5])] at a
  exact a.seq (Piece.noise hc hS' hk.2 (.inl h0'))

end Auto

end Gherkin
