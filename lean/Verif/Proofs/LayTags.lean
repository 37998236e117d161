import Verif.Proofs.LayGo
import Verif.Proofs.ErrAll

/-! Pieces of runs: tag lines with the title after them, titles with descriptions. -/

namespace Gherkin

namespace Auto

open Layout (Ln place)

theorem sound_tag {d : Dialect} (hd : d.Known) {s : Str} {n : Nat} (hk : Layout.kind d s = .tagLine) (hb : ¬ BadTags s) : ∃ ts, Line.tags ⟨s, n⟩ = .ok ts := by
  have hf := lineKind_fits d ⟨s, n⟩
  have hk' : lineKind d ⟨s, n⟩ = .tagLine := hk
  rw [hk'] at hf
  simp only [fits, firstIs_iff] at hf
  cases h : Line.tags ⟨s, n⟩ with
  | ok ts => exact ⟨ts, rfl⟩
  | error x => exact absurd (badTags_of hf h).2 hb

theorem sound_row {d : Dialect} (hd : d.Known) {s : Str} {n : Nat} (hk : Layout.kind d s = .tableRow) (hb : ¬ BadRow s) : ∃ ts, Line.tableCells ⟨s, n⟩ = .ok ts := by
  have hf := lineKind_fits d ⟨s, n⟩
  have hk' : lineKind d ⟨s, n⟩ = .tableRow := hk
  rw [hk'] at hf
  simp only [fits, firstIs_iff] at hf
  cases h : Line.tableCells ⟨s, n⟩ with
  | ok ts => exact ⟨ts, rfl⟩
  | error x => exact absurd (badRow_of hf h).2 hb

/-- Only comments can be language headers. -/
theorem no_language {d : Dialect} (hd : d.Known) {s : Str} (h : Layout.kind d s ≠ .comment) : Classic.languageName (lstrip s) = none := by
  cases hn : Classic.languageName (lstrip s) with
  | none => rfl
  | some name =>
    exfalso
    apply h
    refine (noise_kinds hd).2 ?_
    show firstIs '#' ⟨s, 0⟩ = true
    rw [firstIs_iff]
    unfold Classic.languageName at hn
    split at hn
    · simp at hn
    · rename_i s1 h1
      unfold Classic.dropPre at h1
      split at h1
      · rename_i h2
        have e : lstrip (lstrip s) = lstrip s := lstrip_lstrip s
        rw [e] at h2
        exact h2
      · simp at h1

/-! ### Looking ahead -/

theorem expected_kind {m : CState} (hc : m.Calm) {l : Line} (hl : l.Sound) (la : LA) :
    (Classic.matchKind la.expected (Token.fresh l) m).1 = .ok (lineKind m.dialect l == la.expected) := by
  have hk : la.expected ≠ .language ∧ la.expected ≠ .eof ∧ la.expected ≠ .other := by cases la <;> simp [LA.expected]
  by_cases h : lineKind m.dialect l = la.expected
  · rw [h, beq_self_eq_true]
    exact match_true hc.active hk.1 hk.2.1 hl (by rw [← h]; exact lineKind_fits _ _)
  · rw [beq_eq_false_iff_ne.2 h]
    refine (match_fits hc.active hk.1 hk.2.1).2 ?_
    cases hf : fits m.dialect l la.expected with
    | false => rfl
    | true => exact absurd ((lineKind_iff hc.valid.known hk.2.2).2 hf) h

theorem peek_tag {m : CState} (hc : m.Calm) {s : Str} {n : Nat} (hk : Layout.kind m.dialect s = .tagLine) (hb : ¬ BadTags s) (hs : s ≠ []) (la : LA)
    (rest : List Line) : Pure.peek la m (⟨s, n⟩ :: rest) = Pure.peek la m rest := by
  obtain ⟨ts, ht⟩ := sound_tag (n := n) hc.valid.known hk hb
  have hk' : lineKind m.dialect ⟨s, n⟩ = .tagLine := hk
  have hl : Line.Sound ⟨s, n⟩ := sound_of hc.valid.known (fun _ => ⟨ts, ht⟩) (fun h => by rw [hk'] at h; simp at h)
  have h1 := expected_kind hc hl la
  rw [hk'] at h1
  have he : Line.isEof ⟨s, n⟩ = false := by simpa [Line.isEof] using hs
  have e : (Kind.tagLine == la.expected) = false := by cases la <;> rfl
  rw [e] at h1
  have hat : Line.startsWith ⟨s, n⟩ ['@'] = true := by
    have hf := lineKind_fits m.dialect ⟨s, n⟩
    rw [hk'] at hf
    simpa only [fits, firstIs_iff] using hf
  simp only [Pure.peek, he, h1, hat, ht]
  simp

theorem peek_title {m : CState} (hc : m.Calm) {s : Str} {n : Nat} {k : Kind} (hk : Layout.kind m.dialect s = k)
    (h1 : k ≠ .tagLine) (h2 : k ≠ .empty) (h3 : k ≠ .comment) (h4 : k ≠ .tableRow) (hs : s ≠ []) (la : LA)
    (rest : List Line) : Pure.peek la m (⟨s, n⟩ :: rest) = .ok (k == la.expected) := by
  have hk' : lineKind m.dialect ⟨s, n⟩ = k := hk
  have hd := hc.valid.known
  have hl : Line.Sound ⟨s, n⟩ := sound_plain hd hk' h1 h4
  have e1 := expected_kind hc hl la
  rw [hk'] at e1
  have he : Line.isEof ⟨s, n⟩ = false := by simpa [Line.isEof] using hs
  have no : ∀ k', k' ≠ .other → k ≠ k' → fits m.dialect ⟨s, n⟩ k' = false := by
    intro k' ho hne
    cases hf : fits m.dialect ⟨s, n⟩ k' with
    | false => rfl
    | true => exact absurd (hk'.symm.trans ((lineKind_iff hd ho).2 hf)) hne
  have n1 := no .empty (by simp) h2
  have n2 := no .comment (by simp) h3
  have n3 := no .tagLine (by simp) h1
  simp only [fits, isBlankLine_iff, firstIs_iff] at n1 n2 n3
  simp only [Pure.peek, he, e1, n1, n2, n3]
  cases k == la.expected <;> simp

theorem peek_noises {m : CState} (hc : m.Calm) (la : LA) : ∀ {ls : List Str} (hn : Layout.Noise ls) (hne : ∀ s ∈ ls, s ≠ []) (n : Nat) (rest : List Line),
    Pure.peek la m (linesFrom n ls ++ rest) = Pure.peek la m rest
  | [], _, _, _, _ => rfl
  | s :: ls, hn, hne, n, rest => by
    simp only [linesFrom, List.cons_append]
    rw [peek_noise hc.valid]
    · exact peek_noises hc la (fun x hx => hn x (by simp [hx])) (fun x hx => hne x (by simp [hx])) _ _
    · have := hn s (by simp)
      simp only [Line.isNoise, Bool.or_eq_true]
      exact this.imp (fun h => by rw [← isBlankLine_iff]; exact h) (fun h => by rw [← firstIs_iff]; exact h)
    · have := hne s (by simp)
      simpa [Line.isEof] using this

/-- What a look-ahead sees after tag lines: the title. -/
theorem peek_tags {m : CState} (hc : m.Calm) (la : LA) {s : Str} {k : Kind} (hk : Layout.kind m.dialect s = k)
    (h1 : k ≠ .tagLine) (h2 : k ≠ .empty) (h3 : k ≠ .comment) (h4 : k ≠ .tableRow) (rest : List Line) : ∀ {ts : List Ln},
    Layout.TagsOk m.dialect ts → (∀ x ∈ ts.flatMap Ln.texts ++ [s], x ≠ []) → ∀ n,
    Pure.peek la m (linesFrom n (ts.flatMap Ln.texts ++ [s]) ++ rest) = .ok (k == la.expected)
  | [], _, hne, n => by
    simp only [List.flatMap_nil, List.nil_append, linesFrom, List.cons_append]
    exact peek_title hc hk h1 h2 h3 h4 (hne s (by simp)) la rest
  | t :: ts, ht, hne, n => by
    simp only [List.flatMap_cons, Ln.texts, List.cons_append, linesFrom, List.append_assoc]
    have h := ht t (by simp)
    rw [peek_tag hc h.1.1 h.2 (hne _ (by simp [Ln.texts])), linesFrom_append, List.append_assoc,
      peek_noises hc la h.1.2 (fun x hx => hne x (by simp [Ln.texts, hx]))]
    refine peek_tags hc la hk h1 h2 h3 h4 rest (fun x hx => ht x (by simp [hx])) (fun x hx => hne x ?_) _
    simp only [List.flatMap_cons, List.mem_append] at hx ⊢
    exact hx.imp .inr id

/-! ### Tags and title -/

/-- The tokens of tag lines. -/
def tagToks (m : CState) (n : Nat) (ts : List Ln) : List Token := place (fun l => l.texts.length) (fun n l => tokOf m .tagLine l.text n) n ts

/-- All states of `S` take tag lines before a title of kind `k`, and get into `G`. -/
def leadsTag (S : List Nat) (k : Kind) (G : Nat) : Bool :=
  S.all fun q => goes q .tagLine (k == .scenarioLine) (k == .examplesLine) == some G

theorem tag_go {m : CState} (hc : m.Calm) {q : Nat} {p0 p1 : Bool} {G : Nat} (hq : goes q .tagLine p0 p1 = some G) {s : Str} {n : Nat}
    (hk : Layout.kind m.dialect s = .tagLine) (hb : ¬ BadTags s) (hs : s ≠ []) {rest : List Line}
    (hp0 : Pure.peek .la0 m rest = .ok p0) (hp1 : Pure.peek .la1 m rest = .ok p1) : Go q m [⟨s, n⟩] rest [tokOf m .tagLine s n] G m := by
  obtain ⟨hq1, tr, hq2, hq3⟩ := goes_some hq
  have hd := hc.valid.known
  obtain ⟨ts, ht⟩ := sound_tag (n := n) hd hk hb
  have hkl : lineKind m.dialect ⟨s, n⟩ = .tagLine := hk
  have hl : Line.Sound ⟨s, n⟩ := sound_of hd (fun _ => ⟨ts, ht⟩) (fun h => by rw [hkl] at h; simp at h)
  have he : Line.isEof ⟨s, n⟩ = false := by simpa [Line.isEof] using hs
  have hst := sel_step hq2 hc hq1 (l := ⟨s, n⟩) hkl (by simp) hl he (.inr (no_language hd (by rw [hk]; simp))) (rest := rest) (fun _ => ⟨hp0, hp1⟩)
  have hmt := match_true hc.active (l := ⟨s, n⟩) (k := .tagLine) (by simp) (by simp) hl (by rw [← hkl]; exact lineKind_fits _ _)
  have hms := Classic.matchKind_state (k := .tagLine) (by simp) (by simp) (Token.fresh ⟨s, n⟩) m
  rcases hx : Classic.matchKind .tagLine (Token.fresh ⟨s, n⟩) m with ⟨r, t, m1⟩
  rw [hx] at hst hmt hms
  simp only at hst hmt hms
  subst hmt hms
  have htt : tokOf m1 .tagLine s n = t := by simp [tokOf, hx]
  rw [htt, ← hq3]
  exact Go.core hst he (matched_type hx) (by simp) (by simp)

theorem Piece.titleLine {m : CState} (hc : m.Calm) {s : Str} {k : Kind} (hk : Layout.kind m.dialect s = k) (h1 : k ≠ .tagLine) (h2 : k ≠ .empty)
    (h3 : k ≠ .comment) (h4 : k ≠ .tableRow) (h5 : k ≠ .other) (h6 : k ≠ .docStringSeparator) {S S' : List Nat} (hS : leads S k S' = true) {n : Nat} :
    Piece m S n [s] [tokOf m k s n] S' := by
  have := Piece.line hc hk h5 h1 h6 (n := n) (sound_plain (l := ⟨s, n⟩) hc.valid.known hk h1 h4) hS (.inr (no_language hc.valid.known (by rw [hk]; exact h3)))
  rwa [if_neg (by simp [h2, h3])] at this

/-- Tag lines and a title. -/
theorem Piece.tagged {m : CState} (hc : m.Calm) {s : Str} {k : Kind} (hk : Layout.kind m.dialect s = k) (h1 : k ≠ .tagLine) (h2 : k ≠ .empty)
    (h3 : k ≠ .comment) (h4 : k ≠ .tableRow) (h5 : k ≠ .other) (h6 : k ≠ .docStringSeparator) {G : Nat} {S' : List Nat} (hG0 : 0 ≠ G)
    (hG : still [G] = true) (hG1 : leads [G] k S' = true) (hG2 : leadsTag [G] k G = true) : ∀ {ts : List Ln}, Layout.TagsOk m.dialect ts →
    ∀ {S : List Nat}, leads S k S' = true → leadsTag S k G = true → ∀ {n : Nat},
    Piece m S n (ts.flatMap Ln.texts ++ [s]) (tagToks m n ts ++ [tokOf m k s (n + (ts.flatMap Ln.texts).length)]) S'
  | [], _, S, hS, _, n => Piece.titleLine hc hk h1 h2 h3 h4 h5 h6 hS
  | t :: ts, ht, S, hS, hS2, n => by
    have hts : Layout.TagsOk m.dialect ts := fun x hx => ht x (by simp [hx])
    have h := ht t (by simp)
    have ih := Piece.tagged hc hk h1 h2 h3 h4 h5 h6 hG0 hG hG1 hG2 hts hG1 hG2 (n := n + 1 + t.after.length)
    have nz : Piece m [G] (n + 1) t.after [] [G] := Piece.noise hc hG h.1.2 (.inl (by simpa using hG0))
    have tail := nz.seq ih
    intro hne q hq
    simp only [List.flatMap_cons, Ln.texts, List.cons_append, List.append_assoc] at hne ⊢
    obtain ⟨G', e1, e2⟩ := tail (fun x hx => hne x (List.mem_cons_of_mem _ hx)) G (by simp)
    refine ⟨G', e1, fun rest => ?_⟩
    have hq1 : goes q .tagLine (k == .scenarioLine) (k == .examplesLine) = some G := by
      simp only [leadsTag, List.all_eq_true, beq_iff_eq] at hS2
      exact hS2 q hq
    have pk : ∀ la, Pure.peek la m (linesFrom (n + 1) (t.after ++ (ts.flatMap Ln.texts ++ [s])) ++ rest) = .ok (k == la.expected) := by
      intro la
      rw [linesFrom_append, List.append_assoc, peek_noises hc la h.1.2 (fun x hx => hne x (by simp [hx]))]
      exact peek_tags hc la hk h1 h2 h3 h4 rest hts (fun x hx => hne x (List.mem_cons_of_mem _ (List.mem_append_right _ hx))) _
    have g := (tag_go hc hq1 (n := n) h.1.1 h.2 (hne _ (by simp)) (pk .la0) (pk .la1)).trans (e2 rest)
    simp only [linesFrom]
    have e3 : n + 1 + t.after.length = n + (t.after.length + 1) := by omega
    have e4 : n + (t.after.length + 1) + (List.flatMap Ln.texts ts).length = n + (t.after ++ List.flatMap Ln.texts ts).length + 1 := by simp; omega
    simpa [tagToks, place, Ln.texts, e3, e4, Nat.add_assoc, Nat.add_comm 1] using g

end Auto

end Gherkin
