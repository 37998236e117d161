import Verif.Proofs.NoiseStep

/-! Runs over texts that differ by a blank line or a comment. -/

namespace Gherkin

open Auto

/-- The tokens without those of descriptions. The flag says whether we are inside a doc string. -/
def scan : Bool → List Token → List Token
  | _, [] => []
  | o, t :: ts =>
    if t.type = some .docStringSeparator then t :: scan (!o) ts
    else if t.type = some .other ∧ o = false then scan o ts
    else t :: scan o ts

/-- What a run says about the document, descriptions and places apart. -/
def essence (o : Bool) (mv : List Move) : List Token := (scan o ((mv.map (·.tok)).filter Token.isCore)).map Token.erase

theorem scan_erase : ∀ (o : Bool) (ts : List Token), (scan o ts).map Token.erase = scan o (ts.map Token.erase)
  | _, [] => rfl
  | o, t :: ts => by
    by_cases h1 : t.type = some .docStringSeparator
    · have h1' : t.erase.type = some .docStringSeparator := h1
      simp only [List.map_cons, scan, if_pos h1, if_pos h1', scan_erase]
    · have h1' : ¬ t.erase.type = some .docStringSeparator := h1
      by_cases h2 : t.type = some .other ∧ o = false
      · have h2' : t.erase.type = some .other ∧ o = false := h2
        simp only [List.map_cons, scan, if_neg h1, if_pos h2, if_neg h1', if_pos h2', scan_erase]
      · have h2' : ¬ (t.erase.type = some .other ∧ o = false) := h2
        simp only [List.map_cons, scan, if_neg h1, if_neg h2, if_neg h1', if_neg h2', scan_erase]

theorem core_erase (ts : List Token) : (ts.filter Token.isCore).map Token.erase = (ts.map Token.erase).filter Token.isCore := by
  induction ts with
  | nil => rfl
  | cons t ts ih =>
    by_cases h : t.isCore = true
    · have h' : t.erase.isCore = true := h
      simp only [List.map_cons, List.filter_cons, if_pos h, if_pos h', ih]
    · have h' : ¬ t.erase.isCore = true := h
      simp only [List.map_cons, List.filter_cons, if_neg h, if_neg h', ih]

theorem essence_eq (o : Bool) (mv : List Move) : essence o mv = scan o ((mv.map fun x => x.tok.erase).filter Token.isCore) := by
  rw [essence, scan_erase, core_erase, List.map_map]; rfl

theorem alike_erase {mv mv' : List Move} (h : List.Forall₂ Alike mv mv') : (mv'.map fun x => x.tok.erase) = mv.map fun x => x.tok.erase := by
  induction h with
  | nil => rfl
  | cons h _ ih => simp [h.tok, ih]

theorem essence_alike {o : Bool} {mv mv' : List Move} (h : List.Forall₂ Alike mv mv') : essence o mv' = essence o mv := by
  rw [essence_eq, essence_eq, alike_erase h]

theorem essence_skip {mv : List Move} {x : Move} {k : Kind} (h : x.tok.type = some k) (hk : k = .empty ∨ k = .comment ∨ k = .other) :
    essence false (x :: mv) = essence false mv := by
  simp only [essence, List.map_cons, List.filter_cons]
  rcases hk with rfl | rfl | rfl
  · rw [isCore_kind h]; rfl
  · rw [isCore_kind h]; rfl
  · rw [isCore_kind h]
    simp [scan, h]

/-- The flag after a token. -/
def flagAfter (o : Bool) (t : Token) : Bool := if t.type = some .docStringSeparator then !o else o

theorem essence_cons {o : Bool} {mv : List Move} {x : Move} : ∃ pre : List Token, ∀ mv, essence o (x :: mv) = pre ++ essence (flagAfter o x.tok) mv := by
  have := mv
  by_cases hc : x.tok.isCore = true
  · by_cases h1 : x.tok.type = some .docStringSeparator
    · exact ⟨[x.tok.erase], fun mv => by simp [essence, hc, scan, h1, flagAfter]⟩
    · by_cases h2 : x.tok.type = some .other ∧ o = false
      · exact ⟨[], fun mv => by simp [essence, hc, scan, h2.1, h2.2, flagAfter]⟩
      · exact ⟨[x.tok.erase], fun mv => by
          simp only [essence, List.map_cons, List.filter_cons, hc, if_true, scan, if_neg h1, if_neg h2, flagAfter]; rfl⟩
  · refine ⟨[], fun mv => ?_⟩
    have h1 : x.tok.type ≠ some .docStringSeparator := by
      intro h; rw [isCore_kind h] at hc; simp at hc
    simp [essence, hc, flagAfter, h1]

/-- Equal continuations. -/
theorem essence_append {o o' : Bool} {mvA : List Move} (ho : o' = (mvA.map (·.tok)).foldl flagAfter o) {mv mv' : List Move}
    (h : essence o' mv = essence o' mv') : essence o (mvA ++ mv) = essence o (mvA ++ mv') := by
  induction mvA generalizing o with
  | nil => simp only [List.map_nil, List.foldl_nil] at ho; subst ho; exact h
  | cons x mvA ih =>
    obtain ⟨pre, hp⟩ := essence_cons (o := o) (mv := mv) (x := x)
    simp only [List.cons_append]
    rw [hp, hp, ih (by simpa using ho)]

namespace Auto

/-- The flag of `scan` says whether the state is inside a doc string. -/
theorem flag_step {q : Nat} {tr : Trans} {t : Token} (hf : RowFacts q tr) (ht : t.type = some tr.kind) {o : Bool} (ho : o = true ↔ q ∈ openStates) :
    flagAfter o t = true ↔ tr.target ∈ openStates := by
  unfold flagAfter
  by_cases hk : tr.kind = .docStringSeparator
  · rw [if_pos (by rw [ht, hk]), hf.sep hk, ← ho]; cases o <;> simp
  · rw [if_neg (by rw [ht]; simpa using hk), hf.keep hk, ← ho]

/-- What identifies a transition for a line. -/
def Trans.key (tr : Trans) : Kind × Option LA × Nat := (tr.kind, tr.la, tr.target)

/-- Not for blank lines, comments, other lines. -/
def Trans.core (tr : Trans) : Bool := tr.kind != .empty && tr.kind != .comment && tr.kind != .other

def coreKeys (q : Nat) : List (Kind × Option LA × Nat) :=
  match table q with
  | some row => (row.trans.filter Trans.core).map Trans.key
  | none => []

def rowOkS (T : Nat) : Bool :=
  [T, T + 1, T + 2].all fun a => (table a).isSome && a != 0 && !openStates.contains a && noiseTarget a true == T + 2 &&
    coreKeys a == coreKeys T

theorem rows_okS : ∀ T ∈ titles, rowOkS T = true := by decide +kernel

theorem key_split {p : Trans → Bool} : ∀ {xs ys pre : List Trans} {tr : Trans} {post : List Trans},
    (ys.filter p).map Trans.key = (xs.filter p).map Trans.key → xs = pre ++ tr :: post → p tr = true →
    ∃ pre2 tr2 post2, ys = pre2 ++ tr2 :: post2 ∧ Trans.key tr2 = Trans.key tr ∧ p tr2 = true ∧
      ∀ x ∈ pre2, p x = false ∨ ∃ y ∈ pre, Trans.key y = Trans.key x := by
  intro xs ys
  induction ys generalizing xs with
  | nil =>
    intro pre tr post h hs hp
    subst hs
    simp [hp] at h
  | cons y ys ih =>
    intro pre tr post h hs hp
    by_cases hy : p y = true
    · -- the first core element of xs has the key of y
      rw [List.filter_cons_of_pos hy, List.map_cons] at h
      subst hs
      rw [List.filter_append, List.map_append] at h
      cases hf : pre.filter p with
      | nil =>
        rw [hf, List.filter_cons_of_pos hp] at h
        simp only [List.map_nil, List.nil_append, List.map_cons, List.cons.injEq] at h
        exact ⟨[], y, ys, rfl, h.1, hy, by simp⟩
      | cons z zs =>
        rw [hf] at h
        simp only [List.map_cons, List.cons_append, List.cons.injEq] at h
        obtain ⟨pre2, tr2, post2, h1, h2, h3, h4⟩ := ih (xs := zs ++ tr :: post) (pre := zs) (tr := tr) (post := post)
          (by rw [h.2, List.filter_append, List.map_append]
              have : zs.filter p = zs := by
                have hz : ∀ w ∈ zs, p w = true := by
                  intro w hw
                  have : w ∈ pre.filter p := by rw [hf]; simp [hw]
                  exact (List.mem_filter.1 this).2
                exact List.filter_eq_self.2 hz
              rw [this]) rfl hp
        refine ⟨y :: pre2, tr2, post2, by rw [h1]; rfl, h2, h3, ?_⟩
        have hzm : ∀ w ∈ z :: zs, w ∈ pre := by
          intro w hw
          have : w ∈ pre.filter p := by rw [hf]; exact hw
          exact (List.mem_filter.1 this).1
        intro x hx
        rcases List.mem_cons.1 hx with rfl | hx
        · exact .inr ⟨z, hzm z (by simp), h.1.symm⟩
        · rcases h4 x hx with h5 | ⟨w, hw, h5⟩
          · exact .inl h5
          · exact .inr ⟨w, hzm w (by simp [hw]), h5⟩
    · have hy' : p y = false := by simpa using hy
      rw [List.filter_cons_of_neg hy] at h
      obtain ⟨pre2, tr2, post2, h1, h2, h3, h4⟩ := ih h hs hp
      refine ⟨y :: pre2, tr2, post2, by rw [h1]; rfl, h2, h3, ?_⟩
      intro x hx
      rcases List.mem_cons.1 hx with rfl | hx
      · exact .inl hy'
      · exact h4 x hx

theorem passed_key {l : Line} {rest : List Line} {m : CState} {x y : Trans} (h : Trans.key y = Trans.key x) (hp : Passed l rest m y) : Passed l rest m x := by
  simp only [Trans.key, Prod.mk.injEq] at h
  unfold Passed at hp ⊢
  rw [h.1, h.2.1] at hp
  exact hp

/-- A run in the title or description state of a part and one in its comment state. -/
structure Near (T a : Nat) : Prop where
  title : T ∈ titles
  mem : a = T ∨ a = T + 1 ∨ a = T + 2

theorem Near.facts {T a : Nat} (h : Near T a) : (table a).isSome = true ∧ a ≠ 0 ∧ a ∉ openStates ∧ noiseTarget a true = T + 2 ∧ coreKeys a = coreKeys T := by
  have := rows_okS T h.title
  simp only [rowOkS, List.all_eq_true] at this
  have := this a (by rcases h.mem with rfl | rfl | rfl <;> simp)
  simp only [Bool.and_eq_true, bne_iff_ne, Bool.not_eq_true', beq_iff_eq] at this
  obtain ⟨⟨⟨⟨h1, h2⟩, h3⟩, h4⟩, h5⟩ := this
  exact ⟨h1, h2, by simpa using h3, h4, h5⟩

theorem inv_move {a b : Nat} {m : CState} (h : Inv a m) (ha : a ∉ openStates) (hb : b ∉ openStates) : Inv b m :=
  ⟨h.valid, by simp [hb, Classical.byContradiction fun hc => ha (h.active.2 hc)], h.sep, h.indent⟩

/-- The same line in two near states. -/
theorem near_step {T a b : Nat} (ha : Near T a) (hb : Near T b) {l l' : Line} (hl : l.text = l'.text) {rest rest' : List Line} {m m' : CState}
    (hr : rest.map (·.text) = rest'.map (·.text)) (hi : Inv a m) {tr : Trans} {t : Token} (h : step a l rest m = some (tr, t, m'))
    (hn : l.isEof = true ∨ l.isNoise = false) (hk : tr.kind ≠ .other) :
    ∃ tr' t', step b l' rest' m = some (tr', t', m') ∧ tr'.target = tr.target ∧ t'.erase = t.erase := by
  obtain ⟨a1, a2, a3, a4, a5⟩ := ha.facts
  obtain ⟨b1, b2, b3, b4, b5⟩ := hb.facts
  have hs := step_spec h
  obtain ⟨row, pre, post, h1, h2, h3⟩ := hs.row
  obtain ⟨rowb, hb1⟩ := Option.isSome_iff_exists.1 b1
  have hact : m.active = none := Classical.byContradiction fun hc => a3 (hi.active.2 hc)
  have hcore : Trans.core tr = true := by
    have fit : ∀ k, k = .empty ∨ k = .comment → tr.kind ≠ k := by
      intro k hk' he
      have hne : l.isEof = false := hs.eof.resolve_left (by rw [he]; rcases hk' with rfl | rfl <;> simp)
      have hn' := hn.resolve_left (by rw [hne]; simp)
      have := fits_of_true hact (l := l) (k := k) (by rcases hk' with rfl | rfl <;> simp) (by rcases hk' with rfl | rfl <;> simp)
        (by rw [← he, hs.matched])
      rcases hk' with rfl | rfl
      · simp [fits, isBlankLine_iff] at this; simp [Line.isNoise, this] at hn'
      · simp [fits, firstIs_iff] at this; simp [Line.isNoise, this] at hn'
    simp [Trans.core, hk, fit .empty (.inl rfl), fit .comment (.inr rfl)]
  have hkeys : (rowb.trans.filter Trans.core).map Trans.key = (row.trans.filter Trans.core).map Trans.key := by
    have := b5.trans a5.symm
    simpa [coreKeys, h1, hb1] using this
  obtain ⟨pre2, tr2, post2, g1, g2, g3, g4⟩ := key_split hkeys h2 hcore
  simp only [Trans.key, Prod.mk.injEq] at g2
  obtain ⟨s, n⟩ := l
  obtain ⟨s', n'⟩ := l'
  simp only at hl
  subst hl
  obtain ⟨t', k1, k2⟩ := matchKind_renum (n' := n') hs.matched
  have hp : ∀ la, Pure.peek la m rest' = Pure.peek la m rest := fun la => (peek_renum la m hr).symm
  refine ⟨tr2, t', step_make hb1 g1 ?_ (by rw [g2.1]; exact k1) (by rw [g2.1]; exact hs.eof) ?_, g2.2.2, k2⟩
  · intro x hx
    rcases g4 x hx with h | ⟨y, hy, h⟩
    · have hxk : x.kind = .empty ∨ x.kind = .comment ∨ x.kind = .other := by
        have : ¬ (Trans.core x = true) := by simp [h]
        simp only [Trans.core, Bool.and_eq_true, bne_iff_ne, ne_eq] at this
        by_cases e1 : x.kind = .empty
        · exact .inl e1
        · by_cases e2 : x.kind = .comment
          · exact .inr (.inl e2)
          · exact .inr (.inr (Classical.byContradiction fun e3 => this ⟨⟨e1, e2⟩, e3⟩))
      have hxo : x.kind ≠ .other := by
        intro hk
        obtain ⟨p1, p2, rfl⟩ := List.append_of_mem hx
        have := other_last hb1 (pre := p1) (tr := x) (post := p2 ++ tr2 :: post2) (by rw [g1]; simp) hk
        simp at this
      rcases hn with hn | hn
      · exact .inl ⟨by rcases hxk with h | h | h <;> rw [h] <;> simp, hn⟩
      · refine .inr (.inl ?_)
        have hnl : x.kind ≠ .language := by rcases hxk with h | h | h <;> rw [h] <;> simp
        have hne : x.kind ≠ .eof := by rcases hxk with h | h | h <;> rw [h] <;> simp
        rw [match_fits hact hnl hne]
        have hn2 : (Line.mk s n').isBlank = false ∧ (Line.mk s n').startsWith ['#'] = false := by
          have e : (Line.mk s n).isNoise = (Line.mk s n').isNoise := rfl
          rw [e] at hn
          simpa [Line.isNoise] using hn
        rcases hxk with h | h | h
        · rw [h]; simpa [fits, isBlankLine_iff] using hn2.1
        · rw [h]; simpa [fits, firstIs_iff] using hn2.2
        · exact absurd h hxo
    · exact passed_key h (passed_renum hp (h3 y hy))
  · intro la h
    rw [g2.2.1] at h
    exact (hp la).trans (hs.peek la h)

/-- The first line that is not blank is not read as part of a description. -/
def Safe (mv : List Move) : Prop :=
  ∀ mvX z mvY, mv = mvX ++ z :: mvY → (∀ x ∈ mvX, x.tok.line.isBlank = true) → z.tr.kind = .other → z.state ∉ openStates → z.tok.line.isBlank = true

theorem Safe.tail {x : Move} {mv : List Move} (h : Safe (x :: mv)) (hx : x.tok.line.isBlank = true) : Safe mv := by
  intro mvX z mvY he hb
  exact h (x :: mvX) z mvY (by rw [he]; rfl) (fun y hy => by rcases List.mem_cons.1 hy with rfl | hy; exact hx; exact hb y hy)

theorem isNoise_text {l l' : Line} (h : l.text = l'.text) : l.isNoise = l'.isNoise ∧ l.isEof = l'.isEof ∧ l.startsWith ['#'] = l'.startsWith ['#'] ∧ l.isBlank = l'.isBlank := by
  obtain ⟨s, n⟩ := l
  obtain ⟨s', n'⟩ := l'
  simp only at h
  subst h
  exact ⟨rfl, rfl, rfl, rfl⟩

theorem near_run {T a b : Nat} (ha : Near T a) (hb : Near T b) : ∀ {lines lines' : List Line} {m : CState} {mv : List Move} {q' : Nat} {m' : CState},
    Run a m lines mv q' m' → Src lines → Inv a m → (noOther a = true ∨ Safe mv) → lines.map (·.text) = lines'.map (·.text) →
    ∃ mv', Run b m lines' mv' q' m' ∧ essence false mv' = essence false mv := by
  intro lines
  induction lines with
  | nil => intro lines' m mv q' m' h hs; exact absurd rfl hs.ne
  | cons l rest ih =>
    intro lines' m mv q' m' h hs hi hsafe hl
    obtain ⟨a1, a2, a3, a4, a5⟩ := ha.facts
    obtain ⟨b1, b2, b3, b4, b5⟩ := hb.facts
    obtain ⟨rowa, hrowa⟩ := Option.isSome_iff_exists.1 a1
    obtain ⟨rowb, hrowb⟩ := Option.isSome_iff_exists.1 b1
    have hib : Inv b m := inv_move hi a3 b3
    cases lines' with
    | nil => simp at hl
    | cons l' rest' =>
    simp only [List.map_cons, List.cons.injEq] at hl
    obtain ⟨n1, n2, n3, n4⟩ := isNoise_text hl.1
    have flag : ∀ {q : Nat} {tr : Trans} {t : Token} {r : List Line} {m' : CState} {lx : Line}, step q lx r m = some (tr, t, m') → q ∉ openStates → t.type = some tr.kind ∧
        (flagAfter false t = true ↔ tr.target ∈ openStates) := by
      intro q tr t r m' lx hst hq
      have hsp := step_spec hst
      have hty := matched_type hsp.matched
      exact ⟨hty, flag_step hsp.facts hty (by simp [hq])⟩
    -- after one move in each run the states are the same
    have join : ∀ {tr tr' : Trans} {t t' : Token} {m1 : CState} {mv1 : List Move}, step a l rest m = some (tr, t, m1) → step b l' rest' m = some (tr', t', m1) →
        tr'.target = tr.target → l.isEof = false → Run tr.target m1 rest mv1 q' m' →
        (t'.erase = t.erase ∨ (tr.kind = .comment ∨ tr.kind = .empty ∨ tr.kind = .other) ∧ (tr'.kind = .comment ∨ tr'.kind = .empty ∨ tr'.kind = .other)) →
        ∃ mv', Run b m (l' :: rest') mv' q' m' ∧ essence false mv' = essence false (⟨a, tr, t⟩ :: mv1) := by
      intro tr tr' t t' m1 mv1 h1 h2 h3 h4 h5 h6
      obtain ⟨mv', k1, k2⟩ := run_renum h5 hl.2
      rw [← h3] at k1
      refine ⟨_, .cons h2 (by rw [← n2]; exact h4) k1, ?_⟩
      rcases h6 with h6 | ⟨h6, h7⟩
      · rw [essence_eq, essence_eq]; simp only [List.map_cons, h6, alike_erase k2]
      · rw [essence_skip (flag h2 b3).1 (by tauto), essence_skip (flag h1 a3).1 (by tauto), essence_alike k2]
    cases h with
    | @last _ _ _ _ tr t _ hst he =>
      have hsp := step_spec hst
      have hk : tr.kind = .eof := hsp.eof.resolve_right (by rw [he]; simp)
      obtain ⟨tr', t', g1, g2, g3⟩ := near_step ha hb hl.1 hl.2 hi hst (.inl he) (by rw [hk]; simp)
      rw [← g2]
      exact ⟨_, .last g1 (by rw [← n2]; exact he), by rw [essence_eq, essence_eq]; simp only [List.map_cons, List.map_nil, g3]⟩
    | @cons _ _ _ _ tr t m1 mv1 _ _ hst he hrun =>
      have hsp := step_spec hst
      have hline : t.line = l := (matched_of hsp.matched).1
      cases hn : l.isNoise with
      | true =>
        obtain ⟨tr0, t0, c1, c2, c3⟩ := noise_step hi a3 hrowa he hn (.inl a2) rest
        obtain ⟨tr', t', d1, d2, d3⟩ := noise_step hib b3 hrowb (by rw [← n2]; exact he) (by rw [← n1]; exact hn) (.inl b2) rest'
        rw [hst] at c1
        simp only [Option.some.injEq, Prod.mk.injEq] at c1
        obtain ⟨rfl, rfl, rfl⟩ := c1
        cases hc : l.startsWith ['#'] with
        | true =>
          rw [hc, a4] at c2
          rw [← n3, hc, b4] at d2
          exact join hst d1 (d2.trans c2.symm) he hrun (.inr ⟨by tauto, by tauto⟩)
        | false =>
          have hb' : l.isBlank = true := by simpa [Line.isNoise, hc] using hn
          rw [hc] at c2
          rw [← n3, hc] at d2
          simp only [noiseTarget, Bool.false_eq_true, if_false] at c2 d2
          rw [c2] at hrun
          obtain ⟨mv', k1, k2⟩ := ih hrun (hs.tail he) hi (hsafe.imp_right fun h => h.tail (by simpa [hline] using hb')) hl.2
          rw [← d2] at k1
          refine ⟨_, .cons d1 (by rw [← n2]; exact he) k1, ?_⟩
          rw [essence_skip (flag d1 b3).1 (by tauto), essence_skip (flag hst a3).1 (by tauto), k2]
      | false =>
        have hk : tr.kind ≠ .other := by
          intro hk
          rcases hsafe with h | h
          · obtain ⟨row, hrow, hmem⟩ := step_row hsp
            have : Kind.other ∈ kindsOf a := by
              rw [kindsOf, hrow]; exact List.mem_map.2 ⟨tr, hmem, hk⟩
            simp only [noOther, Bool.not_eq_true', List.contains_eq_mem, decide_eq_false_iff_not] at h
            exact h this
          · have := h [] ⟨a, tr, t⟩ mv1 rfl (by simp) hk a3
            simp only [hline] at this
            simp [Line.isNoise, this] at hn
        obtain ⟨tr', t', g1, g2, g3⟩ := near_step ha hb hl.1 hl.2 hi hst (.inr hn) hk
        exact join hst g1 g2 he hrun (.inl g3)

end Auto

end Gherkin
