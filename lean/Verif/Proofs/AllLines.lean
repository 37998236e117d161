import Verif.Proofs.BuiltIn
import Verif.Proofs.Takes
import Verif.Proofs.Refine3

/-! No line is lost in an accepted text, even if look-aheads change the order of the lines. For any matcher for which the answer about tag lines
depends on the line only and a look-ahead skips no heading other than one with tags. -/

namespace Gherkin

section
variable {μ σ ρ : Type} {cfg : Config μ σ ρ} {P : μ → Prop} {tagged : Line → Bool} {stuck : Line → Prop}

/-- The lines that lead out of a run of tag lines. -/
def isHead : Kind → Bool
  | .scenarioLine | .examplesLine | .ruleLine => true
  | _ => false

/-- What the argument needs of the matcher. -/
structure TagSafe (cfg : Config μ σ ρ) (P : μ → Prop) (tagged : Line → Bool) (stuck : Line → Prop) : Prop where
  lawful : cfg.matcher.Lawful
  keep : ∀ k t m, P m → P (cfg.matcher.match_ k t m).2.2
  tag : ∀ {t t'} {c c' : Ctx μ σ} {b}, t.eof = false → matchTok cfg .tagLine t c = (.ok b, t', c') → b = tagged t.line
  skip : ∀ {t t'} {c c' : Ctx μ σ}, P c.matcher → t.eof = false → matchAny cfg skipKinds t c = (.ok true, t', c') → stuck t.line
  head : ∀ {k t t'} {c c' : Ctx μ σ}, isHead k = true → P c.matcher → t.eof = false → matchTok cfg k t c = (.ok true, t', c') → stuck t.line →
    tagged t.line = true

/-- No end-of-file token waits. -/
def NoEof (c : Ctx μ σ) : Prop := ∀ x ∈ c.queue, x.eof = false

/-- All tokens before a waiting end-of-file token are stuck. -/
def Held (stuck : Line → Prop) (c : Ctx μ σ) : Prop := ∀ a e b, c.queue = a ++ e :: b → e.eof = true → ∀ x ∈ a, stuck x.line

/-- A waiting end-of-file token is the last one. -/
def EofLast (c : Ctx μ σ) : Prop := ∀ a e b, c.queue = a ++ e :: b → e.eof = true → b = []

theorem NoEof.held {c : Ctx μ σ} (h : NoEof c) : Held stuck c := by
  intro a e b hq he
  have := h e (by rw [hq]; simp)
  rw [he] at this; cases this

theorem NoEof.last {c : Ctx μ σ} (h : NoEof c) : EofLast c := by
  intro a e b hq he
  have := h e (by rw [hq]; simp)
  rw [he] at this; cases this

theorem matchAny_keepsP (hP : ∀ k t m, P m → P (cfg.matcher.match_ k t m).2.2) {ks : List Kind} : ∀ {t t' : Token} {c c' : Ctx μ σ} {r : Except Exc Bool},
    matchAny cfg ks t c = (r, t', c') → P c.matcher → P c'.matcher := by
  induction ks with
  | nil => intro t t' c c' r h hc; cases h; exact hc
  | cons k ks ih =>
    intro t t' c c' r h hc
    unfold matchAny at h
    rcases hm : matchTok cfg k t c with ⟨y, t1, c1⟩
    rw [hm] at h
    have h1 := matchTok_keepsP hP hm hc
    rcases y with x | b
    · cases h; exact h1
    · cases b
      · exact ih h h1
      · cases h; exact h1

/-- What a look-ahead reads. -/
theorem laLoop_reads (hS : TagSafe cfg P tagged stuck) {la : LA} {fuel : Nat} : ∀ {acc : List Token} {c c' : Ctx μ σ} {b : Bool} {ts : List Token},
    P c.matcher → EofLast c → (∀ x ∈ acc, stuck x.line ∧ x.eof = false) → laLoop cfg la fuel acc c = (.ok (b, ts), c') →
    P c'.matcher ∧ (∃ used, c.queue = used ++ c'.queue) ∧ ∃ init u, ts = init ++ [u] ∧ (∀ x ∈ init, stuck x.line ∧ x.eof = false) ∧
      (b = true → u.eof = false) ∧ (u.eof = true → c'.queue = []) := by
  induction fuel with
  | zero => intro acc c c' b ts _ _ _ h; simp [laLoop] at h
  | succ fuel ih =>
    intro acc c c' b ts hp hl ha h
    unfold laLoop at h
    rcases hr : readToken c with ⟨t, c1⟩
    rw [hr] at h
    simp only at h
    have hq : c1.matcher = c.matcher ∧ (∃ used, c.queue = used ++ c1.queue) ∧ (t.eof = true → c1.queue = []) ∧ EofLast c1 := by
      rcases readToken_cases c with ⟨t', q, hq, hc⟩ | ⟨l, ls, hq, _, hc⟩ | ⟨hq, _, hc⟩
      · rw [hr] at hc; cases hc
        refine ⟨rfl, ⟨[t], hq⟩, fun he => hl [] t q hq he, ?_⟩
        intro a e b hab he
        exact hl (t :: a) e b (by rw [hq]; simp only at hab; rw [hab]; rfl) he
      all_goals
        rw [hr] at hc; cases hc
        refine ⟨rfl, ⟨[], rfl⟩, fun _ => hq, ?_⟩
        intro a e b hab he
        simp only at hab
        rw [hq] at hab; simp at hab
    obtain ⟨q1, ⟨used1, q2⟩, q3, q4⟩ := hq
    have f1 := matchTok_frame (cfg := cfg) la.expected t c1
    have l1 := matchTok_line hS.lawful la.expected t c1
    rcases hm : matchTok cfg la.expected t c1 with ⟨r, t2, c2⟩
    rw [hm] at h f1 l1
    simp only at f1 l1
    have p2 : P c2.matcher := matchTok_keepsP hS.keep hm (by rw [q1]; exact hp)
    cases r with
    | error x => simp at h
    | ok bb =>
      cases bb with
      | true =>
        simp at h
        obtain ⟨⟨rfl, rfl⟩, rfl⟩ := h
        have he := (matchTok_true_eof hS.lawful hm)
        have hne : t.eof = false := by
          cases hte : t.eof with
          | false => rfl
          | true =>
            exfalso
            have := matchTok_eof (cfg := cfg) (k := la.expected) (by cases la <;> simp [LA.expected]) hte c1
            rw [hm] at this; simp at this
        have ht2 : t2.eof = false := by rw [Token.eof, l1]; exact hne
        refine ⟨p2, ⟨used1, by rw [f1.2.1]; exact q2⟩, acc, t2, rfl, ha, fun _ => ht2, fun h => by rw [ht2] at h; cases h⟩
      | false =>
        simp only at h
        have f2 := matchAny_frame (cfg := cfg) skipKinds t2 c2
        have l2 := matchAny_line hS.lawful skipKinds t2 c2
        rcases hm2 : matchAny cfg skipKinds t2 c2 with ⟨r, t3, c3⟩
        rw [hm2] at h f2 l2
        simp only at f2 l2
        have p3 : P c3.matcher := matchAny_keepsP hS.keep hm2 p2
        have hq3 : c3.queue = c1.queue := by rw [f2.2.1, f1.2.1]
        have ht3 : t3.eof = t.eof := by rw [Token.eof, l2.1, l1]; rfl
        cases r with
        | error x => simp at h
        | ok bb =>
          cases bb with
          | false =>
            simp at h
            obtain ⟨⟨rfl, rfl⟩, rfl⟩ := h
            refine ⟨p3, ⟨used1, by rw [hq3]; exact q2⟩, acc, t3, rfl, ha, by simp, fun h => ?_⟩
            rw [ht3] at h
            rw [hq3]; exact q3 h
          | true =>
            have hne : t.eof = false := by
              cases hte : t.eof with
              | false => rfl
              | true =>
                exfalso
                have ht2 : t2.eof = true := by rw [Token.eof, l1]; exact hte
                rw [matchAny_eof (by decide) ht2] at hm2
                simp at hm2
            have hne2 : t2.eof = false := by rw [Token.eof, l1]; exact hne
            have hst : stuck t3.line := by rw [l2.1]; exact hS.skip p2 hne2 hm2
            obtain ⟨i1, ⟨used2, i2⟩, i3⟩ := ih p3 (by intro a e b hab; rw [hq3] at hab; exact q4 a e b hab) (by
              intro x hx
              rcases List.mem_append.1 hx with hx | hx
              · exact ha x hx
              · simp at hx; subst hx; exact ⟨hst, by rw [ht3]; exact hne⟩) h
            refine ⟨i1, ⟨used1 ++ used2, ?_⟩, i3⟩
            rw [q2, ← hq3, i2, List.append_assoc]

theorem lookahead_held (hS : TagSafe cfg P tagged stuck) {la : LA} {c c' : Ctx μ σ} {b : Bool} (hp : P c.matcher) (hl : EofLast c) (hh : Held stuck c)
    (h : lookahead cfg la c = (.ok b, c')) : P c'.matcher ∧ Held stuck c' ∧ (NoEof c → (b = true → NoEof c') ∧ EofLast c') := by
  unfold lookahead at h
  rcases hx : laLoop cfg la (c.queue.length + c.scanner.lines.length + 1) [] c with ⟨r, c1⟩
  rw [hx] at h
  cases r with
  | error x => simp at h
  | ok p =>
    obtain ⟨b', ts⟩ := p
    simp at h
    obtain ⟨rfl, rfl⟩ := h
    obtain ⟨p1, ⟨used, hu⟩, init, u, rfl, hi, hb, he⟩ := laLoop_reads hS hp hl (by simp) hx
    refine ⟨p1, ?_, ?_⟩
    · intro a e d hq hee x hxa
      simp only at hq
      rcases List.append_eq_append_iff.1 hq with ⟨w, h1, h2⟩ | ⟨w, h1, h2⟩
      · -- the end of file is among the tokens read
        have hed : e ∈ init ++ [u] := by rw [h2]; simp
        have : e = u := by
          rcases List.mem_append.1 hed with h | h
          · have := (hi e h).2; rw [hee] at this; cases this
          · simpa using h
        subst this
        have hc1 := he hee
        rw [hc1] at h1
        simp at h1
        subst h1
        -- x is before the last
        have : x ∈ init ∨ x.eof = true := by
          have hw : x ∈ init ++ [e] := by rw [h2]; simp [hxa]
          rcases List.mem_append.1 hw with h | h
          · exact .inl h
          · simp at h; subst h; exact .inr hee
        rcases this with h | h
        · exact (hi x h).1
        · exfalso
          have hl2 : (init ++ [e]).getLast? = some e := by simp
          rcases List.append_eq_append_iff.1 h2 with ⟨v, g1, g2⟩ | ⟨v, g1, g2⟩
          · -- init ++ v = a
            have := congrArg List.length g2
            simp at this
            have hv : v = [] := by cases v with
              | nil => rfl
              | cons y ys => simp at this; omega
            subst hv
            simp at g1
            rw [g1] at hxa
            have := (hi x hxa).2; rw [h] at this; cases this
          · have := (hi x (by rw [g1]; simp [hxa])).2; rw [h] at this; cases this
      · cases w with
        | nil =>
          simp at h1 h2
          have hed : e ∈ init ++ [u] := by rw [← h2]; simp
          have : e = u := by
            rcases List.mem_append.1 hed with h | h
            · have := (hi e h).2; rw [hee] at this; cases this
            · simpa using h
          subst this
          rw [he hee] at h1
          subst h1; simp at hxa
        | cons y w =>
          simp at h2
          obtain ⟨rfl, h2⟩ := h2
          exact hh (used ++ a) e w (by rw [hu, h1, List.append_assoc]) hee x (by simp [hxa])
    · intro hn
      have hn1 : ∀ x ∈ c1.queue, x.eof = false := fun x hx => hn x (by rw [hu]; simp [hx])
      refine ⟨fun hb' x hx => ?_, ?_⟩
      · simp only [List.mem_append, List.mem_singleton] at hx
        rcases hx with hx | hx | rfl
        · exact hn1 x hx
        · exact (hi x hx).2
        · exact hb hb'
      · intro a e d hq hee
        simp only at hq
        have hne : ∀ x ∈ c1.queue ++ init, x.eof = false := by
          intro x hx
          rcases List.mem_append.1 hx with hx | hx
          · exact hn1 x hx
          · exact (hi x hx).2
        rw [← List.append_assoc] at hq
        rcases List.append_eq_append_iff.1 hq with ⟨w, h1, h2⟩ | ⟨w, h1, h2⟩
        · have := congrArg List.length h2
          simp at this
          exact List.eq_nil_of_length_eq_zero (by omega)
        · cases w with
          | nil =>
            simp at h2
            exact h2.2
          | cons y w =>
            simp at h2
            have := hne y (by rw [h1]; simp)
            rw [← h2.1, hee] at this; cases this

/-! ### The chain of `if` blocks -/

/-- Look-aheads are only at tag lines. -/
def laTag (rows : List Trans) : Bool := rows.all fun tr => tr.la.isNone || tr.kind == .tagLine

/-- For a token without tags the queue stays as it is. -/
theorem untagged_queue (hS : TagSafe cfg P tagged stuck) {rows : List Trans} : ∀ {t t' : Token} {c c' : Ctx μ σ} {y : Option Nat}, laTag rows = true →
    (t.eof = true ∨ tagged t.line = false) → tryTrans cfg rows t c = (.ok y, t', c') → c'.queue = c.queue := by
  induction rows with
  | nil => intro t t' c c' y _ _ h; simp only [tryTrans, Prod.mk.injEq] at h; rw [h.2.2]
  | cons tr trs ih =>
    intro t t' c c' y hla ht h
    simp only [laTag, List.all_cons, Bool.and_eq_true, Bool.or_eq_true, Option.isNone_iff_eq_none, beq_iff_eq] at hla
    unfold tryTrans testTrans at h
    have f1 := matchTok_frame (cfg := cfg) tr.kind t c
    have l1 := matchTok_line hS.lawful tr.kind t c
    rcases hm : matchTok cfg tr.kind t c with ⟨r, t1, c1⟩
    rw [hm] at h f1 l1
    simp only at f1 l1
    rcases r with x | b
    · simp at h
    · cases b with
      | false =>
        rw [ih hla.2 (by rw [Token.eof, l1]; exact ht) h, f1.2.1]
      | true =>
        simp only at h
        cases hl : tr.la with
        | none =>
          rw [hl] at h
          simp only at h
          have hf := runProds_frame (cfg := cfg) tr.prods t1 c1
          rcases hr : runProds cfg tr.prods t1 c1 with ⟨r, c3⟩
          rw [hr] at h hf
          rcases r with x | u
          · simp at h
          · simp only [Prod.mk.injEq] at h
            rw [← h.2.2, hf.2.1, f1.2.1]
        | some la =>
          exfalso
          rw [hl] at hla
          simp at hla
          rw [hla.1] at hm
          cases he : t.eof with
          | true =>
            have := matchTok_eof (cfg := cfg) (k := .tagLine) (by decide) he c
            rw [hm] at this; simp at this
          | false =>
            have := hS.tag he hm
            rcases ht with ht | ht
            · rw [he] at ht; cases ht
            · rw [ht] at this; cases this

/-- A tag line's own transition. -/
theorem tag_taken (hS : TagSafe cfg P tagged stuck) {T : Trans} {rest : List Trans} {t t' : Token} {c c' : Ctx μ σ} {y : Option Nat}
    (hk : T.kind = .tagLine) (hl : T.la = none) (he : t.eof = false) (ht : tagged t.line = true) (hh : Held stuck c)
    (h : tryTrans cfg (T :: rest) t c = (.ok y, t', c')) : y = some T.target ∧ Held stuck c' := by
  unfold tryTrans testTrans at h
  have f1 := matchTok_frame (cfg := cfg) T.kind t c
  rcases hm : matchTok cfg T.kind t c with ⟨r, t1, c1⟩
  rw [hm] at h f1
  simp only at f1
  rcases r with x | b
  · simp at h
  · rw [hk] at hm
    have hb := hS.tag he hm
    rw [ht] at hb
    subst hb
    rw [hl] at h
    simp only at h
    have hf := runProds_frame (cfg := cfg) T.prods t1 c1
    rcases hr : runProds cfg T.prods t1 c1 with ⟨r, c3⟩
    rw [hr] at h hf
    rcases r with x | u
    · simp at h
    · simp only [Prod.mk.injEq, Except.ok.injEq] at h
      refine ⟨h.1.symm, ?_⟩
      rw [← h.2.2]
      intro a e b hq
      rw [hf.2.1, f1.2.1] at hq
      exact hh a e b hq

/-- A transition for a tag line with a look-ahead is taken, or the next one is tried. -/
theorem tag_la (hS : TagSafe cfg P tagged stuck) {A : Trans} {la : LA} {rest : List Trans} {t t' : Token} {c c' : Ctx μ σ} {y : Option Nat}
    (hk : A.kind = .tagLine) (hl : A.la = some la) (he : t.eof = false) (ht : tagged t.line = true) (hp : P c.matcher) (hh : Held stuck c) (hL : EofLast c)
    (h : tryTrans cfg (A :: rest) t c = (.ok y, t', c')) :
    (y = some A.target ∧ Held stuck c') ∨
    ∃ t1 c1, t1.line = t.line ∧ P c1.matcher ∧ Held stuck c1 ∧ (NoEof c → EofLast c1) ∧ tryTrans cfg rest t1 c1 = (.ok y, t', c') := by
  unfold tryTrans testTrans at h
  have f1 := matchTok_frame (cfg := cfg) A.kind t c
  have l1 := matchTok_line hS.lawful A.kind t c
  rcases hm : matchTok cfg A.kind t c with ⟨r, t1, c1⟩
  rw [hm] at h f1 l1
  simp only at f1 l1
  have p1 := matchTok_keepsP hS.keep hm hp
  rcases r with x | b
  · simp at h
  · rw [hk] at hm
    have hb := hS.tag he hm
    rw [ht] at hb
    subst hb
    rw [hl] at h
    simp only at h
    have hh1 : Held stuck c1 := by intro a e b hq; rw [f1.2.1] at hq; exact hh a e b hq
    have hL1 : EofLast c1 := by intro a e b hq; rw [f1.2.1] at hq; exact hL a e b hq
    rcases hx : lookahead cfg la c1 with ⟨r, c2⟩
    rw [hx] at h
    rcases r with x | b
    · simp at h
    · obtain ⟨p2, hh2, h3⟩ := lookahead_held hS p1 hL1 hh1 hx
      cases b with
      | false =>
        right
        refine ⟨t1, c2, l1, p2, hh2, fun hn => ?_, h⟩
        exact (h3 (by intro x hx; rw [f1.2.1] at hx; exact hn x hx)).2
      | true =>
        left
        simp only at h
        have hf := runProds_frame (cfg := cfg) A.prods t1 c2
        rcases hr : runProds cfg A.prods t1 c2 with ⟨r, c3⟩
        rw [hr] at h hf
        rcases r with x | u
        · simp at h
        · simp only [Prod.mk.injEq, Except.ok.injEq] at h
          refine ⟨h.1.symm, ?_⟩
          rw [← h.2.2]
          intro a e b hq
          rw [hf.2.1] at hq
          exact hh2 a e b hq

/-- One or two transitions for tag lines with look-ahead are followed by one without. -/
def laShape : List Trans → Bool
  | [] => true
  | tr :: trs =>
    if tr.la.isNone then laShape trs
    else tr.kind == .tagLine && match trs with
      | tr2 :: trs2 => tr2.kind == .tagLine && (tr2.la.isNone || match trs2 with | tr3 :: _ => tr3.kind == .tagLine && tr3.la.isNone | [] => false)
      | [] => false

/-- If no end-of-file token was waiting, one is waiting afterwards only if the token was a tag line and is taken as one. -/
theorem row_held (hS : TagSafe cfg P tagged stuck) {rows : List Trans} : ∀ {t t' : Token} {c c' : Ctx μ σ} {q : Nat}, laShape rows = true → laTag rows = true →
    t.eof = false → P c.matcher → NoEof c → tryTrans cfg rows t c = (.ok (some q), t', c') →
    NoEof c' ∨ (Held stuck c' ∧ ∃ tr ∈ rows, tr.kind = .tagLine ∧ tr.target = q) := by
  induction rows with
  | nil => intro t t' c c' q _ _ _ _ _ h; simp [tryTrans] at h
  | cons tr trs ih =>
    intro t t' c c' q hsh hlt he hp hn h
    cases htg : tagged t.line with
    | false =>
      left
      have := untagged_queue hS hlt (.inr htg) h
      intro x hx; rw [this] at hx; exact hn x hx
    | true =>
      cases hl : tr.la with
      | none =>
        have hlt' := hlt
        simp only [laTag, List.all_cons, Bool.and_eq_true] at hlt
        simp only [laShape, hl, Option.isNone_none, if_true] at hsh
        unfold tryTrans testTrans at h
        have f1 := matchTok_frame (cfg := cfg) tr.kind t c
        have l1 := matchTok_line hS.lawful tr.kind t c
        rcases hm : matchTok cfg tr.kind t c with ⟨r, t1, c1⟩
        rw [hm] at h f1 l1
        simp only at f1 l1
        have p1 := matchTok_keepsP hS.keep hm hp
        have hn1 : NoEof c1 := by intro x hx; rw [f1.2.1] at hx; exact hn x hx
        rcases r with x | b
        · simp at h
        · cases b with
          | false =>
            rcases ih hsh hlt.2 (by rw [Token.eof, l1]; exact he) p1 hn1 h with i | ⟨i1, tr', i2, i3⟩
            · exact .inl i
            · exact .inr ⟨i1, tr', by simp [i2], i3⟩
          | true =>
            rw [hl] at h
            simp only at h
            have hf := runProds_frame (cfg := cfg) tr.prods t1 c1
            rcases hr : runProds cfg tr.prods t1 c1 with ⟨r, c3⟩
            rw [hr] at h hf
            rcases r with x | u
            · simp at h
            · simp only [Prod.mk.injEq] at h
              left
              rw [← h.2.2]
              intro x hx; rw [hf.2.1] at hx; exact hn1 x hx
      | some la =>
        right
        simp only [laShape, hl, Option.isNone_some, Bool.false_eq_true, if_false, Bool.and_eq_true, beq_iff_eq] at hsh
        obtain ⟨hk, hsh⟩ := hsh
        rcases tag_la hS hk hl he htg hp hn.held hn.last h with ⟨a1, a2⟩ | ⟨t1, c1, b1, b2, b3, b4, b5⟩
        · cases a1; exact ⟨a2, tr, by simp, hk, rfl⟩
        · have hL1 := b4 hn
          have he1 : t1.eof = false := by rw [Token.eof, b1]; exact he
          have ht1 : tagged t1.line = true := by rw [b1]; exact htg
          cases trs with
          | nil => simp at hsh
          | cons tr2 trs2 =>
            simp only [Bool.and_eq_true, Bool.or_eq_true, beq_iff_eq, Option.isNone_iff_eq_none] at hsh
            obtain ⟨hk2, hsh⟩ := hsh
            cases hl2 : tr2.la with
            | none =>
              obtain ⟨d1, d2⟩ := tag_taken hS hk2 hl2 he1 ht1 b3 b5
              cases d1; exact ⟨d2, tr2, by simp, hk2, rfl⟩
            | some la2 =>
              rw [hl2] at hsh
              simp at hsh
              rcases tag_la hS hk2 hl2 he1 ht1 b2 b3 hL1 b5 with ⟨a1, a2⟩ | ⟨t2, c2, d1, d2, d3, d4, d5⟩
              · cases a1; exact ⟨a2, tr2, by simp, hk2, rfl⟩
              · cases trs2 with
                | nil => simp at hsh
                | cons tr3 trs3 =>
                  simp at hsh
                  obtain ⟨e1, e2⟩ := tag_taken hS hsh.1 hsh.2 (by rw [Token.eof, d1]; exact he1) (by rw [d1]; exact ht1) d3 d5
                  cases e1; exact ⟨e2, tr3, by simp, hsh.1, rfl⟩

/-! ### Every line is somewhere -/

/-- The lines `pre`, those of the tokens `extra`, those waiting and those not yet read are the lines of the text. -/
def AllIn4 (text : Str) (pre : List Line) (extra : List Token) (c : Ctx μ σ) : Prop :=
  (pre ++ ((extra ++ c.queue).map (·.line) ++ (tokenLines text).drop c.scanner.lineNumber)).Perm (tokenLines text)

theorem tokenLines_length (text : Str) : (tokenLines text).length = (splitLines text).length + 1 := by
  simp [tokenLines, sourceLines]

theorem tokenLines_get? {text : Str} {n : Nat} (h : n ≤ (splitLines text).length) :
    (tokenLines text)[n]? = some ⟨((splitLines text)[n]?).getD [], n + 1⟩ := by
  unfold tokenLines sourceLines
  by_cases hn : n < (splitLines text).length
  · rw [List.getElem?_append_left (by simpa using hn)]
    simp [List.getElem?_zipIdx, List.getElem?_eq_getElem hn]; omega
  · have : n = (splitLines text).length := by omega
    subst this
    rw [List.getElem?_append_right (by simp)]
    simp [eofLine]

theorem readToken_all {text : Str} {pre : List Line} {extra : List Token} {c c1 : Ctx μ σ} {t : Token}
    (hx : ∀ t ∈ extra, t.eof = false) (hs : SrcInv text extra c) (h : AllIn4 text pre extra c) (hr : readToken c = (t, c1)) :
    AllIn4 text pre (extra ++ [t]) c1 := by
  unfold AllIn4 at h ⊢
  rcases readToken_cases c with ⟨t', q, hq, hc⟩ | ⟨l, ls, hq, hl, hc⟩ | ⟨hq, hl, hc⟩
  · rw [hr] at hc; cases hc
    rw [hq] at h
    simpa using h
  all_goals
    have hsc : c.scanner.lineNumber ≤ (splitLines text).length ∧ c.scanner.lines = (splitLines text).drop c.scanner.lineNumber := by
      rcases hs.scanner with h' | ⟨_, u, hu, hu'⟩
      · exact h'
      · simp [hq] at hu
        have := hx u hu
        simp [hu'] at this
    rw [hr] at hc; cases hc
    have hg := tokenLines_get? hsc.1
    have hd : (tokenLines text).drop c.scanner.lineNumber =
        ⟨((splitLines text)[c.scanner.lineNumber]?).getD [], c.scanner.lineNumber + 1⟩ :: (tokenLines text).drop (c.scanner.lineNumber + 1) := by
      rw [List.getElem?_eq_some_iff] at hg
      obtain ⟨h1, h2⟩ := hg
      rw [List.drop_eq_getElem_cons h1, h2]
    have hget : (splitLines text)[c.scanner.lineNumber]? = c.scanner.lines.head? := by rw [hsc.2, List.head?_drop]
    rw [hl] at hget
    rw [hd, hget, hq] at h
    rw [hq]
    simpa [Token.fresh] using h

theorem AllIn4.congr {text : Str} {pre : List Line} {extra extra' : List Token} {c c' : Ctx μ σ} (h : AllIn4 text pre extra c)
    (hs : c'.scanner = c.scanner) (hq : c'.queue = c.queue) (he : extra'.map (·.line) = extra.map (·.line)) : AllIn4 text pre extra' c' := by
  unfold AllIn4 at h ⊢
  rw [List.map_append] at h ⊢
  rw [hs, hq, he]; exact h

theorem laLoop_all (hL : cfg.matcher.Lawful) {text : Str} {pre : List Line} {la : LA} {fuel : Nat} : ∀ {acc : List Token} {c : Ctx μ σ}
    {b : Bool} {ts : List Token} {c' : Ctx μ σ}, (∀ t ∈ acc, t.eof = false) → SrcInv text acc c → AllIn4 text pre acc c →
    laLoop cfg la fuel acc c = (.ok (b, ts), c') → AllIn4 text pre ts c' := by
  induction fuel with
  | zero => intro acc c b ts c' _ _ _ hl; simp [laLoop] at hl
  | succ fuel ih =>
    intro acc c b ts c' hx h ha hl
    unfold laLoop at hl
    rcases hr : readToken c with ⟨t, c1⟩
    rw [hr] at hl
    simp only at hl
    have h1 := (readToken_src hx h hr).2
    have a1 := readToken_all hx h ha hr
    have f1 := matchTok_frame (cfg := cfg) la.expected t c1
    have l1 := matchTok_line hL la.expected t c1
    have ll1 := matchTok_locLine hL la.expected t c1
    rcases hm : matchTok cfg la.expected t c1 with ⟨r, t2, c2⟩
    rw [hm] at hl f1 l1 ll1
    simp only at f1 l1 ll1
    have h2 : SrcInv text (acc ++ [t2]) c2 := (h1.congr f1.1 f1.2.1).replace l1 ll1
    have a2 : AllIn4 text pre (acc ++ [t2]) c2 := a1.congr f1.1 f1.2.1 (by simp [l1])
    cases r with
    | error x => simp at hl
    | ok bb =>
      cases bb with
      | true => simp at hl; obtain ⟨⟨_, rfl⟩, rfl⟩ := hl; exact a2
      | false =>
        simp only at hl
        have f2 := matchAny_frame (cfg := cfg) skipKinds t2 c2
        have l2 := matchAny_line hL skipKinds t2 c2
        rcases hm2 : matchAny cfg skipKinds t2 c2 with ⟨r, t3, c3⟩
        rw [hm2] at hl f2 l2
        simp only at f2 l2
        have h3 : SrcInv text (acc ++ [t3]) c3 := (h2.congr f2.1 f2.2.1).replace l2.1 l2.2
        have a3 : AllIn4 text pre (acc ++ [t3]) c3 := a2.congr f2.1 f2.2.1 (by simp [l2.1])
        cases r with
        | error x => simp at hl
        | ok bb =>
          cases bb with
          | false => simp at hl; obtain ⟨⟨_, rfl⟩, rfl⟩ := hl; exact a3
          | true =>
            refine ih ?_ h3 a3 hl
            intro u hu
            simp at hu
            rcases hu with hu | hu
            · exact hx u hu
            · subst hu
              cases he : u.eof with
              | false => rfl
              | true =>
                exfalso
                have : t2.eof = true := by simpa [Token.eof, l2.1] using he
                rw [matchAny_eof (by decide) this] at hm2
                simp at hm2

/-- Matching loses no line. -/
theorem closed_allIn (hL : cfg.matcher.Lawful) (text : Str) : MatchClosed cfg
    (fun c c' => SrcInv text [] c → SrcInv text [] c' ∧ ∀ pre, AllIn4 text pre [] c → AllIn4 text pre [] c') (fun _ _ _ => True) := by
  have hc := closed_src (cfg := cfg) hL text
  refine ⟨fun c h => ⟨h, fun _ h => h⟩, fun h1 h2 h => ⟨(h2 (h1 h).1).1, fun pre hp => (h2 (h1 h).1).2 pre ((h1 h).2 pre hp)⟩, fun _ _ => trivial, ?_,
    fun _ => trivial, ?_, fun _ => trivial⟩
  · intro k t c b t' c' h hs
    refine ⟨hc.tok h hs, fun pre hp => ?_⟩
    have := matchTok_frame (cfg := cfg) k t c; rw [h] at this
    exact hp.congr this.1 this.2.1 rfl
  · intro l c b c' h hs
    refine ⟨hc.la h hs, fun pre hp => ?_⟩
    unfold lookahead at h
    rcases hl : laLoop cfg l (c.queue.length + c.scanner.lines.length + 1) [] c with ⟨r, c1⟩
    rw [hl] at h
    cases r with
    | error x => simp at h
    | ok p =>
      obtain ⟨b', ts⟩ := p
      simp at h
      obtain ⟨_, rfl⟩ := h
      have := laLoop_all hL (by simp) hs hp hl
      unfold AllIn4 at this ⊢
      refine List.Perm.trans (List.Perm.append_left _ (List.Perm.append_right _ (List.Perm.map _ ?_))) this
      simp only [List.nil_append]
      exact List.perm_append_comm

/-! ### The main loop -/

/-- The states after a tag line. -/
def tagState (q : Nat) : Bool := q == 11 || q == 17 || q == 22 || q == 31 || q == 37

/-- States after a tag line: no look-ahead, no end of file; tag lines are tried first, and only a heading leads away. -/
def tagRowOk (row : StateRow) : Bool :=
  row.trans.all fun tr => tr.la.isNone && tr.kind != .eof && (tagState tr.target || isHead tr.kind) &&
    (match row.trans with | tr :: trs => tr.kind == .tagLine && trs.all (fun t => t.kind != .tagLine) | [] => true)

/-- What is used of the table. -/
def rowsOk3 (q : Nat) : Bool :=
  match table q with
  | none => true
  | some row => if tagState q then tagRowOk row
    else laTag row.trans && ((row.trans.all fun tr => tr.la.isNone) ||
      laShape row.trans && row.trans.all fun tr => tr.kind != .tagLine || tagState tr.target)

theorem rowsOk3_all : ∀ q ∈ allStates, rowsOk3 q = true := by decide +kernel

/-- Without look-aheads the queue stays as it is. -/
theorem noLa_queue {rows : List Trans} : ∀ {t t' : Token} {c c' : Ctx μ σ} {y : Option Nat}, (∀ tr ∈ rows, tr.la = none) →
    tryTrans cfg rows t c = (.ok y, t', c') → c'.queue = c.queue := by
  induction rows with
  | nil => intro t t' c c' y _ h; simp only [tryTrans, Prod.mk.injEq] at h; rw [h.2.2]
  | cons tr trs ih =>
    intro t t' c c' y hla h
    unfold tryTrans testTrans at h
    have f1 := matchTok_frame (cfg := cfg) tr.kind t c
    rcases hm : matchTok cfg tr.kind t c with ⟨r, t1, c1⟩
    rw [hm] at h f1
    simp only at f1
    rcases r with x | b
    · simp at h
    · cases b with
      | false => rw [ih (fun x hx => hla x (by simp [hx])) h, f1.2.1]
      | true =>
        rw [hla tr (by simp)] at h
        simp only at h
        have hf := runProds_frame (cfg := cfg) tr.prods t1 c1
        rcases hr : runProds cfg tr.prods t1 c1 with ⟨r, c3⟩
        rw [hr] at h hf
        rcases r with x | u
        · simp at h
        · simp only [Prod.mk.injEq] at h
          rw [← h.2.2, hf.2.1, f1.2.1]

/-- A transition is taken because its test succeeds. -/
theorem taken_tok (hS : TagSafe cfg P tagged stuck) {rows : List Trans} : ∀ {t t' : Token} {c c' : Ctx μ σ} {q : Nat}, (∀ tr ∈ rows, tr.la = none) →
    P c.matcher → tryTrans cfg rows t c = (.ok (some q), t', c') →
    ∃ tr ∈ rows, tr.target = q ∧ ∃ t0 t1 c0 c1, t0.line = t.line ∧ P c0.matcher ∧ matchTok cfg tr.kind t0 c0 = (.ok true, t1, (c1 : Ctx μ σ)) := by
  induction rows with
  | nil => intro t t' c c' q _ _ h; simp [tryTrans] at h
  | cons tr trs ih =>
    intro t t' c c' q hla hp h
    unfold tryTrans testTrans at h
    have l1 := matchTok_line hS.lawful tr.kind t c
    rcases hm : matchTok cfg tr.kind t c with ⟨r, t1, c1⟩
    rw [hm] at h l1
    simp only at l1
    have p1 := matchTok_keepsP hS.keep hm hp
    rcases r with x | b
    · simp at h
    · cases b with
      | false =>
        obtain ⟨tr', i1, i2, t0, t2, c0, c2, i3, i4, i5⟩ := ih (fun x hx => hla x (by simp [hx])) p1 h
        exact ⟨tr', by simp [i1], i2, t0, t2, c0, c2, i3.trans l1, i4, i5⟩
      | true =>
        rw [hla tr (by simp)] at h
        simp only at h
        rcases hr : runProds cfg tr.prods t1 c1 with ⟨r, c3⟩
        rw [hr] at h
        rcases r with x | u
        · simp at h
        · simp only [Prod.mk.injEq, Except.ok.injEq, Option.some.injEq] at h
          exact ⟨tr, by simp, h.1, t, t1, c, c1, rfl, hp, hm⟩

/-- A stuck token cannot leave a state after a tag line. -/
theorem stuck_stays (hS : TagSafe cfg P tagged stuck) {q q' : Nat} {row : StateRow} {t t' : Token} {c c' : Ctx μ σ} (hrow : tagRowOk row = true) (he : t.eof = false)
    (hst : stuck t.line) (hp : P c.matcher) (h : tryTrans cfg row.trans t c = (.ok (some q'), t', c')) : tagState q' = true := by
  unfold tagRowOk at hrow
  cases hr : row.trans with
  | nil => rw [hr] at h; simp [tryTrans] at h
  | cons T trs =>
    rw [hr] at hrow h
    simp only [List.all_eq_true, Bool.and_eq_true, Option.isNone_iff_eq_none, Bool.or_eq_true, beq_iff_eq, bne_iff_ne, ne_eq] at hrow
    obtain ⟨⟨⟨hTl, -⟩, hTt⟩, hTk, hn⟩ := hrow T (by simp)
    have hTt : tagState T.target = true := by
      rcases hTt with h | h
      · exact h
      · rw [hTk] at h; cases h
    unfold tryTrans testTrans at h
    have l1 := matchTok_line hS.lawful T.kind t c
    rcases hm : matchTok cfg T.kind t c with ⟨r, t1, c1⟩
    rw [hm] at h l1
    simp only at l1
    have p1 := matchTok_keepsP hS.keep hm hp
    rcases r with x | b
    · simp at h
    · rw [hTk] at hm
      have htg := hS.tag he hm
      cases b with
      | true =>
        rw [hTl] at h
        simp only at h
        rcases hr : runProds cfg T.prods t1 c1 with ⟨r, c3⟩
        rw [hr] at h
        rcases r with x | u
        · simp at h
        · simp only [Prod.mk.injEq, Except.ok.injEq, Option.some.injEq] at h
          rw [← h.1]; exact hTt
      | false =>
        obtain ⟨tr, i1, i2, t0, t2, c0, c2, i3, i4, i5⟩ := taken_tok hS (fun x hx => (hrow x (by simp [hx])).1.1.1) p1 h
        rw [← i2]
        rcases (hrow tr (by simp [i1])).1.2 with g | g
        · exact g
        · exfalso
          have := hS.head g i4 (by rw [Token.eof, i3, l1]; exact he) i5 (by rw [i3, l1]; exact hst)
          rw [i3, l1, ← htg] at this; cases this

/-- The invariant of the main loop. -/
structure LInv (P : μ → Prop) (stuck : Line → Prop) (text : Str) (q : Nat) (c : Ctx μ σ) : Prop where
  state : P c.matcher
  src : SrcInv text [] c
  all : AllIn4 text (takes c.log) [] c
  held : c.errors = [] → tagState q = true → Held stuck c
  noEof : c.errors = [] → tagState q = false → NoEof c

/-- One round of the main loop. -/
theorem step_lines (hS : TagSafe cfg P tagged stuck) {text : Str} {q q' : Nat} {t : Token} {c c1 c' : Ctx μ σ} (hI : LInv P stuck text q c)
    (hr : readToken c = (t, c1)) (hm : matchToken cfg q t { c1 with log := c1.log ++ [.take t.line] } = (.ok q', c')) :
    (t.eof = false → LInv P stuck text q' c') ∧ (t.eof = true → c'.errors = [] → (takes c'.log).Perm (tokenLines text)) := by
  have hL := hS.lawful
  have hc1 : c1.matcher = c.matcher ∧ c1.log = c.log ∧ c1.errors = c.errors := by
    rcases readToken_cases c with ⟨t', q, hq, hc⟩ | ⟨l, ls, hq, hl, hc⟩ | ⟨hq, hl, hc⟩ <;>
      (rw [hr] at hc; cases hc; exact ⟨rfl, rfl, rfl⟩)
  obtain ⟨ht, hs1⟩ := readToken_src (extra := []) (by simp) hI.src hr
  have ha1 := readToken_all (extra := []) (by simp) hI.src hI.all hr
  -- what is true of the queue after reading
  have hq1 : (∃ a, c.queue = a ++ c1.queue ∧ (a = [] → c1.queue = []) ∧ (a = [] ∨ a = [t])) := by
    rcases readToken_cases c with ⟨t', q, hq, hc⟩ | ⟨l, ls, hq, hl, hc⟩ | ⟨hq, hl, hc⟩
    · rw [hr] at hc; cases hc; exact ⟨[t], hq, by simp, .inr rfl⟩
    · rw [hr] at hc; cases hc; exact ⟨[], rfl, fun _ => hq, .inl rfl⟩
    · rw [hr] at hc; cases hc; exact ⟨[], rfl, fun _ => hq, .inl rfl⟩
  have htk := matchToken_takes hL q t { c1 with log := c1.log ++ [.take t.line] }
  rw [hm] at htk
  simp only [takes_append, hc1.2.1] at htk
  have htk' : takes c'.log = takes c.log ++ [t.line] := by rw [htk]; rfl
  -- the lines, whatever happens
  have hall : AllIn4 text (takes c.log) ([] ++ [t]) c' ∧ P c'.matcher ∧ (t.eof = false → SrcInv text [] c') ∧ Grows c1.errors c'.errors ∧
      (t.eof = true → c'.queue = c1.queue ∧ c'.scanner = c1.scanner) := by
    have hcs := matchToken_cases hL ((closed_keepsP hL hS.keep).and ((closed_allIn hL text).and (closed_errors hL))) q t { c1 with log := c1.log ++ [.take t.line] }
    rw [hm] at hcs
    simp only at hcs
    -- the relation for contexts that hold the token t outside
    have hs0 : t.eof = false → SrcInv text [] { c1 with log := c1.log ++ [.take t.line] } := by
      intro he
      refine ⟨fun u hu => hs1.queue u (by simpa using .inr hu), ?_⟩
      rcases hs1.scanner with h | ⟨h, u, hu, hu'⟩
      · exact .inl h
      · refine .inr ⟨h, u, ?_, hu'⟩
        simp at hu ⊢
        rcases hu with rfl | hu
        · rw [he] at hu'; simp at hu'
        · exact hu
    have hmove : ∀ c2 : Ctx μ σ, AllIn4 text (takes c.log ++ [t.line]) [] c2 → AllIn4 text (takes c.log) ([] ++ [t]) c2 := by
      intro c2 h
      unfold AllIn4 at h ⊢
      simpa using h
    have hmove' : AllIn4 text (takes c.log ++ [t.line]) [] { c1 with log := c1.log ++ [.take t.line] } := by
      unfold AllIn4 at ha1 ⊢
      simpa using ha1
    cases hte : t.eof with
    | false =>
      cases hcs with
      | unexpected h1 h2 h3 h4 h5 h6 =>
        rcases h6 with ⟨_, h6, _⟩ | ⟨_, h6, ha⟩ | ⟨_, x, h6, _⟩
        · simp at h6
        · obtain ⟨ga, _, hc'⟩ := addError_ok ha
          obtain ⟨e1, e2⟩ := h2.2.1 (hs0 hte)
          refine ⟨hmove _ ((e2 _ hmove').congr (by rw [hc']) (by rw [hc']) rfl), by rw [hc']; exact h2.1 (by simp only; rw [hc1.1]; exact hI.state),
            fun _ => e1.congr (by rw [hc']) (by rw [hc']), h2.2.2.trans ga, by simp⟩
        · simp at h6
      | taken h1 h2 hj0 hj1 h4 h5 h6 h7 h8 h9 hj2 h11 h12 =>
        rename_i row pre tr post t0 t' c0 c1' c2
        rcases h12 with ⟨_, hp⟩ | ⟨x, h12, _⟩
        · have hf := runProds_frame (cfg := cfg) tr.prods t' c2
          obtain ⟨p1, p2, p3, p4, p5⟩ := runProds_spec hp
          rw [hp] at hf
          obtain ⟨e1, e2⟩ := hj2.2.1 (hs0 hte)
          refine ⟨hmove _ ((e2 _ hmove').congr hf.1 hf.2.1 rfl), by rw [hf.2.2]; exact hj2.1 (by simp only; rw [hc1.1]; exact hI.state),
            fun _ => e1.congr hf.1 hf.2.1, hj2.2.2.trans p3, by simp⟩
        · simp at h12
    | true =>
      -- nothing is read while the end of the text is matched
      have hcs2 := matchToken_cases hL ((closed_keepsP hL hS.keep).and (closed_errors hL)) q t { c1 with log := c1.log ++ [.take t.line] }
      rw [hm] at hcs2
      simp only at hcs2
      have hfr : c'.queue = c1.queue ∧ c'.scanner = c1.scanner := by
        unfold matchToken at hm
        split at hm
        · simp at hm
        · rename_i row hrow
          have hrw := rowsOk3_all q (mem_allStates hrow)
          unfold rowsOk3 at hrw
          rw [hrow] at hrw
          simp only at hrw
          have hkey : ∀ (rows : List Trans) (t1 t2 : Token) (d d' : Ctx μ σ) (y : Option Nat), (∀ tr ∈ rows, tr.kind = .eof → tr.la = none) → t1.eof = true →
              tryTrans cfg rows t1 d = (.ok y, t2, d') → d'.queue = d.queue ∧ d'.scanner = d.scanner := by
            intro rows
            induction rows with
            | nil => intro t1 t2 d d' y _ _ h; simp only [tryTrans, Prod.mk.injEq] at h; rw [h.2.2]; exact ⟨rfl, rfl⟩
            | cons tr trs ih =>
              intro t1 t2 d d' y hk he h
              unfold tryTrans testTrans at h
              have f1 := matchTok_frame (cfg := cfg) tr.kind t1 d
              have l1 := matchTok_line hL tr.kind t1 d
              rcases hmm : matchTok cfg tr.kind t1 d with ⟨r, t3, d1⟩
              rw [hmm] at h f1 l1
              simp only at f1 l1
              rcases r with x | b
              · simp at h
              · cases b with
                | false =>
                  have := ih t3 t2 d1 d' y (fun x hx => hk x (by simp [hx])) (by rw [Token.eof, l1]; exact he) h
                  exact ⟨this.1.trans f1.2.1, this.2.trans f1.1⟩
                | true =>
                  have hke : tr.kind = .eof := by
                    by_cases hke : tr.kind = .eof
                    · exact hke
                    · have := matchTok_eof (cfg := cfg) hke he d
                      rw [hmm] at this; simp at this
                  rw [hk tr (by simp) hke] at h
                  simp only at h
                  have hf := runProds_frame (cfg := cfg) tr.prods t3 d1
                  rcases hr : runProds cfg tr.prods t3 d1 with ⟨r, d3⟩
                  rw [hr] at h hf
                  rcases r with x | u
                  · simp at h
                  · simp only [Prod.mk.injEq] at h
                    rw [← h.2.2]
                    exact ⟨hf.2.1.trans f1.2.1, hf.1.trans f1.1⟩
          have hno : ∀ tr ∈ row.trans, tr.kind = .eof → tr.la = none := by
            intro tr htr hk
            split at hrw
            · simp only [tagRowOk, List.all_eq_true] at hrw
              have := hrw tr htr
              simp only [Bool.and_eq_true, Option.isNone_iff_eq_none] at this
              exact this.1.1.1
            · simp only [Bool.and_eq_true, laTag, List.all_eq_true] at hrw
              have := hrw.1 tr htr
              simp only [Bool.or_eq_true, Option.isNone_iff_eq_none, beq_iff_eq] at this
              rcases this with h | h
              · exact h
              · rw [hk] at h; cases h
          rcases htt : tryTrans cfg row.trans t { c1 with log := c1.log ++ [.take t.line] } with ⟨r, t2, d⟩
          rw [htt] at hm
          rcases r with x | y
          · simp at hm
          · have hk := hkey _ _ _ _ _ _ hno hte htt
            cases y with
            | some y => simp only [Prod.mk.injEq] at hm; rw [← hm.2]; exact hk
            | none =>
              simp only at hm
              split at hm
              · simp at hm
              · rcases hae : addError (unexpected row.expected t2) d with ⟨z, d2⟩
                rw [hae] at hm
                rcases z with x | u
                · simp at hm
                · simp only [Prod.mk.injEq] at hm
                  obtain ⟨_, _, hc'⟩ := addError_ok hae
                  rw [← hm.2, hc']; exact hk
      have hpe : P c'.matcher ∧ Grows c1.errors c'.errors := by
        cases hcs2 with
        | unexpected h1 h2 h3 h4 h5 h6 =>
          rcases h6 with ⟨_, h6, _⟩ | ⟨_, h6, ha⟩ | ⟨_, x, h6, _⟩
          · simp at h6
          · obtain ⟨ga, _, hc'⟩ := addError_ok ha
            exact ⟨by rw [hc']; exact h2.1 (by simp only; rw [hc1.1]; exact hI.state), h2.2.trans ga⟩
          · simp at h6
        | taken h1 h2 hj0 hj1 h4 h5 h6 h7 h8 h9 hj2 h11 h12 =>
          rename_i row pre tr post t0 t' c0 c1' c2
          rcases h12 with ⟨_, hp⟩ | ⟨x, h12, _⟩
          · have hf := runProds_frame (cfg := cfg) tr.prods t' c2
            obtain ⟨p1, p2, p3, p4, p5⟩ := runProds_spec hp
            rw [hp] at hf
            exact ⟨by rw [hf.2.2]; exact hj2.1 (by simp only; rw [hc1.1]; exact hI.state), hj2.2.trans p3⟩
          · simp at h12
      exact ⟨ha1.congr hfr.2 hfr.1 rfl, hpe.1, by simp, hpe.2, fun _ => hfr⟩
  obtain ⟨hal, hP', hsrc', hg, hfr⟩ := hall
  have hall' : AllIn4 text (takes c'.log) [] c' := by
    rw [htk']
    unfold AllIn4 at hal ⊢
    simpa using hal
  have herr : c'.errors = [] → c.errors = [] := by
    intro h
    rw [← hc1.2.2]
    exact hg.nil h
  -- what happens to the queue
  have hkey : c'.errors = [] → ∃ row t', table q = some row ∧
      tryTrans cfg row.trans t { c1 with log := c1.log ++ [.take t.line] } = (.ok (some q'), t', c') := by
    intro h0
    unfold matchToken at hm
    split at hm
    · simp at hm
    · rename_i row hrow
      refine ⟨row, ?_⟩
      rcases htt : tryTrans cfg row.trans t { c1 with log := c1.log ++ [.take t.line] } with ⟨r, t2, d⟩
      rw [htt] at hm
      rcases r with x | y
      · simp at hm
      · cases y with
        | some y => simp only [Prod.mk.injEq, Except.ok.injEq] at hm; exact ⟨t2, hrow, by rw [hm.1, hm.2]⟩
        | none =>
          simp only at hm
          split at hm
          · simp at hm
          · rcases hae : addError (unexpected row.expected t2) d with ⟨z, d2⟩
            rw [hae] at hm
            rcases z with x | u
            · simp at hm
            · simp only [Prod.mk.injEq] at hm
              obtain ⟨_, hne, hc'⟩ := addError_ok hae
              rw [← hm.2] at h0
              exact absurd h0 hne
  have hpc : P ({ c1 with log := c1.log ++ [.take t.line] } : Ctx μ σ).matcher := by simp only; rw [hc1.1]; exact hI.state
  constructor
  · intro he
    have hqueue : c'.errors = [] → (tagState q' = true → Held stuck c') ∧ (tagState q' = false → NoEof c') := by
      intro h0
      obtain ⟨row, t', hrow, htr⟩ := hkey h0
      have hrw := rowsOk3_all q (mem_allStates hrow)
      unfold rowsOk3 at hrw
      rw [hrow] at hrw
      simp only at hrw
      obtain ⟨a, ha, ha0, ha1'⟩ := hq1
      cases htq : tagState q with
      | true =>
        rw [htq] at hrw
        simp only [if_true] at hrw
        have hno : ∀ tr ∈ row.trans, tr.la = none := by
          intro tr htr
          have h2 := hrw
          simp only [tagRowOk, List.all_eq_true, Bool.and_eq_true, Option.isNone_iff_eq_none] at h2
          exact (h2 tr htr).1.1.1
        have hqq : c'.queue = c1.queue := (noLa_queue hno htr).trans rfl
        have hh := hI.held (herr h0) htq
        refine ⟨fun _ a' e b hq hee x hx => ?_, fun hq' x hx => ?_⟩
        · rw [hqq] at hq
          exact hh (a ++ a') e b (by rw [ha, hq, List.append_assoc]) hee x (by simp [hx])
        · rw [hqq] at hx
          cases hxe : x.eof with
          | false => rfl
          | true =>
            exfalso
            obtain ⟨s1, s2, hs12⟩ := List.append_of_mem hx
            have hst : stuck t.line := by
              refine hh (a ++ s1) x s2 (by rw [ha, hs12, List.append_assoc]) hxe t ?_
              rcases ha1' with h | h
              · rw [ha0 h] at hs12; simp at hs12
              · rw [h]; simp
            have := stuck_stays (q := q) hS hrw he hst hpc htr
            rw [hq'] at this; cases this
      | false =>
        rw [htq] at hrw
        simp only [Bool.false_eq_true, if_false, Bool.and_eq_true, Bool.or_eq_true] at hrw
        have hn := hI.noEof (herr h0) htq
        have hn1 : NoEof ({ c1 with log := c1.log ++ [.take t.line] } : Ctx μ σ) := by
          intro x hx
          exact hn x (by rw [ha]; exact List.mem_append.2 (.inr hx))
        rcases hrw.2 with h | h
        · have hqq : c'.queue = c1.queue := (noLa_queue (by simpa [List.all_eq_true] using h) htr).trans rfl
          have : NoEof c' := by intro x hx; rw [hqq] at hx; exact hn1 x hx
          exact ⟨fun _ => this.held, fun _ => this⟩
        · rcases row_held hS h.1 hrw.1 he hpc hn1 htr with g | ⟨g, tr, g1, g2, g3⟩
          · exact ⟨fun _ => g.held, fun _ => g⟩
          · refine ⟨fun _ => g, fun hq' => ?_⟩
            have h2 := h.2
            simp only [List.all_eq_true, Bool.or_eq_true, bne_iff_ne, ne_eq] at h2
            rcases h2 tr g1 with h | h
            · exact absurd g2 h
            · rw [g3, hq'] at h; cases h
    exact ⟨hP', hsrc' he, hall', fun h0 => (hqueue h0).1, fun h0 => (hqueue h0).2⟩
  · intro he h0
    obtain ⟨row, t', hrow, htr⟩ := hkey h0
    have hrw := rowsOk3_all q (mem_allStates hrow)
    unfold rowsOk3 at hrw
    rw [hrow] at hrw
    simp only at hrw
    obtain ⟨a, ha, ha0, ha1'⟩ := hq1
    cases htq : tagState q with
    | true =>
      exfalso
      rw [htq] at hrw
      simp only [if_true] at hrw
      simp only [tagRowOk, List.all_eq_true, Bool.and_eq_true, Option.isNone_iff_eq_none, bne_iff_ne, ne_eq] at hrw
      obtain ⟨tr, i1, i2, t0, t2, c0, c2, i3, i4, i5⟩ := taken_tok hS (fun x hx => (hrw x hx).1.1.1) hpc htr
      have := matchTok_eof (cfg := cfg) (hrw tr i1).1.1.2 (show t0.eof = true by rw [Token.eof, i3]; exact he) c0
      rw [i5] at this; simp at this
    | false =>
      have hn := hI.noEof (herr h0) htq
      have ha : c1.queue = [] := by
        rcases ha1' with h | h
        · exact ha0 h
        · exfalso
          have := hn t (by rw [ha, h]; simp)
          rw [he] at this; cases this
      have hd : (tokenLines text).drop c'.scanner.lineNumber = [] := by
        have hp := hall'
        unfold AllIn4 at hp
        rw [htk'] at hp
        have hc := hp.countP_eq (fun l : Line => l.isEof)
        have hone : (tokenLines text).countP (fun l : Line => l.isEof) = 1 := by
          obtain ⟨l, hl1, hl2⟩ := (tokenLines_numbered text).last
          have hz : (tokenLines text).dropLast.countP (fun l : Line => l.isEof) = 0 := by
            rw [List.countP_eq_zero]
            intro x hx
            rw [(tokenLines_numbered text).eof x hx]; simp
          have hne : tokenLines text ≠ [] := by simp [tokenLines]
          rw [← List.dropLast_concat_getLast hne, List.countP_append, hz]
          rw [List.getLast?_eq_some_getLast hne] at hl1
          cases hl1
          simp [hl2]
        have hte : t.line.isEof = true := he
        have h3 : ((tokenLines text).drop c'.scanner.lineNumber).countP (fun l : Line => l.isEof) = 0 := by
          rw [hone] at hc
          simp only [List.countP_append, List.countP_cons, hte, List.countP_nil, if_true] at hc
          omega
        cases hdd : (tokenLines text).drop c'.scanner.lineNumber with
        | nil => rfl
        | cons x xs =>
          exfalso
          have hll : eofLine text ∈ (tokenLines text).drop c'.scanner.lineNumber := by
            have hlt : c'.scanner.lineNumber < (tokenLines text).length := by
              rcases Nat.lt_or_ge c'.scanner.lineNumber (tokenLines text).length with h | h
              · exact h
              · rw [List.drop_eq_nil_of_le h] at hdd; cases hdd
            unfold tokenLines at hlt ⊢
            simp at hlt
            rw [List.drop_append_of_le_length (by omega)]
            simp
          rw [List.countP_eq_zero] at h3
          exact h3 _ hll rfl
      unfold AllIn4 at hall'
      rw [hd, (hfr he).1, ha] at hall'
      simpa using hall'

/-- In an accepted text every line is processed exactly once. -/
theorem parse_all_lines (hS : TagSafe cfg P tagged stuck) {text : Str} {m : μ} {b : σ} {r : ρ} {c : Ctx μ σ} (hm : P (cfg.matcher.reset m))
    (h : parse cfg text m b = (.ok r, c)) : (takes c.log).Perm (tokenLines text) := by
  have hL := hS.lawful
  unfold parse at h
  have hf := runProd_frame (cfg := cfg) (.start .gherkinDocument) (Token.fresh ⟨[], 0⟩) (Ctx.init cfg text m b)
  have htk := runProds_takes (cfg := cfg) [.start .gherkinDocument] (Token.fresh ⟨[], 0⟩) (Ctx.init cfg text m b)
  rcases hp : runProd cfg (.start .gherkinDocument) (Token.fresh ⟨[], 0⟩) (Ctx.init cfg text m b) with ⟨y, c0⟩
  rw [hp] at h hf
  simp only [runProds, hp] at htk
  rcases y with x | u
  · simp at h
  · simp only at h hf htk
    have hI : LInv P stuck text 0 c0 := by
      refine ⟨by rw [hf.2.2]; exact hm, ⟨?_, .inl ?_⟩, ?_, fun _ h => by simp [tagState] at h, fun _ _ => ?_⟩
      · rw [hf.2.1]; simp [Ctx.init]
      · rw [hf.1]; simp [Ctx.init, Scanner.ofStr]
      · unfold AllIn4
        rw [hf.1, hf.2.1, htk]
        simp [Ctx.init, Scanner.ofStr, takes]
      · intro x hx; rw [hf.2.1] at hx; simp [Ctx.init] at hx
    have hl := (parseLoop_ind (cfg := cfg) (LInv P stuck text) (fun _ c => c.errors = [] → (takes c.log).Perm (tokenLines text)) (fun _ _ => True)
      (fun q c t c1 hI hr => ⟨fun q' c' hm => ⟨(step_lines hS hI hr hm).2, (step_lines hS hI hr hm).1⟩, fun _ _ _ => trivial⟩)
      (c0.scanner.lines.length + 1) 0 c0 hI).1
    rcases hpl : parseLoop cfg (c0.scanner.lines.length + 1) 0 c0 with ⟨y, c1⟩
    rw [hpl] at h
    rcases y with x | u
    · simp at h
    · obtain ⟨q', hF⟩ := hl c1 hpl
      simp only at h
      have hpe := runProd_eq (cfg := cfg) (.stop .gherkinDocument) (Token.fresh ⟨[], 0⟩) c1
      have htk2 := runProds_takes (cfg := cfg) [.stop .gherkinDocument] (Token.fresh ⟨[], 0⟩) c1
      rcases hpp : runProd cfg (.stop .gherkinDocument) (Token.fresh ⟨[], 0⟩) c1 with ⟨y, c2⟩
      rw [hpp] at h hpe
      simp only [runProds, hpp] at htk2
      rcases y with x | u
      · simp at h
      · simp only at h htk2
        have hg := (handle_errors hpe.symm).1 () rfl
        split at h
        · simp at h
        · rename_i hne
          have hc2 : c2.errors = [] := by simpa using hne
          have hcc : c = c2 := by
            split at h <;> simp at h
            exact h.2.symm
          rw [hcc, htk2]
          exact hF (hg.1.nil hc2)

end

end Gherkin
