import Verif.Proofs.LayBack
import Verif.Proofs.BadConv
import Verif.Proofs.Describe
import Verif.Proofs.DocStrings
import Verif.Proofs.Language
import Verif.Proofs.LayTags
import Verif.Proofs.LayFile

/-! The facts about the tokens of an accepted text that make a layout of its lines. -/

namespace Gherkin

open Auto Cst Back

/-- A run over a text with its syntax tree. -/
structure Read (text : Str) (m : CState) (mv : List Move) (q : Nat) (m' : CState) (D : CDoc) : Prop where
  valid : m.Valid
  run : Run 0 (Classic.reset m) (tokenLines text) mv q m'
  ok : D.Ok
  toks : D.toks = (mv.map (·.tok)).filter Token.isCore

theorem mem_takeWhile_pos {α : Type} {p : α → Bool} {l : List α} {x : α} (h : x ∈ l.takeWhile p) : p x = true := by
  induction l with
  | nil => simp at h
  | cons y l ih =>
    rw [List.takeWhile_cons] at h
    split at h
    · rcases List.mem_cons.1 h with rfl | h
      · assumption
      · exact ih h
    · simp at h

namespace Read
variable {text : Str} {m : CState} {mv : List Move} {q : Nat} {m' : CState} {D : CDoc}

theorem lines (h : Read text m mv q m' D) : mv.map (fun y => y.tok.line) = tokenLines text := run_lines h.run (tokenLines_src text)

theorem nodup (h : Read text m mv q m' D) : ((mv.map (·.tok)).map fun x => x.line.number).Nodup := by
  have e : (mv.map (·.tok)).map (fun x => x.line.number) = (tokenLines text).map (·.number) := by
    rw [← h.lines]; simp [List.map_map]
  rw [e, List.nodup_iff_pairwise_ne, List.pairwise_iff_getElem]
  intro i j hi hj hij
  simp only [List.length_map] at hi hj
  simp only [List.getElem_map, tokenLines_getElem hi, tokenLines_getElem hj]
  omega

/-- The move at a place. -/
theorem at_ (h : Read text m mv q m' D) {mv1 : List Move} {x : Move} {mv2 : List Move} (e : mv = mv1 ++ x :: mv2) :
    ∃ l1 l l2 m1 m2, tokenLines text = l1 ++ l :: l2 ∧ l1.length = mv1.length ∧ StepSpec x.state l l2 m1 x.tr x.tok m2 ∧ x.tok.Of l ∧
      Inv x.state m1 ∧ Inv x.tr.target m2 ∧ l1 = mv1.map (fun y => y.tok.line) ∧
      ((l.isEof = true ∧ l2 = [] ∧ mv2 = [] ∧ q = x.tr.target ∧ m' = m2) ∨
       (l.isEof = false ∧ Src l2 ∧ Run x.tr.target m2 l2 mv2 q m')) := by
  subst e; exact run_at h.run (tokenLines_src text) (inv_start h.valid)

theorem calm {q : Nat} {m1 m2 : CState} {l : Line} {rest : List Line} {tr : Trans} {t : Token} (hi : Inv q m1) (hs : StepSpec q l rest m1 tr t m2)
    (h1 : tr.kind ≠ .other) (h2 : tr.kind ≠ .docStringSeparator) : m1.active = none := by
  apply Classical.byContradiction
  intro hc
  rcases hs.facts.inside (hi.active.2 hc) with h | h
  · exact h2 h
  · exact h1 h.1

/-- Lines between the tokens are blank or comments. -/
theorem noise_move (h : Read text m mv q m' D) {y : Move} (hy : y ∈ mv) (hc : y.tok.isCore = false) :
    (Layout.Blank y.tok.line.text ∨ Layout.Hash y.tok.line.text) ∧ (y.tr.kind = .comment → Layout.Hash y.tok.line.text) := by
  obtain ⟨mv1, mv2, e⟩ := List.append_of_mem hy
  obtain ⟨l1, l, l2, m1, m2, e1, e2, e3, e4, e5, e6, e7, e8⟩ := h.at_ e
  have hk := matched_type e3.matched
  rw [isCore_kind hk] at hc
  have hk' : y.tr.kind = .comment ∨ y.tr.kind = .empty := by simp at hc; by_cases h : y.tr.kind = .comment; exact .inl h; exact .inr (hc h)
  have ha := calm e5 e3 (by rcases hk' with h | h <;> simp [h]) (by rcases hk' with h | h <;> simp [h])
  have hf := fits_of_true ha (k := y.tr.kind) (l := l) (by rcases hk' with h | h <;> simp [h]) (by rcases hk' with h | h <;> simp [h]) (by rw [e3.matched])
  have hl : y.tok.line = l := e4.1
  rw [hl]
  refine ⟨?_, ?_⟩
  · rcases hk' with hk' | hk' <;> rw [hk'] at hf
    · exact .inr hf
    · exact .inl hf
  · intro hk2; rw [hk2] at hf; exact hf

theorem noise_at (h : Read text m mv q m' D) {mv2 : List Move} (hs : ∀ y ∈ mv2, y ∈ mv) : Layout.Noise (noiseAt (mv2.map (·.tok))) := by
  intro s hs'
  obtain ⟨t, ht, rfl⟩ := List.mem_map.1 hs'
  have h1 := mem_takeWhile_pos ht
  have h2 := (List.takeWhile_prefix _).subset ht
  obtain ⟨y, hy, rfl⟩ := List.mem_map.1 h2
  exact (h.noise_move (hs y hy) (by simpa using h1)).1

/-- The dialect at a token is that of the feature. -/
theorem dialect_at (h : Read text m mv q m' D) {mv1 : List Move} {x : Move} {mv2 : List Move} (e : mv = mv1 ++ x :: mv2)
    (h1 : x.tr.kind ≠ .comment) (h2 : x.tr.kind ≠ .empty) {l : Line} {l2 : List Line} {m1 m2 : CState} (e3 : StepSpec x.state l l2 m1 x.tr x.tok m2)
    (e5 : Inv x.state m1) (e6 : Inv x.tr.target m2)
    (e8 : (l.isEof = true ∧ l2 = [] ∧ mv2 = [] ∧ q = x.tr.target ∧ m' = m2) ∨ (l.isEof = false ∧ Src l2 ∧ Run x.tr.target m2 l2 mv2 q m')) :
    m'.dialect = m2.dialect := by
  rcases e8 with ⟨_, _, _, _, rfl⟩ | ⟨_, _, hr⟩
  · rfl
  · refine (run_dialect hr e6 ?_).1
    intro h0
    have hq := e3.facts.zero h0
    obtain ⟨row, hrow, htr⟩ := step_row e3
    rcases ((row9 hrow htr).1 hq).2.2 h0 with h | h
    · exact h1 h
    · exact h2 h

theorem tok_fine (h : Read text m mv q m' D) {t : Token} (ht : t ∈ D.toks) : TokFine (aft (mv.map (·.tok))) m'.dialect t := by
  rw [h.toks] at ht
  obtain ⟨ht, hcore⟩ := List.mem_filter.1 ht
  obtain ⟨x, hx, rfl⟩ := List.mem_map.1 ht
  obtain ⟨mv1, mv2, e⟩ := List.append_of_mem hx
  have hA : aft (mv.map (·.tok)) x.tok = noiseAt (mv2.map (·.tok)) := aft_at (a := mv1.map (·.tok)) (by rw [e]; simp) h.nodup
  obtain ⟨l1, l, l2, m1, m2, e1, e2, e3, e4, e5, e6, e7, e8⟩ := h.at_ e
  have hl : x.tok.line = l := e4.1
  have hk := matched_type e3.matched
  rw [isCore_kind hk] at hcore
  have hc1 : x.tr.kind ≠ .comment := by intro h; rw [h] at hcore; simp at hcore
  have hc2 : x.tr.kind ≠ .empty := by intro h; rw [h] at hcore; simp at hcore
  refine ⟨?_, ?_, ?_, ?_⟩
  · rw [hA]; exact h.noise_at fun y hy => by rw [e]; simp [hy]
  · intro k hk2 k1 k2 k3 k4
    rw [hk] at hk2
    injection hk2 with hk2
    have ha := calm e5 e3 (by rw [hk2]; exact k1) (by rw [hk2]; exact k2)
    have hf := fits_of_true ha (k := x.tr.kind) (l := l) (by rw [hk2]; exact k3) (by rw [hk2]; exact k4) (by rw [e3.matched])
    rw [hk2] at hf
    have hd : m'.dialect = m1.dialect := (h.dialect_at e hc1 hc2 e3 e5 e6 e8).trans (step_dialect e3 e5 (by rw [hk2]; exact k3)).1
    rw [hd, hl]
    exact (lineKind_iff e5.valid.known (l := l) k1).2 hf
  · intro hk2
    rw [hk] at hk2
    injection hk2 with hk2
    have hmt := e3.matched
    rw [hk2] at hmt
    simp only [Classic.matchKind, Classic.matchTagLine] at hmt
    split at hmt
    · rename_i hst
      split at hmt
      · rename_i tags htg
        rw [hl]
        exact (tags_ok_iff (s := l.text) (n := l.number) hst).1 ⟨tags, htg⟩
      · simp at hmt
    · simp at hmt
  · intro hk2
    rw [hk] at hk2
    injection hk2 with hk2
    have hmt := e3.matched
    rw [hk2] at hmt
    simp only [Classic.matchKind, Classic.matchTableRow] at hmt
    split at hmt
    · rename_i hst
      split at hmt
      · rename_i cells htg
        rw [hl]
        refine ⟨(row_ok_iff (s := l.text) (n := l.number) hst).1 ⟨cells, htg⟩, ?_⟩
        intro cells' hc
        have hc' : Line.tableCells l = .ok cells' := hc
        have htg' : Line.tableCells l = .ok cells := htg
        rw [hc'] at htg'
        injection htg' with htg'
        simp only [Prod.mk.injEq] at hmt
        rw [← hmt.2.1, htg']; rfl
      · simp at hmt
    · simp at hmt

theorem part_fine (h : Read text m mv q m' D) {p : CPart} (hp : p ∈ D.parts) : PartFine (aft (mv.map (·.tok))) m'.dialect p := by
  obtain ⟨p, line, desc⟩ := p
  by_cases hd0 : desc = []
  · exact .inl hd0
  refine .inr ?_
  simp only
  obtain ⟨A, B, hAB, hNH⟩ := doc_placed h.ok hp
  obtain ⟨pk, pd⟩ := parts_ok h.ok hp
  rw [h.toks] at hAB
  obtain ⟨mv1, x, mv2, e, hx, h2, _⟩ := locate hAB
  simp only at hx
  obtain ⟨l1, l, l2, m1, m2, e1, e2, e3, e4, e5, e6, e7, e8⟩ := h.at_ e
  have hk : x.tr.kind = partKind p := by
    have := matched_type e3.matched
    rw [hx, pk] at this
    simpa using this.symm
  have hne : l.isEof = false := by
    rcases e3.eof with h | h
    · rw [hk] at h; cases p <;> simp [partKind] at h
    · exact h
  have hdial := h.dialect_at e (by rw [hk]; cases p <;> simp [partKind]) (by rw [hk]; cases p <;> simp [partKind]) e3 e5 e6 e8
  rcases e8 with ⟨h, _⟩ | ⟨_, hsrc, hrun⟩
  · rw [hne] at h; simp at h
  obtain ⟨row, hrow, htr⟩ := step_row e3
  have hT := title_target hrow htr hk
  obtain ⟨q0, qo, _⟩ := state_parts p _ hT
  have ha : m2.active = none := by
    apply Classical.byContradiction
    intro h; exact qo (e6.active.2 h)
  obtain ⟨blanks, others, rest, mvB, mvO, mvR, f1, f2, f3, f4, f5, f6, f7, f8, f9⟩ := run_title hT hrun hsrc e6 ha
  have hlines := run_lines hrun hsrc
  rw [f1, f2] at hlines
  -- the tokens of the description
  have hBt : ∀ y ∈ mvB, y.tok.isCore = false := by
    intro y hy
    rw [isCore_kind (run_types hrun y (by rw [f2]; simp [hy])), f4 y hy]; simp
  have hB : (mvB.map (·.tok)).filter Token.isCore = [] := by
    rw [List.filter_eq_nil_iff]
    intro t htm
    obtain ⟨y, hy, rfl⟩ := List.mem_map.1 htm
    simp [hBt y hy]
  have hO : ∀ t ∈ mvO.map (·.tok), t.type = some .other := by
    intro t htm
    obtain ⟨y, hy, rfl⟩ := List.mem_map.1 htm
    rw [run_types hrun y (by rw [f2]; simp [hy]), f8 y hy]
  have hOc : ∀ t ∈ mvO.map (·.tok), t.isCore = true := fun t ht => by rw [isCore_kind (hO t ht)]; rfl
  have hOf : (mvO.map (·.tok)).filter Token.isCore = mvO.map (·.tok) := List.filter_eq_self.2 hOc
  rw [f2, List.map_append, List.filter_append, hB, List.nil_append, List.map_append, List.filter_append, hOf] at h2
  have hdesc : desc = mvO.map (·.tok) := (block_unique (p := fun t : Token => t.type = some .other) h2.symm pd hO
    (by intro z hz; exact hNH z hz) (by intro z hz; exact f9.nh z hz)).1
  -- their lines
  have hlen : mvB.length = blanks.length := by
    -- blanks are as many as their moves
    have hlo : mvO.length = others.length := by have := congrArg List.length f7; simpa using this
    obtain ⟨le, ls, g1, g2⟩ := f9.stop
    have hOne : mvO ≠ [] := by intro h0; apply hd0; rw [hdesc, h0]; rfl
    obtain ⟨o, mvO', rfl⟩ : ∃ o mvO', mvO = o :: mvO' := by cases mvO with | nil => exact absurd rfl hOne | cons o r => exact ⟨o, r, rfl⟩
    obtain ⟨lo, others', rfl⟩ : ∃ a b, others = a :: b := by cases others with | nil => simp at hlo | cons a b => exact ⟨a, b, rfl⟩
    have ho : o.tok.line = lo := by
      simp only [List.map_cons, List.cons.injEq] at f7
      rw [f7.1]; rfl
    -- numbers of lines are distinct
    have hnd : ((tokenLines text).map (·.number)).Nodup := by
      have := h.nodup
      rwa [List.map_map, show (fun x : Token => x.line.number) ∘ (fun x : Move => x.tok) = (fun y : Line => y.number) ∘ (fun y : Move => y.tok.line) from rfl,
        ← List.map_map, h.lines] at this
    have hl2 : l2 = mvB.map (fun y => y.tok.line) ++ (lo :: (mvO'.map (fun y => y.tok.line) ++ mvR.map (fun y => y.tok.line))) := by
      rw [f1, ← hlines]; simp [ho]
    have hl2' : l2 = blanks ++ (lo :: (others' ++ rest)) := by rw [f1]; simp
    have n1 := (lines_split (l1 := l1 ++ l :: mvB.map (fun y => y.tok.line)) (l := lo) (text := text) (by rw [e1, hl2]; simp; rfl)).1
    have n2 := (lines_split (l1 := l1 ++ l :: blanks) (l := lo) (text := text) (by rw [e1, hl2']; simp; rfl)).1
    rw [n1] at n2
    simp at n2; exact n2
  have hBl : mvB.map (fun y => y.tok.line) = blanks := by
    have := congrArg (List.take mvB.length) hlines
    rw [List.map_append, List.take_left' (by simp), List.take_left' hlen.symm] at this
    exact this
  have hOl : mvO.map (fun y => y.tok.line) = others := by
    have := congrArg (List.map fun t : Token => t.line) f7
    rw [List.map_map, List.map_map] at this
    refine this.trans ?_
    exact (List.map_congr_left (g := id) (fun y _ => rfl)).trans (List.map_id _)
  have hRl : mvR.map (fun y => y.tok.line) = rest := by
    rw [List.map_append, List.map_append, hBl, hOl] at hlines
    exact List.append_cancel_left (List.append_cancel_left hlines)
  have hsub : ∀ y ∈ mvB ++ (mvO ++ mvR), y ∈ mv := by intro y hy; rw [e, f2]; simp only [List.mem_append, List.mem_cons]; exact .inr (.inr (by simpa using hy))
  have hall : mv.map (·.tok) = (mv1.map (·.tok) ++ line :: mvB.map (·.tok)) ++ (mvO.map (·.tok) ++ mvR.map (·.tok)) := by
    rw [e, f2, ← hx]; simp
  have hnoise_line : aft (mv.map (·.tok)) line = blanks.map (·.text) := by
    have hOne : mvO.map (·.tok) ≠ [] := by rw [← hdesc]; exact hd0
    rw [aft_at (a := mv1.map (·.tok)) (b := mvB.map (·.tok) ++ (mvO.map (·.tok) ++ mvR.map (·.tok))) (by rw [hall]; simp) h.nodup, noiseAt]
    rw [List.takeWhile_append_of_pos (by intro t ht; obtain ⟨y, hy, rfl⟩ := List.mem_map.1 ht; simp [hBt y hy])]
    obtain ⟨o, os, ho⟩ : ∃ o os, mvO.map (·.tok) = o :: os := by cases h0 : mvO.map (·.tok) with | nil => exact absurd h0 hOne | cons o os => exact ⟨o, os, rfl⟩
    rw [ho, List.cons_append, List.takeWhile_cons, if_neg (by rw [hOc o (by rw [ho]; simp)]; simp), List.append_nil, ← hBl]
    simp [List.map_map]
  have hDl : desc.map (fun t => t.line) = others := by rw [hdesc, ← hOl]; simp [List.map_map]
  refine ⟨?_, ?_, ?_, ?_, ?_⟩
  · intro s hs
    rw [hnoise_line] at hs
    obtain ⟨y, hy, rfl⟩ := List.mem_map.1 hs
    exact (f3 y hy).2
  · intro t ht hb
    have := f5 t.line (by rw [← hDl, List.head?_map]; simp at ht; simp [ht])
    have hb' : isBlankLine t.line = true := hb
    rw [hb'] at this; simp at this
  · intro t ht
    have := (f6 t.line (by rw [← hDl]; exact List.mem_map_of_mem ht)).2
    rw [hdial]; exact this
  · intro t ht
    obtain ⟨i, z, hiz⟩ : ∃ i z, desc = i ++ [z] := by
      rcases List.eq_nil_or_concat desc with h0 | ⟨i, z, h0⟩
      · exact absurd h0 hd0
      · exact ⟨i, z, by simpa using h0⟩
    rw [hiz, List.dropLast_concat] at ht
    obtain ⟨i1, i2, rfl⟩ := List.append_of_mem ht
    have hnext : ∃ o os, i2 ++ [z] ++ mvR.map (·.tok) = o :: os ∧ o.isCore = true := by
      cases i2 with
      | nil => exact ⟨z, _, rfl, hOc z (by rw [← hdesc, hiz]; simp)⟩
      | cons o os => exact ⟨o, _, rfl, hOc o (by rw [← hdesc, hiz]; simp)⟩
    obtain ⟨o, os, ho, hoc⟩ := hnext
    rw [aft_at (a := mv1.map (·.tok) ++ line :: mvB.map (·.tok) ++ i1) (b := i2 ++ [z] ++ mvR.map (·.tok)) (by
      rw [hall, ← hdesc, hiz]; simp) h.nodup, ho, noiseAt, List.takeWhile_cons, if_neg (by rw [hoc]; simp)]; rfl
  · intro z hz s hs
    obtain ⟨i, hiz⟩ : ∃ i, desc = i ++ [z] := by
      rcases List.eq_nil_or_concat desc with h0 | ⟨i, z', h0⟩
      · exact absurd h0 hd0
      · rw [h0] at hz; simp at hz; exact ⟨i, by rw [h0, hz]; simp⟩
    rw [aft_at (a := mv1.map (·.tok) ++ line :: mvB.map (·.tok) ++ i) (b := mvR.map (·.tok)) (by
      rw [hall, ← hdesc, hiz]; simp) h.nodup] at hs
    cases hmR : mvR with
    | nil => rw [hmR] at hs; simp [noiseAt] at hs
    | cons y ys =>
      rw [hmR] at hs
      cases hyc : y.tok.isCore with
      | true => simp [noiseAt, hyc] at hs
      | false =>
        simp [noiseAt, hyc] at hs
        have hym : y ∈ mv := hsub y (by simp [hmR])
        rcases (h.noise_move hym hyc).1 with hb | hh
        · exfalso
          obtain ⟨le, ls, g1, g2⟩ := f9.stop
          have hyl : y.tok.line = le := by rw [g1, hmR] at hRl; simp at hRl; exact hRl.1
          have hb' : isBlankLine y.tok.line = true := hb
          rw [hyl] at hb'
          rcases g2 with ⟨g2, _⟩ | ⟨_, _, g2⟩
          · -- the end of the file is no blank line token
            obtain ⟨mva, mvb, ee⟩ := List.append_of_mem hym
            obtain ⟨_, l', _, _, _, _, _, s3, s4, _⟩ := h.at_ ee
            rcases s3.eof with h0 | h0
            · rw [isCore_kind (matched_type s3.matched), h0] at hyc; simp at hyc
            · rw [← s4.1, hyl, g2] at h0; simp at h0
          · rw [hb'] at g2; simp at g2
        · rw [← hs]; exact hh

theorem arg_fine (h : Read text m mv q m' D) {S : CStep} (hS : S ∈ D.steps) : ArgFine (aft (mv.map (·.tok))) S.arg := by
  cases ha : S.arg with
  | none => trivial
  | table r rs => trivial
  | doc o ls c =>
    have hok := (csteps_ok h.ok hS).2
    rw [ha] at hok
    obtain ⟨A, B, hAB⟩ := step_infix hS
    have h1 : (mv.map (·.tok)).filter Token.isCore = (A ++ [S.line]) ++ o :: (ls ++ c :: B) := by
      rw [← h.toks, ← hAB]; simp [CStep.toks, ha, Arg.toks]
    obtain ⟨mv1, x, mv2, e, hx, h2, _⟩ := locate h1
    obtain ⟨l1, l, l2, m1, m2, e1, e2, e3, e4, e5, e6, e7, e8⟩ := h.at_ e
    have hk : x.tr.kind = .docStringSeparator := by
      have := matched_type e3.matched
      rw [hx, hok.1] at this
      simpa using this.symm
    have hmt := e3.matched
    rw [hk] at hmt
    rcases docSep_cases e5.sep hmt with ⟨_, s, hs, hst, hm2, htok⟩ | ⟨s, _, _, _, htok⟩
    · have hne : l.isEof = false := by
        rcases e3.eof with h | h
        · rw [hk] at h; simp at h
        · exact h
      rcases e8 with ⟨h, _⟩ | ⟨_, hsrc, hrun⟩
      · rw [hne] at h; simp at h
      obtain ⟨content, closing, rest, mvC, y, mv', f1, f2, f3, f4, f5, f6, f7, f8, f9, f10, _, _, f11, _⟩ :=
        run_open (s := s) hrun hsrc e6 (by rw [hm2])
      have htypes : ∀ z ∈ mvC.map (·.tok), z.type = some .other := by
        rw [f6]; intro z hz; simp at hz; obtain ⟨w, _, rfl⟩ := hz; rfl
      have hcores : ∀ z ∈ mvC.map (·.tok), z.isCore = true := fun z hz => by rw [isCore_kind (htypes z hz)]; rfl
      have hyt : y.tok.type = some .docStringSeparator := by
        have := run_types hrun y (by rw [f5]; simp); rw [this, f7]
      have hyc : y.tok.isCore = true := by rw [isCore_kind hyt]; rfl
      rw [f5, List.map_append, List.filter_append, List.filter_eq_self.2 hcores, List.map_cons, List.filter_cons, if_pos hyc] at h2
      have hblock := block_unique (p := fun t : Token => t.type = some .other) h2.symm hok.2.2.1 htypes
        (by intro z hz; simp at hz; subst hz; rw [hok.2.2.2]; simp) (by intro z hz; simp at hz; subst hz; rw [hyt]; simp)
      obtain ⟨b1, b2⟩ := hblock
      simp only [List.cons.injEq] at b2
      have hlsl : ls.map (fun t => t.line) = content := by
        rw [b1, f6, List.map_map]
        exact (List.map_congr_left (g := id) (fun y _ => rfl)).trans (List.map_id _)
      have hall : mv.map (·.tok) = (mv1.map (·.tok) ++ [o]) ++ (ls ++ c :: mv'.map (·.tok)) := by
        rw [e, f5, ← hx, b1, b2.1]; simp
      have hlsc : ∀ t ∈ ls, t.isCore = true := by rw [b1]; exact hcores
      have hcc : c.isCore = true := by rw [b2.1]; exact hyc
      have hnext : ∀ (i : List Token), (∀ t ∈ i, t.isCore = true) → ∀ r, noiseAt (i ++ c :: r) = [] := by
        intro i hi r
        cases i with
        | nil => simp [noiseAt, hcc]
        | cons z zs => simp [noiseAt, hi z (by simp)]
      refine ⟨?_, ?_, s, ?_, ?_, ?_, ?_⟩
      · rw [aft_at (a := mv1.map (·.tok)) (b := ls ++ c :: mv'.map (·.tok)) (by rw [hall]; simp) h.nodup, hnext ls hlsc]
      · intro t ht
        obtain ⟨i1, i2, e0⟩ := List.append_of_mem ht
        rw [aft_at (a := mv1.map (·.tok) ++ [o] ++ i1) (b := i2 ++ c :: mv'.map (·.tok)) (by rw [hall, e0]; simp) h.nodup, hnext i2 fun z hz => hlsc z (by rw [e0]; simp [hz])]
      · rcases hs with rfl | rfl <;> simp [docDelimiters, Classic.quotes, Classic.ticks]
      · have : o.line = l := by rw [← hx]; exact e4.1
        rw [this]; exact hst
      · intro t ht
        exact f2 t.line (by rw [← hlsl]; exact List.mem_map_of_mem ht)
      · have : c.line = closing := by rw [b2.1]; exact f8.1
        rw [this]; exact f3
    · rw [← hx, htok] at hok
      have := hok.2.1
      simp [setMatched] at this

theorem state_of_noncore : ∀ {mv1 : List Move} {m : CState} {lines : List Line} {z : Move} {mv2 : List Move} {q' : Nat} {m' : CState},
    Run 0 m lines (mv1 ++ z :: mv2) q' m' → Src lines → (∀ y ∈ mv1, y.tok.isCore = false) → z.state = 0 := by
  intro mv1
  induction mv1 with
  | nil =>
    intro m lines z mv2 q' m' h hs _
    obtain ⟨l, rest, x, mv', m1, h1, h2, h3, h4, _⟩ := run_cons h hs
    simp at h2
    simp [h2.1, h3]
  | cons y mv1 ih =>
    intro m lines z mv2 q' m' h hs hc
    obtain ⟨l, rest, x, mv', m1, h1, h2, h3, h4, h5, h6⟩ := run_cons h hs
    simp at h2
    rcases h6 with ⟨_, _, h7, _⟩ | ⟨hne, hs', hr⟩
    · rw [h7] at h2; simp at h2
    · rw [← h2.2] at hr
      have hy := hc y (by simp)
      rw [h2.1, isCore_kind (matched_type h4.matched)] at hy
      have hk' : x.tr.kind = .comment ∨ x.tr.kind = .empty := by simp at hy; by_cases h : x.tr.kind = .comment; exact .inl h; exact .inr (hy h)
      obtain ⟨row, hrow, htr⟩ := step_row h4
      rw [((row9 hrow htr).1 rfl).2.1 hk'] at hr
      exact ih hr hs' fun w hw => hc w (by simp [hw])

/-- What stands before the first token is blank or comment, and no language header. -/
theorem before_fine (h : Read text m mv q m' D) : ∀ s ∈ noiseAt (mv.map (·.tok)), ∀ name, ¬ IsHeader name s := by
  intro s hs
  obtain ⟨t, ht, rfl⟩ := List.mem_map.1 hs
  obtain ⟨t1, t2, e⟩ := List.append_of_mem ht
  have hcore := mem_takeWhile_pos ht
  have hpre : t1 ++ [t] <+: mv.map (·.tok) := ⟨t2 ++ (mv.map (·.tok)).dropWhile (fun t => !t.isCore), by
    have := List.takeWhile_append_dropWhile (p := fun t : Token => !t.isCore) (l := mv.map (·.tok))
    rw [e] at this
    simpa using this⟩
  have hpc : ∀ z ∈ t1, z.isCore = false := fun z hz => by
    have := mem_takeWhile_pos (p := fun t : Token => !t.isCore) (l := mv.map (·.tok)) (x := z) (by rw [e]; simp [hz])
    simpa using this
  obtain ⟨r, hr⟩ := hpre
  obtain ⟨mv0, mv2, e', g1, g2⟩ := List.map_eq_append_iff.1 hr.symm
  obtain ⟨mv1, mvx, e'', g3, g4⟩ := List.map_eq_append_iff.1 g1
  obtain ⟨x, rfl, hx⟩ := List.map_eq_singleton_iff.1 g4
  have e0 : mv = mv1 ++ x :: mv2 := by rw [e', e'']; simp
  obtain ⟨l1, l, l2, m1, m2, e1, e2, e3, e4, e5, e6, e7, e8⟩ := h.at_ e0
  have hs0 : x.state = 0 := by
    have hr' := h.run
    rw [e0] at hr'
    refine state_of_noncore hr' (tokenLines_src text) ?_
    intro y hy
    refine hpc y.tok ?_
    rw [← g3]; exact List.mem_map_of_mem hy
  have hxc : x.tok.isCore = false := by rw [hx]; simpa using hcore
  rw [isCore_kind (matched_type e3.matched)] at hxc
  have hk' : x.tr.kind = .comment ∨ x.tr.kind = .empty := by simp at hxc; by_cases h : x.tr.kind = .comment; exact .inl h; exact .inr (hxc h)
  have hne : l.isEof = false := by
    rcases e3.eof with h | h
    · rcases hk' with h' | h' <;> rw [h] at h' <;> simp at h'
    · exact h
  obtain ⟨row, hrow, htr⟩ := step_row e3
  have h0 := ((row9 hrow htr).1 hs0).2.1 hk'
  rw [hs0] at e3 e5
  have hb := (target_zero e5 hne e3).1 h0
  have : t.line = l := by rw [← hx]; exact e4.1
  rw [this]
  exact not_header.1 hb.2

/-- The lines of the text, from the tokens. -/
theorem texts (h : Read text m mv q m' D) :
    splitLines text ++ [[]] = noiseAt (mv.map (·.tok)) ++ D.toks.flatMap (grp (aft (mv.map (·.tok)))) := by
  have h1 := groups h.nodup
  rw [← h.toks] at h1
  rw [← h1]
  have : (mv.map (·.tok)).map (fun t => t.line.text) = (tokenLines text).map (·.text) := by rw [← h.lines]; simp [List.map_map]
  rw [this, tokenLines_from, List.map_append, linesFrom_text]; rfl

/-- The end of the file. -/
theorem eof_grp (h : Read text m mv q m' D) : grp (aft (mv.map (·.tok))) D.eof = [[]] := by
  have hk := h.ok.2
  obtain ⟨mv1, x, mv2, e, hx, h2, _⟩ := locate (A := D.feature.toList.flatMap CFeature.toks) (B := []) (o := D.eof) (by rw [← h.toks]; rfl)
  obtain ⟨l1, l, l2, m1, m2, e1, e2, e3, e4, e5, e6, e7, e8⟩ := h.at_ e
  have hkk : x.tr.kind = .eof := by have := matched_type e3.matched; rw [hx, hk] at this; simpa using this.symm
  have hm := e3.matched
  rw [hkk] at hm
  have he : l.isEof = true := by
    simp only [Classic.matchKind, Classic.matchEof] at hm
    split at hm
    · assumption
    · simp at hm
  rcases e8 with ⟨_, _, h3, _⟩ | ⟨h3, _⟩
  · subst h3
    have hl : D.eof.line = l := by rw [← hx]; exact e4.1
    rw [grp, aft_at (a := mv1.map (·.tok)) (b := []) (by rw [e, ← hx]; simp) h.nodup, hl]
    have : l.text = [] := by simpa [Line.isEof] using he
    rw [this]; rfl
  · rw [he] at h3; simp at h3

theorem no_lang {f : CFeature} (h : Read text m mv q m' D) (hf : D.feature = some f) (hl : f.language = none) : ∀ x ∈ mv, x.tr.kind ≠ .language := by
  intro x hx hk
  obtain ⟨mv1, mv2, e⟩ := List.append_of_mem hx
  obtain ⟨l1, l, l2, m1, m2, e1, e2, e3, e4, e5, e6, e7, e8⟩ := h.at_ e
  have h0 := (e3.facts.lang hk).1
  have hr := h.run
  rw [e] at hr
  have hb := (state_zero hr (tokenLines_src text) (inv_start h.valid)).1 h0
  -- all moves before are not tokens
  have hnc : (mv1.map (·.tok)).filter Token.isCore = [] := by
    rw [List.filter_eq_nil_iff]
    intro t ht hc
    obtain ⟨y, hy, rfl⟩ := List.mem_map.1 ht
    obtain ⟨a, b, e'⟩ := List.append_of_mem (show y ∈ mv by rw [e]; simp [hy])
    obtain ⟨_, ly, _, my1, _, _, _, s3, s4, s5, _, _, s8⟩ := h.at_ e'
    have hy0 : y.state = 0 := by
      obtain ⟨c1, c2, hc'⟩ := List.append_of_mem hy
      rw [hc'] at hr hb
      refine (state_zero (mv1 := c1) (z := y) (mv2 := c2 ++ x :: mv2) (by simpa using hr) (tokenLines_src text) (inv_start h.valid)).2 fun w hw => hb w (by simp [hw])
    rw [hy0] at s3 s5
    obtain ⟨row, hrow, htr⟩ := step_row s3
    have hby := hb y hy
    rw [s4.1] at hby
    have hyne : ly.isEof = false := by
      obtain ⟨src, e9, g1, g2, g3⟩ := (tokenLines_src text).shape
      apply g3
      rw [e1] at g1
      have : l1 ++ (l :: l2).dropLast = src := by
        have := congrArg List.dropLast g1
        rwa [List.dropLast_append_of_ne_nil (by simp), List.dropLast_concat] at this
      rw [← this, e7, ← s4.1]
      exact List.mem_append_left _ (List.mem_map_of_mem (f := fun y : Move => y.tok.line) hy)
    have h00 := (target_zero s5 hyne s3).2 hby
    have := ((row9 hrow htr).1 rfl).2.2 h00
    rw [isCore_kind (matched_type s3.matched)] at hc
    rcases this with h' | h' <;> rw [h'] at hc <;> simp at hc
  have hxc : x.tok.isCore = true := by rw [isCore_kind (matched_type e3.matched), hk]; rfl
  have ht := h.toks
  rw [e, List.map_append, List.filter_append, hnc, List.nil_append, List.map_cons, List.filter_cons, if_pos hxc] at ht
  have hty := matched_type e3.matched
  rw [hk] at hty
  have hok := h.ok.1 f (by simpa using hf)
  simp only [CDoc.toks, hf, CFeature.toks, hl, Option.toList_some, List.flatMap_cons, List.flatMap_nil, List.append_nil, Option.toList_none, List.nil_append] at ht
  cases htg : f.tags with
  | nil =>
    rw [htg] at ht
    simp only [List.nil_append, List.cons_append, List.cons.injEq] at ht
    rw [← ht.1, hok.2.2.1] at hty; simp at hty
  | cons t tl =>
    rw [htg] at ht
    simp only [List.cons_append, List.cons.injEq] at ht
    have := hok.2.1 t (by rw [htg]; simp)
    rw [← ht.1, this] at hty; simp at hty

/-- **Every accepted text has a layout.** -/
theorem layout {f : CFeature} (h : Read text m mv q m' D) (hf : D.feature = some f) :
    ∃ F : Layout.File, F.Ok m.defaultName ∧ splitLines text = F.texts := by
  have hok := h.ok.1 f (by simpa using hf)
  have hsub : ∀ t ∈ f.toks, t ∈ D.toks := fun t ht => by simp [CDoc.toks, hf, ht]
  obtain ⟨g1, g2⟩ := feature_okay (A := aft (mv.map (·.tok))) (d := m'.dialect) hok (fun t ht => h.tok_fine (hsub t ht))
    (fun p hp => h.part_fine (by simp [CDoc.parts, hf, hp]))
    (fun x hx => h.arg_fine (by simpa [CDoc.steps, CDoc.backgrounds, CDoc.scenarios, hf] using hx))
  refine ⟨⟨noiseAt (mv.map (·.tok)), f.language.map (lnOf (aft (mv.map (·.tok)))), featureOf (aft (mv.map (·.tok))) f⟩, ⟨h.noise_at fun _ h => h, h.before_fine, ?_⟩, ?_⟩
  · cases hl : f.language with
    | none =>
      simp only [Option.map_none]
      have := run_nolang h.run (inv_start h.valid) (h.no_lang hf hl)
      have hcur := (run_inv h.run (inv_start h.valid)).valid.cur
      rw [this.2, reset_name h.valid] at hcur
      exact ⟨m'.dialect, hcur, g1⟩
    | some t =>
      simp only [Option.map_some]
      have htm : t ∈ D.toks := hsub t (by simp [CFeature.toks, hl])
      refine ⟨(h.tok_fine htm).noise, ?_⟩
      have hty := hok.1 t hl
      rw [h.toks] at htm
      obtain ⟨htm, _⟩ := List.mem_filter.1 htm
      obtain ⟨x, hx, rfl⟩ := List.mem_map.1 htm
      obtain ⟨mv1, mv2, e⟩ := List.append_of_mem hx
      obtain ⟨l1, l, l2, m1, m2, e1, e2, e3, e4, e5, e6, e7, e8⟩ := h.at_ e
      have hkk : x.tr.kind = .language := by have := matched_type e3.matched; rw [hty] at this; simpa using this.symm
      have hd := h.dialect_at e (by rw [hkk]; simp) (by rw [hkk]; simp) e3 e5 e6 e8
      have hmt := e3.matched
      rw [hkk] at hmt
      simp only [Classic.matchKind, Classic.matchLanguage] at hmt
      split at hmt
      · simp at hmt
      · rename_i name hn
        split at hmt
        · rename_i d hdn
          simp only [Prod.mk.injEq] at hmt
          refine ⟨name, d, ?_, hdn, ?_⟩
          · simp only [lnOf]; rw [e4.1]; exact header_iff.1 hn
          · have : d = m'.dialect := by rw [hd, ← hmt.2.2]
            rw [this]; exact g1
        · simp at hmt
  · have ht := h.texts
    have : D.toks.flatMap (grp (aft (mv.map (·.tok)))) = f.toks.flatMap (grp (aft (mv.map (·.tok)))) ++ [[]] := by
      rw [CDoc.toks, hf]; simp [h.eof_grp]
    rw [this, g2, ← List.append_assoc] at ht
    rw [List.append_cancel_right ht]
    simp only [Layout.File.texts]
    congr 1
    congr 1
    cases f.language <;> simp [grp, lnOf, Layout.Ln.texts]

/-- An accepted text without a feature has only blank lines and comments. -/
theorem nothing (h : Read text m mv q m' D) (hf : D.feature = none) :
    Layout.Noise (splitLines text) ∧ ∀ s ∈ splitLines text, ∀ name, ¬ IsHeader name s := by
  have ht := h.texts
  have : D.toks.flatMap (grp (aft (mv.map (·.tok)))) = [[]] := by rw [CDoc.toks, hf]; simp [h.eof_grp]
  rw [this] at ht
  rw [List.append_cancel_right ht]
  exact ⟨h.noise_at fun _ h => h, h.before_fine⟩

end Read

end Gherkin
