import Verif.Proofs.MdNoise
import Verif.Props.Noise

/-! Markdown runs build documents; texts that differ by a line of prose have runs with the same content. -/

namespace Gherkin

open Md Markdown Cst

/-! ### Runs are paths -/

theorem mdPick_split {sk : Line → Bool} {l : Line} {rest : List Line} : ∀ {rows : List Trans} {m m' : MdState} {tr : Trans} {t : Token},
    MdAuto.pick sk rows l rest m = some (tr, t, m') → ∃ pre post, rows = pre ++ tr :: post ∧ (∃ m0 m1, MdAuto.test tr.kind l m0 = (.ok true, t, m1)) ∧
      ∀ x ∈ pre, x.la = none → ∃ m0 t0 m1, MdAuto.test x.kind l m0 = (.ok false, t0, m1) := by
  intro rows
  induction rows with
  | nil => intro m m' tr t h; simp [MdAuto.pick] at h
  | cons x xs ih =>
    intro m m' tr t h
    have more : ∀ {m1}, MdAuto.pick sk xs l rest m1 = some (tr, t, m') → (x.la = none → ∃ m0 t0 m1, MdAuto.test x.kind l m0 = (.ok false, t0, m1)) →
        ∃ pre post, x :: xs = pre ++ tr :: post ∧ (∃ m0 m1, MdAuto.test tr.kind l m0 = (.ok true, t, m1)) ∧
          ∀ x ∈ pre, x.la = none → ∃ m0 t0 m1, MdAuto.test x.kind l m0 = (.ok false, t0, m1) := by
      intro m1 h1 h2
      obtain ⟨pre, post, g1, g2, g3⟩ := ih h1
      refine ⟨x :: pre, post, by rw [g1]; rfl, g2, fun y hy => ?_⟩
      rcases List.mem_cons.1 hy with rfl | hy
      · exact h2
      · exact g3 y hy
    simp only [MdAuto.pick] at h
    rcases ht : MdAuto.test x.kind l m with ⟨r, t1, m1⟩
    rw [ht] at h
    cases r with
    | error e => simp at h
    | ok b =>
      cases b with
      | false => exact more h fun _ => ⟨_, _, _, ht⟩
      | true =>
        simp only at h
        cases hla : x.la with
        | none =>
          rw [hla] at h
          simp only [Option.some.injEq, Prod.mk.injEq] at h
          obtain ⟨rfl, rfl, _⟩ := h
          exact ⟨[], xs, rfl, ⟨_, _, ht⟩, by simp⟩
        | some la =>
          rw [hla] at h
          simp only at h
          cases hp : MdAuto.peek sk la rest m1 with
          | none => rw [hp] at h; simp at h
          | some z =>
            obtain ⟨b, m2⟩ := z
            rw [hp] at h
            cases b with
            | true =>
              simp only [Option.some.injEq, Prod.mk.injEq] at h
              obtain ⟨rfl, rfl, _⟩ := h
              exact ⟨[], xs, rfl, ⟨_, _, ht⟩, by simp⟩
            | false => exact more h fun e => by rw [hla] at e; simp at e

theorem mdTest_type {k : Kind} {l : Line} {m m' : MdState} {t : Token} (h : MdAuto.test k l m = (.ok true, t, m')) :
    matchKind k (Token.fresh l) m = (.ok true, t, m') ∧ t.type = some k ∧ (k = .eof ↔ l.isEof = true) := by
  unfold MdAuto.test at h
  by_cases hc : k ≠ .eof ∧ l.isEof = true
  · rw [if_pos hc] at h; simp at h
  · rw [if_neg hc] at h
    refine ⟨h, ?_, ?_⟩
    · have h4 := markdown_lawful.type k (Token.fresh l) m
      rw [show markdown.match_ k (Token.fresh l) m = _ from h] at h4
      exact h4 rfl
    · constructor
      · intro hk
        subst hk
        have := markdown_lawful.eof (Token.fresh l) m
        rw [show markdown.match_ .eof (Token.fresh l) m = _ from h] at this
        exact this.1 rfl
      · intro he
        by_cases hk : k = .eof
        · exact hk
        · exact absurd ⟨hk, he⟩ hc

theorem mdStep_fit {sk : Line → Bool} {q : Nat} {l : Line} {rest : List Line} {m m' : MdState} {tr : Trans} {t : Token}
    (h : MdAuto.step sk q l rest m = some (tr, t, m')) : MoveFits q tr t ∧ (tr.kind = .eof ↔ l.isEof = true) := by
  unfold MdAuto.step at h
  cases hrow : table q with
  | none => rw [hrow] at h; simp at h
  | some row =>
    rw [hrow] at h
    simp only at h
    obtain ⟨pre, post, h1, ⟨m0, m1, h2⟩, h3⟩ := mdPick_split h
    obtain ⟨hmk, hty, heof⟩ := mdTest_type h2
    have hq := mem_allStates hrow
    have hA := rows_okT q (by simp [hq])
    unfold rowOkT at hA
    rw [hrow] at hA
    simp only [List.all_eq_true, Bool.and_eq_true, beq_iff_eq] at hA
    obtain ⟨_, _, hA⟩ := hA
    have htr : tr ∈ row.trans := by rw [h1]; simp
    obtain ⟨⟨hdesc, _⟩, _⟩ := hA tr htr
    have hdp := docPending (q := q) (by simp [hq])
    refine ⟨⟨⟨row, hrow, htr⟩, hty, fun P hP => ⟨hty, hP, ?_, ?_, ?_⟩⟩, heof⟩
    · intro hk; rw [hk] at hmk; exact other_some hmk
    · intro hk hd
      simp only [AStack.pend, hdp.1, Bool.false_or] at hd
      rw [hd] at hdesc
      simp only [Bool.not_true, Bool.false_or, Bool.and_eq_true, beq_iff_eq, List.all_eq_true, List.any_eq_true] at hdesc
      obtain ⟨⟨_, hlast⟩, x, x1, x2, x3⟩ := hdesc
      have hpost : post = [] := by
        by_cases hp : post = []
        · exact hp
        · exfalso
          have := hlast tr (by rw [h1]; exact dropLast_mem hp)
          rw [hk] at this; simp at this
      subst hpost
      have hxp : x ∈ pre := by
        rw [h1] at x1
        rcases List.mem_append.1 x1 with h | h
        · exact h
        · simp at h; subst h; rw [hk] at x2; simp at x2
      obtain ⟨u0, t0, u1, z⟩ := h3 x hxp x3
      have hne : l.isEof = false := by
        cases he : l.isEof with
        | false => rfl
        | true => have := heof.2 he; rw [hk] at this; simp at this
      rw [x2] at z
      unfold MdAuto.test at z
      rw [if_neg (by rw [hne]; simp)] at z
      have hb : l.isBlank = false := empty_refused z
      rw [hk] at hmk
      exact other_solid hb hmk
    · intro hk _; rw [hk] at hmk; exact sep_some hmk

theorem mdRun_path {sk : Line → Bool} {q : Nat} {m : MdState} {ls : List Line} {mv : List Auto.Move} {q' : Nat} {m' : MdState}
    (h : MdAuto.Run sk q m ls mv q' m') : Path q mv q' := by
  induction h with
  | last hst he => exact .cons (mdStep_fit hst).1 (.nil _)
  | cons hst he hr ih => exact .cons (mdStep_fit hst).1 ih

theorem mdRun_end {sk : Line → Bool} {q : Nat} {m : MdState} {ls : List Line} {mv : List Auto.Move} {q' : Nat} {m' : MdState}
    (h : MdAuto.Run sk q m ls mv q' m') : q' = 42 := by
  induction h with
  | @last _ _ _ _ tr _ _ hst he =>
    obtain ⟨⟨⟨row, hrow, htr⟩, _⟩, hk⟩ := mdStep_fit hst
    have hk := hk.2 he
    have := rows_okE _ (mem_allStates hrow)
    unfold rowOkE at this
    rw [hrow] at this
    simp only [List.all_eq_true] at this
    have := this tr htr
    rw [hk] at this
    simpa using this
  | cons hst he hr ih => exact ih

/-- The flag of `scan` at a place of a path. -/
theorem path_flag {mvA : List Auto.Move} : ∀ {q : Nat} {z : Auto.Move} {mvY : List Auto.Move} {q' : Nat} {o : Bool},
    Path q (mvA ++ z :: mvY) q' → (o = true ↔ q ∈ Auto.openStates) →
    ((mvA.map (·.tok)).foldl flagAfter o = true ↔ z.state ∈ Auto.openStates) := by
  induction mvA with
  | nil =>
    intro q z mvY q' o h ho
    cases h with
    | cons hf hp => exact ho
  | cons y mvA ih =>
    intro q z mvY q' o h ho
    cases h with
    | cons hf hp =>
      simp only [List.map_cons, List.foldl_cons]
      obtain ⟨⟨row, hrow, htr⟩, hty, _⟩ := hf
      exact ih hp (Auto.flag_step ((Auto.row_facts hrow).2 _ htr) hty ho)

/-! ### Insertion and removal -/

theorem mdRun_head {sk : Line → Bool} {q : Nat} {m : MdState} {ls : List Line} {mv : List Auto.Move} {q' : Nat} {m' : MdState}
    (h : MdAuto.Run sk q m ls mv q' m') : ∃ z mvY, mv = z :: mvY ∧ z.state = q ∧ (table q).isSome = true := by
  cases h with
  | last hst _ => obtain ⟨⟨⟨row, hrow, _⟩, _⟩, _⟩ := mdStep_fit hst; exact ⟨_, _, rfl, rfl, by rw [hrow]; rfl⟩
  | cons hst _ _ => obtain ⟨⟨⟨row, hrow, _⟩, _⟩, _⟩ := mdStep_fit hst; exact ⟨_, _, rfl, rfl, by rw [hrow]; rfl⟩

section
variable {sk : Line → Bool} {d : Dialect} {f : Str} {all A B B' : List Line} {n : Line} {m : MdState} {mv : List Auto.Move} {q' : Nat} {m' : MdState}

theorem md_insert_run (hsk : MdAuto.Textual sk) (h1 : MdKeeps (Mild d f) all) (h2 : MdKeeps (Good d f) all) (hA : ∀ l ∈ A, l.isEof = false) (hall : ∀ l ∈ A ++ B, l ∈ all)
    (hn : ProseL d n) (hs : sk n = true) (hBB : B.map (·.text) = B'.map (·.text)) (h : MdAuto.Run sk 0 m (A ++ B) mv q' m') (hi : MdAt d f 0 m) :
    ∃ mvA z mvY, mv = mvA ++ z :: mvY ∧ mvA.length = A.length ∧ (2 < z.state → z.state ∉ Auto.openStates →
      ∃ mv', MdAuto.Run sk 0 m (A ++ n :: B') mv' q' m' ∧ essence false mv' = essence false mv) := by
  obtain ⟨mvA, mvB, qk, mk, e1, e2, e3, e4, e5⟩ := MdAuto.run_append h1 h2 hA h hall hi
  obtain ⟨z, mvY, rfl, hz, hrow⟩ := mdRun_head e3
  refine ⟨mvA, z, mvY, e1, e2, fun hq hop => ?_⟩
  subst e1
  have hflag : false = (mvA.map (·.tok)).foldl flagAfter false := by
    have := path_flag (q := 0) (o := false) (mdRun_path h) (by simp [Auto.openStates])
    cases hf : (mvA.map (·.tok)).foldl flagAfter false with
    | false => rfl
    | true => exact absurd (this.1 hf) hop
  rw [hz] at hq hop
  obtain ⟨row, hrow⟩ := Option.isSome_iff_exists.1 hrow
  obtain ⟨tr, t, g1, g2, g3, g4⟩ := prose_step (sk := sk) ⟨e4.1, e4.2 hq⟩ hq hop hrow hn B'
  obtain ⟨mvB', k1, k2⟩ := MdAuto.run_renum hsk e3 hBB
  rw [← g2] at k1
  refine ⟨mvA ++ ⟨qk, tr, t⟩ :: mvB', e5 (n :: B') (fun A' la m hA' hm => MdAuto.peek_insert h2 hsk hn hs hBB la hA' hm) _ _ _ (.cons g1 hn.eof k1), ?_⟩
  refine essence_append hflag ?_
  rw [essence_skip g4 (by rcases g3 with g3 | g3 <;> simp [g3]), essence_alike k2]

theorem md_remove_run (hsk : MdAuto.Textual sk) (h1 : MdKeeps (Mild d f) all) (h2 : MdKeeps (Good d f) all) (hA : ∀ l ∈ A, l.isEof = false) (hall : ∀ l ∈ A ++ n :: B', l ∈ all)
    (hn : ProseL d n) (hs : sk n = true) (hBB : B.map (·.text) = B'.map (·.text)) (h : MdAuto.Run sk 0 m (A ++ n :: B') mv q' m') (hi : MdAt d f 0 m) :
    ∃ mvA z mvY, mv = mvA ++ z :: mvY ∧ mvA.length = A.length ∧ (2 < z.state → z.state ∉ Auto.openStates →
      ∃ mv', MdAuto.Run sk 0 m (A ++ B) mv' q' m' ∧ essence false mv' = essence false mv) := by
  obtain ⟨mvA, mvB, qk, mk, e1, e2, e3, e4, e5⟩ := MdAuto.run_append h1 h2 hA h hall hi
  have e3' := e3
  cases e3' with
  | last _ he => rw [hn.eof] at he; simp at he
  | @cons _ _ _ _ tr t m1 mvY _ _ hst _ hrun =>
  refine ⟨mvA, ⟨qk, tr, t⟩, mvY, e1, e2, fun hq hop => ?_⟩
  subst e1
  have hflag : false = (mvA.map (·.tok)).foldl flagAfter false := by
    have := path_flag (q := 0) (o := false) (mdRun_path h) (by simp [Auto.openStates])
    cases hf : (mvA.map (·.tok)).foldl flagAfter false with
    | false => rfl
    | true => exact absurd (this.1 hf) hop
  simp only at hq hop
  obtain ⟨_, _, _, _, hrow⟩ := mdRun_head e3
  obtain ⟨row, hrow⟩ := Option.isSome_iff_exists.1 hrow
  obtain ⟨tr0, t0, g1, g2, g3, g4⟩ := prose_step (sk := sk) ⟨e4.1, e4.2 hq⟩ hq hop hrow hn B'
  rw [hst] at g1
  simp only [Option.some.injEq, Prod.mk.injEq] at g1
  obtain ⟨rfl, rfl, rfl⟩ := g1
  rw [g2] at hrun
  obtain ⟨mvB', k1, k2⟩ := MdAuto.run_renum hsk hrun hBB.symm
  refine ⟨mvA ++ mvB', e5 B (fun A' la m hA' hm => (MdAuto.peek_insert h2 hsk hn hs hBB la hA' hm).symm) _ _ _ k1, ?_⟩
  refine essence_append hflag ?_
  rw [essence_skip g4 (by rcases g3 with g3 | g3 <;> simp [g3]), essence_alike k2]

end

/-- An accepted Markdown parse as a run and a syntax tree. -/
theorem md_accepted_doc {stop : Bool} {text : Str} {f : Str} (hf : ∀ s ∈ splitLines text, fenceOf s = none ∨ fenceOf s = some f) (hp : PlainHeadings text)
    {m : MdState} {b : BState} {r : Option Document} (h : (parse (mdCfg astBuilder stop) text m b).1 = .ok r) :
    ∃ mv m', ∃ D : CDoc, MdAuto.Run (mdSkip (Md.reset m).dialect) 0 (Md.reset m) (tokenLines text) mv 42 m' ∧ D.Ok ∧ D.toks = (mv.map (·.tok)).filter Token.isCore ∧
      ∃ cm, r = some (D.ast cm b.nextId).1 := by
  obtain ⟨mv, q, m', h1, _, _, h4⟩ := md_accepted_run hf hp h
  have hq := mdRun_end h1
  subst hq
  obtain ⟨D, hD, ht, hr, _⟩ := parse_doc markdown_lawful stop h
  refine ⟨mv, m', D, h1, hD, ?_, _, hr⟩
  rw [show (parse ⟨markdown, astBuilder, stop⟩ text m b).2.log = allEvs mv from h4] at ht
  have hbs : builds (allEvs mv) = mv.map (·.tok) := by
    simp [allEvs, builds, builds_append, path_builds (mdRun_path h1)]
  rw [hbs] at ht
  exact ht

/-- From a Markdown run with the same essence to a document with the same content. -/
theorem md_same_essence {sk : Line → Bool} {m : MdState} {text' : Str} {mv mv' : List Auto.Move} {m1' : MdState} {D : CDoc}
    (hD : D.Ok) (ht : D.toks = (mv.map (·.tok)).filter Token.isCore) (hr' : MdAuto.Run sk 0 (Md.reset m) (tokenLines text') mv' 42 m1')
    (he : essence false mv' = essence false mv) (b : BState) (stop : Bool) (cm : List Comment) :
    ∃ d', (parse (mdCfg astBuilder stop) text' m b).1 = .ok (some d') ∧
      d'.feature.map Feature.bare = (D.ast cm b.nextId).1.feature.map Feature.bare := by
  have hw : RowChain none (mv'.map Auto.Move.tok) := by
    rw [← rowChain_core]
    apply rowChain_scan (o := false)
    have : RowChain none (essence false mv') := by
      rw [he]; unfold essence
      rw [← ht, ← CDoc.plain_toks hD]
      exact doc_chain (CDoc.plain_ok hD)
    exact this
  obtain ⟨hb, r, hres⟩ := builds_path (mdRun_path hr') hw b
  obtain ⟨hok, hlog⟩ := md_run_accepted (stop := stop) hr' hb hres
  obtain ⟨D', hD', ht', rfl, _⟩ := parse_doc markdown_lawful stop hok
  refine ⟨_, hok, ?_⟩
  rw [show (parse ⟨markdown, astBuilder, stop⟩ text' m b).2.log = allEvs mv' from hlog] at ht'
  have hbs : builds (allEvs mv') = mv'.map (·.tok) := by
    simp [allEvs, builds, builds_append, path_builds (mdRun_path hr')]
  rw [hbs] at ht'
  apply bare_of_toks hD' hD
  rw [ht', ht]; exact he

end Gherkin
