import Verif.Proofs.Total3
import Verif.Proofs.RunSplit
import Verif.Proofs.CstDoc
import Verif.Proofs.Placed
import Verif.Proofs.Unique

/-! The AST builder accepts every run of the automaton whose tables are rectangular. -/

namespace Gherkin

open AstNode Auto Cst

/-- The states inside a table. -/
def tableStates : List Nat := [10, 16, 21, 30, 36, 41]

/-- Rows that follow each other directly have the same number of cells. The first argument is the width of the row just seen. -/
def RowChain : Option Nat → List Token → Prop
  | _, [] => True
  | w, t :: ts =>
    if t.type = some .tableRow then (∀ n ∈ w, t.items.length = n) ∧ RowChain (some t.items.length) ts
    else if t.isCore = true then RowChain none ts else RowChain w ts

def isTableRule : Rule → Bool
  | .dataTable | .examplesTable => true
  | _ => false

/-- Static facts about tables. -/
def rowOkR (q : Nat) : Bool :=
  match table q with
  | some row => row.trans.all fun tr =>
      if tableStates.contains q then
        if tr.kind == .tableRow || tr.kind == .comment || tr.kind == .empty then tr.prods == [.build] && tr.target == q
        else !tableStates.contains tr.target &&
          (match absAt q, tr.prods with
           | (r, _) :: _, p :: _ => isTableRule r && p == .stop r
           | _, _ => false)
      else if tr.kind == .tableRow then
        (tr.prods == [.start .dataTable, .build] || tr.prods == [.start .examplesTable, .build] ||
          tr.prods == [.stop .description, .start .examplesTable, .build]) && tableStates.contains tr.target
      else !tableStates.contains tr.target
  | none => true

theorem rows_okR : ∀ q ∈ allStates, rowOkR q = true := by decide +kernel

/-- No table rows. -/
def PNo (t : Token) : Prop := t.type ≠ some .tableRow
/-- Table rows of one width. -/
def PRow (w : Nat) (t : Token) : Prop := t.type = some .tableRow → t.items.length = w

theorem no_rowErr {e : Err} : ¬ RowErr PNo e := fun ⟨_, _, h1, h2, _⟩ => h1 h2
theorem no_rowErr' {w : Nat} {e : Err} : ¬ RowErr (PRow w) e := fun ⟨_, _, h1, h2, h3, h4, h5, _⟩ => h5 (by rw [h1 h2, h3 h4])

theorem ItemOk.mono {P P' : Token → Prop} (h : ∀ t, P t → P' t) {i : Item} (hi : ItemOk P i) : ItemOk P' i := by
  cases i <;> first | exact hi | exact ⟨h _ hi.1, hi.2⟩

theorem FrameOk.mono {P P' : Token → Prop} (h : ∀ t, P t → P' t) {f : Rule × Bool} {items : List Item} (hf : FrameOk P f items) :
    FrameOk P' f items := ⟨fun i hi => (hf.all i hi).mono h, hf.needed, hf.fresh⟩

theorem StackOk.mono {P P' : Token → Prop} (h : ∀ t, P t → P' t) {a : AStack} {s : List (Rule × List Item)} (hs : StackOk P a s) :
    StackOk P' a s := by
  induction hs with
  | nil => exact .nil
  | cons hf _ ih => exact .cons (hf.mono h) ih

/-- Productions that cannot complain. -/
theorem prods_builds {P : Token → Prop} (hP : ∀ e, ¬ RowErr P e) {k : Kind} {t : Token} : ∀ {ps : List Prod} {a a' : AStack} {b : BState},
    StackOk P a b.stack → absRun k ps a = some a' → TokOk P k t (a.pend .description ps) (a.pend .docString ps) →
    BuildsOk astBuilder b (ps.map (Prod.ev t)) ∧ StackOk P a' ((ps.map (Prod.ev t)).foldl (applyEv astBuilder) b).stack := by
  intro ps
  induction ps with
  | nil =>
    intro a a' b hs ha _
    simp only [absRun, Option.some.injEq] at ha
    subst ha
    exact ⟨trivial, hs⟩
  | cons p ps ih =>
    intro a a' b hs ha ht
    simp only [absRun, Option.bind_eq_some_iff] at ha
    obtain ⟨a1, ha1, ha2⟩ := ha
    obtain ⟨h1, h2⟩ := prod_ok hs ha1 (ht.mono (by intro h; simp [AStack.pend, h]) (by intro h; simp [AStack.pend, h]))
    obtain ⟨h3, h4⟩ := ih h2 ha2 (ht.mono (pend_step ha1) (pend_step ha1))
    refine ⟨⟨?_, h3⟩, h4⟩
    rcases h1 with h1 | ⟨e, _, he⟩
    · exact h1
    · exact absurd he (hP e)

/-- The parent after taking a closed part. -/
theorem frame_push {P : Token → Prop} {r pr : Rule} {pb : Bool} {pitems : List Item} (hpf : FrameOk P (pr, pb) pitems) {i : Item}
    (h1 : i.key = .r r) (h2 : ItemOk P i) : FrameOk P (pr, pb || needKey pr == some (.r r)) (pitems ++ [i]) := by
  refine ⟨?_, ?_, ?_⟩
  · intro j hj
    rcases List.mem_append.1 hj with hj | hj
    · exact hpf.all j hj
    · simp at hj; subst hj; exact h2
  · simp only
    intro h
    cases hpb : pb with
    | true => subst hpb; exact needed_append _ (hpf.needed rfl)
    | false =>
      subst hpb
      simp only [Bool.false_or, beq_iff_eq] at h
      have gen : ∀ k', needKey pr = some k' → ∃ j ∈ pitems ++ [i], j.key = k' := by
        intro k' h'
        rw [h] at h'
        simp at h'
        exact ⟨i, by simp, by rw [h1, h']⟩
      cases pr
      case description => simp [needKey] at h
      case docString => simp [needKey] at h
      all_goals exact gen
  · simp only
    intro hr hbf
    simp only [Bool.or_eq_false_iff] at hbf
    rw [getTokens_append_other (by rw [h1]; simp)]
    exact hpf.fresh hr hbf.1

/-- Leaving a table. -/
theorem leave_table {w : Nat} {r : Rule} (hr : isTableRule r = true) {bb : Bool} {items : List Item} {a a' : AStack}
    {s : List (Rule × List Item)} {b : BState} (hb : b.stack = (r, items) :: s) (hf : FrameOk (PRow w) (r, bb) items) (hs : StackOk PNo a s)
    {k : Kind} (ha : absProd k (.stop r) ((r, bb) :: a) = some a') :
    evAnswer astBuilder b (.stop r) = .ok () ∧ StackOk PNo a' (applyEv astBuilder b (.stop r)).stack := by
  simp only [applyEv, evAnswer, astBuilder, AstB.endRule]
  rw [hb]
  cases hs with
  | nil => simp [absProd] at ha
  | @cons pr pb pitems a0 st hpf hrest =>
    simp only [absProd] at ha
    split at ha
    · simp at ha
    · rename_i hne
      have hT := transform_ok (cm := b.comments) (n := b.nextId) hf (by intro h; rw [h] at hne; simpa using hne)
      rcases hx : AstB.transform r items b.comments b.nextId with ⟨res, n'⟩
      rw [hx] at hT
      simp only at hT
      rcases hT with ⟨i, h1, h2, h3⟩ | ⟨e, h1, h2, h3⟩
      · subst h1
        simp only [hx]
        have hi : ItemOk PNo i := by
          cases i with
          | tok t =>
            simp only [Item.key] at h2
            cases ht : t.type with
            | none => rw [ht] at h2; cases r <;> simp_all [isTableRule]
            | some k => rw [ht] at h2; simp at h2
          | _ => exact h3
        refine ⟨trivial, ?_⟩
        split at ha
        · simp only [Option.some.injEq] at ha; subst ha
          have hh := frame_push hpf h2 hi
          refine .cons ⟨hh.all, fun h => hh.needed (by simp only at h ⊢; rw [h]; rfl), ?_⟩ hrest
          simp only
          intro hr' hbf
          rw [getTokens_append_other (by rw [h2]; simp)]
          exact hpf.fresh hr' hbf
        · simp only [Option.some.injEq] at ha; subst ha
          exact .cons (frame_push hpf h2 hi) hrest
      · exact absurd (h3.row hf.all) no_rowErr'

/-- The stack in a state; `w` is the width of the table that is being read. -/
def Phase (q : Nat) (w : Option Nat) (st : List (Rule × List Item)) : Prop :=
  if q ∈ tableStates then
    ∃ n r bb items a s, w = some n ∧ st = (r, items) :: s ∧ absAt q = (r, bb) :: a ∧ FrameOk (PRow n) (r, bb) items ∧ StackOk PNo a s
  else StackOk PNo (absAt q) st

/-- What the builder needs to know about the token of a step. -/
theorem step_tok {P : Token → Prop} {q : Nat} {l : Line} {rest : List Line} {m m' : CState} {tr : Trans} {t : Token} (hi : Inv q m)
    (h : StepSpec q l rest m tr t m') (hp : P t) :
    TokOk P tr.kind t ((absAt q).pend .description tr.prods) ((absAt q).pend .docString tr.prods) := by
  obtain ⟨row, pre, post, hrow, h1, h5⟩ := h.row
  have hq := mem_allStates hrow
  have hA := rows_okT q (by simp [hq])
  unfold rowOkT at hA
  rw [hrow] at hA
  simp only [List.all_eq_true, Bool.and_eq_true] at hA
  obtain ⟨_, hstay, hA⟩ := hA
  obtain ⟨⟨hdesc, hsep⟩, habs⟩ := hA tr (by rw [h1]; simp)
  have hdp := docPending (q := q) (by simp [hq])
  obtain ⟨f1, f2⟩ := row_facts hrow
  have h2 := h.matched
  have h3 := h.eof
  refine ⟨matched_type h2, hp, ?_, ?_, ?_⟩
  · intro hk
    rw [hk] at h2
    simp only [Classic.matchKind, Classic.matchOther, Prod.mk.injEq] at h2
    rw [← h2.2.1]; rfl
  · intro hk hd
    simp only [AStack.pend, hdp.1, Bool.false_or] at hd
    rw [hd] at hdesc
    simp only [Bool.not_true, Bool.false_or, Bool.and_eq_true, beq_iff_eq, List.all_eq_true, List.any_eq_true] at hdesc
    obtain ⟨⟨_, hlast⟩, x, x1, x2, x3⟩ := hdesc
    have hpost : post = [] := by
      by_cases hp : post = []
      · exact hp
      · exfalso
        have := hlast tr (by rw [h1]; exact dropLast_mem hp)
        rw [hk] at this; simp at this
    subst hpost
    have hxp : x ∈ pre := by
      rw [h1] at x1
      rcases List.mem_append.1 x1 with h | h
      · exact h
      · simp at h; subst h; rw [hk] at x2; simp at x2
    have hle : l.isEof = false := by
      rcases h3 with h3 | h3
      · rw [hk] at h3; simp at h3
      · exact h3
    have hb : l.isBlank = false := by
      rcases h5 x hxp with ⟨_, h⟩ | h | ⟨la, h, _⟩
      · rw [hle] at h; simp at h
      · rw [x2] at h
        simp only [Classic.matchKind, Classic.matchEmpty] at h
        split at h
        · simp at h
        · rename_i hh; simpa [Token.fresh] using hh
      · rw [x3] at h; simp at h
    have hact : m.active = none := by
      have : q ∉ openStates := by
        intro hh
        have hff := f2 x (by rw [h1]; simp [hxp])
        rcases hff.inside hh with h | ⟨h, _⟩ <;> rw [x2] at h <;> simp at h
      rw [hi.active] at this
      simpa using this
    rw [hk] at h2
    exact nonblank_text hact (hi.indent hact) hb h2
  · intro hk hd
    simp only [AStack.pend, hdp.2.1, Bool.false_or] at hd
    rw [hd] at hsep
    simp only [Bool.not_true, Bool.false_or, Bool.and_eq_true, Bool.not_eq_true'] at hsep
    have hqo : q ∉ openStates := by simpa using hsep.2
    rw [hi.active] at hqo
    rw [hk] at h2
    rcases docSep_cases hi.sep h2 with ⟨_, s, _, _, _, e⟩ | ⟨s, e, _⟩
    · rw [e]; rfl
    · rw [e] at hqo; simp at hqo

/-- The width after a token. -/
def nextWidth (w : Option Nat) (t : Token) : Option Nat :=
  if t.type = some .tableRow then some t.items.length else if t.isCore = true then none else w

theorem rowChain_cons {w : Option Nat} {t : Token} {ts : List Token} (h : RowChain w (t :: ts)) :
    (t.type = some .tableRow → ∀ n ∈ w, t.items.length = n) ∧ RowChain (nextWidth w t) ts := by
  unfold RowChain at h
  unfold nextWidth
  split at h
  · rename_i ht; exact ⟨fun _ => h.1, by rw [if_pos ht]; exact h.2⟩
  · rename_i ht
    refine ⟨fun h => absurd h ht, ?_⟩
    rw [if_neg ht]
    split at h
    · rename_i hc; rw [if_pos hc]; exact h
    · rename_i hc; rw [if_neg hc]; exact h

/-- What the builder relies on when a token is read in a state. -/
def MoveFits (q : Nat) (tr : Trans) (t : Token) : Prop :=
  (∃ row, table q = some row ∧ tr ∈ row.trans) ∧ t.type = some tr.kind ∧
    ∀ P : Token → Prop, P t → TokOk P tr.kind t ((absAt q).pend .description tr.prods) ((absAt q).pend .docString tr.prods)

theorem step_fit {q : Nat} {l : Line} {rest : List Line} {m m' : CState} {tr : Trans} {t : Token} (hi : Inv q m)
    (h : StepSpec q l rest m tr t m') : MoveFits q tr t := by
  obtain ⟨row, pre, post, hrow, h1, _⟩ := h.row
  exact ⟨⟨row, hrow, by rw [h1]; simp⟩, matched_type h.matched, fun P hp => step_tok hi h hp⟩

/-- One step. -/
theorem phase_fit {q : Nat} {tr : Trans} {t : Token} (hfit : MoveFits q tr t) {w : Option Nat} {b : BState} (hp : Phase q w b.stack)
    (hw : t.type = some .tableRow → ∀ n ∈ w, t.items.length = n) :
    BuildsOk astBuilder b (tr.prods.map (Prod.ev t)) ∧
      Phase tr.target (nextWidth w t) ((tr.prods.map (Prod.ev t)).foldl (applyEv astBuilder) b).stack := by
  obtain ⟨⟨row, hrow, htr⟩, hty, step_tok⟩ := hfit
  have hq := mem_allStates hrow
  have hA := rows_okT q (by simp [hq])
  have hR := rows_okR q hq
  have hT := targets_ok q hq
  unfold rowOkT at hA
  unfold rowOkR at hR
  unfold targetsOk at hT
  rw [hrow] at hA hR hT
  simp only [List.all_eq_true] at hR hT
  simp only [List.all_eq_true, Bool.and_eq_true] at hA
  have hR := hR tr htr
  have habs := (hA.2.2 tr htr).2
  have htq : tr.target ∈ 42 :: allStates := by
    have := hT tr htr
    simp only [Bool.or_eq_true, Bool.and_eq_true, beq_iff_eq, List.contains_iff_mem] at this
    rcases this with h | ⟨h, _⟩ <;> simp [h]
  have hdp := docPending htq
  cases hab : absRun tr.kind tr.prods (absAt q) with
  | none => rw [hab] at habs; simp at habs
  | some a' =>
    rw [hab] at habs
    simp only at habs
    by_cases hqt : q ∈ tableStates
    · have hqc : tableStates.contains q = true := by simpa using hqt
      rw [if_pos hqc] at hR
      unfold Phase at hp
      rw [if_pos hqt] at hp
      obtain ⟨n, r, bb, items, a, s, rfl, hst, hq2, hf, hs⟩ := hp
      by_cases hk : (tr.kind == .tableRow || tr.kind == .comment || tr.kind == .empty) = true
      · rw [if_pos hk] at hR
        simp only [Bool.and_eq_true, beq_iff_eq] at hR
        obtain ⟨hps, htg⟩ := hR
        have hP : PRow n t := fun h => hw h n rfl
        have htok := step_tok _ hP
        have hfull : StackOk (PRow n) (absAt q) b.stack := by
          rw [hq2, hst]
          exact .cons hf (hs.mono fun t h h' => absurd h' h)
        obtain ⟨g1, g2⟩ := prods_builds (P := PRow n) (fun e => no_rowErr') hfull hab htok
        refine ⟨g1, ?_⟩
        have g2 := g2.weaken habs hdp.2.1
        rw [hps] at g2 ⊢
        rw [htg] at g2 ⊢
        unfold Phase
        rw [if_pos hqt]
        simp only [List.map_cons, List.map_nil, List.foldl_cons, List.foldl_nil, Prod.ev, applyEv] at g2 ⊢
        rw [hq2] at g2
        have hwn : nextWidth (some n) t = some n := by
          unfold nextWidth
          rw [hty]
          simp only [Bool.or_eq_true, beq_iff_eq] at hk
          rcases hk with (hk | hk) | hk
          · rw [hk]; simp only [if_true]; rw [hP (by rw [hty, hk])]
          · rw [hk]; simp [Token.isCore, hty, hk]
          · rw [hk]; simp [Token.isCore, hty, hk]
        have hstack : ∃ items', (astBuilder.build t b).2.stack = (r, items') :: s := by
          simp only [astBuilder, AstB.build]
          rw [hst]
          simp only [hty]
          by_cases hc : tr.kind = .comment
          · rw [hc]; simp
          · have hc' : (some tr.kind : Option Kind) ≠ some .comment := by simpa using hc
            rw [if_neg hc']; exact ⟨_, rfl⟩
        obtain ⟨items', hst'⟩ := hstack
        rw [hst'] at g2 ⊢
        cases g2 with
        | cons hf' _ => exact ⟨n, r, bb, items', a, s, hwn, rfl, hq2, hf', hs⟩
      · rw [if_neg hk] at hR
        simp only [Bool.or_eq_true, beq_iff_eq, not_or] at hk
        rw [hq2] at hR hab
        simp only [Bool.and_eq_true, Bool.not_eq_true'] at hR
        obtain ⟨ht1, ht2⟩ := hR
        have ht1 : tr.target ∉ tableStates := by simpa using ht1
        have htok := step_tok PNo (by intro h; rw [hty] at h; simp at h; exact hk.1.1 h)
        cases hps : tr.prods with
        | nil => rw [hps] at ht2; simp at ht2
        | cons p ps =>
          rw [hps] at ht2 hab htok
          simp only [Bool.and_eq_true, beq_iff_eq] at ht2
          obtain ⟨hr, rfl⟩ := ht2
          simp only [absRun, Option.bind_eq_some_iff] at hab
          obtain ⟨a1, ha1, ha2⟩ := hab
          obtain ⟨k1, k2⟩ := leave_table hr hst hf hs ha1
          rw [hq2] at htok
          obtain ⟨k3, k4⟩ := prods_builds (P := PNo) (fun e => no_rowErr) k2 ha2 (htok.mono (pend_step ha1) (pend_step ha1))
          refine ⟨⟨k1, k3⟩, ?_⟩
          unfold Phase
          rw [if_neg ht1]
          exact k4.weaken habs hdp.2.1
    · have hqc : tableStates.contains q = false := by simpa using hqt
      rw [hqc] at hR
      simp only [Bool.false_eq_true, if_false] at hR
      unfold Phase at hp
      rw [if_neg hqt] at hp
      by_cases hk : tr.kind = .tableRow
      · rw [hk] at hR
        simp only [beq_self_eq_true, if_true, Bool.and_eq_true, List.contains_iff_mem] at hR
        obtain ⟨hps, htg⟩ := hR
        have htt : t.type = some .tableRow := by rw [hty, hk]
        have hP : PRow t.items.length t := fun _ => rfl
        have htok := step_tok _ hP
        have hfull : StackOk (PRow t.items.length) (absAt q) b.stack := hp.mono fun t h h' => absurd h' h
        obtain ⟨g1, g2⟩ := prods_builds (P := PRow t.items.length) (fun e => no_rowErr') hfull hab htok
        refine ⟨g1, ?_⟩
        have g2 := g2.weaken habs hdp.2.1
        unfold Phase
        rw [if_pos htg]
        -- the stack before the table is opened
        have fin : ∀ {ps : List Prod} {r : Rule}, tr.prods = ps ++ [.start r, .build] → (ps = [] ∨ ps = [.stop .description]) →
            ∃ n r bb items a s, nextWidth w t = some n ∧
              ((tr.prods.map (Prod.ev t)).foldl (applyEv astBuilder) b).stack = (r, items) :: s ∧ absAt tr.target = (r, bb) :: a ∧
              FrameOk (PRow n) (r, bb) items ∧ StackOk PNo a s := by
          intro ps r e hh
          have hn : nextWidth w t = some t.items.length := by unfold nextWidth; rw [if_pos htt]
          rw [e] at hab g2 ⊢
          have hsplit : ∀ {xs ys : List Prod} {k : Kind} {a : AStack}, absRun k (xs ++ ys) a = (absRun k xs a).bind (absRun k ys) := by
            intro xs
            induction xs with
            | nil => intro ys k a; rfl
            | cons x xs ih =>
              intro ys k a
              simp only [List.cons_append, absRun]
              cases absProd k x a with
              | none => rfl
              | some y => simp only [Option.bind_some]; exact ih
          rw [hsplit] at hab
          obtain ⟨a1, ha1, ha2⟩ := Option.bind_eq_some_iff.1 hab
          -- run `ps` with a token that is no row
          have hps0 : StackOk PNo a1 ((ps.map (Prod.ev t)).foldl (applyEv astBuilder) b).stack := by
            rcases hh with rfl | rfl
            · simp only [absRun, Option.some.injEq] at ha1
              subst ha1; exact hp
            · have ha1' : absRun .empty [.stop .description] (absAt q) = some a1 := by
                simp only [absRun, absProd] at ha1 ⊢; exact ha1
              have hd0 := docPending (q := q) (by simp [hq])
              obtain ⟨_, h⟩ := prods_builds (P := PNo) (fun e => no_rowErr) (t := { t with type := some .empty }) hp ha1' (by
                refine ⟨rfl, by simp [PNo], by simp, by simp, by simp⟩)
              exact h
          simp only [List.map_append, List.foldl_append, List.map_cons, List.map_nil, List.foldl_cons, List.foldl_nil, Prod.ev,
            applyEv] at g2 ⊢
          generalize hb1 : (ps.map (Prod.ev t)).foldl (applyEv astBuilder) b = b1 at g2 hps0 ⊢
          simp only [absRun, absProd, Option.bind_some, hk, reduceCtorEq, if_false, Option.some.injEq] at ha2
          have hst' : (astBuilder.build t (astBuilder.start r b1).2).2.stack = (r, [.tok t]) :: b1.stack := by
            simp only [astBuilder, AstB.startRule, AstB.build, htt]
            simp
          rw [hst'] at g2 ⊢
          cases g3 : absAt tr.target with
          | nil => rw [g3] at g2; cases g2
          | cons x a2 =>
            rw [g3] at g2 habs hdp
            have hle : AStack.le a2 a1 = true := by
              rw [← ha2] at habs
              simp only [AStack.le, List.map_cons, List.zip_cons_cons, List.all_cons, Bool.and_eq_true, beq_iff_eq, List.cons.injEq] at habs ⊢
              exact ⟨habs.1.2, habs.2.2⟩
            have hpend : (List.any a2 fun x => x.1 == .docString && !x.2) = false := by
              have := hdp.2.1
              simp only [AStack.pending, List.any_cons, Bool.or_eq_false_iff] at this
              exact this.2
            cases g2 with
            | cons hf' _ => exact ⟨_, _, _, _, a2, _, hn, rfl, rfl, hf', hps0.weaken hle hpend⟩
        simp only [Bool.or_eq_true, beq_iff_eq] at hps
        rcases hps with (hps | hps) | hps
        · exact fin (ps := []) hps (.inl rfl)
        · exact fin (ps := []) hps (.inl rfl)
        · exact fin (ps := [.stop .description]) hps (.inr rfl)
      · have hk' : (tr.kind == .tableRow) = false := by simpa using hk
        rw [hk'] at hR
        simp only [Bool.false_eq_true, if_false, Bool.not_eq_true'] at hR
        have hR : tr.target ∉ tableStates := by simpa using hR
        have htok := step_tok PNo (by intro h; rw [hty] at h; simp at h; exact hk h)
        obtain ⟨k3, k4⟩ := prods_builds (P := PNo) (fun e => no_rowErr) hp hab htok
        refine ⟨k3, ?_⟩
        unfold Phase
        rw [if_neg hR]
        exact k4.weaken habs hdp.2.1

theorem phase_step {q : Nat} {l : Line} {rest : List Line} {m m' : CState} {tr : Trans} {t : Token} (hi : Inv q m)
    (h : StepSpec q l rest m tr t m') {w : Option Nat} {b : BState} (hp : Phase q w b.stack)
    (hw : t.type = some .tableRow → ∀ n ∈ w, t.items.length = n) :
    BuildsOk astBuilder b (tr.prods.map (Prod.ev t)) ∧
      Phase tr.target (nextWidth w t) ((tr.prods.map (Prod.ev t)).foldl (applyEv astBuilder) b).stack := phase_fit (step_fit hi h) hp hw

/-- Moves that follow each other through the states. -/
inductive Path : Nat → List Move → Nat → Prop
  | nil (q) : Path q [] q
  | cons {q tr t mv q'} : MoveFits q tr t → Path tr.target mv q' → Path q (⟨q, tr, t⟩ :: mv) q'

theorem phase_path {q : Nat} {mv : List Move} {q' : Nat} (h : Path q mv q') {w : Option Nat} {b : BState} (hp : Phase q w b.stack)
    (hw : RowChain w (mv.map Move.tok)) :
    BuildsOk astBuilder b (mv.flatMap Move.evs) ∧ ∃ w', Phase q' w' ((mv.flatMap Move.evs).foldl (applyEv astBuilder) b).stack := by
  induction h generalizing w b with
  | nil q => exact ⟨trivial, w, hp⟩
  | @cons q tr t mv q' hf _ ih =>
    have hw := rowChain_cons hw
    obtain ⟨h1, h2⟩ := phase_fit hf hp hw.1
    obtain ⟨h3, h4⟩ := ih h2 hw.2
    rw [List.flatMap_cons, BuildsOk_append, List.foldl_append]
    simp only [Move.evs, BuildsOk, List.foldl_cons, evAnswer, applyEv]
    exact ⟨⟨⟨trivial, h1⟩, h3⟩, h4⟩

theorem run_path {q : Nat} {m : CState} {lines : List Line} {mv : List Move} {q' : Nat} {m' : CState} (h : Run q m lines mv q' m')
    (hi : Inv q m) : Path q mv q' := by
  induction h with
  | nil q m => exact .nil q
  | last hst he => exact .cons (step_fit hi (step_spec hst)) (.nil _)
  | cons hst he hr ih => exact .cons (step_fit hi (step_spec hst)) (ih (inv_step hi (step_spec hst)))

/-- The builder accepts every path with rectangular tables that ends the document. -/
theorem builds_path {mv : List Move} (h : Path 0 mv 42) (hw : RowChain none (mv.map Move.tok)) (b : BState) :
    BuildsOk astBuilder (astBuilder.reset b) (allEvs mv) ∧
      ∃ r, astBuilder.result ((allEvs mv).foldl (applyEv astBuilder) (astBuilder.reset b)) = .ok r := by
  have h0 : Phase 0 none (applyEv astBuilder (astBuilder.reset b) (.start .gherkinDocument)).stack := by
    have e : (applyEv astBuilder (astBuilder.reset b) (.start .gherkinDocument)).stack = [(.gherkinDocument, []), (.none, [])] := rfl
    unfold Phase
    rw [if_neg (by decide), e]
    exact .cons ⟨by simp, by simp, by simp⟩ (.cons ⟨by simp, by simp, by simp⟩ .nil)
  obtain ⟨h1, w', h2⟩ := phase_path h h0 hw
  unfold Phase at h2
  rw [if_neg (by decide)] at h2
  obtain ⟨h3, h4⟩ := close_ok (P := PNo) h2 (docPending (q := 42) (by simp)).2.2
  have e : (allEvs mv).foldl (applyEv astBuilder) (astBuilder.reset b) = (AstB.endRule .gherkinDocument
      ((mv.flatMap Move.evs).foldl (applyEv astBuilder) (applyEv astBuilder (astBuilder.reset b) (.start .gherkinDocument)))).2 := by
    simp only [allEvs, List.foldl_cons, List.foldl_append, List.foldl_nil]
    rfl
  refine ⟨?_, ?_⟩
  · simp only [allEvs, BuildsOk]
    refine ⟨rfl, ?_⟩
    rw [BuildsOk_append]
    refine ⟨h1, ?_, trivial⟩
    rcases h3 with h3 | ⟨e, _, he⟩
    · exact h3
    · exact absurd he no_rowErr
  · rw [e]
    simp only [astBuilder, AstB.result]
    split
    · rename_i hn; exact absurd hn h4
    · split <;> exact ⟨_, rfl⟩

theorem builds_ok {m : CState} (hm : m.Valid) {lines : List Line} {mv : List Move} {m' : CState}
    (h : Run 0 (Classic.reset m) lines mv 42 m') (hw : RowChain none (mv.map Move.tok)) (b : BState) :
    BuildsOk astBuilder (astBuilder.reset b) (allEvs mv) ∧
      ∃ r, astBuilder.result ((allEvs mv).foldl (applyEv astBuilder) (astBuilder.reset b)) = .ok r := builds_path (run_path h (inv_start hm)) hw b

/-! ### Rectangular documents -/

theorem rowChain_core {ts : List Token} : ∀ {w : Option Nat}, RowChain w (ts.filter Token.isCore) ↔ RowChain w ts := by
  induction ts with
  | nil => intro w; rfl
  | cons t ts ih =>
    intro w
    by_cases hc : t.isCore = true
    · rw [List.filter_cons_of_pos hc]
      simp only [RowChain, hc, if_true, ih]
    · rw [List.filter_cons_of_neg hc]
      have ht : t.type ≠ some .tableRow := by
        intro h; apply hc; simp [Token.isCore, h]
      simp only [RowChain, hc, ht, if_false, ih]
      simp

/-- Tokens after which the widths start afresh. -/
def Fine (xs : List Token) : Prop := ∀ r, (∀ w, RowChain w r) → ∀ w, RowChain w (xs ++ r)

theorem Fine.nil : Fine [] := fun _ h => h
theorem Fine.append {xs ys : List Token} (hx : Fine xs) (hy : Fine ys) : Fine (xs ++ ys) := by
  intro r hr
  rw [List.append_assoc]
  exact hx _ (hy r hr)
theorem Fine.flatMap {α : Type} {f : α → List Token} {l : List α} (h : ∀ x ∈ l, Fine (f x)) : Fine (l.flatMap f) := by
  induction l with
  | nil => exact .nil
  | cons x l ih => exact (h x (by simp)).append (ih fun y hy => h y (by simp [hy]))

theorem core_kind {t : Token} {k : Kind} (h : t.type = some k) (h1 : k ≠ .comment) (h2 : k ≠ .empty) : t.isCore = true := by
  simp [Token.isCore, h, h1, h2]

theorem Fine.tok {t : Token} {k : Kind} (h : t.type = some k) (h1 : k ≠ .comment) (h2 : k ≠ .empty) (h3 : k ≠ .tableRow) : Fine [t] := by
  intro r hr w
  have : t.type ≠ some .tableRow := by rw [h]; simpa using h3
  simp only [List.cons_append, List.nil_append, RowChain, this, if_false, core_kind h h1 h2, if_true]
  exact hr _

theorem Fine.toks {ts : List Token} {k : Kind} (h : ∀ t ∈ ts, t.type = some k) (h1 : k ≠ .comment) (h2 : k ≠ .empty) (h3 : k ≠ .tableRow) :
    Fine ts := by
  induction ts with
  | nil => exact .nil
  | cons t ts ih => exact (Fine.tok (h t (by simp)) h1 h2 h3).append (ih fun x hx => h x (by simp [hx]))

/-- A non-row token followed by a table. -/
theorem Fine.table {x : List Token} {t : Token} {k : Kind} (hx : Fine x) (h : t.type = some k) (h1 : k ≠ .comment) (h2 : k ≠ .empty)
    (h3 : k ≠ .tableRow) {ts : List Token} (hts : ∀ t ∈ ts, t.type = some .tableRow) (hr : Rect ts) : Fine (x ++ t :: ts) := by
  have key : ∀ {ts : List Token} {n : Nat}, (∀ t ∈ ts, t.type = some .tableRow ∧ t.items.length = n) → ∀ r, (∀ w, RowChain w r) →
      RowChain (some n) (ts ++ r) := by
    intro ts
    induction ts with
    | nil => intro n _ r hr; exact hr _
    | cons t ts ih =>
      intro n h r hr
      have ht := h t (by simp)
      simp only [List.cons_append, RowChain, ht.1, if_true]
      refine ⟨by simp [ht.2], ?_⟩
      rw [ht.2]
      exact ih (fun x hx => h x (by simp [hx])) r hr
  refine hx.append ?_
  intro r hr' w
  have : t.type ≠ some .tableRow := by rw [h]; simpa using h3
  simp only [List.cons_append, RowChain, this, if_false, core_kind h h1 h2, if_true]
  cases ts with
  | nil => exact hr' _
  | cons y ys =>
    simp only [List.cons_append, RowChain, hts y (by simp), if_true]
    exact ⟨by simp, key (fun x hx => ⟨hts x (by simp [hx]), hr x hx⟩) r hr'⟩

theorem step_fine {s : CStep} (h : s.Ok) : Fine s.toks := by
  obtain ⟨line, arg⟩ := s
  obtain ⟨h1, h2⟩ := h
  simp only at h1 h2
  cases arg with
  | none => exact Fine.tok h1 (by simp) (by simp) (by simp)
  | table r rs => exact Fine.table (x := []) .nil h1 (by simp) (by simp) (by simp) h2.1 h2.2
  | doc o ls c =>
    exact (Fine.tok h1 (by simp) (by simp) (by simp)).append ((Fine.tok h2.1 (by simp) (by simp) (by simp)).append
      ((Fine.toks h2.2.2.1 (by simp) (by simp) (by simp)).append (Fine.tok h2.2.2.2 (by simp) (by simp) (by simp))))

theorem background_fine {s : CBackground} (h : s.Ok) : Fine s.toks :=
  (Fine.tok h.1 (by simp) (by simp) (by simp)).append ((Fine.toks h.2.1 (by simp) (by simp) (by simp)).append
    (.flatMap fun x hx => step_fine (h.2.2 x hx)))

theorem examples_fine {s : CExamples} (h : s.Ok) : Fine s.toks := by
  refine (Fine.toks h.1 (by simp) (by simp) (by simp)).append ?_
  rcases List.eq_nil_or_concat s.desc with hd | ⟨xs, x, hd⟩
  · rw [hd]
    exact Fine.table (x := []) .nil h.2.1 (by simp) (by simp) (by simp) h.2.2.2.1 h.2.2.2.2
  · have hx := h.2.2.1
    rw [hd] at hx ⊢
    rw [List.concat_eq_append] at hx ⊢
    have := Fine.table (x := s.line :: xs) (t := x) (k := .other)
      ((Fine.tok h.2.1 (by simp) (by simp) (by simp)).append (Fine.toks (k := .other) (fun t ht => hx t (by simp [ht])) (by simp) (by simp) (by simp)))
      (hx x (by simp)) (by simp) (by simp) (by simp) h.2.2.2.1 h.2.2.2.2
    simpa using this

theorem scenario_fine {s : CScenario} (h : s.Ok) : Fine s.toks :=
  (Fine.toks h.1 (by simp) (by simp) (by simp)).append ((Fine.tok h.2.1 (by simp) (by simp) (by simp)).append
    (((Fine.toks h.2.2.1 (by simp) (by simp) (by simp)).append (.flatMap fun x hx => step_fine (h.2.2.2.1 x hx))).append
      (.flatMap fun x hx => examples_fine (h.2.2.2.2 x hx))))

theorem rule_fine {s : CRule} (h : s.Ok) : Fine s.toks :=
  (Fine.toks h.1 (by simp) (by simp) (by simp)).append ((Fine.tok h.2.1 (by simp) (by simp) (by simp)).append
    (((Fine.toks h.2.2.1 (by simp) (by simp) (by simp)).append
      (.flatMap fun x hx => background_fine (h.2.2.2.1 x (by simpa using hx)))).append
      (.flatMap fun x hx => scenario_fine (h.2.2.2.2 x hx))))

theorem feature_fine {s : CFeature} (h : s.Ok) : Fine s.toks := by
  refine Fine.append (.append (Fine.toks (k := .language) (by simpa using h.1) (by simp) (by simp) (by simp))
    (Fine.toks h.2.1 (by simp) (by simp) (by simp))) ?_
  refine (Fine.tok h.2.2.1 (by simp) (by simp) (by simp)).append ?_
  exact (((Fine.toks h.2.2.2.1 (by simp) (by simp) (by simp)).append
    (.flatMap fun x hx => background_fine (h.2.2.2.2.1 x (by simpa using hx)))).append
    (.flatMap fun x hx => scenario_fine (h.2.2.2.2.2.1 x hx))).append (.flatMap fun x hx => rule_fine (h.2.2.2.2.2.2 x hx))

theorem doc_chain {d : CDoc} (h : d.Ok) : RowChain none d.toks := by
  have : Fine (d.toks ++ []) := by
    rw [List.append_nil]
    exact Fine.append (.flatMap fun x hx => feature_fine (h.1 x (by simpa using hx))) (Fine.tok h.2 (by simp) (by simp) (by simp))
  have := this [] (by intro w; trivial) none
  simpa using this

/-- The end of the file ends the document. -/
def rowOkE (q : Nat) : Bool :=
  match table q with
  | some row => row.trans.all fun tr => tr.kind != .eof || tr.target == 42
  | none => true

theorem rows_okE : ∀ q ∈ allStates, rowOkE q = true := by decide +kernel

theorem run_end {q : Nat} {m : CState} {lines : List Line} {mv : List Move} {q' : Nat} {m' : CState} (h : Run q m lines mv q' m')
    (hs : Src lines) : q' = 42 := by
  induction h with
  | nil => exact absurd rfl hs.ne
  | @last _ _ _ _ tr _ _ hst he =>
    have hsp := step_spec hst
    have hk : _ = Kind.eof := hsp.eof.resolve_right (by rw [he]; simp)
    obtain ⟨row, pre, post, hrow, htr, _⟩ := hsp.row
    have := rows_okE _ (mem_allStates hrow)
    unfold rowOkE at this
    rw [hrow] at this
    simp only [List.all_eq_true] at this
    have := this tr (by rw [htr]; simp)
    rw [hk] at this
    simpa using this
  | cons hst he hr ih => exact ih (hs.tail he)

/-- A run over the lines of a text whose significant tokens are those of a well-formed syntax tree: the parser accepts the text. -/
theorem run_parses {m : CState} (hm : m.Valid) {text : Str} {mv : List Move} {m' : CState}
    (h : Run 0 (Classic.reset m) (tokenLines text) mv 42 m') (hw : RowChain none (mv.map Move.tok)) (b : BState) (stop : Bool) :
    ∃ r, (parse (classicCfg astBuilder stop) text m b).1 = .ok r := by
  obtain ⟨h1, r, h2⟩ := builds_ok hm h hw b
  exact ⟨r, run_accepted astBuilder_plain hm h h1 h2⟩

/-- Runs are deterministic. -/
theorem run_det {q : Nat} {m : CState} {lines : List Line} {mv : List Move} {q' : Nat} {m' : CState} (h : Run q m lines mv q' m') :
    ∀ {mv2 : List Move} {q2 : Nat} {m2 : CState}, Run q m lines mv2 q2 m2 → mv2 = mv ∧ q2 = q' ∧ m2 = m' := by
  induction h with
  | nil => intro mv2 q2 m2 h; cases h; exact ⟨rfl, rfl, rfl⟩
  | last hst he =>
    intro mv2 q2 m2 h
    cases h with
    | last hst' _ => rw [hst] at hst'; cases hst'; exact ⟨rfl, rfl, rfl⟩
    | cons _ he' _ => rw [he] at he'; simp at he'
  | cons hst he hr ih =>
    intro mv2 q2 m2 h
    cases h with
    | last _ he' => rw [he] at he'; simp at he'
    | cons hst' _ hr' =>
      rw [hst] at hst'
      cases hst'
      obtain ⟨rfl, rfl, rfl⟩ := ih hr'
      exact ⟨rfl, rfl, rfl⟩

/-- A run over the lines of a text whose significant tokens are those of a well-formed syntax tree: the parser returns this tree. -/
theorem run_doc {m : CState} (hm : m.Valid) {text : Str} {mv : List Move} {q' : Nat} {m' : CState}
    (h : Run 0 (Classic.reset m) (tokenLines text) mv q' m') {D : CDoc} (hD : D.Ok) (hc : D.toks = (mv.map (·.tok)).filter Token.isCore)
    (b : BState) (stop : Bool) :
    (parse (classicCfg astBuilder stop) text m b).1 = .ok (some (D.ast (commentsOf (mv.map (·.tok))) b.nextId).1) := by
  have hq := run_end h (tokenLines_src text)
  subst hq
  have hw : RowChain none (mv.map Move.tok) := by rw [← rowChain_core, ← hc]; exact doc_chain hD
  obtain ⟨r, hr⟩ := run_parses hm h hw b stop
  obtain ⟨_, _, _, hr', _⟩ := parse_doc classic_lawful stop hr
  subst hr'
  obtain ⟨mv2, q2, m2, D2, r1, r2, r3, r4⟩ := accepted_doc hm hr
  obtain ⟨rfl, _, _⟩ := run_det h r1
  have : D2 = D := doc_inj r2 hD (by rw [r3, hc])
  rw [hr, r4, this]

end Gherkin
