import Verif.Proofs.MdNoise2

/-! Places in Markdown runs: before and after the feature line, inside doc strings. -/

namespace Gherkin

open Md Markdown Cst

/-! ### Moves and lines -/

/-- What a move says about the line it read. -/
structure MoveLine (x : Auto.Move) (l : Line) : Prop where
  number : x.tok.loc.line = l.number
  type : x.tok.type = some x.tr.kind
  row : ∃ row, table x.state = some row ∧ x.tr ∈ row.trans
  keyword : x.tr.kind = .docStringSeparator → ∃ kw ∈ Fences, x.tok.keyword = some kw
  inside : x.state ∈ Auto.openStates → x.tr.kind = .other → fenceOf l.text = none

def openRow (q : Nat) : Bool :=
  !Auto.openStates.contains q || match table q with
  | some row => match row.trans with
    | [a, b] => a.kind == .docStringSeparator && a.la == none && b.kind == .other
    | _ => false
  | none => true

theorem rows_open : ∀ q ∈ allStates, openRow q = true := by decide +kernel

theorem sep_keyword {d : Dialect} {f : Str} {t t' : Token} {m m' : MdState} (hm : Mild d f m) (h : matchKind .docStringSeparator t m = (.ok true, t', m')) :
    ∃ kw ∈ Fences, t'.keyword = some kw := by
  have key : ∀ s o, s ∈ Fences → matchSep s o t m = (.ok true, t', m') → ∃ kw ∈ Fences, t'.keyword = some kw := by
    intro s o hs h
    unfold matchSep at h
    repeat' split at h
    all_goals
      simp only [Prod.mk.injEq, Except.ok.injEq, Bool.false_eq_true, false_and, true_and] at h
      try exact ⟨s, hs, by rw [← h.1]; rfl⟩
  simp only [matchKind, matchDocSep] at h
  obtain ⟨_, ha | ⟨ha, hf⟩⟩ := hm
  · rw [ha] at h
    simp only at h
    repeat' split at h
    · exact key _ _ (by simp [Fences]) h
    · exact key _ _ (by simp [Fences]) h
    · exact key _ _ (by simp [Fences]) h
  · rw [ha] at h
    exact key _ _ hf h

theorem mdPick_mild {sk : Line → Bool} {d : Dialect} {f : Str} {lines : List Line} (h1 : MdKeeps (Mild d f) lines) {l : Line} {rest : List Line} (hl : l ∈ lines)
    (hsub : ∀ x ∈ rest, x ∈ lines) : ∀ {rows : List Trans} {m m' : MdState} {tr : Trans} {t : Token}, Mild d f m →
    MdAuto.pick sk rows l rest m = some (tr, t, m') → ∃ m0 m1, Mild d f m0 ∧ MdAuto.test tr.kind l m0 = (.ok true, t, m1) := by
  intro rows
  induction rows with
  | nil => intro m m' tr t _ h; simp [MdAuto.pick] at h
  | cons x xs ih =>
    intro m m' tr t hm h
    have hk := h1 x.kind l m hl hm
    simp only [MdAuto.pick] at h
    rcases ht : MdAuto.test x.kind l m with ⟨r, t1, m1⟩
    rw [ht] at h hk
    cases r with
    | error e => simp at h
    | ok b =>
      cases b with
      | false => exact ih hk h
      | true =>
        simp only at h
        cases hla : x.la with
        | none =>
          rw [hla] at h
          simp only [Option.some.injEq, Prod.mk.injEq] at h
          obtain ⟨rfl, rfl, _⟩ := h
          exact ⟨m, _, hm, ht⟩
        | some la =>
          rw [hla] at h
          simp only at h
          cases hp : MdAuto.peek sk la rest m1 with
          | none => rw [hp] at h; simp at h
          | some z =>
            obtain ⟨b, m2⟩ := z
            rw [hp] at h
            cases b with
            | true =>
              simp only [Option.some.injEq, Prod.mk.injEq] at h
              obtain ⟨rfl, rfl, _⟩ := h
              exact ⟨m, _, hm, ht⟩
            | false => exact ih (h1.peek_keep hsub hk hp) h

theorem mdStep_line {sk : Line → Bool} {d : Dialect} {f : Str} {lines : List Line} (h1 : MdKeeps (Mild d f) lines)
    (hf : ∀ l ∈ lines, fenceOf l.text = none ∨ fenceOf l.text = some f) {l : Line} {rest : List Line} (hl : l ∈ lines)
    (hsub : ∀ x ∈ rest, x ∈ lines) {q : Nat} {m m' : MdState} {tr : Trans} {t : Token} (hm : Mild d f m)
    (h : MdAuto.step sk q l rest m = some (tr, t, m')) : MoveLine ⟨q, tr, t⟩ l := by
  obtain ⟨⟨⟨row, hrow, htr⟩, hty, _⟩, heof⟩ := mdStep_fit h
  unfold MdAuto.step at h
  rw [hrow] at h
  simp only at h
  obtain ⟨m0, m1, hm0, ht⟩ := mdPick_mild h1 hl hsub hm h
  obtain ⟨hmk, _, _⟩ := mdTest_type ht
  refine ⟨?_, hty, ⟨row, hrow, htr⟩, ?_, ?_⟩
  · have := markdown_lawful.locLine tr.kind (Token.fresh l) m0
    rw [show markdown.match_ tr.kind (Token.fresh l) m0 = _ from hmk] at this
    exact this
  · intro hk
    simp only at hk
    rw [hk] at hmk
    exact sep_keyword hm0 hmk
  · intro ho hk
    simp only at ho hk
    have hr := rows_open q (mem_allStates hrow)
    unfold openRow at hr
    rw [hrow] at hr
    have : Auto.openStates.contains q = true := by simpa using ho
    rw [this] at hr
    simp only [Bool.not_true, Bool.false_or] at hr
    split at hr
    · rename_i a b hab
      simp only [Bool.and_eq_true, beq_iff_eq] at hr
      obtain ⟨⟨r1, r2⟩, r3⟩ := hr
      rw [hab] at h
      simp only [MdAuto.pick, r1, r2] at h
      have hne : l.isEof = false := by
        cases he : l.isEof with
        | false => rfl
        | true => have := heof.2 he; rw [hk] at this; simp at this
      rcases hs : MdAuto.test .docStringSeparator l m with ⟨r, t1, m1'⟩
      rw [hs] at h
      unfold MdAuto.test at hs
      rw [if_neg (by rw [hne]; simp)] at hs
      have ha := (sep_answer (t := Token.fresh l) (hf l hl) hm).1
      rw [show matchDocSep (Token.fresh l) m = _ from hs] at ha
      simp only at ha
      subst ha
      have hfl : (Token.fresh l).line.text = l.text := rfl
      rw [hfl] at h
      cases hfo : fenceOf l.text with
      | none => rfl
      | some y =>
        rw [hfo] at h
        simp only [Option.isSome_some, Option.some.injEq, Prod.mk.injEq] at h
        rw [← h.1, r1] at hk
        simp at hk
    · simp at hr

theorem mdRun_lines {sk : Line → Bool} {d : Dialect} {f : Str} {all : List Line} (h1 : MdKeeps (Mild d f) all) (h2 : MdKeeps (Good d f) all)
    (hf : ∀ l ∈ all, fenceOf l.text = none ∨ fenceOf l.text = some f) {q : Nat} {m : MdState} {lines : List Line} {mv : List Auto.Move} {q' : Nat} {m' : MdState}
    (h : MdAuto.Run sk q m lines mv q' m') : (∀ x ∈ lines, x ∈ all) → MdAt d f q m → ∀ {i : Nat} {x : Auto.Move}, mv[i]? = some x →
    ∃ l, lines[i]? = some l ∧ MoveLine x l := by
  induction h with
  | @last q m l rest tr t m' hst he =>
    intro hsub hm i x hx
    cases i with
    | zero =>
      simp only [List.getElem?_cons_zero, Option.some.injEq] at hx
      subst hx
      exact ⟨l, rfl, mdStep_line h1 hf (hsub l (by simp)) (fun x hx => hsub x (by simp [hx])) hm.1 hst⟩
    | succ i => simp at hx
  | @cons q m l rest tr t m' mv q' m'' hst he hr ih =>
    intro hsub hm i x hx
    have hs' : ∀ x ∈ rest, x ∈ all := fun x hx => hsub x (by simp [hx])
    cases i with
    | zero =>
      simp only [List.getElem?_cons_zero, Option.some.injEq] at hx
      subst hx
      exact ⟨l, rfl, mdStep_line h1 hf (hsub l (by simp)) hs' hm.1 hst⟩
    | succ i =>
      simp only [List.getElem?_cons_succ] at hx ⊢
      exact ih hs' (mdStep_at h1 h2 (hsub l (by simp)) hs' he hm hst) hx

/-! ### The states of a path -/

theorem path_states {q : Nat} {mv : List Auto.Move} {q' : Nat} (h : Path q mv q') : ∀ {a b : List Auto.Move} {x : Auto.Move}, mv = a ++ x :: b →
    (∃ row, table x.state = some row ∧ x.tr ∈ row.trans) ∧ Path q a x.state ∧ Path x.tr.target b q' := by
  induction h with
  | nil q => intro a b x h; simp at h
  | @cons q tr t mv q' hf hp ih =>
    intro a b x h
    cases a with
    | nil =>
      simp only [List.nil_append, List.cons.injEq] at h
      obtain ⟨rfl, rfl⟩ := h
      exact ⟨hf.1, .nil _, hp⟩
    | cons y a =>
      simp only [List.cons_append, List.cons.injEq] at h
      obtain ⟨rfl, rfl⟩ := h
      obtain ⟨h1, h2, h3⟩ := ih rfl
      exact ⟨h1, .cons hf h2, h3⟩

/-- Moves without separators stay inside or outside doc strings. -/
theorem path_side {q : Nat} {mv : List Auto.Move} {q' : Nat} (h : Path q mv q') (hs : ∀ x ∈ mv, x.tr.kind ≠ .docStringSeparator) :
    q' ∈ Auto.openStates ↔ q ∈ Auto.openStates := by
  induction h with
  | nil => rfl
  | @cons q tr t mv q' hf hp ih =>
    obtain ⟨⟨row, hrow, htr⟩, _⟩ := hf
    rw [ih fun x hx => hs x (by simp [hx])]
    exact ((Auto.row_facts hrow).2 tr htr).keep (hs ⟨q, tr, t⟩ (by simp))

/-- The separator that opened the doc string. -/
theorem path_open {mv : List Auto.Move} : ∀ {q q' : Nat}, Path q mv q' → q ∉ Auto.openStates → q' ∈ Auto.openStates →
    ∃ a o b, mv = a ++ o :: b ∧ o.tr.kind = .docStringSeparator ∧ o.state ∉ Auto.openStates ∧
      ∀ x ∈ b, x.tr.kind = .other ∧ x.state ∈ Auto.openStates := by
  induction mv using List.reverseRecOn with
  | nil => intro q q' h hq hq'; cases h; exact absurd hq' hq
  | append_singleton mv z ih =>
    intro q q' h hq hq'
    obtain ⟨⟨row, hrow, htr⟩, h2, h3⟩ := path_states h rfl
    cases h3
    have hf := (Auto.row_facts hrow).2 _ htr
    by_cases hk : z.tr.kind = .docStringSeparator
    · exact ⟨mv, z, [], rfl, hk, (hf.sep hk).1 hq', by simp⟩
    · have hz := (hf.keep hk).1 hq'
      obtain ⟨a, o, b, e1, e2, e3, e4⟩ := ih h2 hq hz
      refine ⟨a, o, b ++ [z], by rw [e1]; simp, e2, e3, fun x hx => ?_⟩
      rcases List.mem_append.1 hx with hx | hx
      · exact e4 x hx
      · simp only [List.mem_singleton] at hx
        subst hx
        exact ⟨((hf.inside hz).resolve_left hk).1, hz⟩

def featureOk (q : Nat) : Bool :=
  match table q with
  | some row => row.trans.all fun tr => tr.kind != .featureLine || decide (2 < tr.target)
  | none => true

theorem rows_featureOk : ∀ q ∈ allStates, featureOk q = true := by decide +kernel

theorem path_after {q : Nat} {mv : List Auto.Move} {q' : Nat} (h : Path q mv q') (hq : 2 < q ∨ ∃ x ∈ mv, x.tr.kind = .featureLine) : 2 < q' := by
  induction h with
  | nil => rcases hq with hq | ⟨x, hx, _⟩ <;> [exact hq; simp at hx]
  | @cons q tr t mv q' hf hp ih =>
    obtain ⟨⟨row, hrow, htr⟩, _⟩ := hf
    apply ih
    rcases hq with hq | ⟨x, hx, hk⟩
    · exact .inl ((after_row hrow hq).2 tr htr)
    · rcases List.mem_cons.1 hx with rfl | hx
      · left
        have := rows_featureOk q (mem_allStates hrow)
        unfold featureOk at this
        rw [hrow] at this
        simp only [List.all_eq_true] at this
        have := this tr htr
        simp only at hk
        rw [hk] at this
        simpa using this
      · exact .inr ⟨x, hx, hk⟩

/-! ### Places in the document -/

section
variable {text : Str} {mvA : List Auto.Move} {z : Auto.Move} {mvY : List Auto.Move} {D : CDoc}

theorem core_of {t : Token} {k : Kind} (h : t.type = some k) (hk : k ≠ .empty) (hc : k ≠ .comment) : t.isCore = true := by
  rw [isCore_kind h]; revert hk hc; cases k <;> simp

/-- After the feature line. -/
theorem md_after (hpath : Path 0 (mvA ++ z :: mvY) 42)
    (hlines : ∀ {i : Nat} {x : Auto.Move}, (mvA ++ z :: mvY)[i]? = some x → ∃ l, (tokenLines text)[i]? = some l ∧ MoveLine x l)
    (hD : D.Ok) (ht : D.toks = ((mvA ++ z :: mvY).map (·.tok)).filter Token.isCore) {cm : List Comment} {n : Nat} {ft : Feature}
    (hft : (D.ast cm n).1.feature = some ft) (hle : ft.loc.line ≤ mvA.length) : 2 < z.state := by
  obtain ⟨_, hA, _⟩ := path_states hpath rfl
  apply path_after hA
  right
  cases hf : D.feature with
  | none => rw [CDoc.ast, hf] at hft; simp [threadOpt] at hft
  | some F =>
    have hl : ft.loc = F.line.loc := by
      rw [CDoc.ast, hf] at hft
      simp [threadOpt] at hft
      rw [← hft]; rfl
    have hFok := hD.1 F (by rw [hf]; rfl)
    have hmem : F.line ∈ D.toks := by simp [CDoc.toks, hf, CFeature.toks]
    rw [ht, List.mem_filter, List.mem_map] at hmem
    obtain ⟨⟨x, hx, hxe⟩, _⟩ := hmem
    obtain ⟨i, hi⟩ := List.getElem?_of_mem hx
    obtain ⟨l, hl1, hl2⟩ := hlines hi
    have hnum : l.number = i + 1 := by
      obtain ⟨hlt, rfl⟩ := List.getElem?_eq_some_iff.1 hl1
      exact tokenLines_getElem hlt
    have hlt : i < mvA.length := by
      have := hl2.number
      rw [hxe, ← hl, hnum] at this
      omega
    rw [List.getElem?_append_left hlt] at hi
    refine ⟨x, List.mem_of_getElem? hi, ?_⟩
    have := hl2.type
    rw [hxe, hFok.2.2.1] at this
    simpa using this.symm

/-- A line read in an open state is a line inside a doc string. -/
theorem md_inside (hpath : Path 0 (mvA ++ z :: mvY) 42)
    (hlines : ∀ {i : Nat} {x : Auto.Move}, (mvA ++ z :: mvY)[i]? = some x → ∃ l, (tokenLines text)[i]? = some l ∧ MoveLine x l)
    (hlen : mvA.length ≤ (splitLines text).length)
    (hD : D.Ok) (ht : D.toks = ((mvA ++ z :: mvY).map (·.tok)).filter Token.isCore) {cm : List Comment} {n : Nat}
    (hz : z.state ∈ Auto.openStates) : (D.ast cm n).1.inDocString text (mvA.length + 1) := by
  obtain ⟨_, hA, _⟩ := path_states hpath rfl
  obtain ⟨a, o, b, rfl, ho1, ho2, ho3⟩ := path_open hA (by simp [Auto.openStates]) hz
  have hnum : ∀ {i x}, (a ++ o :: b ++ z :: mvY)[i]? = some x → x.tok.loc.line = i + 1 := by
    intro i x hi
    obtain ⟨l, hl1, hl2⟩ := hlines hi
    obtain ⟨hlt, rfl⟩ := List.getElem?_eq_some_iff.1 hl1
    rw [hl2.number]
    exact tokenLines_getElem hlt
  have hoi : (a ++ o :: b ++ z :: mvY)[a.length]? = some o := by simp
  obtain ⟨lo, hlo, hol⟩ := hlines hoi
  have hty := hol.type
  rw [ho1] at hty
  have hmem : o.tok ∈ D.toks := by
    rw [ht, List.mem_filter]
    exact ⟨by simp, core_of hty (by simp) (by simp)⟩
  obtain ⟨S, hS, O, ls, C, ha, hoc⟩ := sep_mem hD hmem hty
  have hSok := csteps_ok hD hS
  have hO : o.tok = O := by
    rcases hoc with h | h
    · exact h
    · exfalso
      have hok := hSok.2
      rw [ha] at hok
      obtain ⟨P, Q, hPQ⟩ := step_infix hS
      have e1 : ((a ++ o :: b ++ z :: mvY).map (·.tok)).filter Token.isCore = P ++ S.line :: (O :: (ls ++ C :: Q)) := by
        rw [← ht, ← hPQ]; simp [CStep.toks, ha, Arg.toks]
      obtain ⟨mv1, s, mv2, f1, f2, f3, _⟩ := locate e1
      obtain ⟨mv3, x, mv4, g1, g2, g3, g4⟩ := locate (A := []) (by simpa using f3)
      obtain ⟨mv5, y, mv6, k1, k2, k3, k4⟩ := locate (A := ls) g3
      have hyo : mv1.length + 1 + mv3.length + 1 + mv5.length = a.length := by
        have h1 : (a ++ o :: b ++ z :: mvY)[mv1.length + 1 + mv3.length + 1 + mv5.length]? = some y := by
          rw [f1, g1, k1]
          rw [show mv1 ++ s :: (mv3 ++ x :: (mv5 ++ y :: mv6)) = (mv1 ++ s :: (mv3 ++ x :: mv5)) ++ y :: mv6 by simp]
          rw [List.getElem?_append_right (by simp; omega)]
          rw [show mv1.length + 1 + mv3.length + 1 + mv5.length - (mv1 ++ s :: (mv3 ++ x :: mv5)).length = 0 by simp; omega]
          rfl
        have h2 := hnum h1
        have h3 := hnum hoi
        rw [h, ← k2] at h3
        omega
      have hall : mv1 ++ s :: (mv3 ++ x :: (mv5 ++ y :: mv6)) = a ++ o :: (b ++ z :: mvY) := by
        rw [← k1, ← g1, ← f1]; simp
      have hall' : (mv1 ++ s :: (mv3 ++ x :: mv5)) ++ y :: mv6 = a ++ o :: (b ++ z :: mvY) := by rw [← hall]; simp
      obtain ⟨q1, q2⟩ := List.append_inj hall' (by simp; omega)
      have hpa : Path 0 (mv1 ++ s :: (mv3 ++ x :: mv5)) o.state := by
        rw [q1]
        exact (path_states hpath (a := a) (x := o) (b := b ++ z :: mvY) (by simp)).2.1
      have hkind : ∀ w ∈ mv1 ++ s :: (mv3 ++ x :: mv5), ∃ row, table w.state = some row ∧ w.tr ∈ row.trans ∧ w.tok.type = some w.tr.kind := by
        intro w hw
        rw [q1] at hw
        obtain ⟨i, hi⟩ := List.getElem?_of_mem (show w ∈ a ++ o :: b ++ z :: mvY by simp [hw])
        obtain ⟨l, _, hl⟩ := hlines hi
        obtain ⟨row, r1, r2⟩ := hl.row
        exact ⟨row, r1, r2, hl.type⟩
      obtain ⟨⟨rs, hrs1, hrs2⟩, p1, p2⟩ := path_states hpa rfl
      obtain ⟨⟨rx, hrx1, hrx2⟩, p3, p4⟩ := path_states p2 rfl
      have noncore : ∀ w ∈ mv3, w.tr.kind ≠ .docStringSeparator := by
        intro w hw e
        obtain ⟨_, _, _, hwt⟩ := hkind w (by simp [hw])
        rw [e] at hwt
        have : w.tok ∈ (mv3.map (·.tok)).filter Token.isCore := by
          rw [List.mem_filter]
          exact ⟨List.mem_map_of_mem hw, core_of hwt (by simp) (by simp)⟩
        rw [g4] at this
        simp at this
      have lsother : ∀ w ∈ mv5, w.tr.kind ≠ .docStringSeparator := by
        intro w hw e
        obtain ⟨_, _, _, hwt⟩ := hkind w (by simp [hw])
        rw [e] at hwt
        have : w.tok ∈ (mv5.map (·.tok)).filter Token.isCore := by
          rw [List.mem_filter]
          exact ⟨List.mem_map_of_mem hw, core_of hwt (by simp) (by simp)⟩
        rw [k4] at this
        have := hok.2.2.1 _ this
        rw [hwt] at this
        simp at this
      have hsk : s.tr.kind = .stepLine := by
        obtain ⟨_, _, _, hwt⟩ := hkind s (by simp)
        rw [f2, hSok.1] at hwt
        simpa using hwt.symm
      have hxk : x.tr.kind = .docStringSeparator := by
        obtain ⟨_, _, _, hwt⟩ := hkind x (by simp)
        rw [g2, hok.1] at hwt
        simpa using hwt.symm
      have fs := (Auto.row_facts hrs1).2 _ hrs2
      have fx := (Auto.row_facts hrx1).2 _ hrx2
      have s0 : s.state ∉ Auto.openStates := by
        intro hs
        rcases fs.inside hs with e | ⟨e, _⟩ <;> rw [hsk] at e <;> simp at e
      have s1 : s.tr.target ∉ Auto.openStates := fun hs => s0 ((fs.keep (by rw [hsk]; simp)).1 hs)
      have s2 : x.state ∉ Auto.openStates := fun hs => s1 ((path_side p3 noncore).1 hs)
      exact ho2 ((path_side p4 lsother).2 ((fx.sep hxk).2 s2))
  obtain ⟨k, hk⟩ := step_ast (cm := cm) (n := n) hS
  refine ⟨{ loc := O.loc, content := joinStr ['\n'] (ls.map textOf), delimiter := O.keyword, mediaType := if textOf O = [] then none else some (textOf O) }, ?_, ?_⟩
  · simp only [Document.docStrings, List.mem_filterMap]
    exact ⟨_, hk, by simp [CStep.ast, ha, Arg.ast]⟩
  · obtain ⟨kw, hkw1, hkw2⟩ := hol.keyword ho1
    have hline : O.loc.line = a.length + 1 := by rw [← hO]; exact hnum hoi
    simp only [DocString.lines, List.mem_range'_1, List.length_append, List.length_cons]
    rw [hline, ← hO, hkw2]
    simp only [Option.getD_some]
    have hbody : b.length ≤ (docBody text (a.length + 1) kw).length := by
      unfold docBody linesAfter
      have hget : ∀ i, i < b.length → ∃ l, ((sourceLines text).drop (a.length + 1))[i]? = some l ∧ isDelim kw l = false := by
        intro i hi
        have hx : (a ++ o :: b ++ z :: mvY)[a.length + 1 + i]? = some b[i] := by
          rw [show a ++ o :: b ++ z :: mvY = (a ++ [o]) ++ (b ++ z :: mvY) by simp, List.getElem?_append_right (by simp)]
          rw [show a.length + 1 + i - (a ++ [o]).length = i by simp, List.getElem?_append_left hi, List.getElem?_eq_getElem hi]
        obtain ⟨l, hl1, hl2⟩ := hlines hx
        obtain ⟨x1, x2⟩ := ho3 b[i] (List.getElem_mem hi)
        have hfe := hl2.inside x2 x1
        refine ⟨l, ?_, ?_⟩
        · rw [List.getElem?_drop]
          have hlt : a.length + 1 + i < (sourceLines text).length := by
            simp only [List.length_append, List.length_cons] at hlen
            simp only [sourceLines, List.length_map, List.length_zipIdx]
            omega
          unfold tokenLines at hl1
          rw [List.getElem?_append_left hlt] at hl1
          exact hl1
        · cases hd : isDelim kw l with
          | false => rfl
          | true =>
            exfalso
            unfold isDelim at hd
            rw [List.isPrefixOf_iff_prefix] at hd
            unfold fenceOf at hfe
            rw [List.find?_eq_none] at hfe
            have := hfe kw hkw1
            apply this
            simp only [decide_eq_true_eq]
            exact (List.prefix_iff_eq_take.1 hd).symm
      generalize (sourceLines text).drop (a.length + 1) = xs at hget ⊢
      clear hnum hoi hlo hol hlines hpath ho3 hlen ht hA
      generalize b.length = N at hget ⊢
      induction N generalizing xs with
      | zero => omega
      | succ N ih =>
        cases xs with
        | nil => obtain ⟨l, hl, _⟩ := hget 0 (by omega); simp at hl
        | cons x xs =>
          obtain ⟨l, hl, hl'⟩ := hget 0 (by omega)
          simp only [List.getElem?_cons_zero, Option.some.injEq] at hl
          subst hl
          rw [List.takeWhile_cons, if_pos (by rw [hl']; rfl)]
          simp only [List.length_cons]
          have := ih xs fun i hi => by
            obtain ⟨l, h1, h2⟩ := hget (i + 1) (by omega)
            exact ⟨l, by simpa using h1, h2⟩
          omega
    omega

end

end Gherkin
