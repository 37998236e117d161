import Verif.Proofs.FirstError4
import Verif.Proofs.Builds
import Verif.Props.Listing
import Verif.Props.LineEnds
import Verif.Spec.FirstError

/-! The lines before the first syntax error can be completed. -/

namespace Gherkin

open Auto

theorem getTableRows_kind {items : List Item} {n : Nat} {e : Err} {k : Nat}
    (h : AstB.getTableRows items n = (.error (.parser e), k)) : e.kind = .astBuilder := by
  unfold AstB.getTableRows at h
  simp only at h
  split at h
  · simp only [Prod.mk.injEq, Except.error.injEq, MExc.parser.injEq] at h
    rw [← h.1]; rfl
  · simp at h

theorem transform_kind {r : Rule} {items : List Item} {cs : List Comment} {n k : Nat} {e : Err}
    (h : AstB.transform r items cs n = (.error (.parser e), k)) : e.kind = .astBuilder := by
  cases r <;> simp only [AstB.transform] at h
  case dataTable =>
    unfold AstB.mkDataTable at h
    split at h <;> simp at h
    rename_i e' n' he
    obtain ⟨rfl, rfl⟩ := h
    exact getTableRows_kind he
  case examplesTable =>
    unfold AstB.mkExamplesTable at h
    split at h <;> simp at h
    rename_i e' n' he
    obtain ⟨rfl, rfl⟩ := h
    exact getTableRows_kind he
  case step => unfold AstB.mkStep at h; split at h <;> simp at h
  case docString => unfold AstB.mkDocString at h; repeat' (first | (simp at h; done) | split at h)
  case background => unfold AstB.mkBackground at h; repeat' (first | (simp at h; done) | split at h)
  case scenarioDefinition => unfold AstB.mkScenario at h; repeat' (first | (simp at h; done) | split at h)
  case examplesDefinition => unfold AstB.mkExamples at h; repeat' (first | (simp at h; done) | split at h)
  case description => unfold AstB.mkDescription at h; repeat' (first | (simp at h; done) | split at h)
  case rule => unfold AstB.mkRule at h; repeat' (first | (simp at h; done) | split at h)
  case feature => unfold AstB.mkFeature at h; repeat' (first | (simp at h; done) | split at h)
  all_goals simp at h

theorem astBuilder_apart : astBuilder.Apart := by
  refine ⟨?_, ?_⟩
  · intro b ev e h
    cases ev with
    | take l => simp [evAnswer] at h
    | start r => simp [evAnswer, astBuilder, AstB.startRule] at h
    | stop r =>
      simp only [evAnswer, astBuilder, AstB.endRule] at h
      split at h
      · simp at h
      · simp at h
      · split at h
        · simp at h
        · rename_i e' n' he
          simp only [Except.error.injEq] at h
          subst h
          exact transform_kind he
    | build t =>
      simp only [evAnswer, astBuilder, AstB.build] at h
      split at h
      · simp at h
      · split at h <;> simp at h
  · intro b e h
    simp only [astBuilder, AstB.result] at h
    repeat' (first | (simp at h; done) | split at h)

/-! ### Rows of different widths -/

theorem rowChain_append {ys : List Token} (hy : ∀ t ∈ ys, t.type ≠ some .tableRow) : ∀ {xs : List Token} {w : Option Nat}, RowChain w xs → RowChain w (xs ++ ys)
  | [], w, _ => by
    induction ys generalizing w with
    | nil => trivial
    | cons y ys ih =>
      have hy' := hy y (by simp)
      have ih' := ih fun t ht => hy t (by simp [ht])
      simp only [List.nil_append, RowChain, hy', if_false] at ih' ⊢
      split
      · exact ih' none trivial
      · exact ih' w trivial
  | x :: xs, w, h => by
    simp only [List.cons_append, RowChain] at h ⊢
    by_cases hr : x.type = some .tableRow
    · rw [if_pos hr] at h ⊢
      exact ⟨h.1, rowChain_append hy h.2⟩
    · rw [if_neg hr] at h ⊢
      by_cases hc : x.isCore = true
      · rw [if_pos hc] at h ⊢
        exact rowChain_append hy h
      · rw [if_neg hc] at h ⊢
        exact rowChain_append hy h

/-- Lines and the tokens they gave. -/
structure TokFor (l : Line) (t : Token) : Prop where
  eof : l.isEof = false
  row : t.type = some .tableRow → firstIs '|' l = true ∧ l.tableCells = .ok t.items
  skip : t.isCore = false → isBlankLine l = true ∨ firstIs '#' l = true

theorem tok_for {k : Kind} {l : Line} {m m' : CState} {t : Token} (he : l.isEof = false) (h : Classic.matchKind k (Token.fresh l) m = (.ok true, t, m')) :
    TokFor l t := by
  have ht := matched_type h
  refine ⟨he, ?_, ?_⟩
  · intro hr
    have : k = .tableRow := by rw [ht] at hr; simpa using hr
    subst this
    exact (row_token he h).2
  · intro hc
    have : k = .comment ∨ k = .empty := by
      simp only [Token.isCore, ht] at hc
      by_cases hk : k = .comment
      · exact .inl hk
      · right
        simpa [hk] using hc
    rcases this with rfl | rfl
    · right
      simp only [Classic.matchKind, Classic.matchComment] at h
      split at h
      · rename_i hb
        rw [firstIs_iff]
        exact hb
      · simp at h
    · left
      simp only [Classic.matchKind, Classic.matchEmpty] at h
      split at h
      · rename_i hb
        rw [isBlankLine_iff]
        exact hb
      · simp at h

inductive TokFors : List Line → List Token → Prop
  | nil : TokFors [] []
  | cons {l ls t ts} : TokFor l t → TokFors ls ts → TokFors (l :: ls) (t :: ts)

theorem reach_toks {suf : List Line} {q : Nat} {m : CState} {pre : List Line} {mv : List Move} {q' : Nat} {m' : CState}
    (h : Reach suf q m pre mv q' m') : TokFors pre (mv.map Move.tok) := by
  induction h with
  | nil => exact .nil
  | cons hs he _ ih => exact .cons (tok_for he (step_spec hs).matched) ih

theorem uneven_from {ls : List Line} {ts : List Token} (h : TokFors ls ts) :
    (¬ RowChain none ts → UnevenRows ls) ∧
    ∀ n, ¬ RowChain (some n) ts → UnevenRows ls ∨ ∃ b r' c cells', ls = b ++ r' :: c ∧ (∀ x ∈ b, isBlankLine x = true ∨ firstIs '#' x = true) ∧
      firstIs '|' r' = true ∧ r'.tableCells = .ok cells' ∧ n ≠ cells'.length := by
  have up : ∀ {l : Line} {ls : List Line}, UnevenRows ls → UnevenRows (l :: ls) := by
    rintro l ls ⟨a, r, b, r', c, x, y, h1, h2⟩
    exact ⟨l :: a, r, b, r', c, x, y, by simp [h1], h2⟩
  induction h with
  | nil => exact ⟨fun h => absurd trivial h, fun n h => absurd trivial h⟩
  | @cons l ls t ts ht hts ih =>
    by_cases hr : t.type = some .tableRow
    · obtain ⟨g1, g2⟩ := ht.row hr
      have key : ¬ RowChain (some t.items.length) ts → UnevenRows (l :: ls) := by
        intro h
        rcases ih.2 _ h with h | ⟨b, r', c, cells', e1, e2, e3, e4, e5⟩
        · exact up h
        · exact ⟨[], l, b, r', c, t.items, cells', by simp [e1], e2, g1, e3, g2, e4, e5⟩
      constructor
      · intro h
        refine key ?_
        intro h'
        exact h (by simp only [RowChain, hr, if_true]; exact ⟨by simp, h'⟩)
      · intro n h
        by_cases hn : t.items.length = n
        · left
          refine key ?_
          intro h'
          exact h (by simp only [RowChain, hr, if_true]; exact ⟨by simpa using hn, h'⟩)
        · right
          exact ⟨[], l, ls, t.items, rfl, by simp, g1, g2, fun h => hn h.symm⟩
    · cases hc : t.isCore with
      | true =>
        have key : ∀ w, ¬ RowChain w (t :: ts) → UnevenRows (l :: ls) := by
          intro w h
          refine up (ih.1 ?_)
          intro h'
          exact h (by simp only [RowChain, hr, hc, if_false, if_true]; exact h')
        exact ⟨key none, fun n h => .inl (key _ h)⟩
      | false =>
        have hs := ht.skip hc
        constructor
        · intro h
          refine up (ih.1 ?_)
          intro h'
          exact h (by simp only [RowChain, hr, hc, if_false]; simpa using h')
        · intro n h
          rcases ih.2 n (by
            intro h'
            exact h (by simp only [RowChain, hr, hc, if_false]; simpa using h')) with h | ⟨b, r', c, cells', e1, e2, e3⟩
          · exact .inl (up h)
          · refine .inr ⟨l :: b, r', c, cells', by simp [e1], ?_, e3⟩
            intro x hx
            rcases List.mem_cons.1 hx with rfl | hx
            · exact hs
            · exact e2 x hx

/-! ### Completing the lines -/

theorem complete {text : Str} {m : CState} (hm : m.Valid) {pre : List Line} {l : Line} {rest : List Line} {mv : List Move} {q : Nat} {m' : CState}
    {row : StateRow} (ht : tokenLines text = pre ++ l :: rest) (hr : Reach (l :: rest) 0 (Classic.reset m) pre mv q m') (hrow : table q = some row)
    (hp : ∀ tr ∈ row.trans, Passed l rest m' tr) (hs : ∀ x ∈ (splitLines text).take pre.length, ∃ b, '\n' ∉ b ∧ x = b ++ ['\n']) :
    ∃ more mv2 m2, Run 0 (Classic.reset m) (tokenLines (((splitLines text).take pre.length).flatten ++ more)) (mv ++ mv2) 42 m2 ∧
      ∀ x ∈ mv2, x.tok.type ≠ some .tableRow := by
  have hi0 := inv_start hm
  have hi := hr.inv hi0
  have hn : needLa q = none := no_need hrow hp (need_reach hr hi0 (by intro la h; simp [needLa] at h))
  obtain ⟨ls, hc⟩ := closes hrow hi hn
  obtain ⟨h1, h2, _⟩ := place_in ht
  obtain ⟨mv2, m2, k1, k2⟩ := hc.run (pre.length + 1)
  refine ⟨ls.flatten, mv2, m2, ?_, k2⟩
  have hsp : splitLines (((splitLines text).take pre.length).flatten ++ ls.flatten) = (splitLines text).take pre.length ++ ls := by
    rw [← List.flatten_append]
    exact Blind.split_flat fun x hx => by
      rcases List.mem_append.1 hx with hx | hx
      · exact hs x hx
      · exact hc.shape x hx
  have hlen : ((splitLines text).take pre.length).length = pre.length := by
    have := congrArg List.length h1
    rw [linesFrom_length] at this
    exact this.symm
  rw [tokenLines_from, hsp, linesFrom_append, hlen, ← h1, List.length_append, hlen]
  have hsw := reach_swap (suf' := linesFrom (pre.length + 1) ls ++ [⟨[], pre.length + 1 + ls.length⟩]) hr hi0 fun hq => ⟨hn, fun la => hc.peek hq _ la⟩
  have := hsw.run k1
  have e1 : 1 + pre.length = pre.length + 1 := by omega
  have e2 : pre.length + ls.length + 1 = pre.length + 1 + ls.length := by omega
  rw [e1, e2, List.append_assoc]
  exact this

end Gherkin
