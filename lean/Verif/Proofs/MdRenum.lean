import Verif.Proofs.MdRunBack
import Verif.Proofs.MirrorLine
import Verif.Proofs.Renum

/-! The Markdown matcher does not look at line numbers. -/

namespace Gherkin

namespace Md

/-- Tokens that differ in places only, of lines with the same text. -/
def TokTwin (t t' : Token) : Prop := t'.erase = t.erase ∧ t'.line.text = t.line.text

/-- Results that differ in the places of the token only. -/
def Ren (r r' : Except MExc Bool × Token × MdState) : Prop := r'.1 = r.1 ∧ TokTwin r.2.1 r'.2.1 ∧ r'.2.2 = r.2.2

theorem twin_set {t t' : Token} (h : TokTwin t t') (d : Str) (k : Option Kind) (x : Option Str) (kw : Option Str) (kt : Option KType) (i : Option Nat)
    (its : List MItem) : TokTwin (setMatched d t k x kw kt i its) (setMatched d t' k x kw kt i its) := by
  obtain ⟨h1, h2⟩ := h
  cases t with | mk line loc a1 a2 a3 a4 a5 a6 a7 =>
  cases t' with | mk line' loc' b1 b2 b3 b4 b5 b6 b7 =>
  cases line with | mk s n =>
  cases line' with | mk s' n' =>
  simp only at h2
  subst h2
  simp only [Token.erase, Token.mk.injEq] at h1
  simp [TokTwin, setMatched, Token.erase, h1, Line.indent, Line.trimmed, Line.isEof]

theorem ren_simple {k : Kind} (hk : k ≠ .empty) {t t' : Token} (h : TokTwin t t') (m : MdState) : Ren (matchKind k t m) (matchKind k t' m) := by
  have hs := twin_set h
  have hl := h.2
  cases hln : t.line with | mk s n =>
  cases hln' : t'.line with | mk s' n' =>
  rw [hln, hln'] at hl
  simp only at hl
  replace hl := hl.symm
  subst hl
  have e1 : ∀ p, (Line.mk s n').startsWith p = (Line.mk s n).startsWith p := fun _ => rfl
  have e4 : (Line.mk s n').isEof = (Line.mk s n).isEof := rfl
  have e5 : (Line.mk s n').lineText = (Line.mk s n).lineText := rfl
  have e7 : (Line.mk s n').tableCells = (Line.mk s n).tableCells := rfl
  have e8 : ∀ j, (Line.mk s n').lineTextFrom j = (Line.mk s n).lineTextFrom j := fun _ => rfl
  have e9 : (Line.mk s n').indent = (Line.mk s n).indent := rfl
  have e10 : ∀ j, (Line.mk s n').restTrimmed j = (Line.mk s n).restTrimmed j := fun _ => rfl
  cases hsc : searchTitle (headerPrefix (Line.mk s n).lineText) m.dialect.scenario [':'] <;>
    cases hf : searchTitle (headerPrefix (Line.mk s n).lineText) m.dialect.feature [':']
  all_goals
    cases k
    case empty => exact absurd rfl hk
    all_goals
      simp only [matchKind, matchEof, matchComment, matchTagLine, matchTitle, matchFeature, matchScenario, matchHeaded, matchStep, matchDocSep,
        matchSep, matchTableRow, matchLanguage, matchOther, Token.eof, hln, hln', e1, e4, e5, e7, e8, e9, e10, hsc, hf]
      (repeat' split) <;> first | exact ⟨rfl, h, rfl⟩ | exact ⟨rfl, hs .., rfl⟩

theorem ren_orElse : ∀ {ks : List Kind}, (∀ k ∈ ks, k ≠ .empty) → ∀ {t t' : Token} (m : MdState), TokTwin t t' →
    Ren (orElse (ks.map matchKind) t m) (orElse (ks.map matchKind) t' m) := by
  intro ks
  induction ks with
  | nil => intro _ t t' m h; exact ⟨rfl, h, rfl⟩
  | cons k ks ih =>
    intro hk t t' m h
    have i := ren_simple (hk k (by simp)) h m
    obtain ⟨e1, e2, e3⟩ := i
    simp only [List.map_cons, orElse]
    rcases hm : matchKind k t m with ⟨r, t1, m1⟩
    rcases hm' : matchKind k t' m with ⟨r', t1', m1'⟩
    rw [hm, hm'] at e1 e2 e3
    simp only at e1 e2 e3
    subst e1; subst e3
    cases r' with
    | error e => exact ⟨rfl, e2, rfl⟩
    | ok b =>
      cases b with
      | true => exact ⟨rfl, e2, rfl⟩
      | false => exact ih (fun x hx => hk x (by simp [hx])) m1' e2

theorem ren (k : Kind) {t t' : Token} (h : TokTwin t t') (m : MdState) : Ren (matchKind k t m) (matchKind k t' m) := by
  by_cases hk : k = .empty
  · subst hk
    obtain ⟨e1, e2, e3⟩ := ren_orElse probe_kinds m h
    rw [← probes_eq] at e1 e2 e3
    have hb : t'.line.isBlank = t.line.isBlank := by
      have := h.2
      cases hln : t.line with | mk s n =>
      cases hln' : t'.line with | mk s' n' =>
      rw [hln, hln'] at this
      simp only at this
      subst this; rfl
    simp only [matchKind, matchEmpty]
    rcases hm : orElse emptyProbes t m with ⟨r, t1, m1⟩
    rcases hm' : orElse emptyProbes t' m with ⟨r', t1', m1'⟩
    rw [hm, hm'] at e1 e2 e3
    simp only at e1 e2 e3
    subst e1; subst e3
    cases r' with
    | error e => exact ⟨rfl, e2, rfl⟩
    | ok b =>
      simp only [hb]
      split
      · exact ⟨rfl, twin_set e2 .., rfl⟩
      · exact ⟨rfl, e2, rfl⟩
  · exact ren_simple hk h m

theorem twin_fresh {l l' : Line} (h : l'.text = l.text) : TokTwin (Token.fresh l) (Token.fresh l') := ⟨rfl, h⟩

end Md

namespace MdAuto

open Md

theorem test_renum {l l' : Line} (h : l'.text = l.text) (k : Kind) (m : MdState) : Ren (test k l m) (test k l' m) := by
  have he : l'.isEof = l.isEof := by simp [Line.isEof, h]
  unfold test
  rw [he]
  split
  · exact ⟨rfl, twin_fresh h, rfl⟩
  · exact ren k (twin_fresh h) m

theorem any_renum {l l' : Line} (h : l'.text = l.text) : ∀ (ks : List Kind) (m : MdState), any ks l' m = any ks l m := by
  intro ks
  induction ks with
  | nil => intro m; rfl
  | cons k ks ih =>
    intro m
    obtain ⟨e1, e2, e3⟩ := test_renum h k m
    simp only [any]
    rcases ht : test k l m with ⟨r, t, m1⟩
    rcases ht' : test k l' m with ⟨r', t', m1'⟩
    rw [ht, ht'] at e1 e3
    simp only at e1 e3
    subst e1; subst e3
    cases r' with
    | error e => rfl
    | ok b => cases b <;> simp [ih]

/-- A skip function that does not look at line numbers. -/
def Textual (sk : Line → Bool) : Prop := ∀ l l' : Line, l'.text = l.text → sk l' = sk l

theorem peek_renum {sk : Line → Bool} (hsk : Textual sk) {la : LA} : ∀ {r r' : List Line}, r.map (·.text) = r'.map (·.text) → ∀ m, peek sk la r' m = peek sk la r m
  | [], [], _, _ => rfl
  | [], _ :: _, h, _ => by simp at h
  | _ :: _, [], h, _ => by simp at h
  | l :: r, l' :: r', h, m => by
    simp only [List.map_cons, List.cons.injEq] at h
    have h1 := h.1.symm
    obtain ⟨e1, e2, e3⟩ := test_renum h1 la.expected m
    simp only [peek]
    rcases ht : test la.expected l m with ⟨x, t, m1⟩
    rcases ht' : test la.expected l' m with ⟨x', t', m1'⟩
    rw [ht, ht'] at e1 e3
    simp only at e1 e3
    subst e1; subst e3
    rw [hsk l l' h1]
    cases x' with
    | error e => rfl
    | ok b =>
      cases b with
      | true => rfl
      | false =>
        simp only [any_renum h1]
        cases any skipKinds l m1' with
        | none => rfl
        | some x =>
          obtain ⟨b, m2⟩ := x
          cases b with
          | false => rfl
          | true => simp only [peek_renum hsk h.2]

/-- The answer of `pick` for a line with the same text, if look-aheads have the same answers. -/
theorem pick_renum {sk : Line → Bool} {l l' : Line} (h : l'.text = l.text) {r r' : List Line} {I : MdState → Prop}
    (hp : ∀ la m, I m → peek sk la r' m = peek sk la r m) (hk1 : ∀ k m, I m → I (test k l m).2.2)
    (hk2 : ∀ la m b m', I m → peek sk la r m = some (b, m') → I m') : ∀ {rows : List Trans} {m m' : MdState} {tr : Trans} {t : Token},
    ((∀ x ∈ rows, x.la = none) ∨ I m) → pick sk rows l r m = some (tr, t, m') → ∃ t', pick sk rows l' r' m = some (tr, t', m') ∧ t'.erase = t.erase ∧ (l' = l → t' = t) := by
  intro rows
  induction rows with
  | nil => intro m m' tr t _ h; simp [pick] at h
  | cons x xs ih =>
    intro m m' tr t hI hpick
    obtain ⟨e1, e2, e3⟩ := test_renum h x.kind m
    have hI1 : (∀ y ∈ xs, y.la = none) ∨ I (test x.kind l m).2.2 := by
      rcases hI with hI | hI
      · exact .inl fun y hy => hI y (by simp [hy])
      · exact .inr (hk1 _ _ hI)
    simp only [pick] at hpick ⊢
    rcases ht : test x.kind l m with ⟨y, t1, m1⟩
    rcases ht' : test x.kind l' m with ⟨y', t1', m1'⟩
    rw [ht, ht'] at e1 e2 e3
    rw [ht] at hpick hI1
    simp only at e1 e2 e3 hI1
    subst e1; subst e3
    cases y' with
    | error e => simp at hpick
    | ok b =>
      cases b with
      | false => exact ih hI1 hpick
      | true =>
        simp only at hpick ⊢
        cases hla : x.la with
        | none =>
          rw [hla] at hpick
          simp only [Option.some.injEq, Prod.mk.injEq] at hpick ⊢
          obtain ⟨rfl, rfl, rfl⟩ := hpick
          exact ⟨t1', ⟨rfl, rfl, rfl⟩, e2.1, fun e => by rw [e, ht] at ht'; simp only [Prod.mk.injEq] at ht'; exact ht'.2.1.symm⟩
        | some la =>
          rw [hla] at hpick
          simp only at hpick ⊢
          have hIm : I m1' := by
            rcases hI1 with hI1 | hI1
            · rcases hI with hI | hI
              · have := hI x (by simp); rw [hla] at this; simp at this
              · have := hk1 x.kind _ hI; rw [ht] at this; exact this
            · exact hI1
          rw [hp la m1' hIm]
          cases hpk : peek sk la r m1' with
          | none => rw [hpk] at hpick; simp at hpick
          | some z =>
            obtain ⟨b, m2⟩ := z
            rw [hpk] at hpick
            cases b with
            | true =>
              simp only [Option.some.injEq, Prod.mk.injEq] at hpick ⊢
              obtain ⟨rfl, rfl, rfl⟩ := hpick
              exact ⟨t1', ⟨rfl, rfl, rfl⟩, e2.1, fun e => by rw [e, ht] at ht'; simp only [Prod.mk.injEq] at ht'; exact ht'.2.1.symm⟩
            | false => exact ih (.inr (hk2 _ _ _ _ hIm hpk)) hpick

theorem run_renum {sk : Line → Bool} (hsk : Textual sk) {q : Nat} {m : MdState} {lines : List Line} {mv : List Auto.Move} {q' : Nat} {m' : MdState}
    (h : Run sk q m lines mv q' m') : ∀ {lines' : List Line}, lines.map (·.text) = lines'.map (·.text) →
    ∃ mv', Run sk q m lines' mv' q' m' ∧ List.Forall₂ Alike mv mv' := by
  have one : ∀ {q l rest m tr t m' l' rest'}, step sk q l rest m = some (tr, t, m') → l'.text = l.text → rest.map (·.text) = rest'.map (·.text) →
      ∃ t', step sk q l' rest' m = some (tr, t', m') ∧ t'.erase = t.erase := by
    intro q l rest m tr t m' l' rest' hs h1 h2
    unfold step at hs ⊢
    cases hrow : table q with
    | none => rw [hrow] at hs; simp at hs
    | some row =>
      rw [hrow] at hs
      exact pick_renum (I := fun _ => True) h1 (fun la m _ => peek_renum hsk h2 m) (fun _ _ _ => trivial) (fun _ _ _ _ _ _ => trivial) (.inr trivial) hs |>.imp fun _ h => ⟨h.1, h.2.1⟩
  induction h with
  | @last q m l rest tr t m' hs he =>
    intro ls h
    cases ls with
    | nil => simp at h
    | cons l' r' =>
      simp only [List.map_cons, List.cons.injEq] at h
      obtain ⟨t', g1, g2⟩ := one hs h.1.symm h.2
      refine ⟨_, .last g1 (by simpa [Line.isEof, h.1] using he), .cons ⟨rfl, rfl, g2⟩ .nil⟩
  | @cons q m l rest tr t m' mv q' m'' hs he _ ih =>
    intro ls h
    cases ls with
    | nil => simp at h
    | cons l' r' =>
      simp only [List.map_cons, List.cons.injEq] at h
      obtain ⟨t', g1, g2⟩ := one hs h.1.symm h.2
      obtain ⟨mv', k1, k2⟩ := ih h.2
      refine ⟨_, .cons g1 (by simpa [Line.isEof, h.1] using he) k1, .cons ⟨rfl, rfl, g2⟩ k2⟩

end MdAuto

theorem mdSkip_textual (d : Dialect) : MdAuto.Textual (mdSkip d) := by
  intro l l' h
  have he : l'.isEof = l.isEof := by simp [Line.isEof, h]
  unfold mdSkip Md.skipped
  rw [he]
  congr 2
  funext k
  have := (Md.ren k (Md.twin_fresh h) (Md.canon d)).1
  rw [this]

end Gherkin
