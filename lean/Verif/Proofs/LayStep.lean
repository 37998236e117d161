import Verif.Proofs.Builds
import Verif.Proofs.NoiseStep
import Verif.Proofs.Describe
import Verif.Proofs.Bad
import Verif.Spec.Layout

/-! Single steps of the line automaton, made from the kinds of the lines. -/

namespace Gherkin

/-- Outside doc strings. -/
structure CState.Calm (m : CState) : Prop where
  valid : m.Valid
  active : m.active = none
  indent : m.indentToRemove = 0

/-- The token of a line in a matcher state. -/
def tokOf (m : CState) (k : Kind) (s : Str) (n : Nat) : Token := (Classic.matchKind k (Token.fresh ⟨s, n⟩) m).2.1

/-- Numbered lines. -/
def linesFrom : Nat → List Str → List Line
  | _, [] => []
  | n, s :: ss => ⟨s, n⟩ :: linesFrom (n + 1) ss

theorem linesFrom_append : ∀ (n : Nat) (a b : List Str), linesFrom n (a ++ b) = linesFrom n a ++ linesFrom (n + a.length) b
  | _, [], _ => rfl
  | n, s :: ss, b => by
    simp only [List.cons_append, linesFrom, linesFrom_append (n + 1) ss b, List.length_cons]
    congr 3; omega

theorem linesFrom_length : ∀ (n : Nat) (a : List Str), (linesFrom n a).length = a.length
  | _, [] => rfl
  | n, _ :: ss => by simp [linesFrom, linesFrom_length (n + 1) ss]

theorem linesFrom_text : ∀ (n : Nat) (a : List Str), (linesFrom n a).map (·.text) = a
  | _, [] => rfl
  | n, _ :: ss => by simp [linesFrom, linesFrom_text (n + 1) ss]

namespace Auto

theorem Calm.inv {m : CState} (h : m.Calm) {q : Nat} (hq : q ∉ openStates) : Inv q m :=
  ⟨h.valid, ⟨fun h' => absurd h' hq, fun h' => absurd h.active h'⟩, by rw [h.active]; simp, fun _ => h.indent⟩

def laOk (p0 p1 : Bool) : Option LA → Bool
  | none => true
  | some .la0 => p0
  | some .la1 => p1

/-- The transition a state takes for a kind of line, given what the two look-aheads say. -/
def sel (q : Nat) (k : Kind) (p0 p1 : Bool) : Option Trans :=
  (table q).bind fun row => row.trans.find? fun tr => tr.kind == k && laOk p0 p1 tr.la

/-- Where that transition leads; `none` if there is none or the state is inside a doc string. -/
def goes (q : Nat) (k : Kind) (p0 p1 : Bool) : Option Nat :=
  if q ∈ openStates then none else (sel q k p0 p1).map (·.target)

theorem sel_step {q : Nat} {k : Kind} {p0 p1 : Bool} {tr : Trans} (h : sel q k p0 p1 = some tr) {m : CState} (hc : m.Calm) (hq : q ∉ openStates)
    {l : Line} (hk : lineKind m.dialect l = k) (hko : k ≠ .other) (hl : l.Sound) (hne : l.isEof = false)
    (hh : q ≠ 0 ∨ Classic.languageName l.lineText = none) {rest : List Line}
    (hp : k = .tagLine → Pure.peek .la0 m rest = .ok p0 ∧ Pure.peek .la1 m rest = .ok p1) :
    step q l rest m = some (tr, Classic.matchKind k (Token.fresh l) m |>.2) := by
  have hi := Calm.inv hc hq
  unfold sel at h
  cases hrow : table q with
  | none => rw [hrow] at h; simp at h
  | some row =>
    rw [hrow] at h
    simp only [Option.bind_some, List.find?_eq_some_iff_append] at h
    obtain ⟨h1, pre, post, h2, h3⟩ := h
    simp only [Bool.and_eq_true, beq_iff_eq] at h1
    have hlang : k ≠ .language := by rw [← hk]; exact lineKind_language _ _
    have heof : k ≠ .eof := by rw [← hk]; exact lineKind_eof _ _
    have hmt := match_true hc.active (l := l) (k := k) hlang heof hl (by rw [← hk]; exact lineKind_fits _ _)
    have hla : ∀ tr' ∈ row.trans, ∀ la, tr'.la = some la → tr'.kind = .tagLine := by
      intro tr' h la hla
      have := (row_facts hrow).1
      simp only [laOnTags, List.all_eq_true, Bool.or_eq_true, beq_iff_eq] at this
      rcases this tr' h with h | h
      · rw [h] at hla; simp at hla
      · exact h
    refine step_make hrow h2 ?_ (by rw [h1.1]; exact Prod.ext hmt rfl) (.inr hne) ?_
    · intro x hx
      have hxm : x ∈ row.trans := by rw [h2]; simp [hx]
      by_cases hxk : x.kind = k
      · have := h3 x hx
        simp only [hxk, beq_self_eq_true, Bool.true_and, Bool.not_eq_true', ] at this
        cases hxl : x.la with
        | none => rw [hxl] at this; simp [laOk] at this
        | some la =>
          have hkt := hla x hxm la hxl
          rw [hxk] at hkt
          obtain ⟨e0, e1⟩ := hp hkt
          refine .inr (.inr ⟨la, hxl, ?_, by rw [hxk]; exact hmt⟩)
          rw [hxl] at this
          cases la <;> simp only [laOk] at this
          · rw [e0, this]
          · rw [e1, this]
      · refine passed_kind hi hc.active hne hk hh ((row_facts hrow).2 x hxm) hxk ?_
        intro hxo
        obtain ⟨p, p', rfl⟩ := List.append_of_mem hx
        have := other_last hrow (pre := p) (tr := x) (post := p' ++ tr :: post) (by rw [h2]; simp) hxo
        simp at this
    · intro la hla'
      have hkt := hla tr (by rw [h2]; simp) la hla'
      rw [h1.1] at hkt
      obtain ⟨e0, e1⟩ := hp hkt
      have := h1.2
      rw [hla'] at this
      cases la <;> simp only [laOk] at this
      · rw [e0, this]
      · rw [e1, this]

/-- A line of a kind the state does not know is taken as `Other`, if the state takes such lines. -/
theorem other_step {q : Nat} {tr : Trans} (h : sel q .other false false = some tr) {m : CState} (hc : m.Calm) (hq : q ∉ openStates)
    {l : Line} (hk : lineKind m.dialect l ∉ kindsOf q ∨ lineKind m.dialect l = .other) (hne : l.isEof = false)
    (hh : q ≠ 0 ∨ Classic.languageName l.lineText = none) {rest : List Line} :
    step q l rest m = some (tr, Classic.matchKind .other (Token.fresh l) m |>.2) := by
  have hi := Calm.inv hc hq
  unfold sel at h
  cases hrow : table q with
  | none => rw [hrow] at h; simp at h
  | some row =>
    rw [hrow] at h
    simp only [Option.bind_some, List.find?_eq_some_iff_append] at h
    obtain ⟨h1, pre, post, h2, h3⟩ := h
    simp only [Bool.and_eq_true, beq_iff_eq] at h1
    refine step_make hrow h2 ?_ (by rw [h1.1]; rfl) (.inr hne) ?_
    · intro x hx
      have hxm : x ∈ row.trans := by rw [h2]; simp [hx]
      have hxo : x.kind ≠ .other := by
        intro hxo
        obtain ⟨p, p', rfl⟩ := List.append_of_mem hx
        have := other_last hrow (pre := p) (tr := x) (post := p' ++ tr :: post) (by rw [h2]; simp) hxo
        simp at this
      refine passed_kind hi hc.active hne rfl hh ((row_facts hrow).2 x hxm) ?_ hxo
      intro hxk
      rcases hk with hk | hk
      · exact hk (by rw [← hxk]; unfold kindsOf; rw [hrow]; exact List.mem_map_of_mem hxm)
      · exact hxo (hxk.trans hk)
    · intro la hla
      have := h1.2
      rw [hla] at this
      cases la <;> simp [laOk] at this

end Auto

end Gherkin
