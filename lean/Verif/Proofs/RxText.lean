import Verif.Proofs.RxLine
import Verif.Compiler

/-! Patterns that spell a text, and the expressions of compiler.py. -/

namespace Gherkin.Regex

/-- The pattern spells the text. -/
inductive Spells : Str → Str → Prop
  | nil : Spells [] []
  | plain {c : Char} {v w : Str} (h : Pickles.isMeta c = false) (t : Spells v w) : Spells (c :: v) (c :: w)
  | esc {c : Char} {v w : Str} (h : isAlnum c = false) (t : Spells v w) : Spells (c :: v) ('\\' :: c :: w)

theorem steps_append (fl : Flags) : ∀ (a b : Str) (st : State), steps fl st (a ++ b) = (steps fl st a).bind fun st' => steps fl st' b := by
  intro a b
  induction a with
  | nil => intro st; rfl
  | cons c cs ih =>
    intro st
    simp only [List.cons_append, steps]
    cases step fl st c with
    | none => rfl
    | some st' => exact ih st'

theorem step_plain (fl : Flags) (st : State) (hm : st.mode = .norm) {c : Char} (h : Pickles.isMeta c = false) : step fl st c = some (st.push (lit c)) := by
  have h' : c ∉ py".^$*+?{}[]\\|()" := by simpa [Pickles.isMeta] using h
  simp only [List.mem_cons, not_or] at h'
  simp only [step, hm, stepNorm]
  obtain ⟨h1, h2, h3, h4, h5, h6, h7, h8, h9, h10, h11, h12, h13, h14, _⟩ := h'
  simp only [h1, h2, h3, h4, h5, h6, h7, h8, h9, h10, h11, h12, h13, h14, if_false]

theorem escape_other {c : Char} (h : isAlnum c = false) : escape c = some ⟨false, [.one c]⟩ := by
  unfold escape
  rw [if_neg, if_neg, if_neg, if_neg]
  · simp [h]
  all_goals (rintro rfl; revert h; decide)

theorem push_run (f : Frame) (r : Rx) (p : Pos) : (f.push r).cur.run p = (f.cur.run p).flatMap r.run := rfl

theorem spell_steps (fl : Flags) {v w : Str} (h : Spells v w) : ∀ (st : State), st.mode = .norm →
    ∃ f : Frame, steps fl st w = some { st with cur := f } ∧ f.num = st.cur.num ∧ f.alts = st.cur.alts ∧
      ∀ p (k : Pos → List Pos), (f.cur.run p).flatMap k = (st.cur.cur.run p).flatMap (chain v k) := by
  induction h with
  | nil =>
    intro st hm
    refine ⟨st.cur, rfl, rfl, rfl, fun p k => ?_⟩
    have : chain [] k = k := funext fun q => chain_nil k q
    rw [this]
  | @plain c v w hc t ih =>
    intro st hm
    obtain ⟨f, h1, h2, h3, h4⟩ := ih (st.push (lit c)) rfl
    refine ⟨f, ?_, h2, h3, fun p k => ?_⟩
    · simp only [steps, step_plain fl st hm hc, h1]
      simp [State.push, hm]
    · rw [h4]
      simp only [State.push, push_run, List.flatMap_assoc]
      simp only [chain_cons]
  | @esc c v w hc t ih =>
    intro st hm
    obtain ⟨f, h1, h2, h3, h4⟩ := ih (st.push (lit c)) rfl
    refine ⟨f, ?_, h2, h3, fun p k => ?_⟩
    · have e1 : step fl st '\\' = some { st with mode := .esc } := by simp [step, hm, stepNorm]
      have e2 : step fl { st with mode := .esc } c = some (st.push (lit c)) := by
        simp [step, escape_other hc, State.push, lit]
      simp only [steps, e1, e2, h1]
      simp [State.push, hm]
    · rw [h4]
      simp only [State.push, push_run, List.flatMap_assoc]
      simp only [chain_cons]

theorem spells_self {v : Str} (h : v.any Pickles.isMeta = false) : Spells v v := by
  induction v with
  | nil => exact .nil
  | cons c cs ih =>
    simp only [List.any_cons, Bool.or_eq_false_iff] at h
    exact .plain h.1 (ih h.2)

theorem spells_escape (v : Str) : Spells v (reEscape v) := by
  induction v with
  | nil => exact .nil
  | cons c cs ih =>
    unfold reEscape at *
    rw [List.flatMap_cons]
    split
    · rename_i h
      refine .esc ?_ ih
      simp only [List.mem_cons, List.not_mem_nil, or_false] at h
      rcases h with rfl | rfl | rfl | rfl | rfl | rfl | rfl | rfl | rfl | rfl | rfl | rfl | rfl | rfl | rfl | rfl | rfl | rfl | rfl | rfl | rfl | rfl | rfl | rfl <;> decide
    · rename_i h
      refine .plain ?_ ih
      simp only [List.mem_cons, List.not_mem_nil, or_false, not_or] at h
      simp [Pickles.isMeta, h]

/-! ### Replacing a text -/

/-- An expression that reads the text `v`. -/
def Reads (r : Rx) (v : Str) : Prop := ∀ p, r.run p = if v <+: p.rest then [p.adv v] else []

theorem read_spells {v w : Str} (h : Spells v w) (hw : startsWith w py"(?ms)" = false) : ∃ r, read w = some r ∧ Reads r v := by
  obtain ⟨f, h1, h2, h3, h4⟩ := spell_steps ⟨false, false⟩ h State.init rfl
  refine ⟨f.cur, ?_, fun p => ?_⟩
  · unfold read
    simp only [hw, h1]
    have hn : f.num = none := h2
    have ha : f.alts = none := h3
    simp [State.finish, State.init, Frame.close, Frame.body, hn, ha]
  · have := h4 p (fun q => [q])
    rw [List.flatMap_singleton'] at this
    rw [this]
    simp [State.init, Frame.new, Frame.cur, Rx.run, chain]

theorem reads_splice {r : Rx} {v new : Str} (hr : Reads r v) (hv : v ≠ []) : ∀ (n : Nat) (rest back : Str), rest.length ≤ n →
    splice (fun _ => new) rest (r.from false ⟨back, rest, []⟩) = replaceGo v new 0 rest := by
  have hskip : ∀ (k : Nat) (s : Str), replaceGo v new k s = replaceGo v new 0 (s.drop k) := by
    intro k
    induction k with
    | zero => intro s; rfl
    | succ k ih => intro s; cases s with
      | nil => simp [replaceGo]
      | cons c cs => simp only [replaceGo, List.drop_succ_cons]; exact ih cs
  obtain ⟨a, as, rfl⟩ := List.exists_cons_of_ne_nil hv
  intro n
  induction n with
  | zero =>
    intro rest back h
    have : rest = [] := by simpa using h
    subst this
    rw [from_none (by rw [hr]; simp)]
    rfl
  | succ n ih =>
    intro rest back h
    cases rest with
    | nil => rw [from_none (by rw [hr]; simp)]; rfl
    | cons c cs =>
      by_cases hp : a :: as <+: c :: cs
      · have hlen := hp.length_le
        have := splice_some (r := r) (p := ⟨back, c :: cs, []⟩) (q := (⟨back, c :: cs, []⟩ : Pos).adv (a :: as)) (must := false) (fun _ => new) (by rw [hr]; simp [hp])
        simp only at this
        rw [this]
        simp only [replaceGo]
        rw [if_pos (List.isPrefixOf_iff_prefix.mpr hp)]
        congr 1
        have hl : (((c :: cs).drop (a :: as).length).length == (c :: cs).length) = false := by simp at hlen ⊢; omega
        simp only [Pos.adv, hl]
        simp only [List.length_cons, List.drop_succ_cons, Nat.add_sub_cancel]
        rw [hskip as.length cs]
        apply ih
        simp at h ⊢; omega
      · rw [splice_none _ (by rw [hr]; simp [hp])]
        simp only [replaceGo]
        rw [if_neg (by rw [List.isPrefixOf_iff_prefix]; exact hp)]
        congr 1
        apply ih
        simpa using h

/-- `re.sub` of an expression that reads a text replaces its occurrences from left to right. -/
theorem reads_sub {r : Rx} {v : Str} (hr : Reads r v) (hv : v ≠ []) (new s : Str) : r.sub (fun _ => new) s = replaceAll v new s := by
  simp only [Rx.sub, all_from, replaceAll]
  exact reads_splice hr hv _ _ _ (Nat.le_refl _)

/-- packages/gurke/src/gurke/pickles/compiler.py:149: a header without special characters stands for itself. -/
theorem header_regex {h : Str} (hh : h.any Pickles.isMeta = false) (new s : Str) :
    ((read ('<' :: (h ++ ['>']))).map fun r => r.sub (fun _ => new) s) = some (replaceAll ('<' :: (h ++ ['>'])) new s) := by
  have hsp : Spells ('<' :: (h ++ ['>'])) ('<' :: (h ++ ['>'])) := by
    apply spells_self
    simp only [List.any_cons, List.any_append, hh, List.any_nil]
    decide
  obtain ⟨r, h1, h2⟩ := read_spells hsp (by simp [startsWith, List.isPrefixOf])
  rw [h1]
  simp only [Option.map_some, Option.some.injEq]
  exact reads_sub h2 (by simp) new s

/-- packages/gurke/src/gurke/pickles/compiler.py:148 `re.sub(r"\\", r"\\\\", value)`; the template stands for two backslashes. -/
theorem reescape_regex (s : Str) : ((read py"\\\\").bind fun r => (Pickles.template py"\\\\\\\\").map fun new => r.sub (fun _ => new) s) = some (Pickles.reescape s) := by
  obtain ⟨r, h1, h2⟩ := read_spells (.esc (c := '\\') (by decide) .nil) (by decide)
  rw [h1]
  have ht : Pickles.template py"\\\\\\\\" = some py"\\\\" := by decide
  rw [ht]
  simp only [Option.bind_some, Option.map_some, Option.some.injEq]
  rw [reads_sub h2 (by simp)]
  unfold replaceAll Pickles.reescape
  induction s with
  | nil => rfl
  | cons c cs ih =>
    rw [List.flatMap_cons, ← ih]
    simp only [replaceGo]
    by_cases e : c = '\\'
    · subst e; simp [List.isPrefixOf]
    · rw [if_neg (by simp [List.isPrefixOf, Ne.symm e]), if_neg e]; rfl

end Gherkin.Regex
