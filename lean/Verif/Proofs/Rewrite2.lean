import Verif.Proofs.Rewrite
import Verif.Proofs.LayBack2

/-! Features that were read can be printed. -/

namespace Gherkin

namespace Rewrite

open Cst Auto
open Layout (Ln place)

theorem join_cons (x : Str) (xs : List Str) : joinStr ['\n'] (x :: xs) = x ++ xs.flatMap ('\n' :: ·) := by
  induction xs generalizing x with
  | nil => simp [joinStr]
  | cons y ys ih => simp [joinStr, ih]

theorem split_join {ls : List Str} (hne : ls ≠ []) (h : ∀ l ∈ ls, '\n' ∉ l) : splitChar '\n' (joinStr ['\n'] ls) = ls := by
  cases ls with
  | nil => exact absurd rfl hne
  | cons x xs => rw [join_cons]; exact splitChar_flat (h x (by simp)) fun q hq => h q (by simp [hq])

theorem chomp_spec (s : Str) : ∃ e, s = chomp s ++ e ∧ ∀ c ∈ (chomp s).getLast?, isEol c = false := by
  obtain ⟨w, _, h2, h3⟩ := rstripBy_spec (p := isEol) s
  exact ⟨w, h2, h3⟩

theorem chomp_real {s : Str} (h : Real s) : '\n' ∉ chomp s ∧ (chomp s).getLast? ≠ some '\r' := by
  obtain ⟨e, h1, h2⟩ := chomp_spec s
  constructor
  · intro hm
    obtain ⟨body, e', h3, h4, h5⟩ := h
    rcases h5 with rfl | rfl
    · apply h4
      rw [List.append_nil] at h3
      rw [← h3, h1]; simp [hm]
    · rcases List.eq_nil_or_concat e with rfl | ⟨e1, c, rfl⟩
      · rw [List.append_nil] at h1
        have := h2 '\n' (by rw [← h1, h3]; simp)
        simp [isEol] at this
      · rw [h1, List.concat_eq_append, ← List.append_assoc] at h3
        obtain ⟨e2, -⟩ := List.append_inj' h3 rfl
        apply h4
        rw [← e2]; simp [hm]
  · intro hl
    have := h2 '\r' hl
    simp [isEol] at this

theorem lstrip_more (a e : Str) : lstrip a <+: lstrip (a ++ e) := by
  unfold lstrip lstripBy
  induction a with
  | nil => simp
  | cons c cs ih =>
    rw [List.cons_append, List.dropWhile_cons, List.dropWhile_cons]
    split
    · exact ih
    · exact ⟨e, by simp⟩

theorem ends_more {d : Dialect} {p : Part} {a e : Str} (h : ends d p ⟨a ++ e, 0⟩ = false) : ends d p ⟨a, 0⟩ = false := by
  have h0 : ∀ k : Str, k.isPrefixOf (lstrip a) = true → k.isPrefixOf (lstrip (a ++ e)) = true := by
    intro k hk
    rw [List.isPrefixOf_iff_prefix] at hk ⊢
    exact hk.trans (lstrip_more a e)
  have h1 : ∀ c, firstIs c ⟨a, 0⟩ = true → firstIs c ⟨a ++ e, 0⟩ = true := by
    intro c hc
    obtain ⟨t, ht⟩ := lstrip_more a e
    simp only [firstIs, beq_iff_eq] at hc ⊢
    rw [← ht, List.head?_append, hc]; rfl
  have h2 : ∀ kws, isTitle kws ⟨a, 0⟩ = true → isTitle kws ⟨a ++ e, 0⟩ = true := by
    intro kws hk
    simp only [isTitle, List.any_eq_true] at hk ⊢
    obtain ⟨k, k1, k2⟩ := hk
    exact ⟨k, k1, h0 _ k2⟩
  have h3 : isStep d ⟨a, 0⟩ = true → isStep d ⟨a ++ e, 0⟩ = true := by
    intro hk
    simp only [isStep, List.any_eq_true] at hk ⊢
    obtain ⟨k, k1, k2⟩ := hk
    exact ⟨k, k1, h0 _ k2⟩
  rw [← Bool.not_eq_true] at h ⊢
  intro hh
  apply h
  cases p <;> simp only [ends, Bool.or_eq_true] at hh ⊢
  · rcases hh with (((hh | hh) | hh) | hh) | hh <;> simp [h1 _, h2 _, hh]
  · rcases hh with (((hh | hh) | hh) | hh) | hh <;> simp [h1 _, h2 _, hh]
  · rcases hh with (((hh | hh) | hh) | hh) | hh <;> simp [h1 _, h2 _, h3, hh]
  · rcases hh with (((hh | hh) | hh) | hh) | (hh | hh) <;> simp [h1 _, h2 _, h3, hh]
  · rcases hh with (((hh | hh) | hh) | hh) | (hh | hh) <;> simp [h1 _, h2 _, hh]

theorem others_text {m : CState} (hc : m.Calm) : ∀ (ls : List Str) (n : Nat), (others m n ls).map Cst.textOf = ls.map chomp := by
  intro ls
  induction ls with
  | nil => intro n; rfl
  | cons l ls ih =>
    intro n
    simp only [others, place, List.map_cons] at ih ⊢
    rw [ih, show Cst.textOf (tokOf m .other l n) = chomp l from other_plain hc.active hc.indent]

theorem trimEnd_spec (ls : List Str) : (Cst.trimEnd ls).getLast? ≠ some [] ∧ ∃ r, ls = Cst.trimEnd ls ++ r ∧ ∀ x ∈ r, x = [] := by
  unfold Cst.trimEnd
  refine ⟨?_, (ls.reverse.takeWhile (· = [])).reverse, ?_, ?_⟩
  · rw [List.getLast?_reverse]
    intro h
    have := List.head?_dropWhile_not (fun x : Str => decide (x = [])) ls.reverse
    rw [h] at this
    simp at this
  · rw [← List.reverse_append, List.takeWhile_append_dropWhile, List.reverse_reverse]
  · intro x hx
    have := mem_takeWhile_pos (List.mem_reverse.1 hx)
    simpa using this

theorem desc_read {m : CState} (hc : m.Calm) {k : Kind} {p : Part} {h : Layout.Head} (hh : h.Ok m.dialect k p) (hr : ∀ s ∈ h.texts, Real s) (n : Nat) :
    Printable.Description m.dialect p (Cst.description (headDesc m n h)) := by
  have hok := hh.2
  by_cases hp : h.prose = []
  · left; simp [headDesc, hp, others, place, Cst.description, Cst.trimEnd, joinStr]
  · rw [if_neg hp] at hok
    obtain ⟨_, g2, g3, _⟩ := hok
    right
    unfold Cst.description headDesc
    rw [others_text hc]
    obtain ⟨t1, r, t2, t3⟩ := trimEnd_spec (h.prose.map chomp)
    have hreal : ∀ s ∈ h.prose, Real s := fun s hs => hr s (by simp [Layout.Head.texts, hs])
    have hsub : ∀ l ∈ Cst.trimEnd (h.prose.map chomp), ∃ s ∈ h.prose, l = chomp s := by
      intro l hl
      have : l ∈ h.prose.map chomp := by rw [t2]; simp [hl]
      obtain ⟨s, hs, rfl⟩ := List.mem_map.1 this
      exact ⟨s, hs, rfl⟩
    have hblank : ∀ s ∈ h.prose.head?, (chomp s).any (fun c => !isSpace c) = true := by
      intro s hs
      have := g2 s hs
      simp only [Layout.Blank, isBlankLine, Bool.not_eq_true, List.all_eq_false] at this
      obtain ⟨c, c1, c2⟩ := this
      obtain ⟨w, hw, e, _⟩ := rstripBy_spec (p := isEol) s
      rw [e, List.mem_append] at c1
      rcases c1 with c1 | c1
      · exact List.any_eq_true.2 ⟨c, c1, by simpa using c2⟩
      · have := hw c c1
        simp only [isEol, Bool.or_eq_true, beq_iff_eq] at this
        rcases this with rfl | rfl <;> simp [isSpace] at c2
    have hne : Cst.trimEnd (h.prose.map chomp) ≠ [] := by
      intro he
      rw [he, List.nil_append] at t2
      obtain ⟨s, ss, e⟩ := List.exists_cons_of_ne_nil hp
      have h1 := hblank s (by rw [e]; rfl)
      have h2 := t3 (chomp s) (by rw [← t2, e]; simp)
      rw [h2] at h1; simp at h1
    rw [split_join hne (by intro l hl; obtain ⟨s, hs, rfl⟩ := hsub l hl; exact (chomp_real (hreal s hs)).1)]
    refine ⟨?_, t1, ?_⟩
    · intro l hl
      have : (h.prose.map chomp).head? = some l := by rw [t2, List.head?_append, hl]; rfl
      rw [List.head?_map] at this
      cases hs : h.prose.head? with
      | none => rw [hs] at this; simp at this
      | some s =>
        rw [hs] at this
        simp only [Option.map_some, Option.some.injEq] at this
        rw [← this]
        exact hblank s hs
    · intro l hl
      obtain ⟨s, hs, rfl⟩ := hsub l hl
      refine ⟨(chomp_real (hreal s hs)).2, ?_⟩
      obtain ⟨e, he, _⟩ := chomp_spec s
      have := g3 s hs
      rw [he] at this
      exact ends_more this

/-! ### Arguments -/

theorem outdent_suffix : ∀ (n : Nat) (s : Str), ∃ a, s = a ++ outdent n s
  | 0, s => ⟨[], by simp [outdent]⟩
  | n + 1, [] => ⟨[], by simp [outdent]⟩
  | n + 1, c :: cs => by
    simp only [outdent]
    split
    · obtain ⟨a, h⟩ := outdent_suffix n cs
      exact ⟨c :: a, by simp [← h]⟩
    · exact ⟨[], rfl⟩

theorem replace_clean {old new : Str} (ho : old ≠ []) (hn : '\n' ∉ new) : ∀ (k : Nat) (s : Str), s.length ≤ k → '\n' ∉ s → '\n' ∉ replaceAll old new s
  | _, [], _, _ => by simp [replaceAll_nil]
  | k + 1, c :: cs, hk, h => by
    cases hp : old.isPrefixOf (c :: cs) with
    | false =>
      rw [replaceAll_miss hp]
      have := replace_clean (new := new) ho hn k cs (by simpa using hk) (by simp at h; exact h.2)
      simp at h ⊢
      exact ⟨h.1, this⟩
    | true =>
      rw [List.isPrefixOf_iff_prefix] at hp
      obtain ⟨t, ht⟩ := hp
      rw [← ht, replaceAll_hit ho]
      have hl := congrArg List.length ht
      have h0 : 0 < old.length := List.length_pos_of_ne_nil ho
      simp only [List.length_append, List.length_cons] at hl hk
      have := replace_clean (new := new) ho hn k t (by omega) (by rw [← ht] at h; simp at h; exact h.2)
      simp [hn, this]

theorem docLine_real {delim : Str} (hd : delim ∈ docDelimiters) {s : Str} (h : Real s) (n : Nat) :
    '\n' ∉ docLine delim n s ∧ (docLine delim n s).getLast? ≠ some '\r' := by
  obtain ⟨a, ha⟩ := outdent_suffix n s
  have hr : Real (outdent n s) := h.suffix ha
  refine chomp_real ?_
  have h1 : escaped delim ≠ [] ∧ '\n' ∉ escaped delim ∧ '\n' ∉ delim := by
    simp only [docDelimiters, List.mem_cons, List.not_mem_nil, or_false] at hd
    rcases hd with rfl | rfl <;> decide
  obtain ⟨body, e, e1, e2, e3⟩ := hr
  rw [e1]
  rcases e3 with rfl | rfl
  · exact ⟨replaceAll (escaped delim) delim body, [], by simp, replace_clean h1.1 h1.2.2 _ _ (Nat.le_refl _) e2, .inl rfl⟩
  · rw [replaceAll_append h1.1 (by intro c hc; simp at hc; subst hc; exact h1.2.1) _ _ rfl]
    exact ⟨_, ['\n'], rfl, replace_clean h1.1 h1.2.2 _ _ (Nat.le_refl _) e2, .inr rfl⟩

theorem docLine_escapable {delim : Str} (hd : delim ∈ docDelimiters) {s : Str} (h : Real s) (n : Nat) : Escapable delim (docLine delim n s) := by
  obtain ⟨q, rfl, hesc, hq, hsp, hn, hr⟩ := delim_cases hd
  intro a b hab
  obtain ⟨e, he, _⟩ := chomp_spec (replaceAll (escaped (tri q)) (tri q) (outdent n s))
  obtain ⟨w, hw, e1, _⟩ := rstripBy_spec (p := isEol) (replaceAll (escaped (tri q)) (tri q) (outdent n s))
  have e1 : replaceAll (escaped (tri q)) (tri q) (outdent n s) = docLine (tri q) n s ++ w := e1
  rw [hab, hesc, List.append_assoc] at e1
  obtain ⟨z, hz⟩ := dec_escapable hq _ _ rfl _ _ e1
  -- the two characters are not line ends
  have hne : ∀ c ∈ w, c ≠ q := by
    intro c hc e
    have := hw c hc
    simp only [isEol, Bool.or_eq_true, beq_iff_eq] at this
    rcases this with h | h <;> rw [e] at h <;> contradiction
  match b, hz with
  | [], hz =>
    exact absurd rfl (hne q (by rw [show w = q :: q :: z by simpa using hz.symm]; simp))
  | [x], hz =>
    simp at hz
    exact absurd rfl (hne q (by rw [← hz.2]; simp))
  | x :: y :: b, hz =>
    simp at hz
    obtain ⟨rfl, rfl, _⟩ := hz
    exact ⟨b, rfl⟩

/-- The line that opens a doc string. -/
theorem opening_reads {m : CState} (hc : m.Calm) {delim : Str} (hd : delim ∈ docDelimiters) {s : Str} (hs : isDelim delim ⟨s, 0⟩ = true) (n : Nat) :
    (tokOf m .docStringSeparator s n).keyword = some delim ∧ (inside m s).active = some delim ∧
    (tokOf m .docStringSeparator s n).text = some (rstripEol (Line.restTrimmed ⟨s, n⟩ delim.length)) := by
  have l1 : ∀ i, (Token.fresh ⟨s, i⟩).line = ⟨s, i⟩ := fun _ => rfl
  have hp : ∀ i, Line.startsWith ⟨s, i⟩ delim = true := fun _ => hs
  have hm : ∀ i, Classic.matchDocSep (Token.fresh ⟨s, i⟩) m = Classic.matchSep delim true (Token.fresh ⟨s, i⟩) m := by
    intro i
    simp only [Classic.matchDocSep, hc.active, l1]
    have h : delim = Classic.quotes ∨ delim = Classic.ticks := by simpa [delims] using hd
    rcases h with rfl | rfl
    · rw [if_pos (hp i)]
    · rw [if_neg]
      intro h
      have h1 := hp i
      simp only [Line.startsWith, startsWith, List.isPrefixOf_iff_prefix] at h h1
      obtain ⟨x, hx⟩ := h
      obtain ⟨y, hy⟩ := h1
      rw [← hx] at hy
      simp [Classic.ticks, Classic.quotes] at hy
  refine ⟨?_, ?_, ?_⟩
  · simp only [tokOf, Classic.matchKind, hm, Classic.matchSep, l1, hp, if_true, setMatched]
  · simp only [inside, Classic.matchKind, hm, Classic.matchSep, l1, hp, if_true]
  · simp only [tokOf, Classic.matchKind, hm, Classic.matchSep, l1, hp, if_true, setMatched, Option.map_some]

theorem arg_read {m : CState} (hc : m.Calm) {a : Layout.Arg} (h : a.Ok m.dialect) (hr : ∀ s ∈ a.texts, Real s) (n k : Nat) :
    Printable.Arg ((argCst m n a).ast k).1 := by
  cases a with
  | none => trivial
  | table r rs =>
    simp only [argCst, Cst.Arg.ast]
    refine ⟨by simp [thread], ?_⟩
    have := rows_read hc (rs := r :: rs) h n k
    simpa [rowToks, place] using this
  | doc o ls c =>
    obtain ⟨delim, hd, h1, h2, h3, h4⟩ := h
    obtain ⟨o1, o2, o3⟩ := opening_reads hc hd h1 n
    have hro : Real o := hr o (by simp [Layout.Arg.texts])
    have hrl : ∀ s ∈ ls, Real s := fun s hs => hr s (by simp [Layout.Arg.texts, hs])
    simp only [argCst, Cst.Arg.ast]
    refine ⟨delim, hd, o1, ?_, ?_⟩
    · intro s hs
      simp only [Cst.textOf, o3, Option.getD_some] at hs
      split at hs
      · simp at hs
      · rename_i hne
        simp only [Option.mem_def, Option.some.injEq] at hs
        subst hs
        exact ⟨hne, oneLine_rest hro _ _⟩
    · intro l hl
      have e1 : ∀ (ls : List Str) (n : Nat), (others (inside m o) n ls).map Cst.textOf = ls.map (docLine delim (inside m o).indentToRemove) := by
        intro ls
        induction ls with
        | nil => intro n; rfl
        | cons l ls ih =>
          intro n
          simp only [others, List.map_cons, place] at ih ⊢
          rw [ih, Print.doc_tok hd o2]
      rw [e1] at hl
      by_cases hne : ls = []
      · subst hne
        simp [joinStr, splitChar] at hl
        subst hl
        refine ⟨by simp, fun a b h => ?_⟩
        obtain ⟨q, rfl, hesc, _⟩ := delim_cases hd
        rw [hesc] at h; simp at h
      · rw [split_join (by simpa using hne) (by
          intro l hl
          obtain ⟨s, hs, rfl⟩ := List.mem_map.1 hl
          exact (docLine_real hd (hrl s hs) _).1)] at hl
        obtain ⟨s, hs, rfl⟩ := List.mem_map.1 hl
        exact ⟨(docLine_real hd (hrl s hs) _).2, docLine_escapable hd (hrl s hs) _⟩

/-! ### The parts of a feature -/

theorem step_read {m : CState} (hc : m.Calm) {s : Layout.Step} (h : s.Ok m.dialect) (hr : ∀ x ∈ s.texts, Real x) (n k : Nat)
    (hw : Rewritable m.dialect ((stepCst m n s).ast k).1) : Printable.Step m.dialect ((stepCst m n s).ast k).1 :=
  ⟨step_reads hc h.1.1 (hr _ (by simp [Layout.Step.texts, Ln.texts])) n hw,
    arg_read hc h.2 (fun x hx => hr x (by simp [Layout.Step.texts, hx])) _ _⟩

theorem steps_read {m : CState} (hc : m.Calm) {ss : List Layout.Step} (h : ∀ s ∈ ss, s.Ok m.dialect) (hr : ∀ x ∈ ss.flatMap Layout.Step.texts, Real x) (n k : Nat)
    (hw : ∀ s ∈ (thread CStep.ast (stepsCst m n ss) k).1, Rewritable m.dialect s) :
    ∀ s ∈ (thread CStep.ast (stepsCst m n ss) k).1, Printable.Step m.dialect s := by
  intro s hs
  have hws := hw s hs
  obtain ⟨c, hcm, k', rfl⟩ := thread_mem hs
  obtain ⟨l, hl, n', rfl⟩ := place_mem hcm
  exact step_read hc (h l hl) (fun x hx => hr x (List.mem_flatMap.2 ⟨l, hl, hx⟩)) _ _ hws

theorem background_read {m : CState} (hc : m.Calm) {b : Layout.Background} (h : b.Ok m.dialect) (hr : ∀ x ∈ b.texts, Real x) (n k : Nat)
    (hw : ∀ s ∈ ((backgroundCst m n b).ast k).1.steps, Rewritable m.dialect s) : Printable.Background m.dialect ((backgroundCst m n b).ast k).1 :=
  ⟨(title_reads hc h.1.1 (by decide) (hr _ (by simp [Layout.Background.texts, Layout.Head.texts])) n).1,
    desc_read hc h.1 (fun x hx => hr x (by simp [Layout.Background.texts, hx])) _,
    steps_read hc h.2 (fun x hx => hr x (by rw [Layout.Background.texts, List.mem_append]; exact .inr hx)) _ _ hw⟩

theorem examples_read {m : CState} (hc : m.Calm) {e : Layout.Examples} (h : e.Ok m.dialect) (hr : ∀ x ∈ e.texts, Real x) (n k : Nat) :
    Printable.Examples m.dialect ((examplesCst m n e).ast k).1 := by
  refine ⟨tags_read hc h.1 _ _, (title_reads hc h.2.1.1 (by decide) (hr _ (by simp [Layout.Examples.texts, Layout.Head.texts])) _).1,
    desc_read hc h.2.1 (fun x hx => hr x (by simp [Layout.Examples.texts, hx])) _, ?_, ?_⟩
  · intro hn
    simp only [examplesCst, CExamples.ast] at hn ⊢
    rw [List.head?_eq_none_iff] at hn
    rw [hn]; rfl
  · have := rows_read hc h.2.2 (n + tagLen e.tags + e.head.texts.length) k
    simp only [examplesCst, CExamples.ast]
    generalize (thread Cst.row (rowToks m (n + tagLen e.tags + e.head.texts.length) e.table) k).1 = rs at this
    cases rs <;> simpa using this

theorem scenario_read {m : CState} (hc : m.Calm) {b : Layout.Scenario} (h : b.Ok m.dialect) (hr : ∀ x ∈ b.texts, Real x) (n k : Nat)
    (hw : ∀ s ∈ ((scenarioCst m n b).ast k).1.steps, Rewritable m.dialect s) : Printable.Scenario m.dialect ((scenarioCst m n b).ast k).1 := by
  refine ⟨tags_read hc h.1 _ _, (title_reads hc h.2.1.1 (by decide) (hr _ (by simp [Layout.Scenario.texts, Layout.Head.texts])) _).1,
    desc_read hc h.2.1 (fun x hx => hr x (by simp [Layout.Scenario.texts, hx])) _,
    steps_read hc h.2.2.1 (fun x hx => hr x (by simp only [Layout.Scenario.texts, List.mem_append]; exact .inr (.inr (.inl hx)))) _ _ hw, ?_⟩
  intro e he
  obtain ⟨c, hcm, k', rfl⟩ := thread_mem he
  obtain ⟨l, hl, n', rfl⟩ := place_mem hcm
  exact examples_read hc (h.2.2.2 l hl) (fun x hx => hr x (by
    simp only [Layout.Scenario.texts, List.mem_append]; exact .inr (.inr (.inr (List.mem_flatMap.2 ⟨l, hl, hx⟩))))) _ _

theorem scenarios_read {m : CState} (hc : m.Calm) {ss : List Layout.Scenario} (h : ∀ s ∈ ss, s.Ok m.dialect) (hr : ∀ x ∈ ss.flatMap Layout.Scenario.texts, Real x)
    (n k : Nat) (hw : ∀ x ∈ (thread CScenario.ast (place (fun s => s.texts.length) (scenarioCst m) n ss) k).1, ∀ s ∈ x.steps, Rewritable m.dialect s) :
    ∀ x ∈ (thread CScenario.ast (place (fun s => s.texts.length) (scenarioCst m) n ss) k).1, Printable.Scenario m.dialect x := by
  intro s hs
  have hws := hw s hs
  obtain ⟨c, hcm, k', rfl⟩ := thread_mem hs
  obtain ⟨l, hl, n', rfl⟩ := place_mem hcm
  exact scenario_read hc (h l hl) (fun x hx => hr x (List.mem_flatMap.2 ⟨l, hl, hx⟩)) _ _ hws

theorem backgroundOpt_read {m : CState} (hc : m.Calm) {b : Option Layout.Background} (h : ∀ x ∈ b, x.Ok m.dialect)
    (hr : ∀ x ∈ b.toList.flatMap Layout.Background.texts, Real x) (n k : Nat)
    (hw : ∀ x ∈ (threadOpt CBackground.ast (b.map (backgroundCst m n)) k).1, ∀ s ∈ x.steps, Rewritable m.dialect s) :
    ∀ x ∈ (threadOpt CBackground.ast (b.map (backgroundCst m n)) k).1, Printable.Background m.dialect x := by
  intro x hx
  have hwx := hw x hx
  obtain ⟨c, hcm, k', rfl⟩ := threadOpt_mem hx
  cases b with
  | none => simp at hcm
  | some b =>
    simp only [Option.map_some, Option.mem_def, Option.some.injEq] at hcm
    subst hcm
    exact background_read hc (h b rfl) (fun x hx => hr x (by simpa using hx)) _ _ hwx

/-- All steps below a child. -/
def childSteps (c : FeatureChild) : List Step := c.backgrounds.flatMap (·.steps) ++ c.scenarios.flatMap (·.steps)

theorem rule_read {m : CState} (hc : m.Calm) {r : Layout.Rule} (h : r.Ok m.dialect) (hr : ∀ x ∈ r.texts, Real x) (n k : Nat)
    (hw : ∀ s ∈ childSteps (.rule ((ruleCst m n r).ast k).1), Rewritable m.dialect s) : Printable.Rule m.dialect ((ruleCst m n r).ast k).1 := by
  have hmem : ∀ x, r.background.toList.flatMap Layout.Background.texts = x → ∀ y ∈ x, Real y := by
    rintro x rfl y hy
    exact hr y (by simp only [Layout.Rule.texts, List.mem_append]; exact .inr (.inr (.inl hy)))
  simp only [childSteps, FeatureChild.backgrounds, FeatureChild.scenarios, ruleCst, CRule.ast, List.mem_append, List.mem_flatMap] at hw
  refine ⟨tags_read hc h.1 _ _, (title_reads hc h.2.1.1 (by decide) (hr _ (by simp [Layout.Rule.texts, Layout.Head.texts])) _).1,
    desc_read hc h.2.1 (fun x hx => hr x (by simp [Layout.Rule.texts, hx])) _, _, _, rfl,
    backgroundOpt_read hc h.2.2.1 (hmem _ rfl) _ _ ?_,
    scenarios_read hc h.2.2.2 (fun x hx => hr x (by simp only [Layout.Rule.texts, List.mem_append]; exact .inr (.inr (.inr hx)))) _ _ ?_⟩
  · intro x hx s hs
    exact hw s (.inl ⟨x, ⟨.background x, .inl (List.mem_map.2 ⟨x, by simpa using hx, rfl⟩), by simp⟩, hs⟩)
  · intro x hx s hs
    exact hw s (.inr ⟨x, ⟨.scenario x, .inr (List.mem_map.2 ⟨x, hx, rfl⟩), by simp⟩, hs⟩)

theorem feature_language {m : CState} (hc : m.Calm) {f : Layout.Feature} (h : f.Ok m.dialect) (hr : ∀ x ∈ f.texts, Real x) (n k : Nat) (t : Option Token) :
    ((featureCst m n t f).ast k).1.language = some m.dialectName :=
  (title_reads hc h.2.1.1 (by decide) (hr _ (by simp [Layout.Feature.texts, Layout.Head.texts])) (n + tagLen f.tags)).2

theorem feature_read {m : CState} (hc : m.Calm) {f : Layout.Feature} (h : f.Ok m.dialect) (hr : ∀ x ∈ f.texts, Real x) (n k : Nat) (t : Option Token)
    (hw : ∀ c ∈ ((featureCst m n t f).ast k).1.children, ∀ s ∈ childSteps c, Rewritable m.dialect s) :
    Printable.Feature ((featureCst m n t f).ast k).1 ∧ ((featureCst m n t f).ast k).1.language = some m.dialectName := by
  have hb : ∀ x ∈ f.background.toList.flatMap Layout.Background.texts, Real x := fun x hx => hr x (by
    simp only [Layout.Feature.texts, List.mem_append]; exact .inr (.inr (.inl hx)))
  have hs : ∀ x ∈ f.scenarios.flatMap Layout.Scenario.texts, Real x := fun x hx => hr x (by
    simp only [Layout.Feature.texts, List.mem_append]; exact .inr (.inr (.inr (.inl hx))))
  have hrs : ∀ x ∈ f.rules.flatMap Layout.Rule.texts, Real x := fun x hx => hr x (by
    simp only [Layout.Feature.texts, List.mem_append]; exact .inr (.inr (.inr (.inr hx))))
  obtain ⟨t1, t2⟩ := title_reads hc h.2.1.1 (by decide) (hr _ (by simp [Layout.Feature.texts, Layout.Head.texts])) (n + tagLen f.tags)
  simp only [featureCst, CFeature.ast, List.mem_append] at hw
  refine ⟨⟨m.dialectName, m.dialect, t2, hc.valid.cur, tags_read hc h.1 _ _, t1,
    desc_read hc h.2.1 (fun x hx => hr x (by simp [Layout.Feature.texts, hx])) _, _, _, _, rfl,
    backgroundOpt_read hc h.2.2.1 hb _ _ ?_, scenarios_read hc h.2.2.2.1 hs _ _ ?_, ?_⟩, t2⟩
  · intro x hx s hs
    exact hw (.background x) (.inl (.inl (List.mem_map.2 ⟨x, by simpa using hx, rfl⟩))) s (by simp [childSteps, FeatureChild.backgrounds, hs])
  · intro x hx s hs
    exact hw (.scenario x) (.inl (.inr (List.mem_map.2 ⟨x, hx, rfl⟩))) s (by simp [childSteps, FeatureChild.scenarios, hs])
  · intro x hx
    have hwx := hw (.rule x) (.inr (List.mem_map.2 ⟨x, hx, rfl⟩))
    obtain ⟨c, hcm, k', rfl⟩ := thread_mem hx
    obtain ⟨l, hl, n', rfl⟩ := place_mem hcm
    exact rule_read hc (h.2.2.2.2 l hl) (fun x hx => hrs x (List.mem_flatMap.2 ⟨l, hl, hx⟩)) _ _ hwx

end Rewrite

end Gherkin
