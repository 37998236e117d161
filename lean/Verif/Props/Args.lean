import Verif.Args
import Verif.Spec.Args
import Verif.Props.FileText

/-! # C75: the command line -/

namespace Gherkin

open CommandLine

instance (a : Str) : Decidable (IsPath a) := by unfold IsPath; infer_instance
instance (a : Str) : Decidable (NoSource a) := by unfold NoSource; infer_instance
instance (a : Str) : Decidable (NoAst a) := by unfold NoAst; infer_instance
instance (a : Str) : Decidable (NoPickles a) := by unfold NoPickles; infer_instance
instance (a : Str) : Decidable (Switch a) := by unfold Switch; infer_instance
instance (a : Str) : Decidable (AsksHelp a) := by unfold AsksHelp; infer_instance

/-- A prefix of a word is one of its beginnings. -/
theorem prefix_takes {s w : Str} (h : s <+: w) : ∃ n ≤ w.length, s = w.take n :=
  ⟨s.length, h.length_le, List.prefix_iff_eq_take.1 h⟩

theorem abbrev_beginnings1 : ∀ o ∈ longOpts, ∀ n < o.word.length + 1, 2 < n →
    matchAbbrev (o.word.take n) = (if n ≤ 5 ∧ o ≠ .help then none else some o) ∧ '=' ∉ o.word.take n := by decide

theorem abbrev_beginnings2 : ∀ o ∈ longOpts, ∀ n < o.word.length + 1, 2 < n →
    (AsksHelp (o.word.take n) ↔ o = .help) ∧ (NoSource (o.word.take n) ↔ o = .noSource ∧ 5 < n) := by decide

theorem abbrev_beginnings3 : ∀ o ∈ longOpts, ∀ n < o.word.length + 1, 2 < n →
    (NoAst (o.word.take n) ↔ o = .noAst ∧ 5 < n) ∧ (NoPickles (o.word.take n) ↔ o = .noPickles ∧ 5 < n) := by decide

theorem mem_longOpts (o : LongOpt) : o ∈ longOpts := by cases o <;> decide

/-- Nothing but a beginning of an option is found. -/
theorem abbrev_prefix {s : Str} {o : LongOpt} (h : matchAbbrev s = some o) : s <+: o.word := by
  unfold matchAbbrev at h
  cases hf : longOpts.find? fun o => o.word == s with
  | some o' =>
    rw [hf] at h
    simp only [Option.some.injEq] at h
    have := List.find?_some hf
    simp only [beq_iff_eq] at this
    rw [← h, this]; exact List.prefix_rfl
  | none =>
    rw [hf] at h
    simp only at h
    split at h
    · rename_i o' he
      have : o' ∈ longOpts.filter fun o => startsWith o.word s := by rw [he]; simp
      simp only [List.mem_filter, startsWith, List.isPrefixOf_iff_prefix] at this
      simp only [Option.some.injEq] at h
      rw [← h]; exact this.2
    · cases h

/-- What a long option is. -/
theorem long_cases {a : Str} (h1 : a ≠ py"--") (h2 : a.take 2 = py"--") :
    ¬ IsPath a ∧ (('=' ∉ a ∧ ∃ o, matchAbbrev a = some o ∧ (o = .help ↔ AsksHelp a) ∧ (o = .noSource ↔ NoSource a) ∧ (o = .noAst ↔ NoAst a) ∧
      (o = .noPickles ↔ NoPickles a)) ∨ (('=' ∈ a ∨ matchAbbrev a = none) ∧ ¬ AsksHelp a ∧ ¬ Switch a)) := by
  have hlen : 2 < a.length := by
    have hl : a.length = 2 ∨ a.length < 2 ∨ 2 < a.length := by omega
    rcases hl with hl | hl | hl
    · exact absurd (by rw [List.take_of_length_le (by omega)] at h2; exact h2) h1
    · have := congrArg List.length h2
      simp at this; omega
    · exact hl
  have hp : ¬ IsPath a := by
    rintro (h | h)
    · apply h
      have := congrArg List.head? h2
      rw [List.head?_take] at this
      simpa using this
    · rw [h] at hlen; simp at hlen
  refine ⟨hp, ?_⟩
  have any : ∀ o : LongOpt, a <+: o.word → (('=' ∉ a ∧ ∃ o, matchAbbrev a = some o ∧ (o = .help ↔ AsksHelp a) ∧ (o = .noSource ↔ NoSource a) ∧ (o = .noAst ↔ NoAst a) ∧
      (o = .noPickles ↔ NoPickles a)) ∨ (('=' ∈ a ∨ matchAbbrev a = none) ∧ ¬ AsksHelp a ∧ ¬ Switch a)) := by
    intro o ho
    obtain ⟨n, hn, rfl⟩ := prefix_takes ho
    have hn2 : 2 < n := by rw [List.length_take] at hlen; omega
    obtain ⟨e1, e2⟩ := abbrev_beginnings1 o (mem_longOpts o) n (by omega) hn2
    obtain ⟨e3, e4⟩ := abbrev_beginnings2 o (mem_longOpts o) n (by omega) hn2
    obtain ⟨e5, e6⟩ := abbrev_beginnings3 o (mem_longOpts o) n (by omega) hn2
    by_cases hc : n ≤ 5 ∧ o ≠ .help
    · rw [if_pos hc] at e1
      refine .inr ⟨.inr e1, fun h => hc.2 (e3.1 h), ?_⟩
      rintro (h | h | h)
      · have := (e4.1 h).2; omega
      · have := (e5.1 h).2; omega
      · have := (e6.1 h).2; omega
    · rw [if_neg hc] at e1
      refine .inl ⟨e2, o, e1, e3.symm, ?_, ?_, ?_⟩
      · rw [e4]
        exact ⟨fun h => ⟨h, by subst h; simp at hc; omega⟩, fun h => h.1⟩
      · rw [e5]
        exact ⟨fun h => ⟨h, by subst h; simp at hc; omega⟩, fun h => h.1⟩
      · rw [e6]
        exact ⟨fun h => ⟨h, by subst h; simp at hc; omega⟩, fun h => h.1⟩
  by_cases hex : ∃ o : LongOpt, a <+: o.word
  · obtain ⟨o, ho⟩ := hex
    exact any o ho
  · have hno : ∀ o : LongOpt, ¬ a <+: o.word := fun o ho => hex ⟨o, ho⟩
    refine .inr ⟨.inr ?_, ?_, ?_⟩
    · cases hm : matchAbbrev a with
      | none => rfl
      | some o => exact absurd (abbrev_prefix hm) (hno o)
    · rintro (h | h)
      · obtain ⟨t, rfl⟩ := h
        simp at h2
      · exact hno .help h.2
    · rintro (h | h | h)
      · exact hno .noSource h.2
      · exact hno .noAst h.2
      · exact hno .noPickles h.2

/-- What an argument with one dash is. -/
theorem short_cases {a : Str} (h2 : a.take 2 ≠ py"--") (h3 : a.take 1 = py"-" ∧ 1 < a.length) :
    ¬ IsPath a ∧ ¬ Switch a ∧ (AsksHelp a ↔ a[1]? = some 'h') := by
  match a, h3 with
  | c :: c' :: s, h3 =>
    simp only [List.take_succ_cons, List.take_zero, List.cons.injEq, and_true] at h3 h2
    obtain ⟨hc, _⟩ := h3
    subst hc
    have hc' : c' ≠ '-' := by rintro rfl; exact h2 rfl
    refine ⟨?_, ?_, ?_⟩
    · rintro (h | h)
      · exact h rfl
      · cases h
    · rintro (h | h | h) <;>
      · have := h.1
        simp [List.cons_prefix_cons] at this
        exact hc' this.1.symm
    · simp only [List.getElem?_cons_succ, List.getElem?_cons_zero, Option.some.injEq]
      constructor
      · rintro (h | h)
        · simp [List.cons_prefix_cons] at h; exact h.symm
        · have := h.1
          simp [List.cons_prefix_cons] at this
          exact absurd this.1.symm hc'
      · rintro rfl
        exact .inl ⟨s, rfl⟩

/-- What another argument is. -/
theorem path_cases {a : Str} (h2 : a.take 2 ≠ py"--") (h3 : ¬ (a.take 1 = py"-" ∧ 1 < a.length)) : IsPath a ∧ ¬ Switch a ∧ ¬ AsksHelp a ∧ a ≠ py"--" := by
  match a with
  | [] => refine ⟨.inl (by simp), by decide, by decide, by decide⟩
  | [c] =>
    by_cases hc : c = '-'
    · subst hc; refine ⟨.inr rfl, by decide, by decide, by decide⟩
    · refine ⟨.inl (by simpa using hc), ?_, ?_, by simp⟩
      · rintro (h | h | h) <;> · have := h.1.length_le; simp at this
      · rintro (h | h)
        · have := h.length_le; simp at this
        · have := h.1.length_le; simp at this
  | c :: c' :: s =>
    have hc : c ≠ '-' := by rintro rfl; exact h3 ⟨rfl, by simp⟩
    refine ⟨.inl (by simpa using hc), ?_, ?_, by intro h; cases h; exact hc rfl⟩
    · rintro (h | h | h) <;>
      · have := h.1
        simp [List.cons_prefix_cons] at this
        exact hc this.1.symm
    · rintro (h | h)
      · simp [List.cons_prefix_cons] at h; exact hc h.1.symm
      · have := h.1
        simp [List.cons_prefix_cons] at this
        exact hc this.1.symm

/-- The argument stops the reading. -/
def Stops (a : Str) : Prop := a ≠ py"--" ∧ ¬ IsPath a ∧ ¬ Switch a

/-- One argument. -/
theorem process_cons (opt : StreamOptions) (largs : List Str) (a : Str) (rargs : List Str) :
    (a = py"--" ∧ processArgs opt largs (a :: rargs) = .run opt (largs ++ rargs)) ∨
    (a ≠ py"--" ∧ IsPath a ∧ ¬ Switch a ∧ ¬ AsksHelp a ∧ processArgs opt largs (a :: rargs) = processArgs opt (largs ++ [a]) rargs) ∨
    (a ≠ py"--" ∧ ¬ IsPath a ∧ Switch a ∧ ¬ AsksHelp a ∧ processArgs opt largs (a :: rargs) =
      processArgs ⟨opt.printSource && !decide (NoSource a), opt.printAst && !decide (NoAst a), opt.printPickles && !decide (NoPickles a)⟩ largs rargs) ∨
    (Stops a ∧ processArgs opt largs (a :: rargs) = if AsksHelp a then .help else .usage) := by
  by_cases h1 : a = py"--"
  · left; exact ⟨h1, by rw [processArgs, if_pos h1]⟩
  right
  by_cases h2 : a.take 2 = py"--"
  · obtain ⟨hp, hc⟩ := long_cases h1 h2
    rw [processArgs, if_neg h1, if_pos h2]
    rcases hc with ⟨he, o, ho, k1, k2, k3, k4⟩ | ⟨he, k1, k2⟩
    · rw [if_neg he, ho]
      cases o with
      | help =>
        right; right
        refine ⟨⟨h1, hp, ?_⟩, by simp only; rw [if_pos (k1.1 rfl)]⟩
        rintro (h | h | h)
        · exact absurd (k2.2 h) (by simp)
        · exact absurd (k3.2 h) (by simp)
        · exact absurd (k4.2 h) (by simp)
      | noSource =>
        right; left
        have n3 : ¬ NoAst a := fun h => by cases k3.2 h
        have n4 : ¬ NoPickles a := fun h => by cases k4.2 h
        refine ⟨h1, hp, .inl (k2.1 rfl), fun h => (by cases k1.2 h), ?_⟩
        simp [StreamOptions.switchOff, k2.1 rfl, n3, n4]
      | noAst =>
        right; left
        have n3 : ¬ NoSource a := fun h => by cases k2.2 h
        have n4 : ¬ NoPickles a := fun h => by cases k4.2 h
        refine ⟨h1, hp, .inr (.inl (k3.1 rfl)), fun h => (by cases k1.2 h), ?_⟩
        simp [StreamOptions.switchOff, k3.1 rfl, n3, n4]
      | noPickles =>
        right; left
        have n3 : ¬ NoSource a := fun h => by cases k2.2 h
        have n4 : ¬ NoAst a := fun h => by cases k3.2 h
        refine ⟨h1, hp, .inr (.inr (k4.1 rfl)), fun h => (by cases k1.2 h), ?_⟩
        simp [StreamOptions.switchOff, k4.1 rfl, n3, n4]
    · right; right
      refine ⟨⟨h1, hp, k2⟩, ?_⟩
      rw [if_neg k1]
      rcases he with he | he
      · rw [if_pos he]
      · rw [he]; split <;> rfl
  · by_cases h3 : a.take 1 = py"-" ∧ 1 < a.length
    · obtain ⟨hp, hs, hh⟩ := short_cases h2 h3
      right; right
      refine ⟨⟨h1, hp, hs⟩, ?_⟩
      rw [processArgs, if_neg h1, if_neg h2, if_pos h3]
      by_cases hx : a[1]? = some 'h'
      · rw [if_pos hx, if_pos (hh.2 hx)]
      · rw [if_neg hx, if_neg (fun h => hx (hh.1 h))]
    · obtain ⟨hp, hs, hh, _⟩ := path_cases h2 h3
      left
      exact ⟨h1, hp, hs, hh, by rw [processArgs, if_neg h1, if_neg h2, if_neg h3]⟩

/-- The options after these arguments. -/
def optionsAfter (opt : StreamOptions) (before : List Str) : StreamOptions :=
  ⟨opt.printSource && before.all fun a => !decide (NoSource a), opt.printAst && before.all fun a => !decide (NoAst a),
    opt.printPickles && before.all fun a => !decide (NoPickles a)⟩

theorem optionsAfter_cons (opt : StreamOptions) (a : Str) (before : List Str) : optionsAfter opt (a :: before) =
    optionsAfter ⟨opt.printSource && !decide (NoSource a), opt.printAst && !decide (NoAst a), opt.printPickles && !decide (NoPickles a)⟩ before := by
  simp [optionsAfter, Bool.and_assoc]

theorem optionsAfter_other (opt : StreamOptions) {a : Str} (h : ¬ Switch a) (before : List Str) : optionsAfter opt (a :: before) = optionsAfter opt before := by
  have h1 : ¬ NoSource a := fun k => h (.inl k)
  have h2 : ¬ NoAst a := fun k => h (.inr (.inl k))
  have h3 : ¬ NoPickles a := fun k => h (.inr (.inr k))
  rw [optionsAfter_cons]
  simp [h1, h2, h3]

/-- What the arguments lead to, in all cases. -/
theorem process_outcome : ∀ (args : List Str) (opt : StreamOptions) (largs : List Str),
    (∃ before after, Splits args before after ∧ (∀ a ∈ before, IsPath a ∨ Switch a) ∧
      processArgs opt largs args = .run (optionsAfter opt before) (largs ++ before.filter (fun a => decide (IsPath a)) ++ after)) ∨
    (∃ before a after, args = before ++ a :: after ∧ py"--" ∉ before ∧ (∀ b ∈ before, IsPath b ∨ Switch b) ∧ Stops a ∧
      processArgs opt largs args = if AsksHelp a then .help else .usage)
  | [], opt, largs => .inl ⟨[], [], ⟨by simp, .inl ⟨rfl, rfl⟩⟩, by simp, by simp [processArgs, optionsAfter]⟩
  | a :: args, opt, largs => by
    rcases process_cons opt largs a args with ⟨rfl, h⟩ | ⟨h1, h2, h3, _, h⟩ | ⟨h1, h2, h3, _, h⟩ | ⟨h1, h⟩
    · exact .inl ⟨[], args, ⟨by simp, .inr rfl⟩, by simp, by rw [h]; simp [optionsAfter]⟩
    · rcases process_outcome args opt (largs ++ [a]) with ⟨before, after, ⟨k0, k1⟩, k2, k3⟩ | ⟨before, x, after, k0, k1, k2, k3, k4⟩
      · refine .inl ⟨a :: before, after, ⟨by simp [h1.symm, k0], ?_⟩, by simpa [h2] using k2, ?_⟩
        · rcases k1 with ⟨rfl, rfl⟩ | rfl
          · exact .inl ⟨rfl, rfl⟩
          · exact .inr rfl
        · rw [h, k3, optionsAfter_other opt h3, List.filter_cons_of_pos (by simpa using h2)]
          simp
      · refine .inr ⟨a :: before, x, after, by rw [k0]; rfl, by simp [h1.symm, k1], by simpa [h2] using k2, k3, by rw [h, k4]⟩
    · rcases process_outcome args _ largs with ⟨before, after, ⟨k0, k1⟩, k2, k3⟩ | ⟨before, x, after, k0, k1, k2, k3, k4⟩
      · refine .inl ⟨a :: before, after, ⟨by simp [h1.symm, k0], ?_⟩, by simpa [h3] using k2, ?_⟩
        · rcases k1 with ⟨rfl, rfl⟩ | rfl
          · exact .inl ⟨rfl, rfl⟩
          · exact .inr rfl
        · rw [h, k3, optionsAfter_cons, List.filter_cons_of_neg (by simpa using h2)]
      · refine .inr ⟨a :: before, x, after, by rw [k0]; rfl, by simp [h1.symm, k1], by simpa [h3] using k2, k3, by rw [h, k4]⟩
    · exact .inr ⟨[], a, args, rfl, by simp, by simp, h1, h⟩

/-- Where the reading stops is unique. -/
theorem before_unique {P : Str → Prop} {b b' x x' : List Str} (h : b ++ x = b' ++ x') (hb : ∀ a ∈ b, P a) (hb' : ∀ a ∈ b', P a)
    (hx : ∀ a, x.head? = some a → ¬ P a) (hx' : ∀ a, x'.head? = some a → ¬ P a) : b = b' ∧ x = x' := by
  induction b generalizing b' with
  | nil =>
    cases b' with
    | nil => exact ⟨rfl, h⟩
    | cons c b' => exact absurd (hb' c (by simp)) (hx c (by simp only [List.nil_append] at h; rw [h]; rfl))
  | cons c b ih =>
    cases b' with
    | nil => exact absurd (hb c (by simp)) (hx' c (by simp only [List.nil_append] at h; rw [← h]; rfl))
    | cons c' b' =>
      simp only [List.cons_append, List.cons.injEq] at h
      obtain ⟨h1, h2⟩ := ih h.2 (fun a ha => hb a (by simp [ha])) (fun a ha => hb' a (by simp [ha]))
      exact ⟨by rw [h.1, h1], h2⟩

theorem fine_stop {a : Str} (h : Stops a) : ¬ (a ≠ py"--" ∧ (IsPath a ∨ Switch a)) := fun k => k.2.elim h.2.1 h.2.2

theorem help_stops {a : Str} (h : AsksHelp a) : Stops a := by
  rcases process_cons ⟨true, true, true⟩ [] a [] with ⟨k, _⟩ | ⟨_, _, _, k, _⟩ | ⟨_, _, _, k, _⟩ | ⟨k, _⟩
  · subst k; exact absurd h (by decide)
  · exact absurd h k
  · exact absurd h k
  · exact k

theorem splits_eq {args before after : List Str} (h : Splits args before after) :
    args = before ++ (if args = before ∧ after = [] then [] else py"--" :: after) := by
  rcases h.2 with ⟨h1, h2⟩ | h2
  · rw [if_pos ⟨h1, h2⟩, h1]; simp
  · rw [if_neg (by rintro ⟨h1, _⟩; rw [h1] at h2; simpa using congrArg List.length h2), ← h2]

/-- **C75.** The program runs iff all arguments before `--` (if there is one) are paths or switches; it then reads these paths and everything after
`--`, in this order, and leaves out exactly the kinds of events for which a switch is among these arguments, wherever it stands. -/
theorem C75_run (args : List Str) (opt : StreamOptions) (paths : List Str) : parseArgs args = .run opt paths ↔
    ∃ before after, Splits args before after ∧ (∀ a ∈ before, IsPath a ∨ Switch a) ∧ paths = before.filter (fun a => decide (IsPath a)) ++ after ∧
      (opt.printSource = true ↔ ∀ a ∈ before, ¬ NoSource a) ∧ (opt.printAst = true ↔ ∀ a ∈ before, ¬ NoAst a) ∧
      (opt.printPickles = true ↔ ∀ a ∈ before, ¬ NoPickles a) := by
  have eqv : ∀ before, opt = optionsAfter ⟨true, true, true⟩ before ↔ (opt.printSource = true ↔ ∀ a ∈ before, ¬ NoSource a) ∧
      (opt.printAst = true ↔ ∀ a ∈ before, ¬ NoAst a) ∧ (opt.printPickles = true ↔ ∀ a ∈ before, ¬ NoPickles a) := by
    intro before
    obtain ⟨x, y, z⟩ := opt
    simp only [optionsAfter, StreamOptions.mk.injEq, Bool.true_and]
    have : ∀ (b : Bool) (p : Str → Prop) [DecidablePred p], b = (before.all fun a => !decide (p a)) ↔ (b = true ↔ ∀ a ∈ before, ¬ p a) := by
      intro b p _
      rw [Bool.eq_iff_iff]
      simp
    rw [this, this, this]
  constructor
  · intro h
    rcases process_outcome args ⟨true, true, true⟩ [] with ⟨before, after, k1, k2, k3⟩ | ⟨before, x, after, _, _, _, _, k4⟩
    · rw [show processArgs ⟨true, true, true⟩ [] args = _ from h] at k3
      simp only [Invocation.run.injEq, List.nil_append] at k3
      exact ⟨before, after, k1, k2, k3.2, (eqv before).1 k3.1⟩
    · rw [show processArgs ⟨true, true, true⟩ [] args = _ from h] at k4
      split at k4 <;> cases k4
  · rintro ⟨before, after, h1, h2, h3, h4⟩
    have h4 := (eqv before).2 h4
    have hfine : ∀ a ∈ before, a ≠ py"--" ∧ (IsPath a ∨ Switch a) := fun a ha => ⟨fun e => h1.1 (e ▸ ha), h2 a ha⟩
    have hs := splits_eq h1
    generalize hx : (if args = before ∧ after = [] then [] else py"--" :: after) = x at hs
    have hxh : ∀ a, x.head? = some a → ¬ (a ≠ py"--" ∧ (IsPath a ∨ Switch a)) := by
      intro a ha k
      rw [← hx] at ha
      split at ha
      · simp at ha
      · simp at ha; exact k.1 ha.symm
    rcases process_outcome args ⟨true, true, true⟩ [] with ⟨b', a', k1, k2, k3⟩ | ⟨b', c, a', k1, k2, k3, k4, _⟩
    · have hs' := splits_eq k1
      generalize hx' : (if args = b' ∧ a' = [] then [] else py"--" :: a') = x' at hs'
      have hxh' : ∀ a, x'.head? = some a → ¬ (a ≠ py"--" ∧ (IsPath a ∨ Switch a)) := by
        intro a ha k
        rw [← hx'] at ha
        split at ha
        · simp at ha
        · simp at ha; exact k.1 ha.symm
      obtain ⟨e1, e2⟩ := before_unique (hs.symm.trans hs') hfine (fun a ha => ⟨fun e => k1.1 (e ▸ ha), k2 a ha⟩) hxh hxh'
      subst e1
      have e3 : after = a' := by
        rw [← hx, ← hx'] at e2
        by_cases ca : args = before ∧ after = []
        · by_cases cb : args = before ∧ a' = []
          · rw [ca.2, cb.2]
          · rw [if_pos ca, if_neg cb] at e2; cases e2
        · by_cases cb : args = before ∧ a' = []
          · rw [if_neg ca, if_pos cb] at e2; cases e2
          · rw [if_neg ca, if_neg cb] at e2; cases e2; rfl
      unfold parseArgs
      rw [k3, h4, h3, e3]; rfl
    · have := before_unique (hs.symm.trans k1) hfine (fun a ha => ⟨fun e => k2 (e ▸ ha), k3 a ha⟩) hxh
        (by intro a ha; simp at ha; subst ha; exact fine_stop k4)
      rw [this.2] at hx
      exfalso
      split at hx
      · cases hx
      · cases hx; exact k4.1 rfl

theorem stopped_iff (args : List Str) (help : Bool) : parseArgs args = (if help then .help else .usage) ↔
    ∃ before a after, args = before ++ a :: after ∧ py"--" ∉ before ∧ (∀ b ∈ before, IsPath b ∨ Switch b) ∧ Stops a ∧ (help = true ↔ AsksHelp a) := by
  constructor
  · intro h
    rcases process_outcome args ⟨true, true, true⟩ [] with ⟨before, after, k1, k2, k3⟩ | ⟨before, x, after, k0, k1, k2, k3, k4⟩
    · rw [show processArgs ⟨true, true, true⟩ [] args = _ from h] at k3
      cases help <;> cases k3
    · refine ⟨before, x, after, k0, k1, k2, k3, ?_⟩
      rw [show processArgs ⟨true, true, true⟩ [] args = _ from h] at k4
      by_cases hx : AsksHelp x
      · cases help
        · rw [if_pos hx] at k4; cases k4
        · simp [hx]
      · cases help
        · simp [hx]
        · rw [if_neg hx] at k4; cases k4
  · rintro ⟨before, x, after, k0, k1, k2, k3, k4⟩
    have hfine : ∀ a ∈ before, a ≠ py"--" ∧ (IsPath a ∨ Switch a) := fun a ha => ⟨fun e => k1 (e ▸ ha), k2 a ha⟩
    have hh : ∀ a, (x :: after).head? = some a → ¬ (a ≠ py"--" ∧ (IsPath a ∨ Switch a)) := by
      intro a ha; simp at ha; subst ha; exact fine_stop k3
    rcases process_outcome args ⟨true, true, true⟩ [] with ⟨b', a', j1, j2, j3⟩ | ⟨b', c, a', j0, j1, j2, j3, j4⟩
    · have hs' := splits_eq j1
      generalize hx' : (if args = b' ∧ a' = [] then [] else py"--" :: a') = x' at hs'
      have hxh' : ∀ a, x'.head? = some a → ¬ (a ≠ py"--" ∧ (IsPath a ∨ Switch a)) := by
        intro a ha k
        rw [← hx'] at ha
        split at ha
        · simp at ha
        · simp at ha; exact k.1 ha.symm
      obtain ⟨_, e2⟩ := before_unique (k0.symm.trans hs') hfine (fun a ha => ⟨fun e => j1.1 (e ▸ ha), j2 a ha⟩) hh hxh'
      rw [← e2] at hx'
      exfalso
      split at hx'
      · cases hx'
      · cases hx'; exact k3.1 rfl
    · obtain ⟨_, e2⟩ := before_unique (k0.symm.trans j0) hfine (fun a ha => ⟨fun e => j1 (e ▸ ha), j2 a ha⟩) hh
        (by intro a ha; simp at ha; subst ha; exact fine_stop j3)
      cases e2
      unfold parseArgs
      rw [j4]
      by_cases hx : AsksHelp x
      · rw [if_pos hx, if_pos (k4.2 hx)]
      · rw [if_neg hx, if_neg (fun h => hx (k4.1 h))]

/-- **C75.** The help text is shown iff it is asked for before any argument that is wrong, and before `--`. -/
theorem C75_help (args : List Str) : parseArgs args = .help ↔
    ∃ before a after, args = before ++ a :: after ∧ py"--" ∉ before ∧ (∀ b ∈ before, IsPath b ∨ Switch b) ∧ AsksHelp a := by
  rw [show Invocation.help = (if true then .help else .usage) from rfl, stopped_iff]
  constructor
  · rintro ⟨before, a, after, h1, h2, h3, _, h5⟩
    exact ⟨before, a, after, h1, h2, h3, h5.1 rfl⟩
  · rintro ⟨before, a, after, h1, h2, h3, h4⟩
    exact ⟨before, a, after, h1, h2, h3, help_stops h4, by simp [h4]⟩

/-- **C75.** The program refuses its arguments iff one before `--` is wrong (no path, no switch, no question for help), before help is asked for. Then no
file is read and nothing is printed. -/
theorem C75_usage (args : List Str) : parseArgs args = .usage ↔
    ∃ before a after, args = before ++ a :: after ∧ py"--" ∉ before ∧ (∀ b ∈ before, IsPath b ∨ Switch b) ∧
      a ≠ py"--" ∧ ¬ IsPath a ∧ ¬ Switch a ∧ ¬ AsksHelp a := by
  rw [show Invocation.usage = (if false then .help else .usage) from rfl, stopped_iff]
  constructor
  · rintro ⟨before, a, after, h1, h2, h3, h4, h5⟩
    exact ⟨before, a, after, h1, h2, h3, h4.1, h4.2.1, h4.2.2, fun h => by simpa using h5.2 h⟩
  · rintro ⟨before, a, after, h1, h2, h3, h4, h5, h6, h7⟩
    exact ⟨before, a, after, h1, h2, h3, ⟨h4, h5, h6⟩, by simp [h7]⟩

theorem holds_files {eng : Engine} {opt : StreamOptions} {disk : Str → Option ByteArray} {paths : List Str} {files : List SourceFile} (h : DiskHolds disk paths files) (more : List Str)
    (hm : ∀ p, more.head? = some p → disk p = none) :
    ((paths ++ more).takeWhile fun p => (disk p).isSome) = paths ∧
    mainFiles eng opt (paths.filterMap fun p => (disk p).map fun bytes => (p, bytes)) =
      ((mainProgram eng opt files).1, (mainProgram eng opt files).2.map .crash) ∧
    ((paths ++ more).find? fun p => (disk p).isNone) = more.head? := by
  have h1 : ((paths ++ more).takeWhile fun p => (disk p).isSome) = paths := by
    induction h with
    | nil =>
      cases more with
      | nil => rfl
      | cons p more => simp [hm p rfl]
    | cons h _ ih => simp [h.2, ih]
  have h2 : ((paths ++ more).find? fun p => (disk p).isNone) = more.head? := by
    clear h1
    induction h with
    | nil =>
      cases more with
      | nil => rfl
      | cons p more => simp [hm p rfl]
    | cons h _ ih => simp [h.2, ih]
  have h3 : List.Forall₂ (fun f s => sourceEvent f.1 f.2 = some s) (paths.filterMap fun p => (disk p).map fun bytes => (p, bytes)) files := by
    clear h1 h2
    induction h with
    | nil => exact .nil
    | cons h _ ih =>
      rw [List.filterMap_cons, h.2]
      exact .cons ((C66_lossless ..).2 ⟨h.1, rfl⟩) ih
  exact ⟨h1, mainFiles_decoded eng opt h3, h2⟩

/-- **C75.** When the paths are UTF-8 files, the program prints what the loop over these files prints, with the options of the command line. -/
theorem C75_output (eng : Engine) (disk : Str → Option ByteArray) (args : List Str) (opt : StreamOptions) (paths : List Str) (files : List SourceFile)
    (h : parseArgs args = .run opt paths) (hf : DiskHolds disk paths files) :
    commandLine eng disk args = ((mainProgram eng opt files).1, match (mainProgram eng opt files).2 with | none => .finished | some c => .failed (.crash c)) := by
  obtain ⟨h1, h2, h3⟩ := holds_files (eng := eng) (opt := opt) hf [] (by simp)
  rw [List.append_nil] at h1 h3
  unfold commandLine
  rw [h]
  simp only [h1, h2, h3]
  cases (mainProgram eng opt files).2 <;> rfl

/-- **C75.** A path that cannot be read ends the program after everything about the files before it has been printed; what comes after it does not
matter. -/
theorem C75_unreadable (eng : Engine) (disk : Str → Option ByteArray) (args : List Str) (opt : StreamOptions) (paths more : List Str) (p : Str)
    (files : List SourceFile) (h : parseArgs args = .run opt (paths ++ p :: more)) (hf : DiskHolds disk paths files) (hp : disk p = none) :
    commandLine eng disk args = ((mainProgram eng opt files).1, match (mainProgram eng opt files).2 with | none => .unreadable p | some c => .failed (.crash c)) := by
  obtain ⟨h1, h2, h3⟩ := holds_files (eng := eng) (opt := opt) hf (p :: more) (by simpa using hp)
  unfold commandLine
  rw [h]
  simp only [h1, h2, h3]
  cases (mainProgram eng opt files).2 <;> rfl

/-! ### Command lines -/

example : parseArgs [py"a.feature", py"--no-ast", py"b.feature", py"--no-s", py"--", py"--no-pickles"] =
    .run ⟨false, false, true⟩ [py"a.feature", py"b.feature", py"--no-pickles"] := by decide
example : parseArgs [py"--no-", py"a.feature"] = .usage ∧ parseArgs [py"a", py"-x", py"-h"] = .usage ∧ parseArgs [py"--no-ast=1"] = .usage ∧
    parseArgs [py"-", py"--he", py"--x"] = .help ∧ parseArgs [py"-hx"] = .help ∧ parseArgs [py"--", py"-h"] = .run ⟨true, true, true⟩ [py"-h"] := by decide
example : Splits [py"a", py"--", py"b"] [py"a"] [py"b"] ∧ NoSource py"--no-so" ∧ ¬ NoSource py"--no-" ∧ IsPath py"-" ∧ ¬ IsPath py"-x" :=
  ⟨⟨by decide, .inr rfl⟩, by decide, by decide, by decide, by decide⟩
example : DiskHolds (fun p => if p = py"a" then some (String.toUTF8 "Feature: f\n") else none) [py"a"] [⟨py"a", py"Feature: f\n"⟩] :=
  .cons ⟨rfl, by decide +kernel⟩ .nil

end Gherkin
