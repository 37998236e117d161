import Verif.Props.Escape
import Verif.Spec.RobotVar
import Verif.Robot

/-! Escaped texts, read by Robot Framework. -/

namespace Gherkin.Escape

open Robot

/-- A text of plain characters and backslashes with what they escape. -/
inductive Units : Str → Prop
  | nil : Units []
  | plain {c s} : c ≠ '\\' → c ≠ '=' → Units s → Units (c :: s)
  | esc {c s} : isBrace c = false → Units s → Units ('\\' :: c :: s)

theorem Units.append {a b : Str} (ha : Units a) (hb : Units b) : Units (a ++ b) := by
  induction ha with
  | nil => exact hb
  | plain h1 h2 _ ih => exact .plain h1 h2 ih
  | esc h _ ih => exact .esc h ih

theorem Units.of_plain {s : Str} (h : ∀ c ∈ s, c ≠ '\\' ∧ c ≠ '=') : Units s := by
  induction s with
  | nil => exact .nil
  | cons c s ih => exact .plain (h c (by simp)).1 (h c (by simp)).2 (ih fun x hx => h x (by simp [hx]))

theorem hex_units (w n : Nat) : Units (hex w n) := by
  refine .of_plain fun c hc => ?_
  have := hex_mem w n c hc
  constructor <;> (rintro rfl; revert this; decide)

theorem chunk_units (printable : Char → Bool) (q : Char) (hq : q = '\'' ∨ q = '"') (c : Char) : Units (chunk printable q c) := by
  have hx : ∀ (k : Char) (w : Nat), k = 'x' ∨ k = 'u' ∨ k = 'U' → Units (('\\' :: k :: hex w c.toNat).flatMap fun x => if x = '=' then ['\\', '='] else [x]) := by
    intro k w hk
    rw [flatMap_noEq]
    · exact .esc (by rcases hk with rfl | rfl | rfl <;> decide) (hex_units _ _)
    · simp only [List.mem_cons, not_or]
      exact ⟨by decide, by rcases hk with rfl | rfl | rfl <;> decide, not_mem_hex _ _ (by decide)⟩
  have hself : c ≠ '\\' → Units ([c].flatMap fun x => if x = '=' then ['\\', '='] else [x]) := by
    intro hc
    by_cases he : c = '='
    · subst he; exact .esc (by decide) .nil
    · simp only [List.flatMap_cons, List.flatMap_nil, if_neg he, List.append_nil]
      exact .plain hc he .nil
  unfold chunk reprChar
  split
  · rename_i h
    rw [flatMap_noEq]
    · refine .esc ?_ .nil
      rcases h with rfl | rfl
      · rcases hq with rfl | rfl <;> decide
      · decide
    · rcases h with rfl | rfl
      · rcases hq with rfl | rfl <;> decide
      · decide
  · rename_i h
    rw [not_or] at h
    repeat' split
    all_goals first
      | exact .esc (by decide) .nil
      | exact hx _ _ (by simp)
      | exact hself h.2

theorem escapeWhitespace_units {s : Str} (h : Units s) : ∀ b, Units (escapeWhitespace b s) := by
  have nb : ∀ {c : Char}, isSpace c = true → isBrace c = false := by
    intro c hc
    cases hb : isBrace c with
    | false => rfl
    | true =>
      simp only [isBrace, Bool.or_eq_true, beq_iff_eq] at hb
      rcases hb with rfl | rfl <;> exact absurd hc (by decide)
  induction h with
  | nil => intro b; exact .nil
  | @plain c s h1 h2 _ ih =>
    intro b
    rw [escapeWhitespace]
    split
    · rename_i hs
      split
      · exact .esc (nb hs) (ih _)
      · exact .plain h1 h2 (ih _)
    · exact .plain h1 h2 (ih _)
  | @esc c s h1 _ ih =>
    intro b
    rw [escapeWhitespace, if_neg (by decide), escapeWhitespace]
    split
    · exact .esc h1 (ih _)
    · exact .esc h1 (ih _)

theorem escape_units (printable : Char → Bool) (item : Str) : Units (escape printable item) := by
  unfold escape
  split
  · rename_i h
    simp only [controlWords, List.mem_cons, List.not_mem_nil, or_false] at h
    rcases h with rfl | rfl | rfl <;> exact .esc (by decide) (.of_plain (by decide))
  · rw [replaceAll_eq, reprBody, List.flatMap_assoc]
    apply escapeWhitespace_units
    have hq : quoteOf item = '\'' ∨ quoteOf item = '"' := by unfold quoteOf; split <;> simp
    generalize quoteOf item = q at *
    have : ∀ s : Str, Units (s.flatMap (chunk printable q)) := by
      intro s
      induction s with
      | nil => exact .nil
      | cons c s ih => rw [List.flatMap_cons]; exact (chunk_units printable q hq c).append ih
    exact this item

theorem units_escaped {s : Str} (h : Units s) : ∀ pre post, s = pre ++ '=' :: post → EscapedAfter pre := by
  unfold EscapedAfter
  induction h with
  | nil => intro pre post e; simp at e
  | @plain c s h1 h2 _ ih =>
    intro pre post e
    cases pre with
    | nil => simp at e; exact absurd e.1 h2
    | cons x pre =>
      simp only [List.cons_append, List.cons.injEq] at e
      obtain ⟨rfl, e⟩ := e
      have := ih pre post e
      rw [List.reverse_cons, List.takeWhile_append]
      split
      · rename_i hl
        rw [List.takeWhile_cons_of_neg (by simpa using h1), List.append_nil, ← hl]
        exact this
      · exact this
  | @esc c s h1 _ ih =>
    intro pre post e
    cases pre with
    | nil => simp at e
    | cons x pre =>
      simp only [List.cons_append, List.cons.injEq] at e
      obtain ⟨rfl, e⟩ := e
      cases pre with
      | nil => rfl
      | cons y pre =>
        simp only [List.cons_append, List.cons.injEq] at e
        obtain ⟨rfl, e⟩ := e
        have := ih pre post e
        rw [List.reverse_cons, List.reverse_cons, List.append_assoc, List.takeWhile_append]
        split
        · rename_i hl
          rw [hl] at this
          simp only [List.cons_append, List.nil_append, List.takeWhile_cons, List.takeWhile_nil]
          split
          · simp; simp at this; omega
          · simpa using this
        · exact this

/-! ### White space -/

theorem escapeWhitespace_single : ∀ (s : Str) (b : Bool), (b = true → ∀ c, (escapeWhitespace b s).head? = some c → isSpace c = false) ∧
    ∀ pre x y post, escapeWhitespace b s = pre ++ x :: y :: post → isSpace x = false ∨ isSpace y = false := by
  intro s
  induction s with
  | nil => intro b; simp [escapeWhitespace]
  | cons c s ih =>
    intro b
    have hb : isSpace '\\' = false := by decide
    rw [escapeWhitespace]
    by_cases hs : isSpace c = true
    · rw [if_pos hs]
      obtain ⟨i1, i2⟩ := ih true
      have inner : ∀ pre x y post, c :: escapeWhitespace true s = pre ++ x :: y :: post → isSpace x = false ∨ isSpace y = false := by
        intro pre x y post e
        cases pre with
        | nil =>
          simp only [List.nil_append, List.cons.injEq] at e
          exact .inr (i1 rfl y (by rw [e.2]; rfl))
        | cons z pre =>
          simp only [List.cons_append, List.cons.injEq] at e
          exact i2 pre x y post e.2
      cases b with
      | false => simp only [Bool.false_eq_true, if_false]; exact ⟨fun h => absurd h (by simp), inner⟩
      | true =>
        simp only [if_true]
        refine ⟨fun _ x hx => by simp at hx; rw [← hx]; exact hb, ?_⟩
        intro pre x y post e
        cases pre with
        | nil =>
          simp only [List.nil_append, List.cons.injEq] at e
          left; rw [← e.1]; exact hb
        | cons z pre =>
          simp only [List.cons_append, List.cons.injEq] at e
          exact inner pre x y post e.2
    · rw [if_neg hs]
      have hs' : isSpace c = false := by simpa using hs
      obtain ⟨_, i2⟩ := ih false
      refine ⟨fun _ x hx => by simp at hx; rw [← hx]; exact hs', ?_⟩
      intro pre x y post e
      cases pre with
      | nil =>
        simp only [List.nil_append, List.cons.injEq] at e
        left; rw [← e.1]; exact hs'
      | cons z pre =>
        simp only [List.cons_append, List.cons.injEq] at e
        exact i2 pre x y post e.2

/-! ### Braces -/

/-- The level after reading braces, if it stays above zero. -/
def level : Nat → Str → Option Nat
  | n, [] => some n
  | n, c :: s => if c = '}' then (if n ≤ 1 then none else level (n - 1) s) else level (n + 1) s

theorem units_close {s : Str} (h : Units s) : ∀ (n : Nat) (t : Str),
    (∀ k, level n (s.filter isBrace) = some k → closeVar n false (s ++ t) = closeVar k false t) ∧
    (level n (s.filter isBrace) = none → ∃ r, closeVar n false (s ++ t) = some (r ++ t)) := by
  induction h with
  | nil => intro n t; simp [level]
  | @plain c s h1 h2 _ ih =>
    intro n t
    by_cases hc : c = '}'
    · subst hc
      rw [List.filter_cons_of_pos (by decide)]
      simp only [level, if_true, List.cons_append, closeVar, and_self]
      by_cases hn : n ≤ 1
      · rw [if_pos hn, if_pos hn]; exact ⟨fun k h => by simp at h, fun _ => ⟨s, rfl⟩⟩
      · rw [if_neg hn, if_neg hn]; exact ih (n - 1) t
    · by_cases ho : c = '{'
      · subst ho
        rw [List.filter_cons_of_pos (by decide)]
        simp only [level, List.cons_append, closeVar]
        exact ih (n + 1) t
      · rw [List.filter_cons_of_neg (by simp [isBrace, hc, ho])]
        simp only [List.cons_append, closeVar, hc, ho, false_and, if_false, beq_eq_false_iff_ne.2 h1, Bool.false_and]
        exact ih n t
  | @esc c s h1 _ ih =>
    intro n t
    rw [List.filter_cons_of_neg (by decide), List.filter_cons_of_neg (by simp [h1])]
    have e : closeVar n false ('\\' :: c :: s ++ t) = closeVar n false (s ++ t) := by
      simp [closeVar]
    rw [e]
    exact ih n t

theorem level_closed (bs : Str) (hb : ∀ c ∈ bs, isBrace c = true) : ∀ n, 1 ≤ n → ∀ k, level n bs = some k ↔
    ((∀ p, p <+: bs → p.count '}' < p.count '{' + n) ∧ n + bs.count '{' = k + bs.count '}') := by
  induction bs with
  | nil =>
    intro n hn k
    simp [level]
    intro _; omega
  | cons c s ih =>
    intro n hn k
    have ih' := ih fun x hx => hb x (by simp [hx])
    have hpre : ∀ P : Str → Prop, (∀ p, p <+: c :: s → P p) ↔ P [] ∧ ∀ p, p <+: s → P (c :: p) := by
      intro P
      constructor
      · intro h; exact ⟨h [] (List.nil_prefix), fun p hp => h _ (List.cons_prefix_cons.2 ⟨rfl, hp⟩)⟩
      · rintro ⟨h1, h2⟩ p hp
        cases p with
        | nil => exact h1
        | cons x p =>
          obtain ⟨rfl, hp'⟩ := List.cons_prefix_cons.1 hp
          exact h2 p hp'
    rw [hpre]
    have hc := hb c (by simp)
    simp only [isBrace, Bool.or_eq_true, beq_iff_eq] at hc
    rcases hc with rfl | rfl
    · simp only [level, Char.reduceEq, if_false]
      rw [ih' (n + 1) (by omega)]
      simp only [List.count_nil, List.count_cons, beq_self_eq_true, if_true, show (('{' : Char) == '}') = false from by decide, Bool.false_eq_true, if_false]
      constructor
      · rintro ⟨h1, h2⟩; exact ⟨⟨by omega, fun p hp => by have := h1 p hp; omega⟩, by omega⟩
      · rintro ⟨⟨_, h1⟩, h2⟩; exact ⟨fun p hp => by have := h1 p hp; omega, by omega⟩
    · simp only [level, if_true]
      simp only [List.count_nil, List.count_cons, beq_self_eq_true, if_true, show (('}' : Char) == '{') = false from by decide, Bool.false_eq_true, if_false]
      by_cases h1 : n ≤ 1
      · rw [if_pos h1]
        simp only [reduceCtorEq, false_iff, not_and]
        rintro ⟨_, h2⟩
        have := h2 [] List.nil_prefix
        simp at this; omega
      · rw [if_neg h1, ih' (n - 1) (by omega)]
        constructor
        · rintro ⟨h1, h2⟩; exact ⟨⟨by omega, fun p hp => by have := h1 p hp; omega⟩, by omega⟩
        · rintro ⟨⟨_, h1⟩, h2⟩; exact ⟨fun p hp => by have := h1 p hp; omega, by omega⟩

/-- A text of units between `&{{` and `}}` is one variable iff its braces are closed. -/
theorem units_variable {s : Str} (h : Units s) : DictVariable (py"&{{" ++ s ++ py"}}") ↔ BracesClose (s.filter isBrace) := by
  have e : DictVariable (py"&{{" ++ s ++ py"}}") ↔ closeVar 2 false (s ++ py"}}") = some [] := by
    constructor
    · rintro ⟨t, e, ht⟩
      simp only [List.cons_append, List.nil_append, List.cons.injEq, true_and] at e
      subst e
      simpa [closeVar] using ht
    · intro ht
      exact ⟨'{' :: (s ++ py"}}"), by simp, by simpa [closeVar] using ht⟩
  rw [e]
  obtain ⟨h1, h2⟩ := units_close h 2 py"}}"
  have hl := level_closed (s.filter isBrace) (fun c hc => (List.mem_filter.1 hc).2) 2 (by omega)
  have hcl : BracesClose (s.filter isBrace) ↔ level 2 (s.filter isBrace) = some 2 := by
    rw [hl]; unfold BracesClose
    constructor
    · rintro ⟨a, b⟩; exact ⟨a, by omega⟩
    · rintro ⟨a, b⟩; exact ⟨a, by omega⟩
  rw [hcl]
  cases hv : level 2 (s.filter isBrace) with
  | none =>
    obtain ⟨r, hr⟩ := h2 hv
    rw [hr]; simp
  | some k =>
    rw [h1 k hv]
    have : closeVar k false py"}}" = some [] ↔ k = 2 := by
      simp only [closeVar, and_self, if_true]
      by_cases hk : k ≤ 1
      · rw [if_pos hk]; simp; omega
      · rw [if_neg hk]
        by_cases hk2 : k - 1 ≤ 1
        · rw [if_pos hk2]; simp; omega
        · rw [if_neg hk2]; simp; omega
    rw [this]; simp

/-! ### Escaping keeps braces -/

theorem hex_braces (w n : Nat) : (hex w n).filter isBrace = [] := by
  rw [List.filter_eq_nil_iff]
  intro c hc
  have := hex_mem w n c hc
  intro hb
  simp only [isBrace, Bool.or_eq_true, beq_iff_eq] at hb
  rcases hb with rfl | rfl <;> (revert this; decide)

theorem reprChar_braces (printable : Char → Bool) (q : Char) (hq : q = '\'' ∨ q = '"') (c : Char) : (reprChar printable q c).filter isBrace = [c].filter isBrace := by
  by_cases hb : isBrace c = true
  · simp only [isBrace, Bool.or_eq_true, beq_iff_eq] at hb
    have : reprChar printable q c = [c] := by
      rcases hb with rfl | rfl <;> rcases hq with rfl | rfl <;> rfl
    rw [this]
  · have hb' : isBrace c = false := by simpa using hb
    rw [List.filter_cons_of_neg (by simpa using hb), List.filter_nil]
    have hx : ∀ (k : Char) (w : Nat), k = 'x' ∨ k = 'u' ∨ k = 'U' → ('\\' :: k :: hex w c.toNat).filter isBrace = [] := by
      intro k w hk
      rw [List.filter_cons_of_neg (by decide), List.filter_cons_of_neg (by rcases hk with rfl | rfl | rfl <;> decide), hex_braces]
    unfold reprChar
    repeat' split
    all_goals first
      | exact hx _ _ (by simp)
      | (simp [hb']; done)
      | (simp [hb']; decide)
      | decide

theorem reprBody_braces (printable : Char → Bool) (s : Str) : (reprBody printable s).filter isBrace = s.filter isBrace := by
  have hq : quoteOf s = '\'' ∨ quoteOf s = '"' := by unfold quoteOf; split <;> simp
  unfold reprBody
  generalize quoteOf s = q at *
  induction s with
  | nil => rfl
  | cons c s ih =>
    rw [List.flatMap_cons, List.filter_append, ih, reprChar_braces printable q hq, ← List.filter_append]; rfl

theorem repr_braces (printable : Char → Bool) (s : Str) : (repr printable s).filter isBrace = s.filter isBrace := by
  have hq : isBrace (quoteOf s) = false := by unfold quoteOf; split <;> decide
  unfold repr
  rw [List.filter_cons_of_neg (by simp [hq]), List.filter_append, reprBody_braces, List.filter_cons_of_neg (by simp [hq])]
  simp

theorem escapeWhitespace_braces : ∀ (s : Str) (b : Bool), (escapeWhitespace b s).filter isBrace = s.filter isBrace
  | [], _ => rfl
  | c :: s, b => by
    rw [escapeWhitespace]
    have := escapeWhitespace_braces s
    have hb : isBrace '\\' = false := by decide
    split
    · split <;> simp [List.filter_cons, this, hb]
    · simp [List.filter_cons, this]

theorem escape_braces (printable : Char → Bool) (s : Str) : (escape printable s).filter isBrace = s.filter isBrace := by
  unfold escape
  split
  · rw [List.filter_cons_of_neg (by decide)]
  · rw [escapeWhitespace_braces, replaceAll_eq, ← reprBody_braces printable s]
    generalize reprBody printable s = t
    induction t with
    | nil => rfl
    | cons c t ih =>
      rw [List.flatMap_cons, List.filter_append, ih]
      by_cases hc : c = '='
      · subst hc; rfl
      · rw [if_neg hc, ← List.filter_append]; rfl

theorem join_braces (ss : List Str) : (joinStr py", " ss).filter isBrace = ss.flatMap (·.filter isBrace) := by
  induction ss with
  | nil => rfl
  | cons s ss ih =>
    cases ss with
    | nil => simp [joinStr]
    | cons t ss =>
      rw [joinStr, List.filter_append, List.filter_append, ih, List.flatMap_cons (x := s), show List.filter isBrace py", " = [] from by decide, List.append_nil]

theorem argRepr_braces (printable : Char → Bool) (a : PArg) : (argRepr printable a).filter isBrace = bracesOf a := by
  cases a with
  | table rows =>
    simp only [argRepr, bracesOf, List.filter_append, join_braces, List.flatMap_map, repr_braces]
    rfl
  | doc content mt =>
    cases mt with
    | none => simp only [argRepr, bracesOf, List.filter_append, repr_braces, Option.getD_none]; simp; rfl
    | some mt => simp only [argRepr, bracesOf, List.filter_append, repr_braces, Option.getD_some]; simp; rfl

/-- The argument made of a table or doc string is one variable iff its braces are closed. -/
theorem arg_variable (printable : Char → Bool) (a : PArg) : ∀ x ∈ callArgs printable (some a), DictVariable x ↔ BracesClose (bracesOf a) := by
  intro x hx
  simp only [callArgs, List.mem_singleton] at hx
  subst hx
  rw [units_variable (escape_units _ _), escape_braces, argRepr_braces]

end Gherkin.Escape
