import Verif.Props.Suite

/-! # The Python literals of step arguments have one reading

Without this, "the argument denotes the table" (C30, C51, C61) would leave open that it also denotes another one. -/

namespace Gherkin.PyLit

theorem escapes_code : ∀ {c d d' : Char}, (c, d) ∈ escapes → (c, d') ∈ escapes → d = d' := by
  intro c d d' h h'
  simp only [escapes, List.mem_cons, Prod.mk.injEq, List.not_mem_nil, or_false] at h h'
  rcases h with ⟨rfl, rfl⟩ | ⟨rfl, rfl⟩ | ⟨rfl, rfl⟩ | ⟨rfl, rfl⟩ | ⟨rfl, rfl⟩ | ⟨rfl, rfl⟩ <;> simp at h' <;> exact h'.symm

theorem escapes_hex {c d : Char} {w : Nat} (h : (c, d) ∈ escapes) (h' : (c, w) ∈ [('x', 2), ('u', 4), ('U', 8)]) : False := by
  simp only [escapes, List.mem_cons, Prod.mk.injEq, List.not_mem_nil, or_false] at h
  rcases h with ⟨rfl, rfl⟩ | ⟨rfl, rfl⟩ | ⟨rfl, rfl⟩ | ⟨rfl, rfl⟩ | ⟨rfl, rfl⟩ | ⟨rfl, rfl⟩ <;> simp at h'

theorem hex_width {c : Char} {w w' : Nat} (h : (c, w) ∈ [('x', 2), ('u', 4), ('U', 8)]) (h' : (c, w') ∈ [('x', 2), ('u', 4), ('U', 8)]) : w = w' := by
  simp only [List.mem_cons, Prod.mk.injEq, List.not_mem_nil, or_false] at h
  rcases h with ⟨rfl, rfl⟩ | ⟨rfl, rfl⟩ | ⟨rfl, rfl⟩ <;> simp at h' <;> exact h'.symm

/-- A string literal ends where its quote is: two readings of the same text agree. -/
theorem chars_code {q : Char} (hq : q ≠ '\\') {b s : Str} (h : Chars q b s) :
    ∀ {b' s' r r' : Str}, Chars q b' s' → b ++ q :: r = b' ++ q :: r' → b = b' ∧ s = s' := by
  induction h with
  | nil =>
    intro b' s' r r' h' e
    cases h' with
    | nil => exact ⟨rfl, rfl⟩
    | plain h1 => simp at e; exact absurd e.1.symm h1
    | escape h1 => simp at e; exact absurd e.1 hq
    | hex h1 => simp at e; exact absurd e.1 hq
  | plain h1 h2 h3 h4 _ ih =>
    intro b' s' r r' h' e
    cases h' with
    | nil => simp at e; exact absurd e.1 h1
    | plain _ _ _ _ h' =>
      simp only [List.cons_append, List.cons.injEq] at e
      obtain ⟨rfl, e⟩ := e
      obtain ⟨rfl, rfl⟩ := ih h' e
      exact ⟨rfl, rfl⟩
    | escape _ _ => simp at e; exact absurd e.1 h2
    | hex _ _ _ _ => simp at e; exact absurd e.1 h2
  | escape h1 _ ih =>
    intro b' s' r r' h' e
    cases h' with
    | nil => simp at e; exact absurd e.1.symm hq
    | plain _ h2 => simp at e; exact absurd e.1.symm h2
    | escape h2 h' =>
      simp only [List.cons_append, List.cons.injEq, true_and] at e
      obtain ⟨rfl, e⟩ := e
      obtain ⟨rfl, rfl⟩ := ih h' e
      exact ⟨rfl, by rw [escapes_code h1 h2]⟩
    | hex h2 _ _ h' =>
      simp only [List.cons_append, List.cons.injEq, true_and] at e
      obtain ⟨rfl, e⟩ := e
      exact (escapes_hex h1 h2).elim
  | hex h1 h2 h3 _ ih =>
    intro b' s' r r' h' e
    cases h' with
    | nil => simp at e; exact absurd e.1.symm hq
    | plain _ h4 => simp at e; exact absurd e.1.symm h4
    | escape h4 h' =>
      simp only [List.cons_append, List.cons.injEq, true_and] at e
      obtain ⟨rfl, e⟩ := e
      exact (escapes_hex h4 h1).elim
    | hex h4 h5 h6 h' =>
      simp only [List.cons_append, List.cons.injEq, true_and, List.append_assoc] at e
      obtain ⟨rfl, e⟩ := e
      have hw := hex_width h1 h4
      obtain ⟨rfl, e2⟩ := List.append_inj e (by rw [h2, h5, hw])
      obtain ⟨rfl, rfl⟩ := ih h' e2
      rw [h3] at h6
      injection h6 with h6
      exact ⟨rfl, by rw [Char.toNat_inj.1 h6]⟩

/-- Two texts of `R`, one a beginning of the other, are the same and mean the same (for texts shorter than `n`). -/
def Code {α : Type} (R : Str → α → Prop) (n : Nat) : Prop :=
  ∀ {a : Str} {v : α} {a' : Str} {v' : α} {r r' : Str}, R a v → R a' v' → a.length < n → a ++ r = a' ++ r' → a = a' ∧ v = v'

theorem strLit_code (n : Nat) : Code StrLit n := by
  rintro a v a' v' r r' ⟨q, b, hq, rfl, h⟩ ⟨q', b', hq', rfl, h'⟩ _ e
  simp only [List.cons_append, List.append_assoc, List.cons.injEq, List.nil_append] at e
  obtain ⟨rfl, e⟩ := e
  obtain ⟨rfl, rfl⟩ := chars_code (by rcases hq with rfl | rfl <;> decide) h h' e
  exact ⟨rfl, rfl⟩

theorem join_code {α : Type} {R : Str → α → Prop} {n : Nat} (hR : Code R n) {close : Char} (hc : close ≠ ',')
    (hne : ∀ a v, R a v → ∃ c t, a = c :: t ∧ c ≠ close) : ∀ {as : List Str} {vs : List α} {as' : List Str} {vs' : List α} {r r' : Str},
    List.Forall₂ R as vs → List.Forall₂ R as' vs' → (joinStr py", " as).length < n →
    joinStr py", " as ++ close :: r = joinStr py", " as' ++ close :: r' → as = as' ∧ vs = vs'
  | _, _, _, _, _, _, .nil, .nil, _, _ => ⟨rfl, rfl⟩
  | _, _, _, _, _, _, .nil, .cons (l₁ := as') h _, _, e => by
    obtain ⟨c, t, rfl, h1⟩ := hne _ _ h
    cases as' <;> simp [joinStr] at e <;> exact absurd e.1.symm h1
  | _, _, _, _, _, _, .cons (l₁ := as) h _, .nil, _, e => by
    obtain ⟨c, t, rfl, h1⟩ := hne _ _ h
    cases as <;> simp [joinStr] at e <;> exact absurd e.1 h1
  | _, _, _, _, _, _, .cons h .nil, .cons h' .nil, hn, e => by
    obtain ⟨rfl, rfl⟩ := hR h h' hn e
    exact ⟨rfl, rfl⟩
  | _, _, _, _, _, _, .cons h .nil, .cons h' (.cons _ _), hn, e => by
    simp only [joinStr, List.append_assoc] at e hn
    obtain ⟨rfl, rfl⟩ := hR h h' hn e
    simp at e
    exact absurd e.1 hc
  | _, _, _, _, _, _, .cons h (.cons g gs), .cons h' .nil, hn, e => by
    simp only [joinStr, List.append_assoc] at e hn
    obtain ⟨rfl, rfl⟩ := hR h h' (by simp at hn; omega) e
    simp at e
    exact absurd e.1.symm hc
  | _, _, _, _, _, _, .cons h (.cons g gs), .cons h' (.cons g' gs'), hn, e => by
    simp only [joinStr, List.append_assoc] at e hn
    obtain ⟨rfl, rfl⟩ := hR h h' (by simp at hn; omega) e
    rw [List.append_cancel_left_eq, List.append_cancel_left_eq] at e
    obtain ⟨h1, h2⟩ := join_code hR hc hne (.cons g gs) (.cons g' gs') (by simp at hn ⊢; omega) e
    rw [h1, h2]; exact ⟨rfl, rfl⟩

/-- An entry of a dictionary. -/
def EntryLit (src : Str) (x : Str × Value) : Prop := ∃ k e, src = k ++ py": " ++ e ∧ StrLit k x.1 ∧ Denotes e x.2

theorem entries_lit : ∀ {keys names srcs : List Str} {vs : List Value}, keys.length = srcs.length → List.Forall₂ StrLit keys names →
    List.Forall₂ Denotes srcs vs → List.Forall₂ EntryLit (List.zipWith (fun k e => k ++ py": " ++ e) keys srcs) (names.zip vs)
  | _, _, _, _, _, .nil, .nil => .nil
  | _, _, _, _, h, .cons a as, .cons b bs => .cons ⟨_, _, rfl, a, b⟩ (entries_lit (by simpa using h) as bs)
  | _, _, _, _, h, .nil, .cons b bs => by simp at h
  | _, _, _, _, h, .cons a as, .nil => by simp at h

theorem strLit_start {a s : Str} (h : StrLit a s) : ∃ c t, a = c :: t ∧ (c = '\'' ∨ c = '"') := by
  obtain ⟨q, b, hq, rfl, _⟩ := h; exact ⟨_, _, rfl, hq⟩

theorem denotes_start {a : Str} {v : Value} (h : Denotes a v) : ∃ c t, a = c :: t ∧ (c = '\'' ∨ c = '"' ∨ c = '[' ∨ c = '{') := by
  cases h with
  | str h => obtain ⟨c, t, e, h⟩ := strLit_start h; exact ⟨c, t, e, by rcases h with h | h <;> simp [h]⟩
  | list _ => exact ⟨_, _, rfl, by simp⟩
  | dict _ _ _ => exact ⟨_, _, rfl, by simp⟩

theorem denotes_code (n : Nat) : Code Denotes n := by
  induction n with
  | zero => intro a v a' v' r r' _ _ h; simp at h
  | succ n ih =>
    have hent : Code EntryLit n := by
      rintro a ⟨n1, v1⟩ a' ⟨n2, v2⟩ r r' ⟨k, e, rfl, h1, h2⟩ ⟨k', e', rfl, h3, h4⟩ hn he
      simp only [List.append_assoc] at he
      obtain ⟨rfl, h5⟩ := strLit_code (k.length + 1) h1 h3 (by omega) he
      rw [List.append_cancel_left_eq, List.append_cancel_left_eq] at he
      obtain ⟨rfl, h6⟩ := ih h2 h4 (by simp at hn; omega) he
      simp only at h5 h6
      rw [h5, h6]; exact ⟨rfl, rfl⟩
    intro a v a' v' r r' h h' hn e
    cases h with
    | str h =>
      cases h' with
      | str h' => obtain ⟨h1, h2⟩ := strLit_code (n + 1) h h' hn e; rw [h2]; exact ⟨h1, rfl⟩
      | list _ => obtain ⟨c, t, rfl, h1⟩ := strLit_start h; simp at e; rw [e.1] at h1; simp at h1
      | dict _ _ _ => obtain ⟨c, t, rfl, h1⟩ := strLit_start h; simp at e; rw [e.1] at h1; simp at h1
    | list h =>
      cases h' with
      | str h' => obtain ⟨c, t, rfl, h1⟩ := strLit_start h'; simp at e; rw [← e.1] at h1; simp at h1
      | list h' =>
        simp only [List.append_assoc, List.cons_append, List.nil_append, List.cons.injEq, true_and] at e
        obtain ⟨rfl, rfl⟩ := join_code ih (by decide) (fun a v ha => by
          obtain ⟨c, t, e, hc⟩ := denotes_start ha; exact ⟨c, t, e, by rcases hc with rfl | rfl | rfl | rfl <;> decide⟩) h h' (by simp at hn; omega) e
        exact ⟨rfl, rfl⟩
      | dict _ _ _ => simp at e
    | dict hl hk h =>
      cases h' with
      | str h' => obtain ⟨c, t, rfl, h1⟩ := strLit_start h'; simp at e; rw [← e.1] at h1; simp at h1
      | list h' => simp at e
      | dict hl' hk' h' =>
        have g1 := entries_lit hl hk h
        have g2 := entries_lit hl' hk' h'
        generalize List.zipWith _ _ _ = x1 at *
        generalize List.zipWith _ _ _ = x2 at *
        simp only [List.append_assoc, List.cons_append, List.nil_append, List.cons.injEq, true_and] at e
        obtain ⟨h1, h2⟩ := join_code hent (by decide) (fun a v ha => by
          obtain ⟨k, x, rfl, hk, _⟩ := ha
          obtain ⟨c, t, rfl, hc⟩ := strLit_start hk
          exact ⟨c, _, rfl, by rcases hc with rfl | rfl <;> decide⟩) g1 g2 (by simp at hn; omega) e
        rw [h1, h2]; exact ⟨rfl, rfl⟩

/-- A Python expression of this kind has one value. -/
theorem denotes_unique {src : Str} {v v' : Value} (h : Denotes src v) (h' : Denotes src v') : v = v' :=
  (denotes_code (src.length + 1) (r := []) (r' := []) h h' (by omega) rfl).2

theorem ofArg_inj {a b : PArg} (h : ofArg a = ofArg b) : a = b := by
  have hcells : ∀ {x y : List Str}, (x.map fun v => Value.dict [(py"value", .str v)]) = (y.map fun v => Value.dict [(py"value", .str v)]) → x = y := by
    intro x y e
    exact List.map_injective_iff.2 (fun u v e => by simpa using e) e
  cases a with
  | table rows =>
    cases b with
    | table rows' =>
      simp only [ofArg, Value.dict.injEq, List.cons.injEq, Prod.mk.injEq, Value.list.injEq, true_and, and_true] at h
      congr 1
      refine List.map_injective_iff.2 (fun u v e => ?_) h
      simp only [Value.dict.injEq, List.cons.injEq, Prod.mk.injEq, Value.list.injEq, true_and, and_true] at e
      exact hcells e
    | doc c m => cases m <;> simp [ofArg] at h
  | doc c m =>
    cases b with
    | table rows' => cases m <;> simp [ofArg] at h
    | doc c' m' => cases m <;> cases m' <;> simp [ofArg] at h ⊢ <;> exact h

end Gherkin.PyLit

namespace Gherkin

/-- **C51.** The arguments of a keyword call tell the step's argument: no two arguments of steps are passed alike. -/
theorem C51_arguments_tell {a b : Option PArg} {args : List Str} (ha : PyLit.Passed a args) (hb : PyLit.Passed b args) : a = b := by
  cases a with
  | none =>
    cases b with
    | none => rfl
    | some b => obtain ⟨inner, e, _⟩ := hb; rw [show args = [] from ha] at e; simp at e
  | some a =>
    obtain ⟨inner, e, h⟩ := ha
    cases b with
    | none => rw [show args = [] from hb] at e; simp at e
    | some b =>
      obtain ⟨inner', e', h'⟩ := hb
      rw [e] at e'
      simp only [List.cons.injEq, and_true, List.append_assoc, List.append_cancel_left_eq] at e'
      have e2 := List.append_cancel_right e'
      subst e2
      rw [PyLit.ofArg_inj (PyLit.denotes_unique h h')]

end Gherkin
