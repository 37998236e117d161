import Verif.Main
import Verif.Spec.JsonText
import Verif.Props.Escape
import Verif.Proofs.DocStrings

/-! JSON texts: what `dumps` writes, and that a text has one value. -/

namespace Gherkin

open JsonText

theorem char_surrogate (c : Char) : ¬ (0xd800 ≤ c.toNat ∧ c.toNat < 0xe000) := by
  intro ⟨h1, h2⟩
  have := c.valid
  simp only [UInt32.isValidChar, Nat.isValidChar] at this
  have e : c.val.toNat = c.toNat := rfl
  rw [e] at this
  omega

theorem char_bound (c : Char) : c.toNat < 0x110000 := by
  have := c.valid
  simp only [UInt32.isValidChar, Nat.isValidChar] at this
  have e : c.val.toNat = c.toNat := rfl
  rw [e] at this
  omega

/-! ### What is written -/

theorem jsonChar_chars (c : Char) {s v : Str} (h : Chars s v) : Chars (jsonChar c ++ s) (c :: v) := by
  unfold jsonChar
  split
  · rename_i hc
    rcases hc with rfl | rfl
    · exact .escape (by decide) h
    · exact .escape (by decide) h
  split
  · rename_i hc; subst hc; exact .escape (by decide) h
  split
  · rename_i hc; subst hc; exact .escape (by decide) h
  split
  · rename_i hc; subst hc; exact .escape (by decide) h
  split
  · rename_i hc; subst hc; exact .escape (by decide) h
  split
  · rename_i hc; subst hc; exact .escape (by decide) h
  split
  · rename_i h0 _ _ _ _ _ hc
    exact .plain (fun e => h0 (.inl e)) (fun e => h0 (.inr e)) hc.1 h
  split
  · rename_i hc
    exact .unit (hex_length 4 _) (hexNum_hex 4 _ hc) h
  · rename_i hc
    have hb := char_bound c
    have := Chars.pair (c := c) (hi := (c.toNat - 0x10000) / 0x400) (lo := (c.toNat - 0x10000) % 0x400) (hex_length 4 _) (hex_length 4 _)
      (hexNum_hex 4 (0xd800 + (c.toNat - 0x10000) / 0x400) (by omega)) (hexNum_hex 4 (0xdc00 + (c.toNat - 0x10000) % 0x400) (by omega))
      (by omega) (by omega) (by omega) h
    simpa using this

theorem jsonStr_chars (s : Str) : Chars (s.flatMap jsonChar) s := by
  induction s with
  | nil => exact .nil
  | cons c s ih => exact jsonChar_chars c ih

theorem jsonChar_ascii (c : Char) : ∀ d ∈ jsonChar c, 32 ≤ d.toNat ∧ d.toNat < 127 := by
  have hx : ∀ w n, ∀ d ∈ Escape.hex w n, 32 ≤ d.toNat ∧ d.toNat < 127 := by
    intro w n d hd
    have h1 : ∀ d ∈ py"0123456789abcdef", 32 ≤ d.toNat ∧ d.toNat < 127 := by decide
    exact h1 d (hex_mem w n d hd)
  unfold jsonChar
  split
  · rename_i hc; rcases hc with rfl | rfl <;> decide
  split
  · decide
  split
  · decide
  split
  · decide
  split
  · decide
  split
  · decide
  split
  · rename_i hc; intro d hd; simp at hd; subst hd; exact hc
  split
  · intro d hd
    simp only [List.mem_cons] at hd
    rcases hd with rfl | rfl | hd
    · decide
    · decide
    · exact hx _ _ d hd
  · intro d hd
    simp only [List.mem_cons, List.mem_append] at hd
    rcases hd with rfl | rfl | hd | rfl | rfl | hd
    · decide
    · decide
    · exact hx _ _ d hd
    · decide
    · decide
    · exact hx _ _ d hd

/-- Printable ASCII characters only. -/
def Ascii (s : Str) : Prop := ∀ d ∈ s, 32 ≤ d.toNat ∧ d.toNat < 127

theorem Ascii.append {a b : Str} (ha : Ascii a) (hb : Ascii b) : Ascii (a ++ b) := by
  intro d hd; rcases List.mem_append.1 hd with h | h
  · exact ha d h
  · exact hb d h

theorem Ascii.cons {a : Char} {b : Str} (ha : 32 ≤ a.toNat ∧ a.toNat < 127) (hb : Ascii b) : Ascii (a :: b) := by
  intro d hd; rcases List.mem_cons.1 hd with rfl | h
  · exact ha
  · exact hb d h

theorem Ascii.join {sep : Str} (hs : Ascii sep) : ∀ {ss : List Str}, (∀ s ∈ ss, Ascii s) → Ascii (joinStr sep ss)
  | [], _ => by intro d hd; simp [joinStr] at hd
  | [s], h => h s (by simp)
  | s :: t :: ss, h => ((h s (by simp)).append hs).append (Ascii.join hs (fun x hx => h x (by simp [hx])))

theorem jsonStr_ascii (s : Str) : Ascii (jsonStr s) := by
  refine .cons (by decide) (.append ?_ (.cons (by decide) (by intro d hd; simp at hd)))
  intro d hd
  rw [List.mem_flatMap] at hd
  obtain ⟨c, _, hd⟩ := hd
  exact jsonChar_ascii c d hd

theorem items_join : ∀ {ss : List Str} {vs : List Value}, List.Forall₂ Text ss vs → ss ≠ [] → ∀ {w : Str}, Gap w → Items (w ++ joinStr py", " ss) vs
  | [], _, .nil, h, _, _ => absurd rfl h
  | [s], [v], .cons h .nil, _, w, hw => by
    have := Items.one hw h (w' := []) (by intro c hc; simp at hc)
    simpa [joinStr] using this
  | s :: t :: ss, v :: vs, .cons h hs, _, w, hw => by
    have ih := items_join hs (by simp) (w := [' ']) (by intro c hc; simp at hc; exact .inl hc)
    have := Items.more hw h (w' := []) (by intro c hc; simp at hc) ih
    simpa [joinStr] using this

/-- A member without white space before and after it. -/
def Pair (s : Str) (p : Str × Value) : Prop := ∃ t, s = jsonStr p.1 ++ py": " ++ t ∧ Text t p.2

theorem pair_member {s : Str} {p : Str × Value} (h : Pair s p) {w : Str} (hw : Gap w) : Member (w ++ s) p.1 p.2 := by
  obtain ⟨t, rfl, ht⟩ := h
  have := Member.mk hw (jsonStr_chars p.1) (b' := []) (by intro c hc; simp at hc) (c := [' ']) (by intro c hc; simp at hc; exact .inl hc) ht (d := [])
    (by intro c hc; simp at hc)
  simpa [jsonStr] using this

theorem members_join : ∀ {ss : List Str} {ms : List (Str × Value)}, List.Forall₂ Pair ss ms → ss ≠ [] → ∀ {w : Str}, Gap w → Members (w ++ joinStr py", " ss) ms
  | [], _, .nil, h, _, _ => absurd rfl h
  | [s], [v], .cons h .nil, _, w, hw => by
    have := Members.one (pair_member h hw)
    simpa [joinStr] using this
  | s :: t :: ss, v :: vs, .cons h hs, _, w, hw => by
    have ih := members_join hs (by simp) (w := [' ']) (by intro c hc; simp at hc; exact .inl hc)
    have := Members.more (pair_member h hw) ih
    simpa [joinStr] using this

mutual
theorem dumps_text : ∀ j : J, match dumps j with
    | .ok s => ∃ v, j.value = some v ∧ Text s v ∧ Ascii s
    | .error c => j.value = none ∧ c = .typeError
  | .str s => ⟨_, rfl, .str (jsonStr_chars s), jsonStr_ascii s⟩
  | .id n => ⟨_, rfl, .str (jsonStr_chars _), jsonStr_ascii _⟩
  | .loc _ => ⟨rfl, rfl⟩
  | .null => ⟨_, rfl, .null, by unfold Ascii; decide⟩
  | .list l => by
    have h := items_text l
    simp only [dumps, J.value]
    rcases hd : dumpItems l with c | ss
    · rw [hd] at h; simp only at h ⊢; simp [h.1, h.2]
    · rw [hd] at h
      obtain ⟨vs, h1, h2, h3⟩ := h
      refine ⟨.list vs, by rw [h1]; rfl, ?_, .cons (by decide) (.append (.join (by unfold Ascii; decide) h3) (by unfold Ascii; decide))⟩
      cases h2 with
      | nil => exact .noItems (w := []) (by intro c hc; simp at hc)
      | cons a b => exact .list (items_join (.cons a b) (by simp) (w := []) (by intro c hc; simp at hc))
  | .dict l => by
    have h := pairs_text l
    simp only [dumps, J.value]
    rcases hd : dumpPairs l with c | ss
    · rw [hd] at h; simp only at h ⊢; simp [h.1, h.2]
    · rw [hd] at h
      obtain ⟨vs, h1, h2, h3⟩ := h
      refine ⟨.obj vs, by rw [h1]; rfl, ?_, .cons (by decide) (.append (.join (by unfold Ascii; decide) h3) (by unfold Ascii; decide))⟩
      cases h2 with
      | nil => exact .noMembers (w := []) (by intro c hc; simp at hc)
      | cons a b => exact .obj (members_join (.cons a b) (by simp) (w := []) (by intro c hc; simp at hc))
theorem items_text : ∀ l : List J, match dumpItems l with
    | .ok ss => ∃ vs, J.valueItems l = some vs ∧ List.Forall₂ Text ss vs ∧ ∀ s ∈ ss, Ascii s
    | .error c => J.valueItems l = none ∧ c = .typeError
  | [] => ⟨[], rfl, .nil, by simp⟩
  | j :: js => by
    have h1 := dumps_text j
    have h2 := items_text js
    simp only [dumpItems, J.valueItems]
    rcases hd : dumps j with c | s
    · rw [hd] at h1; simp only at h1 ⊢; simp [h1.1, h1.2]
    · rw [hd] at h1
      obtain ⟨v, a1, a2, a3⟩ := h1
      simp only [a1]
      rcases hi : dumpItems js with c | ss
      · rw [hi] at h2; simp only at h2 ⊢; simp [h2.1, h2.2]
      · rw [hi] at h2
        obtain ⟨vs, b1, b2, b3⟩ := h2
        simp only [b1]
        refine ⟨_, rfl, .cons a2 b2, ?_⟩
        intro x hx; rcases List.mem_cons.1 hx with rfl | hx
        · exact a3
        · exact b3 x hx
theorem pairs_text : ∀ l : List (Str × J), match dumpPairs l with
    | .ok ss => ∃ vs, J.valuePairs l = some vs ∧ List.Forall₂ Pair ss vs ∧ ∀ s ∈ ss, Ascii s
    | .error c => J.valuePairs l = none ∧ c = .typeError
  | [] => ⟨[], rfl, .nil, by simp⟩
  | p :: ps => by
    have h1 := pair_text p
    have h2 := pairs_text ps
    simp only [dumpPairs, J.valuePairs]
    rcases hd : dumpPair p with c | s
    · rw [hd] at h1; simp only at h1 ⊢; simp [h1.1, h1.2]
    · rw [hd] at h1
      obtain ⟨v, a1, a2, a3⟩ := h1
      simp only [a1]
      rcases hi : dumpPairs ps with c | ss
      · rw [hi] at h2; simp only at h2 ⊢; simp [h2.1, h2.2]
      · rw [hi] at h2
        obtain ⟨vs, b1, b2, b3⟩ := h2
        simp only [b1]
        refine ⟨_, rfl, .cons a2 b2, ?_⟩
        intro x hx; rcases List.mem_cons.1 hx with rfl | hx
        · exact a3
        · exact b3 x hx
theorem pair_text : ∀ p : Str × J, match dumpPair p with
    | .ok s => ∃ v, J.valuePair p = some v ∧ Pair s v ∧ Ascii s
    | .error c => J.valuePair p = none ∧ c = .typeError
  | (k, j) => by
    have h1 := dumps_text j
    simp only [dumpPair, J.valuePair]
    rcases hd : dumps j with c | s
    · rw [hd] at h1; simp only at h1 ⊢; simp [h1.1, h1.2]
    · rw [hd] at h1
      obtain ⟨v, a1, a2, a3⟩ := h1
      simp only [a1]
      exact ⟨_, rfl, ⟨s, rfl, a2⟩, ((jsonStr_ascii k).append (by unfold Ascii; decide)).append a3⟩
end

/-! ### A text has one value -/

theorem hexNum_not (ds : Str) (h : (Escape.hexNum ds).isSome = true) (c : Char) (hc : Escape.hexVal c = none) : c ∉ ds := by
  intro hm
  obtain ⟨a, b, rfl⟩ := List.append_of_mem hm
  unfold Escape.hexNum at h
  rw [List.foldlM_append] at h
  rcases hx : List.foldlM (fun a d => (Escape.hexVal d).map fun v => a * 16 + v) 0 a with _ | n
  · rw [hx] at h; simp at h
  · rw [hx] at h; simp [List.foldlM_cons, hc] at h

theorem chars_unique {s v : Str} (h : Chars s v) : ∀ {s' v' x y : Str}, Chars s' v' → s ++ '"' :: x = s' ++ '"' :: y → s = s' ∧ v = v' := by
  have split4 : ∀ {ds es a b : Str}, ds.length = 4 → es.length = 4 → ds ++ a = es ++ b → ds = es ∧ a = b :=
    fun h1 h2 h => List.append_inj h (by rw [h1, h2])
  induction h with
  | nil =>
    intro s' v' x y h' e
    cases h' with
    | nil => exact ⟨rfl, rfl⟩
    | plain h1 _ _ _ => simp at e; exact absurd e.1.symm h1
    | escape => simp at e
    | unit => simp at e
    | pair => simp at e
  | plain a1 a2 a3 _ ih =>
    intro s' v' x y h' e
    cases h' with
    | nil => simp at e; exact absurd e.1 a1
    | plain h1 _ _ h2 => simp at e; obtain ⟨rfl, e⟩ := e; obtain ⟨rfl, rfl⟩ := ih h2 e; exact ⟨rfl, rfl⟩
    | escape => simp at e; exact absurd e.1 a2
    | unit => simp at e; exact absurd e.1 a2
    | pair => simp at e; exact absurd e.1 a2
  | @escape c0 d0 s0 v0 a1 _ ih =>
    intro s' v' x y h' e
    have hu : c0 ≠ 'u' := by rintro rfl; revert a1; simp [escapes]
    cases h' with
    | nil => simp at e
    | plain _ h1 _ h2 => simp at e; exact absurd e.1.symm h1
    | escape b1 h2 =>
      simp at e; obtain ⟨rfl, e⟩ := e; obtain ⟨rfl, rfl⟩ := ih h2 e
      refine ⟨rfl, ?_⟩
      congr 1
      simp only [escapes, List.mem_cons, List.not_mem_nil, or_false, Prod.mk.injEq] at a1 b1
      rcases a1 with ⟨rfl, rfl⟩ | ⟨rfl, rfl⟩ | ⟨rfl, rfl⟩ | ⟨rfl, rfl⟩ | ⟨rfl, rfl⟩ | ⟨rfl, rfl⟩ | ⟨rfl, rfl⟩ | ⟨rfl, rfl⟩ <;> simp at b1 <;> exact b1.symm
    | unit => simp at e; exact absurd e.1 hu
    | pair => simp at e; exact absurd e.1 hu
  | @unit ds0 c0 s0 v0 a1 a2 _ ih =>
    intro s' v' x y h' e
    cases h' with
    | nil => simp at e
    | plain _ h1 _ h2 => simp at e; exact absurd e.1.symm h1
    | escape b1 h2 => simp at e; obtain ⟨rfl, _⟩ := e; revert b1; simp [escapes]
    | unit b1 b2 h2 =>
      simp only [List.cons_append, List.append_assoc, List.cons.injEq, true_and] at e
      obtain ⟨rfl, e2⟩ := split4 a1 b1 e
      obtain ⟨rfl, rfl⟩ := ih h2 e2
      rw [a2] at b2
      refine ⟨rfl, ?_⟩
      congr 1
      exact Char.ext (UInt32.ext (by simpa using b2))
    | pair b1 b2 b3 b4 b5 b6 b7 h2 =>
      simp only [List.cons_append, List.append_assoc, List.cons.injEq, true_and] at e
      obtain ⟨rfl, e⟩ := split4 a1 b1 e
      rw [a2] at b3
      exfalso
      simp only [Option.some.injEq] at b3
      exact char_surrogate c0 ⟨by omega, by omega⟩
  | pair a1 a2 a3 a4 a5 a6 a7 _ ih =>
    intro s' v' x y h' e
    cases h' with
    | nil => simp at e
    | plain _ h1 _ h2 => simp at e; exact absurd e.1.symm h1
    | escape b1 h2 => simp at e; obtain ⟨rfl, _⟩ := e; revert b1; simp [escapes]
    | @unit _ c _ _ b1 b2 h2 =>
      simp only [List.cons_append, List.append_assoc, List.cons.injEq, true_and] at e
      obtain ⟨rfl, e⟩ := split4 a1 b1 e
      rw [a3] at b2
      exfalso
      simp only [Option.some.injEq] at b2
      exact char_surrogate c ⟨by omega, by omega⟩
    | pair b1 b2 b3 b4 b5 b6 b7 h2 =>
      simp only [List.cons_append, List.append_assoc, List.cons.injEq, true_and] at e
      obtain ⟨rfl, e2⟩ := split4 a1 b1 e
      simp only [List.cons.injEq, true_and] at e2
      obtain ⟨rfl, e3⟩ := split4 a2 b2 e2
      obtain ⟨rfl, rfl⟩ := ih h2 e3
      rw [a3] at b3; rw [a4] at b4
      simp only [Option.some.injEq, Nat.add_left_cancel_iff] at b3 b4
      subst b3; subst b4
      refine ⟨rfl, ?_⟩
      congr 1
      exact Char.ext (UInt32.ext (by have := a7.trans b7.symm; simpa using this))

def GapChar (c : Char) : Prop := c = ' ' ∨ c = '\t' ∨ c = '\n' ∨ c = '\r'

theorem gap_unique {w : Str} (h : Gap w) : ∀ {w' : Str} {c d : Char} {r r' : Str}, Gap w' → ¬ GapChar c → ¬ GapChar d → w ++ c :: r = w' ++ d :: r' →
    w = w' ∧ c = d ∧ r = r' := by
  induction w with
  | nil =>
    intro w' c d r r' h' hc hd e
    cases w' with
    | nil => simp at e; exact ⟨rfl, e⟩
    | cons a w' => simp at e; exact absurd (e.1 ▸ h' a (by simp)) hc
  | cons a w ih =>
    intro w' c d r r' h' hc hd e
    cases w' with
    | nil => simp at e; exact absurd (e.1 ▸ h a (by simp)) hd
    | cons a' w' =>
      simp at e
      obtain ⟨rfl, e2⟩ := e
      obtain ⟨rfl, h2⟩ := ih (fun c hc => h c (by simp [hc])) (fun c hc => h' c (by simp [hc])) hc hd e2
      exact ⟨rfl, h2⟩

/-- The first characters of the texts. -/
def Opener (c : Char) : Prop := c = 'n' ∨ c = '"' ∨ c = '[' ∨ c = '{'

theorem Opener.notGap {c : Char} (h : Opener c) : ¬ GapChar c := by
  rcases h with rfl | rfl | rfl | rfl <;> simp [GapChar]

theorem text_first {a : Str} {v : Value} (h : Text a v) : ∃ c r, a = c :: r ∧ Opener c := by
  cases h with
  | null => exact ⟨_, _, rfl, .inl rfl⟩
  | str => exact ⟨_, _, rfl, .inr (.inl rfl)⟩
  | noItems => exact ⟨_, _, rfl, .inr (.inr (.inl rfl))⟩
  | list => exact ⟨_, _, rfl, .inr (.inr (.inl rfl))⟩
  | noMembers => exact ⟨_, _, rfl, .inr (.inr (.inr rfl))⟩
  | obj => exact ⟨_, _, rfl, .inr (.inr (.inr rfl))⟩

theorem gap_text {w s w' s' x y : Str} {v v' : Value} (h : Gap w) (h' : Gap w') (t : Text s v) (t' : Text s' v') (e : w ++ (s ++ x) = w' ++ (s' ++ y)) :
    w = w' ∧ s ++ x = s' ++ y := by
  obtain ⟨c, r, rfl, hc⟩ := text_first t
  obtain ⟨d, r', rfl, hd⟩ := text_first t'
  obtain ⟨h1, h2, h3⟩ := gap_unique h h' hc.notGap hd.notGap e
  exact ⟨h1, by rw [h2]; exact congrArg _ h3⟩

theorem items_first {a : Str} {v : List Value} (h : Items a v) : ∃ w c r, Gap w ∧ Opener c ∧ a = w ++ c :: r := by
  cases h with
  | one h1 h2 _ => obtain ⟨c, r, rfl, hc⟩ := text_first h2; exact ⟨_, c, _, h1, hc, rfl⟩
  | more h1 h2 _ _ => obtain ⟨c, r, rfl, hc⟩ := text_first h2; exact ⟨_, c, _, h1, hc, rfl⟩

theorem members_first {a : Str} {v : List (Str × Value)} (h : Members a v) : ∃ w r, Gap w ∧ a = w ++ '"' :: r := by
  cases h with
  | one h1 => cases h1 with | mk h1 => exact ⟨_, _, h1, rfl⟩
  | more h1 _ => cases h1 with | mk h1 => exact ⟨_, _, h1, by rw [List.append_assoc, List.cons_append]⟩

theorem gap_items {w t x y : Str} {vs : List Value} (h : Gap w) (ht : Items t vs) (e : w ++ ']' :: x = t ++ ']' :: y) : False := by
  obtain ⟨w', c, r, h', hc, rfl⟩ := items_first ht
  have := gap_unique h h' (c := ']') (by simp [GapChar]) hc.notGap (by simpa using e)
  rw [← this.2.1] at hc
  simp [Opener] at hc

theorem gap_members {w t x y : Str} {vs : List (Str × Value)} (h : Gap w) (ht : Members t vs) (e : w ++ '}' :: x = t ++ '}' :: y) : False := by
  obtain ⟨w', r, h', rfl⟩ := members_first ht
  have := gap_unique h h' (c := '}') (by simp [GapChar]) (d := '"') (by simp [GapChar]) (by simpa using e)
  simp at this

theorem gap_end {w w' x y : Str} {c d : Char} (h : Gap w) (h' : Gap w') (hc : ¬ GapChar c) (hd : ¬ GapChar d) (hne : c ≠ d)
    (e : w ++ c :: x = w' ++ d :: y) : False := hne (gap_unique h h' hc hd e).2.1

theorem text_unique {a : Str} {v : Value} (h : Text a v) : ∀ {b : Str} {w : Value} {x y : Str}, Text b w → a ++ x = b ++ y → a = b ∧ v = w := by
  refine Text.rec
    (motive_1 := fun a v _ => ∀ {b : Str} {w : Value} {x y : Str}, Text b w → a ++ x = b ++ y → a = b ∧ v = w)
    (motive_2 := fun s vs _ => ∀ {t : Str} {ws : List Value} {x y : Str}, Items t ws → s ++ ']' :: x = t ++ ']' :: y → s = t ∧ vs = ws)
    (motive_3 := fun s vs _ => ∀ {t : Str} {ws : List (Str × Value)} {x y : Str}, Members t ws → s ++ '}' :: x = t ++ '}' :: y → s = t ∧ vs = ws)
    (motive_4 := fun m k v _ => ∀ {m' k' : Str} {v' : Value} {c d : Char} {x y : Str}, Member m' k' v' → ¬ GapChar c → ¬ GapChar d →
        m ++ c :: x = m' ++ d :: y → m = m' ∧ k = k' ∧ v = v')
    ?_ ?_ ?_ ?_ ?_ ?_ ?_ ?_ ?_ ?_ ?_ h
  · intro b w x y h' e
    cases h' with
    | null => exact ⟨rfl, rfl⟩
    | _ => simp at e
  · intro b s hb b' w x y h' e
    cases h' with
    | str h1 =>
      simp only [List.cons_append, List.append_assoc, List.nil_append, List.cons.injEq, true_and] at e
      obtain ⟨rfl, rfl⟩ := chars_unique hb h1 e
      exact ⟨rfl, rfl⟩
    | _ => simp at e
  · intro w hw b v x y h' e
    cases h' with
    | noItems h1 =>
      simp only [List.cons_append, List.append_assoc, List.nil_append, List.cons.injEq, true_and] at e
      obtain ⟨rfl, _⟩ := gap_unique hw h1 (by simp [GapChar]) (by simp [GapChar]) e
      exact ⟨rfl, rfl⟩
    | list h1 =>
      simp only [List.cons_append, List.append_assoc, List.nil_append, List.cons.injEq, true_and] at e
      exact (gap_items hw h1 e).elim
    | _ => simp at e
  · intro s vs hs ih b v x y h' e
    cases h' with
    | noItems h1 =>
      simp only [List.cons_append, List.append_assoc, List.nil_append, List.cons.injEq, true_and] at e
      exact (gap_items h1 hs e.symm).elim
    | list h1 =>
      simp only [List.cons_append, List.append_assoc, List.nil_append, List.cons.injEq, true_and] at e
      obtain ⟨rfl, rfl⟩ := ih h1 e
      exact ⟨rfl, rfl⟩
    | _ => simp at e
  · intro w hw b v x y h' e
    cases h' with
    | noMembers h1 =>
      simp only [List.cons_append, List.append_assoc, List.nil_append, List.cons.injEq, true_and] at e
      obtain ⟨rfl, _⟩ := gap_unique hw h1 (by simp [GapChar]) (by simp [GapChar]) e
      exact ⟨rfl, rfl⟩
    | obj h1 =>
      simp only [List.cons_append, List.append_assoc, List.nil_append, List.cons.injEq, true_and] at e
      exact (gap_members hw h1 e).elim
    | _ => simp at e
  · intro s vs hs ih b v x y h' e
    cases h' with
    | noMembers h1 =>
      simp only [List.cons_append, List.append_assoc, List.nil_append, List.cons.injEq, true_and] at e
      exact (gap_members h1 hs e.symm).elim
    | obj h1 =>
      simp only [List.cons_append, List.append_assoc, List.nil_append, List.cons.injEq, true_and] at e
      obtain ⟨rfl, rfl⟩ := ih h1 e
      exact ⟨rfl, rfl⟩
    | _ => simp at e
  · intro w s w' v h1 h2 h3 ih t ws x y h' e
    cases h' with
    | one a1 a2 a3 =>
      simp only [List.append_assoc] at e
      obtain ⟨rfl, e2⟩ := gap_text h1 a1 h2 a2 e
      obtain ⟨rfl, rfl⟩ := ih a2 e2
      obtain ⟨rfl, _⟩ := gap_unique h3 a3 (by simp [GapChar]) (by simp [GapChar]) (List.append_cancel_left e2)
      exact ⟨rfl, rfl⟩
    | more a1 a2 a3 a4 =>
      simp only [List.append_assoc, List.cons_append] at e
      obtain ⟨rfl, e2⟩ := gap_text h1 a1 h2 a2 e
      obtain ⟨rfl, rfl⟩ := ih a2 e2
      exact (gap_end h3 a3 (by simp [GapChar]) (by simp [GapChar]) (by decide) (List.append_cancel_left e2)).elim
  · intro w s w' v t vs h1 h2 h3 h4 ih ih2 t' ws x y h' e
    cases h' with
    | one a1 a2 a3 =>
      simp only [List.append_assoc, List.cons_append] at e
      obtain ⟨rfl, e2⟩ := gap_text h1 a1 h2 a2 e
      obtain ⟨rfl, rfl⟩ := ih a2 e2
      exact (gap_end h3 a3 (by simp [GapChar]) (by simp [GapChar]) (by decide) (List.append_cancel_left e2)).elim
    | more a1 a2 a3 a4 =>
      simp only [List.append_assoc, List.cons_append] at e
      obtain ⟨rfl, e2⟩ := gap_text h1 a1 h2 a2 e
      obtain ⟨rfl, rfl⟩ := ih a2 e2
      obtain ⟨rfl, _, e3⟩ := gap_unique h3 a3 (by simp [GapChar]) (by simp [GapChar]) (List.append_cancel_left e2)
      obtain ⟨rfl, rfl⟩ := ih2 a4 e3
      exact ⟨rfl, rfl⟩
  · intro m k v h1 ih t ws x y h' e
    cases h' with
    | one a1 => obtain ⟨rfl, rfl, rfl⟩ := ih a1 (by simp [GapChar]) (by simp [GapChar]) e; exact ⟨rfl, rfl⟩
    | more a1 a2 =>
      simp only [List.append_assoc, List.cons_append] at e
      obtain ⟨rfl, rfl, rfl⟩ := ih a1 (by simp [GapChar]) (by simp [GapChar]) e
      simpa using List.append_cancel_left e
  · intro m k v t ms h1 h2 ih ih2 t' ws x y h' e
    cases h' with
    | one a1 =>
      simp only [List.append_assoc, List.cons_append] at e
      obtain ⟨rfl, rfl, rfl⟩ := ih a1 (by simp [GapChar]) (by simp [GapChar]) e
      simpa using List.append_cancel_left e
    | more a1 a2 =>
      simp only [List.append_assoc, List.cons_append] at e
      obtain ⟨rfl, rfl, rfl⟩ := ih a1 (by simp [GapChar]) (by simp [GapChar]) e
      have e2 := List.append_cancel_left e
      simp only [List.cons.injEq, true_and] at e2
      obtain ⟨rfl, rfl⟩ := ih2 a2 e2
      exact ⟨rfl, rfl⟩
  · intro a b k b' c s v d h1 h2 h3 h4 h5 h6 ih m' k' v' p q x y h' hp hq e
    cases h' with
    | mk a1 a2 a3 a4 a5 a6 =>
      simp only [List.append_assoc, List.cons_append] at e
      obtain ⟨rfl, _, e2⟩ := gap_unique h1 a1 (by simp [GapChar]) (by simp [GapChar]) e
      obtain ⟨rfl, rfl⟩ := chars_unique h2 a2 e2
      have e3 := List.append_cancel_left e2
      simp only [List.cons.injEq, true_and] at e3
      obtain ⟨rfl, _, e4⟩ := gap_unique h3 a3 (by simp [GapChar]) (by simp [GapChar]) e3
      obtain ⟨rfl, e5⟩ := gap_text h4 a4 h5 a5 e4
      obtain ⟨rfl, rfl⟩ := ih a5 e5
      obtain ⟨rfl, _⟩ := gap_unique h6 a6 hp hq (List.append_cancel_left e5)
      exact ⟨rfl, rfl, rfl⟩

end Gherkin
