import Verif.Escape
import Verif.Spec.Unescape

/-! C35: escaping is lossless. -/

namespace Gherkin

open Escape

theorem hexVal_digit (n : Nat) (h : n < 16) : hexVal (hexDigit n) = some n := by
  have : ∀ n : Fin 16, hexVal (hexDigit n.val) = some n.val := by decide
  exact this ⟨n, h⟩

theorem hex_length (w n : Nat) : (hex w n).length = w := by
  induction w generalizing n with
  | zero => rfl
  | succ w ih => simp [hex, ih]

theorem hexNum_hex (w n : Nat) (h : n < 16 ^ w) : hexNum (hex w n) = some n := by
  induction w generalizing n with
  | zero => have : n = 0 := by simpa using h
            subst this; rfl
  | succ w ih =>
    have h1 : n / 16 < 16 ^ w := by
      rw [Nat.div_lt_iff_lt_mul (by decide)]
      rw [Nat.pow_succ] at h; exact h
    have := ih _ h1
    unfold hexNum at this ⊢
    rw [hex, List.foldlM_append, this]
    simp only [Option.bind_eq_bind, Option.bind_some, List.foldlM_cons, List.foldlM_nil]
    rw [hexVal_digit _ (Nat.mod_lt _ (by decide))]
    simp
    omega

theorem readHex_hex {w n : Nat} (c : Char) (hc : c.toNat = n) (h : n < 16 ^ w) (s : Str) : readHex w (hex w n ++ s) = some c := by
  unfold readHex
  have : (hex w n ++ s).take w = hex w n := by
    have := List.take_left (l₁ := hex w n) (l₂ := s)
    rwa [hex_length] at this
  rw [this, if_pos (hex_length w n), hexNum_hex w n h, ← hc]
  simp

theorem unescapeGo_skip (a s : Str) : unescapeGo a.length (a ++ s) = unescapeGo 0 s := by
  induction a with
  | nil => rfl
  | cons c a ih => exact ih

theorem unescape_hex (k : Char) (w : Nat) (hk : (k = 'x' ∧ w = 2) ∨ (k = 'u' ∧ w = 4) ∨ (k = 'U' ∧ w = 8)) (c : Char)
    (h : c.toNat < 16 ^ w) (s : Str) : unescape ('\\' :: k :: (hex w c.toNat ++ s)) = c :: unescape s := by
  have hr := readHex_hex c rfl h s
  have hs := unescapeGo_skip (k :: hex w c.toNat) s
  rw [List.length_cons, hex_length] at hs
  unfold unescape
  rw [unescapeGo, if_pos rfl, if_neg (by simp)]
  rcases hk with ⟨rfl, rfl⟩ | ⟨rfl, rfl⟩ | ⟨rfl, rfl⟩
  all_goals
    rw [readEscape]
    simp only [Char.reduceEq, if_false, if_true, hr, Option.getD_some, Option.isSome_some]
    congr 1

/-- A character that stands for itself after a backslash. -/
def Literal (c : Char) : Prop := c ∉ py"nrtxuU"

theorem unescape_literal {c : Char} (h : Literal c) (s : Str) : unescape ('\\' :: c :: s) = c :: unescape s := by
  unfold Literal at h
  simp only [List.mem_cons, List.not_mem_nil, or_false, not_or] at h
  unfold unescape
  rw [unescapeGo, if_pos rfl, if_neg (by simp), readEscape]
  simp only [h, if_false]
  rfl

theorem unescape_plain {c : Char} (h : c ≠ '\\') (s : Str) : unescape (c :: s) = c :: unescape s := by
  unfold unescape
  rw [unescapeGo, if_neg h]

/-- What one character becomes, before white space is treated. -/
def chunk (printable : Char → Bool) (q c : Char) : Str := (reprChar printable q c).flatMap fun x => if x = '=' then ['\\', '='] else [x]

theorem replaceAll_eq (s : Str) : replaceAll ['='] ['\\', '='] s = s.flatMap fun x => if x = '=' then ['\\', '='] else [x] := by
  unfold replaceAll
  induction s with
  | nil => rfl
  | cons c s ih =>
    rw [replaceGo, List.flatMap_cons]
    by_cases hc : c = '='
    · subst hc; simp [ih]
    · have h1 : (List.isPrefixOf ['='] (c :: s)) = false := by
        simp [List.isPrefixOf]; exact fun h => hc h.symm
      rw [if_neg (by rw [h1]; simp), if_neg hc, ih]; rfl

theorem hexDigit_mem (n : Nat) (h : n < 16) : hexDigit n ∈ py"0123456789abcdef" := by
  have : ∀ n : Fin 16, hexDigit n.val ∈ py"0123456789abcdef" := by decide
  exact this ⟨n, h⟩

theorem hex_mem (w n : Nat) : ∀ c ∈ hex w n, c ∈ py"0123456789abcdef" := by
  induction w generalizing n with
  | zero => simp [hex]
  | succ w ih =>
    intro c hc
    rw [hex, List.mem_append, List.mem_singleton] at hc
    rcases hc with hc | rfl
    · exact ih _ c hc
    · exact hexDigit_mem _ (Nat.mod_lt _ (by decide))

theorem flatMap_noEq (s : Str) (h : '=' ∉ s) : (s.flatMap fun x => if x = '=' then ['\\', '='] else [x]) = s := by
  induction s with
  | nil => rfl
  | cons c s ih =>
    rw [List.flatMap_cons, ih (fun h' => h (by simp [h']))]
    have : c ≠ '=' := by rintro rfl; simp at h
    simp [this]

theorem not_mem_hex (w n : Nat) {x : Char} (h : x ∉ py"0123456789abcdef") : x ∉ hex w n := fun hx => h (hex_mem w n x hx)

/-- What a chunk is: white space kept as it is, or a text without white space that unescapes to the character. -/
theorem chunk_cases (printable : Char → Bool) (q : Char) (hq : q = '\'' ∨ q = '"') (c : Char) :
    (isSpace c = true ∧ chunk printable q c = [c]) ∨
    ((∀ x ∈ chunk printable q c, isSpace x = false) ∧ ∀ s, unescape (chunk printable q c ++ s) = c :: unescape s) := by
  have hsp : ∀ x ∈ py"0123456789abcdef", isSpace x = false := by decide
  have hhex : ∀ (k : Char) (w : Nat), (k = 'x' ∧ w = 2) ∨ (k = 'u' ∧ w = 4) ∨ (k = 'U' ∧ w = 8) → c.toNat < 16 ^ w →
      reprChar printable q c = '\\' :: k :: hex w c.toNat →
      ((∀ x ∈ chunk printable q c, isSpace x = false) ∧ ∀ s, unescape (chunk printable q c ++ s) = c :: unescape s) := by
    intro k w hk hw hr
    have hch : chunk printable q c = '\\' :: k :: hex w c.toNat := by
      rw [chunk, hr, flatMap_noEq]
      simp only [List.mem_cons, not_or]
      refine ⟨by decide, ?_, not_mem_hex _ _ (by decide)⟩
      rcases hk with ⟨rfl, _⟩ | ⟨rfl, _⟩ | ⟨rfl, _⟩ <;> decide
    rw [hch]
    refine ⟨?_, fun s => unescape_hex k w hk c hw s⟩
    intro x hx
    rcases List.mem_cons.1 hx with rfl | hx
    · rfl
    · rcases List.mem_cons.1 hx with rfl | hx
      · rcases hk with ⟨rfl, _⟩ | ⟨rfl, _⟩ | ⟨rfl, _⟩ <;> rfl
      · exact hsp x (hex_mem _ _ x hx)
  have hctl : ∀ (k : Char), reprChar printable q c = ['\\', k] → k ≠ '=' → isSpace k = false →
      (∀ s, unescape ('\\' :: k :: s) = c :: unescape s) →
      ((∀ x ∈ chunk printable q c, isSpace x = false) ∧ ∀ s, unescape (chunk printable q c ++ s) = c :: unescape s) := by
    intro k hr hk hks hu
    have hch : chunk printable q c = ['\\', k] := by
      rw [chunk, hr, flatMap_noEq]
      simp only [List.mem_cons, List.not_mem_nil, or_false, not_or]
      exact ⟨by decide, hk.symm⟩
    rw [hch]
    refine ⟨?_, hu⟩
    intro x hx
    simp only [List.mem_cons, List.not_mem_nil, or_false] at hx
    rcases hx with rfl | rfl
    · rfl
    · exact hks
  have hself : c ≠ '\\' → reprChar printable q c = [c] →
      (isSpace c = true ∧ chunk printable q c = [c]) ∨
      ((∀ x ∈ chunk printable q c, isSpace x = false) ∧ ∀ s, unescape (chunk printable q c ++ s) = c :: unescape s) := by
    intro hb hr
    by_cases he : c = '='
    · subst he
      right
      have hch : chunk printable q '=' = ['\\', '='] := by rw [chunk, hr]; rfl
      rw [hch]
      exact ⟨by decide, fun s => unescape_literal (by unfold Literal; decide) s⟩
    · have hch : chunk printable q c = [c] := by
        rw [chunk, hr, flatMap_noEq]; simpa using fun h => he h.symm
      by_cases hs : isSpace c = true
      · exact .inl ⟨hs, hch⟩
      · right
        rw [hch]
        exact ⟨by simpa using hs, fun s => unescape_plain hb s⟩
  by_cases h1 : c = q ∨ c = '\\'
  · right
    refine hctl c (by rw [reprChar, if_pos h1]) ?_ ?_ (unescape_literal ?_)
    · rcases h1 with rfl | rfl
      · rcases hq with rfl | rfl <;> decide
      · decide
    · rcases h1 with rfl | rfl
      · rcases hq with rfl | rfl <;> rfl
      · rfl
    · unfold Literal
      rcases h1 with rfl | rfl
      · rcases hq with rfl | rfl <;> decide
      · decide
  rw [not_or] at h1
  have h0 : ¬ (c = q ∨ c = '\\') := by simp [h1]
  by_cases h2 : c = '\t'
  · right; subst h2
    exact hctl 't' (by rw [reprChar, if_neg h0]; rfl) (by decide) rfl (fun s => rfl)
  by_cases h3 : c = '\n'
  · right; subst h3
    exact hctl 'n' (by rw [reprChar, if_neg h0, if_neg h2]; rfl) (by decide) rfl (fun s => rfl)
  by_cases h4 : c = '\r'
  · right; subst h4
    exact hctl 'r' (by rw [reprChar, if_neg h0, if_neg h2, if_neg h3]; rfl) (by decide) rfl (fun s => rfl)
  by_cases h5 : c.toNat < 32 ∨ c.toNat = 127
  · right
    exact hhex 'x' 2 (.inl ⟨rfl, rfl⟩) (by rcases h5 with h | h <;> simp <;> omega)
      (by rw [reprChar, if_neg h0, if_neg h2, if_neg h3, if_neg h4, if_pos h5])
  by_cases h6 : c.toNat < 127
  · exact hself h1.2 (by rw [reprChar, if_neg h0, if_neg h2, if_neg h3, if_neg h4, if_neg h5, if_pos h6])
  by_cases h7 : printable c = true
  · exact hself h1.2 (by rw [reprChar, if_neg h0, if_neg h2, if_neg h3, if_neg h4, if_neg h5, if_neg h6, if_pos h7])
  by_cases h8 : c.toNat ≤ 0xff
  · right
    exact hhex 'x' 2 (.inl ⟨rfl, rfl⟩) (by simp; omega)
      (by rw [reprChar, if_neg h0, if_neg h2, if_neg h3, if_neg h4, if_neg h5, if_neg h6, if_neg h7, if_pos h8])
  by_cases h9 : c.toNat ≤ 0xffff
  · right
    exact hhex 'u' 4 (.inr (.inl ⟨rfl, rfl⟩)) (by simp; omega)
      (by rw [reprChar, if_neg h0, if_neg h2, if_neg h3, if_neg h4, if_neg h5, if_neg h6, if_neg h7, if_neg h8, if_pos h9])
  · right
    have : c.toNat < 16 ^ 8 := by
      have := c.toNat_val ▸ c.val.toNat_lt
      simp; omega
    exact hhex 'U' 8 (.inr (.inr ⟨rfl, rfl⟩)) this
      (by rw [reprChar, if_neg h0, if_neg h2, if_neg h3, if_neg h4, if_neg h5, if_neg h6, if_neg h7, if_neg h8, if_neg h9])

theorem escapeWhitespace_noSpace (b : Bool) (a s : Str) (ha : ∀ x ∈ a, isSpace x = false) (hne : a ≠ []) :
    escapeWhitespace b (a ++ s) = a ++ escapeWhitespace false s := by
  induction a generalizing b with
  | nil => exact absurd rfl hne
  | cons c a ih =>
    have hc := ha c (by simp)
    rw [List.cons_append, escapeWhitespace]
    simp only [hc, Bool.false_eq_true, if_false]
    cases a with
    | nil => rfl
    | cons d a => rw [ih false (fun x hx => ha x (by simp [hx])) (by simp)]; rfl

theorem space_literal {c : Char} (h : isSpace c = true) : Literal c ∧ c ≠ '\\' := by
  have key : ∀ x ∈ py"nrtxuU\\", isSpace x = false := by decide
  constructor
  · intro hm
    have hm' : c ∈ py"nrtxuU\\" := by
      revert hm
      simp only [List.mem_cons, List.not_mem_nil, or_false]
      rintro (h | h | h | h | h | h) <;> simp [h]
    rw [key c hm'] at h
    cases h
  · rintro rfl
    exact absurd h (by decide)

theorem unescape_chunks (printable : Char → Bool) (q : Char) (hq : q = '\'' ∨ q = '"') (s : Str) (b : Bool) :
    unescape (escapeWhitespace b (s.flatMap (chunk printable q))) = s := by
  induction s generalizing b with
  | nil => rfl
  | cons c s ih =>
    rw [List.flatMap_cons]
    rcases chunk_cases printable q hq c with ⟨hs, hc⟩ | ⟨hs, hu⟩
    · rw [hc, List.singleton_append, escapeWhitespace]
      simp only [hs, if_true]
      cases b with
      | false =>
        rw [if_neg (by simp), unescape_plain (space_literal hs).2, ih]
      | true =>
        rw [if_pos rfl, unescape_literal (space_literal hs).1, ih]
    · have hne : chunk printable q c ≠ [] := by
        intro h
        have := hu []
        rw [h] at this
        simp [unescape, unescapeGo] at this
      rw [escapeWhitespace_noSpace _ _ _ hs hne, hu, ih]

/-- C35: Robot Framework's unescaping undoes `escape`, for every text and whatever `str.isprintable` says. -/
theorem C35_unescape_escape (printable : Char → Bool) (item : Str) : unescape (escape printable item) = item := by
  unfold escape
  split
  · rename_i h
    simp only [controlWords, List.mem_cons, List.not_mem_nil, or_false] at h
    rcases h with rfl | rfl | rfl <;> rfl
  · rw [replaceAll_eq, reprBody, List.flatMap_assoc]
    refine unescape_chunks printable _ ?_ item false
    unfold quoteOf; split <;> simp

/-! Quotes, backslashes, `=`, runs of blanks, line ends, other scripts. -/
example : escape (fun _ => false) py"a=\\  'b'\n" = py"a\\=\\\\ \\ 'b'\\n" := by decide
example : escape (fun _ => false) py"\"é' \u2003😀" = py"\"\\xe9\\' \\u2003\\U0001f600" := by decide
example : escape (fun _ => true) py"ELSE IF" = py"\\ELSE IF" := by decide

end Gherkin
