import Verif.Spec.PyLit
import Verif.Props.Escape
import Verif.Robot

/-! Python's `repr` of a step argument denotes it. -/

namespace Gherkin

open PyLit Escape

theorem chars_repr (printable : Char → Bool) (q : Char) (hq : q = '\'' ∨ q = '"') (c : Char) {s v : Str} (h : Chars q s v) :
    Chars q (reprChar printable q c ++ s) (c :: v) := by
  have hhex : ∀ k w, (k, w) ∈ [('x', 2), ('u', 4), ('U', 8)] → c.toNat < 16 ^ w → Chars q ('\\' :: k :: hex w c.toNat ++ s) (c :: v) :=
    fun k w hk hw => .hex hk (hex_length w _) (hexNum_hex w _ hw) h
  unfold reprChar
  split
  · rename_i hc
    refine .escape ?_ h
    rcases hc with rfl | rfl
    · rcases hq with rfl | rfl <;> decide
    · decide
  rename_i h0
  rw [not_or] at h0
  split
  · rename_i hc; subst hc; exact .escape (by decide) h
  split
  · rename_i hc; subst hc; exact .escape (by decide) h
  split
  · rename_i hc; subst hc; exact .escape (by decide) h
  rename_i hn hr
  split
  · rename_i hc; exact hhex _ _ (by simp) (by rcases hc with hc | hc <;> simp <;> omega)
  split
  · exact .plain h0.1 h0.2 hn hr h
  split
  · exact .plain h0.1 h0.2 hn hr h
  split
  · exact hhex _ _ (by simp) (by simp; omega)
  split
  · exact hhex _ _ (by simp) (by simp; omega)
  · refine hhex _ _ (by simp) ?_
    have := c.toNat_val ▸ c.val.toNat_lt
    simp; omega

theorem strLit_repr (printable : Char → Bool) (s : Str) : StrLit (repr printable s) s := by
  have hq : quoteOf s = '\'' ∨ quoteOf s = '"' := by unfold quoteOf; split <;> simp
  refine ⟨quoteOf s, reprBody printable s, hq, rfl, ?_⟩
  unfold reprBody
  generalize quoteOf s = q at hq
  induction s with
  | nil => exact .nil
  | cons c s ih => exact chars_repr printable q hq c ih

/-- A string literal without escapes. -/
theorem strLit_plain (b : Str) (h : ∀ c ∈ b, c ≠ '\'' ∧ c ≠ '\\' ∧ c ≠ '\n' ∧ c ≠ '\r') : StrLit ('\'' :: (b ++ ['\''])) b := by
  refine ⟨'\'', b, .inl rfl, rfl, ?_⟩
  induction b with
  | nil => exact .nil
  | cons c b ih =>
    obtain ⟨h1, h2, h3, h4⟩ := h c (by simp)
    exact .plain h1 h2 h3 h4 (ih fun c hc => h c (by simp [hc]))

theorem forall₂_map_same {α β γ : Type} {R : β → γ → Prop} {f : α → β} {g : α → γ} (l : List α) (h : ∀ a, R (f a) (g a)) :
    List.Forall₂ R (l.map f) (l.map g) := by
  induction l with
  | nil => exact .nil
  | cons a l ih => exact .cons (h a) ih

theorem dict1 {k e : Str} {v : Value} {key : Str} (hk : StrLit k key) (he : Denotes e v) :
    Denotes (py"{" ++ (k ++ py": " ++ e) ++ py"}") (.dict [(key, v)]) := by
  have := Denotes.dict (by simp) (.cons hk .nil) (.cons he .nil)
  simpa [joinStr] using this

theorem argRepr_denotes (printable : Char → Bool) (a : PArg) : Denotes (Robot.argRepr printable a) (ofArg a) := by
  cases a with
  | table rows =>
    have hc : ∀ v, Denotes (py"{'value': " ++ repr printable v ++ py"}") (.dict [(py"value", .str v)]) := by
      intro v
      have := dict1 (strLit_plain py"value" (by decide)) (.str (strLit_repr printable v))
      simpa using this
    have hr : ∀ cells : List Str, Denotes (py"{'cells': [" ++ joinStr py", " (cells.map fun v => py"{'value': " ++ repr printable v ++ py"}") ++ py"]}")
        (.dict [(py"cells", .list (cells.map fun v => .dict [(py"value", .str v)]))]) := by
      intro cells
      have := dict1 (strLit_plain py"cells" (by decide)) (.list (forall₂_map_same cells hc))
      simpa using this
    have := dict1 (strLit_plain py"rows" (by decide)) (.list (forall₂_map_same rows hr))
    simpa [Robot.argRepr, ofArg] using this
  | doc content mt =>
    cases mt with
    | none =>
      have := dict1 (strLit_plain py"content" (by decide)) (.str (strLit_repr printable content))
      simpa [Robot.argRepr, ofArg] using this
    | some mt =>
      have := Denotes.dict (by simp) (.cons (strLit_plain py"content" (by decide)) (.cons (strLit_plain py"mediaType" (by decide)) .nil))
        (.cons (.str (strLit_repr printable content)) (.cons (.str (strLit_repr printable mt)) .nil))
      simpa [Robot.argRepr, ofArg, joinStr] using this

theorem callArgs_passed (printable : Char → Bool) (a : Option PArg) : Passed a (Robot.callArgs printable a) := by
  cases a with
  | none => rfl
  | some a => exact ⟨_, rfl, by rw [C35_unescape_escape]; exact argRepr_denotes printable a⟩

end Gherkin
