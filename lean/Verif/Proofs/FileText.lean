import Verif.FileText
import Verif.Spec.FileText
import Verif.Props.LineEnds

namespace Gherkin

theorem decode_iff {bytes : ByteArray} {t : Str} : decodeUtf8 bytes = some t ↔ bytes = t.utf8Encode := by
  constructor
  · intro h
    unfold decodeUtf8 at h
    cases hd : bytes.utf8Decode? with
    | none => rw [hd] at h; simp at h
    | some a =>
      rw [hd] at h
      simp only [Option.map_some, Option.some.injEq] at h
      have h1 : (bytes.utf8Decode?).isSome := by rw [hd]; rfl
      obtain ⟨l, rfl⟩ := ByteArray.isSome_utf8Decode?_iff.1 h1
      rw [List.utf8Decode?_utf8Encode] at hd
      simp only [Option.some.injEq] at hd
      subst hd
      simp at h
      rw [h]
  · rintro rfl
    simp [decodeUtf8]

theorem decode_none {bytes : ByteArray} : decodeUtf8 bytes = none ↔ NotUtf8 bytes := by
  constructor
  · intro h t ht
    rw [decode_iff.2 ht] at h
    simp at h
  · intro h
    cases hd : decodeUtf8 bytes with
    | none => rfl
    | some t => exact absurd (decode_iff.1 hd) (h t)

theorem infix_tail {p : Str} {c : Char} {s : Str} (h : ¬ p <:+: c :: s) : ¬ p <:+: s := fun h' => h (h'.trans (List.suffix_cons c s).isInfix)

/-- Replacing `\r\n` undoes the Windows line ends. -/
theorem replace_ends {t body : Str} (h : EndsAs t body) (ht : ¬ ['\r', '\n'] <:+: t) : replaceAll ['\r', '\n'] ['\n'] body = t := by
  unfold replaceAll
  induction h with
  | nil => rfl
  | @char c s t hc he ih =>
    have hn : List.isPrefixOf ['\r', '\n'] (c :: t) = false := by
      cases hp : List.isPrefixOf ['\r', '\n'] (c :: t) with
      | false => rfl
      | true =>
        exfalso
        have := List.isPrefixOf_iff_prefix.1 hp
        obtain ⟨r, hr⟩ := this
        simp only [List.cons_append, List.nil_append, List.cons.injEq] at hr
        obtain ⟨rfl, rfl⟩ := hr
        cases he with
        | char h _ => exact absurd rfl h
        | unix _ => exact ht ⟨[], _, rfl⟩
    rw [replaceGo, hn, if_neg (by simp), ih (infix_tail ht)]
  | @unix s t he ih =>
    rw [replaceGo, if_neg (by simp [List.isPrefixOf]), ih (infix_tail ht)]
  | @windows s t he ih =>
    rw [replaceGo, if_pos (by simp [List.isPrefixOf])]
    simp only [List.length_cons, List.length_nil, Nat.reduceAdd, Nat.add_one_sub_one, replaceGo, List.cons_append, List.nil_append]
    rw [ih (infix_tail ht)]

theorem bom_eq : bom = '\uFEFF' := rfl

theorem ends_head {t body : Str} (h : EndsAs t body) (hb : t.head? ≠ some bom) : body.head? ≠ some bom := by
  cases h with
  | nil => simp
  | char _ _ => simpa using hb
  | unix _ => simp [bom_eq]
  | windows _ => simp [bom_eq]

theorem robotText_saved {t : Str} (ht : PlainText t) {bytes : ByteArray} (h : SavedAs t bytes) : robotText bytes = some t := by
  obtain ⟨body, he, h⟩ := h
  have hr := replace_ends he ht.1
  have hd := ends_head he ht.2
  unfold robotText
  rcases h with h | h
  · rw [decode_iff.2 h]
    have : startsWith body [bom] = false := by
      cases body with
      | nil => rfl
      | cons c cs =>
        simp only [List.head?_cons, ne_eq, Option.some.injEq] at hd
        simp only [startsWith, List.isPrefixOf, Bool.and_true, beq_eq_false_iff_ne, ne_eq]
        exact fun h => hd h.symm
    simp [this, hr]
  · rw [decode_iff.2 h]
    have : startsWith ('\uFEFF' :: body) [bom] = true := by simp [startsWith, List.isPrefixOf, bom_eq]
    simp [this, hr]

theorem noLone_tail {c : Char} {s : Str} (h : NoLoneCr (c :: s)) : NoLoneCr s := fun a b hab => h (c :: a) b (by rw [hab]; rfl)

/-- Universal newlines change the line ends only, if no `\r` stands alone. -/
theorem universal_ends {t : Str} (h : NoLoneCr t) : EndsAs (universal t) t := by
  fun_induction universal t with
  | case1 => exact .nil
  | case2 s ih => exact .windows (ih (noLone_tail (noLone_tail h)))
  | case3 s hs _ =>
    have := h [] s rfl
    cases s with
    | nil => simp at this
    | cons d ds =>
      simp at this
      subst this
      exact absurd rfl (hs ds)
  | case4 c s h1 h2 ih =>
    by_cases hc : c = '\n'
    · subst hc; exact .unix (ih (noLone_tail h))
    · exact .char hc (ih (noLone_tail h))

theorem ends_lines {t body : Str} (h : EndsAs t body) : (splitLines body).map rstripEol = (splitLines t).map rstripEol := by
  suffices key : ∀ (pre : Str), '\n' ∉ pre → (splitLines (pre ++ body)).map rstripEol = (splitLines (pre ++ t)).map rstripEol from key [] (by simp)
  induction h with
  | nil => intros; rfl
  | @char c s t hc he ih =>
    intro pre hp
    have := ih (pre ++ [c]) (by simp [hp, Ne.symm hc])
    simpa using this
  | @unix s t he ih =>
    intro pre hp
    have e : ∀ x : Str, pre ++ '\n' :: x = pre ++ ['\n'] ++ x := by simp
    rw [e t, e s, splitLines_body hp, splitLines_body hp, List.map_cons, List.map_cons]
    have := ih [] (by simp)
    simp only [List.nil_append] at this
    rw [this]
  | @windows s t he ih =>
    intro pre hp
    have e : ∀ x : Str, pre ++ '\n' :: x = pre ++ ['\n'] ++ x := by simp
    have e' : pre ++ '\r' :: '\n' :: t = pre ++ ['\r', '\n'] ++ t := by simp
    rw [e, e', splitLines_body hp, splitLines_end hp (.inr rfl), List.map_cons, List.map_cons]
    have := ih [] (by simp)
    simp only [List.nil_append] at this
    rw [this, rstripEol_append _ (lineEnd_eol (.inr (.inl rfl))), rstripEol_append _ (lineEnd_eol (.inr (.inr rfl)))]

end Gherkin
