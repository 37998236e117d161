import Verif.Spec.Blocks
import Verif.Proofs.Strip

/-! Writing the lines of doc strings and reading them back. -/

namespace Gherkin

theorem replaceGo_skip (old new : Str) : ∀ (k : Nat) (a b : Str), a.length = k → replaceGo old new k (a ++ b) = replaceGo old new 0 b
  | 0, [], _, _ => rfl
  | 0, _ :: _, _, h => by simp at h
  | _ + 1, [], _, h => by simp at h
  | k + 1, c :: a, b, h => by
    simp only [List.cons_append, replaceGo]
    exact replaceGo_skip old new k a b (by simpa using h)

theorem replaceAll_hit {old new b : Str} (h : old ≠ []) : replaceAll old new (old ++ b) = new ++ replaceAll old new b := by
  cases old with
  | nil => exact absurd rfl h
  | cons c a =>
    have : (c :: a).isPrefixOf (c :: (a ++ b)) = true := by
      rw [List.isPrefixOf_iff_prefix]; exact ⟨b, rfl⟩
    simp only [replaceAll, List.cons_append, replaceGo, this, if_true, List.length_cons, Nat.add_sub_cancel]
    rw [replaceGo_skip _ _ _ _ _ rfl]

theorem replaceAll_miss {old new : Str} {c : Char} {cs : Str} (h : old.isPrefixOf (c :: cs) = false) :
    replaceAll old new (c :: cs) = c :: replaceAll old new cs := by
  simp [replaceAll, replaceGo, h]

theorem replaceAll_nil (old new : Str) : replaceAll old new [] = [] := by simp [replaceAll, replaceGo]

section
variable {q : Char}

/-- Three times the same character, and the same with backslashes. -/
abbrev tri (q : Char) : Str := [q, q, q]
abbrev esc (q : Char) : Str := ['\\', q, '\\', q, '\\', q]

theorem enc_cases (s : Str) : (∃ b, s = tri q ++ b ∧ replaceAll (tri q) (esc q) s = esc q ++ replaceAll (tri q) (esc q) b) ∨
    (¬ tri q <+: s ∧ (s = [] ∧ replaceAll (tri q) (esc q) s = [] ∨
      ∃ c b, s = c :: b ∧ replaceAll (tri q) (esc q) s = c :: replaceAll (tri q) (esc q) b)) := by
  by_cases h : tri q <+: s
  · obtain ⟨b, rfl⟩ := h
    exact .inl ⟨b, rfl, replaceAll_hit (by simp)⟩
  · refine .inr ⟨h, ?_⟩
    cases s with
    | nil => exact .inl ⟨rfl, replaceAll_nil _ _⟩
    | cons c b =>
      refine .inr ⟨c, b, rfl, replaceAll_miss ?_⟩
      cases h' : (tri q).isPrefixOf (c :: b) with
      | false => rfl
      | true => exact absurd (List.isPrefixOf_iff_prefix.1 h') h

/-- An encoded string that begins with the character comes from one that does. -/
theorem enc_q (hq : q ≠ '\\') {s r : Str} (h : replaceAll (tri q) (esc q) s = q :: r) :
    ¬ tri q <+: s ∧ ∃ b, s = q :: b ∧ replaceAll (tri q) (esc q) b = r := by
  rcases enc_cases (q := q) s with ⟨b, rfl, e⟩ | ⟨hn, ⟨_, e⟩ | ⟨c, b, rfl, e⟩⟩
  · rw [e] at h; simp at h; exact absurd h.1.symm hq
  · rw [e] at h; simp at h
  · rw [e] at h; simp at h; obtain ⟨rfl, h⟩ := h; exact ⟨hn, b, rfl, h⟩

theorem enc_back {s r : Str} (h : replaceAll (tri q) (esc q) s = '\\' :: r) :
    (∃ b, s = tri q ++ b) ∨ ∃ b, s = '\\' :: b ∧ replaceAll (tri q) (esc q) b = r := by
  rcases enc_cases (q := q) s with ⟨b, rfl, e⟩ | ⟨hn, ⟨_, e⟩ | ⟨c, b, rfl, e⟩⟩
  · exact .inl ⟨b, rfl⟩
  · rw [e] at h; simp at h
  · rw [e] at h; simp at h; obtain ⟨rfl, h⟩ := h; exact .inr ⟨b, rfl, h⟩

/-- Reading an encoded string back. -/
theorem dec_enc (hq : q ≠ '\\') : ∀ (n : Nat) (s : Str), s.length = n → (∀ a b, s = a ++ esc q ++ b → [q, q] <+: b) →
    replaceAll (esc q) (tri q) (replaceAll (tri q) (esc q) s) = s := by
  intro n
  induction n using Nat.strongRecOn with
  | ind n ih =>
    intro s hn hs
    rcases enc_cases (q := q) s with ⟨b, rfl, e⟩ | ⟨hno, ⟨rfl, e⟩ | ⟨c, b, rfl, e⟩⟩
    · rw [e, replaceAll_hit (by simp)]
      rw [ih b.length (by simp at hn; omega) b rfl (fun x y h => hs (tri q ++ x) y (by rw [h]; simp))]
    · rw [e, replaceAll_nil]
    · have hb : ∀ x y, b = x ++ esc q ++ y → [q, q] <+: y := fun x y h => hs (c :: x) y (by rw [h]; simp)
      rw [e, replaceAll_miss, ih b.length (by simp at hn; omega) b rfl hb]
      cases hp : (esc q).isPrefixOf (c :: replaceAll (tri q) (esc q) b) with
      | false => rfl
      | true =>
        exfalso
        obtain ⟨r, hr⟩ := List.isPrefixOf_iff_prefix.1 hp
        simp only [List.cons_append, List.nil_append, List.cons.injEq] at hr
        obtain ⟨rfl, hr⟩ := hr
        obtain ⟨n1, b1, rfl, e1⟩ := enc_q hq hr.symm
        rcases enc_back e1 with ⟨b2, rfl⟩ | ⟨b2, rfl, e2⟩
        · exact n1 ⟨q :: b2, rfl⟩
        · obtain ⟨n2, b3, rfl, e3⟩ := enc_q hq e2
          rcases enc_back e3 with ⟨b4, rfl⟩ | ⟨b4, rfl, e4⟩
          · exact n2 ⟨q :: b4, rfl⟩
          · obtain ⟨n3, b5, rfl, e5⟩ := enc_q hq e4
            obtain ⟨z, hz⟩ := hs [] b5 rfl
            exact n3 ⟨z, by rw [← hz]; rfl⟩

theorem dec_cases (s : Str) : (∃ b, s = esc q ++ b ∧ replaceAll (esc q) (tri q) s = tri q ++ replaceAll (esc q) (tri q) b) ∨
    (¬ esc q <+: s ∧ (s = [] ∧ replaceAll (esc q) (tri q) s = [] ∨
      ∃ c b, s = c :: b ∧ replaceAll (esc q) (tri q) s = c :: replaceAll (esc q) (tri q) b)) := by
  by_cases h : esc q <+: s
  · obtain ⟨b, rfl⟩ := h
    exact .inl ⟨b, rfl, replaceAll_hit (by simp)⟩
  · refine .inr ⟨h, ?_⟩
    cases s with
    | nil => exact .inl ⟨rfl, replaceAll_nil _ _⟩
    | cons c b =>
      refine .inr ⟨c, b, rfl, replaceAll_miss ?_⟩
      cases h' : (esc q).isPrefixOf (c :: b) with
      | false => rfl
      | true => exact absurd (List.isPrefixOf_iff_prefix.1 h') h

theorem dec_back (hq : q ≠ '\\') {s r : Str} (h : replaceAll (esc q) (tri q) s = '\\' :: r) : ∃ b, s = '\\' :: b ∧ replaceAll (esc q) (tri q) b = r := by
  rcases dec_cases (q := q) s with ⟨b, rfl, e⟩ | ⟨_, ⟨_, e⟩ | ⟨c, b, rfl, e⟩⟩
  · rw [e] at h; simp at h; exact absurd h.1 hq
  · rw [e] at h; simp at h
  · rw [e] at h; simp at h; obtain ⟨rfl, h⟩ := h; exact ⟨b, rfl, h⟩

theorem dec_q {s r : Str} (h : replaceAll (esc q) (tri q) s = q :: r) :
    [q, q] <+: r ∨ ∃ b, s = q :: b ∧ replaceAll (esc q) (tri q) b = r := by
  rcases dec_cases (q := q) s with ⟨b, rfl, e⟩ | ⟨_, ⟨_, e⟩ | ⟨c, b, rfl, e⟩⟩
  · rw [e] at h; simp at h; exact .inl ⟨_, h⟩
  · rw [e] at h; simp at h
  · rw [e] at h; simp at h; obtain ⟨rfl, h⟩ := h; exact .inr ⟨b, rfl, h⟩

/-- What was read can be written. -/
theorem dec_escapable (hq : q ≠ '\\') : ∀ (n : Nat) (s : Str), s.length = n → ∀ a b, replaceAll (esc q) (tri q) s = a ++ esc q ++ b → [q, q] <+: b := by
  intro n
  induction n using Nat.strongRecOn with
  | ind n ih =>
    intro s hn a b h
    rcases dec_cases (q := q) s with ⟨s1, rfl, e⟩ | ⟨hno, ⟨rfl, e⟩ | ⟨c, s1, rfl, e⟩⟩
    · rw [e] at h
      have ih := ih s1.length (by simp at hn; omega) s1 rfl
      match a, h with
      | [], h => simp at h; exact absurd h.1 hq
      | [_], h => simp at h; exact absurd h.2.1 hq
      | [_, _], h => simp at h; exact absurd h.2.2.1 hq
      | _ :: _ :: _ :: a, h =>
        simp only [List.cons_append, List.nil_append, List.cons.injEq] at h
        exact ih a b h.2.2.2
    · rw [e] at h; simp at h
    · rw [e] at h
      cases a with
      | cons x a =>
        simp only [List.cons_append, List.cons.injEq] at h
        exact ih s1.length (by simp at hn; omega) s1 rfl a b h.2
      | nil =>
        simp only [List.nil_append, List.cons_append, List.cons.injEq] at h
        obtain ⟨rfl, h⟩ := h
        rcases dec_q h with ⟨z, hz⟩ | ⟨b1, rfl, h1⟩
        · simp at hz; exact absurd hz.1 hq
        · obtain ⟨b2, rfl, h2⟩ := dec_back hq h1
          rcases dec_q h2 with ⟨z, hz⟩ | ⟨b3, rfl, h3⟩
          · simp at hz; exact absurd hz.1 hq
          · obtain ⟨b4, rfl, h4⟩ := dec_back hq h3
            rcases dec_q h4 with hz | ⟨b5, rfl, h5⟩
            · exact hz
            · exact absurd ⟨b5, rfl⟩ hno

/-- An encoded string does not begin with the delimiter. -/
theorem enc_start (hq : q ≠ '\\') (s : Str) : ¬ tri q <+: replaceAll (tri q) (esc q) s := by
  rintro ⟨r, hr⟩
  obtain ⟨n1, b1, rfl, e1⟩ := enc_q hq hr.symm
  obtain ⟨n2, b2, rfl, e2⟩ := enc_q hq e1
  obtain ⟨n3, b3, rfl, e3⟩ := enc_q hq e2
  exact n1 ⟨b3, rfl⟩

theorem enc_space (hq : isSpace q = false) (s : Str) : lstrip (replaceAll (tri q) (esc q) s) = replaceAll (tri q) (esc q) (lstrip s) := by
  induction s with
  | nil => simp [lstrip, lstripBy, replaceAll_nil]
  | cons c cs ih =>
    by_cases hc : isSpace c = true
    · have hm : (tri q).isPrefixOf (c :: cs) = false := by
        have : ¬ q = c := by rintro rfl; rw [hq] at hc; simp at hc
        simp [List.isPrefixOf, this]
      rw [replaceAll_miss hm]
      simp only [lstrip, lstripBy, List.dropWhile_cons, hc, if_true] at ih ⊢
      exact ih
    · have h1 : lstrip (c :: cs) = c :: cs := by simp [lstrip, lstripBy, hc]
      rw [h1]
      rcases enc_cases (q := q) (c :: cs) with ⟨b, hb, e⟩ | ⟨hno, ⟨hb, e⟩ | ⟨c', b, hb, e⟩⟩
      · rw [e]; simp [lstrip, lstripBy, show isSpace '\\' = false by decide]
      · simp at hb
      · simp at hb; obtain ⟨rfl, rfl⟩ := hb
        rw [e]; simp [lstrip, lstripBy, hc]

/-- Something that shares no character with what is replaced stays. -/
theorem replaceAll_append {old new e : Str} (ho : old ≠ []) (he : ∀ c ∈ e, c ∉ old) : ∀ (n : Nat) (x : Str), x.length = n →
    replaceAll old new (x ++ e) = replaceAll old new x ++ e := by
  have hself : ∀ e : Str, (∀ c ∈ e, c ∉ old) → replaceAll old new e = e := by
    intro e
    induction e with
    | nil => intro _; exact replaceAll_nil _ _
    | cons c cs ih =>
      intro he
      rw [replaceAll_miss, ih fun d hd => he d (by simp [hd])]
      cases old with
      | nil => exact absurd rfl ho
      | cons d ds =>
        have : ¬ d = c := by rintro rfl; exact he d (by simp) (by simp)
        simp [List.isPrefixOf, this]
  intro n
  induction n using Nat.strongRecOn with
  | ind n ih =>
    intro x hn
    by_cases h : old <+: x
    · obtain ⟨b, rfl⟩ := h
      rw [List.append_assoc, replaceAll_hit ho, replaceAll_hit ho, ih b.length _ b rfl, List.append_assoc]
      have : 0 < old.length := by cases old <;> simp_all
      simp at hn; omega
    · have hne : ¬ old <+: x ++ e := by
        rintro ⟨r, hr⟩
        rcases List.append_eq_append_iff.1 hr with ⟨a, rfl, _⟩ | ⟨a, h1, h2⟩
        · exact h ⟨a, rfl⟩
        · cases a with
          | nil => simp at h1; exact h ⟨[], by simp [h1]⟩
          | cons c a => exact he c (by rw [h2]; simp) (by rw [h1]; simp)
      cases x with
      | nil => rw [List.nil_append, hself e he, replaceAll_nil]; rfl
      | cons c cs =>
        have m1 : old.isPrefixOf (c :: (cs ++ e)) = false := by
          cases hp : old.isPrefixOf (c :: (cs ++ e)) with
          | false => rfl
          | true => exact absurd (List.isPrefixOf_iff_prefix.1 hp) hne
        have m2 : old.isPrefixOf (c :: cs) = false := by
          cases hp : old.isPrefixOf (c :: cs) with
          | false => rfl
          | true => exact absurd (List.isPrefixOf_iff_prefix.1 hp) h
        rw [List.cons_append, replaceAll_miss m1, replaceAll_miss m2, ih cs.length (by simp at hn; omega) cs rfl]
        rfl

end

theorem dropWhile_all {α : Type} {p : α → Bool} {l : List α} (h : ∀ x ∈ l, p x = true) : l.dropWhile p = [] := by
  induction l with
  | nil => rfl
  | cons x xs ih => rw [List.dropWhile_cons_of_pos (h x (by simp)), ih fun y hy => h y (by simp [hy])]

theorem outdent_all {pad x : Str} (h : ∀ c ∈ pad, isSpace c = true) : outdent pad.length (pad ++ x) = x := by
  induction pad with
  | nil => cases x <;> rfl
  | cons c cs ih =>
    simp only [List.length_cons, List.cons_append, outdent, h c (by simp), if_true]
    exact ih fun d hd => h d (by simp [hd])

theorem outdent_more {pad x : Str} (h : ∀ c ∈ pad, isSpace c = true) (k : Nat) : outdent (pad.length + k) (pad ++ x) = outdent k x := by
  induction pad with
  | nil => simp
  | cons c cs ih =>
    have : (c :: cs).length + k = (cs.length + k) + 1 := by simp; omega
    rw [this]
    simp only [List.cons_append, outdent, h c (by simp), if_true]
    exact ih fun d hd => h d (by simp [hd])

theorem outdent_head {x : Str} (h : ∀ c ∈ x.head?, isSpace c = false) (k : Nat) : outdent k x = x := by
  cases k with
  | zero => cases x <;> rfl
  | succ k =>
    cases x with
    | nil => rfl
    | cons c cs => simp [outdent, h c (by simp)]

theorem delim_cases {delim : Str} (h : delim ∈ docDelimiters) : ∃ q, delim = tri q ∧ escaped delim = esc q ∧ q ≠ '\\' ∧ isSpace q = false ∧
    q ≠ '\n' ∧ q ≠ '\r' := by
  simp [docDelimiters] at h
  rcases h with rfl | rfl
  · exact ⟨'"', rfl, rfl, by decide, by decide, by decide, by decide⟩
  · exact ⟨'`', rfl, rfl, by decide, by decide, by decide, by decide⟩

theorem enc_head {q : Char} {s : Str} (h : ∀ c ∈ s.head?, isSpace c = false) :
    ∀ c ∈ (replaceAll (tri q) (esc q) s).head?, isSpace c = false := by
  rcases enc_cases (q := q) s with ⟨b, hb, e⟩ | ⟨hno, ⟨hb, e⟩ | ⟨c', b, hb, e⟩⟩
  · rw [e]; simp; decide
  · rw [e]; simp
  · rw [e]; subst hb; simpa using h

theorem chomp_append {s eol : Str} (h1 : '\n' ∉ s) (h2 : s.getLast? ≠ some '\r') (he : ∀ c ∈ eol, isEol c = true) : chomp (s ++ eol) = s := by
  unfold chomp rstripEol rstripBy
  rw [List.reverse_append, List.dropWhile_append]
  have : List.dropWhile isEol eol.reverse = [] := by
    exact dropWhile_all fun c hc => he c (by simpa using hc)
  simp only [this, List.isEmpty_nil, if_true]
  cases hs : s.reverse with
  | nil => simp at hs; simp [hs]
  | cons c cs =>
    have hc : s.getLast? = some c := by rw [List.getLast?_eq_head?_reverse, hs]; rfl
    have : isEol c = false := by
      have h3 : c ∈ s := by rw [← List.mem_reverse, hs]; simp
      simp only [isEol, Bool.or_eq_false_iff, beq_eq_false_iff_ne]
      exact ⟨by rintro rfl; exact h2 hc, by rintro rfl; exact h1 h3⟩
    rw [List.dropWhile_cons_of_neg (by simp [this]), ← hs]; simp

/-- A written line reads as what was written. -/
theorem docLine_written {delim : Str} (hd : delim ∈ docDelimiters) {n : Nat} {s line : Str} (h : WritesDoc delim n s line) :
    docLine delim n line = s := by
  obtain ⟨q, rfl, hesc, hq, hsp, hn, hr⟩ := delim_cases hd
  obtain ⟨pad, eol, h1, h2, rfl, h3, h4, h5, h6⟩ := h
  simp only [Escapable, hesc] at h6
  simp only [docLine, writeDoc, hesc]
  have heol : ∀ c ∈ eol, isEol c = true ∧ c ∉ esc q := by
    intro c hc
    have : c = '\n' ∨ c = '\r' := by
      simp at h2; rcases h2 with rfl | rfl | rfl <;> simp at hc <;> (first | exact .inl hc | skip)
      rcases hc with h | h
      · exact .inr h
      · exact .inl h
    rcases this with rfl | rfl
    · exact ⟨rfl, by simp; exact fun h => hn h.symm⟩
    · exact ⟨rfl, by simp; exact fun h => hr h.symm⟩
  have main : chomp (replaceAll (esc q) (tri q) (replaceAll (tri q) (esc q) s ++ eol)) = s := by
    rw [replaceAll_append (by simp) (fun c hc => (heol c hc).2) _ _ rfl, dec_enc hq _ _ rfl h6]
    exact chomp_append h4 h5 fun c hc => (heol c hc).1
  rw [List.append_assoc]
  rcases h3 with rfl | ⟨h3, h7⟩
  · rw [outdent_all h1]; exact main
  · obtain ⟨k, rfl⟩ := Nat.exists_eq_add_of_lt h3
    rw [Nat.add_assoc, outdent_more h1]
    cases s with
    | nil =>
      rw [replaceAll_nil, List.nil_append]
      simp at h2
      rcases h2 with rfl | rfl | rfl
      · have : outdent (k + 1) ['\n'] = [] := by simp [outdent, show isSpace '\n' = true by decide]
        rw [this]; rfl
      · have : outdent (k + 1) ['\r', '\n'] = if k = 0 then ['\n'] else [] := by
          cases k with
          | zero => rfl
          | succ k => simp [outdent, show isSpace '\n' = true by decide, show isSpace '\r' = true by decide]
        rw [this]
        split
        · have e : (esc q).isPrefixOf ['\n'] = false := by simp [List.isPrefixOf]
          rw [replaceAll_miss e, replaceAll_nil]; decide
        · rw [replaceAll_nil]; decide
      · have : outdent (k + 1) [] = [] := rfl
        rw [this, replaceAll_nil]; decide
    | cons c cs =>
      rw [outdent_head]
      · exact main
      · have := enc_head (q := q) h7
        rcases enc_cases (q := q) (c :: cs) with ⟨b, hb, e⟩ | ⟨hno, ⟨hb, e⟩ | ⟨c', b, hb, e⟩⟩
        · rw [e] at this ⊢; simpa using this
        · simp at hb
        · rw [e] at this ⊢; simpa using this

/-- A written line does not close the doc string. -/
theorem written_not_delim {delim : Str} (hd : delim ∈ docDelimiters) {n : Nat} {s : Str} {l : Line} (h : WritesDoc delim n s l.text) :
    isDelim delim l = false := by
  obtain ⟨q, rfl, hesc, hq, hsp, hn, hr⟩ := delim_cases hd
  obtain ⟨pad, eol, h1, h2, h3, _⟩ := h
  cases hp : isDelim (tri q) l with
  | false => rfl
  | true =>
    exfalso
    have hp' := List.isPrefixOf_iff_prefix.1 hp
    have heol : ∀ c ∈ eol, c = '\n' ∨ c = '\r' := by
      intro c hc
      simp at h2; rcases h2 with rfl | rfl | rfl <;> simp at hc
      · exact .inl hc
      · exact hc.symm
    have e1 : lstrip l.text = lstrip (replaceAll (tri q) (esc q) s ++ eol) := by
      rw [h3, writeDoc, hesc]
      unfold lstrip lstripBy
      rw [List.append_assoc, List.dropWhile_append, dropWhile_all h1]
      simp
    have e2 : replaceAll (tri q) (esc q) s ++ eol = replaceAll (tri q) (esc q) (s ++ eol) := by
      rw [replaceAll_append (by simp) _ _ _ rfl]
      intro c hc; rcases heol c hc with rfl | rfl
      · simpa using fun h => hn h.symm
      · simpa using fun h => hr h.symm
    rw [e1, e2, enc_space hsp] at hp'
    exact enc_start hq _ hp'

/-- A text without the escaped delimiter can be written. -/
theorem escapable_of_not {delim s : Str} (h : ¬ escaped delim <:+: s) : Escapable delim s := by
  intro a b e
  exact absurd ⟨a, b, e.symm⟩ h

end Gherkin
