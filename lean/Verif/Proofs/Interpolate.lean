import Verif.Proofs.RxText
import Verif.Spec.Interpolate
import Verif.Proofs.Strip

/-! Interpolation of outline texts. -/

namespace Gherkin.Pickles

open Gherkin

theorem template_reescape (v : Str) : template (reescape v) = some v := by
  induction v with
  | nil => rfl
  | cons c v ih =>
    by_cases hc : c = '\\'
    · subst hc
      simp only [reescape, List.flatMap_cons, if_true, List.cons_append, List.nil_append]
      change template ('\\' :: '\\' :: reescape v) = _
      rw [template, ih]; rfl
    · simp only [reescape, List.flatMap_cons, hc, if_false, List.cons_append, List.nil_append]
      change template (c :: reescape v) = _
      rw [template.eq_4 _ _ (fun _ h => absurd h hc) (fun h => absurd h hc), ih]; rfl

/-- The header can be used as a pattern. -/
def readable (header : Str) : Bool := (Regex.read ('<' :: (header ++ ['>']))).isSome

theorem reSub_readable {h : Str} (hh : readable h = true) (eng : Engine) (v s : Str) :
    ∃ r, Regex.read ('<' :: (h ++ ['>'])) = some r ∧ reSub eng h (reescape v) s = .ok (r.sub (fun _ => v) s) := by
  obtain ⟨r, hr⟩ := Option.isSome_iff_exists.1 hh
  exact ⟨r, hr, by simp only [reSub, hr, template_reescape]⟩

theorem readable_plain {h : Str} (hh : h.any isMeta = false) : readable h = true := by
  have := Regex.header_regex hh [] []
  unfold readable
  cases hr : Regex.read ('<' :: (h ++ ['>'])) with
  | none => rw [hr] at this; cases this
  | some r => rfl

theorem reSub_plain {eng : Engine} {h : Str} (hh : h.any isMeta = false) {v s : Str} :
    reSub eng h (reescape v) s = .ok (replaceAll ('<' :: (h ++ ['>'])) v s) := by
  obtain ⟨r, hr, he⟩ := reSub_readable (readable_plain hh) eng v s
  have := Regex.header_regex hh v s
  rw [hr] at this
  rw [he, ← Option.some.inj this]

theorem replaceGo_skip (old new : Str) : ∀ (k : Nat) (s : Str), k ≤ s.length → replaceGo old new k s = replaceGo old new 0 (s.drop k)
  | 0, s, _ => rfl
  | k + 1, [], h => by simp at h
  | k + 1, c :: s, h => by
    rw [replaceGo, replaceGo_skip old new k s (by simpa using h)]; rfl

/-- Text without `<` is copied. -/
theorem replaceGo_plain (h new : Str) : ∀ (s rest : Str), '<' ∉ s →
    replaceGo ('<' :: h) new 0 (s ++ rest) = s ++ replaceGo ('<' :: h) new 0 rest
  | [], _, _ => rfl
  | c :: s, rest, hs => by
    have hc : ('<' : Char) ≠ c := by intro e; exact hs (e ▸ by simp)
    rw [List.cons_append, replaceGo]
    have : (('<' :: h).isPrefixOf (c :: (s ++ rest))) = false := by simp [List.isPrefixOf, hc]
    rw [this, if_neg (by simp), replaceGo_plain h new s rest (fun h => hs (by simp [h]))]; rfl

theorem prefix_hole {h n rest : Str} (hh : '>' ∉ h) (hn : '>' ∉ n) : (h ++ ['>']) <+: (n ++ '>' :: rest) ↔ h = n := by
  constructor
  · intro hp
    induction h generalizing n with
    | nil =>
      cases n with
      | nil => rfl
      | cons c n =>
        obtain ⟨r, hr⟩ := hp
        simp at hr
        exact absurd (hr.1 ▸ by simp) hn
    | cons a h ih =>
      cases n with
      | nil =>
        obtain ⟨r, hr⟩ := hp
        simp at hr
        exact absurd (by simp [hr.1]) hh
      | cons c n =>
        rw [List.cons_append, List.cons_append, List.cons_prefix_cons] at hp
        rw [hp.1, ih (fun h => hh (by simp [h])) (fun h => hn (by simp [h])) hp.2]
  · rintro rfl
    exact ⟨rest, by simp⟩

/-- One round of substitution on a piece. -/
def subst1 (h v : Str) : Piece → Piece
  | .plain s => .plain s
  | .hole n => if n = h then .plain v else .hole n

theorem replaceAll_pieces {h v : Str} (hh : '<' ∉ h ∧ '>' ∉ h) : ∀ {ps : List Piece}, (∀ p ∈ ps, p.Ok) →
    replaceAll ('<' :: (h ++ ['>'])) v (ps.flatMap Piece.src) = (ps.map (subst1 h v)).flatMap Piece.src
  | [], _ => rfl
  | p :: ps, hp => by
    have ih := replaceAll_pieces (v := v) hh (fun q hq => hp q (List.mem_cons_of_mem _ hq))
    unfold replaceAll at ih ⊢
    have hok := hp p (by simp)
    simp only [List.flatMap_cons, List.map_cons]
    cases p with
    | plain s =>
      simp only [Piece.src, subst1]
      rw [replaceGo_plain _ _ _ _ hok, ih]
    | hole n =>
      obtain ⟨h1, h2⟩ := hok
      simp only [Piece.src, subst1, List.cons_append, List.append_assoc, List.nil_append]
      rw [replaceGo]
      by_cases e : n = h
      · subst e
        have : ('<' :: (n ++ ['>'])).isPrefixOf ('<' :: (n ++ '>' :: ps.flatMap Piece.src)) = true := by
          rw [List.isPrefixOf_iff_prefix, List.cons_prefix_cons]
          exact ⟨rfl, (prefix_hole h2 h2).2 rfl⟩
        rw [this, if_pos rfl, if_pos rfl, replaceGo_skip _ _ _ _ (by simp)]
        have hd : (n ++ '>' :: ps.flatMap Piece.src).drop (('<' :: (n ++ ['>'])).length - 1) = ps.flatMap Piece.src := by
          have : ('<' :: (n ++ ['>'])).length - 1 = n.length + 1 := by simp
          rw [this, List.drop_append]; simp
        rw [hd, ih]
      · have : ('<' :: (h ++ ['>'])).isPrefixOf ('<' :: (n ++ '>' :: ps.flatMap Piece.src)) = false := by
          rw [Bool.eq_false_iff]
          intro hc
          rw [List.isPrefixOf_iff_prefix, List.cons_prefix_cons] at hc
          exact e ((prefix_hole hh.2 h2).1 hc.2).symm
        rw [this, if_neg (by simp), if_neg e]
        have : replaceGo ('<' :: (h ++ ['>'])) v 0 (n ++ '>' :: ps.flatMap Piece.src) = n ++ '>' :: replaceGo ('<' :: (h ++ ['>'])) v 0 (ps.flatMap Piece.src) := by
          have := replaceGo_plain (h ++ ['>']) v (n ++ ['>']) (ps.flatMap Piece.src) (by simp [h1])
          simpa using this
        rw [this, ih]; simp

theorem subst1_ok {h v : Str} (hv : '<' ∉ v) {p : Piece} (hp : p.Ok) : (subst1 h v p).Ok := by
  cases p with
  | plain s => exact hp
  | hole n =>
    simp only [subst1]
    by_cases e : n = h
    · rw [if_pos e]; exact hv
    · rw [if_neg e]; exact hp

/-- A header that the compiler handles literally and that is not mixed up with other text. -/
def PlainHeader (h : Str) : Prop := ∀ c ∈ h, isMeta c = false ∧ c ≠ '<' ∧ c ≠ '>'

theorem subst1_fill (h v : Str) (cols : List (Str × Str)) (p : Piece) :
    (subst1 h v p).fill cols = p.fill ((h, v) :: cols) := by
  cases p with
  | plain s => rfl
  | hole n =>
    unfold subst1
    by_cases e : n = h
    · subst e; simp [Piece.fill]
    · simp only [e, if_false, Piece.fill, List.find?_cons]
      have : (decide (h = n)) = false := by simp; exact fun e' => e e'.symm
      rw [this]

theorem interpolateFrom_pieces {eng : Engine} {values : List Cell} (hv : ∀ v ∈ values, '<' ∉ v.value) :
    ∀ {hs : List Cell} {i : Nat} {ps : List Piece}, (∀ h ∈ hs, PlainHeader h.value) → i + hs.length ≤ values.length → (∀ p ∈ ps, p.Ok) →
    interpolateFrom eng values i hs (ps.flatMap Piece.src) =
      .ok (ps.flatMap (Piece.fill ((hs.map (·.value)).zip ((values.drop i).map (·.value)))))
  | [], i, ps, _, _, _ => by
    simp only [interpolateFrom, List.map_nil, List.zip_nil_left]
    congr 2
  | h :: hs, i, ps, hh, hi, hp => by
    have hlt : i < values.length := by simp at hi; omega
    rw [interpolateFrom]
    simp only [List.getElem?_eq_getElem hlt]
    have h1 := hh h (by simp)
    have hm : h.value.any isMeta = false := by
      rw [List.any_eq_false]; intro c hc; simp [(h1 c hc).1]
    rw [reSub_plain hm]; simp only
    have hv1 : '<' ∉ values[i].value := hv _ (List.getElem_mem hlt)
    rw [replaceAll_pieces ⟨fun hc => (h1 _ hc).2.1 rfl, fun hc => (h1 _ hc).2.2 rfl⟩ hp]
    rw [interpolateFrom_pieces hv (fun x hx => hh x (by simp [hx])) (by simp at hi; omega)
      (by intro p hp'; simp only [List.mem_map] at hp'; obtain ⟨q, hq, rfl⟩ := hp'; exact subst1_ok hv1 (hp q hq))]
    rw [List.flatMap_map]
    have hd : values.drop i = values[i] :: values.drop (i + 1) := List.drop_eq_getElem_cons hlt
    simp only [hd, List.map_cons, List.zip_cons_cons, subst1_fill]

/-! ### Exactly what replacing does -/

theorem dropLast_prefix_append (a b : Str) : a.dropLast <+: a ++ b := (List.dropLast_prefix a).trans (List.prefix_append a b)

/-- No occurrence begins in `p`. -/
theorem replaceGo_before {old new : Str} (hold : old ≠ []) : ∀ (p rest : Str), ¬ old <:+: p ++ old.dropLast →
    replaceGo old new 0 (p ++ old ++ rest) = p ++ new ++ replaceGo old new 0 rest
  | [], rest, _ => by
    obtain ⟨a, as, rfl⟩ := List.exists_cons_of_ne_nil hold
    simp only [List.nil_append, List.cons_append]
    rw [replaceGo]
    have : (a :: as).isPrefixOf (a :: (as ++ rest)) = true := by
      rw [List.isPrefixOf_iff_prefix]; exact ⟨rest, rfl⟩
    rw [this, if_pos rfl, replaceGo_skip _ _ _ _ (by simp)]
    simp
  | c :: p, rest, h => by
    have hno : old.isPrefixOf (c :: (p ++ old ++ rest)) = false := by
      rw [Bool.eq_false_iff]
      intro hc
      rw [List.isPrefixOf_iff_prefix] at hc
      apply h
      have hlen : old.length ≤ (c :: p ++ old.dropLast).length := by
        have : 0 < old.length := List.length_pos_iff.2 hold
        simp; omega
      have h2 : (c :: p ++ old.dropLast) <+: (c :: (p ++ old ++ rest)) := by
        obtain ⟨t, ht⟩ := dropLast_prefix_append old rest
        exact ⟨t, by simp [ht]⟩
      exact (List.prefix_of_prefix_length_le hc h2 hlen).isInfix
    rw [List.cons_append, List.cons_append, replaceGo, hno, if_neg (by simp), replaceGo_before hold p rest (fun hh => h (hh.trans ⟨[c], [], by simp⟩))]
    rfl

theorem replaceGo_none {old new : Str} : ∀ {s : Str}, ¬ old <:+: s → replaceGo old new 0 s = s
  | [], _ => rfl
  | c :: s, h => by
    have hno : old.isPrefixOf (c :: s) = false := by
      rw [Bool.eq_false_iff]
      intro hc
      rw [List.isPrefixOf_iff_prefix] at hc
      exact h hc.isInfix
    rw [replaceGo, hno, if_neg (by simp), replaceGo_none (fun hh => h (hh.trans ⟨[c], [], by simp⟩))]

theorem replaced_eq {old new s s' : Str} (hold : old ≠ []) (h : Replaced old new s s') : replaceAll old new s = s' := by
  unfold replaceAll
  induction h with
  | none h => exact replaceGo_none h
  | some h _ ih => rw [replaceGo_before hold _ _ h, ih]

/-- The first occurrence. -/
theorem first_occurrence {old : Str} (hold : old ≠ []) : ∀ {s : Str}, old <:+: s → ∃ p t, s = p ++ old ++ t ∧ ¬ old <:+: p ++ old.dropLast
  | [], h => by simp at h; exact absurd h hold
  | c :: s, h => by
    by_cases hp : old <+: c :: s
    · obtain ⟨t, ht⟩ := hp
      refine ⟨[], t, by simpa using ht.symm, ?_⟩
      intro hh
      have := hh.length_le
      have h0 : 0 < old.length := List.length_pos_iff.2 hold
      simp at this; omega
    · have h1 : old <:+: s := by
        rw [List.infix_cons_iff] at h
        exact h.resolve_left hp
      obtain ⟨p, t, e, hn⟩ := first_occurrence hold h1
      refine ⟨c :: p, t, by rw [e]; rfl, ?_⟩
      intro hh
      rw [List.cons_append, List.infix_cons_iff] at hh
      rcases hh with hh | hh
      · apply hp
        refine hh.trans ?_
        rw [e]
        obtain ⟨t', ht⟩ := dropLast_prefix_append old t
        exact ⟨t', by rw [List.cons_append, List.append_assoc, ht, List.append_assoc]⟩
      · exact hn hh

theorem replaced_exists {old : Str} (hold : old ≠ []) (new : Str) (s : Str) : ∃ s', Replaced old new s s' := by
  by_cases h : old <:+: s
  · obtain ⟨p, t, e, hn⟩ := first_occurrence hold h
    have hlt : t.length < s.length := by
      have h0 : 0 < old.length := List.length_pos_iff.2 hold
      rw [e]; simp; omega
    obtain ⟨t', ht⟩ := replaced_exists hold new t
    exact ⟨p ++ new ++ t', e ▸ .some hn ht⟩
  · exact ⟨s, .none h⟩
termination_by s.length

/-- `replaceAll` does what the specification says, and nothing else. -/
theorem replaced_iff {old new s s' : Str} (hold : old ≠ []) : Replaced old new s s' ↔ replaceAll old new s = s' := by
  constructor
  · exact replaced_eq hold
  · rintro rfl
    obtain ⟨t, ht⟩ := replaced_exists hold new s
    rw [replaced_eq hold ht]; exact ht

/-- The specification leaves no choice. -/
theorem replacedAll_unique : ∀ {cols : List (Str × Str)} {s a b : Str}, ReplacedAll cols s a → ReplacedAll cols s b → a = b
  | [], _, _, _, ha, hb => ha.trans hb.symm
  | (h, v) :: cols, s, a, b, ⟨t, h1, h2⟩, ⟨u, h3, h4⟩ => by
    have e1 := replaced_eq (by simp) h1
    have e2 := replaced_eq (by simp) h3
    rw [e1] at e2
    subst e2
    exact replacedAll_unique h2 h4

theorem interpolateFrom_replaced {eng : Engine} {values : List Cell} : ∀ {hs : List Cell} {i : Nat} {s : Str},
    (∀ h ∈ hs, h.value.any isMeta = false) → i + hs.length ≤ values.length →
    ∃ s', interpolateFrom eng values i hs s = .ok s' ∧ ReplacedAll ((hs.map (·.value)).zip ((values.drop i).map (·.value))) s s'
  | [], i, s, _, _ => ⟨s, rfl, rfl⟩
  | h :: hs, i, s, hh, hi => by
    have hlt : i < values.length := by simp at hi; omega
    rw [interpolateFrom]
    simp only [List.getElem?_eq_getElem hlt]
    rw [reSub_plain (hh h (by simp))]; simp only
    obtain ⟨s', h1, h2⟩ := interpolateFrom_replaced (eng := eng) (values := values) (hs := hs) (i := i + 1)
      (s := replaceAll ('<' :: (h.value ++ ['>'])) values[i].value s) (fun x hx => hh x (by simp [hx])) (by simp at hi; omega)
    refine ⟨s', h1, ?_⟩
    have hd : values.drop i = values[i] :: values.drop (i + 1) := List.drop_eq_getElem_cons hlt
    simp only [hd, List.map_cons, List.zip_cons_cons]
    exact ⟨_, (replaced_iff (by simp)).2 rfl, h2⟩

/-- If nothing put in contains `<` and the headers contain neither `<` nor `>`, all placeholders are filled at once. -/
theorem replacedAll_fills : ∀ {cols : List (Str × Str)}, (∀ c ∈ cols, ('<' ∉ c.1 ∧ '>' ∉ c.1) ∧ '<' ∉ c.2) → ∀ {ps : List Piece}, (∀ p ∈ ps, p.Ok) →
    ∀ {s' : Str}, ReplacedAll cols (ps.flatMap Piece.src) s' → s' = ps.flatMap (Piece.fill cols)
  | [], _, ps, _, s', h => by
    rw [show s' = _ from h]
    congr 1
  | (h, v) :: cols, hc, ps, hp, s', ⟨t, h1, h2⟩ => by
    obtain ⟨h3, h4⟩ := hc (h, v) (by simp)
    have e := replaced_eq (by simp) h1
    rw [replaceAll_pieces h3 hp] at e
    subst e
    rw [replacedAll_fills (fun c hc' => hc c (by simp [hc'])) (by
      intro p hp'; simp only [List.mem_map] at hp'; obtain ⟨q, hq, rfl⟩ := hp'; exact subst1_ok h4 (hp q hq)) h2]
    rw [List.flatMap_map]
    simp only [subst1_fill]

end Gherkin.Pickles
