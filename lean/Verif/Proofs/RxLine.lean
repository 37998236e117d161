import Verif.Proofs.RxScan

/-! The regular expressions of gherkin_line.py, gherkin_builder.py and compiler.py. -/

namespace Gherkin.Regex

theorem from_le (r : Rx) : ∀ (n : Nat) (must : Bool) (p : Pos), p.rest.length + (if must then 0 else 1) ≤ n →
    ∀ m ∈ r.from must p, m.first.rest.length ≤ p.rest.length := by
  have key : ∀ (f : Nat) (must : Bool) (p : Pos), ∀ m ∈ r.scan f must p, m.first.rest.length ≤ p.rest.length := by
    intro f
    induction f with
    | zero => intro must p m h; simp [Rx.scan] at h
    | succ f ih =>
      intro must p m h
      simp only [Rx.scan] at h
      split at h
      · rename_i q hq
        have h1 := run_le r p q (List.mem_of_find?_eq_some hq)
        simp only [List.mem_cons] at h
        rcases h with rfl | h
        · exact Nat.le_refl _
        · exact Nat.le_trans (ih _ _ _ h) h1
      · split at h
        · simp at h
        · rename_i c cs hr
          have := ih _ _ _ h
          rw [hr]; simp at this ⊢; omega
  intro n must p _ m h
  exact key _ _ _ m h

theorem splice_skip (f : Found → Str) (c : Char) (cs : Str) (ms : List Found) (h : ∀ m ∈ ms, m.first.rest.length ≤ cs.length) :
    splice f (c :: cs) ms = c :: splice f cs ms := by
  cases ms with
  | nil => rfl
  | cons m ms =>
    have := h m (by simp)
    simp only [splice, List.length_cons]
    rw [show cs.length + 1 - m.first.rest.length = (cs.length - m.first.rest.length) + 1 by omega, List.take_succ_cons]
    rfl

/-- A character at which nothing begins is kept. -/
theorem splice_none {r : Rx} {back : Str} {c : Char} {cs : Str} {caps : List (Nat × Str)} {must : Bool} (f : Found → Str)
    (h : (r.run ⟨back, c :: cs, caps⟩).find? (fun q => !must || q.rest.length < (c :: cs).length) = none) :
    splice f (c :: cs) (r.from must ⟨back, c :: cs, caps⟩) = c :: splice f cs (r.from false ⟨c :: back, cs, []⟩) := by
  rw [from_none h]
  simp only
  rw [splice_skip]
  intro m hm
  exact from_le r _ false _ (Nat.le_refl _) m hm

/-- A match is replaced. -/
theorem splice_some {r : Rx} {p q : Pos} {must : Bool} (f : Found → Str)
    (h : (r.run p).find? (fun q => !must || q.rest.length < p.rest.length) = some q) :
    splice f p.rest (r.from must p) = f ⟨p, q⟩ ++ splice f q.rest (r.from (q.rest.length == p.rest.length) { q with caps := [] }) := by
  rw [from_some h]
  simp [splice]

/-! ### `[^\S\n]*$` -/

def cellEnd : Rx := .seq (.seq .eps (.star (.set cellSet))) (.eol false)

theorem cellEnd_read : read py"[^\\S\\n]*$" = some cellEnd := by decide +kernel

def tailOk (s : Str) : Bool := s.dropWhile isCellSpace == [] || s.dropWhile isCellSpace == ['\n']

theorem cellEnd_run (p : Pos) : cellEnd.run p = if tailOk p.rest then [p.skip isCellSpace] else [] := by
  have h0 : cellEnd.run p = ((Rx.star (.set cellSet)).run p).flatMap (Rx.eol false).run := by
    simp [cellEnd, Rx.run]
  rw [h0, star_then cellSet, cellSet_eq]
  · have := adv_takeWhile isCellSpace p
    simp only [Rx.run, this, tailOk]
    simp
  · intro q c cs hq hc
    rw [cellSet_eq] at hc
    simp only [Rx.run, hq]
    rw [if_neg]
    rintro (h | h | ⟨h, _⟩)
    · cases h
    · cases h; revert hc; decide
    · cases h

theorem cellEnd_end (back : Str) (must : Bool) : splice (fun _ => []) [] (cellEnd.from must ⟨back, [], []⟩) = [] := by
  cases must with
  | true =>
    rw [from_none (by rw [cellEnd_run]; simp [tailOk, Pos.skip, Pos.adv])]
    rfl
  | false =>
    have := splice_some (r := cellEnd) (p := ⟨back, [], []⟩) (q := ⟨back, [], []⟩) (must := false) (fun _ => []) (by rw [cellEnd_run]; simp [tailOk, Pos.skip, Pos.adv])
    simp only [List.length_nil, beq_self_eq_true, List.nil_append] at this
    rw [this, from_none (by rw [cellEnd_run]; simp [tailOk, Pos.skip, Pos.adv])]
    rfl

theorem cellEnd_newline (back : Str) (must : Bool) : splice (fun _ => []) ['\n'] (cellEnd.from must ⟨back, ['\n'], []⟩) = ['\n'] := by
  have hw : isCellSpace '\n' = false := by decide
  have htrue : splice (fun _ => []) ['\n'] (cellEnd.from true ⟨back, ['\n'], []⟩) = ['\n'] := by
    rw [splice_none _ (by rw [cellEnd_run]; simp [tailOk, Pos.skip, Pos.adv, hw]), cellEnd_end]
  cases must with
  | true => exact htrue
  | false =>
    have := splice_some (r := cellEnd) (p := ⟨back, ['\n'], []⟩) (q := ⟨back, ['\n'], []⟩) (must := false) (fun _ => []) (by rw [cellEnd_run]; simp [tailOk, Pos.skip, Pos.adv, hw])
    simp only [beq_self_eq_true, List.nil_append] at this
    rw [this, htrue]

theorem takeWhile_all {p : Char → Bool} : ∀ (s : Str), AllP p (s.takeWhile p) := by
  intro s
  induction s with
  | nil => intro c hc; cases hc
  | cons a as ih =>
    intro c hc
    rw [List.takeWhile_cons] at hc
    split at hc
    · rename_i h
      rcases List.mem_cons.mp hc with rfl | hc
      · exact h
      · exact ih c hc
    · cases hc

theorem cellRstrip_tail {s : Str} (h : tailOk s = true) : cellRstrip s = s.dropWhile isCellSpace := by
  have hs : s = s.takeWhile isCellSpace ++ s.dropWhile isCellSpace := (List.takeWhile_append_dropWhile).symm
  have hall := takeWhile_all (p := isCellSpace) s
  simp only [tailOk, Bool.or_eq_true, beq_iff_eq] at h
  generalize s.takeWhile isCellSpace = w at hs hall
  rcases h with h | h <;> rw [h] at hs ⊢
  · have : s = w := by simpa using hs
    unfold cellRstrip
    rw [if_neg, this, rstripBy_all hall]
    rw [this]
    intro hl
    have := hall _ (List.mem_of_getLast? hl)
    revert this; decide
  · unfold cellRstrip
    rw [if_pos (by rw [hs]; simp), hs]
    simp [rstripBy_all hall]

theorem rstripBy_cons {p : Char → Bool} (c : Char) (cs : Str) (h : ¬ (p c = true ∧ AllP p cs)) : rstripBy p (c :: cs) = c :: rstripBy p cs := by
  obtain ⟨w, hw, hs, hl⟩ := rstripBy_spec (p := p) cs
  by_cases hr : rstripBy p cs = []
  · have hcw : cs = w := by rw [hs, hr]; rfl
    have hc : p c = false := by
      cases hp : p c with
      | false => rfl
      | true => exact absurd ⟨hp, hcw ▸ hw⟩ h
    rw [hr]
    have : c :: cs = [c] ++ w := by rw [hcw]; rfl
    rw [this]
    apply rstripBy_append hw
    intro x hx
    simp at hx; subst hx; exact hc
  · have : c :: cs = (c :: rstripBy p cs) ++ w := by rw [List.cons_append, ← hs]
    rw [this]
    apply rstripBy_append hw
    intro x hx
    apply hl
    rw [List.getLast?_cons] at hx
    cases hg : (rstripBy p cs).getLast? with
    | none => rw [List.getLast?_eq_none_iff] at hg; exact absurd hg hr
    | some y => rw [hg] at hx; simpa using hx

theorem dropWhile_all {p : Char → Bool} {s : Str} (h : AllP p s) : s.dropWhile p = [] := by
  induction s with
  | nil => rfl
  | cons c cs ih =>
    rw [List.dropWhile_cons, if_pos (h c (by simp))]
    exact ih fun x hx => h x (by simp [hx])

theorem cellRstrip_cons {c : Char} {cs : Str} (h : tailOk (c :: cs) = false) : cellRstrip (c :: cs) = c :: cellRstrip cs := by
  have hnot : ∀ t : Str, (t = [] ∨ t = ['\n']) → ∀ w, AllP isCellSpace w → c :: cs ≠ w ++ t := by
    intro t ht w hw he
    rw [he] at h
    have : (w ++ t).dropWhile isCellSpace = t.dropWhile isCellSpace := by
      clear he h
      induction w with
      | nil => rfl
      | cons a as ih =>
        rw [List.cons_append, List.dropWhile_cons, if_pos (hw a (by simp))]
        exact ih fun x hx => hw x (by simp [hx])
    rw [tailOk, this] at h
    rcases ht with rfl | rfl
    · simp at h
    · revert h; decide
  unfold cellRstrip
  cases cs with
  | nil =>
    have hc : isCellSpace c = false := by
      cases hp : isCellSpace c with
      | false => rfl
      | true => exact absurd rfl (hnot [] (.inl rfl) [c] (by intro x hx; simp at hx; subst hx; exact hp))
    have hn : c ≠ '\n' := by
      rintro rfl
      exact hnot ['\n'] (.inr rfl) [] (by intro x hx; cases hx) rfl
    simp [hn, rstripBy, hc]
  | cons d ds =>
    have hg : (c :: d :: ds).getLast? = (d :: ds).getLast? := by simp [List.getLast?_cons_cons]
    rw [hg]
    split
    · rename_i hl
      rw [List.dropLast_cons_of_ne_nil (by simp), rstripBy_cons]
      · rfl
      · rintro ⟨h1, h2⟩
        refine hnot ['\n'] (.inr rfl) (c :: (d :: ds).dropLast) ?_ ?_
        · intro x hx
          rcases List.mem_cons.mp hx with rfl | hx
          · exact h1
          · exact h2 x hx
        · rw [List.cons_append]
          congr 1
          have := List.dropLast_append_getLast? _ hl
          exact this.symm
    · rw [rstripBy_cons]
      rintro ⟨h1, h2⟩
      refine hnot [] (.inl rfl) (c :: d :: ds) ?_ (by simp)
      intro x hx
      rcases List.mem_cons.mp hx with rfl | hx
      · exact h1
      · exact h2 x hx

theorem cellEnd_splice : ∀ (rest back : Str), splice (fun _ => []) rest (cellEnd.from false ⟨back, rest, []⟩) = cellRstrip rest := by
  intro rest
  induction rest with
  | nil => intro back; rw [cellEnd_end]; rfl
  | cons c cs ih =>
    intro back
    cases ht : tailOk (c :: cs) with
    | false =>
      rw [splice_none _ (by rw [cellEnd_run]; simp [ht]), ih, cellRstrip_cons ht]
    | true =>
      have hsk := adv_takeWhile isCellSpace ⟨back, c :: cs, []⟩
      have := splice_some (r := cellEnd) (p := ⟨back, c :: cs, []⟩) (q := (⟨back, c :: cs, []⟩ : Pos).skip isCellSpace) (must := false) (fun _ => []) (by rw [cellEnd_run]; simp [ht])
      rw [this, cellRstrip_tail ht]
      generalize ((⟨back, c :: cs, []⟩ : Pos).skip isCellSpace) = q at hsk
      obtain ⟨qb, qr, qc⟩ := q
      simp only at hsk ⊢
      subst hsk
      simp only [tailOk, Bool.or_eq_true, beq_iff_eq] at ht
      rcases ht with ht | ht <;> rw [ht]
      · exact cellEnd_end _ _
      · exact cellEnd_newline _ _

/-- packages/gurke/src/gurke/gherkin_line.py:47 `re.sub(r"[^\S\n]*$", "", s)`. -/
theorem cellRstrip_regex (s : Str) : ((read py"[^\\S\\n]*$").map fun r => r.sub (fun _ => []) s) = some (cellRstrip s) := by
  rw [cellEnd_read]
  simp only [Option.map_some, Option.some.injEq, Rx.sub, all_from]
  exact cellEnd_splice s []

/-! ### `\s#` -/

def commentRx : Rx := .seq (.seq .eps (.set ⟨false, [.space]⟩)) (lit '#')

theorem comment_read : read py"\\s#" = some commentRx := by decide +kernel

theorem comment_run (back rest : Str) : commentRx.run ⟨back, rest, []⟩ =
    match rest with | c :: d :: ds => if isSpace c && d == '#' then [⟨d :: c :: back, ds, []⟩] else [] | _ => [] := by
  simp only [commentRx, lit]
  match rest with
  | [] => rfl
  | [c] => cases h : isSpace c <;> simp [Rx.run, has_space, h]
  | c :: d :: ds =>
    cases h : isSpace c <;> by_cases e : d = '#' <;> simp [Rx.run, has_space, has_one, h, e]

theorem comment_split : ∀ (rest back : Str),
    match (commentRx.from false ⟨back, rest, []⟩).head? with
    | none => uncomment rest = rest
    | some m => uncomment rest = rest.take (rest.length - m.first.rest.length) ∧ m.first.rest.length ≤ rest.length := by
  intro rest
  induction rest with
  | nil => intro back; rw [from_none (by rw [comment_run]; rfl)]; rfl
  | cons c cs ih =>
    intro back
    have hstep : commentRx.run ⟨back, c :: cs, []⟩ = [] → (uncomment (c :: cs) = c :: uncomment cs) →
        match (commentRx.from false ⟨back, c :: cs, []⟩).head? with
        | none => uncomment (c :: cs) = c :: cs
        | some m => uncomment (c :: cs) = (c :: cs).take ((c :: cs).length - m.first.rest.length) ∧ m.first.rest.length ≤ (c :: cs).length := by
      intro h1 h2
      rw [from_none (by rw [h1]; rfl)]
      have := ih (c :: back)
      revert this
      cases (commentRx.from false ⟨c :: back, cs, []⟩).head? with
      | none => intro h; simp only at h ⊢; rw [h2, h]
      | some m =>
        simp only
        rintro ⟨h3, h4⟩
        rw [h2, h3]
        refine ⟨?_, by simp; omega⟩
        rw [List.length_cons, show cs.length + 1 - m.first.rest.length = (cs.length - m.first.rest.length) + 1 by omega, List.take_succ_cons]
    cases cs with
    | nil => exact hstep (by rw [comment_run]) rfl
    | cons d ds =>
      cases hc : isSpace c && d == '#' with
      | false =>
        exact hstep (by rw [comment_run]; simp only [hc]; rfl) (by simp [uncomment, hc])
      | true =>
        rw [from_some (q := ⟨d :: c :: back, ds, []⟩) (by rw [comment_run]; simp only [hc]; rfl)]
        simp [uncomment, hc]

/-- packages/gurke/src/gurke/gherkin_line.py:92 `re.split(r"\s#", s, 2)[0]`. -/
theorem uncomment_regex (s : Str) : ((read py"\\s#").map fun r => r.splitFirst s) = some (uncomment s) := by
  rw [comment_read]
  simp only [Option.map_some, Option.some.injEq, Rx.splitFirst, Rx.search, all_from]
  have := comment_split s []
  revert this
  simp only [start]
  cases (commentRx.from false ⟨[], s, []⟩).head? with
  | none => intro h; exact h.symm
  | some m => rintro ⟨h, _⟩; exact h.symm

/-! ### `[^\S+]` -/

theorem search_set (st : Set) : ∀ (rest back : Str), ((Rx.seq .eps (.set st)).from false ⟨back, rest, []⟩).head?.isSome = rest.any st.has := by
  intro rest
  induction rest with
  | nil => intro back; rw [from_none (by rfl)]; rfl
  | cons c cs ih =>
    intro back
    cases h : st.has c with
    | false => rw [from_none (by simp [Rx.run, h])]; simp only; rw [ih]; simp [h]
    | true => rw [from_some (q := ⟨c :: back, cs, []⟩) (by simp [Rx.run, h])]; simp [h]

/-- packages/gurke/src/gurke/gherkin_line.py:97 `re.search(r"[^\S+]", value) is not None`. -/
theorem tagSpace_regex (s : Str) : ((read py"[^\\S+]").map fun r => (r.search s).isSome) = some (s.any isSpace) := by
  have hr : read py"[^\\S+]" = some (.seq .eps (.set ⟨true, [.nonSpace, .one '+']⟩)) := by decide +kernel
  rw [hr]
  simp only [Option.map_some, Option.some.injEq, Rx.search, all_from]
  have := search_set ⟨true, [.nonSpace, .one '+']⟩ s []
  simp only [start]
  rw [this]
  congr 1
  funext c
  simp only [Set.has, Item.has, List.any_cons, List.any_nil, Bool.or_false]
  by_cases h : c = '+'
  · subst h; decide
  · have : (c == '+') = false := by simpa using h
    rw [this]; simp

end Gherkin.Regex
