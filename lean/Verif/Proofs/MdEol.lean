import Verif.Proofs.Eol
import Verif.Proofs.MdProse
import Verif.Proofs.MdTotal2
import Verif.Proofs.MdAuto

/-! The Markdown matcher does not look at line ends, except for the column of a blank line. -/

namespace Gherkin

theorem take_whole {α : Type} {p : α → Bool} : ∀ {l : List α}, (∀ x ∈ l, p x = true) → l.takeWhile p = l
  | [], _ => rfl
  | x :: xs, h => by rw [List.takeWhile_cons, if_pos (h x (by simp)), take_whole fun y hy => h y (by simp [hy])]

theorem take_holds {α : Type} {p : α → Bool} : ∀ {l : List α} {x : α}, x ∈ l.takeWhile p → p x = true
  | [], x, h => by simp at h
  | y :: ys, x, h => by
    rw [List.takeWhile_cons] at h
    split at h
    · rcases List.mem_cons.1 h with rfl | h
      · assumption
      · exact take_holds h
    · simp at h

theorem take_split {α : Type} {p : α → Bool} : ∀ {l : List α}, (¬ ∀ x ∈ l, p x = true) → ∃ a c b, l = a ++ c :: b ∧ (∀ y ∈ a, p y = true) ∧ p c = false
  | [], h => absurd (by intro x hx; simp at hx) h
  | x :: xs, h => by
    cases hx : p x with
    | false => exact ⟨[], x, xs, rfl, by simp, hx⟩
    | true =>
      obtain ⟨a, c, b, rfl, h1, h2⟩ := take_split (l := xs) fun h' => h fun y hy => by
        rcases List.mem_cons.1 hy with rfl | hy
        · exact hx
        · exact h' y hy
      exact ⟨x :: a, c, b, rfl, by simpa [hx] using h1, h2⟩

/-- The kinds under which a blank line is left with its indent as column (which counts the line end). -/
def indented (k : Option Kind) : Bool := k == none || k == some .comment || k == some .featureLine

/-- The token for the line with a canonical line end. -/
def Token.cano (t : Token) : Token :=
  if t.line.isBlank = true ∧ t.line.isEof = false ∧ t.loc.column.isSome = true ∧ indented t.type = true then
    { t with line := t.line.canon, loc := { t.loc with column := some (t.line.canon.indent + 1) }, indent := t.line.canon.indent }
  else t.canon

theorem cano_line (t : Token) : t.cano.line = t.line.canon := by
  unfold Token.cano
  split <;> rfl

theorem cano_locLine (t : Token) : t.cano.loc.line = t.loc.line := by
  unfold Token.cano
  split <;> rfl

theorem cano_eof (t : Token) : t.cano.eof = t.eof := by
  show t.cano.line.isEof = t.line.isEof
  rw [cano_line, canon_eof]

theorem cano_of_ink {t : Token} (h : t.line.isBlank = false) : t.cano = t.canon := by
  unfold Token.cano
  rw [if_neg (by simp [h])]

theorem cano_of_end {t : Token} (h : t.line.isEof = true) : t.cano = t.canon := by
  unfold Token.cano
  rw [if_neg (by simp [h])]

theorem cano_of_kind {t : Token} (h : indented t.type = false) : t.cano = t.canon := by
  unfold Token.cano
  rw [if_neg (by simp [h])]

theorem cano_fresh (l : Line) : (Token.fresh l).cano = Token.fresh l.canon := by
  unfold Token.cano
  rw [if_neg (by simp [Token.fresh])]
  rfl

theorem setMatched_pre {dn : Str} {t u : Token} (hl : t.line = u.line) (hn : t.loc.line = u.loc.line) (k : Option Kind) (x kw : Option Str)
    (kt : Option KType) (i : Option Nat) (its : List MItem) : setMatched dn t k x kw kt i its = setMatched dn u k x kw kt i its := by
  rcases t with ⟨l1, ⟨n1, c1⟩, _, _, _, _, _, _, _⟩
  rcases u with ⟨l2, ⟨n2, c2⟩, _, _, _, _, _, _, _⟩
  simp only at hl hn
  subst hl hn
  rfl

theorem cano_pre {dn : Str} (t : Token) (k : Option Kind) (x kw : Option Str) (kt : Option KType) (i : Option Nat) (its : List MItem) :
    setMatched dn t.cano k x kw kt i its = setMatched dn t.canon k x kw kt i its :=
  setMatched_pre (u := t.canon) (cano_line t) (cano_locLine t) k x kw kt i its

theorem set_line {dn : Str} {t : Token} {k : Option Kind} {x kw : Option Str} {kt : Option KType} {i : Option Nat} {its : List MItem} :
    (setMatched dn t k x kw kt i its).line = t.line := rfl

/-- A mark with the indent of the line. -/
theorem setMatched_cano {dn : Str} {t : Token} {k : Option Kind} {x x' kw : Option Str} {kt : Option KType} {i : Option Nat}
    {its : List MItem} (hx : x'.map rstripEol = x.map rstripEol)
    (hi : t.line.isBlank = true → if indented k then i = none else t.line.isEof = true ∨ i ≠ none) :
    setMatched dn t.cano k x' kw kt i its = (setMatched dn t k x kw kt i its).cano := by
  rw [cano_pre]
  by_cases hend : t.line.isEof = true
  · rw [cano_of_end (t := setMatched dn t k x kw kt i its) hend]
    exact setMatched_canon hx fun _ => .inl hend
  cases hb : t.line.isBlank with
  | false =>
    rw [cano_of_ink (t := setMatched dn t k x kw kt i its) (by rw [set_line]; exact hb)]
    exact setMatched_canon hx fun _ => .inr hb
  | true =>
    have hi := hi hb
    cases hk : indented k with
    | false =>
      rw [hk] at hi
      rw [cano_of_kind (t := setMatched dn t k x kw kt i its) hk]
      refine setMatched_canon hx fun h0 => ?_
      rcases hi with h | h
      · exact .inl h
      · exact absurd h0 h
    | true =>
      rw [hk] at hi
      replace hi : i = none := hi
      subst hi
      have hz' : (if t.line.canon.isEof = true then 0 else t.line.canon.indent) = t.line.canon.indent := by
        split
        · rename_i he
          have : t.line.canon.text = [] := by simpa [Line.isEof] using he
          simp [Line.indent, Line.trimmed, this, lstrip, lstripBy]
        · rfl
      unfold Token.cano
      rw [if_pos ⟨hb, by simpa using hend, rfl, hk⟩]
      have e1 : (setMatched dn t.canon k x' kw kt none its).indent = t.line.canon.indent := congrArg Int.ofNat hz'
      have e2 : (setMatched dn t.canon k x' kw kt none its).loc.column = some (t.line.canon.indent + 1) := congrArg (fun z => some (z + 1)) hz'
      have e3 : setMatched dn t.canon k x' kw kt none its = { setMatched dn t.canon k x' kw kt none its with
          indent := (setMatched dn t.canon k x' kw kt none its).indent
          loc := { (setMatched dn t.canon k x' kw kt none its).loc with column := (setMatched dn t.canon k x' kw kt none its).loc.column } } := rfl
      rw [e3, e1, e2]
      simp only [setMatched, Token.canon, hx]

/-! ### Titles -/

/-- The answer of the search for a keyword, without the white space around the rest. -/
def searched (ps : List Md.PrefixMatch) (kws : List Str) (suf : Str) : Option (Nat × Str × Str) :=
  (Md.searchTitle ps kws suf).map fun x => (x.1, x.2.1, strip x.2.2)

/-- The search at one place. -/
def searchOne (kws : List Str) (suf : Str) (p : Md.PrefixMatch) : Option (Nat × Str × Str) :=
  (kws.find? fun kw => startsWith p.2 (kw ++ suf)).map fun kw => (p.1, kw, strip ((p.2.drop (kw.length + suf.length)).takeWhile (· != '\n')))

theorem searched_eq (ps : List Md.PrefixMatch) (kws : List Str) (suf : Str) : searched ps kws suf = ps.findSome? (searchOne kws suf) := by
  unfold searched Md.searchTitle
  induction ps with
  | nil => rfl
  | cons p ps ih =>
    simp only [List.findSome?_cons, searchOne]
    cases kws.find? fun kw => startsWith p.2 (kw ++ suf) with
    | none => simpa using ih
    | some kw => rfl

theorem matchTitle_by (k : Kind) (P : Str → List Md.PrefixMatch) (kws : List Str) (suf : Str) (t : Token) (m : MdState) :
    Md.matchTitle k P kws suf t m = match searched (P t.line.lineText) kws suf with
      | some (n, kw, rest) => (.ok true, setMatched m.dialectName t (some k) (some rest) (some kw) (m.dialect.keywordTypes kw).head? (some (t.line.indent + n)) [], m)
      | none => (.ok false, t, m) := by
  unfold Md.matchTitle searched
  cases Md.searchTitle (P t.line.lineText) kws suf with
  | none => rfl
  | some x => rfl

theorem strip_take_white (x : Str) {e : Str} (he : AllP isEol e) : strip ((x ++ e).takeWhile (· != '\n')) = strip (x.takeWhile (· != '\n')) := by
  by_cases h1 : ∀ c ∈ x, (c != '\n') = true
  · rw [List.takeWhile_append_of_pos h1, take_whole h1]
    exact strip_append_white x fun c hc => isEol_space (he c ((List.takeWhile_sublist _).mem hc))
  · obtain ⟨a, c, b, rfl, ha, hc⟩ := take_split h1
    congr 1
    have tk : ∀ z, (a ++ c :: b ++ z).takeWhile (· != '\n') = a := by
      intro z
      rw [List.append_assoc, List.takeWhile_append_of_pos ha, List.cons_append, List.takeWhile_cons, if_neg (by simp [hc]), List.append_nil]
    have := tk []
    rw [List.append_nil] at this
    rw [tk e, this]

theorem searchOne_eol {kws : List Str} {suf : Str} (hk : ∀ kw ∈ kws, NoEol (kw ++ suf)) (n : Nat) (r : Str) {e : Str} (he : AllP isEol e) :
    searchOne kws suf (n, r ++ e) = searchOne kws suf (n, r) := by
  unfold searchOne
  have hs : ∀ kw ∈ kws, startsWith (r ++ e) (kw ++ suf) = startsWith r (kw ++ suf) := by
    intro kw hkw
    have := prefix_append (s := r) (hk kw hkw) he
    unfold startsWith
    rw [Bool.eq_iff_iff, List.isPrefixOf_iff_prefix, List.isPrefixOf_iff_prefix]
    exact this
  simp only
  rw [find_congr hs]
  cases hf : kws.find? (fun kw => startsWith r (kw ++ suf)) with
  | none => rfl
  | some kw =>
    have h1 := List.find?_some hf
    simp only [startsWith, List.isPrefixOf_iff_prefix] at h1
    have h2 : kw.length + suf.length ≤ r.length := by simpa using h1.length_le
    simp only [Option.map_some]
    rw [List.drop_append_of_le_length h2, strip_take_white _ he]

theorem searchOne_none {kws : List Str} {suf : Str} (hk : ∀ kw ∈ kws, NoEol (kw ++ suf) ∧ kw ≠ []) (n : Nat) {e : Str} (he : AllP isEol e) :
    searchOne kws suf (n, e) = none := by
  have h := searchOne_eol (fun kw hkw => (hk kw hkw).1) n [] he
  rw [List.nil_append] at h
  rw [h]
  unfold searchOne
  rw [List.find?_eq_none.2]
  · rfl
  · intro kw hkw
    cases hq : kw with
    | nil => exact absurd hq (hk kw hkw).2
    | cons c cs => simp [startsWith]

theorem headerPrefix_eol {kws : List Str} {suf : Str} (hk : ∀ kw ∈ kws, NoEol (kw ++ suf) ∧ kw ≠ []) (x : Str) {e : Str} (he : AllP isEol e) :
    searched (Md.headerPrefix (x ++ e)) kws suf = searched (Md.headerPrefix x) kws suf := by
  rw [searched_eq, searched_eq]
  have hh : ∀ c ∈ e, (c == '#') = false := by
    intro c hc
    have := he c hc
    cases h : c == '#' with
    | false => rfl
    | true => rw [beq_iff_eq.1 h] at this; exact absurd this (by decide)
  by_cases hall : ∀ c ∈ x, (c == '#') = true
  · have h1 : x.takeWhile (· == '#') = x := take_whole hall
    have h2 : (x ++ e).takeWhile (· == '#') = x := by
      rw [List.takeWhile_append_of_pos hall]
      cases e with
      | nil => simp
      | cons c cs => rw [List.takeWhile_cons, if_neg (by simpa using hh c (by simp)), List.append_nil]
    have e1 : Md.headerPrefix x = [] := by
      unfold Md.headerPrefix
      simp [h1]
    rw [e1]
    unfold Md.headerPrefix
    simp only [h2, List.drop_left]
    cases e with
    | nil => rfl
    | cons c cs =>
      simp only
      split
      · rw [List.findSome?_cons, searchOne_none hk _ (fun c' h' => he c' (by simp [h']))]
      · rfl
  · obtain ⟨a, c, b, rfl, ha, hc⟩ := take_split hall
    have hP : ∀ z, Md.headerPrefix (a ++ c :: b ++ z) = if 1 ≤ a.length && a.length ≤ 6 && isSpace c then [(a.length + 1, b ++ z)] else [] := by
      intro z
      unfold Md.headerPrefix
      have : (a ++ c :: b ++ z).takeWhile (· == '#') = a := by
        rw [List.append_assoc, List.takeWhile_append_of_pos ha, List.cons_append, List.takeWhile_cons, if_neg (by simp [hc]), List.append_nil]
      have h2 : (a ++ c :: b ++ z).drop a.length = c :: (b ++ z) := by simp
      simp only [this, h2]
    rw [hP e]
    have := hP []
    rw [List.append_nil] at this
    rw [this, List.append_nil]
    split
    · simp only [List.findSome?_cons, List.findSome?_nil]
      rw [searchOne_eol (fun kw h => (hk kw h).1) _ _ he]
    · rfl

theorem spaceRuns_eol {kws : List Str} {suf : Str} (hk : ∀ kw ∈ kws, NoEol (kw ++ suf) ∧ kw ≠ []) {e : Str} (he : AllP isEol e) : ∀ (r : Str) (n : Nat),
    (Md.spaceRuns n (r ++ e)).findSome? (searchOne kws suf) = (Md.spaceRuns n r).findSome? (searchOne kws suf) := by
  have nil : ∀ (e : Str), AllP isEol e → ∀ n, (Md.spaceRuns n e).findSome? (searchOne kws suf) = none := by
    intro e
    induction e with
    | nil => intro _ n; simp only [Md.spaceRuns, List.findSome?_cons, List.findSome?_nil, searchOne_none hk n (e := []) (by intro c hc; simp at hc)]
    | cons c cs ih =>
      intro he n
      have h1 := searchOne_none hk n he
      unfold Md.spaceRuns
      split
      · rw [List.findSome?_append, ih (fun c h => he c (by simp [h])) (n + 1)]
        simp [h1]
      · simp [h1]
  intro r
  induction r with
  | nil =>
    intro n
    rw [List.nil_append, nil e he n, nil [] (by intro c hc; simp at hc) n]
  | cons c cs ih =>
    intro n
    have h1 := searchOne_eol (fun kw h => (hk kw h).1) n (c :: cs) he
    rw [List.cons_append] at h1 ⊢
    unfold Md.spaceRuns
    split
    · rw [List.findSome?_append, List.findSome?_append, ih]
      simp [h1]
    · simp [h1]

theorem bulletPrefix_eol {kws : List Str} {suf : Str} (hk : ∀ kw ∈ kws, NoEol (kw ++ suf) ∧ kw ≠ []) {x : Str} (hx : x ≠ []) {e : Str} (he : AllP isEol e) :
    searched (Md.bulletPrefix (x ++ e)) kws suf = searched (Md.bulletPrefix x) kws suf := by
  rw [searched_eq, searched_eq]
  cases x with
  | nil => exact absurd rfl hx
  | cons c cs =>
    rw [List.cons_append]
    unfold Md.bulletPrefix
    simp only
    split
    · exact spaceRuns_eol hk he cs 1
    · rfl

/-! ### Tags -/

theorem findTags_plain : ∀ (e : Str), '`' ∉ e → ∀ pos skip, Md.findTags e pos skip = []
  | [], _, _, _ => rfl
  | c :: cs, h, pos, skip => by
    simp only [List.mem_cons, not_or] at h
    cases skip with
    | succ k => exact findTags_plain cs h.2 _ _
    | zero =>
      rw [Md.findTags.eq_def]
      simp only
      split
      · exact absurd rfl h.1
      · exact findTags_plain cs h.2 _ _

theorem findTags_eol {e : Str} (he : AllP isEol e) : ∀ (x : Str) (pos skip : Nat), Md.findTags (x ++ e) pos skip = Md.findTags x pos skip
  | [], pos, skip => by
    rw [List.nil_append, findTags_plain e]
    · rfl
    · intro h; exact absurd (he _ h) (by decide)
  | c :: cs, pos, skip => by
    rw [List.cons_append]
    cases skip with
    | succ k => exact findTags_eol he cs _ _
    | zero =>
      have ih := fun p s => findTags_eol he cs p s
      by_cases hc : c = '`'
      · subst hc
        cases cs with
        | nil =>
          rw [List.nil_append] at ih ⊢
          cases e with
          | nil => rfl
          | cons y ys =>
            have hy : y ≠ '@' := by rintro rfl; exact absurd (he '@' (by simp)) (by decide)
            have e1 : Md.findTags ('`' :: y :: ys) pos 0 = Md.findTags (y :: ys) (pos + 1) 0 := by
              rw [Md.findTags.eq_def]
              simp only
              split
              · rename_i h; simp only [List.cons.injEq] at h; exact absurd h.1 hy
              · rfl
            rw [e1, ih]
            rfl
        | cons y rest =>
          by_cases hy : y = '@'
          · subst hy
            rw [Md.findTags.eq_def, Md.findTags.eq_def ('`' :: '@' :: rest)]
            simp only [List.cons_append] at ih ⊢
            by_cases ht : '`' ∈ rest
            · obtain ⟨a, c, b, rfl, ha, hc⟩ := take_split (p := (· != '`')) (l := rest) fun h => absurd (h _ ht) (by simp)
              have hc' : c = '`' := by simpa using hc
              subst hc'
              have tk : ∀ z, (a ++ '`' :: b ++ z).takeWhile (· != '`') = a := by
                intro z
                rw [List.append_assoc, List.takeWhile_append_of_pos ha, List.cons_append, List.takeWhile_cons, if_neg (by simp), List.append_nil]
              have t1 := tk e
              have t2 := tk []
              rw [List.append_nil] at t2
              have d1 : (a ++ '`' :: b ++ e).drop a.length = '`' :: (b ++ e) := by simp
              have d2 : (a ++ '`' :: b).drop a.length = '`' :: b := by simp
              simp only [t1, t2, d1, d2, ih, List.head?_cons]
            · have k1 : ∀ z ∈ rest, (z != '`') = true := by intro z hz; simp only [bne_iff_ne]; rintro rfl; exact ht hz
              have k2 : ∀ z ∈ rest ++ e, (z != '`') = true := by
                intro z hz
                rcases List.mem_append.1 hz with h | h
                · exact k1 z h
                · have := he z h
                  simp only [bne_iff_ne]
                  rintro rfl; exact absurd this (by decide)
              have t1 := take_whole k1
              have t2 := take_whole k2
              simp only [t1, t2, List.drop_length, List.head?_nil, show ((none : Option Char) == some '`') = false from rfl, Bool.and_false,
                Bool.false_eq_true, if_false]
              exact ih _ _
          · have e1 : ∀ zs, Md.findTags ('`' :: y :: zs) pos 0 = Md.findTags (y :: zs) (pos + 1) 0 := by
              intro zs
              rw [Md.findTags.eq_def]
              simp only
              split
              · rename_i h; simp only [List.cons.injEq] at h; exact absurd h.1 hy
              · rfl
            rw [List.cons_append, e1, e1, ← List.cons_append, ih]
      · have e1 : ∀ zs, Md.findTags (c :: zs) pos 0 = Md.findTags zs (pos + 1) 0 := by
          intro zs
          rw [Md.findTags.eq_def]
          simp only
          split
          · exact absurd rfl hc
          · rfl
        rw [e1, e1, ih]

/-! ### The methods -/

/-- What matching a canonical token gives. -/
def canoRes (r : Except MExc Bool × Token × MdState) : Except MExc Bool × Token × MdState := (r.1, r.2.1.cano, r.2.2)

theorem canon_lineText (l : Line) : ∃ s e e', AllP isEol e ∧ AllP isEol e' ∧ l.lineText = s ++ e ∧ l.canon.lineText = s ++ e' ∧ (s = [] → e = e') := by
  cases hne : l.isEof with
  | true => exact ⟨l.lineText, [], [], by intro c hc; simp at hc, by intro c hc; simp at hc, by simp, by rw [canon_of_eof hne]; simp, fun _ => rfl⟩
  | false =>
    rcases canon_cases l hne with ⟨e, _, _, _, _, h1, h2⟩ | ⟨a, s, e, _, he, hs, _, _, _, h1, h2, _, _⟩
    · exact ⟨[], [], [], by intro c hc; simp at hc, by intro c hc; simp at hc, h1, h2, fun _ => rfl⟩
    · exact ⟨s, e, ['\n'], he, nl_eol, h1, h2, fun h => absurd h hs⟩

theorem canon_tagged (l : Line) : Md.findTags l.canon.lineText 0 0 = Md.findTags l.lineText 0 0 := by
  obtain ⟨s, e, e', he, he', h1, h2, _⟩ := canon_lineText l
  rw [h1, h2, findTags_eol he, findTags_eol he']

theorem canon_header {kws : List Str} {suf : Str} (hk : ∀ kw ∈ kws, NoEol (kw ++ suf) ∧ kw ≠ []) (l : Line) :
    searched (Md.headerPrefix l.canon.lineText) kws suf = searched (Md.headerPrefix l.lineText) kws suf := by
  obtain ⟨s, e, e', he, he', h1, h2, _⟩ := canon_lineText l
  rw [h1, h2, headerPrefix_eol hk _ he, headerPrefix_eol hk _ he']

theorem canon_bullet {kws : List Str} {suf : Str} (hk : ∀ kw ∈ kws, NoEol (kw ++ suf) ∧ kw ≠ []) (l : Line) :
    searched (Md.bulletPrefix l.canon.lineText) kws suf = searched (Md.bulletPrefix l.lineText) kws suf := by
  obtain ⟨s, e, e', he, he', h1, h2, h3⟩ := canon_lineText l
  cases s with
  | nil => rw [h1, h2, h3 rfl]
  | cons c cs => rw [h1, h2, bulletPrefix_eol hk (by simp) he, bulletPrefix_eol hk (by simp) he']

theorem canon_whole (l : Line) : rstripEol l.canon.lineText = rstripEol l.lineText := by
  obtain ⟨s, e, e', he, he', h1, h2, _⟩ := canon_lineText l
  rw [h1, h2, rstripEol_append _ he, rstripEol_append _ he']

theorem found_ink {P : Str → List Md.PrefixMatch} (hP : P [] = []) {kws : List Str} {suf : Str} {l : Line} {x : Nat × Str × Str}
    (h : searched (P l.lineText) kws suf = some x) : l.isBlank = false := by
  cases hb : l.isBlank with
  | false => rfl
  | true =>
    have h0 : l.lineText = [] := by
      have : l.trimmed = [] := by simpa [Line.isBlank] using hb
      exact this
    rw [h0, hP, searched_eq] at h
    simp at h

theorem matchTitle_cano {k : Kind} {P : Str → List Md.PrefixMatch} (hP : P [] = []) {kws : List Str} {suf : Str} (t : Token) (m : MdState)
    (hs : searched (P t.line.canon.lineText) kws suf = searched (P t.line.lineText) kws suf) :
    Md.matchTitle k P kws suf t.cano m = canoRes (Md.matchTitle k P kws suf t m) := by
  rw [matchTitle_by, matchTitle_by, cano_line, hs]
  cases hx : searched (P t.line.lineText) kws suf with
  | none => rfl
  | some x =>
    obtain ⟨n, kw, rest⟩ := x
    have hb := found_ink hP hx
    simp only [canoRes]
    rw [setMatched_cano (x := some rest) rfl (fun h => by rw [hb] at h; simp at h), canon_indent hb]

theorem kws_ok {d : Dialect} (hd : d.Known) {k : Kind} : ∀ kw ∈ d.titles k, NoEol (kw ++ [':']) ∧ kw ≠ [] := by
  intro kw hk
  refine ⟨?_, ?_⟩
  · have := title_noEol hd hk
    intro c hc
    rcases List.mem_append.1 hc with h | h
    · exact this c h
    · simp at h; subst h; rfl
  · have := hd.title_head hk
    rintro rfl; simp [headOk] at this

theorem steps_ok {d : Dialect} (hd : d.Known) : ∀ kw ∈ d.stepKeywords, NoEol (kw ++ []) ∧ kw ≠ [] := by
  intro kw hk
  refine ⟨by rw [List.append_nil]; exact step_noEol hd hk, ?_⟩
  have := hd.step_head hk
  rintro rfl; simp [headOk] at this

theorem matchHeaded_cano {d : Dialect} (hd : d.Known) {k k' : Kind} {kws : List Str} (hk : ∀ kw ∈ kws, kw ∈ d.titles k') (t : Token) (m : MdState) :
    Md.matchTitle k Md.headerPrefix kws [':'] t.cano m = canoRes (Md.matchTitle k Md.headerPrefix kws [':'] t m) :=
  matchTitle_cano rfl t m (canon_header (fun kw h => kws_ok hd kw (hk kw h)) t.line)

theorem mdSep_cano {s : Str} (hs : s ∈ Md.Fences) (o : Bool) (t : Token) (m : MdState) :
    Md.matchSep s o t.cano m = canoRes (Md.matchSep s o t m) := by
  have hne : NoEol s := by
    unfold NoEol
    simp only [Md.Fences, List.mem_cons, List.not_mem_nil, or_false] at hs
    rcases hs with rfl | rfl | rfl <;> decide
  have hn : s ≠ [] := by
    simp only [Md.Fences, List.mem_cons, List.not_mem_nil, or_false] at hs
    rcases hs with rfl | rfl | rfl <;> decide
  unfold Md.matchSep
  rw [cano_line, canon_startsWith _ hne]
  split
  · rename_i hst
    have hb := not_blank_of_prefix hst hn
    have no : ∀ {p : Prop}, t.line.isBlank = true → p := fun h => by rw [hb] at h; simp at h
    cases o with
    | true =>
      simp only [if_true, canoRes]
      rw [setMatched_cano (x := some (t.line.restTrimmed s.length)) (by rw [canon_rest]) no, canon_indent hb]
    | false =>
      simp only [Bool.false_eq_true, if_false, canoRes]
      rw [setMatched_cano (x := some []) rfl no]
  · rfl

theorem mdTag_cano (t : Token) (m : MdState) : Md.matchTagLine t.cano m = canoRes (Md.matchTagLine t m) := by
  unfold Md.matchTagLine
  rw [cano_line, canon_tagged]
  cases hf : Md.findTags t.line.lineText 0 0 with
  | nil => simp only [List.map_nil, List.isEmpty_nil, if_true, canoRes]
  | cons x xs =>
    have hb : t.line.isBlank = false := by
      cases hb : t.line.isBlank with
      | false => rfl
      | true =>
        have h0 : t.line.lineText = [] := by
          have : t.line.trimmed = [] := by simpa [Line.isBlank] using hb
          exact this
        rw [h0] at hf
        simp [Md.findTags] at hf
    simp only [List.map_cons, List.isEmpty_cons, Bool.false_eq_true, if_false, canoRes]
    rw [setMatched_cano (x := none) rfl (fun h => by rw [hb] at h; simp at h), canon_indent hb]

theorem mdFeature_cano {m : MdState} (hd : m.dialect.Known) (t : Token) : Md.matchFeature t.cano m = canoRes (Md.matchFeature t m) := by
  unfold Md.matchFeature
  split
  · simp only [canoRes]
    rw [setMatched_cano (x := none) rfl (fun _ => by simp [indented])]
  · rw [matchHeaded_cano hd (k := .featureLine) (k' := .featureLine) (kws := m.dialect.feature) (fun kw h => h) t m]
    rcases hx : Md.matchTitle .featureLine Md.headerPrefix m.dialect.feature [':'] t m with ⟨r, t', m'⟩
    have other : (Except.ok true, setMatched m.dialectName t.cano (some .featureLine) (some t.cano.line.lineText) none none none [],
        { m with matchedFeature := true }) = canoRes (.ok true, setMatched m.dialectName t (some .featureLine) (some t.line.lineText) none none none [],
        { m with matchedFeature := true }) := by
      simp only [canoRes]
      rw [setMatched_cano (x := some t.line.lineText) (by rw [cano_line]; simp [canon_whole]) (fun _ => by simp [indented])]
    rcases r with e | _ | _
    · exact other
    · exact other
    · rfl

theorem mdScenario_cano {m : MdState} (hd : m.dialect.Known) (t : Token) : Md.matchScenario t.cano m = canoRes (Md.matchScenario t m) := by
  unfold Md.matchScenario
  have h1 := matchHeaded_cano hd (k := .scenarioLine) (k' := .scenarioLine) (kws := m.dialect.scenario) (fun kw h => by simp [Dialect.titles, h]) t m
  rw [h1]
  rcases hx : Md.matchTitle .scenarioLine Md.headerPrefix m.dialect.scenario [':'] t m with ⟨r, t', m'⟩
  rcases r with e | _ | _
  · rfl
  · have hm : m' = m := by
      rw [matchTitle_by] at hx
      split at hx <;> cases hx
      rfl
    simp only [canoRes]
    rw [hm]
    exact matchHeaded_cano hd (k' := .scenarioLine) (fun kw h => by simp [Dialect.titles, h]) t' m
  · rfl

theorem mdRow_cano (t : Token) (m : MdState) : Md.matchTableRow t.cano m = canoRes (Md.matchTableRow t m) := by
  unfold Md.matchTableRow
  rw [cano_line, canon_startsWith _ (by unfold NoEol; decide), canon_cells]
  cases hst : t.line.startsWith ['|'] with
  | false => simp only [Bool.and_false, Bool.false_eq_true, if_false, canoRes]
  | true =>
    have hb := not_blank_of_prefix hst (by simp)
    rw [canon_indent hb]
    split
    · cases t.line.tableCells with
      | error c => rfl
      | ok cells =>
        simp only
        split
        · rfl
        · simp only [canoRes]
          rw [setMatched_cano (x := none) rfl (fun h => by rw [hb] at h; simp at h)]
    · rfl

theorem mdComment_cano (t : Token) (m : MdState) : Md.matchComment t.cano m = canoRes (Md.matchComment t m) := by
  unfold Md.matchComment
  rw [cano_line, canon_startsWith _ (by unfold NoEol; decide), canon_cells]
  have hset := setMatched_cano (dn := m.dialectName) (t := t) (k := some .comment) (x := none) (x' := none) (kw := none) (kt := none) (i := none)
    (its := []) rfl (fun _ => by simp [indented])
  simp only [hset]
  split
  · cases t.line.tableCells with
    | error c => rfl
    | ok cells => rfl
  · rfl

theorem mdDocSep_cano {m : MdState} (hm : ∀ f, m.active = some f → f ∈ Md.Fences) (t : Token) : Md.matchDocSep t.cano m = canoRes (Md.matchDocSep t m) := by
  unfold Md.matchDocSep
  cases ha : m.active with
  | none =>
    simp only
    rw [cano_line, canon_startsWith _ (by unfold NoEol; decide), canon_startsWith _ (by unfold NoEol; decide)]
    split
    · exact mdSep_cano (by simp [Md.Fences]) true t m
    · split
      · exact mdSep_cano (by simp [Md.Fences]) true t m
      · exact mdSep_cano (by simp [Md.Fences]) true t m
  | some s => exact mdSep_cano (hm s ha) false t m

theorem mdEof_cano (t : Token) (m : MdState) : Md.matchEof t.cano m = canoRes (Md.matchEof t m) := by
  unfold Md.matchEof
  rw [cano_eof]
  split
  · rename_i h
    simp only [canoRes]
    rw [setMatched_cano (x := none) rfl (fun _ => by simp only [indented]; exact .inl h)]
  · rfl

theorem mdSimple_cano {lang : Str} {d : Dialect} (hd : d.Known) {k : Kind} (hk : k ≠ .empty) (t : Token) {m : MdState} (hm : Md.Fenced lang d m) :
    Md.matchKind k t.cano m = canoRes (Md.matchKind k t m) := by
  have hd' : m.dialect.Known := by rw [hm.1.2]; exact hd
  cases k <;> simp only [Md.matchKind]
  case empty => exact absurd rfl hk
  case eof => exact mdEof_cano t m
  case comment => exact mdComment_cano t m
  case tagLine => exact mdTag_cano t m
  case featureLine => exact mdFeature_cano hd' t
  case ruleLine => exact matchHeaded_cano hd' (k' := .ruleLine) (fun kw h => h) t m
  case backgroundLine => exact matchHeaded_cano hd' (k' := .backgroundLine) (fun kw h => h) t m
  case scenarioLine => exact mdScenario_cano hd' t
  case examplesLine => exact matchHeaded_cano hd' (k' := .examplesLine) (fun kw h => h) t m
  case stepLine => exact matchTitle_cano rfl t m (canon_bullet (steps_ok hd') t.line)
  case docStringSeparator => exact mdDocSep_cano hm.2 t
  case tableRow => exact mdRow_cano t m
  case language => rfl
  case other =>
    unfold Md.matchOther
    simp only [canoRes]
    rw [setMatched_cano (x := some (Classic.unescapeDoc m.active (t.line.lineTextFrom m.indentToRemove))) _ (fun _ => by simp [indented])]
    rw [cano_line, Option.map_some, Option.map_some, canon_other]

theorem mdOrElse_cano {lang : Str} {d : Dialect} (hd : d.Known) : ∀ {ks : List Kind}, (∀ k ∈ ks, k ≠ .empty) → ∀ (t : Token) {m : MdState}, Md.Fenced lang d m →
    Md.orElse (ks.map Md.matchKind) t.cano m = canoRes (Md.orElse (ks.map Md.matchKind) t m)
  | [], _, t, m, _ => rfl
  | k :: ks, hk, t, m, hm => by
    have h1 := mdSimple_cano hd (hk k (by simp)) t hm
    have h2 := fenced_keep k t m hm
    simp only [List.map_cons, Md.orElse]
    rw [h1]
    rcases hx : Md.matchKind k t m with ⟨r, t', m'⟩
    rw [hx] at h2
    rcases r with e | _ | _
    · rfl
    · exact mdOrElse_cano hd (fun k h => hk k (by simp [h])) t' h2
    · rfl

theorem mdKind_cano {lang : Str} {d : Dialect} (hd : d.Known) (k : Kind) (t : Token) {m : MdState} (hm : Md.Fenced lang d m) :
    Md.matchKind k t.cano m = canoRes (Md.matchKind k t m) := by
  by_cases hk : k = .empty
  · subst hk
    simp only [Md.matchKind]
    unfold Md.matchEmpty
    rw [Md.probes_eq, mdOrElse_cano hd Md.probe_kinds t hm, cano_line, canon_blank]
    rcases hx : Md.orElse (Md.probeKinds.map Md.matchKind) t m with ⟨r, t', m'⟩
    cases r with
    | error e => rfl
    | ok found =>
      simp only [canoRes]
      split
      · rw [setMatched_cano (x := none) rfl (fun _ => by simp [indented])]
      · rfl
  · exact mdSimple_cano hd hk t hm

end Gherkin
