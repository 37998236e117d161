import Verif.Proofs.BuiltIn
import Verif.Proofs.Quote
import Verif.Proofs.MdOrder
import Verif.Proofs.Eol

/-! Tokens that the Markdown matcher makes quote the text. -/

namespace Gherkin

open Markdown

/-- A line has a line feed at its end only. -/
theorem splitLines_lf (text : Str) : ∀ s ∈ splitLines text, ∃ body, '\n' ∉ body ∧ (s = body ∨ s = body ++ ['\n']) := by
  induction text with
  | nil => simp [splitLines]
  | cons c cs ih =>
    simp only [splitLines]
    split
    · rename_i hc
      intro s hs
      rcases List.mem_cons.1 hs with rfl | hs
      · exact ⟨[], by simp, .inr rfl⟩
      · exact ih s hs
    · rename_i hc
      have hc' : '\n' ≠ c := by intro h; apply hc; simp [← h]
      split
      · intro s hs
        simp at hs; subst hs
        exact ⟨[c], by simpa using hc', .inl rfl⟩
      · rename_i l ls h
        intro s hs
        rcases List.mem_cons.1 hs with rfl | hs
        · obtain ⟨body, h1, h2⟩ := ih l (by rw [h]; simp)
          refine ⟨c :: body, by simp [hc', h1], ?_⟩
          rcases h2 with rfl | rfl <;> simp
        · exact ih s (by rw [h]; simp [hs])

theorem strip_takeWhile {a b : Str} (h : ∃ body, '\n' ∉ body ∧ (a ++ b = body ∨ a ++ b = body ++ ['\n'])) :
    strip (b.takeWhile (· != '\n')) = strip b := by
  have key : ∀ b : Str, '\n' ∉ b → ∀ w, b.takeWhile (· != '\n') = b ∧ (b ++ '\n' :: w).takeWhile (· != '\n') = b := by
    intro b hb w
    induction b with
    | nil => exact ⟨rfl, rfl⟩
    | cons c b ih =>
      simp only [List.mem_cons, not_or] at hb
      have hc : (c != '\n') = true := by simpa using fun e => hb.1 e.symm
      obtain ⟨i1, i2⟩ := ih hb.2
      exact ⟨by rw [List.takeWhile_cons, if_pos hc, i1], by rw [List.cons_append, List.takeWhile_cons, if_pos hc, i2]⟩
  obtain ⟨body, hn, h | h⟩ := h
  · rw [(key b (fun hb => hn (by rw [← h]; simp [hb])) []).1]
  · by_cases hb : b = []
    · rw [hb]; rfl
    · obtain ⟨i, x, hi⟩ : ∃ i x, b = i ++ [x] := ⟨b.dropLast, b.getLast hb, (List.dropLast_append_getLast hb).symm⟩
      rw [hi, ← List.append_assoc] at h
      have h1 : a ++ i = body ∧ [x] = ['\n'] := List.append_inj' h rfl
      have hx : x = '\n' := by simpa using h1.2
      rw [hi, hx, (key i (fun hb => hn (by rw [← h1.1]; simp [hb])) []).2, strip_append_white]
      intro c hc; simp at hc; subst hc; decide

theorem takeWhile_hash (s : Str) : s.takeWhile (· == '#') = List.replicate (s.takeWhile (· == '#')).length '#' := by
  induction s with
  | nil => rfl
  | cons c s ih =>
    rw [List.takeWhile_cons]
    split
    · rename_i hc
      have hc' : c = '#' := by simpa using hc
      rw [List.length_cons, List.replicate_succ, ← ih, hc']
    · rfl

theorem headerPrefix_spec {s : Str} {n : Nat} {rest : Str} (h : (n, rest) ∈ Md.headerPrefix s) :
    ∃ k sp, 1 ≤ k ∧ k ≤ 6 ∧ isSpace sp = true ∧ n = k + 1 ∧ s = List.replicate k '#' ++ sp :: rest := by
  unfold Md.headerPrefix at h
  simp only at h
  split at h
  · rename_i c r hd
    split at h
    · rename_i hc
      simp only [Bool.and_eq_true, decide_eq_true_eq] at hc
      simp only [List.mem_singleton, Prod.mk.injEq] at h
      obtain ⟨rfl, rfl⟩ := h
      refine ⟨_, c, hc.1.1, hc.1.2, hc.2, rfl, ?_⟩
      rw [← hd, ← takeWhile_hash]
      have h1 := List.takeWhile_append_dropWhile (p := (· == '#')) (l := s)
      have h2 : s.drop (s.takeWhile (· == '#')).length = s.dropWhile (· == '#') := by
        conv => lhs; rw [← h1]
        rw [List.drop_left' ?_]
        rw [h1]
      rw [h2, h1]
    · simp at h
  · simp at h

theorem spaceRuns_spec {n0 : Nat} {s : Str} {n : Nat} {rest : Str} (h : (n, rest) ∈ Md.spaceRuns n0 s) :
    ∃ gap, White gap ∧ n = n0 + gap.length ∧ s = gap ++ rest := by
  induction s generalizing n0 with
  | nil => simp [Md.spaceRuns] at h; obtain ⟨rfl, rfl⟩ := h; exact ⟨[], by intro c hc; simp at hc, rfl, rfl⟩
  | cons c s ih =>
    rw [Md.spaceRuns] at h
    split at h
    · rename_i hc
      rw [List.mem_append, List.mem_singleton] at h
      rcases h with h | h
      · obtain ⟨gap, h1, h2, h3⟩ := ih h
        refine ⟨c :: gap, ?_, by rw [h2, List.length_cons]; omega, by rw [h3]; rfl⟩
        intro x hx
        rcases List.mem_cons.1 hx with rfl | hx
        · exact hc
        · exact h1 x hx
      · cases h; exact ⟨[], by intro c hc; simp at hc, rfl, rfl⟩
    · simp at h; obtain ⟨rfl, rfl⟩ := h; exact ⟨[], by intro c hc; simp at hc, rfl, rfl⟩

theorem bulletPrefix_spec {s : Str} {n : Nat} {rest : Str} (h : (n, rest) ∈ Md.bulletPrefix s) :
    ∃ b gap, (b = '*' ∨ b = '+' ∨ b = '-') ∧ White gap ∧ n = gap.length + 1 ∧ s = b :: (gap ++ rest) := by
  unfold Md.bulletPrefix at h
  split at h
  · rename_i c r
    split at h
    · rename_i hc
      obtain ⟨gap, h1, h2, h3⟩ := spaceRuns_spec h
      refine ⟨c, gap, ?_, h1, by omega, by rw [h3]⟩
      simp only [Bool.or_eq_true, beq_iff_eq] at hc
      tauto
    · simp at h
  · simp at h

theorem searchTitle_spec {ps : List Md.PrefixMatch} {kws : List Str} {suf : Str} {n : Nat} {kw r : Str} (h : Md.searchTitle ps kws suf = some (n, kw, r)) :
    ∃ rest, (n, rest) ∈ ps ∧ kw ∈ kws ∧ rest = kw ++ suf ++ rest.drop (kw.length + suf.length) ∧
      r = (rest.drop (kw.length + suf.length)).takeWhile (· != '\n') := by
  unfold Md.searchTitle at h
  obtain ⟨⟨n', rest⟩, hm, hx⟩ := List.exists_of_findSome?_eq_some h
  simp only [Option.map_eq_some_iff] at hx
  obtain ⟨kw', hk, hx⟩ := hx
  cases hx
  refine ⟨rest, hm, List.mem_of_find?_eq_some hk, ?_, rfl⟩
  have h1 : startsWith rest (kw ++ suf) = true := by simpa using List.find?_some hk
  have := startsWith_split h1
  simpa using this

theorem keywordTypes_first {d : Dialect} {kw : Str} (h : kw ∈ d.given ++ d.when_ ++ d.then_ ++ d.and_ ++ d.but_) :
    ∃ t, (d.keywordTypes kw).head? = some t ∧ FirstType d kw t := by
  have hf : ∀ (l : List Str) (t : KType), kw ∉ l → (l.filter (· == kw)).map (fun _ => t) = [] := by
    intro l t hl
    rw [List.map_eq_nil_iff, List.filter_eq_nil_iff]
    intro a ha hk
    have : a = kw := by simpa using hk
    exact hl (this ▸ ha)
  have ht : ∀ (l : List Str) (t : KType), kw ∈ l → ∃ r, (l.filter (· == kw)).map (fun _ => t) = t :: r := by
    intro l t hl
    have : kw ∈ l.filter (· == kw) := by rw [List.mem_filter]; exact ⟨hl, by simp⟩
    cases hc : l.filter (· == kw) with
    | nil => rw [hc] at this; simp at this
    | cons a r => exact ⟨_, rfl⟩
  unfold Dialect.keywordTypes
  by_cases h1 : kw ∈ d.given
  · obtain ⟨r, hr⟩ := ht _ .context h1
    exact ⟨.context, by rw [hr]; rfl, .inl ⟨rfl, h1⟩⟩
  rw [hf _ _ h1]
  by_cases h2 : kw ∈ d.when_
  · obtain ⟨r, hr⟩ := ht _ .action h2
    exact ⟨.action, by rw [hr]; rfl, .inr (.inl ⟨rfl, h1, h2⟩)⟩
  rw [hf _ _ h2]
  by_cases h3 : kw ∈ d.then_
  · obtain ⟨r, hr⟩ := ht _ .outcome h3
    exact ⟨.outcome, by rw [hr]; rfl, .inr (.inr (.inl ⟨rfl, by simp [h1, h2], h3⟩))⟩
  rw [hf _ _ h3]
  have h4 : kw ∈ d.and_ ++ d.but_ := by
    simp only [List.mem_append] at h ⊢
    rcases h with (((h | h) | h) | h) | h
    · exact absurd h h1
    · exact absurd h h2
    · exact absurd h h3
    · exact .inl h
    · exact .inr h
  obtain ⟨r, hr⟩ := ht _ .conjunction h4
  exact ⟨.conjunction, by rw [hr]; rfl, .inr (.inr (.inr ⟨rfl, by simp [h1, h2, h3], h4⟩))⟩

namespace Md

/-- What recognising a feature and a doc string separator keeps, every match keeps. -/
theorem md_keep {P : MdState → Prop} (hfeat : ∀ m, P m → P { m with matchedFeature := true }) (hsep : ∀ t m, P m → P (matchDocSep t m).2.2)
    (k : Kind) (t : Token) (m : MdState) (hm : P m) : P (matchKind k t m).2.2 := by
  have title : ∀ k p ks s t (m : MdState), P m → P (matchTitle k p ks s t m).2.2 := by
    intro k p ks s t m h; rw [(matchTitle_state _ _ _ _ _ _).1]; exact h
  have feat : ∀ (t : Token) (m : MdState), P m → P (matchFeature t m).2.2 := by
    intro t m hm
    unfold matchFeature
    split
    · exact hm
    · have := title .featureLine headerPrefix m.dialect.feature [':'] t m hm
      rcases hx : matchTitle .featureLine headerPrefix m.dialect.feature [':'] t m with ⟨r, t1, m1⟩
      rw [hx] at this
      split
      · rename_i h; cases h; exact hfeat _ this
      · exact hfeat _ hm
  have row : ∀ (t : Token) (m : MdState), (matchTableRow t m).2.2 = m := by
    intro t m; unfold matchTableRow; repeat' split
    all_goals rfl
  have com : ∀ (t : Token) (m : MdState), (matchComment t m).2.2 = m := by
    intro t m; unfold matchComment; simp only; repeat' split
    all_goals rfl
  have eo : ∀ (t : Token) (m : MdState), (matchEof t m).2.2 = m := by
    intro t m; unfold matchEof; split <;> rfl
  cases k <;> simp only [matchKind]
  case eof => rw [eo]; exact hm
  case comment => rw [com]; exact hm
  case tagLine => rw [(tag_state _ _).1]; exact hm
  case featureLine => exact feat t m hm
  case scenarioLine => rw [(scenario_state _ _).1]; exact hm
  case docStringSeparator => exact hsep _ _ hm
  case tableRow => rw [row]; exact hm
  case language => exact hm
  case other => exact hm
  case empty =>
    have key : ∀ (gs : List (Token → MdState → Except MExc Bool × Token × MdState)), (∀ g ∈ gs, g ∈ emptyProbes) →
        ∀ (t' : Token) (m : MdState), t'.line = t.line → P m → P (orElse gs t' m).2.2 := by
      intro gs
      induction gs with
      | nil => intro _ t' m _ h; exact h
      | cons g gs ih =>
        intro hgs t' m ht hm
        have hg := hgs g (by simp)
        have h1 : P (g t' m).2.2 := by
          simp only [emptyProbes, List.mem_cons, List.not_mem_nil, or_false] at hg
          rcases hg with h | h | h | h | h | h | h | h | h | h | h | h <;> subst h
          · rw [(tag_state _ _).1]; exact hm
          · exact feat _ _ hm
          · rw [(scenario_state _ _).1]; exact hm
          · exact title _ _ _ _ _ _ hm
          · exact title _ _ _ _ _ _ hm
          · exact title _ _ _ _ _ _ hm
          · rw [row]; exact hm
          · rw [com]; exact hm
          · exact hm
          · exact hsep _ _ hm
          · rw [eo]; exact hm
          · exact title _ _ _ _ _ _ hm
        have h2 : (g t' m).2.1.line = t'.line := by
          obtain ⟨k, hk⟩ := emptyProbes_good g hg t' m
          exact hk.line
        unfold orElse
        split
        · rename_i t1 m1 heq
          rw [heq] at h1 h2
          exact ih (fun g hg => hgs g (by simp [hg])) t1 m1 (h2.trans ht) h1
        · exact h1
    have h1 := key emptyProbes (fun _ h => h) t m rfl hm
    unfold matchEmpty
    rcases hx : orElse emptyProbes t m with ⟨r, t1, m1⟩
    rw [hx] at h1
    rcases r with e | b
    · exact h1
    · simp only
      split <;> exact h1
  all_goals exact title _ _ _ _ _ _ hm

end Md

section
variable {text lang : Str} {d : Dialect}

theorem md_title {t0 t : Token} {m m' : MdState} {k : Kind} {kws : List Str}
    (hl : LineIs text t0.line.number t0.line.text) (hn : t0.loc.line = t0.line.number)
    (h : Md.matchTitle k Md.headerPrefix kws [':'] t0 m = (.ok true, t, m')) :
    Heading text kws t.loc t.keyword t.text ∧ t.dialect = some m.dialectName := by
  unfold Md.matchTitle at h
  split at h
  · rename_i n kw r hf
    simp only [Prod.mk.injEq, true_and] at h
    obtain ⟨rfl, rfl⟩ := h
    obtain ⟨rest, hm, hk, hr, rfl⟩ := searchTitle_spec hf
    obtain ⟨c, sp, c1, c2, c3, rfl, hs⟩ := headerPrefix_spec hm
    obtain ⟨a, ha, ht, _, hi⟩ := trimmed_spec t0.line
    refine ⟨⟨kw, a, c, sp, rest.drop (kw.length + 1), rfl, hk, ha, c1, c2, c3, ?_, ?_, ?_⟩, rfl⟩
    · have e : a ++ List.replicate c '#' ++ sp :: (kw ++ ':' :: rest.drop (kw.length + 1)) = t0.line.text := by
        have hr' : rest = kw ++ ':' :: rest.drop (kw.length + 1) := by simpa using hr
        rw [ht, ← hr', show t0.line.trimmed = t0.line.lineText from rfl, hs]; simp
      rw [e]
      simpa [setMatched, hn] using hl
    · simp [setMatched, ← hi]; omega
    · simp only [setMatched, Option.map_some, rstripEol_strip, Option.some.injEq]
      refine strip_takeWhile (a := a ++ List.replicate c '#' ++ sp :: (kw ++ [':'])) ?_
      obtain ⟨body, h1, h2⟩ := splitLines_lf text t0.line.text (by have := hl.2; exact List.mem_of_getElem? this)
      refine ⟨body, h1, ?_⟩
      have e : a ++ List.replicate c '#' ++ sp :: (kw ++ [':']) ++ rest.drop (kw.length + [':'].length) = t0.line.text := by
        have hr' : rest = kw ++ ':' :: rest.drop (kw.length + 1) := by simpa using hr
        rw [ht, show t0.line.trimmed = t0.line.lineText from rfl, hs]
        conv => rhs; rw [hr']
        simp
      rw [e]; exact h2
  · simp at h

theorem md_step {t0 t : Token} {m m' : MdState}
    (hl : LineIs text t0.line.number t0.line.text) (hn : t0.loc.line = t0.line.number)
    (h : Md.matchStep t0 m = (.ok true, t, m')) :
    Bullet text (m.dialect.given ++ m.dialect.when_ ++ m.dialect.then_ ++ m.dialect.and_ ++ m.dialect.but_) t.loc t.keyword t.text ∧
      ∃ k ty, t.keyword = some k ∧ t.keywordType = some ty ∧ FirstType m.dialect k ty := by
  unfold Md.matchStep Md.matchTitle at h
  split at h
  · rename_i n kw r hf
    simp only [Prod.mk.injEq, true_and] at h
    obtain ⟨rfl, rfl⟩ := h
    obtain ⟨rest, hm, hk, hr, rfl⟩ := searchTitle_spec hf
    obtain ⟨b, gap, hb, hg, rfl, hs⟩ := bulletPrefix_spec hm
    obtain ⟨a, ha, ht, _, hi⟩ := trimmed_spec t0.line
    have hr' : rest = kw ++ rest.drop kw.length := by simpa using hr
    have e : a ++ b :: (gap ++ kw ++ rest.drop kw.length) = t0.line.text := by
      rw [ht, show t0.line.trimmed = t0.line.lineText from rfl, hs]
      conv => rhs; rw [hr']
      simp
    refine ⟨⟨kw, a, b, gap, rest.drop kw.length, rfl, hk, ha, hb, hg, ?_, ?_, ?_⟩, kw, ?_⟩
    · rw [e]
      simpa [setMatched, hn] using hl
    · simp [setMatched, ← hi]; omega
    · simp only [setMatched, Option.map_some, rstripEol_strip, Option.some.injEq]
      refine strip_takeWhile (a := a ++ b :: (gap ++ kw)) ?_
      obtain ⟨body, h1, h2⟩ := splitLines_lf text t0.line.text (by have := hl.2; exact List.mem_of_getElem? this)
      refine ⟨body, h1, ?_⟩
      rw [← e] at h2
      simpa using h2
    · obtain ⟨ty, h1, h2⟩ := keywordTypes_first hk
      exact ⟨ty, rfl, h1, h2⟩
  · simp at h

theorem findTags_spec (s : Str) : ∀ (pos skip : Nat) (p : Nat) (name : Str), (p, name) ∈ Md.findTags s pos skip →
    ∃ pre n rest, name = '@' :: n ∧ n ≠ [] ∧ '`' ∉ n ∧ s = pre ++ '`' :: (name ++ '`' :: rest) ∧ p = pos + pre.length := by
  induction s with
  | nil => intro pos skip p name h; simp [Md.findTags] at h
  | cons c cs ih =>
    intro pos skip p name h
    have shift : ∀ {pos' skip'}, pos' = pos + 1 → (p, name) ∈ Md.findTags cs pos' skip' →
        ∃ pre n rest, name = '@' :: n ∧ n ≠ [] ∧ '`' ∉ n ∧ c :: cs = pre ++ '`' :: (name ++ '`' :: rest) ∧ p = pos + pre.length := by
      intro pos' skip' hp h
      obtain ⟨pre, n, rest, h1, h2, h3, h4, h5⟩ := ih _ _ _ _ h
      exact ⟨c :: pre, n, rest, h1, h2, h3, by rw [h4]; rfl, by simp [h5]; omega⟩
    rw [Md.findTags.eq_def] at h
    simp only at h
    split at h
    · exact shift rfl h
    · split at h
      · rename_i rest
        split at h
        · rename_i hc
          rcases List.mem_cons.1 h with h | h
          · cases h
            simp only [Bool.and_eq_true, Bool.not_eq_true', beq_iff_eq] at hc
            refine ⟨[], rest.takeWhile (· != '`'), (rest.drop (rest.takeWhile (· != '`')).length).tail, rfl, ?_, ?_, ?_, rfl⟩
            · intro hn; rw [hn] at hc; simp at hc
            · intro hm
              have := List.all_takeWhile (p := (· != '`')) (l := rest)
              rw [List.all_eq_true] at this
              have := this _ hm
              simp at this
            · obtain ⟨_, hh⟩ := hc
              have h1 := List.takeWhile_append_dropWhile (p := (· != '`')) (l := rest)
              have h2 : rest.drop (rest.takeWhile (· != '`')).length = rest.dropWhile (· != '`') := by
                conv => lhs; rw [← h1]
                rw [List.drop_left' ?_]
                rw [h1]
              rw [h2] at hh ⊢
              obtain ⟨x, hx⟩ : ∃ x, rest.dropWhile (· != '`') = '`' :: x := by
                cases hd : rest.dropWhile (· != '`') with
                | nil => rw [hd] at hh; simp at hh
                | cons y x => rw [hd] at hh; simp at hh; exact ⟨x, by rw [hh]⟩
              rw [hx]
              simp only [List.nil_append, List.tail_cons, List.cons_append, List.cons.injEq, true_and]
              rw [← hx, h1]
          · exact shift rfl h
        · exact shift rfl h
      · exact shift rfl h

theorem md_tag {t0 t : Token} {m m' : MdState}
    (hl : LineIs text t0.line.number t0.line.text) (hn : t0.loc.line = t0.line.number)
    (h : Md.matchTagLine t0 m = (.ok true, t, m')) {i : MItem} (hi : i ∈ t.items) : QuotedTag text (Cst.itemLoc t i.column) i.text := by
  unfold Md.matchTagLine at h
  simp only at h
  split at h
  · simp at h
  · simp only [Prod.mk.injEq, true_and] at h
    obtain ⟨rfl, rfl⟩ := h
    simp only [setMatched, List.mem_map] at hi
    obtain ⟨⟨p, name⟩, hp, rfl⟩ := hi
    obtain ⟨pre, n, rest, h1, h2, h3, h4, h5⟩ := findTags_spec _ _ _ _ _ hp
    obtain ⟨a, ha, ht, _, hind⟩ := trimmed_spec t0.line
    refine ⟨a ++ pre, n, rest, h1, h2, h3, ?_, ?_⟩
    · rw [List.append_assoc, ← h4, show t0.line.lineText = t0.line.trimmed from rfl, ← ht]
      simpa [Cst.itemLoc, setMatched, hn] using hl
    · simp [Cst.itemLoc, h5, ← hind]

theorem dashes_sep {s : Str} (h : Dashes s) : Md.isSepText s = true := by
  obtain ⟨a, n, b, ha, hb, rfl⟩ := h
  have hd : ∀ (n : Nat) (b : Str), (b = [] ∨ b = [':']) → (List.replicate n '-' ++ b).dropWhile (· == '-') = b := by
    intro n b hb
    induction n with
    | zero => rcases hb with rfl | rfl <;> rfl
    | succ n ih => rw [List.replicate_succ, List.cons_append, List.dropWhile_cons]; simpa using ih
  have h1 : Md.isSepText (List.replicate (n + 1) '-' ++ b) = true := by
    unfold Md.isSepText
    have := hd (n + 1) b hb
    rw [List.replicate_succ, List.cons_append] at this ⊢
    simp only [this]
    rcases hb with rfl | rfl <;> simp
  rcases ha with rfl | rfl
  · simpa using h1
  · unfold Md.isSepText at h1 ⊢
    rw [List.replicate_succ, List.cons_append] at h1
    simp only at h1
    rw [List.replicate_succ, List.append_assoc]
    simp only [List.singleton_append, List.cons_append]
    exact h1

theorem md_row {t0 t : Token} {m m' : MdState}
    (hl : LineIs text t0.line.number t0.line.text) (hn : t0.loc.line = t0.line.number) (he : t0.line.isEof = false)
    (h : Md.matchTableRow t0 m = (.ok true, t, m')) :
    QuotedRow text t.loc (t.items.map fun i => { loc := Cst.itemLoc t i.column, value := i.text }) := by
  unfold Md.matchTableRow at h
  split at h
  · rename_i hc
    simp only [Bool.and_eq_true, decide_eq_true_eq] at hc
    split at h
    · rename_i cells hcells
      split at h
      · simp at h
      · rename_i hsep
        simp only [Prod.mk.injEq, true_and] at h
        obtain ⟨rfl, rfl⟩ := h
        have hc' : Classic.matchTableRow t0 default = (.ok true, setMatched (default : CState).dialectName t0 (some .tableRow) none none none none cells, default) := by
          unfold Classic.matchTableRow; rw [if_pos hc.2, hcells]
        refine ⟨?_, ⟨t0.line.indent + 1, by simp [setMatched, he], by omega⟩, ?_⟩
        · have := row_quotes hl hn he hc'
          simpa [setMatched, Cst.itemLoc] using this
        · intro c hcm hd
          simp only [List.mem_map] at hcm
          obtain ⟨i, hi, rfl⟩ := hcm
          apply hsep
          simp only [Md.isGfmSeparator, List.any_eq_true]
          exact ⟨i, hi, dashes_sep hd⟩
    · simp at h
  · simp at h

/-- The state has this language. -/
def Md.Speaks (lang : Str) (d : Dialect) (m : MdState) : Prop := m.dialectName = lang ∧ m.dialect = d

theorem md_quoted {t : Token} {k : Kind} (hs : TokSrc text t) (hk : t.type = some k) (heof : k = .eof ↔ t.eof = true)
    (hb : BuiltIn markdown (Md.Speaks lang d) k t) : ∀ e ∈ t.entries, Quoted text lang d e := by
  obtain ⟨t0, m, m', ⟨hm1, hm2⟩, hl0, hm⟩ := hb
  have hll : t0.loc.line = t.loc.line := by
    have := markdown_lawful.locLine k t0 m
    simp only [markdown] at this hm
    rw [hm] at this; exact this.symm
  have hn : t0.loc.line = t0.line.number := by rw [hll, hl0]; exact hs.2
  by_cases he : t.eof = true
  · have := heof.2 he; subst this
    simp [Token.entries, hk]
  · have he' : t0.line.isEof = false := by rw [hl0]; simpa [Token.eof] using he
    have hL : LineIs text t0.line.number t0.line.text := by rw [hl0] at he' ⊢; exact tokenLines_lineIs hs.1 he'
    simp only [markdown] at hm
    cases k <;> simp only [Md.matchKind] at hm <;> simp only [Token.entries, hk, List.not_mem_nil, false_implies, implies_true,
      List.mem_singleton, forall_eq, List.mem_map, Quoted]
    case tagLine => rintro e ⟨i, hi, rfl⟩; exact md_tag hL hn hm hi
    case tableRow => exact md_row hL hn he' hm
    case stepLine => rw [← hm2]; exact md_step hL hn hm
    case ruleLine => rw [← hm2]; exact (md_title hL hn hm).1
    case backgroundLine => rw [← hm2]; exact (md_title hL hn hm).1
    case examplesLine => rw [← hm2]; exact (md_title hL hn hm).1
    case scenarioLine =>
      rw [← hm2]
      unfold Md.matchScenario at hm
      have grow : ∀ {kws kws' : List Str} {loc a b}, (∀ x ∈ kws, x ∈ kws') → Heading text kws loc a b → Heading text kws' loc a b := by
        rintro kws kws' loc a b hsub ⟨kw, pre, n, sp, rest, h1, h2, h3⟩
        exact ⟨kw, pre, n, sp, rest, h1, hsub _ h2, h3⟩
      rcases ht : Md.matchTitle .scenarioLine Md.headerPrefix m.dialect.scenario [':'] t0 m with ⟨x, t1, m1⟩
      rw [ht] at hm
      have hst := Md.matchTitle_state .scenarioLine Md.headerPrefix m.dialect.scenario [':'] t0 m
      split at hm
      · rename_i heq
        cases heq
        have : t1 = t0 ∧ m1 = m := by
          unfold Md.matchTitle at ht
          split at ht
          · simp at ht
          · simp only [Prod.mk.injEq, true_and] at ht; exact ⟨ht.1.symm, ht.2.symm⟩
        obtain ⟨rfl, rfl⟩ := this
        exact grow (by simp +contextual) (md_title hL hn hm).1
      · cases hm
        exact grow (by simp +contextual) (md_title hL hn ht).1
    case featureLine =>
      unfold Md.matchFeature at hm
      split at hm
      · simp at hm
      · split at hm
        · rename_i t' m1 heq
          simp only [Prod.mk.injEq, true_and] at hm
          obtain ⟨rfl, rfl⟩ := hm
          have := md_title hL hn heq
          rw [← hm1, ← hm2]
          exact ⟨this.2, .inl this.1⟩
        · simp only [Prod.mk.injEq, true_and] at hm
          obtain ⟨rfl, rfl⟩ := hm
          refine ⟨by simp [setMatched, hm1], .inr ⟨rfl, ?_⟩⟩
          obtain ⟨a, ha, ht, hnh, hi⟩ := trimmed_spec t0.line
          refine ⟨a, t0.line.trimmed, ha, hnh, ?_, ?_, rfl⟩
          · rw [← ht]; simpa [setMatched, hn] using hL
          · simp [setMatched, he', hi]

/-- Matching does not change the language. -/
theorem speaks_keep (k : Kind) (t : Token) (m : MdState) (h : Md.Speaks lang d m) : Md.Speaks lang d (Md.matchKind k t m).2.2 := by
  refine Md.md_keep (P := Md.Speaks lang d) (fun m h => h) ?_ k t m h
  intro t m h
  have sep : ∀ s o, Md.Speaks lang d (Md.matchSep s o t m).2.2 := by
    intro s o
    unfold Md.matchSep
    repeat' split
    all_goals exact h
  unfold Md.matchDocSep
  repeat' split
  all_goals exact sep _ _

end

end Gherkin
