import Verif.Proofs.MdQuote
import Verif.Proofs.MdLines

/-! Lines with the form of a Gherkin line are recognised by the Markdown matcher. -/

namespace Gherkin

open Markdown

/-! ### Headings and list items -/

theorem searchTitle_isSome {ps : List Md.PrefixMatch} {kws : List Str} {suf : Str} {n : Nat} {kw rest : Str} (h : (n, kw ++ suf ++ rest) ∈ ps)
    (hk : kw ∈ kws) : (Md.searchTitle ps kws suf).isSome = true := by
  unfold Md.searchTitle
  rw [List.findSome?_isSome_iff]
  refine ⟨_, h, ?_⟩
  simp only [Option.isSome_map, List.find?_isSome]
  exact ⟨kw, hk, by simp [startsWith, List.isPrefixOf_iff_prefix]⟩

theorem headerPrefix_of {n : Nat} (h1 : 1 ≤ n) (h6 : n ≤ 6) {sp : Char} (hs : isSpace sp = true) (rest : Str) :
    Md.headerPrefix (List.replicate n '#' ++ sp :: rest) = [(n + 1, rest)] := by
  have hsp : (sp == '#') = false := by
    rw [beq_eq_false_iff_ne]; rintro rfl; exact absurd hs (by decide)
  have ht : (List.replicate n '#' ++ sp :: rest).takeWhile (· == '#') = List.replicate n '#' := by
    clear h1 h6
    induction n with
    | zero => simp [List.takeWhile_cons, hsp]
    | succ n ih => simp [List.replicate_succ, List.takeWhile_cons, ih]
  unfold Md.headerPrefix
  simp only [ht, List.length_replicate]
  rw [List.drop_left' (by simp)]
  simp [h1, h6, hs]

theorem spaceRuns_of {gap : Str} (hg : White gap) (rest : Str) : ∀ n, (n + gap.length, rest) ∈ Md.spaceRuns n (gap ++ rest) := by
  induction gap with
  | nil =>
    intro n
    cases rest with
    | nil => simp [Md.spaceRuns]
    | cons c cs => simp only [List.nil_append, Md.spaceRuns, List.length_nil, Nat.add_zero]; split <;> simp
  | cons c gap ih =>
    intro n
    simp only [List.cons_append, Md.spaceRuns, hg c (by simp), if_true, List.mem_append]
    have := ih (fun x hx => hg x (by simp [hx])) (n + 1)
    left
    rw [List.length_cons, show n + (gap.length + 1) = n + 1 + gap.length by omega]
    exact this

theorem heading_found {kws : List Str} {l : Line} (h : HeadingLine kws l.text) :
    (Md.searchTitle (Md.headerPrefix l.lineText) kws [':']).isSome = true := by
  obtain ⟨kw, pre, n, sp, rest, hk, hw, h1, h6, hs, e⟩ := h
  have ht : l.lineText = List.replicate n '#' ++ sp :: (kw ++ ':' :: rest) := by
    cases l with | mk x num =>
    simp only at e; subst e
    rw [List.append_assoc]
    refine trimmed_append hw ?_
    intro c hc
    obtain ⟨k, rfl⟩ : ∃ k, n = k + 1 := ⟨n - 1, by omega⟩
    simp [List.replicate_succ] at hc; subst hc; decide
  rw [ht, headerPrefix_of h1 h6 hs]
  exact searchTitle_isSome (n := n + 1) (rest := rest) (by simp) hk

theorem item_found {kws : List Str} {l : Line} (h : ItemLine kws l.text) :
    (Md.searchTitle (Md.bulletPrefix l.lineText) kws []).isSome = true := by
  obtain ⟨kw, pre, b, gap, rest, hk, hw, hb, hg, e⟩ := h
  have ht : l.lineText = b :: (gap ++ (kw ++ rest)) := by
    cases l with | mk x num =>
    simp only at e; subst e
    rw [List.append_assoc gap]
    refine trimmed_append hw ?_
    intro c hc
    simp at hc; subst hc; rcases hb with rfl | rfl | rfl <;> decide
  rw [ht]
  refine searchTitle_isSome (n := 1 + gap.length) (rest := rest) (kw := kw) ?_ hk
  unfold Md.bulletPrefix
  have : (b == '*' || b == '+' || b == '-') = true := by rcases hb with rfl | rfl | rfl <;> rfl
  simp only [this, if_true, List.append_nil]
  exact spaceRuns_of hg _ 1

/-! ### Tags -/

theorem split_after {a s pre : Str} {c : Char} {r : Str} (ha : ∀ x ∈ a, isSpace x = true) (hc : isSpace c = false) (h : a ++ s = pre ++ c :: r) :
    ∃ pre', s = pre' ++ c :: r := by
  rcases List.append_eq_append_iff.1 h with ⟨x, h1, h2⟩ | ⟨x, h1, h2⟩
  · exact ⟨x, h2⟩
  · cases x with
    | nil => exact ⟨[], by simpa using h2.symm⟩
    | cons y x =>
      simp only [List.cons_append, List.cons.injEq] at h2
      have := ha y (by rw [h1]; simp)
      rw [← h2.1, hc] at this; simp at this

theorem findTags_some (n : Str) (hn : n ≠ []) (hq : '`' ∉ n) (rest : Str) : ∀ (pre : Str) (pos : Nat),
    Md.findTags (pre ++ '`' :: '@' :: (n ++ '`' :: rest)) pos 0 ≠ [] := by
  have htake : (n ++ '`' :: rest).takeWhile (· != '`') = n := by
    clear hn
    induction n with
    | nil => rfl
    | cons c n ih =>
      simp only [List.mem_cons, not_or] at hq
      have hc : (c != '`') = true := by simpa using fun e => hq.1 e.symm
      rw [List.cons_append, List.takeWhile_cons, if_pos hc, ih hq.2]
  intro pre
  induction pre with
  | nil =>
    intro pos
    rw [List.nil_append, Md.findTags.eq_def]
    simp only [htake]
    rw [if_pos (by simp [hn])]
    simp
  | cons c pre ih =>
    intro pos
    rw [List.cons_append, Md.findTags.eq_def]
    simp only
    split
    · split
      · simp
      · exact ih _
    · exact ih _

theorem tag_found {d : Dialect} {l : Line} (h : HasForm d l.text .tags) : (Md.findTags l.lineText 0 0).isEmpty = false := by
  obtain ⟨pre, n, rest, hn, hq, e⟩ := h
  obtain ⟨a, ha, ht, _, _⟩ := trimmed_spec l
  have e' : a ++ l.trimmed = pre ++ '`' :: ('@' :: (n ++ '`' :: rest)) := by rw [← ht, e]; simp
  obtain ⟨pre', hp⟩ := split_after ha (by decide) e'
  rw [show l.lineText = l.trimmed from rfl, hp]
  simpa using findTags_some n hn hq rest pre' 0

/-! ### Rows -/

def dropColon (s : Str) : Str := match s with | ':' :: r => r | _ => s

theorem dropColon_spec (s : Str) : ∃ a, s = a ++ dropColon s ∧ (a = [] ∨ a = [':']) := by
  unfold dropColon
  split
  · exact ⟨[':'], rfl, .inr rfl⟩
  · exact ⟨[], rfl, .inl rfl⟩

theorem sepText_eq (s : Str) : Md.isSepText s = (decide ((dropColon s).head? = some '-') &&
    (dropColon ((dropColon s).dropWhile (· == '-')) == [] || dropColon ((dropColon s).dropWhile (· == '-')) == ['\n'])) := rfl

theorem sepText_dashes {s : Str} (h : Md.isSepText s = true) : Dashes s ∨ ∃ r, Dashes r ∧ s = r ++ ['\n'] := by
  have hd : ∀ s : Str, ∃ n, s = List.replicate n '-' ++ s.dropWhile (· == '-') ∧ (s.head? = some '-' → 1 ≤ n) := by
    intro s
    induction s with
    | nil => exact ⟨0, rfl, by simp⟩
    | cons c s ih =>
      rw [List.dropWhile_cons]
      split
      · rename_i hc
        have hc : c = '-' := by simpa using hc
        obtain ⟨n, h1, _⟩ := ih
        exact ⟨n + 1, by rw [List.replicate_succ, List.cons_append, ← h1, hc], by simp⟩
      · rename_i hc
        exact ⟨0, rfl, by intro h; simp at h; subst h; simp at hc⟩
  rw [sepText_eq] at h
  obtain ⟨a, hs, ha⟩ := dropColon_spec s
  generalize dropColon s = s1 at *
  simp only [Bool.and_eq_true, decide_eq_true_eq, Bool.or_eq_true, beq_iff_eq] at h
  obtain ⟨h1, h2⟩ := h
  obtain ⟨n, hn, hn1⟩ := hd s1
  obtain ⟨k, rfl⟩ : ∃ k, n = k + 1 := ⟨n - 1, by have := hn1 h1; omega⟩
  obtain ⟨b, hs2, hb⟩ := dropColon_spec (s1.dropWhile (· == '-'))
  generalize dropColon (s1.dropWhile (· == '-')) = s3 at *
  rw [hs2] at hn
  rcases h2 with rfl | rfl
  · left; exact ⟨a, k, b, ha, hb, by rw [hs, hn]; simp⟩
  · right; exact ⟨a ++ List.replicate (k + 1) '-' ++ b, ⟨a, k, b, ha, hb, rfl⟩, by rw [hs, hn]; simp⟩

theorem dashes_noNl {s : Str} (h : Dashes s) : '\n' ∉ s := by
  obtain ⟨a, n, b, ha, hb, rfl⟩ := h
  intro hm
  simp only [List.mem_append, List.mem_replicate] at hm
  rcases hm with (h | ⟨_, h⟩) | h
  · rcases ha with rfl | rfl <;> simp at h
  · simp at h
  · rcases hb with rfl | rfl <;> simp at h

theorem dashy_of {ws value : Str} (hw : Pad ws) (h : Md.isSepText (cellRstrip value) = true) : Dashy (ws ++ value) := by
  obtain ⟨pad, hp, hv⟩ := cellRstrip_spec value
  rcases sepText_dashes h with hd | ⟨r, hd, hr⟩
  · rcases hv with hv | ⟨w, h1, _⟩
    · exact ⟨ws, _, pad, [], hw, hp, hd, .inl (by rw [← List.append_nil (_ ++ pad), List.append_assoc ws, ← hv]; simp), .inl rfl⟩
    · exact absurd (by rw [h1]; simp) (dashes_noNl hd)
  · rcases hv with hv | ⟨w, h1, h2⟩
    · exact ⟨ws, r, pad, ['\n'], hw, hp, hd, .inr (by rw [hv, hr]; simp), .inr rfl⟩
    · rw [hr] at h1
      have : r = w := by simpa using h1
      subst this
      exact ⟨ws, r, pad, ['\n'], hw, hp, hd, .inl (by rw [h2]; simp), .inr rfl⟩

theorem dashCell_of {cells : List SrcCell} {rest : Str} (hok : ∀ c ∈ cells, c.Ok) {c : SrcCell} (hc : c ∈ cells)
    (hs : Md.isSepText (cellRstrip c.value) = true) : ∃ tail, (cells.flatMap fun c => '|' :: (c.ws ++ c.raw)) ++ '|' :: rest = '|' :: tail ∧ DashCell tail := by
  induction cells with
  | nil => simp at hc
  | cons x cells ih =>
    have hx := hok x (by simp)
    obtain ⟨t', ht'⟩ : ∃ t', (cells.flatMap fun c => '|' :: (c.ws ++ c.raw)) ++ '|' :: rest = '|' :: t' := by
      cases cells <;> simp
    have hr : Reads (x.ws ++ x.raw) (x.ws ++ x.value) := reads_append (pad_plain hx.1) hx.2.1
    refine ⟨(x.ws ++ x.raw) ++ '|' :: t', by rw [← ht']; simp, ?_⟩
    rcases List.mem_cons.1 hc with rfl | hc
    · exact .here hr (dashy_of hx.1 hs)
    · obtain ⟨tail, h1, h2⟩ := ih (fun c hc => hok c (by simp [hc])) hc
      rw [ht'] at h1
      simp only [List.cons.injEq, true_and] at h1
      subst h1
      exact .later hr h2

/-- A row that the matcher takes as separator row is one. -/
theorem separator_sound {l : Line} {items : List MItem} (hbar : l.startsWith ['|'] = true) (h : l.tableCells = .ok items)
    (hs : Md.isGfmSeparator items = true) : SeparatorRow l.text := by
  have hb : l.trimmed.head? = some '|' := by
    unfold Line.startsWith startsWith at hbar
    rw [List.isPrefixOf_iff_prefix] at hbar
    obtain ⟨r, hr⟩ := hbar
    rw [← hr]; rfl
  obtain ⟨indent, cells, rest, hi, hok, _, htext, hitems⟩ := C15_cell_columns l items hb h
  simp only [Md.isGfmSeparator, List.any_eq_true] at hs
  obtain ⟨i, him, hi2⟩ := hs
  rw [hitems, List.mem_mapIdx] at him
  obtain ⟨j, hj, rfl⟩ := him
  obtain ⟨tail, h1, h2⟩ := dashCell_of (rest := rest) hok (List.getElem_mem hj) hi2
  exact ⟨indent, tail, hi, by rw [htext, List.append_assoc, h1], h2⟩

/-- The white space before a bar is unique. -/
theorem bar_split {pre pre' r r' : Str} (h1 : White pre) (h2 : White pre') (h : pre ++ '|' :: r = pre' ++ '|' :: r') : pre = pre' ∧ r = r' := by
  have e : (Line.mk (pre ++ '|' :: r) 0).trimmed = (Line.mk (pre' ++ '|' :: r') 0).trimmed := by rw [h]
  rw [trimmed_append h1 (by intro c hc; simp at hc; subst hc; decide), trimmed_append h2 (by intro c hc; simp at hc; subst hc; decide)] at e
  rw [e] at h
  exact ⟨List.append_cancel_right h, by simpa using e⟩

theorem row_found {d : Dialect} {t : Token} {m : MdState} (h : HasForm d t.line.text .row) : (Md.matchTableRow t m).1 ≠ .ok false := by
  obtain ⟨pre, rest, hw, h5, e, hn⟩ := h
  have hnh : NoHead isSpace ('|' :: rest) := by intro c hc; simp at hc; subst hc; decide
  have htr : t.line.trimmed = '|' :: rest := by
    rcases hl : t.line with ⟨x, n⟩
    rw [hl] at e
    simp only at e; subst e
    exact trimmed_append hw hnh
  have hin : t.line.indent = pre.length := by
    rcases hl : t.line with ⟨x, n⟩
    rw [hl] at e
    simp only at e; subst e
    exact indent_append hw hnh
  have hbar : t.line.startsWith ['|'] = true := by
    unfold Line.startsWith startsWith; rw [htr]; rfl
  unfold Md.matchTableRow
  rw [if_pos (by rw [hin, hbar]; simpa using h5)]
  split
  · rename_i cells hc
    split
    · rename_i hs
      obtain ⟨pre', rest', hw', e', hd⟩ := separator_sound hbar hc hs
      rw [e] at e'
      obtain ⟨_, rfl⟩ := bar_split hw hw' e'
      exact absurd hd hn
    · simp
  · simp

theorem form_notBlank {d : Dialect} {l : Line} {f : Form} (h : HasForm d l.text f) : l.isBlank = false := by
  have key : ∀ {c : Char}, c ∈ l.text → isSpace c = false → l.isBlank = false := by
    intro c hc hs
    obtain ⟨a, ha, ht, _, _⟩ := trimmed_spec l
    cases hb : l.isBlank with
    | false => rfl
    | true =>
      simp only [Line.isBlank, List.isEmpty_iff] at hb
      rw [hb, List.append_nil] at ht
      rw [ht] at hc
      rw [ha c hc] at hs; simp at hs
  have head : ∀ {kws}, HeadingLine kws l.text → l.isBlank = false := by
    rintro kws ⟨kw, pre, n, sp, rest, _, _, h1, _, _, e⟩
    refine key (c := '#') (by rw [e]; simp; omega) (by decide)
  cases f <;> simp only [HasForm] at h
  case tags => obtain ⟨pre, n, rest, _, _, e⟩ := h; exact key (c := '`') (by rw [e]; simp) (by decide)
  case step =>
    obtain ⟨kw, pre, b, gap, rest, _, _, hb, _, e⟩ := h
    refine key (c := b) (by rw [e]; simp) (by rcases hb with rfl | rfl | rfl <;> decide)
  case row => obtain ⟨pre, rest, _, _, e, _⟩ := h; exact key (c := '|') (by rw [e]; simp) (by decide)
  all_goals exact head h

/-- An empty token's line has no form. -/
theorem empty_noForm {lang : Str} {d : Dialect} {t t' : Token} {m m' : MdState} (hm : Md.Speaks lang d m) (h : Md.matchEmpty t m = (.ok true, t', m')) (f : Form) :
    ¬ HasForm d t.line.text f := by
  intro hf
  have hb := form_notBlank hf
  unfold Md.matchEmpty at h
  rcases hx : Md.orElse Md.emptyProbes t m with ⟨r, t2, m2⟩
  rw [hx] at h
  rcases r with x | b
  · simp at h
  · have hbf : b = false := by
      cases b with
      | false => rfl
      | true => simp [hb] at h
    subst hbf
    rw [Md.probes_eq] at hx
    have hall := Md.orElse_no (P := Md.Speaks lang d) speaks_keep hm (by rw [hx])
    have title : ∀ {k : Kind} {ks : List Str}, (∃ t' m', t'.line = t.line ∧ Md.Speaks lang d m' ∧ (Md.matchTitle k Md.headerPrefix ks [':'] t' m').1 = .ok false) →
        ¬ HeadingLine ks t.line.text := by
      rintro k ks ⟨t', m', i1, i2, i3⟩ hh
      have := heading_found hh
      rw [(Md.matchTitle_state _ _ _ _ _ _).2, i1, this] at i3
      simp at i3
    cases f
    case tags =>
      obtain ⟨t', m', i1, i2, i3⟩ := hall .tagLine (by decide)
      rw [show Md.matchKind .tagLine t' m' = Md.matchTagLine t' m' from rfl, (Md.tag_state _ _).2, i1, tag_found hf] at i3
      simp at i3
    case rule =>
      obtain ⟨t', m', i1, i2, i3⟩ := hall .ruleLine (by decide)
      rw [show Md.matchKind .ruleLine t' m' = Md.matchTitle .ruleLine Md.headerPrefix m'.dialect.rule [':'] t' m' from rfl, i2.2] at i3
      exact title ⟨t', m', i1, i2, i3⟩ hf
    case background =>
      obtain ⟨t', m', i1, i2, i3⟩ := hall .backgroundLine (by decide)
      rw [show Md.matchKind .backgroundLine t' m' = Md.matchTitle .backgroundLine Md.headerPrefix m'.dialect.background [':'] t' m' from rfl, i2.2] at i3
      exact title ⟨t', m', i1, i2, i3⟩ hf
    case examples =>
      obtain ⟨t', m', i1, i2, i3⟩ := hall .examplesLine (by decide)
      rw [show Md.matchKind .examplesLine t' m' = Md.matchTitle .examplesLine Md.headerPrefix m'.dialect.examples [':'] t' m' from rfl, i2.2] at i3
      exact title ⟨t', m', i1, i2, i3⟩ hf
    case scenario =>
      obtain ⟨t', m', i1, i2, i3⟩ := hall .scenarioLine (by decide)
      rw [show Md.matchKind .scenarioLine t' m' = Md.matchScenario t' m' from rfl, (Md.scenario_state _ _).2, i1, i2.2] at i3
      obtain ⟨kw, pre, n, sp, rest, hk, hr⟩ := hf
      rcases List.mem_append.1 hk with hk | hk
      · have := heading_found (kws := d.scenario) ⟨kw, pre, n, sp, rest, hk, hr⟩
        rw [this] at i3; simp at i3
      · have := heading_found (kws := d.scenarioOutline) ⟨kw, pre, n, sp, rest, hk, hr⟩
        rw [this] at i3; simp at i3
    case step =>
      obtain ⟨t', m', i1, i2, i3⟩ := hall .stepLine (by decide)
      rw [show Md.matchKind .stepLine t' m' = Md.matchTitle .stepLine Md.bulletPrefix m'.dialect.stepKeywords [] t' m' from rfl,
        (Md.matchTitle_state _ _ _ _ _ _).2, i1, i2.2] at i3
      have := item_found hf
      rw [show d.stepKeywords = d.given ++ d.when_ ++ d.then_ ++ d.and_ ++ d.but_ from rfl, this] at i3
      simp at i3
    case row =>
      obtain ⟨t', m', i1, i2, i3⟩ := hall .tableRow (by decide)
      exact row_found (d := d) (t := t') (m := m') (by rw [i1]; exact hf) i3

theorem comment_separator {t t' : Token} {m m' : MdState} (h : Md.matchComment t m = (.ok true, t', m')) : SeparatorRow t.line.text := by
  unfold Md.matchComment at h
  simp only at h
  split at h
  · rename_i hb
    split at h
    · rename_i cells hc
      simp only [Prod.mk.injEq, Except.ok.injEq] at h
      exact separator_sound hb hc h.1
    · simp at h
  · simp at h

end Gherkin
