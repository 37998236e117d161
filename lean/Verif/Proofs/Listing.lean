import Verif.Spec.Listing
import Verif.Proofs.Describe
import Verif.Proofs.Language
import Verif.Props.Lines
import Verif.Props.Cells
import Verif.TokenFormatter

/-! What the token formatter shows for a line. -/

namespace Gherkin

theorem map_mapIdx' {α β γ : Type} (g : β → γ) (f : Nat → α → β) (l : List α) : (l.mapIdx f).map g = l.mapIdx fun i a => g (f i a) := by
  apply List.ext_getElem <;> simp

theorem mapIdx_map' {α β γ : Type} (g : α → β) (f : Nat → β → γ) (l : List α) : (l.map g).mapIdx f = l.mapIdx fun i a => f i (g a) := by
  apply List.ext_getElem <;> simp

/-- The situation a matcher is in. -/
def CState.listAt (m : CState) : ListAt := ⟨m.dialect, m.active.map fun s => (s, m.indentToRemove)⟩

theorem format_eq {l : Line} (he : l.isEof = false) (dn : Str) (k : Kind) (x : Option Str) (kw : Option Str) (kt : Option KType) (i : Option Nat)
    (its : List MItem) :
    Fmt.formatToken (setMatched dn (Token.fresh l) (some k) x kw kt i its) =
      .ok (listLine l.number ((match i with | some n => n | none => l.indent) + 1) k.name
        (match kw with
          | none | some [] => []
          | some kw => py"(" ++ (match kt with | some k => k.name | none => []) ++ py")" ++ kw) ((x.map rstripEol).getD [])
        (its.map fun i => (i.column, i.text))) := by
  have h1 : (setMatched dn (Token.fresh l) (some k) x kw kt i its).eof = false := he
  unfold Fmt.formatToken
  rw [h1]
  cases i <;> simp [setMatched, Token.fresh, listLine, Fmt.keywordPart, Fmt.itemsPart, he, List.map_map, Function.comp_def] <;> rfl

theorem ktype_text (k : KType) : k.name = stepTypeText k := by cases k <;> rfl

theorem split_at {l : Line} {p : Str} (h : startsWith l.trimmed p = true) :
    ∃ ws, White ws ∧ l.text = ws ++ p ++ l.trimmed.drop p.length ∧ ws.length = l.indent := by
  obtain ⟨a, ha, ht, _, hi⟩ := trimmed_spec l
  refine ⟨a, ha, ?_, hi⟩
  rw [List.append_assoc, ← startsWith_split h]; exact ht

theorem headOk_ne {kw : Str} (h : headOk kw = true) : kw ≠ [] := by rintro rfl; simp [headOk] at h

/-- The kinds of lines that every state with descriptions knows. -/
def rowOk20 (q : Nat) : Bool :=
  match table q with
  | some row => Auto.openStates.contains q || row.trans.all fun tr => tr.kind != .other ||
      [Kind.comment, .tagLine, .scenarioLine, .ruleLine].all fun k => (row.trans.map (·.kind)).contains k
  | none => true

theorem rows_ok20 : ∀ q ∈ allStates, rowOk20 q = true := by decide +kernel

theorem row20 {q : Nat} {row : StateRow} (h : table q = some row) {tr : Trans} (htr : tr ∈ row.trans) (ho : q ∉ Auto.openStates) (hk : tr.kind = .other)
    {k : Kind} (hk' : k ∈ [Kind.comment, .tagLine, .scenarioLine, .ruleLine]) : k ∈ Auto.kindsOf q := by
  have hq := rows_ok20 q (mem_allStates h)
  unfold rowOk20 at hq
  rw [h] at hq
  simp only [Bool.or_eq_true, List.all_eq_true] at hq
  rcases hq with hq | hq
  · exact absurd (by simpa using hq) ho
  · rcases hq tr htr with h1 | h1
    · rw [hk] at h1; simp at h1
    · have := h1 k hk'
      unfold Auto.kindsOf
      rw [h]
      simpa using this

theorem listed_title {l : Line} {k : Kind} {kws : List Str} {m m' : CState} {t : Token} (hd : m.dialect.Known) (he : l.isEof = false)
    (ha : m.active = none) (hk : (k.name, kws) ∈ titleWords m.dialect) (hh : ∀ kw ∈ kws, kw ≠ [])
    (h : Classic.matchTitle k kws (Token.fresh l) m = (.ok true, t, m')) :
    ∃ s, Fmt.formatToken t = .ok s ∧ Listed m.listAt l s m'.listAt := by
  unfold Classic.matchTitle at h
  split at h
  · rename_i kw hf
    simp only [Prod.mk.injEq, true_and] at h
    obtain ⟨rfl, rfl⟩ := h
    refine ⟨_, format_eq he _ _ _ _ _ _ _, ?_⟩
    have hm := List.mem_of_find?_eq_some hf
    have hs := List.find?_some hf
    obtain ⟨ws, h1, h2, h3⟩ := split_at hs
    rw [← List.append_assoc] at h2
    have := Listed.title (p := m.listAt) (l := l) (by simp [CState.listAt, ha]) hk hm h1 h2
    rw [h3] at this
    have hne : kw ≠ [] := hh kw hm
    cases kw with
    | nil => exact absurd rfl hne
    | cons c kw => simpa [Line.restTrimmed, rstripEol_strip, Token.fresh] using this
  · simp at h

theorem cellRstrip_last (v : Str) : ∀ x, (cellRstrip v).getLast? = some x → isSpace x = false ∨ x = '\n' := by
  intro x hx
  unfold cellRstrip at hx
  split at hx
  · simp at hx; exact .inr hx.symm
  · obtain ⟨w, h1, h2, h3⟩ := rstripBy_spec (p := isCellSpace) v
    have := h3 x hx
    simp [isCellSpace] at this
    by_cases hxs : isSpace x = true
    · exact .inr (this hxs)
    · exact .inl (by simpa using hxs)

theorem listed_step {q : Nat} {l : Line} {rest : List Line} {m m' : CState} {tr : Trans} {t : Token} (hi : Auto.Inv q m)
    (he : l.isEof = false) (h : Auto.StepSpec q l rest m tr t m') :
    ∃ s, Fmt.formatToken t = .ok s ∧ Listed m.listAt l s m'.listAt := by
  have hd := hi.valid.known
  have hmt := h.matched
  have hl : (Token.fresh l).line = l := rfl
  by_cases ho : q ∈ Auto.openStates
  · -- inside a doc string
    obtain ⟨s, hs⟩ := Option.ne_none_iff_exists'.1 (hi.active.1 ho)
    have hdelim := hi.sep s hs
    rcases h.facts.inside ho with hk | ⟨hk, _⟩
    · rw [hk] at hmt
      rcases Auto.docSep_cases hi.sep hmt with ⟨h1, _⟩ | ⟨s', h1, h2, rfl, rfl⟩
      · rw [hs] at h1; simp at h1
      · rw [hs] at h1; cases h1
        refine ⟨_, format_eq he _ _ _ _ _ _ _, ?_⟩
        obtain ⟨ws, w1, w2, w3⟩ := split_at h2
        have := Listed.closing (p := m.listAt) (l := l) (delim := s) (n := m.indentToRemove) (by simp [CState.listAt, hs]) w1 w2
        rw [w3] at this
        rcases hdelim with rfl | rfl <;> simpa [CState.listAt, Classic.quotes, Classic.ticks, Kind.name] using this
    · have hmt' := hmt
      rw [hk] at hmt
      simp only [Classic.matchKind, Classic.matchOther, Prod.mk.injEq, true_and] at hmt
      obtain ⟨rfl, rfl⟩ := hmt
      refine ⟨_, format_eq he _ _ _ _ _ _ _, ?_⟩
      have hnd : isDelim s l = false := by
        -- the separator comes before `Other` in the row
        obtain ⟨row, pre, post, hrow, htr, hpass⟩ := h.row
        have hsep : Kind.docStringSeparator ∈ Auto.kindsOf q := by
          simp only [Auto.openStates, List.mem_cons, List.not_mem_nil, or_false] at ho
          rcases ho with rfl | rfl | rfl | rfl <;> decide
        obtain ⟨x, hx, hxk, hxl⟩ := Auto.plain_kind hrow hsep
        have hpost := Auto.other_last hrow htr hk
        have hxpre : x ∈ pre := by
          rw [htr, hpost] at hx
          simp at hx
          rcases hx with hx | hx
          · exact hx
          · subst hx; rw [hk] at hxk; simp at hxk
        rcases hpass x hxpre with ⟨_, h2⟩ | h2 | ⟨la, h2, _⟩
        · rw [he] at h2; simp at h2
        · rw [hxk] at h2
          simp only [Classic.matchKind, Classic.matchDocSep, hs, Classic.matchSep, hl] at h2
          cases hb : l.startsWith s with
          | false => exact hb
          | true => rw [hb] at h2; simp at h2
        · rw [hxl] at h2; simp at h2
      have hot := other_text (l := l) hs hdelim
      have := Listed.content (p := m.listAt) (l := l) (delim := s) (n := m.indentToRemove) (by simp [CState.listAt, hs]) hnd
      rw [← hot] at this
      simpa [Cst.textOf, Classic.matchOther, setMatched, hl, Kind.name] using this
  · have ha : m.active = none := by
      cases hac : m.active with
      | none => rfl
      | some s => exact absurd (hi.active.2 (by rw [hac]; simp)) ho
    have hat : m.listAt.doc = none := by simp [CState.listAt, ha]
    have kinds := Auto.step_kind hi ha he h
    cases hk : tr.kind <;> rw [hk] at hmt <;> simp only [Classic.matchKind] at hmt
    case eof =>
      rcases kinds with ⟨h1, _⟩ | ⟨h1, _⟩ | ⟨h1, _⟩
      · rw [hk] at h1; simp at h1
      · rw [hk] at h1; exact absurd h1.symm (lineKind_eof _ _)
      · rw [hk] at h1; simp at h1
    case empty =>
      unfold Classic.matchEmpty at hmt
      split at hmt
      · rename_i hb
        simp only [Prod.mk.injEq, true_and] at hmt
        obtain ⟨rfl, rfl⟩ := hmt
        refine ⟨_, format_eq he _ _ _ _ _ _ _, ?_⟩
        have hb' : isBlankLine l = true := by rw [isBlankLine_iff]; exact hb
        exact Listed.blank hat (by simpa [isBlankLine, White] using hb')
      · simp at hmt
    case comment =>
      unfold Classic.matchComment at hmt
      split at hmt
      · rename_i hb
        simp only [Prod.mk.injEq, true_and] at hmt
        obtain ⟨rfl, rfl⟩ := hmt
        refine ⟨_, format_eq he _ _ _ _ _ _ _, ?_⟩
        obtain ⟨ws, h1, h2, h3⟩ := split_at hb
        exact Listed.comment hat ⟨ws, _, h1, by simpa [hl] using h2⟩
      · simp at hmt
    case tagLine =>
      obtain ⟨h1, items, h2, rfl⟩ := tagLine_inv hmt
      have hmm : m' = m := by
        unfold Classic.matchTagLine at hmt
        split at hmt
        · split at hmt
          · simp only [Prod.mk.injEq, true_and] at hmt; exact hmt.2.symm
          · simp at hmt
        · simp at hmt
      subst hmm
      refine ⟨_, format_eq he _ _ _ _ _ _ _, ?_⟩
      obtain ⟨indent, tags, rs, w1, ne, w2, te, htext, hitems⟩ := C13_tags_read l items h1 h2
      have hlen : indent.length = l.indent := by
        have hn : NoHead isSpace (tags.flatMap SrcTag.src ++ rs) := by
          cases tags with
          | nil => exact absurd rfl ne
          | cons t ts => intro c hc; simp [SrcTag.src] at hc; subst hc; rfl
        have : l = ⟨indent ++ (tags.flatMap SrcTag.src ++ rs), l.number⟩ := by
          rw [← List.append_assoc, ← htext]
        rw [this, indent_append w1 hn]
      have := Listed.tags (p := m'.listAt) (l := l) hat w1 ne w2 te htext
      rw [hlen] at this
      rw [hitems]
      simpa [map_mapIdx', Kind.name] using this
    case featureLine =>
      exact listed_title hd he ha (by simp [titleWords, Kind.name, Dialect.titles]) (fun kw hkw => headOk_ne (hd.title_head (k := .featureLine) hkw)) hmt
    case ruleLine =>
      exact listed_title hd he ha (by simp [titleWords, Kind.name, Dialect.titles]) (fun kw hkw => headOk_ne (hd.title_head (k := .ruleLine) hkw)) hmt
    case backgroundLine =>
      exact listed_title hd he ha (by simp [titleWords, Kind.name, Dialect.titles]) (fun kw hkw => headOk_ne (hd.title_head (k := .backgroundLine) hkw)) hmt
    case scenarioLine =>
      exact listed_title hd he ha (by simp [titleWords, Kind.name, Dialect.titles]) (fun kw hkw => headOk_ne (hd.title_head (k := .scenarioLine) hkw)) hmt
    case examplesLine =>
      exact listed_title hd he ha (by simp [titleWords, Kind.name, Dialect.titles]) (fun kw hkw => headOk_ne (hd.title_head (k := .examplesLine) hkw)) hmt
    case stepLine =>
      obtain ⟨kw, ty, c1, c2, c3, c4, c5⟩ := C23_step_type_exact m hi.valid _ t m' (by simpa [Classic.matchKind] using hmt)
      unfold Classic.matchStep at hmt
      split at hmt
      · rename_i kw' hf
        simp only [Prod.mk.injEq, true_and] at hmt
        obtain ⟨rfl, rfl⟩ := hmt
        simp only [setMatched, Option.some.injEq] at c1 c2
        subst c1; subst c2
        refine ⟨_, format_eq he _ _ _ _ _ _ _, ?_⟩
        have hs := List.find?_some hf
        obtain ⟨ws, h1, h2, h3⟩ := split_at hs
        have := Listed.step (p := m.listAt) (l := l) hat hf ⟨c4, c5⟩ h1 h2
        rw [h3] at this
        have hne : kw' ≠ [] := headOk_ne (hd.step_head c3)
        cases kw' with
        | nil => exact absurd rfl hne
        | cons c kw => simpa [Line.restTrimmed, rstripEol_strip, hl, ktype_text, Kind.name] using this
      · simp at hmt
    case docStringSeparator =>
      rcases Auto.docSep_cases hi.sep hmt with ⟨_, s, hs, h2, rfl, rfl⟩ | ⟨s', h1, _⟩
      · refine ⟨_, format_eq he _ _ _ _ _ _ _, ?_⟩
        obtain ⟨ws, w1, w2, w3⟩ := split_at h2
        have := Listed.opening (p := m.listAt) (l := l) (delim := s) hat
          (by rcases hs with rfl | rfl <;> simp [docDelimiters, Classic.quotes, Classic.ticks]) w1 w2
        rw [w3] at this
        rcases hs with rfl | rfl <;>
          simpa [CState.listAt, Classic.quotes, Classic.ticks, Line.restTrimmed, rstripEol_strip, hl, Kind.name] using this
      · rw [ha] at h1; simp at h1
    case tableRow =>
      obtain ⟨h1, items, h2, rfl⟩ := tableRow_inv hmt
      have hmm : m' = m := by
        unfold Classic.matchTableRow at hmt
        split at hmt
        · split at hmt
          · simp only [Prod.mk.injEq, true_and] at hmt; exact hmt.2.symm
          · simp at hmt
        · simp at hmt
      subst hmm
      refine ⟨_, format_eq he _ _ _ _ _ _ _, ?_⟩
      obtain ⟨indent, cells, rs, w1, w2, w3, htext, hitems⟩ := C15_cell_columns l items h1 h2
      have hlen : indent.length = l.indent := by
        have hn : NoHead isSpace (cells.flatMap (fun c => '|' :: (c.ws ++ c.raw)) ++ '|' :: rs) := by
          cases cells with
          | nil => intro c hc; simp at hc; subst hc; rfl
          | cons t ts => intro c hc; simp at hc; subst hc; rfl
        have : l = ⟨indent ++ (cells.flatMap (fun c => '|' :: (c.ws ++ c.raw)) ++ '|' :: rs), l.number⟩ := by
          rw [← List.append_assoc, ← htext]
        rw [this, indent_append w1 hn]
      have := Listed.row (p := m'.listAt) (l := l) (ws := indent) (cells := cells.map fun c => ⟨c.ws, c.raw, cellRstrip c.value⟩) (rest := rs)
        hat w1 ?_ w3 (by rw [htext]; simp [List.flatMap_map, ListedCell.src])
      · rw [hlen] at this
        rw [hitems]
        simpa [map_mapIdx', mapIdx_map', ListedCell.src, List.flatMap_map, ← List.map_take, Kind.name] using this
      · intro c hc
        obtain ⟨c0, hc0, rfl⟩ := List.mem_map.1 hc
        obtain ⟨o1, o2, o3⟩ := w2 c0 hc0
        obtain ⟨pad, p1, p2⟩ := cellRstrip_spec c0.value
        exact ⟨o1, o3, c0.value, pad, o2, p1, p2, cellRstrip_last _⟩
    case language =>
      unfold Classic.matchLanguage at hmt
      split at hmt
      · simp at hmt
      · rename_i name hn
        simp only at hmt
        split at hmt
        · rename_i d hdf
          simp only [Prod.mk.injEq, true_and] at hmt
          obtain ⟨rfl, rfl⟩ := hmt
          refine ⟨_, format_eq he _ _ _ _ _ _ _, ?_⟩
          have hh := header_iff.1 hn
          obtain ⟨a, b, ha1, hb⟩ := header_comment hh
          have := Listed.language (p := m.listAt) (l := l) hat hh ha1 hb hdf
          have hlen : a.length = l.indent := by
            have e : l = ⟨a ++ '#' :: b, l.number⟩ := by rw [← hb, hl]
            rw [e, indent_append ha1 (by intro c hc; simp at hc; subst hc; rfl)]
          have hnm : rstripEol name = name := by
            refine rstripBy_id ?_
            intro c hc
            have := hh.2.1 c (List.mem_of_getLast? hc)
            rcases this with h | h | h | h
            · simp only [isEol]; cases hce : (c == '\r' || c == '\n') with
              | false => rfl
              | true => simp at hce; rcases hce with rfl | rfl <;> simp at h
            · simp only [isEol]; cases hce : (c == '\r' || c == '\n') with
              | false => rfl
              | true => simp at hce; rcases hce with rfl | rfl <;> simp at h
            · subst h; rfl
            · subst h; rfl
          rw [hlen] at this
          simpa [CState.listAt, ha, hnm, Kind.name] using this
        · simp at hmt
    case other =>
      simp only [Classic.matchOther, Prod.mk.injEq, true_and] at hmt
      obtain ⟨rfl, rfl⟩ := hmt
      refine ⟨_, format_eq he _ _ _ _ _ _ _, ?_⟩
      obtain ⟨row, pre, post, hrow, htr, hpass⟩ := h.row
      have htrm : tr ∈ row.trans := by rw [htr]; simp
      have hno : ∀ k ∈ [Kind.comment, .tagLine, .scenarioLine, .ruleLine], fits m.dialect l k = false := by
        intro k hk'
        cases hf : fits m.dialect l k with
        | false => rfl
        | true =>
          have hkne : k ≠ .other := by rintro rfl; simp at hk'
          have hlk := (lineKind_iff hd hkne).2 hf
          rcases kinds with ⟨h1, _⟩ | ⟨h1, _⟩ | ⟨_, h1⟩
          · rw [hk] at h1; simp at h1
          · rw [hk, hlk] at h1; exact absurd h1.symm hkne
          · rw [hlk] at h1; exact absurd (row20 hrow htrm ho hk hk') h1
      have hn := fun k hk => hno k hk
      have := Listed.text (p := m.listAt) (l := l) hat (hno .comment (by simp)) (hno .tagLine (by simp)) (hno .scenarioLine (by simp))
        (hno .ruleLine (by simp))
      have hind := hi.indent ha
      simpa [hl, Classic.unescapeDoc, ha, hind, Line.lineTextFrom, chomp, Kind.name] using this

end Gherkin
