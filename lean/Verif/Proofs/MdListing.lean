import Verif.Spec.MdListing
import Verif.Props.Markdown
import Verif.Props.Listing
import Verif.Proofs.MdAuto

/-! What the token formatter shows for a line of a Markdown text. -/

namespace Gherkin

open Markdown

/-- The words of title lines are no step keywords, in any language. -/
def titleTypesOk (d : Dialect) : Bool := (titleWords d).all fun p => p.2.all fun kw => kw != [] && (d.keywordTypes kw).head? == none

theorem title_types {lang : Str} {d : Dialect} (hd : dialectFor lang = some d) {type : Str} {kws : List Str} (h : (type, kws) ∈ titleWords d) {kw : Str} (hk : kw ∈ kws) :
    kw ≠ [] ∧ (d.keywordTypes kw).head? = none := by
  have hall : dialects.all (fun p => titleTypesOk p.2) = true := by decide +kernel
  have := List.all_eq_true.1 hall _ (lookup_mem hd)
  have := List.all_eq_true.1 this _ h
  have := List.all_eq_true.1 this _ hk
  simpa using this

theorem step_nonempty {lang : Str} {d : Dialect} (hd : dialectFor lang = some d) {kw : Str} (hk : kw ∈ d.stepKeywords) : kw ≠ [] := by
  have hall : dialects.all (fun p => p.2.stepKeywords.all fun kw => kw != []) = true := by decide +kernel
  have := List.all_eq_true.1 hall _ (lookup_mem hd)
  have := List.all_eq_true.1 this _ hk
  simpa using this

/-- The cells of a row, as shown. -/
theorem cells_listed {l : Line} {items : List MItem} (h1 : l.startsWith ['|'] = true) (h2 : l.tableCells = .ok items) :
    ∃ (ws : Str) (cells : List ListedCell) (rest : Str), White ws ∧ ws.length = l.indent ∧ (∀ c ∈ cells, c.Ok) ∧ (∃ v, Reads rest v) ∧ l.text = ws ++ cells.flatMap ListedCell.src ++ '|' :: rest ∧
      (items.map fun i => (i.column, i.text)) = cells.mapIdx fun i c => ((ws ++ (cells.take i).flatMap ListedCell.src ++ '|' :: c.ws).length + 1, c.text) := by
  obtain ⟨indent, cells, rs, w1, w2, w3, htext, hitems⟩ := C15_cell_columns l items (by have := startsWith_split h1; rw [this]; rfl) h2
  have hlen : indent.length = l.indent := by
    have hn : NoHead isSpace (cells.flatMap (fun c => '|' :: (c.ws ++ c.raw)) ++ '|' :: rs) := by
      cases cells with
      | nil => intro c hc; simp at hc; subst hc; rfl
      | cons t ts => intro c hc; simp at hc; subst hc; rfl
    have : l = ⟨indent ++ (cells.flatMap (fun c => '|' :: (c.ws ++ c.raw)) ++ '|' :: rs), l.number⟩ := by
      rw [← List.append_assoc, ← htext]
    rw [this, indent_append w1 hn]
  refine ⟨indent, cells.map fun c => ⟨c.ws, c.raw, cellRstrip c.value⟩, rs, w1, hlen, ?_, w3, by rw [htext]; simp [List.flatMap_map, ListedCell.src], ?_⟩
  · intro c hc
    obtain ⟨c0, hc0, rfl⟩ := List.mem_map.1 hc
    obtain ⟨o1, o2, o3⟩ := w2 c0 hc0
    obtain ⟨pad, p1, p2⟩ := cellRstrip_spec c0.value
    exact ⟨o1, o3, c0.value, pad, o2, p1, p2, cellRstrip_last _⟩
  · rw [hitems]
    simp [map_mapIdx', mapIdx_map', ListedCell.src, List.flatMap_map, ← List.map_take]

section
variable {text lang : Str} {d : Dialect}

theorem md_listed_title {l : Line} {k : Kind} {kws : List Str} {m m' : MdState} {t : Token} (hd : dialectFor lang = some d) (hm : m.dialect = d) (he : l.isEof = false)
    (hl : LineIs text l.number l.text) (hk : (k.name, kws) ∈ titleWords d) {ks : List Str} (hsub : ∀ x ∈ ks, x ∈ kws)
    (h : Md.matchTitle k Md.headerPrefix ks [':'] (Token.fresh l) m = (.ok true, t, m')) : ∃ s, Fmt.formatToken t = .ok s ∧ MdListed d l s := by
  have hq := (md_title (text := text) (t0 := Token.fresh l) hl rfl h).1
  unfold Md.matchTitle at h
  split at h
  · rename_i n kw r hf
    simp only [Prod.mk.injEq, true_and] at h
    obtain ⟨rfl, rfl⟩ := h
    refine ⟨_, format_eq he _ _ _ _ _ _ _, ?_⟩
    obtain ⟨kw', pre, c, sp, rest, q1, q2, q3, q4, q5, q6, q7, q8, q9⟩ := hq
    simp only [setMatched, Option.some.injEq] at q1 q8 q9
    subst q1
    obtain ⟨t1, t2⟩ := title_types hd hk (hsub _ q2)
    have e : l.text = pre ++ List.replicate c '#' ++ sp :: (kw ++ ':' :: rest) := by
      have := hl.2.symm.trans q7.2
      simpa using this
    have := MdListed.title (d := d) (l := l) hk (hsub _ q2) q3 q4 q5 q6 e
    rw [hm, t2]
    cases kw with
    | nil => exact absurd rfl t1
    | cons x kw =>
      simp only at q8 q9 ⊢
      rw [q8, q9]
      simpa using this
  · simp at h

theorem md_listed_sep {l : Line} {m m' : MdState} {t : Token} {delim : Str} {o : Bool} (he : l.isEof = false) (hdel : delim ∈ Md.Fences)
    (h : Md.matchSep delim o (Token.fresh l) m = (.ok true, t, m')) : ∃ s, Fmt.formatToken t = .ok s ∧ MdListed d l s := by
  have hf : delim ∈ fences := by
    simp only [Md.Fences, List.mem_cons, List.not_mem_nil, or_false] at hdel
    rcases hdel with rfl | rfl | rfl <;> decide
  have hkw : ∃ c r, delim = c :: r := by
    simp only [Md.Fences, List.mem_cons, List.not_mem_nil, or_false] at hdel
    rcases hdel with rfl | rfl | rfl <;> exact ⟨_, _, rfl⟩
  obtain ⟨c, r, rfl⟩ := hkw
  unfold Md.matchSep at h
  split at h
  · rename_i hs
    obtain ⟨ws, w1, w2, w3⟩ := split_at hs
    split at h
    · simp only [Prod.mk.injEq, true_and] at h
      obtain ⟨rfl, rfl⟩ := h
      refine ⟨_, format_eq he _ _ _ _ _ _ _, ?_⟩
      have := MdListed.opening (d := d) (l := l) hf w1 w2
      rw [w3] at this
      simpa [Line.restTrimmed, rstripEol_strip, Token.fresh, Kind.name] using this
    · simp only [Prod.mk.injEq, true_and] at h
      obtain ⟨rfl, rfl⟩ := h
      refine ⟨_, format_eq he _ _ _ _ _ _ _, ?_⟩
      have := MdListed.closing (d := d) (l := l) hf w1 w2
      rw [w3] at this
      simpa [Kind.name, rstripEol, rstripBy, Token.fresh] using this
  · simp at h

theorem md_listed {l : Line} {k : Kind} {m m' : MdState} {t : Token} (hd : dialectFor lang = some d) (hm : Md.Fenced lang d m) (he : l.isEof = false)
    (hl : LineIs text l.number l.text) (hk : k ≠ .eof) (h : Md.matchKind k (Token.fresh l) m = (.ok true, t, m')) : ∃ s, Fmt.formatToken t = .ok s ∧ MdListed d l s := by
  obtain ⟨⟨hn, rfl⟩, hact⟩ := hm
  have hfl : (Token.fresh l).line = l := rfl
  cases k <;> simp only [Md.matchKind] at h
  case eof => exact absurd rfl hk
  case empty =>
    have hno := empty_noForm ⟨hn, rfl⟩ h
    have hof : (Md.orElse Md.emptyProbes (Token.fresh l) m).2.1.Of l := by
      have := (Md.indep_orElse Md.probe_kinds m (Token.fresh_of l) (Token.fresh_of l)).of
      rwa [← Md.probes_eq] at this
    unfold Md.matchEmpty at h
    rcases ho : Md.orElse Md.emptyProbes (Token.fresh l) m with ⟨r, t1, m1⟩
    rw [ho] at h hof
    rcases r with e | b
    · simp at h
    · simp only at h hof
      split at h
      · simp only [Prod.mk.injEq, true_and] at h
        obtain ⟨rfl, rfl⟩ := h
        rw [Md.setMatched_same hof (Token.fresh_of l)]
        exact ⟨_, format_eq he _ _ _ _ _ _ _, MdListed.nothing hno⟩
      · simp at h
  case comment =>
    obtain ⟨ws, rest, w1, w2, w3⟩ := comment_separator h
    unfold Md.matchComment at h
    simp only at h
    split at h
    · rename_i hb
      split at h
      · simp only [Prod.mk.injEq] at h
        obtain ⟨_, rfl, rfl⟩ := h
        refine ⟨_, format_eq he _ _ _ _ _ _ _, ?_⟩
        have := MdListed.separator (d := m.dialect) (l := l) w1 w2 w3
        have hlen : ws.length = l.indent := by
          have e : l = ⟨ws ++ '|' :: rest, l.number⟩ := by rw [← show (Token.fresh l).line = l from rfl, ← w2]
          rw [e, indent_append w1 (by intro c hc; simp at hc; subst hc; rfl)]
        rw [hlen] at this
        simpa [Kind.name] using this
      · simp at h
    · simp at h
  case tagLine =>
    unfold Md.matchTagLine at h
    simp only at h
    split at h
    · simp at h
    · rename_i hne
      simp only [Prod.mk.injEq, true_and] at h
      obtain ⟨rfl, rfl⟩ := h
      refine ⟨_, format_eq he _ _ _ _ _ _ _, ?_⟩
      obtain ⟨a, ha, ht, hh, hi⟩ := trimmed_spec l
      have := MdListed.tags (d := m.dialect) (l := l) ha hh ht (findTags_in _ l.trimmed 0 (Nat.le_refl _)) (by simpa [Token.fresh, Line.lineText] using hne)
      rw [hi] at this
      simpa [Kind.name, Function.comp_def, Token.fresh, Line.lineText] using this
  case featureLine =>
    unfold Md.matchFeature at h
    split at h
    · simp at h
    · split at h
      · rename_i t' m1 heq
        simp only [Prod.mk.injEq, true_and] at h
        obtain ⟨rfl, rfl⟩ := h
        exact md_listed_title (k := .featureLine) (kws := m.dialect.feature) hd rfl he hl (by simp [titleWords, Kind.name]) (fun x hx => hx) heq
      · simp only [Prod.mk.injEq, true_and] at h
        obtain ⟨rfl, rfl⟩ := h
        refine ⟨_, format_eq he _ _ _ _ _ _ _, ?_⟩
        obtain ⟨a, ha, ht, hh, hi⟩ := trimmed_spec l
        have := MdListed.feature (d := m.dialect) (l := l) ha hh ht
        rw [hi] at this
        simpa [Kind.name, Token.fresh, Line.lineText] using this
  case ruleLine => exact md_listed_title (k := .ruleLine) (kws := m.dialect.rule) hd rfl he hl (by simp [titleWords, Kind.name]) (fun x hx => hx) h
  case backgroundLine => exact md_listed_title (k := .backgroundLine) (kws := m.dialect.background) hd rfl he hl (by simp [titleWords, Kind.name]) (fun x hx => hx) h
  case examplesLine => exact md_listed_title (k := .examplesLine) (kws := m.dialect.examples) hd rfl he hl (by simp [titleWords, Kind.name]) (fun x hx => hx) h
  case scenarioLine =>
    unfold Md.matchScenario at h
    rcases ht : Md.matchTitle .scenarioLine Md.headerPrefix m.dialect.scenario [':'] (Token.fresh l) m with ⟨x, t1, m1⟩
    rw [ht] at h
    split at h
    · rename_i heq
      cases heq
      have : t1 = Token.fresh l ∧ m1 = m := by
        unfold Md.matchTitle at ht
        split at ht
        · simp at ht
        · simp only [Prod.mk.injEq, true_and] at ht; exact ⟨ht.1.symm, ht.2.symm⟩
      obtain ⟨rfl, rfl⟩ := this
      exact md_listed_title (k := .scenarioLine) hd rfl he hl (kws := m1.dialect.scenario ++ m1.dialect.scenarioOutline) (by simp [titleWords, Kind.name]) (fun x hx => by simp [hx]) h
    · cases h
      exact md_listed_title (k := .scenarioLine) hd rfl he hl (kws := m.dialect.scenario ++ m.dialect.scenarioOutline) (by simp [titleWords, Kind.name]) (fun x hx => by simp [hx]) ht
  case stepLine =>
    have hq := md_step (text := text) (t0 := Token.fresh l) hl rfl h
    unfold Md.matchStep Md.matchTitle at h
    split at h
    · rename_i n kw r hf
      simp only [Prod.mk.injEq, true_and] at h
      obtain ⟨rfl, rfl⟩ := h
      refine ⟨_, format_eq he _ _ _ _ _ _ _, ?_⟩
      obtain ⟨⟨kw', pre, b, gap, rest, q1, q2, q3, q4, q5, q6, q7, q8⟩, kw2, ty, q9, q10, q11⟩ := hq
      simp only [setMatched, Option.some.injEq] at q1 q7 q8 q9 q10
      subst q1
      subst q9
      have hne := step_nonempty hd (kw := kw) q2
      have e : l.text = pre ++ b :: (gap ++ kw ++ rest) := by
        have := hl.2.symm.trans q6.2
        simpa using this
      have := MdListed.step (d := m.dialect) (l := l) q2 q11 q3 q4 q5 e
      rw [q10]
      cases kw with
      | nil => exact absurd rfl hne
      | cons x kw =>
        simp only at q7 q8 ⊢
        rw [q7, q8]
        simpa [ktype_text, Kind.name] using this
    · simp at h
  case docStringSeparator =>
    unfold Md.matchDocSep at h
    split at h
    · split at h
      · exact md_listed_sep he (by simp [Md.Fences]) h
      · split at h
        · exact md_listed_sep he (by simp [Md.Fences]) h
        · exact md_listed_sep he (by simp [Md.Fences]) h
    · rename_i sep hs
      exact md_listed_sep he (hact _ hs) h
  case tableRow =>
    unfold Md.matchTableRow at h
    split at h
    · rename_i hc
      simp only [Bool.and_eq_true, decide_eq_true_eq] at hc
      split at h
      · rename_i cells hcells
        split at h
        · simp at h
        · rename_i hsep
          simp only [Prod.mk.injEq, true_and] at h
          obtain ⟨rfl, rfl⟩ := h
          refine ⟨_, format_eq he _ _ _ _ _ _ _, ?_⟩
          obtain ⟨ws, cs, rest, w1, w2, w3, w4, w5, w6⟩ := cells_listed hc.2 hcells
          have := MdListed.row (d := m.dialect) (l := l) w1 (by rw [w2]; exact hc.1) (cells := cs) (fun c hcm => ⟨w3 c hcm, ?_⟩) w4 w5
          · rw [w2] at this
            rw [w6]
            simpa [Kind.name, Token.fresh] using this
          · intro hdash
            apply hsep
            simp only [Md.isGfmSeparator, List.any_eq_true]
            obtain ⟨i, hi, hic⟩ := List.getElem_of_mem hcm
            have hmem : c.text ∈ cells.map (fun i => i.text) := by
              have : (cells.map fun i => (i.column, i.text)).map Prod.snd = cs.map ListedCell.text := by
                rw [w6]; apply List.ext_getElem <;> simp
              rw [List.map_map] at this
              rw [show (cells.map fun i => i.text) = cells.map (Prod.snd ∘ fun i => (i.column, i.text)) from rfl, this]
              exact List.mem_map_of_mem hcm
            obtain ⟨i, hi, hie⟩ := List.mem_map.1 hmem
            exact ⟨i, hi, by rw [hie]; exact dashes_sep hdash⟩
      · simp at h
    · simp at h
  case language => simp [Md.matchLanguage] at h
  case other =>
    have hp := other_prose hact h
    simp only [Md.matchOther, Prod.mk.injEq, true_and] at h
    obtain ⟨rfl, rfl⟩ := h
    refine ⟨_, format_eq he _ _ _ _ _ _ _, ?_⟩
    have := MdListed.text (d := m.dialect) (l := l) hp
    simpa [Cst.textOf, setMatched, Kind.name, Token.fresh] using this

end

end Gherkin
