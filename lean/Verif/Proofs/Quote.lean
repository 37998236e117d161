import Verif.Spec.Quotes
import Verif.Proofs.DocFacts
import Verif.Props.Tags
import Verif.Props.Cells

/-! Tokens of a text quote the text. -/

namespace Gherkin

theorem tokenLines_lineIs {text : Str} {l : Line} (h : l ∈ tokenLines text) (he : l.isEof = false) : LineIs text l.number l.text := by
  simp only [tokenLines, List.mem_append, List.mem_singleton] at h
  rcases h with h | rfl
  · simp only [sourceLines, List.mem_map] at h
    obtain ⟨⟨s, n⟩, h1, rfl⟩ := h
    rw [List.mk_mem_zipIdx_iff_le_and_getElem?_sub] at h1
    exact ⟨h1.1, h1.2⟩
  · simp [eofLine, Line.isEof] at he

theorem isEol_space {c : Char} (h : isEol c = true) : isSpace c = true := by
  simp [isEol] at h; rcases h with rfl | rfl <;> decide

theorem rstripEol_strip (s : Str) : rstripEol (strip s) = strip s := by
  refine rstripBy_id ?_
  obtain ⟨a, b, ha, hb, hs, h1, h2⟩ := strip_spec s
  intro c hc
  have := h2 c hc
  cases he : isEol c with
  | false => rfl
  | true => rw [isEol_space he] at this; cases this

theorem startsWith_split {s p : Str} (h : startsWith s p = true) : s = p ++ s.drop p.length := by
  obtain ⟨r, rfl⟩ := List.isPrefixOf_iff_prefix.1 h
  simp

theorem quotes_of {text : Str} {l : Line} (hl : LineIs text l.number l.text) {kw mark : Str}
    (h : startsWith l.trimmed (kw ++ mark) = true) : ∀ {loc : Location} {k n}, loc = ⟨l.number, some (l.indent + 1)⟩ → k = some kw →
      n = some (strip (l.trimmed.drop (kw ++ mark).length)) → Quotes text loc k mark n := by
  rintro _ _ _ rfl rfl rfl
  obtain ⟨a, ha, ht, _, hi⟩ := trimmed_spec l
  refine ⟨kw, a, l.trimmed.drop (kw ++ mark).length, rfl, ha, ?_, by rw [hi], rfl⟩
  have := startsWith_split h
  rw [show a ++ kw ++ mark ++ l.trimmed.drop (kw ++ mark).length = l.text by
    rw [ht, List.append_assoc a, List.append_assoc a, ← this]]
  exact hl

theorem title_quotes {text : Str} {k : Kind} {kws : List Str} {t0 t : Token} {m m' : CState}
    (hl : LineIs text t0.line.number t0.line.text) (hn : t0.loc.line = t0.line.number) (he : t0.line.isEof = false)
    (h : Classic.matchTitle k kws t0 m = (.ok true, t, m')) : Quotes text t.loc t.keyword [':'] t.text := by
  unfold Classic.matchTitle at h
  split at h
  · rename_i kw hf
    have hs := List.find?_some hf
    simp only [Prod.mk.injEq, true_and] at h
    obtain ⟨rfl, rfl⟩ := h
    refine quotes_of (l := t0.line) hl (kw := kw) hs ?_ rfl ?_
    · simp [setMatched, he, hn]
    · simp [setMatched, Line.restTrimmed, rstripEol_strip]
  · simp at h

theorem step_quotes {text : Str} {t0 t : Token} {m m' : CState}
    (hl : LineIs text t0.line.number t0.line.text) (hn : t0.loc.line = t0.line.number) (he : t0.line.isEof = false)
    (h : Classic.matchStep t0 m = (.ok true, t, m')) : Quotes text t.loc t.keyword [] t.text := by
  unfold Classic.matchStep at h
  split at h
  · rename_i kw hf
    have hs := List.find?_some hf
    simp only [Prod.mk.injEq, true_and] at h
    obtain ⟨rfl, rfl⟩ := h
    refine quotes_of (l := t0.line) hl (kw := kw) (mark := []) (by simpa [Line.startsWith] using hs) ?_ rfl ?_
    · simp [setMatched, he, hn]
    · simp [setMatched, Line.restTrimmed, rstripEol_strip]
  · simp at h

theorem tagLine_inv {t0 t : Token} {m m' : CState} (h : Classic.matchTagLine t0 m = (.ok true, t, m')) :
    t0.line.trimmed.head? = some '@' ∧ ∃ items, t0.line.tags = .ok items ∧
      t = setMatched m.dialectName t0 (some .tagLine) none none none none items := by
  unfold Classic.matchTagLine at h
  split at h
  · rename_i hs
    split at h
    · rename_i tags ht
      simp only [Prod.mk.injEq, true_and] at h
      refine ⟨?_, tags, ht, h.1.symm⟩
      have := startsWith_split hs; rw [this]; rfl
    · simp at h
  · simp at h

theorem tableRow_inv {t0 t : Token} {m m' : CState} (h : Classic.matchTableRow t0 m = (.ok true, t, m')) :
    t0.line.trimmed.head? = some '|' ∧ ∃ items, t0.line.tableCells = .ok items ∧
      t = setMatched m.dialectName t0 (some .tableRow) none none none none items := by
  unfold Classic.matchTableRow at h
  split at h
  · rename_i hs
    split at h
    · rename_i tags ht
      simp only [Prod.mk.injEq, true_and] at h
      refine ⟨?_, tags, ht, h.1.symm⟩
      have := startsWith_split hs; rw [this]; rfl
    · simp at h
  · simp at h

theorem flatMap_at {α β : Type} (f : α → List β) (l : List α) (j : Nat) (hj : j < l.length) :
    l.flatMap f = (l.take j).flatMap f ++ (f l[j] ++ (l.drop (j + 1)).flatMap f) := by
  have hd : l = l.take j ++ l[j] :: l.drop (j + 1) := by rw [List.getElem_cons_drop, List.take_append_drop]
  conv => lhs; rw [hd]
  rw [List.flatMap_append, List.flatMap_cons]

theorem tag_quotes {text : Str} {t0 t : Token} {m m' : CState}
    (hl : LineIs text t0.line.number t0.line.text) (hn : t0.loc.line = t0.line.number)
    (h : Classic.matchTagLine t0 m = (.ok true, t, m')) {i : MItem} (hi : i ∈ t.items) :
    QuotesTag text (Cst.itemLoc t i.column) i.text := by
  obtain ⟨hat, items, ht, rfl⟩ := tagLine_inv h
  obtain ⟨indent, tags, rest, w1, ne, w2, te, htext, hitems⟩ := C13_tags_read t0.line items hat ht
  have hi' : i ∈ items := hi
  rw [hitems, List.mem_mapIdx] at hi'
  obtain ⟨j, hj, rfl⟩ := hi'
  refine ⟨indent ++ (tags.take j).flatMap SrcTag.src, tags[j].gap, tags[j].name,
    tags[j].ws ++ (tags.drop (j + 1)).flatMap SrcTag.src ++ rest, rfl, (w2 _ (List.getElem_mem hj)).1, ?_, ?_⟩
  · have e : indent ++ (tags.take j).flatMap SrcTag.src ++ '@' :: (tags[j].gap ++ tags[j].name) ++
        (tags[j].ws ++ (tags.drop (j + 1)).flatMap SrcTag.src ++ rest) = t0.line.text := by
      rw [htext, flatMap_at SrcTag.src tags j hj]
      simp [SrcTag.src]
    rw [e]
    simpa [Cst.itemLoc, setMatched, hn] using hl
  · simp [Cst.itemLoc]

theorem cellRstrip_spec (v : Str) : ∃ pad, Pad pad ∧ (v = cellRstrip v ++ pad ∨ ∃ w, cellRstrip v = w ++ ['\n'] ∧ v = w ++ pad ++ ['\n']) := by
  have hp : ∀ {pad}, AllP isCellSpace pad → Pad pad := by
    intro pad h c hc; have := h c hc; simpa [isCellSpace] using this
  unfold cellRstrip
  split
  · rename_i hlast
    obtain ⟨pad, h1, h2, _⟩ := rstripBy_spec (p := isCellSpace) v.dropLast
    refine ⟨pad, hp h1, .inr ⟨_, rfl, ?_⟩⟩
    rw [← h2]
    exact (List.dropLast_append_getLast? _ hlast).symm
  · obtain ⟨pad, h1, h2, _⟩ := rstripBy_spec (p := isCellSpace) v
    exact ⟨pad, hp h1, .inl h2⟩

theorem row_quotes {text : Str} {t0 t : Token} {m m' : CState}
    (hl : LineIs text t0.line.number t0.line.text) (hn : t0.loc.line = t0.line.number) (he : t0.line.isEof = false)
    (h : Classic.matchTableRow t0 m = (.ok true, t, m')) :
    QuotesRow text t.loc (t.items.map fun i => { loc := Cst.itemLoc t i.column, value := i.text }) := by
  obtain ⟨hat, items, ht, rfl⟩ := tableRow_inv h
  obtain ⟨indent, cells, rest, w1, ok, _, htext, hitems⟩ := C15_cell_columns t0.line items hat ht
  have hloc : (setMatched m.dialectName t0 (some .tableRow) none none none none items).loc = ⟨t0.line.number, some (t0.line.indent + 1)⟩ := by
    simp [setMatched, he, hn]
  refine ⟨?_, ?_⟩
  · obtain ⟨a, ha, ht, _, hi⟩ := trimmed_spec t0.line
    rw [hloc]
    obtain ⟨r, hr⟩ : ∃ r, t0.line.trimmed = '|' :: r := by
      cases hh : t0.line.trimmed with
      | nil => rw [hh] at hat; simp at hat
      | cons c r => rw [hh] at hat; simp at hat; subst hat; exact ⟨r, rfl⟩
    refine ⟨a, r, ha, ?_, by rw [hi]⟩
    rw [← hr, ← ht]; exact hl
  · intro c hc
    simp only [List.mem_map] at hc
    obtain ⟨i, hi, rfl⟩ := hc
    have hi' : i ∈ items := hi
    rw [hitems, List.mem_mapIdx] at hi'
    obtain ⟨j, hj, rfl⟩ := hi'
    have hok := ok _ (List.getElem_mem hj)
    obtain ⟨pad, hpad, hv⟩ := cellRstrip_spec cells[j].value
    obtain ⟨r', hr'⟩ : ∃ r', ((cells.drop (j + 1)).flatMap fun c => '|' :: (c.ws ++ c.raw)) ++ '|' :: rest = '|' :: r' := by
      cases cells.drop (j + 1) <;> simp
    refine ⟨indent ++ ((cells.take j).flatMap fun c => '|' :: (c.ws ++ c.raw)) ++ '|' :: cells[j].ws, cells[j].raw, cells[j].value, r',
      pad, ?_, ?_, hok.2.1, hv, hpad⟩
    · have e : indent ++ ((cells.take j).flatMap fun c => '|' :: (c.ws ++ c.raw)) ++ '|' :: cells[j].ws ++ cells[j].raw ++ '|' :: r' = t0.line.text := by
        rw [htext, ← hr', flatMap_at _ cells j hj]
        simp
      rw [e, hloc]; exact hl
    · simp [Cst.itemLoc, hloc]

/-- A token that the classic matcher made from a line of the text quotes the text. -/
theorem built_quoted {text : Str} {t : Token} {k : Kind} (hs : TokSrc text t) (hk : t.type = some k) (heof : k = .eof ↔ t.eof = true)
    (hb : Built classic k t) : ∀ e ∈ t.entries, e.Quoted text := by
  obtain ⟨t0, m, m', hl0, hm⟩ := hb
  have hll : t0.loc.line = t.loc.line := by
    have := classic_lawful.locLine k t0 m
    simp only [classic] at this hm
    rw [hm] at this; exact this.symm
  have hn : t0.loc.line = t0.line.number := by rw [hll, hl0]; exact hs.2
  by_cases he : t.eof = true
  · have := heof.2 he; subst this
    simp [Token.entries, hk]
  · have he' : t0.line.isEof = false := by rw [hl0]; simpa [Token.eof] using he
    have hL : LineIs text t0.line.number t0.line.text := by rw [hl0] at he' ⊢; exact tokenLines_lineIs hs.1 he'
    simp only [classic] at hm
    cases k <;> simp only [Classic.matchKind] at hm <;> simp only [Token.entries, hk, List.not_mem_nil, false_implies, implies_true,
      List.mem_singleton, forall_eq, List.mem_map, Entry.Quoted]
    case tagLine => rintro e ⟨i, hi, rfl⟩; exact tag_quotes hL hn hm hi
    case tableRow => exact row_quotes hL hn he' hm
    case stepLine => exact step_quotes hL hn he' hm
    all_goals exact title_quotes hL hn he' hm

end Gherkin
