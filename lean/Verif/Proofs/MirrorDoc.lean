import Verif.Proofs.MirrorSteps
import Verif.Proofs.CstMap
import Verif.Proofs.Describe
import Verif.Proofs.MdTotal2
import Verif.Proofs.MdProse
import Verif.Proofs.NoiseSafe

/-! From lines that mirror each other to documents that say the same. -/

namespace Gherkin

open Markdown Cst Auto Md

/-! ### The lines of the two texts -/

/-- Whether the line of the classic text with the same number is passed over by a look-ahead. -/
def mirrorSkip (text : Str) (l' : Line) : Bool :=
  match (splitLines text)[l'.number - 1]? with
  | some s => skipLine ⟨s, l'.number⟩
  | none => false

theorem mirL_of {d : Dialect} {sk : Line → Bool} {p : Place} {ss ss' : List Str} (h : Mirrors d p ss ss') :
    ∀ k : Nat, (∀ s ∈ ss, s ≠ []) → (∀ s ∈ ss', s ≠ [] ∧ OneLf s) →
      (∀ i s s', ss[i]? = some s → ss'[i]? = some s' → sk ⟨s', k + i⟩ = skipLine ⟨s, k + i⟩) →
      MirL d sk p ((ss.zipIdx k).map (fun (s, n) => ⟨s, n⟩) ++ [⟨[], k + ss.length⟩])
        ((ss'.zipIdx k).map (fun (s, n) => ⟨s, n⟩) ++ [⟨[], k + ss'.length⟩]) := by
  have pair : ∀ {s s' : Str} {ss ss' : List Str} {k : Nat}, (∀ x ∈ s :: ss, x ≠ []) → (∀ x ∈ s' :: ss', x ≠ [] ∧ OneLf x) →
      (∀ i x x', (s :: ss)[i]? = some x → (s' :: ss')[i]? = some x' → sk ⟨x', k + i⟩ = skipLine ⟨x, k + i⟩) →
      LinePair sk (⟨s, k⟩ : Line) ⟨s', k⟩ := by
    intro s s' ss ss' k h1 h2 h3
    refine ⟨rfl, by simpa using h3 0 s s' rfl rfl, (h2 s' (by simp)).2, ?_, ?_⟩
    · have := h1 s (by simp); simp [Line.isEof, this]
    · have := (h2 s' (by simp)).1; simp [Line.isEof, this]
  have tail : ∀ {s s' : Str} {ss ss' : List Str} {k : Nat},
      (∀ i x x', (s :: ss)[i]? = some x → (s' :: ss')[i]? = some x' → sk ⟨x', k + i⟩ = skipLine ⟨x, k + i⟩) →
      (∀ i x x', ss[i]? = some x → ss'[i]? = some x' → sk ⟨x', k + 1 + i⟩ = skipLine ⟨x, k + 1 + i⟩) := by
    intro s s' ss ss' k h i x x' e e'
    have := h (i + 1) x x' (by simpa using e) (by simpa using e')
    rw [show k + (i + 1) = k + 1 + i from by omega] at this
    exact this
  induction h with
  | done => intro k _ _ _; exact .done rfl rfl rfl
  | @tags s s' ls ls' h _ ih =>
    intro k h1 h2 h3
    have := ih (k + 1) (fun x hx => h1 x (by simp [hx])) (fun x hx => h2 x (by simp [hx])) (tail h3)
    simp only [List.zipIdx_cons, List.map_cons, List.cons_append, List.length_cons]
    rw [show k + (ls.length + 1) = k + 1 + ls.length from by omega, show k + (ls'.length + 1) = k + 1 + ls'.length from by omega]
    exact .tags (pair h1 h2 h3) h this
  | @feature s s' ls ls' h _ ih =>
    intro k h1 h2 h3
    have := ih (k + 1) (fun x hx => h1 x (by simp [hx])) (fun x hx => h2 x (by simp [hx])) (tail h3)
    simp only [List.zipIdx_cons, List.map_cons, List.cons_append, List.length_cons]
    rw [show k + (ls.length + 1) = k + 1 + ls.length from by omega, show k + (ls'.length + 1) = k + 1 + ls'.length from by omega]
    exact .feature (pair h1 h2 h3) h this
  | @line s s' ls ls' h _ ih =>
    intro k h1 h2 h3
    have := ih (k + 1) (fun x hx => h1 x (by simp [hx])) (fun x hx => h2 x (by simp [hx])) (tail h3)
    simp only [List.zipIdx_cons, List.map_cons, List.cons_append, List.length_cons]
    rw [show k + (ls.length + 1) = k + 1 + ls.length from by omega, show k + (ls'.length + 1) = k + 1 + ls'.length from by omega]
    exact .line (pair h1 h2 h3) h this
  | @opening s ls ls' delim h h' _ ih =>
    intro k h1 h2 h3
    have := ih (k + 1) (fun x hx => h1 x (by simp [hx])) (fun x hx => h2 x (by simp [hx])) (tail h3)
    simp only [List.zipIdx_cons, List.map_cons, List.cons_append, List.length_cons]
    rw [show k + (ls.length + 1) = k + 1 + ls.length from by omega, show k + (ls'.length + 1) = k + 1 + ls'.length from by omega]
    exact .opening (pair h1 h2 h3) rfl h h' this
  | @content s ls ls' delim h _ ih =>
    intro k h1 h2 h3
    have := ih (k + 1) (fun x hx => h1 x (by simp [hx])) (fun x hx => h2 x (by simp [hx])) (tail h3)
    simp only [List.zipIdx_cons, List.map_cons, List.cons_append, List.length_cons]
    rw [show k + (ls.length + 1) = k + 1 + ls.length from by omega, show k + (ls'.length + 1) = k + 1 + ls'.length from by omega]
    exact .content (pair h1 h2 h3) rfl h this
  | @closing s ls ls' delim h _ ih =>
    intro k h1 h2 h3
    have := ih (k + 1) (fun x hx => h1 x (by simp [hx])) (fun x hx => h2 x (by simp [hx])) (tail h3)
    simp only [List.zipIdx_cons, List.map_cons, List.cons_append, List.length_cons]
    rw [show k + (ls.length + 1) = k + 1 + ls.length from by omega, show k + (ls'.length + 1) = k + 1 + ls'.length from by omega]
    exact .closing (pair h1 h2 h3) rfl h this

theorem mirL_text {d : Dialect} {text text' : Str} (h : Mirrors d .start (splitLines text) (splitLines text')) :
    MirL d (mirrorSkip text) .start (tokenLines text) (tokenLines text') := by
  have := mirL_of (sk := mirrorSkip text) h 1 (splitLines_ne text) (fun s hs => ⟨splitLines_ne text' s hs, splitLines_lf text' s hs⟩) (by
    intro i s s' e e'
    simp only [mirrorSkip, Nat.add_sub_cancel_left, e])
  unfold tokenLines sourceLines eofLine
  rw [Nat.add_comm (splitLines text).length, Nat.add_comm (splitLines text').length]
  exact this

/-! ### Texts without descriptions -/

theorem joinStr_ne {sep : Str} {x : Str} : ∀ {ls : List Str}, x ∈ ls → x ≠ [] → joinStr sep ls ≠ []
  | [], h, _ => by simp at h
  | [y], h, hx => by simp at h; subst h; simpa [joinStr] using hx
  | y :: z :: ls, h, hx => by
    rcases List.mem_cons.1 h with rfl | h
    · simp [joinStr, hx]
    · have := joinStr_ne (sep := sep) (ls := z :: ls) h hx
      simp [joinStr, this]

theorem no_description {text : Str} {m : CState} (hm : m.Valid) {mv : List Auto.Move} {q : Nat} {m' : CState} {D : CDoc}
    (hr : Auto.Run 0 (Classic.reset m) (tokenLines text) mv q m') (hD : D.Ok) (ht : D.toks = (mv.map (·.tok)).filter Token.isCore)
    {p : Part} {line : Token} {desc : List Token} (hp : (p, line, desc) ∈ D.parts) (he : description desc = []) : desc = [] := by
  obtain ⟨m2, h1, h2, h3⟩ := description_tokens hm hr hD ht hp
  have h4 := descriptions_quoted hm hr hD ht hp
  rw [he] at h4
  cases hl : descriptionLines m'.dialect text p line.loc.line with
  | nil => rw [h3, hl]; rfl
  | cons l ls =>
    exfalso
    unfold descriptionAt at h4
    rw [hl] at h4
    have hb : isBlankLine l = false := by
      unfold descriptionLines at hl
      cases hd : (linesAfter text line.loc.line).dropWhile isBlankLine with
      | nil => rw [hd] at hl; simp at hl
      | cons y ys =>
        have := List.head?_dropWhile_not isBlankLine (linesAfter text line.loc.line)
        rw [hd] at this hl
        simp only [List.takeWhile_cons] at hl
        split at hl
        · simp only [List.cons.injEq] at hl
          rw [← hl.1]
          simpa using this
        · simp at hl
    have hne : chomp l.text ≠ [] := by
      apply rstripEol_solid
      rw [isBlankLine_iff] at hb
      simp only [Line.isBlank, Line.trimmed] at hb
      cases hs : lstrip l.text with
      | nil => rw [hs] at hb; simp at hb
      | cons c cs =>
        refine ⟨c, ?_, ?_⟩
        · have : c ∈ lstrip l.text := by rw [hs]; simp
          exact List.dropWhile_sublist _ |>.subset this
        · have := List.head?_dropWhile_not isSpace l.text
          rw [show l.text.dropWhile isSpace = c :: cs from hs] at this
          simpa using this
    exact joinStr_ne (mem_trimEnd (x := chomp l.text) (by simp) hne) hne h4.symm

/-- If nothing is dropped, prose stands only in doc strings. -/
theorem other_inside {q : Nat} {m : CState} {ls : List Line} {mv : List Auto.Move} {q' : Nat} {m' : CState} (h : Auto.Run q m ls mv q' m')
    {o : Bool} (ho : o = true ↔ q ∈ openStates)
    (hlen : (scan o ((mv.map (·.tok)).filter Token.isCore)).length = ((mv.map (·.tok)).filter Token.isCore).length) :
    ∀ x ∈ mv, x.tr.kind = .other → x.state ∈ openStates := by
  have le : ∀ (ts : List Token) (o : Bool), (scan o ts).length ≤ ts.length := by
    intro ts
    induction ts with
    | nil => intro o; simp [scan]
    | cons t ts ih =>
      intro o
      unfold scan
      split
      · simp [ih]
      · split
        · exact Nat.le_succ_of_le (ih o)
        · simp [ih]
  induction h generalizing o with
  | nil => intro x hx; simp at hx
  | @last q m l rest tr t m' hst he =>
    intro x hx hk
    simp only [List.mem_singleton] at hx
    subst hx
    have hsp := step_spec hst
    rcases hsp.eof with h | h
    · simp only at hk; rw [hk] at h; simp at h
    · rw [he] at h; simp at h
  | @cons q m l rest tr t m1 mv q' m2 hst he hrun ih =>
    have hsp := step_spec hst
    have hty : t.type = some tr.kind := matched_type hsp.matched
    simp only [List.map_cons, List.filter_cons] at hlen
    intro x hx hk
    by_cases hc : t.isCore = true
    · rw [if_pos hc] at hlen
      unfold scan at hlen
      by_cases hs : tr.kind = .docStringSeparator
      · rw [if_pos (by rw [hty, hs])] at hlen
        simp only [List.length_cons, Nat.add_right_cancel_iff] at hlen
        rcases List.mem_cons.1 hx with rfl | hx
        · simp only at hk; rw [hk] at hs; simp at hs
        · refine ih ?_ hlen x hx hk
          rw [hsp.facts.sep hs, ← ho]; cases o <;> simp
      · rw [if_neg (by rw [hty]; simpa using hs)] at hlen
        have ho' : o = true ↔ tr.target ∈ openStates := by rw [hsp.facts.keep hs]; exact ho
        split at hlen
        · rename_i hd
          have := le ((mv.map (·.tok)).filter Token.isCore) o
          simp only [List.length_cons] at hlen
          omega
        · rename_i hd
          simp only [List.length_cons, Nat.add_right_cancel_iff] at hlen
          rcases List.mem_cons.1 hx with rfl | hx
          · simp only at hk ⊢
            rw [← ho]
            rw [hty, hk] at hd
            simpa using hd
          · exact ih ho' hlen x hx hk
    · rw [if_neg hc] at hlen
      rcases List.mem_cons.1 hx with rfl | hx
      · simp only at hk
        exact absurd (by rw [isCore_kind hty, hk]; rfl) hc
      · have hs : tr.kind ≠ .docStringSeparator := by
          intro e; exact hc (by rw [isCore_kind hty, e]; rfl)
        exact ih (by rw [hsp.facts.keep hs]; exact ho) hlen x hx hk

/-! ### The Markdown run builds a document -/

theorem md_pick_text {sk : Line → Bool} {rows : List Trans} {l : Line} {rest : List Line} : ∀ {m m' : MdState} {tr : Trans} {t : Token},
    MdAuto.pick sk rows l rest m = some (tr, t, m') → tr ∈ rows ∧ (tr.kind = .docStringSeparator → t.text.isSome = true) := by
  induction rows with
  | nil => intro m m' tr t h; simp [MdAuto.pick] at h
  | cons x xs ih =>
    intro m m' tr t h
    have key : ∀ {t1 m1}, MdAuto.test x.kind l m = (.ok true, t1, m1) → x.kind = .docStringSeparator → t1.text.isSome = true := by
      intro t1 m1 h1 hk
      rw [hk] at h1
      unfold MdAuto.test at h1
      split at h1
      · simp at h1
      · simp only [matchKind, matchDocSep, matchSep] at h1
        repeat' split at h1
        all_goals
          simp only [Prod.mk.injEq, Except.ok.injEq, Bool.false_eq_true, false_and, true_and] at h1
          try (rw [← h1.1]; rfl)
    simp only [MdAuto.pick] at h
    split at h
    · rename_i t1 m1 h1
      split at h
      · simp only [Option.some.injEq, Prod.mk.injEq] at h
        obtain ⟨rfl, rfl, _⟩ := h
        exact ⟨by simp, key h1⟩
      · split at h
        · simp only [Option.some.injEq, Prod.mk.injEq] at h
          obtain ⟨rfl, rfl, _⟩ := h
          exact ⟨by simp, key h1⟩
        · exact ⟨List.mem_cons_of_mem _ (ih h).1, (ih h).2⟩
        · simp at h
    · exact ⟨List.mem_cons_of_mem _ (ih h).1, (ih h).2⟩
    · simp at h

theorem flat_fits {q : Nat} {tr : Trans} {t t' : Token} (h : MoveFits q tr t) (hf : t'.flat = t.flat)
    (hs : tr.kind = .docStringSeparator → t'.text.isSome = true) : MoveFits q tr t' := by
  obtain ⟨h1, h2, h3⟩ := h
  have hty : t'.type = t.type := (congrArg Token.type hf : t'.flat.type = t.flat.type)
  have h4 := h3 (fun _ => True) trivial
  have htx : tr.kind = .other → t'.text = t.text := by
    intro e
    have := congrArg Token.text hf
    simpa [Token.flat, hty, h2, e] using this
  refine ⟨h1, by rw [hty]; exact h2, fun P hP => ⟨by rw [hty]; exact h2, hP, ?_, ?_, ?_⟩⟩
  · intro e; rw [htx e]; exact h4.text e
  · intro e; rw [htx e]; exact h4.desc e
  · intro e _; exact hs e

theorem md_path {sk : Line → Bool} {q : Nat} {m : MdState} {ls : List Line} {mv' : List Auto.Move} {q' : Nat} {m' : MdState}
    (h : MdAuto.Run sk q m ls mv' q' m') : ∀ {mv : List Auto.Move}, Path q mv q' → mv'.map moveKey = mv.map moveKey → Path q mv' q' := by
  have stepText : ∀ {q l rest m tr t m'}, MdAuto.step sk q l rest m = some (tr, t, m') → tr.kind = .docStringSeparator → t.text.isSome = true := by
    intro q l rest m tr t m' h
    unfold MdAuto.step at h
    split at h
    · simp at h
    · exact (md_pick_text h).2
  induction h with
  | @last q m l rest tr t m' hst he =>
    intro mv hp hk
    cases hp with
    | nil => simp at hk
    | @cons _ tr1 t1 mv q' hf hp =>
      simp only [List.map_cons, List.map_nil, List.cons.injEq, moveKey, Prod.mk.injEq] at hk
      obtain ⟨⟨_, rfl, hfl⟩, _⟩ := hk
      exact .cons (flat_fits hf hfl (stepText hst)) (.nil _)
  | @cons q m l rest tr t m1 mv0 q' m2 hst he hrun ih =>
    intro mv hp hk
    cases hp with
    | nil => simp at hk
    | @cons _ tr1 t1 mv q' hf hp =>
      simp only [List.map_cons, List.cons.injEq, moveKey, Prod.mk.injEq] at hk
      obtain ⟨⟨_, rfl, hfl⟩, hk⟩ := hk
      exact .cons (flat_fits hf hfl (stepText hst)) (ih hp hk)

theorem path_builds {q : Nat} {mv : List Auto.Move} {q' : Nat} (h : Path q mv q') : builds (mv.flatMap Auto.Move.evs) = mv.map (·.tok) := by
  induction h with
  | nil => rfl
  | @cons q tr t mv q' hf _ ih =>
    obtain ⟨⟨row, hrow, htr⟩, _⟩ := hf
    have := builds_prods t tr.prods (table_builds hrow htr).1
    rw [List.flatMap_cons, builds_append, ih]
    simp [Auto.Move.evs, builds, this]

theorem flat_core {t t' : Token} (h : t'.flat = t.flat) : t'.isCore = t.isCore := by
  have : t'.type = t.type := (congrArg Token.type h : t'.flat.type = t.flat.type)
  simp [Token.isCore, this]

theorem flat_filter : ∀ {ts ts' : List Token}, ts'.map Token.flat = ts.map Token.flat →
    (ts'.filter Token.isCore).map Token.flat = (ts.filter Token.isCore).map Token.flat
  | [], [], _ => rfl
  | [], _ :: _, h => by simp at h
  | _ :: _, [], h => by simp at h
  | t :: ts, t' :: ts', h => by
    simp only [List.map_cons, List.cons.injEq] at h
    have := flat_filter h.2
    have hc := flat_core h.1
    simp only [List.filter_cons, hc]
    split
    · simp [h.1, this]
    · exact this

theorem flat_chain : ∀ {ts ts' : List Token}, ts'.map Token.flat = ts.map Token.flat → ∀ {w : Option Nat}, RowChain w ts → RowChain w ts'
  | [], [], _, _, h => h
  | [], _ :: _, h, _, _ => by simp at h
  | _ :: _, [], h, _, _ => by simp at h
  | t :: ts, t' :: ts', h, w, hw => by
    simp only [List.map_cons, List.cons.injEq] at h
    have hc := flat_core h.1
    have hty : t'.type = t.type := (congrArg Token.type h.1 : t'.flat.type = t.flat.type)
    have hit : t'.items.length = t.items.length := by
      have := congrArg (fun t : Token => t.items.length) h.1
      simpa [Token.flat] using this
    unfold RowChain at hw ⊢
    rw [hty, hit, hc]
    split
    · rename_i e; rw [if_pos e] at hw; exact ⟨hw.1, flat_chain h.2 hw.2⟩
    · rename_i e
      rw [if_neg e] at hw
      split
      · rename_i e'; rw [if_pos e'] at hw; exact flat_chain h.2 hw
      · rename_i e'; rw [if_neg e'] at hw; exact flat_chain h.2 hw

/-- A Markdown text that says, line by line, what a classic text without descriptions says is read as the same document, columns apart. -/
theorem mirror_parse {lang : Str} {d : Dialect} {mc : CState} {mm : MdState} {stop : Bool} {text text' : Str} {b : BState} {doc : Document}
    (hd : dialectFor lang = some d) (hc : CState.new lang = some mc) (hm : MdState.new lang = some mm)
    (hmir : Mirrors d .start (splitLines text) (splitLines text')) (h : (parse ⟨classic, astBuilder, stop⟩ text mc b).1 = .ok (some doc))
    (hdesc : ∀ p ∈ doc.parts, p.2.2 = []) :
    ∃ doc', (parse ⟨markdown, astBuilder, stop⟩ text' mm b).1 = .ok (some doc') ∧
      doc'.feature.map Feature.uncolumned = doc.feature.map Feature.uncolumned := by
  have hv := CState.new_valid hc
  obtain ⟨mv, q, m', D, hr, hD, ht, rfl⟩ := accepted_doc hv h
  have hq := run_end hr (tokenLines_src text)
  subst hq
  have hi := inv_start hv
  have hparts : ∀ p ∈ D.parts, p.2.2 = [] := by
    rintro ⟨p, line, desc⟩ hp
    exact no_description hv hr hD ht hp (hdesc _ (part_ast hp))
  have hother := other_inside hr (o := false) (by simp [openStates]) (by rw [← ht]; exact scan_all hD hparts)
  have hcd : mc = { defaultName := lang, dialectName := lang, dialect := d, indentToRemove := 0, active := none } := by
    simp only [CState.new, hd, Option.map_some, Option.some.injEq] at hc; exact hc.symm
  have hmd : mm = { defaultName := lang, dialectName := lang, dialect := d, indentToRemove := 0, active := none, matchedFeature := false } := by
    simp only [MdState.new, hd, Option.map_some, Option.some.injEq] at hm; exact hm.symm
  have hat : MirAt d 0 (Classic.reset mc) (Md.reset mm) .start := by
    refine ⟨.inl rfl, ?_⟩
    rw [hcd, hmd]
    refine ⟨⟨lang, hd⟩, ?_, ?_, ?_, ?_, ?_, ?_⟩ <;> simp [Classic.reset, Md.reset]
  obtain ⟨mv', m'', hr', hkey⟩ := mirror_run hr hi hother hat (mirL_text hmir)
  have hpath := md_path hr' (run_path hr hi) hkey
  have hflat : (mv'.map (·.tok)).map Token.flat = (mv.map (·.tok)).map Token.flat := by
    have := congrArg (List.map fun x : Nat × Trans × Token => x.2.2) hkey
    simpa [List.map_map, Function.comp_def, moveKey] using this
  have hw : RowChain none (mv.map Auto.Move.tok) := by rw [← rowChain_core, ← ht]; exact doc_chain hD
  obtain ⟨hb, r, hres⟩ := builds_path hpath (flat_chain hflat hw) b
  obtain ⟨hok, hlog⟩ := md_run_accepted (stop := stop) hr' hb hres
  obtain ⟨D', hD', ht', rfl, _⟩ := parse_doc markdown_lawful stop hok
  refine ⟨_, hok, ?_⟩
  rw [hlog] at ht'
  have hbs : builds (allEvs mv') = mv'.map (·.tok) := by
    simp [allEvs, builds, builds_append, path_builds hpath]
  rw [hbs] at ht'
  exact flat_of_toks hD' hD (by rw [ht', ht]; exact flat_filter hflat) _ _ _

end Gherkin
