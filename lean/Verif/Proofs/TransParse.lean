import Verif.Proofs.TransRun
import Verif.Proofs.NoiseSafe

/-! A translated text is read as the same document, columns, keywords and the language apart. -/

namespace Gherkin

open Auto Cst Md

theorem titleLists_kind {kws : Dialect → List Str} (h : kws ∈ titleLists) : ∃ K, ∀ d : Dialect, d.titles K = kws d := by
  simp only [titleLists, List.mem_cons, List.not_mem_nil, or_false] at h
  rcases h with rfl | rfl | rfl | rfl | rfl
  · exact ⟨.featureLine, fun _ => rfl⟩
  · exact ⟨.ruleLine, fun _ => rfl⟩
  · exact ⟨.backgroundLine, fun _ => rfl⟩
  · exact ⟨.scenarioLine, fun _ => rfl⟩
  · exact ⟨.examplesLine, fun _ => rfl⟩

theorem kind_titleLists {K : Kind} (h : K ∈ titleKinds) : ∃ kws ∈ titleLists, ∀ d : Dialect, d.titles K = kws d := by
  simp only [titleKinds, List.mem_cons, List.not_mem_nil, or_false] at h
  rcases h with rfl | rfl | rfl | rfl | rfl
  · exact ⟨Dialect.feature, by simp [titleLists], fun _ => rfl⟩
  · exact ⟨Dialect.rule, by simp [titleLists], fun _ => rfl⟩
  · exact ⟨Dialect.background, by simp [titleLists], fun _ => rfl⟩
  · exact ⟨fun d => d.scenario ++ d.scenarioOutline, by simp [titleLists], fun _ => rfl⟩
  · exact ⟨Dialect.examples, by simp [titleLists], fun _ => rfl⟩

theorem head_space {kw s : Str} (h : headOk kw = true) : ∀ c ∈ (kw ++ s).head?, isSpace c = false := by
  obtain ⟨c, cs, rfl, hs⟩ := Print.headOk_cons h
  intro x hx
  simp at hx
  subst hx
  exact hs

/-- A line with a keyword, seen from the text. -/
theorem keyworded_of {d : Dialect} {l : Line} {k : Kind} (hk : k ∈ wordKinds) (hf : fits d l k = true) : Keyworded d l.text := by
  obtain ⟨w, hw, e⟩ := lstrip_split l.text
  by_cases hs : k = .stepLine
  · subst hs
    simp only [fits, isStep_iff, List.any_eq_true] at hf
    obtain ⟨kw, h1, h2⟩ := hf
    simp only [Line.startsWith, startsWith, List.isPrefixOf_iff_prefix] at h2
    obtain ⟨rest, h2⟩ := h2
    refine ⟨w, kw, rest, hw, .inr ⟨h1, ?_⟩⟩
    rw [h2]; exact e
  · have hk' : k ∈ titleKinds := by
      simp only [wordKinds, List.mem_cons] at hk
      rcases hk with h | h
      · exact absurd h hs
      · exact h
    have hf' : isTitle (d.titles k) l = true := by
      simp only [titleKinds, List.mem_cons, List.not_mem_nil, or_false] at hk'
      rcases hk' with rfl | rfl | rfl | rfl | rfl <;> exact hf
    obtain ⟨kws, h0, h0'⟩ := kind_titleLists hk'
    rw [isTitle_iff, List.any_eq_true] at hf'
    obtain ⟨kw, h1, h2⟩ := hf'
    simp only [Line.startsWithTitle, startsWith, List.isPrefixOf_iff_prefix] at h2
    obtain ⟨rest, h2⟩ := h2
    refine ⟨w, kw, rest, hw, .inl ⟨kws, h0, by rw [← h0']; exact h1, ?_⟩⟩
    have : kw ++ ':' :: rest = lstrip l.text := by rw [show lstrip l.text = l.trimmed from rfl, ← h2]; simp
    rw [this]; exact e

theorem step_word_find {lang : Str} {d : Dialect} (hlang : dialectFor lang = some d) (hu : lang ∉ unsortedDialects) {kw rest : Str} (h : StepWord d kw (kw ++ rest))
    {l : Line} (hl : l.trimmed = kw ++ rest) : d.stepKeywords.find? (fun k => l.startsWith k) = some kw := by
  have hn : noHidden d.stepKeywords = true := by
    have hd := List.all_eq_true.1 dialects_noHidden _ (lookup_mem hlang)
    simp only [Bool.or_eq_true, List.contains_iff_mem] at hd
    exact hd.resolve_left hu
  have : ∃ y, d.stepKeywords.find? (fun k => l.startsWith k) = some y := by
    rw [← Option.isSome_iff_exists, List.find?_isSome]
    exact ⟨kw, h.mem, by simp only [Line.startsWith, hl, startsWith, List.isPrefixOf_iff_prefix]; exact ⟨rest, rfl⟩⟩
  obtain ⟨y, hy⟩ := this
  have h1 := find_longest (s := l.trimmed) hn hy kw h.mem (by simp only [startsWith, hl, List.isPrefixOf_iff_prefix]; exact ⟨rest, rfl⟩)
  have hp : y <+: kw ++ rest := by
    have := List.find?_some hy
    simp only [Line.startsWith, startsWith, hl, List.isPrefixOf_iff_prefix] at this
    exact this
  have h2 := h.longest y (List.mem_of_find?_eq_some hy) hp
  have : y = kw := List.prefix_iff_eq_take.1 (List.prefix_of_prefix_length_le hp ⟨rest, rfl⟩ h2) |>.trans (by rw [List.take_of_length_le h1])
  rw [hy, this]

theorem dialects_bullet : dialects.all (fun p => !p.2.stepKeywords.contains bullet || (p.2.given.contains bullet && p.2.when_.contains bullet)) = true := by decide +kernel

theorem stepType_cases {lang : Str} {d : Dialect} (hlang : dialectFor lang = some d) {kw : Str} (hk : kw ∈ d.stepKeywords) :
    (Classic.stepType d kw = .unknown ∧ kw ∈ d.ofType .context ∧ kw ∈ d.ofType .action) ∨
    (kw ∈ d.ofType (Classic.stepType d kw) ∧ ∀ ty, kw ∈ d.ofType ty → ty = Classic.stepType d kw) := by
  have hd := List.all_eq_true.1 dialects_typesOk _ (lookup_mem hlang)
  have hb := List.all_eq_true.1 dialects_bullet _ (lookup_mem hlang)
  simp only [typesOk, List.all_eq_true] at hd
  simp only [Bool.or_eq_true, Bool.not_eq_true', Bool.and_eq_true, List.contains_iff_mem] at hb
  have hd := hd kw hk
  by_cases e : kw = bullet
  · subst e
    simp only [beq_self_eq_true, if_true, beq_iff_eq] at hd
    have hb := hb.resolve_left (by rw [List.contains_iff_mem.2 hk]; simp)
    exact .inl ⟨hd, hb.1, hb.2⟩
  · rw [if_neg (by simpa using e)] at hd
    simp only [beq_iff_eq] at hd
    obtain ⟨k, hk⟩ := List.length_eq_one_iff.1 hd
    obtain ⟨_, h2, h3⟩ := keywordTypes_single hk
    right
    simp only [Classic.stepType, hk]
    exact ⟨h2, h3⟩

theorem same_type {lang lang' : Str} {d d' : Dialect} (hlang : dialectFor lang = some d) (hlang' : dialectFor lang' = some d') {kw kw' : Str}
    (hk : kw ∈ d.stepKeywords) (hk' : kw' ∈ d'.stepKeywords) (h : ∀ ty, kw ∈ d.ofType ty ↔ kw' ∈ d'.ofType ty) : Classic.stepType d kw = Classic.stepType d' kw' := by
  rcases stepType_cases hlang hk with ⟨a1, a2, a3⟩ | ⟨a1, a2⟩ <;> rcases stepType_cases hlang' hk' with ⟨b1, b2, b3⟩ | ⟨b1, b2⟩
  · rw [a1, b1]
  · have := (b2 _ ((h _).1 a2)).trans (b2 _ ((h _).1 a3)).symm
    simp at this
  · have := (a2 _ ((h _).2 b2)).trans (a2 _ ((h _).2 b3)).symm
    simp at this
  · exact b2 _ ((h _).1 a1)

/-- Lines that say the same. -/
theorem same_pair {lang lang' : Str} {d d' : Dialect} (hlang : dialectFor lang = some d) (hlang' : dialectFor lang' = some d') (hu : lang ∉ unsortedDialects)
    (hu' : lang' ∉ unsortedDialects) {l l' : Line} (hn : l'.number = l.number) (h : SameLine d d' l.text l'.text) : PairL d d' l l' := by
  have hd : d.Known := ⟨lang, hlang⟩
  have hd' : d'.Known := ⟨lang', hlang'⟩
  generalize hs : l.text = s at h
  generalize hs' : l'.text = s' at h
  cases h with
  | @title kws w w' kw kw' rest h1 h2 h3 h4 h5 =>
    obtain ⟨K, hK⟩ := titleLists_kind h1
    rw [← hK] at h4 h5
    refine .title (rest := rest) h4 h5 ?_ ?_ hn
    · rw [Line.trimmed, hs]; exact lstrip_pre h2 (head_space (hd.title_head h4))
    · rw [Line.trimmed, hs']; exact lstrip_pre h3 (head_space (hd'.title_head h5))
  | @step w w' kw kw' rest h1 h2 h3 h4 h5 =>
    have e1 : l.trimmed = kw ++ rest := by rw [Line.trimmed, hs]; exact lstrip_pre h1 (head_space (hd.step_head h3.mem))
    have e2 : l'.trimmed = kw' ++ rest := by rw [Line.trimmed, hs']; exact lstrip_pre h2 (head_space (hd'.step_head h4.mem))
    exact .step (step_word_find hlang hu h3 e1) (step_word_find hlang' hu' h4 e2) e1 e2 (same_type hlang hlang' h3.mem h4.mem h5) hn
  | plain h1 h2 =>
    have : l' = l := by
      cases l; cases l'
      simp only at hs hs' hn
      simp [hs, hs', hn]
    subst this
    subst hs
    refine .plain rfl fun k hk => ⟨?_, ?_⟩
    · cases hf : fits d l' k with
      | false => rfl
      | true => exact absurd (keyworded_of hk hf) h1
    · cases hf : fits d' l' k with
      | false => rfl
      | true => exact absurd (keyworded_of hk hf) h2

theorem fitsT_of {lang lang' : Str} {d d' : Dialect} : ∀ {mv : List Move} {ls' : List Line}, mv.length = ls'.length →
    (∀ mv1 x mv2, mv = mv1 ++ x :: mv2 → ∀ l', ls'[mv1.length]? = some l' → FitT lang d lang' d' x l') → FitsT lang d lang' d' mv ls'
  | [], [], _, _ => .nil
  | [], _ :: _, h, _ => by simp at h
  | _ :: _, [], h, _ => by simp at h
  | x :: mv, l' :: ls', h, hf => by
    refine .cons (hf [] x mv rfl l' rfl) (fitsT_of (by simpa using h) ?_)
    intro mv1 y mv2 e k hk
    exact hf (x :: mv1) y mv2 (by simp [e]) k (by simpa using hk)

theorem mute_type {t t' : Token} (h : t'.mute = t.mute) : t'.type = t.type := (congrArg Token.type h : t'.mute.type = t.mute.type)
theorem mute_core {t t' : Token} (h : t'.mute = t.mute) : t'.isCore = t.isCore := by simp [Token.isCore, mute_type h]

theorem mute_filter : ∀ {ts ts' : List Token}, ts'.map Token.mute = ts.map Token.mute →
    (ts'.filter Token.isCore).map Token.mute = (ts.filter Token.isCore).map Token.mute
  | [], [], _ => rfl
  | [], _ :: _, h => by simp at h
  | _ :: _, [], h => by simp at h
  | t :: ts, t' :: ts', h => by
    simp only [List.map_cons, List.cons.injEq] at h
    have := mute_filter h.2
    have hc := mute_core h.1
    simp only [List.filter_cons, hc]
    split
    · simp [h.1, this]
    · exact this

theorem mute_chain : ∀ {ts ts' : List Token}, ts'.map Token.mute = ts.map Token.mute → ∀ {w : Option Nat}, RowChain w ts → RowChain w ts'
  | [], [], _, _, h => h
  | [], _ :: _, h, _, _ => by simp at h
  | _ :: _, [], h, _, _ => by simp at h
  | t :: ts, t' :: ts', h, w, hw => by
    simp only [List.map_cons, List.cons.injEq] at h
    have hc := mute_core h.1
    have hty := mute_type h.1
    have hit : t'.items.length = t.items.length := by
      have := congrArg (fun t : Token => t.items.length) h.1
      simpa [Token.mute, Token.hush, Token.flat] using this
    unfold RowChain at hw ⊢
    rw [hty, hit, hc]
    split
    · rename_i e; rw [if_pos e] at hw; exact ⟨hw.1, mute_chain h.2 hw.2⟩
    · rename_i e
      rw [if_neg e] at hw
      split
      · rename_i e'; rw [if_pos e'] at hw; exact mute_chain h.2 hw
      · rename_i e'; rw [if_neg e'] at hw; exact mute_chain h.2 hw

/-- The header is a move. -/
theorem header_in {text : Str} {m : CState} (hm : m.Valid) {mv : List Auto.Move} {q : Nat} {m' : CState} (hr : Auto.Run 0 (Classic.reset m) (tokenLines text) mv q m')
    {n : Nat} {name : Str} (hh : HeaderAt text n name) : ∃ x ∈ mv, x.tr.kind = .language := by
  have hsrc := Auto.tokenLines_src text
  have hh' := hh
  obtain ⟨⟨s, ⟨hn, hls⟩, his⟩, _⟩ := hh
  have hlen : mv.length = (splitLines text).length + 1 := by
    have := congrArg List.length (Auto.run_lines hr hsrc)
    simpa [tokenLines, sourceLines] using this
  have hlt : n - 1 < (splitLines text).length := (List.getElem?_eq_some_iff.1 hls).1
  have hlt' : n - 1 < mv.length := by omega
  obtain ⟨mv1, z, mv2, rfl, hl⟩ : ∃ mv1 z mv2, mv = mv1 ++ z :: mv2 ∧ mv1.length = n - 1 := by
    refine ⟨mv.take (n - 1), mv[n - 1], mv.drop (n - 1 + 1), ?_, by simp; omega⟩
    rw [← List.drop_eq_getElem_cons hlt', List.take_append_drop]
  have hn1 : mv1.length + 1 = n := by omega
  exact ⟨z, by simp, (header_move hm hr).2 ⟨name, by rw [hn1]; exact hh'⟩⟩

theorem reset_known {m : CState} (hm : m.Valid) : dialectFor m.defaultName = some (Classic.reset m).dialect := by
  have := (Auto.inv_start hm).valid.cur
  rwa [reset_name hm] at this

theorem trans_fits {text text' : Str} {m : CState} (hm : m.Valid) {mv : List Auto.Move} {q : Nat} {m' : CState} {D : CDoc} {cm : List Comment} {n : Nat}
    (hr : Auto.Run 0 (Classic.reset m) (tokenLines text) mv q m') (hD : D.Ok) (ht : D.toks = (mv.map (·.tok)).filter Token.isCore)
    {lang lang' start' : Str} {d d' : Dialect} (hlang : dialectFor lang = some d) (hlang' : dialectFor lang' = some d') (hu : lang ∉ unsortedDialects)
    (hu' : lang' ∉ unsortedDialects) (hend : m'.dialectName = lang) (htr : Translates d lang' start' d' text (D.ast cm n).1 text') :
    FitsT lang d lang' d' mv (tokenLines text') := by
  have hd : d.Known := ⟨lang, hlang⟩
  have hd' : d'.Known := ⟨lang', hlang'⟩
  have hsrc := Auto.tokenLines_src text
  have hinv := Auto.inv_start hm
  have hlen : mv.length = (splitLines text).length + 1 := by
    have := congrArg List.length (Auto.run_lines hr hsrc)
    simpa [tokenLines, sourceLines] using this
  have hlen' : (tokenLines text').length = (splitLines text').length + 1 := by simp [tokenLines, sourceLines]
  refine fitsT_of (by rw [hlen, hlen', htr.length]) ?_
  intro mv1 x mv2 e l' hl'
  subst e
  obtain ⟨l1, l, l2, m1, m2, e1, e2, e3, e4, e5, e6, e7, e8⟩ := Auto.run_at hr hsrc hinv
  have hline : x.tok.line = l := e4.1
  have hlen0 : (tokenLines text).length = (splitLines text).length + 1 := by simp [tokenLines, sourceLines]
  have hnum : l.number = mv1.length + 1 := by rw [(lines_split e1).1, e2]
  have hnum' : l'.number = mv1.length + 1 := by
    obtain ⟨hi, e⟩ := List.getElem?_eq_some_iff.1 hl'
    have := tokenLines_getElem hi
    rwa [e] at this
  have hn : l'.number = l.number := by rw [hnum, hnum']
  cases hee : l.isEof with
  | true =>
    have hl2 : l2 = [] := by
      rcases e8 with ⟨_, h, _⟩ | ⟨h, _⟩
      · exact h
      · rw [hee] at h; simp at h
    have hpos : mv1.length = (splitLines text').length := by
      rw [htr.length, ← e2]
      have := congrArg List.length e1
      rw [hlen0, hl2] at this
      simp at this
      omega
    have hlt : l'.text = [] := by
      simp only [tokenLines] at hl'
      rw [hpos] at hl'
      rw [List.getElem?_append_right (by simp [sourceLines])] at hl'
      simp [sourceLines] at hl'
      rw [← hl']; rfl
    have hl : l' = l := by
      have : l.text = [] := by simpa [Line.isEof] using hee
      cases l; cases l'
      simp only at this hlt hn
      simp [this, hlt, hn]
    refine ⟨fun _ => by rw [hline, hl], fun _ => by rw [hline, hl], fun _ _ => ?_, fun h => ?_⟩
    · rw [hline, hl]
      have hb : ∀ d : Dialect, fits d l .empty = true := by
        intro d
        have : l.text = [] := by simpa [Line.isEof] using hee
        simp [fits, isBlankLine, this]
      exact .plain rfl fun k hk => ⟨fits_false hd (hb d) (by simp) (word_other hk).1 (by intro e; subst e; exact absurd hk (by decide)),
        fits_false hd' (hb d') (by simp) (word_other hk).1 (by intro e; subst e; exact absurd hk (by decide))⟩
    · rcases e3.eof with g | g
      · rw [h] at g; simp at g
      · rw [hee] at g; simp at g
  | false =>
    have hat : LineIs text (mv1.length + 1) l.text := by rw [← e2]; exact (lineIs_iff e1 hee).2 rfl
    have hne' : l'.isEof = false := by
      cases he : l'.isEof with
      | false => rfl
      | true =>
        exfalso
        have hlt : mv1.length < (splitLines text').length := by
          rw [htr.length]
          have := hat.2
          have := (List.getElem?_eq_some_iff.1 this).1
          omega
        simp only [tokenLines] at hl'
        rw [List.getElem?_append_left (by simpa [sourceLines] using hlt)] at hl'
        have hmem := List.mem_of_getElem? hl'
        simp only [sourceLines, List.mem_map] at hmem
        obtain ⟨⟨s, k⟩, h1, h2⟩ := hmem
        have : s ∈ splitLines text' := by
          have := List.mem_zipIdx h1
          rw [this.2.2]
          exact List.getElem_mem _
        have hs := splitLines_ne _ s this
        rw [← h2] at he
        simp [Line.isEof] at he
        exact hs he
    have hat' : LineIs text' (mv1.length + 1) l'.text := token_line hl' hne'
    have same : l'.text = l.text → l' = x.tok.line := by
      intro h
      rw [hline]
      cases l; cases l'
      simp only at h hn
      simp [h, hn]
    have hopen := open_iff (cm := cm) (n := n) hm hr hD ht
    have hin : x.state ∈ openStates → l' = x.tok.line := fun h => same (htr.kept _ (.inl (hopen.1 h)) _ _ hat hat')
    refine ⟨hin, ?_, ?_, ?_⟩
    · intro hk
      by_cases hs : x.state ∈ openStates
      · exact hin hs
      · exact same (htr.kept _ (.inr (other_describes (cm := cm) (n := n) hm hr hD ht hk hs)) _ _ hat hat')
    · intro hs hk
      rw [hline]
      refine same_pair hlang hlang' hu hu' hn (htr.lines _ (fun h => hs (hopen.2 h)) (fun name h => ?_) _ _ hat hat')
      exact hk ((header_move hm hr).2 ⟨name, h⟩)
    · intro hk
      obtain ⟨name, hh⟩ := (header_move hm hr).1 hk
      have hname := (final_dialect hm hr).2.1 _ _ hh
      rw [hend] at hname
      subst hname
      refine ⟨?_, htr.header _ _ hh _ hat', by rw [hline]; exact hn⟩
      obtain ⟨⟨s, h1, h2⟩, _⟩ := hh
      have : s = l.text := by
        have := h1.2.symm.trans hat.2
        simpa using this
      rw [hline, ← this]; exact h2

/-- A translated text is read as the same document, columns, keywords and the language apart. -/
theorem translate_parse {m m2 : CState} (hm : m.Valid) (hm2 : m2.Valid) {stop : Bool} {text text' : Str} {b : BState} {doc : Document} {f : Feature}
    (h : (parse ⟨classic, astBuilder, stop⟩ text m b).1 = .ok (some doc)) (hf : doc.feature = some f) {lang lang' : Str} {d d' : Dialect}
    (hl : f.language = some lang) (hlang : dialectFor lang = some d) (hlang' : dialectFor lang' = some d') (hu : lang ∉ unsortedDialects)
    (hu' : lang' ∉ unsortedDialects) (htr : Translates d lang' m2.defaultName d' text doc text') :
    ∃ doc' f', (parse ⟨classic, astBuilder, stop⟩ text' m2 b).1 = .ok (some doc') ∧ doc'.feature = some f' ∧ f'.language = some lang' ∧
      f'.uncolumned.wordless = f.uncolumned.wordless := by
  obtain ⟨mv, q, m', D, hr, hD, ht, rfl⟩ := accepted_doc hm h
  have hq := run_end hr (tokenLines_src text)
  subst hq
  have feat : ∀ {D : CDoc} {cm : List Comment} {n : Nat} {f : Feature}, (D.ast cm n).1.feature = some f → ∃ F, D.feature = some F ∧ f.language = F.line.dialect := by
    intro D cm n f hf
    have : (threadOpt CFeature.ast D.feature n).1 = some f := hf
    cases hF : D.feature with
    | none => rw [hF] at this; simp [threadOpt] at this
    | some F =>
      rw [hF] at this
      simp only [threadOpt, Option.some.injEq] at this
      exact ⟨F, rfl, by rw [← this]; rfl⟩
  obtain ⟨F, hF, hFl⟩ := feat hf
  have hend : m'.dialectName = lang := by
    have := feature_language hm hr hD ht hF
    rw [← hFl, hl] at this
    simpa using this.symm
  have hfits := trans_fits hm hr hD ht hlang hlang' hu hu' hend htr
  have hi := inv_start hm
  have hi2 := inv_start hm2
  obtain ⟨mv', m'', hr', hkey, hname⟩ := trans_run hlang hlang' hr hi hi2 hfits ⟨rfl, rfl⟩ (by
    by_cases hex : ∃ x ∈ mv, x.tr.kind = .language
    · exact .inr ⟨rfl, hex⟩
    · left
      have hno : ∀ n name, ¬ HeaderAt text n name := fun n name hh => hex (header_in hm hr hh)
      have e1 := (final_dialect hm hr).2.2 hno
      rw [hend] at e1
      have e2 := htr.default hno
      have g1 := reset_known hm
      have g2 := reset_known hm2
      rw [← e1, hlang] at g1
      rw [e2, hlang'] at g2
      exact ⟨(Option.some.inj g1).symm, (Option.some.inj g2).symm, by rw [reset_name hm2, e2]⟩)
  have hmute : (mv'.map (·.tok)).map Token.mute = (mv.map (·.tok)).map Token.mute := by
    have := congrArg (List.map fun x : Nat × Trans × Token => x.2.2) hkey
    simpa [List.map_map, Function.comp_def, muteKey] using this
  have hw : RowChain none (mv.map Auto.Move.tok) := by rw [← rowChain_core, ← ht]; exact doc_chain hD
  obtain ⟨r, hok⟩ := run_parses hm2 hr' (mute_chain hmute hw) b stop
  obtain ⟨doc', hok'⟩ : ∃ doc', r = some doc' := by
    obtain ⟨D', _, _, e, _⟩ := parse_doc classic_lawful stop hok
    exact ⟨_, e⟩
  subst hok'
  obtain ⟨mv2, q2, m3, D', hr2, hD', ht', rfl⟩ := accepted_doc hm2 hok
  obtain ⟨rfl, rfl, rfl⟩ := run_det hr' hr2
  have hw := mute_of_toks hD' hD (by rw [ht', ht]; exact mute_filter hmute) (commentsOf (mv2.map (·.tok))) (commentsOf (mv.map (·.tok))) b.nextId
  rw [hf] at hw
  cases hf' : (D'.ast (commentsOf (mv2.map (·.tok))) b.nextId).1.feature with
  | none => rw [hf'] at hw; simp at hw
  | some f' =>
    rw [hf'] at hw
    simp only [Option.map_some, Option.some.injEq] at hw
    obtain ⟨F', hF', hFl'⟩ := feat hf'
    refine ⟨_, f', hok, hf', ?_, hw⟩
    rw [hFl', feature_language hm2 hr2 hD' ht' hF', hname]

end Gherkin
