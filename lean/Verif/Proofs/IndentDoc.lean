import Verif.Proofs.Indent

/-! A text indented in another way is read as the same document, columns apart. -/

namespace Gherkin

open Auto Cst Md

theorem indent_indentation (l : Line) : l.indent = indentation l.text := by
  unfold Line.indent indentation Line.trimmed lstrip lstripBy
  have := congrArg List.length (List.takeWhile_append_dropWhile (p := isSpace) (l := l.text))
  rw [List.length_append] at this
  omega

/-- A content line of a doc string, found from its opening line. -/
theorem open_line {text : Str} {m : CState} (hm : m.Valid) {a : List Auto.Move} {o : Auto.Move} {b : List Auto.Move} {z : Auto.Move}
    {mv2 : List Auto.Move} {q : Nat} {m' : CState} {D : CDoc} {cm : List Comment} {n : Nat}
    (hr' : Auto.Run 0 (Classic.reset m) (tokenLines text) (a ++ o :: (b ++ z :: mv2)) q m') (hD : D.Ok)
    (ht' : D.toks = ((a ++ o :: (b ++ z :: mv2)).map (·.tok)).filter Token.isCore) (ho1 : o.tr.kind = .docStringSeparator)
    (ho2 : o.state ∉ openStates) (ho3 : ∀ y ∈ b, y.tr.kind = .other) (hz : z.tr.kind = .other) :
    ∃ x ∈ (D.ast cm n).1.docStrings, x.loc.line = a.length + 1 ∧ ∃ delim, x.delimiter = some delim ∧ z.tok.line ∈ docBody text x.loc.line delim := by
  have hsrc := Auto.tokenLines_src text
  have hinv := Auto.inv_start hm
  obtain ⟨l1, l, l2, m1, m2, e1, e2, e3, e4, e5, e6, e7, e8⟩ := Auto.run_at hr' hsrc hinv
  have hty := Auto.matched_type e3.matched
  rw [ho1] at hty
  have hmem : o.tok ∈ D.toks := by
    rw [ht', List.mem_filter]
    exact ⟨by simp, by rw [isCore_kind hty]; rfl⟩
  obtain ⟨S, hS, O, ls, C, ha, hoc⟩ := sep_mem hD hmem hty
  obtain ⟨mvA, x, mvC, y, mvB, f1, f2, f3, f4, f5, f6, f7, f8, f9, f10, f11, f12⟩ := (arg_doc_moves hr' hsrc hinv hD ht' hS ha).split
  have hsome : o.tok.text.isSome = true ∧ ∃ s, o.tok.keyword = some s := by
    have hmt := e3.matched
    rw [ho1] at hmt
    rcases Auto.docSep_cases e5.sep hmt with ⟨_, s, _, _, _, htok⟩ | ⟨s, hs, _⟩
    · rw [htok]; simp [setMatched]
    · exact absurd (e5.active.2 (by rw [hs]; simp)) ho2
  obtain ⟨hsome, s, hkw⟩ := hsome
  have hO : o.tok = O := by
    rcases hoc with h | h
    · exact h
    · rw [h, ← f4, f11] at hsome; simp at hsome
  have hpos : a.length = mvA.length := by
    have h1 := move_number hm hr'
    have h2 := move_number hm (by rw [← f1]; exact hr')
    rw [hO, ← f2] at h1
    omega
  have hspl := List.append_inj f1 hpos
  have htail : b ++ z :: mv2 = mvC ++ y :: mvB := by have := hspl.2; simp at this; exact this.2
  have hlt : b.length < mvC.length := by
    apply Classical.byContradiction
    intro hc
    have h1 : (b ++ z :: mv2)[mvC.length]? = some y := by rw [htail]; simp
    by_cases he : mvC.length = b.length
    · rw [he] at h1
      simp at h1
      rw [← h1, hz] at f9; simp at f9
    · rw [List.getElem?_append_left (by omega)] at h1
      have := ho3 y (List.mem_of_getElem? h1)
      rw [this] at f9; simp at f9
  obtain ⟨k, hk⟩ := step_ast (cm := cm) (n := n) hS
  have hnum := move_number hm hr'
  have hblen := doc_block hm hr' hD ht' hS ha
  refine ⟨{ loc := O.loc, content := joinStr ['\n'] (ls.map textOf), delimiter := O.keyword, mediaType := if textOf O = [] then none else some (textOf O) }, ?_, ?_, s, ?_, ?_⟩
  · simp only [Document.docStrings, List.mem_filterMap]
    exact ⟨_, hk, by simp [CStep.ast, ha, Arg.ast]⟩
  · rw [← hO]; exact hnum
  · rw [← hO]; exact hkw
  · have hlen2 : mvC.length = ls.length := by rw [← f3]; simp
    simp only [← hO, hnum]
    rw [← hO, hkw, hnum] at hblen
    simp only [Option.getD_some] at hblen
    have hne : l.isEof = false := e3.eof.resolve_left (by rw [ho1]; simp)
    have hlines := run_lines hr' hsrc
    obtain ⟨hn1, hn2⟩ := lines_split e1
    have hl2 : l2 ≠ [] := by
      rcases e8 with ⟨h, _⟩ | ⟨_, h, _⟩
      · rw [hne] at h; simp at h
      · exact h.ne
    have hafter := (hn2 hl2).1
    rw [hn1, e2] at hafter
    have htl : (b ++ z :: mv2).map (fun y => y.tok.line) = l2 := by
      have : a.map (fun y => y.tok.line) ++ o.tok.line :: (b ++ z :: mv2).map (fun y => y.tok.line) = l1 ++ l :: l2 := by
        rw [← e1, ← hlines]; simp
      have := (List.append_inj this (by simp [e2])).2
      simp at this
      rw [← this.2]; simp
    have hzl : l2[b.length]? = some z.tok.line := by rw [← htl]; simp
    have hpre : docBody text (a.length + 1) s <+: l2.dropLast := by
      unfold docBody
      rw [hafter]
      exact List.takeWhile_prefix _
    obtain ⟨more, hmore⟩ := hpre
    have hll : l2.dropLast[b.length]? = some z.tok.line := by
      have h1 : b.length < l2.dropLast.length := by
        rw [← hmore, List.length_append, hblen]; omega
      rw [List.getElem?_dropLast]
      rw [List.length_dropLast] at h1
      rw [if_pos h1]
      exact hzl
    rw [← hmore, List.getElem?_append_left (by omega)] at hll
    exact List.mem_of_getElem? hll

theorem twins_text {text text' : Str} (h : (splitLines text').map lstrip = (splitLines text).map lstrip) : Twins (tokenLines text) (tokenLines text') := by
  have key : ∀ (ss ss' : List Str) (n : Nat), (∀ s ∈ ss, s ≠ []) → (∀ s ∈ ss', s ≠ []) → ss'.map lstrip = ss.map lstrip →
      Twins ((ss.zipIdx n).map (fun (s, n) => (⟨s, n⟩ : Line)) ++ [⟨[], ss.length + n⟩]) ((ss'.zipIdx n).map (fun (s, n) => (⟨s, n⟩ : Line)) ++ [⟨[], ss'.length + n⟩]) := by
    intro ss
    induction ss with
    | nil =>
      intro ss' n _ _ h
      simp at h
      subst h
      exact .cons ⟨rfl, rfl, rfl⟩ .nil
    | cons s ss ih =>
      intro ss' n h1 h2 h
      cases ss' with
      | nil => simp at h
      | cons s' ss' =>
        simp only [List.map_cons, List.cons.injEq] at h
        have := ih ss' (n + 1) (fun x hx => h1 x (by simp [hx])) (fun x hx => h2 x (by simp [hx])) h.2
        simp only [List.zipIdx_cons, List.map_cons, List.cons_append, List.length_cons]
        rw [Nat.add_right_comm, Nat.add_assoc, Nat.add_right_comm, Nat.add_assoc]
        refine .cons ⟨rfl, h.1, ?_⟩ this
        have a1 := h1 s (by simp)
        have a2 := h2 s' (by simp)
        cases s <;> cases s' <;> first | exact absurd rfl a1 | exact absurd rfl a2 | rfl
  exact key _ _ 1 (splitLines_ne _) (splitLines_ne _) h

theorem token_line {text : Str} {i : Nat} {l : Line} (h : (tokenLines text)[i]? = some l) (hne : l.isEof = false) : LineIs text (i + 1) l.text := by
  have := tokenLines_lineIs (List.mem_of_getElem? h) hne
  obtain ⟨hi, e⟩ := List.getElem?_eq_some_iff.1 h
  have hn := tokenLines_getElem hi
  rw [e] at hn
  rwa [hn] at this

theorem twin_others {text text' : Str} {m : CState} (hm : m.Valid) {mv : List Auto.Move} {q : Nat} {m' : CState} {D : CDoc} {cm : List Comment} {n : Nat}
    (hr : Auto.Run 0 (Classic.reset m) (tokenLines text) mv q m') (hD : D.Ok) (ht : D.toks = (mv.map (·.tok)).filter Token.isCore)
    (hre : Reindented text (D.ast cm n).1 text') : OthersOk mv (tokenLines text') := by
  have hsrc := Auto.tokenLines_src text
  have hinv := Auto.inv_start hm
  have htw := twins_text hre.lines
  have twin : ∀ {ls ls' : List Line}, Twins ls ls' → ∀ {i : Nat} {l l' : Line}, ls[i]? = some l → ls'[i]? = some l' → Twin l l' := by
    intro ls ls' h
    induction h with
    | nil => intro i l l' h; simp at h
    | cons hl _ ih =>
      intro i l l' h1 h2
      cases i with
      | zero => simp at h1 h2; subst h1; subst h2; exact hl
      | succ i => simp at h1 h2; exact ih h1 h2
  have lineAt : ∀ {mv1 : List Auto.Move} {x : Auto.Move} {mv2 : List Auto.Move}, mv = mv1 ++ x :: mv2 → x.tr.kind ≠ .eof →
      (tokenLines text)[mv1.length]? = some x.tok.line ∧ x.tok.line.isEof = false := by
    intro mv1 x mv2 e hk
    rw [e] at hr
    obtain ⟨l1, l, l2, m1, m2, e1, e2, e3, e4, _⟩ := Auto.run_at hr hsrc hinv
    refine ⟨?_, by rw [e4.1]; exact e3.eof.resolve_left hk⟩
    rw [e1, ← e2, e4.1]; simp
  constructor
  · intro mv1 x mv2 e hk hq l' hl'
    obtain ⟨h1, h2⟩ := lineAt e (by rw [hk]; simp)
    subst e
    have hd := other_describes (cm := cm) (n := n) hm hr hD ht hk hq
    have := hre.descriptions _ hd _ (token_line h1 h2)
    have h3 := token_line hl' (by rw [(twin htw h1 hl').eof]; exact h2)
    have := this.2.symm.trans h3.2
    simpa using this.symm
  · intro a o b x mv2 e hk hq ho1 ho2 ho3 lo' l' hlo hl'
    obtain ⟨h1, h2⟩ := lineAt e (by rw [ho1]; simp)
    obtain ⟨g1, g2⟩ := lineAt (mv1 := a ++ o :: b) (x := x) (mv2 := mv2) (by rw [e]; simp) (by rw [hk]; simp)
    have hlen : (a ++ o :: b).length = a.length + 1 + b.length := by simp; omega
    rw [hlen] at g1
    subst e
    obtain ⟨ds, k1, k2, delim, k3, k4⟩ := open_line (cm := cm) (n := n) hm hr hD ht ho1 ho2 ho3 hk
    have hxn : x.tok.line.number = a.length + 1 + b.length + 1 := by
      obtain ⟨hi, e⟩ := List.getElem?_eq_some_iff.1 g1
      have := tokenLines_getElem hi
      rwa [e] at this
    have := hre.docStrings ds k1 delim k3 _ k4 o.tok.line.text lo'.text l'.text (by rw [k2]; exact token_line h1 h2)
      (by rw [k2]; exact token_line hlo (by rw [(twin htw h1 hlo).eof]; exact h2))
      (by rw [hxn]; exact token_line hl' (by rw [(twin htw g1 hl').eof]; exact g2))
    rw [indent_indentation, indent_indentation]
    exact this

/-- A text indented in another way is read as the same document, columns apart. -/
theorem reindent_parse {m : CState} (hm : m.Valid) {stop : Bool} {text text' : Str} {b : BState} {doc : Document}
    (h : (parse ⟨classic, astBuilder, stop⟩ text m b).1 = .ok (some doc)) (hre : Reindented text doc text') :
    ∃ doc', (parse ⟨classic, astBuilder, stop⟩ text' m b).1 = .ok (some doc') ∧
      doc'.feature.map Feature.uncolumned = doc.feature.map Feature.uncolumned := by
  obtain ⟨mv, q, m', D, hr, hD, ht, rfl⟩ := accepted_doc hm h
  have hq := run_end hr (tokenLines_src text)
  subst hq
  have hi := inv_start hm
  obtain ⟨mv', m'', hr', hkey⟩ := twin_run hr (mv1 := []) (L1 := []) hi hi (twins_text hre.lines) ⟨rfl, rfl, rfl, rfl⟩ rfl
    (by intro h; exact absurd (by simp [Classic.reset]) h) (twin_others hm hr hD ht hre)
  have hflat : (mv'.map (·.tok)).map Token.flat = (mv.map (·.tok)).map Token.flat := by
    have := congrArg (List.map fun x : Nat × Trans × Token => x.2.2) hkey
    simpa [List.map_map, Function.comp_def, moveKey] using this
  have hw : RowChain none (mv.map Auto.Move.tok) := by rw [← rowChain_core, ← ht]; exact doc_chain hD
  obtain ⟨r, hok⟩ := run_parses hm hr' (flat_chain hflat hw) b stop
  obtain ⟨doc', hok'⟩ : ∃ doc', r = some doc' := by
    obtain ⟨D', _, _, e, _⟩ := parse_doc classic_lawful stop hok
    exact ⟨_, e⟩
  subst hok'
  refine ⟨doc', hok, ?_⟩
  obtain ⟨mv2, q2, m2, D', hr2, hD', ht', rfl⟩ := accepted_doc hm hok
  obtain ⟨rfl, _, _⟩ := run_det hr' hr2
  exact flat_of_toks hD' hD (by rw [ht', ht]; exact flat_filter hflat) _ _ _

end Gherkin
