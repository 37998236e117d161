import Verif.Proofs.UnderStep
import Verif.Proofs.Language
import Verif.Props.Document

/-! C17, C18, C19, C20, C49: doc strings, comments, the language header, descriptions. -/

namespace Gherkin

open Cst

theorem entries_loc {t : Token} {e : Entry} (h : e ∈ t.entries) :
    e.loc.line = t.loc.line ∧ t.type ≠ some .other ∧ t.type ≠ some .docStringSeparator ∧ t.type ≠ some .comment ∧ t.type ≠ none := by
  unfold Token.entries at h
  split at h
  all_goals (rename_i ht)
  all_goals first
    | (simp only [List.mem_singleton] at h; subst h; rw [ht]; simp [Entry.loc])
    | (simp only [List.mem_map] at h; obtain ⟨i, _, rfl⟩ := h; rw [ht]; simp [Entry.loc, itemLoc]; split <;> rfl)
    | simp at h

/-- Moves at the same line are the same. -/
theorem move_unique {text : Str} {m : CState} (hm : m.Valid) {mv : List Auto.Move} {q : Nat} {m' : CState}
    (hr : Auto.Run 0 (Classic.reset m) (tokenLines text) mv q m') {x y : Auto.Move} (hx : x ∈ mv) (hy : y ∈ mv)
    (h : x.tok.loc.line = y.tok.loc.line) : x = y := by
  obtain ⟨a, b, h1⟩ := List.append_of_mem hx
  obtain ⟨c, d, h2⟩ := List.append_of_mem hy
  have e1 := move_number hm (by rw [← h1]; exact hr)
  have e2 := move_number hm (by rw [← h2]; exact hr)
  have hl : a.length = c.length := by omega
  have := (List.append_inj (h1.symm.trans h2) hl).2
  simpa using (List.cons.inj this).1

theorem entry_move {mv : List Auto.Move} {D : CDoc} (hD : D.Ok) (ht : D.toks = (mv.map (·.tok)).filter Token.isCore) {cm : List Comment} {n : Nat}
    {e : Entry} (he : e ∈ (D.ast cm n).1.entries) : ∃ x ∈ mv, e ∈ x.tok.entries := by
  rw [doc_entries hD, ht, entries_core, List.mem_flatMap] at he
  obtain ⟨t, htm, h⟩ := he
  obtain ⟨x, hx, rfl⟩ := List.mem_map.1 htm
  exact ⟨x, hx, h⟩

theorem comment_moves {text : Str} {m : CState} (hm : m.Valid) {mv : List Auto.Move} {q : Nat} {m' : CState}
    (hr : Auto.Run 0 (Classic.reset m) (tokenLines text) mv q m') :
    commentsOf (mv.map (·.tok)) = (mv.filter fun x => x.tr.kind = .comment).map fun x => ⟨⟨x.tok.loc.line, some 1⟩, some (chomp x.tok.line.text)⟩ := by
  simp only [commentsOf]
  rw [List.filter_map, List.map_map]
  have hf : mv.filter ((fun t : Token => decide (t.type = some .comment)) ∘ fun x : Auto.Move => x.tok) = mv.filter fun x => x.tr.kind = .comment := by
    refine List.filter_congr fun x hx => ?_
    simp [Auto.run_types hr x hx]
  rw [hf]
  refine List.map_congr_left fun x hx => ?_
  obtain ⟨hx, hk⟩ := List.mem_filter.1 hx
  obtain ⟨a, b, rfl⟩ := List.append_of_mem hx
  obtain ⟨l1, l, l2, m1, m2, e1, e2, e3, e4, e5, e6, e7, e8⟩ := Auto.run_at hr (Auto.tokenLines_src text) (Auto.inv_start hm)
  have hmt := e3.matched
  rw [show x.tr.kind = .comment by simpa using hk] at hmt
  obtain ⟨f1, f2⟩ := comment_token hmt
  simp only [Function.comp_apply, f1, f2, e4.1]

/-! ### C17 -/

/-- C17, C18: every doc string of a parsed document is what stands in the text. Its line is white space, the delimiter at the doc string's column and
the media type; its content is the lines that follow, up to the first one that begins with the same delimiter — whatever else these lines look
like. The indentation of the opening line is taken away, escaped delimiters are unescaped, the line end is dropped, nothing else is changed. -/
theorem C17_doc_strings_quoted (stop : Bool) (text : Str) (m : CState) (hm : m.Valid) (b : BState) (d : Document)
    (h : (parse ⟨classic, astBuilder, stop⟩ text m b).1 = .ok (some d)) : ∀ x ∈ d.docStrings, x.Quoted text :=
  docStrings_quoted hm h

/-- C17: a doc string written under a step is read back. `pre` are blank lines and comments, `opening` the line with the delimiter and the media
type, indented by `ws`; `body` are the lines that write the content lines `contents` (see `WritesDoc`); `closing` begins with the delimiter. -/
theorem C17_doc_string_read_back (stop : Bool) (text : Str) (m : CState) (hm : m.Valid) (b : BState) (d : Document)
    (h : (parse ⟨classic, astBuilder, stop⟩ text m b).1 = .ok (some d)) (s : Step) (hs : s ∈ d.steps)
    (pre : List Line) (opening : Line) (body : List Line) (closing : Line) (post : List Line)
    (hlines : linesAfter text s.loc.line = pre ++ opening :: (body ++ closing :: post))
    (hpre : ∀ y ∈ pre, isBlankLine y = true ∨ firstIs '#' y = true)
    (delim : Str) (hdelim : delim ∈ docDelimiters) (ws media : Str) (hws : White ws) (hopen : opening.text = ws ++ delim ++ media)
    (contents : List Str) (hlen : contents.length = body.length)
    (hbody : ∀ p ∈ contents.zip body, WritesDoc delim ws.length p.1 p.2.text) (hclose : isDelim delim closing = true) :
    s.arg = .doc { loc := ⟨opening.number, some (ws.length + 1)⟩, content := joinStr ['\n'] contents, delimiter := some delim,
                   mediaType := if strip media = [] then none else some (strip media) } := by
  have hhead : ∀ x ∈ delim.head?, isSpace x = false := by
    simp only [docDelimiters, List.mem_cons, List.not_mem_nil, or_false] at hdelim
    rcases hdelim with rfl | rfl <;> (intro x hx; simp at hx; subst hx; decide)
  have hne : delim ≠ [] := by
    simp only [docDelimiters, List.mem_cons, List.not_mem_nil, or_false] at hdelim
    rcases hdelim with rfl | rfl <;> simp
  have hls : lstrip (ws ++ delim ++ media) = delim ++ media := by
    rw [List.append_assoc]
    refine lstrip_pre hws ?_
    cases hd : delim with
    | nil => exact absurd hd hne
    | cons c cs => intro x hx; simp at hx; subst hx; exact hhead _ (by rw [hd]; simp)
  have hisd : isDelim delim opening = true := by
    simp [isDelim, hopen, List.append_assoc ws delim media ▸ hls]
  obtain ⟨x, hx, hxl⟩ := arg_under hm h hs hlines hpre (List.any_eq_true.2 ⟨delim, hdelim, hisd⟩)
  have hxd : x ∈ d.docStrings := by
    simp only [Document.docStrings, List.mem_filterMap]; exact ⟨s, hs, by rw [hx]⟩
  obtain ⟨delim', hd', hdel, ws', rest, hws', hline, hcol, hmedia, hcont, _⟩ := docStrings_quoted hm h x hxd
  -- the opening line
  have hsl : sourceLines text = (sourceLines text).take s.loc.line ++ (pre ++ opening :: (body ++ closing :: post)) := by
    rw [← hlines]; exact (List.take_append_drop _ _).symm
  have htl : tokenLines text = ((sourceLines text).take s.loc.line ++ pre) ++ opening :: (body ++ closing :: post ++ [eofLine text]) := by
    simp only [tokenLines]; conv => lhs; rw [hsl]
    simp
  have heof : opening.isEof = false := by
    cases hd : delim with
    | nil => exact absurd hd hne
    | cons c cs => simp [Line.isEof, hopen, hd]
  have hli : LineIs text opening.number opening.text := tokenLines_lineIs (by rw [htl]; simp) heof
  rw [hxl] at hline hcont
  have htext : ws ++ delim ++ media = ws' ++ delim' ++ rest := by
    have := hli.2.symm.trans hline.2
    rw [hopen] at this; simpa using this
  have hhead' : ∀ x ∈ delim'.head?, isSpace x = false := by
    simp only [docDelimiters, List.mem_cons, List.not_mem_nil, or_false] at hd'
    rcases hd' with rfl | rfl <;> (intro x hx; simp at hx; subst hx; decide)
  have hls' : lstrip (ws' ++ delim' ++ rest) = delim' ++ rest := by
    rw [List.append_assoc]
    refine lstrip_pre hws' ?_
    cases hd : delim' with
    | nil => simp [hd, docDelimiters] at hd'
    | cons c cs => intro x hx; simp at hx; subst hx; exact hhead' _ (by rw [hd]; simp)
  have hcore : delim ++ media = delim' ++ rest := by rw [← hls, htext, hls']
  have hdd : delim = delim' ∧ media = rest := by
    simp only [docDelimiters, List.mem_cons, List.not_mem_nil, or_false] at hdelim hd'
    rcases hdelim with rfl | rfl <;> rcases hd' with rfl | rfl <;> simp at hcore ⊢ <;> exact hcore
  obtain ⟨rfl, rfl⟩ := hdd
  have hwsl : ws = ws' := by
    have : ws ++ (delim ++ media) = ws' ++ (delim ++ media) := by simpa using htext
    exact List.append_cancel_right this
  subst hwsl
  -- the content
  have hafter : linesAfter text opening.number = body ++ closing :: post := by
    have := ((lines_split htl).2 (by simp)).1
    rw [this]
    have : body ++ closing :: post ++ [eofLine text] = (body ++ closing :: post) ++ [eofLine text] := rfl
    rw [this, List.dropLast_concat]
  have hnd : ∀ y ∈ body, isDelim delim y = false := by
    intro y hy
    obtain ⟨i, hi, rfl⟩ := List.mem_iff_getElem.1 hy
    have hz : (contents[i]'(by omega), body[i]) ∈ contents.zip body := by
      rw [List.mem_iff_getElem]
      exact ⟨i, by simp; omega, by simp⟩
    exact written_not_delim hdelim (hbody _ hz)
  have hdb : docBody text opening.number delim = body := by
    simp only [docBody, hafter]
    exact takeWhile_split (fun y hy => by simp [hnd y hy]) (by simp [hclose])
  have hmap : (docBody text opening.number delim).map (fun l => docLine delim ws.length l.text) = contents := by
    rw [hdb]
    refine List.ext_getElem (by simp [hlen]) fun i h1 h2 => ?_
    have hz : (contents[i], body[i]'(by omega)) ∈ contents.zip body := by
      rw [List.mem_iff_getElem]
      exact ⟨i, by simp; omega, by simp⟩
    rw [List.getElem_map]
    exact docLine_written hdelim (hbody _ hz)
  rw [hmap] at hcont
  rw [hx]
  obtain ⟨loc, content, delimiter, mediaType⟩ := x
  obtain ⟨line, column⟩ := loc
  simp only at hxl hcol hmedia hcont hdel
  rw [hxl, hcol, hmedia, hcont, hdel]

/-! ### C18 -/

/-- C18: the lines of a doc string after the opening one — content and closing delimiter — are nothing but that: no feature, rule, background,
scenario, examples block, step, tag or row, no comment, no title of a part with a description, and no other doc string begins in them.
(`C17_doc_strings_quoted` says what they are, and that the first line that begins with the delimiter ends the doc string.) -/
theorem C18_doc_strings_opaque (stop : Bool) (text : Str) (m : CState) (hm : m.Valid) (b : BState) (d : Document)
    (h : (parse ⟨classic, astBuilder, stop⟩ text m b).1 = .ok (some d)) (n : Nat) (hn : d.inDocString text n) :
    (∀ e ∈ d.entries, e.loc.line ≠ n) ∧ (∀ c ∈ d.comments, c.loc.line ≠ n) ∧ (∀ x ∈ d.docStrings, x.loc.line ≠ n) ∧
    (∀ name, ¬ HeaderAt text n name) := by
  obtain ⟨mv, q, m', D, hr, hD, ht, rfl⟩ := accepted_doc hm h
  -- a move at line n is in an open state
  have key : ∀ x ∈ mv, x.tok.loc.line = n → x.state ∈ Auto.openStates := by
    intro x hx hl
    obtain ⟨a, c, rfl⟩ := List.append_of_mem hx
    have := move_number hm hr
    exact (open_iff (cm := commentsOf ((a ++ x :: c).map (·.tok))) (n := b.nextId) hm hr hD ht).2 (by rw [← this, hl]; exact hn)
  have kinds : ∀ x ∈ mv, x.state ∈ Auto.openStates → x.tok.type = some .docStringSeparator ∨ x.tok.type = some .other := by
    intro x hx ho
    rw [Auto.run_types hr x hx]
    obtain ⟨a, c, rfl⟩ := List.append_of_mem hx
    obtain ⟨l1, l, l2, m1, m2, e1, e2, e3, e4, _⟩ := Auto.run_at hr (Auto.tokenLines_src text) (Auto.inv_start hm)
    rcases e3.facts.inside ho with h | h
    · exact .inl (by rw [h])
    · exact .inr (by rw [h.1])
  refine ⟨?_, ?_, ?_, ?_⟩
  · intro e he hen
    obtain ⟨x, hx, hex⟩ := entry_move hD ht he
    obtain ⟨h1, h2, h3, _⟩ := entries_loc hex
    rcases kinds x hx (key x hx (by rw [← h1]; exact hen)) with h | h
    · exact h3 h
    · exact h2 h
  · intro c hc hcn
    rw [show (D.ast (commentsOf (mv.map (·.tok))) b.nextId).1.comments = commentsOf (mv.map (·.tok)) from rfl, comment_moves hm hr] at hc
    obtain ⟨x, hx, rfl⟩ := List.mem_map.1 hc
    obtain ⟨hx, hk⟩ := List.mem_filter.1 hx
    have hty := Auto.run_types hr x hx
    rw [show x.tr.kind = .comment by simpa using hk] at hty
    rcases kinds x hx (key x hx hcn) with h | h <;> (rw [hty] at h; simp at h)
  · intro x hx hxn
    simp only [Document.docStrings, List.mem_filterMap] at hx
    obtain ⟨s, hs, hx⟩ := hx
    obtain ⟨S, hS, k, rfl⟩ := ast_steps hs
    cases ha : S.arg with
    | none => simp [CStep.ast, ha, Arg.ast] at hx
    | table r rs => simp [CStep.ast, ha, Arg.ast] at hx
    | doc o ls c =>
      simp [CStep.ast, ha, Arg.ast] at hx
      subst hx
      obtain ⟨mvA, y, mvC, z, mvB, f1, f2, f3, f4, f5, f6, f7, _⟩ :=
        (arg_doc_moves hr (Auto.tokenLines_src text) (Auto.inv_start hm) hD ht hS ha).split
      refine f6 (key y (by rw [f1]; simp) ?_)
      rw [f2]; exact hxn
  · intro name hh
    obtain ⟨a, z, c, rfl, hl⟩ : ∃ a z c, mv = a ++ z :: c ∧ a.length + 1 = n := by
      obtain ⟨⟨s, ⟨h1, h2⟩, _⟩, _⟩ := hh
      have hlen : mv.length = (splitLines text).length + 1 := by
        have := congrArg List.length (Auto.run_lines hr (Auto.tokenLines_src text))
        simpa [tokenLines, sourceLines] using this
      have hlt : n - 1 < (splitLines text).length := (List.getElem?_eq_some_iff.1 h2).1
      have hlt' : n - 1 < mv.length := by omega
      refine ⟨mv.take (n - 1), mv[n - 1], mv.drop (n - 1 + 1), ?_, by simp; omega⟩
      rw [← List.drop_eq_getElem_cons hlt', List.take_append_drop]
    have hk := (header_move hm hr).2 ⟨name, by rw [hl]; exact hh⟩
    have hty := Auto.run_types hr z (by simp)
    rw [hk] at hty
    rcases kinds z (by simp) (key z (by simp) (by rw [move_number hm hr]; exact hl)) with h | h <;> (rw [hty] at h; simp at h)

/-! ### C19 -/

/-- C19: the comments of a parsed document are exactly the comment lines of the text that are not inside a doc string and not the language
header, in order, each with its text without line end, its line number and column 1. -/
theorem C19_comments (stop : Bool) (text : Str) (m : CState) (hm : m.Valid) (b : BState) (d : Document)
    (h : (parse ⟨classic, astBuilder, stop⟩ text m b).1 = .ok (some d)) :
    d.comments.Pairwise (fun c c' => c.loc.line < c'.loc.line) ∧
    ∀ c, c ∈ d.comments ↔ ∃ n s, LineIs text n s ∧ CommentText s ∧ ¬ d.inDocString text n ∧ (∀ name, ¬ HeaderAt text n name) ∧
      c = ⟨⟨n, some 1⟩, some (chomp s)⟩ := by
  obtain ⟨mv, q, m', D, hr, hD, ht, rfl⟩ := accepted_doc hm h
  rw [show (D.ast (commentsOf (mv.map (·.tok))) b.nextId).1.comments = commentsOf (mv.map (·.tok)) from rfl, comment_moves hm hr]
  refine ⟨?_, ?_⟩
  · rw [List.pairwise_map]
    refine List.Pairwise.filter _ ?_
    rw [List.pairwise_iff_getElem]
    intro i j hi hj hij
    have num : ∀ (i : Nat) (hi : i < mv.length), mv[i].tok.loc.line = i + 1 := by
      intro i hi
      have hsp : mv = mv.take i ++ mv[i] :: mv.drop (i + 1) := by
        rw [← List.drop_eq_getElem_cons hi, List.take_append_drop]
      have := move_number hm (by rw [← hsp]; exact hr)
      rw [this]; simp; omega
    simp only [num i hi, num j hj]; omega
  · intro c
    have lineOf : ∀ (a c : List Auto.Move) (z : Auto.Move), mv = a ++ z :: c → ∀ s, LineIs text (a.length + 1) s → s = z.tok.line.text := by
      rintro a c z rfl s hs
      obtain ⟨l1, l, l2, m1, m2, e1, e2, e3, e4, _, _, _, e8⟩ := Auto.run_at hr (Auto.tokenLines_src text) (Auto.inv_start hm)
      rw [e4.1]
      have hne : l.isEof = false := by
        rcases e8 with ⟨he, h2, _⟩ | ⟨h, _⟩
        · exfalso
          have hlen : (splitLines text).length = l1.length := by
            have := congrArg List.length e1
            simp [tokenLines, sourceLines, h2] at this
            exact this
          have := hs.2
          simp [← e2, ← hlen] at this
        · exact h
      exact (lineIs_iff e1 hne).1 (by rw [e2]; exact hs)
    constructor
    · intro hc
      obtain ⟨z, hz, rfl⟩ := List.mem_map.1 hc
      obtain ⟨hz, hk⟩ := List.mem_filter.1 hz
      have hk : z.tr.kind = .comment := by simpa using hk
      obtain ⟨a, c, hspl⟩ := List.append_of_mem hz
      subst hspl
      obtain ⟨h1, h2, h3⟩ := (comment_move hm hr).1 hk
      have hnum := move_number hm hr
      obtain ⟨l1, l, l2, m1, m2, e1, e2, e3, e4, _⟩ := Auto.run_at hr (Auto.tokenLines_src text) (Auto.inv_start hm)
      have hne : l.isEof = false := by
        rcases e3.eof with h | h
        · rw [hk] at h; simp at h
        · exact h
      refine ⟨z.tok.loc.line, z.tok.line.text, ?_, comment_iff.1 h1, ?_, ?_, rfl⟩
      · rw [hnum, ← e2, e4.1]; exact (lineIs_iff e1 hne).2 rfl
      · rw [hnum, ← open_iff hm hr hD ht]; exact h2
      · intro name hh; rw [hnum] at hh; exact h3 ((header_move hm hr).2 ⟨name, hh⟩)
    · rintro ⟨n, s, hs, hcs, hin, hno, rfl⟩
      obtain ⟨a, z, c, hspl, hl⟩ : ∃ a z c, mv = a ++ z :: c ∧ a.length + 1 = n := by
        obtain ⟨h1, h2⟩ := hs
        have hlen : mv.length = (splitLines text).length + 1 := by
          have := congrArg List.length (Auto.run_lines hr (Auto.tokenLines_src text))
          simpa [tokenLines, sourceLines] using this
        have hlt : n - 1 < (splitLines text).length := (List.getElem?_eq_some_iff.1 h2).1
        have hlt' : n - 1 < mv.length := by omega
        refine ⟨mv.take (n - 1), mv[n - 1], mv.drop (n - 1 + 1), ?_, by simp; omega⟩
        rw [← List.drop_eq_getElem_cons hlt', List.take_append_drop]
      have hst := lineOf a c z hspl s (by rw [hl]; exact hs)
      subst hspl
      have hnum := move_number hm hr
      refine List.mem_map.2 ⟨z, List.mem_filter.2 ⟨by simp, ?_⟩, by rw [hnum, hl, hst]⟩
      have := (comment_move hm hr).2 ⟨comment_iff.2 (by rw [← hst]; exact hcs), ?_, ?_⟩
      · simpa using this
      · rw [open_iff hm hr hD ht, hl]; exact hin
      · intro hk
        obtain ⟨name, hh⟩ := (header_move hm hr).1 hk
        rw [hl] at hh
        exact hno name hh

/-- C19: comment lines appear nowhere else in a parsed document: no entry stands in the line of a comment. (For descriptions see C49: a
description ends at the first comment. For doc strings see C18: comment lines in them are not comments.) -/
theorem C19_comments_nowhere_else (stop : Bool) (text : Str) (m : CState) (hm : m.Valid) (b : BState) (d : Document)
    (h : (parse ⟨classic, astBuilder, stop⟩ text m b).1 = .ok (some d)) : ∀ c ∈ d.comments, ∀ e ∈ d.entries, e.loc.line ≠ c.loc.line := by
  obtain ⟨mv, q, m', D, hr, hD, ht, rfl⟩ := accepted_doc hm h
  intro c hc e he hl
  rw [show (D.ast (commentsOf (mv.map (·.tok))) b.nextId).1.comments = commentsOf (mv.map (·.tok)) from rfl, comment_moves hm hr] at hc
  obtain ⟨z, hz, rfl⟩ := List.mem_map.1 hc
  obtain ⟨hz, hk⟩ := List.mem_filter.1 hz
  obtain ⟨x, hx, hex⟩ := entry_move hD ht he
  obtain ⟨h1, _, _, h4, _⟩ := entries_loc hex
  have : x = z := move_unique hm hr hx hz (by rw [← h1]; exact hl)
  subst this
  have hty := Auto.run_types hr x hx
  rw [show x.tr.kind = .comment by simpa using hk] at hty
  exact h4 hty

/-! ### C20 -/

/-- C20: the language of the feature of a parsed document is the one its language header names, or the matcher's default language if the text
has no header; it is a known language. -/
theorem C20_language_of_feature (stop : Bool) (text : Str) (m : CState) (hm : m.Valid) (b : BState) (d : Document)
    (h : (parse ⟨classic, astBuilder, stop⟩ text m b).1 = .ok (some d)) (f : Feature) (hf : d.feature = some f) :
    (∀ n name, HeaderAt text n name → f.language = some name ∧ (dialectFor name).isSome = true) ∧
    ((∀ n name, ¬ HeaderAt text n name) → f.language = some m.defaultName) := by
  obtain ⟨mv, q, m', D, hr, hD, ht, rfl⟩ := accepted_doc hm h
  simp only [CDoc.ast] at hf
  cases hF : D.feature with
  | none => rw [hF] at hf; simp [threadOpt] at hf
  | some F =>
    rw [hF] at hf
    simp [threadOpt, CFeature.ast] at hf
    subst hf
    simp only [feature_language hm hr hD ht hF]
    obtain ⟨h1, h2, h3⟩ := final_dialect hm hr
    refine ⟨fun n name hh => ?_, fun hno => ?_⟩
    · have := h2 n name hh
      rw [this] at h1
      exact ⟨by rw [this], by rw [h1]; rfl⟩
    · rw [h3 hno]

/-! ### C49 -/

/-- C49: the description of every feature, rule, background, scenario and examples block of a parsed document is the lines after its title line —
leading blank lines skipped — up to the first one that is a comment, a tag, a title that can follow, or (where these can follow) a step or a table
row, each line as it stands without its line end, empty lines at the end dropped. Keywords are those of the feature's language. -/
theorem C49_descriptions (stop : Bool) (text : Str) (m : CState) (hm : m.Valid) (b : BState) (d : Document)
    (h : (parse ⟨classic, astBuilder, stop⟩ text m b).1 = .ok (some d)) (f : Feature) (hf : d.feature = some f) :
    ∃ name dialect, f.language = some name ∧ dialectFor name = some dialect ∧
      ∀ p loc s, (p, loc, s) ∈ d.parts → s = descriptionAt dialect text p loc.line := by
  obtain ⟨mv, q, m', D, hr, hD, ht, rfl⟩ := accepted_doc hm h
  obtain ⟨h1, _, _⟩ := final_dialect hm hr
  refine ⟨m'.dialectName, m'.dialect, ?_, h1, ?_⟩
  · simp only [CDoc.ast] at hf
    cases hF : D.feature with
    | none => rw [hF] at hf; simp [threadOpt] at hf
    | some F =>
      rw [hF] at hf
      simp [threadOpt, CFeature.ast] at hf
      subst hf
      exact feature_language hm hr hD ht hF
  · intro p loc s hp
    obtain ⟨line, desc, h1, rfl, rfl⟩ := ast_parts hp
    exact descriptions_quoted hm hr hD ht h1

/-! ### Cases that meet the hypotheses -/

/-- A text with comments, a header after a comment, descriptions, and a doc string full of things that look like something else. -/
def Sample.blocks : Str := py"
# a comment
  # language : en
Feature: f

  first line
    Given no step

# another comment
Scenario: s
  Given x
    ```json
    # no comment
      Scenario: no scenario
    \"\"\"
    @tag
  a \\`\\`\\` b
    ```
"

def Sample.blocksDoc : Document :=
  ((parse ⟨classic, astBuilder, false⟩ Sample.blocks Sample.en Sample.fresh).1.toOption.getD none).getD default

example : (parse ⟨classic, astBuilder, false⟩ Sample.blocks Sample.en Sample.fresh).1 = .ok (some Sample.blocksDoc) := by decide +kernel
example : Sample.blocksDoc.comments = [⟨⟨2, some 1⟩, some py"# a comment"⟩, ⟨⟨9, some 1⟩, some py"# another comment"⟩] := by decide +kernel
def Sample.blocksString : DocString :=
  { loc := ⟨12, some 5⟩, content := py"# no comment
  Scenario: no scenario
\"\"\"
@tag
a ``` b", delimiter := some py"```", mediaType := some py"json" }
example : Sample.blocksDoc.docStrings = [Sample.blocksString] := by decide +kernel
example : Sample.blocksDoc.parts =
    [(.feature, ⟨4, some 1⟩, py"  first line
    Given no step"), (.scenario, ⟨10, some 1⟩, [])] := by decide +kernel
example : ∀ n ∈ [13, 14, 15, 16, 17, 18], Sample.blocksDoc.inDocString Sample.blocks n := by
  intro n hn
  refine ⟨Sample.blocksString, by decide +kernel, ?_⟩
  revert n
  decide +kernel
example : HeaderAt Sample.blocks 3 py"en" := by
  refine ⟨⟨py"  # language : en\n", by unfold LineIs; decide +kernel, languageName_iff.1 (by decide +kernel)⟩, ?_⟩
  intro k hk s ⟨h1, h2⟩
  have hk : k = 1 ∨ k = 2 := by omega
  rcases hk with rfl | rfl
  · left
    have : s = py"\n" := by
      have h3 : (splitLines Sample.blocks)[1 - 1]? = some py"\n" := by decide +kernel
      rw [h3] at h2; simpa using h2.symm
    subst this; intro c hc; revert c; decide
  · right
    have : s = py"# a comment\n" := by
      have h3 : (splitLines Sample.blocks)[2 - 1]? = some py"# a comment\n" := by decide +kernel
      rw [h3] at h2; simpa using h2.symm
    subst this
    refine ⟨⟨[], py" a comment\n", by intro c hc; simp at hc, rfl⟩, fun nm h => ?_⟩
    have := languageName_iff.2 h
    revert this
    rw [show Classic.languageName py"# a comment\n" = none by decide +kernel]
    simp
/-- The hypotheses of `C17_doc_string_read_back` for the last line of content. -/
example : WritesDoc py"```" 4 py"a ``` b" py"  a \\`\\`\\` b\n" :=
  ⟨py"  ", py"\n", by decide, by simp, by decide +kernel, .inr ⟨by decide, by intro c hc; simp at hc; subst hc; decide⟩, by decide, by decide,
    escapable_of_not (by decide +kernel)⟩
example : (linesAfter Sample.blocks 11).map (·.text) = [py"    ```json\n", py"    # no comment\n", py"      Scenario: no scenario\n",
    py"    \"\"\"\n", py"    @tag\n", py"  a \\`\\`\\` b\n", py"    ```\n"] := by decide +kernel

end Gherkin
