import Verif.Proofs.Placed
import Verif.Proofs.Quote

/-! Doc strings of accepted texts. -/

namespace Gherkin

open Cst

theorem tokenLines_getElem {text : Str} {i : Nat} (h : i < (tokenLines text).length) : ((tokenLines text)[i]).number = i + 1 := by
  unfold tokenLines sourceLines eofLine at *
  simp only [List.length_append, List.length_map, List.length_zipIdx, List.length_cons, List.length_nil] at h
  by_cases hi : i < (splitLines text).length
  · rw [List.getElem_append_left (by simpa using hi)]
    simp [Nat.add_comm]
  · rw [List.getElem_append_right (by simpa using hi)]
    simp
    omega

/-- A line in its place. -/
theorem lines_split {text : Str} {l1 l2 : List Line} {l : Line} (h : tokenLines text = l1 ++ l :: l2) :
    l.number = l1.length + 1 ∧ (l2 ≠ [] → linesAfter text l.number = l2.dropLast ∧ sourceLines text = l1 ++ l :: l2.dropLast) := by
  have hn : l.number = l1.length + 1 := by
    have h1 : l1.length < (tokenLines text).length := by rw [h]; simp
    have := tokenLines_getElem h1
    simpa [h] using this
  refine ⟨hn, fun hne => ?_⟩
  have hs : sourceLines text = (tokenLines text).dropLast := by simp [tokenLines]
  rw [h, List.dropLast_append_of_ne_nil (by simp), List.dropLast_cons_of_ne_nil hne] at hs
  refine ⟨?_, hs⟩
  rw [linesAfter, hs, hn, List.drop_append]
  simp

theorem takeWhile_split {α : Type} {p : α → Bool} {a : List α} {x : α} {b : List α} (ha : ∀ y ∈ a, p y = true) (hx : p x = false) :
    (a ++ x :: b).takeWhile p = a := by
  induction a with
  | nil => simp [hx]
  | cons y ys ih => simp [ha y (by simp), ih fun z hz => ha z (by simp [hz])]

/-- Two lists that agree, each a block of elements with `p` followed by one without. -/
theorem block_unique {α : Type} {p : α → Prop} {a a' b b' : List α} (h : a ++ b = a' ++ b') (ha : ∀ x ∈ a, p x) (ha' : ∀ x ∈ a', p x)
    (hb : ∀ x ∈ b.head?, ¬ p x) (hb' : ∀ x ∈ b'.head?, ¬ p x) : a = a' ∧ b = b' := by
  induction a generalizing a' with
  | nil =>
    cases a' with
    | nil => exact ⟨rfl, h⟩
    | cons y ys =>
      simp at h
      exact absurd (ha' y (by simp)) (hb y (by rw [h]; rfl))
  | cons x xs ih =>
    cases a' with
    | nil =>
      simp at h
      exact absurd (ha x (by simp)) (hb' x (by rw [← h]; rfl))
    | cons y ys =>
      simp at h
      obtain ⟨rfl, h⟩ := h
      obtain ⟨e1, e2⟩ := ih h (fun z hz => ha z (by simp [hz])) (fun z hz => ha' z (by simp [hz]))
      exact ⟨by rw [e1], e2⟩

/-- The move that made a core token. -/
theorem locate {mv : List Auto.Move} {A B : List Token} {o : Token} (h : (mv.map (·.tok)).filter Token.isCore = A ++ o :: B) :
    ∃ mv1 x mv2, mv = mv1 ++ x :: mv2 ∧ x.tok = o ∧ (mv2.map (·.tok)).filter Token.isCore = B ∧
      (mv1.map (·.tok)).filter Token.isCore = A := by
  induction mv generalizing A with
  | nil => simp at h
  | cons y mv ih =>
    rw [List.map_cons, List.filter_cons] at h
    split at h
    · cases A with
      | nil =>
        simp at h
        exact ⟨[], y, mv, rfl, h.1, h.2, rfl⟩
      | cons a A =>
        simp at h
        obtain ⟨mv1, x, mv2, rfl, h1, h2, h3⟩ := ih h.2
        refine ⟨y :: mv1, x, mv2, rfl, h1, h2, ?_⟩
        rename_i hc
        rw [List.map_cons, List.filter_cons, if_pos hc, h3, h.1]
    · rename_i hc
      obtain ⟨mv1, x, mv2, rfl, h1, h2, h3⟩ := ih h
      refine ⟨y :: mv1, x, mv2, rfl, h1, h2, ?_⟩
      simp only [List.map_cons, List.filter_cons, hc]
      exact h3

theorem outdent_eq (l : Line) (n : Nat) : l.lineTextFrom n = outdent n l.text := by
  have key : ∀ (s : Str) (n : Nat), (if n > s.length - (lstrip s).length then lstrip s else s.drop n) = outdent n s := by
    intro s
    induction s with
    | nil => intro n; cases n <;> simp [lstrip, lstripBy, outdent]
    | cons c cs ih =>
      intro n
      cases n with
      | zero => simp [outdent]
      | succ n =>
        by_cases hc : isSpace c = true
        · have e : lstrip (c :: cs) = lstrip cs := by simp [lstrip, lstripBy, hc]
          have hle : (lstrip cs).length ≤ cs.length := by simp [lstrip, lstripBy]; exact List.Sublist.length_le (List.dropWhile_sublist _)
          simp only [e, outdent, hc, if_true, List.length_cons, List.drop_succ_cons]
          rw [← ih n]
          by_cases h : n > cs.length - (lstrip cs).length
          · rw [if_pos h, if_pos (by omega)]
          · rw [if_neg h, if_neg (by omega)]
        · have e : lstrip (c :: cs) = c :: cs := by simp [lstrip, lstripBy, hc]
          simp [e, outdent, hc]
  exact key l.text n

theorem other_text {l : Line} {m : CState} {s : Str} (ha : m.active = some s) (hs : s = Classic.quotes ∨ s = Classic.ticks) :
    textOf (Classic.matchOther (Token.fresh l) m).2.1 = docLine s m.indentToRemove l.text := by
  have e1 : escaped Classic.quotes = py"\\\"\\\"\\\"" := rfl
  have e2 : escaped Classic.ticks = py"\\`\\`\\`" := rfl
  have hl : (Token.fresh l).line = l := rfl
  simp only [Classic.matchOther, textOf, setMatched, Option.map_some, Option.getD_some, docLine, chomp, hl, outdent_eq]
  rcases hs with rfl | rfl
  · simp [Classic.unescapeDoc, ha, e1]
  · have : ¬ (Classic.ticks = Classic.quotes) := by decide
    simp [Classic.unescapeDoc, ha, this, e2]

theorem isCore_kind {t : Token} {k : Kind} (h : t.type = some k) : t.isCore = (k != .comment && k != .empty) := by
  cases k <;> simp [Token.isCore, h]

/-- A doc string in a run: opening line, content, closing line. -/
structure DocRun (text : Str) (l : Line) (s : Str) (ls : List Token) : Prop where
  delim : s = Classic.quotes ∨ s = Classic.ticks
  starts : l.startsWith s = true
  lineIs : LineIs text l.number l.text
  body : ∃ content closing rest, linesAfter text l.number = content ++ closing :: rest ∧
    (∀ y ∈ content, y.startsWith s = false) ∧ closing.startsWith s = true ∧
    ls.map textOf = content.map fun y => docLine s l.indent y.text

theorem isDelim_eq (s : Str) (l : Line) : isDelim s l = l.startsWith s := rfl

theorem arg_doc_run {text : Str} {m : CState} (hm : m.Valid) {mv : List Auto.Move} {q : Nat} {m' : CState} {D : CDoc}
    (hr : Auto.Run 0 (Classic.reset m) (tokenLines text) mv q m') (hD : D.Ok) (ht : D.toks = (mv.map (·.tok)).filter Token.isCore)
    {S : CStep} (hS : S ∈ D.steps) {o c : Token} {ls : List Token} (ha : S.arg = .doc o ls c) :
    ∃ l s, DocRun text l s ls ∧ o.loc = ⟨l.number, some (l.indent + 1)⟩ ∧ o.keyword = some s ∧ o.text = some (l.restTrimmed s.length) := by
  have hok := (csteps_ok hD hS).2
  rw [ha] at hok
  obtain ⟨A, B, hAB⟩ := step_infix hS
  have h1 : (mv.map (·.tok)).filter Token.isCore = (A ++ [S.line]) ++ o :: (ls ++ c :: B) := by
    rw [← ht, ← hAB]; simp [CStep.toks, ha, Arg.toks]
  obtain ⟨mv1, x, mv2, rfl, hx, h2, _⟩ := locate h1
  obtain ⟨l1, l, l2, m1, m2, e1, e2, e3, e4, e5, e6, e7, e8⟩ := Auto.run_at hr (Auto.tokenLines_src text) (Auto.inv_start hm)
  have hk : x.tr.kind = .docStringSeparator := by
    have := Auto.matched_type e3.matched
    rw [hx, hok.1] at this
    simpa using this.symm
  have hmt := e3.matched
  rw [hk] at hmt
  rcases Auto.docSep_cases e5.sep hmt with ⟨_, s, hs, hst, rfl, htok⟩ | ⟨s, _, _, _, htok⟩
  · have hne : l.isEof = false := by
      rcases e3.eof with h | h
      · rw [hk] at h; simp at h
      · exact h
    rcases e8 with ⟨h, _⟩ | ⟨_, hsrc, hrun⟩
    · rw [hne] at h; simp at h
    obtain ⟨content, closing, rest, mvC, y, mv', f1, f2, f3, f4, f5, f6, f7, f8, f9, f10, _, _, f11, _⟩ := Auto.run_open (s := s) hrun hsrc e6 rfl
    subst f1; subst f5
    have hrest : rest ≠ [] := f11.ne
    obtain ⟨n1, n2⟩ := lines_split e1
    have n3 := (n2 (by simp)).1
    rw [List.dropLast_append_of_ne_nil (by simp), List.dropLast_cons_of_ne_nil hrest] at n3
    have htypes : ∀ z ∈ mvC.map (·.tok), z.type = some .other := by
      rw [f6]; intro z hz; simp at hz; obtain ⟨w, _, rfl⟩ := hz; rfl
    have hyt : y.tok.type = some .docStringSeparator := by
      have := Auto.run_types hrun y (by simp); rw [this, f7]
    have hfil : (mvC.map (·.tok)).filter Token.isCore = mvC.map (·.tok) :=
      List.filter_eq_self.2 fun z hz => by rw [isCore_kind (htypes z hz)]; rfl
    rw [List.map_append, List.filter_append, hfil, List.map_cons, List.filter_cons, if_pos (by rw [isCore_kind hyt]; rfl)] at h2
    have hblock := block_unique (p := fun t : Token => t.type = some .other) h2.symm hok.2.2.1 htypes
      (by intro z hz; simp at hz; subst hz; rw [hok.2.2.2]; simp) (by intro z hz; simp at hz; subst hz; rw [hyt]; simp)
    refine ⟨l, s, ⟨hs, hst, ?_, content, closing, rest.dropLast, n3, f2, f3, ?_⟩, ?_, ?_, ?_⟩
    · refine tokenLines_lineIs ?_ hne; rw [e1]; simp
    · rw [hblock.1, f6, List.map_map]
      refine List.map_congr_left fun z _ => ?_
      exact other_text rfl hs
    · rw [← hx, htok]; simp [setMatched, hne, Token.fresh]
    · rw [← hx, htok]; rfl
    · rw [← hx, htok]; simp [setMatched, Line.restTrimmed, rstripEol_strip]
  · rw [← hx, htok] at hok
    have := hok.2.1
    simp [setMatched] at this

/-- Every doc string of an accepted text quotes the text. -/
theorem docStrings_quoted {text : Str} {m : CState} (hm : m.Valid) {stop : Bool} {b : BState} {d : Document}
    (h : (parse ⟨classic, astBuilder, stop⟩ text m b).1 = .ok (some d)) : ∀ x ∈ d.docStrings, x.Quoted text := by
  obtain ⟨mv, q, m', D, hr, hD, ht, rfl⟩ := accepted_doc hm h
  intro x hx
  simp only [Document.docStrings, List.mem_filterMap] at hx
  obtain ⟨s, hs, hx⟩ := hx
  obtain ⟨S, hS, k, rfl⟩ := ast_steps hs
  cases ha : S.arg with
  | none => simp [CStep.ast, ha, Arg.ast] at hx
  | table r rs => simp [CStep.ast, ha, Arg.ast] at hx
  | doc o ls c =>
    simp [CStep.ast, ha, Arg.ast] at hx
    subst hx
    obtain ⟨l, s, ⟨hs, hst, hli, content, closing, rest, c1, c2, c3, c4⟩, hloc, hkw, htx⟩ := arg_doc_run hm hr hD ht hS ha
    obtain ⟨ws, w1, w2, _, w3⟩ := trimmed_spec l
    have hsplit := startsWith_split hst
    have hbody : docBody text l.number s = content := by
      rw [docBody, c1]
      refine takeWhile_split ?_ ?_
      · intro y hy; rw [isDelim_eq, c2 y hy]; rfl
      · rw [isDelim_eq, c3]; rfl
    simp only [hloc]
    refine ⟨s, ?_, hkw, ws, l.trimmed.drop s.length, w1, ?_, ?_, ?_, ?_, closing, ?_, c3⟩
    · rcases hs with rfl | rfl <;> simp [docDelimiters, Classic.quotes, Classic.ticks]
    · rw [show ws ++ s ++ l.trimmed.drop s.length = l.text by rw [w2, List.append_assoc, ← hsplit]]; exact hli
    · rw [← w3]
    · simp [textOf, htx, Line.restTrimmed]
    · rw [hbody, c4, ← w3]
    · rw [hbody, c1]; simp

end Gherkin
