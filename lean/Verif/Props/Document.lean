import Verif.Proofs.Quote
import Verif.Proofs.Auto
import Verif.Props.Parser

/-! C08, C11, C12, C16: what a parsed document contains. -/

namespace Gherkin

/-- The parser always returns a document when it does not raise; the document is the abstract syntax of a typed tree. -/
theorem parsed_doc {μ : Type} {M : Matcher μ} (hM : M.Lawful) {stop : Bool} {text : Str} {m : μ} {b : BState} {d : Document}
    (h : (parse ⟨M, astBuilder, stop⟩ text m b).1 = .ok (some d)) :
    ∃ D : Cst.CDoc, D.Ok ∧ D.toks = (builds (parse ⟨M, astBuilder, stop⟩ text m b).2.log).filter Token.isCore ∧
      d = (D.ast (commentsOf (builds (parse ⟨M, astBuilder, stop⟩ text m b).2.log)) b.nextId).1 ∧
      (parse ⟨M, astBuilder, stop⟩ text m b).2.builder.nextId =
        (D.ast (commentsOf (builds (parse ⟨M, astBuilder, stop⟩ text m b).2.log)) b.nextId).2 := by
  obtain ⟨D, h1, h2, h3, h4⟩ := parse_doc hM stop h
  exact ⟨D, h1, h2, by simpa using h3, h4⟩

/-- C08: the ids in a parsed document are, in some order, exactly the ids that the id generator handed out during this parse, each
once: so they are pairwise distinct, and distinct from all ids handed out before or after. (Any matcher, Markdown included.) -/
theorem C08_ids_distinct {μ : Type} (M : Matcher μ) (hM : M.Lawful) (stop : Bool) (text : Str) (m : μ) (b : BState) (d : Document)
    (h : (parse ⟨M, astBuilder, stop⟩ text m b).1 = .ok (some d)) :
    d.ids.Nodup ∧ b.nextId ≤ (parse ⟨M, astBuilder, stop⟩ text m b).2.builder.nextId ∧
    ∀ i, i ∈ d.ids ↔ b.nextId ≤ i ∧ i < (parse ⟨M, astBuilder, stop⟩ text m b).2.builder.nextId := by
  obtain ⟨D, _, _, h3, h4⟩ := parsed_doc hM h
  have := doc_fresh D (commentsOf (builds (parse ⟨M, astBuilder, stop⟩ text m b).2.log)) b.nextId
  rw [← h4, ← h3] at this
  exact ⟨this.nodup, this.1, this.mem⟩

/-- `parse` with the AST builder never returns `None`. -/
theorem C08_document_returned {μ : Type} (M : Matcher μ) (hM : M.Lawful) (stop : Bool) (text : Str) (m : μ) (b : BState)
    (r : Option Document) (h : (parse ⟨M, astBuilder, stop⟩ text m b).1 = .ok r) : r.isSome = true := by
  obtain ⟨D, _, _, h3, _⟩ := parse_doc hM stop h
  rw [h3]; rfl

theorem entries_core (ts : List Token) : (ts.filter Token.isCore).flatMap Token.entries = ts.flatMap Token.entries := by
  induction ts with
  | nil => rfl
  | cons t ts ih =>
    rw [List.filter_cons]
    split
    · simp [ih]
    · rename_i h
      rw [List.flatMap_cons, ih]
      have : t.type = some .comment ∨ t.type = some .empty := by
        simp [Token.isCore] at h; by_cases h1 : t.type = some .comment <;> simp_all
      rcases this with h | h <;> simp [Token.entries, h]

/-- C12: reading a parsed document from front to back gives, one for one and in source order, what the lines of the text were
recognised as: there is one token per line (and one for the end of the text), in order, each recognised by the matcher as what its
type says; features, rules, backgrounds, scenarios, examples blocks, steps, rows and tags of the document are those of the tokens. -/
theorem C12_document_reads_source (stop : Bool) (text : Str) (m : CState) (hm : m.Valid) (b : BState) (d : Document)
    (h : (parse ⟨classic, astBuilder, stop⟩ text m b).1 = .ok (some d)) :
    ∃ toks : List Token,
      toks.map (·.line) = tokenLines text ∧
      (∀ t ∈ toks, ∃ k, t.type = some k ∧ ∃ t0 m0 m1, t0.line = t.line ∧ Classic.matchKind k t0 m0 = (.ok true, t, m1)) ∧
      d.entries = toks.flatMap Token.entries ∧
      d.comments = (toks.filter fun t => t.type = some .comment).map fun t => ⟨t.loc, t.text⟩ := by
  obtain ⟨kids, c1, c2, c3, c4⟩ := C05_accepted_text_is_derivation_tree astBuilder astBuilder_plain stop text m hm b _ h
  obtain ⟨D, h1, h2, h3, _⟩ := parsed_doc classic_lawful h
  rw [c3] at c2 c4
  refine ⟨_, c2, c4, ?_, ?_⟩
  · rw [h3, doc_entries h1, h2, entries_core]
  · rw [h3]; rfl

/-- C12 (Markdown): the same for the lines in the order in which the parser took them (see C03 for that order). -/
theorem C12_markdown_document_reads_source (stop : Bool) (text : Str) (m : MdState) (b : BState) (d : Document)
    (h : (parse ⟨markdown, astBuilder, stop⟩ text m b).1 = .ok (some d)) :
    ∃ toks : List Token,
      toks.map (·.line) = takes (parse ⟨markdown, astBuilder, stop⟩ text m b).2.log ∧
      d.entries = toks.flatMap Token.entries := by
  obtain ⟨kids, c1, c2, c3⟩ := C05_markdown_accepted_text_is_derivation_tree astBuilder stop text m b _ h
  obtain ⟨D, h1, h2, h3, _⟩ := parsed_doc markdown_lawful h
  rw [c3] at c2
  exact ⟨_, c2, by rw [h3, doc_entries h1, h2, entries_core]⟩

/-- C11: everything in a parsed document quotes the text: the line of a feature, rule, background, scenario, examples block or step
is white space, the node's keyword (and `:`) at the node's column, and a rest that is, stripped, the node's name or text; tags,
rows and cells stand in their lines at their columns. -/
theorem C11_document_quotes_source (stop : Bool) (text : Str) (m : CState) (b : BState) (d : Document)
    (h : (parse ⟨classic, astBuilder, stop⟩ text m b).1 = .ok (some d)) : ∀ e ∈ d.entries, e.Quoted text := by
  rcases hp : parse ⟨classic, astBuilder, stop⟩ text m b with ⟨x, c⟩
  obtain ⟨D, h1, h2, h3, _⟩ := parsed_doc classic_lawful h
  rw [hp] at h h2 h3
  simp only at h
  subst h
  obtain ⟨_, _, kids, hA⟩ := (parse_cases (cfg := ⟨classic, astBuilder, stop⟩) classic_lawful text m b).1 _ c hp
  intro e he
  rw [h3, doc_entries h1, h2, entries_core, List.mem_flatMap] at he
  obtain ⟨t, ht, he⟩ := he
  obtain ⟨hs, k, hk, hkeof, hb⟩ := hA.tokens t ht
  exact built_quoted hs hk hkeof hb e he

/-- C16: every data table in a parsed document has a row and all its rows have the same number of cells; all rows (header and body)
of an examples block have the same number of cells, and there are body rows only if there is a header. (Any matcher.) -/
theorem C16_tables_rectangular {μ : Type} (M : Matcher μ) (hM : M.Lawful) (stop : Bool) (text : Str) (m : μ) (b : BState) (d : Document)
    (h : (parse ⟨M, astBuilder, stop⟩ text m b).1 = .ok (some d)) :
    (∀ s ∈ d.steps, ∀ t, s.arg = .table t → t.rows ≠ [] ∧ ∃ w, ∀ r ∈ t.rows, r.cells.length = w) ∧
    (∀ e ∈ d.examples, (e.header = none → e.body = []) ∧ ∃ w, ∀ r ∈ e.header.toList ++ e.body, r.cells.length = w) := by
  obtain ⟨D, h1, h2, h3, _⟩ := parsed_doc hM h
  subst h3
  refine ⟨?_, ?_⟩
  · intro s hs t ht
    obtain ⟨S, hS, k, rfl⟩ := doc_steps h1 hs
    simp only [Cst.CStep.ast] at ht
    cases ha : S.arg with
    | none => rw [ha] at ht; simp [Cst.Arg.ast] at ht
    | doc o ls c => rw [ha] at ht; simp [Cst.Arg.ast] at ht
    | table r rs =>
      have hok := hS.2
      rw [ha] at ht hok
      simp only [Cst.Arg.ast, StepArg.table.injEq] at ht
      subst ht
      exact ⟨by simp [Cst.thread], rect_cells hok.2 _⟩
  · intro e he
    obtain ⟨S, hS, k, rfl⟩ := doc_examples h1 he
    simp only [Cst.CExamples.ast]
    refine ⟨?_, ?_⟩
    · intro hn; cases hr : (Cst.thread Cst.row S.table k).1 <;> simp_all
    · rw [head_tail]; exact rect_cells hS.2.2.2.2 _

/-! The hypotheses can be met: the sample text is accepted and its document is not trivial. -/

/-- The sample document. -/
def Sample.doc : Document := ((parse ⟨classic, astBuilder, false⟩ Sample.text Sample.en Sample.fresh).1.toOption.getD none).getD default

example : (parse ⟨classic, astBuilder, false⟩ Sample.text Sample.en Sample.fresh).1 = .ok (some Sample.doc) := by decide +kernel
example : Sample.doc.entries.length = 19 ∧ Sample.doc.ids.length = 18 ∧ Sample.doc.comments.length = 1 := by decide +kernel

end Gherkin
