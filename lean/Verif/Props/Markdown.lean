import Verif.Proofs.MdOrder
import Verif.Proofs.MdQuote
import Verif.Proofs.MdLines
import Verif.Proofs.MdProse
import Verif.Proofs.MdDoc5
import Verif.Props.Document
import Verif.Props.Blocks

/-! # Claims about the Markdown matcher -/

namespace Gherkin

open Markdown

/-! ### C03 -/

/-- **C03, partial.** In a Markdown text whose doc string fences are all of one kind and whose headings contain no tags in back quotes, the lines are
processed in source order, each once, the end-of-file pseudo line last; a run that is cut short (eleventh error, `stop_at_first_error`, crash) has
processed a prefix of them. Missing: texts that mix fences or have tags in headings, for which the claim is false (`C03_counterexample_title`,
`C03_counterexample_fences`). -/
theorem C03_lines_in_order_partial {σ ρ : Type} (B : Builder σ ρ) (stop : Bool) (text : Str) (hf : OneFence text) (hp : PlainHeadings text)
    (m : MdState) (b : σ) :
    takes (parse ⟨markdown, B, stop⟩ text m b).2.log <+: tokenLines text ∧
    (∀ r, (parse ⟨markdown, B, stop⟩ text m b).1 = .ok r → takes (parse ⟨markdown, B, stop⟩ text m b).2.log = tokenLines text) ∧
    (∀ es, (parse ⟨markdown, B, stop⟩ text m b).1 = .error (.composite es) → es.length ≤ 10 →
      takes (parse ⟨markdown, B, stop⟩ text m b).2.log = tokenLines text) := by
  obtain ⟨f, hf⟩ := hf
  refine parse_order (md_steady (Md.reset m).dialect hf hp) m b ⟨rfl, .inl ?_⟩
  simp [markdown, Md.reset]

/-- `GherkinInMarkdownTokenMatcher()` -/
def Sample.enMd : MdState :=
  { defaultName := py"en", dialectName := py"en", dialect := (dialectFor py"en").getD default, indentToRemove := 0, active := none, matchedFeature := false }

/-- Two scenarios; the title of the second names a tag in back quotes. -/
def Sample.mdTitle : Str := py"# Feature: f
## Scenario: a
* Given x
`@t`
## Scenario: b `@x`
* Given y
"

/-- **C03 is false.** A tag line followed by a scenario title that contains a tag in back quotes: the lines after the title are processed before it. -/
theorem C03_counterexample_title :
    (takes (parse ⟨markdown, astBuilder, false⟩ Sample.mdTitle Sample.enMd Sample.fresh).2.log).map (·.number) = [1, 2, 3, 4, 6, 5, 7] := by
  decide +kernel

/-- A tag line after an open fence in a description, followed by fences of both kinds. -/
def Sample.mdFences : Str := py"# Feature: f
## Scenario: a
```
`@t`
\"\"\"
```
* Given x
"

/-- **C03 is false** also for texts that mix doc string fences. -/
theorem C03_counterexample_fences :
    (takes (parse ⟨markdown, astBuilder, false⟩ Sample.mdFences Sample.enMd Sample.fresh).2.log).map (·.number) = [1, 2, 3, 4, 6, 5, 7, 8] := by
  decide +kernel

/-- A Markdown feature with tags, table with separator row, doc string, examples and plain text. -/
def Sample.md : Str := py"`@a` `@b`
# Feature: f

Some words.

## Background:
* Given x
  | a | b |
  |---|---|
  | 1 | 2 |

`@c`
## Scenario Outline: s
- When y
  ```
  doc
  ```
`@d`
### Examples:
  | p |
  | - |
  | 1 |
"

example : OneFence Sample.md ∧ PlainHeadings Sample.md := by
  refine ⟨⟨py"```", by decide +kernel⟩, ?_⟩
  intro s hs h1 ⟨a, b, h2⟩
  have hk : ∀ s ∈ splitLines Sample.md, (lstrip s).head? = some '#' → '@' ∉ s := by decide +kernel
  refine hk s hs h1 ?_
  rw [h2]; simp
example : ∃ d, (parse ⟨markdown, astBuilder, false⟩ Sample.md Sample.enMd Sample.fresh).1 = .ok (some d) := by
  refine ⟨((parse ⟨markdown, astBuilder, false⟩ Sample.md Sample.enMd Sample.fresh).1.toOption.getD none).getD default, ?_⟩
  decide +kernel

/-- **C03, second part, for Markdown.** In every accepted Markdown text, whatever its fences and headings, each line is processed exactly once, though the
order may differ from the source (`C03_counterexample_accepted`): no line is lost or read twice. -/
theorem C03_markdown_all_lines {σ ρ : Type} (B : Builder σ ρ) (stop : Bool) (text : Str) (m : MdState) (b : σ) (r : ρ)
    (h : (parse ⟨markdown, B, stop⟩ text m b).1 = .ok r) : (takes (parse ⟨markdown, B, stop⟩ text m b).2.log).Perm (tokenLines text) :=
  md_all_lines h

/-- A tag line, a heading with a tag, another scenario, a rule. -/
def Sample.mdSwap : Str := py"# Feature: f
## Scenario: a
* Given x
`@t`
## Scenario: b `@x`
## Scenario: c
## Rule: r
"

/-- **C03 is false even for accepted texts.** The text is accepted, but line 6 is processed before line 5. -/
theorem C03_counterexample_accepted :
    (∃ d, (parse ⟨markdown, astBuilder, false⟩ Sample.mdSwap Sample.enMd Sample.fresh).1 = .ok (some d)) ∧
    (takes (parse ⟨markdown, astBuilder, false⟩ Sample.mdSwap Sample.enMd Sample.fresh).2.log).map (·.number) = [1, 2, 3, 4, 6, 5, 7, 8] := by
  refine ⟨⟨((parse ⟨markdown, astBuilder, false⟩ Sample.mdSwap Sample.enMd Sample.fresh).1.toOption.getD none).getD default, ?_⟩, ?_⟩
  all_goals decide +kernel

/-! ### C54 -/

/-- A code fence in the description of a scenario, and a doc string under its step. -/
def Sample.mdCode : Str := py"# Feature: f
## Scenario: a
```
x
```
* Given x
  ```json
  doc
  ```
"

/-- All doc strings of the scenarios directly under a feature: content and media type. -/
def Sample.docs (d : Document) : List (Str × Option Str) :=
  (d.feature.map fun f => f.children.flatMap fun c => match c with
    | .scenario s => s.steps.flatMap fun x => match x.arg with
      | .doc y => [(y.content, y.mediaType)]
      | _ => []
    | _ => []).getD []

/-- **C54 is false.** After a code fence in a description the media type of the next doc string is lost and its indentation is kept. -/
theorem C54_counterexample :
    (match (parse ⟨markdown, astBuilder, false⟩ Sample.mdCode Sample.enMd Sample.fresh).1 with
      | .ok (some d) => Sample.docs d
      | _ => []) = [(py"  doc", none)] := by
  decide +kernel

/-- **C54, partial.** If the doc string delimiters of a Markdown text are all of one kind, no heading has a tag in back quotes in it and no line of a
description begins with a delimiter, then every doc string of the document is what stands in the text: delimiter, column, media type and content,
up to the closing delimiter, outdented and unescaped (between four back quotes nothing is escaped). Missing: texts with fences in descriptions, for
which the claim is false (`C54_counterexample`), and texts that mix delimiters or have tags in headings. -/
theorem C54_doc_strings_partial (stop : Bool) (text : Str) (hf : OneFence text) (hp : PlainHeadings text) (m : MdState) (b : BState) (d : Document)
    (h : (parse ⟨markdown, astBuilder, stop⟩ text m b).1 = .ok (some d)) (hd : NoFenceInText d) : ∀ x ∈ d.docStrings, DocQuoted text x :=
  md_docStrings hf hp h hd

/-- Doc strings in four back quotes with media type, a line with three back quotes inside. -/
def Sample.md4 : Str := py"# Feature: f

Words.

## Background:
* Given x
  ````json
  {
    \\`\\`\\`

      }
   ````
## Scenario: s
- When y

    ````
 less
    ````
"

example : OneFence Sample.md4 ∧ PlainHeadings Sample.md4 := by
  refine ⟨⟨py"````", by decide +kernel⟩, ?_⟩
  intro s hs h1 ⟨a, b, h2⟩
  have hk : ∀ s ∈ splitLines Sample.md4, (lstrip s).head? = some '#' → '@' ∉ s := by decide +kernel
  refine hk s hs h1 ?_
  rw [h2]; simp
/-- The document of the sample. -/
def Sample.md4Doc : Document := ((parse ⟨markdown, astBuilder, false⟩ Sample.md4 Sample.enMd Sample.fresh).1.toOption.getD none).getD default
example : (parse ⟨markdown, astBuilder, false⟩ Sample.md4 Sample.enMd Sample.fresh).1 = .ok (some Sample.md4Doc) := by decide +kernel
example : NoFenceInText Sample.md4Doc := by unfold NoFenceInText; decide +kernel
example : Sample.md4Doc.docStrings.map (fun x => (x.content, x.mediaType)) = [(py"{\n  \\`\\`\\`\n\n    }", some py"json"), (py"less", none)] := by
  decide +kernel

/-! ### C53 -/

theorem takeWhile_tag (n r : Str) (h : '`' ∉ n) : (n ++ '`' :: r).takeWhile (· != '`') = n ∧ (n ++ '`' :: r).drop n.length = '`' :: r := by
  refine ⟨?_, by simp⟩
  induction n with
  | nil => rfl
  | cons c n ih =>
    simp only [List.mem_cons, not_or] at h
    have hc : (c != '`') = true := by simpa using fun e => h.1 e.symm
    rw [List.cons_append, List.takeWhile_cons, if_pos hc, ih h.2]

theorem findTags_skip (a s : Str) (pos : Nat) : Md.findTags (a ++ s) pos a.length = Md.findTags s (pos + a.length) 0 := by
  induction a generalizing pos with
  | nil => rfl
  | cons c a ih =>
    rw [List.cons_append, List.length_cons, Md.findTags.eq_def]
    simp only
    rw [ih]; congr 1; omega

theorem findTags_in (n : Nat) : ∀ (s : Str) (pos : Nat), s.length ≤ n → TagsIn pos s (Md.findTags s pos 0) := by
  induction n with
  | zero => intro s pos h; cases s with
    | nil => exact .done
    | cons c s => simp at h
  | succ n ih =>
    intro s pos h
    cases s with
    | nil => exact .done
    | cons c cs =>
      by_cases ht : ∃ name, StartsWithTag (c :: cs) name
      · obtain ⟨name, nm, rest, h1, h2, h3, h4⟩ := ht
        rw [h4]
        have hf : Md.findTags ('`' :: (name ++ '`' :: rest)) pos 0 = (pos, name) :: Md.findTags rest (pos + name.length + 2) 0 := by
          obtain ⟨t1, t2⟩ := takeWhile_tag nm rest h3
          have hsk := findTags_skip (name ++ ['`']) rest (pos + 1)
          rw [h1] at hsk ⊢
          rw [Md.findTags.eq_def]
          simp only [List.cons_append, t1, t2]
          rw [if_pos (by simp [h2])]
          simp only [List.cons.injEq, true_and]
          simp only [List.append_assoc, List.cons_append, List.nil_append, List.length_cons, List.length_append, List.length_nil] at hsk ⊢
          rw [show nm.length + 2 = nm.length + 0 + 1 + 1 by omega, show nm.length + 0 + 1 + 1 = nm.length + (0 + 1) + 1 by omega, hsk]
          congr 1; omega
        rw [hf]
        refine .tag ⟨nm, rest, h1, h2, h3, rfl⟩ (ih _ _ ?_)
        rw [h4] at h; simp at h; omega
      · rw [not_exists] at ht
        refine .other ht ?_
        have hf : Md.findTags (c :: cs) pos 0 = Md.findTags cs (pos + 1) 0 := by
          rw [Md.findTags.eq_def]
          simp only
          split
          · rename_i rest
            rw [if_neg]
            intro hc
            simp only [Bool.and_eq_true, Bool.not_eq_true', beq_iff_eq] at hc
            refine ht ('@' :: rest.takeWhile (· != '`')) ⟨_, (rest.drop (rest.takeWhile (· != '`')).length).tail, rfl, ?_, ?_, ?_⟩
            · intro hn; rw [hn] at hc; simp at hc
            · intro hm
              have := List.all_takeWhile (p := (· != '`')) (l := rest)
              rw [List.all_eq_true] at this
              have := this _ hm
              simp at this
            · obtain ⟨_, hh⟩ := hc
              have h1 := List.takeWhile_append_dropWhile (p := (· != '`')) (l := rest)
              have h2 : rest.drop (rest.takeWhile (· != '`')).length = rest.dropWhile (· != '`') := by
                conv => lhs; rw [← h1]
                rw [List.drop_left' ?_]
                rw [h1]
              rw [h2] at hh ⊢
              obtain ⟨x, hx⟩ : ∃ x, rest.dropWhile (· != '`') = '`' :: x := by
                cases hd : rest.dropWhile (· != '`') with
                | nil => rw [hd] at hh; simp at hh
                | cons y x => rw [hd] at hh; simp at hh; exact ⟨x, by rw [hh]⟩
              rw [hx]
              simp only [List.tail_cons, List.cons_append, List.cons.injEq, true_and]
              rw [← hx, h1]
          · rfl
        rw [hf]
        exact ih _ _ (by simp at h; omega)

/-- C53 (tags): a Markdown line is a tag line exactly if there is a tag in back quotes in it, and then its tags are all of these, from left to
right, each with the column of its `@`. -/
theorem C53_tag_lines (t : Token) (m : MdState) :
    ∃ tags, TagsIn 0 t.line.trimmed tags ∧ (Md.matchTagLine t m).1 = .ok (decide (tags ≠ [])) ∧
      (tags ≠ [] → (Md.matchTagLine t m).2.1.items = tags.map fun (pos, name) => ⟨t.line.indent + pos + 2, name⟩) := by
  refine ⟨_, findTags_in _ t.line.trimmed 0 (Nat.le_refl _), ?_⟩
  unfold Md.matchTagLine
  simp only [Line.lineText, List.isEmpty_iff, List.map_eq_nil_iff]
  split
  · rename_i h; simp [h]
  · rename_i h; simp [h, setMatched]

/-- C53: everything in a document parsed from Markdown quotes the text: features, rules, backgrounds, scenarios and examples stand in
headings (a feature may also be a plain line), steps in list items, with a keyword of the language at the column reported; tags stand in back
quotes, rows are lines with `|` after at most five white space characters and no separator rows. -/
theorem C53_markdown_quotes_source (stop : Bool) (text lang : Str) (dl : Dialect) (hd : dialectFor lang = some dl) (m : MdState)
    (hm : MdState.new lang = some m) (b : BState) (d : Document)
    (h : (parse ⟨markdown, astBuilder, stop⟩ text m b).1 = .ok (some d)) : ∀ e ∈ d.entries, Quoted text lang dl e := by
  rcases hp : parse ⟨markdown, astBuilder, stop⟩ text m b with ⟨x, c⟩
  obtain ⟨D, h1, h2, h3, _⟩ := parsed_doc markdown_lawful h
  rw [hp] at h h2 h3
  simp only at h
  subst h
  obtain ⟨_, _, kids, hA⟩ := (parse_cases (cfg := ⟨markdown, astBuilder, stop⟩) markdown_lawful text m b).1 _ c hp
  have hS : Md.Speaks lang dl (Md.reset m) := by
    rw [MdState.new, hd] at hm
    simp only [Option.map_some, Option.some.injEq] at hm
    subst hm
    exact ⟨by simp [Md.reset], by simp [Md.reset]⟩
  have hB := parse_builtIn (cfg := ⟨markdown, astBuilder, stop⟩) (P := Md.Speaks lang dl) markdown_lawful (fun k t m h => speaks_keep k t m h) text m b hS hp
  intro e he
  rw [h3, doc_entries h1, h2, entries_core, List.mem_flatMap] at he
  obtain ⟨t, ht, he⟩ := he
  obtain ⟨hs, k, hk, hkeof, _⟩ := hA.tokens t ht
  obtain ⟨k', hk', hb⟩ := hB t ht
  rw [hk] at hk'; cases hk'
  exact md_quoted hs hk hkeof hb e he

example : MdState.new py"en" = some Sample.enMd := by decide +kernel
/-- The document of the sample. -/
def Sample.mdDoc : Document := ((parse ⟨markdown, astBuilder, false⟩ Sample.md Sample.enMd Sample.fresh).1.toOption.getD none).getD default
example : (parse ⟨markdown, astBuilder, false⟩ Sample.md Sample.enMd Sample.fresh).1 = .ok (some Sample.mdDoc) := by decide +kernel
example : Sample.mdDoc.entries.length ≥ 12 := by decide +kernel

/-! ### C55 -/

theorem md_speaks {lang : Str} {dl : Dialect} {m : MdState} (hd : dialectFor lang = some dl) (hm : MdState.new lang = some m) : Md.Fenced lang dl (Md.reset m) := by
  rw [MdState.new, hd] at hm
  simp only [Option.map_some, Option.some.injEq] at hm
  subst hm
  exact ⟨⟨by simp [Md.reset], by simp [Md.reset]⟩, by simp [Md.reset]⟩

theorem heading_line {text s : Str} {kws : List Str} {loc : Location} {kw name : Option Str} (hl : LineIs text loc.line s) (h : Heading text kws loc kw name) :
    HeadingLine kws s := by
  obtain ⟨k, pre, n, sp, rest, _, h1, h2, h3, h4, h5, h6, _⟩ := h
  have := hl.2.symm.trans h6.2
  exact ⟨k, pre, n, sp, rest, h1, h2, h3, h4, h5, by simpa using this⟩

/-- An element stands in a line of its form. -/
theorem quoted_form {text lang s : Str} {d : Dialect} {e : Entry} (hq : Quoted text lang d e) (hl : LineIs text e.loc.line s) (hs : ¬ SeparatorRow s) :
    ∀ f, formOf e = some f → HasForm d s f := by
  intro f hf
  cases e <;> simp only [formOf, Option.some.injEq, reduceCtorEq] at hf <;> subst hf <;> simp only [Quoted, Entry.loc] at hq hl
  case rule => exact heading_line hl hq
  case background => exact heading_line hl hq
  case scenario => exact heading_line hl hq
  case examples => exact heading_line hl hq
  case step =>
    obtain ⟨⟨kw, pre, b, gap, rest, _, h1, h2, h3, h4, h5, _⟩, _⟩ := hq
    exact ⟨kw, pre, b, gap, rest, h1, h2, h3, h4, by simpa using hl.2.symm.trans h5.2⟩
  case tag =>
    obtain ⟨pre, n, rest, rfl, h1, h2, h3, _⟩ := hq
    exact ⟨pre, n, rest, h1, h2, by simpa using hl.2.symm.trans h3.2⟩
  case row =>
    obtain ⟨⟨⟨pre, rest, h1, h2, h3⟩, _⟩, ⟨c, h4, h5⟩, _⟩ := hq
    have e : s = pre ++ '|' :: rest := by simpa using hl.2.symm.trans h2.2
    refine ⟨pre, rest, h1, ?_, e, fun hd => hs ⟨pre, rest, h1, e, hd⟩⟩
    rw [h3] at h4
    simp only [Option.some.injEq] at h4
    omega

/-- C55: in an accepted Markdown text, a line with the form of a tag line, a heading of a rule, background, scenario or examples block, a step or a table
row is never dropped: there is an element of the document at this line, and the line has the element's form (or it is the line of the feature), or
the line stands in a description or doc string, or it is a doc string fence. (Separator rows have no form.) -/
theorem C55_no_line_dropped (stop : Bool) (text lang : Str) (dl : Dialect) (hd : dialectFor lang = some dl) (m : MdState)
    (hm : MdState.new lang = some m) (b : BState) (d : Document)
    (h : (parse ⟨markdown, astBuilder, stop⟩ text m b).1 = .ok (some d)) (n : Nat) (s : Str) (hl : LineIs text n s) (hs : ¬ SeparatorRow s)
    (f : Form) (hf : HasForm dl s f) :
    (∃ e ∈ d.entries, e.loc.line = n ∧ ∀ g, formOf e = some g → HasForm dl s g) ∨ InProse d s ∨ (fenceOf s).isSome = true := by
  have hquote := C53_markdown_quotes_source stop text lang dl hd m hm b d h
  have hperm := C03_markdown_all_lines astBuilder stop text m b (some d) h
  rcases hp : parse ⟨markdown, astBuilder, stop⟩ text m b with ⟨x, c⟩
  obtain ⟨D, h1, h2, h3, _⟩ := parsed_doc markdown_lawful h
  rw [hp] at h h2 h3 hperm
  simp only at h
  subst h
  obtain ⟨_, _, kids, hA⟩ := (parse_cases (cfg := ⟨markdown, astBuilder, stop⟩) markdown_lawful text m b).1 _ c hp
  have hB := parse_builtIn (cfg := ⟨markdown, astBuilder, stop⟩) (P := Md.Fenced lang dl) markdown_lawful (fun k t m h => fenced_keep k t m h) text m b
    (md_speaks hd hm) hp
  -- the token of the line
  have hmem : (⟨s, n⟩ : Line) ∈ takes c.log := by
    rw [hperm.mem_iff, tokenLines, List.mem_append]
    left
    simp only [sourceLines, List.mem_map]
    refine ⟨(s, n), ?_, rfl⟩
    rw [List.mem_iff_getElem?]
    exact ⟨n - 1, by rw [List.getElem?_zipIdx, hl.2]; have := hl.1; simp; omega⟩
  rw [hA.lines, List.mem_map] at hmem
  obtain ⟨t, ht, htl⟩ := hmem
  obtain ⟨hsrc, k, hk, hkeof, _⟩ := hA.tokens t ht
  obtain ⟨k', hk', t0, m0, m0', ⟨hP1, hP2⟩, hl0, hmatch⟩ := hB t ht
  rw [hk] at hk'; cases hk'
  have hline : t0.line.text = s := by rw [hl0, htl]
  have hnum : t.loc.line = n := by rw [hsrc.2, htl]
  have entry : ∀ e ∈ t.entries, e.loc.line = n → ∃ e ∈ d.entries, e.loc.line = n ∧ ∀ g, formOf e = some g → HasForm dl s g := by
    intro e he hen
    have hde : e ∈ d.entries := by
      rw [h3, doc_entries h1, h2, entries_core, List.mem_flatMap]
      exact ⟨t, ht, he⟩
    exact ⟨e, hde, hen, quoted_form (hquote e hde) (by rw [hen]; exact hl) hs⟩
  simp only [markdown] at hmatch
  cases k <;> simp only [Md.matchKind] at hmatch
  case eof =>
    have := hkeof.1 rfl
    simp only [Token.eof, htl, Line.isEof, List.isEmpty_iff] at this
    subst this
    have := form_notBlank (l := ⟨[], n⟩) hf
    simp [Line.isBlank, Line.trimmed, lstrip, lstripBy] at this
  case empty => exact absurd (by rw [hline]; exact hf) (empty_noForm hP1 hmatch f)
  case comment => exact absurd (by rw [← hline]; exact comment_separator hmatch) hs
  case docStringSeparator => right; right; rw [← hline]; exact sep_fence hP2 hmatch
  case language => simp [Md.matchLanguage] at hmatch
  case other =>
    right; left
    have htD : t ∈ D.toks := by rw [h2, List.mem_filter]; exact ⟨ht, by simp [Token.isCore, hk]⟩
    have htold := doc_told h1 htD hk (commentsOf (builds c.log)) b.nextId
    rw [← h3] at htold
    have := htold.prose (D := d) ?_ ?_
    · rw [htl] at this; exact this
    · intro u hu hku
      rw [h2, List.mem_filter] at hu
      obtain ⟨husrc, _⟩ := hA.tokens u hu.1
      obtain ⟨k', hk', u0, n0, n0', ⟨_, hQ⟩, hu0, hum⟩ := hB u hu.1
      rw [hku] at hk'; cases hk'
      simp only [markdown, Md.matchKind] at hum
      have hpr := other_prose hQ hum
      rw [hu0] at hpr
      refine ⟨hpr, (prose_text hpr).2 ?_⟩
      by_cases hue : u.line.isEof = true
      · exact ⟨[], by simp, .inl (by simpa [Line.isEof] using hue)⟩
      · have := tokenLines_lineIs husrc.1 (by simpa using hue)
        exact splitLines_lf text _ (List.mem_of_getElem? this.2)
    · have hb := form_notBlank (l := ⟨s, n⟩) hf
      rw [htl]
      simp only [Line.isBlank, List.isEmpty_eq_false_iff] at hb
      obtain ⟨a, _, e, hnh, _⟩ := trimmed_spec ⟨s, n⟩
      obtain ⟨x, xs, hx⟩ := List.exists_cons_of_ne_nil hb
      refine ⟨x, by rw [e, hx]; simp, hnh x (by rw [hx]; rfl)⟩
  case tagLine =>
    left
    have hne : ∃ i is, t.items = i :: is := by
      unfold Md.matchTagLine at hmatch
      simp only at hmatch
      split at hmatch
      · simp at hmatch
      · rename_i hne
        simp only [Prod.mk.injEq, true_and] at hmatch
        rw [← hmatch.1]
        simp only [setMatched]
        exact List.exists_cons_of_ne_nil (by simpa [List.isEmpty_iff] using hne)
    obtain ⟨i, is, hi⟩ := hne
    refine entry (.tag (Cst.itemLoc t i.column) i.text) (by simp [Token.entries, hk, hi]) ?_
    simp only [Entry.loc, Cst.itemLoc]
    split <;> exact hnum
  case featureLine => left; exact entry (.feature t.loc t.keyword t.text t.dialect) (by simp [Token.entries, hk]) hnum
  case ruleLine => left; exact entry (.rule t.loc t.keyword t.text) (by simp [Token.entries, hk]) hnum
  case backgroundLine => left; exact entry (.background t.loc t.keyword t.text) (by simp [Token.entries, hk]) hnum
  case scenarioLine => left; exact entry (.scenario t.loc t.keyword t.text) (by simp [Token.entries, hk]) hnum
  case examplesLine => left; exact entry (.examples t.loc t.keyword t.text) (by simp [Token.entries, hk]) hnum
  case stepLine => left; exact entry (.step t.loc t.keyword t.keywordType t.text) (by simp [Token.entries, hk]) hnum
  case tableRow => left; exact entry (.row t.loc (t.items.map fun i => { loc := Cst.itemLoc t i.column, value := i.text })) (by simp [Token.entries, hk]) hnum

/-- A `+` list item and a row with an empty cell, five blanks before it. -/
def Sample.mdPlus : Str := py"# Feature: f
## Scenario: a
+ Given x
     |   | b |
"

/-- The document of the sample. -/
def Sample.mdPlusDoc : Document := ((parse ⟨markdown, astBuilder, false⟩ Sample.mdPlus Sample.enMd Sample.fresh).1.toOption.getD none).getD default
example : (parse ⟨markdown, astBuilder, false⟩ Sample.mdPlus Sample.enMd Sample.fresh).1 = .ok (some Sample.mdPlusDoc) := by decide +kernel
example : dialectFor py"en" = some Sample.enMd.dialect := by decide +kernel
example : LineIs Sample.mdPlus 4 py"     |   | b |\n" := ⟨by decide, by decide +kernel⟩

theorem Reads.noBar {raw v : Str} (h : Reads raw v) : '\\' ∉ raw → v = raw ∧ '|' ∉ raw := by
  induction h with
  | nil => simp
  | plain h1 h2 _ ih =>
    intro hn
    simp only [List.mem_cons, not_or] at hn
    obtain ⟨e1, e2⟩ := ih hn.2
    exact ⟨by rw [e1], by simp [e2, Ne.symm h1]⟩
  | newline _ _ => intro hn; simp at hn
  | escaped _ _ _ => intro hn; simp at hn
  | other _ _ _ _ _ => intro hn; simp at hn

/-- Without dashes there is no cell of dashes. -/
theorem noDash {s : Str} (h : '-' ∉ s) (hb : '\\' ∉ s) : ¬ DashCell s := by
  intro hd
  induction hd with
  | here hr hv =>
    simp only [List.mem_append, not_or] at h hb
    obtain ⟨rfl, _⟩ := hr.noBar hb.1
    obtain ⟨p, c, q, e, _, _, ⟨a, n, b, _, _, rfl⟩, h1, _⟩ := hv
    apply h.1
    rcases h1 with h1 | h1 <;> rw [h1] <;> simp [List.replicate_succ]
  | later _ _ ih =>
    simp only [List.mem_append, List.mem_cons, not_or] at h hb
    exact ih h.2.2 hb.2.2

example : HasForm Sample.enMd.dialect py"     |   | b |\n" .row :=
  ⟨py"     ", py"   | b |\n", by unfold White; decide, by decide, rfl, noDash (by decide) (by decide)⟩
example : ¬ SeparatorRow py"     |   | b |\n" := by
  rintro ⟨pre, rest, hw, e, hd⟩
  obtain ⟨_, rfl⟩ := bar_split (pre := py"     ") (r := py"   | b |\n") (by unfold White; decide) hw e
  exact noDash (by decide) (by decide) hd

/-! ### C57 -/

/-- The heading of this line begins with the keyword: what precedes it is unique. -/
theorem heading_split {kws kws' : List Str} {s : Str} (h : HeadingLine kws s) (h' : HeadingLine kws' s) :
    ∃ x, (∃ kw ∈ kws, startsWith x (kw ++ [':']) = true) ∧ ∃ kw ∈ kws', startsWith x (kw ++ [':']) = true := by
  have key : ∀ {kws : List Str}, HeadingLine kws s → ∃ n sp x kw, 1 ≤ n ∧ n ≤ 6 ∧ isSpace sp = true ∧ lstrip s = List.replicate n '#' ++ sp :: x ∧ kw ∈ kws ∧
      startsWith x (kw ++ [':']) = true := by
    rintro kws ⟨kw, pre, n, sp, rest, hk, hw, h1, h6, hs, e⟩
    refine ⟨n, sp, kw ++ ':' :: rest, kw, h1, h6, hs, ?_, hk, ?_⟩
    · rw [e, List.append_assoc]
      refine trimmed_append (n := 0) hw ?_
      intro c hc
      obtain ⟨k, rfl⟩ : ∃ k, n = k + 1 := ⟨n - 1, by omega⟩
      simp [List.replicate_succ] at hc; subst hc; decide
    · simp [startsWith, List.isPrefixOf_iff_prefix]
  obtain ⟨n, sp, x, kw, a1, a2, a3, a4, a5, a6⟩ := key h
  obtain ⟨n', sp', x', kw', b1, b2, b3, b4, b5, b6⟩ := key h'
  have e := headerPrefix_of a1 a2 a3 x
  rw [← a4, b4, headerPrefix_of b1 b2 b3 x'] at e
  have : x' = x := by simpa using congrArg (fun l => (l.head?.getD (0, [])).2) e
  subst this
  exact ⟨x', ⟨kw, a5, a6⟩, kw', b5, b6⟩

/-- The kind of line that a heading of this form is. -/
def Markdown.Form.kind : Form → Option Kind
  | .rule => some .ruleLine
  | .background => some .backgroundLine
  | .scenario => some .scenarioLine
  | .examples => some .examplesLine
  | _ => none

theorem form_heading {d : Dialect} {s : Str} {f : Form} {k : Kind} (hk : f.kind = some k) : HasForm d s f ↔ HeadingLine (d.titles k) s := by
  cases f <;> simp only [Form.kind, Option.some.injEq, reduceCtorEq] at hk <;> subst hk <;> exact Iff.rfl

theorem heading_first {kws : List Str} {s : Str} (h : HeadingLine kws s) : (lstrip s).head? = some '#' := by
  obtain ⟨kw, pre, n, sp, rest, _, hw, h1, _, _, e⟩ := h
  obtain ⟨k, rfl⟩ : ∃ k, n = k + 1 := ⟨n - 1, by omega⟩
  have : lstrip s = List.replicate (k + 1) '#' ++ sp :: (kw ++ ':' :: rest) := by
    rw [e, List.append_assoc]
    refine trimmed_append (n := 0) hw ?_
    intro c hc
    simp [List.replicate_succ] at hc; subst hc; decide
  rw [this]; rfl

theorem first_unique {s pre : Str} {c : Char} {r : Str} (hw : White pre) (hc : isSpace c = false) (e : s = pre ++ c :: r) : (lstrip s).head? = some c := by
  have : lstrip s = c :: r := by
    rw [e]; exact trimmed_append (n := 0) hw (by intro x hx; simp at hx; subst hx; exact hc)
  rw [this]; rfl

/-- **C57, partial.** In an accepted Markdown text, a heading of a rule, background, scenario or examples block that has no tag in back quotes in it is read
as exactly that heading, unless it is the feature line or stands in a description or doc string. Missing: headings with tags in them and second
feature headings, for which the claim is false (`C57_counterexample_tag`, `C57_counterexample_feature`). -/
theorem C57_plain_heading_partial (stop : Bool) (text lang : Str) (dl : Dialect) (hd : dialectFor lang = some dl) (m : MdState)
    (hm : MdState.new lang = some m) (b : BState) (d : Document)
    (h : (parse ⟨markdown, astBuilder, stop⟩ text m b).1 = .ok (some d)) (n : Nat) (s : Str) (hl : LineIs text n s)
    (f : Form) (hfk : f = .rule ∨ f = .background ∨ f = .scenario ∨ f = .examples) (hf : HasForm dl s f) (hnt : ¬ HasForm dl s .tags) :
    (∃ e ∈ d.entries, e.loc.line = n ∧ (formOf e = some f ∨ formOf e = none)) ∨ InProse d s := by
  obtain ⟨k, hk⟩ : ∃ k, f.kind = some k := by rcases hfk with rfl | rfl | rfl | rfl <;> exact ⟨_, rfl⟩
  have hh := (form_heading hk).1 hf
  have h1 := heading_first hh
  have hbar : ∀ {pre : Str} {c : Char} {r : Str}, White pre → isSpace c = false → s = pre ++ c :: r → c = '#' := by
    intro pre c r hw hc e
    rw [first_unique hw hc e] at h1
    simpa using h1
  have hsep : ¬ SeparatorRow s := by
    rintro ⟨pre, rest, hw, e, _⟩
    exact absurd (hbar hw (by decide) e) (by decide)
  rcases C55_no_line_dropped stop text lang dl hd m hm b d h n s hl hsep f hf with ⟨e, he, hn, hg⟩ | hp | hfe
  · left
    refine ⟨e, he, hn, ?_⟩
    cases hfe : formOf e with
    | none => exact .inr rfl
    | some g =>
      left
      have hg := hg g hfe
      cases hgk : g.kind with
      | some k' =>
        obtain ⟨x, ⟨kw, a1, a2⟩, kw', b1, b2⟩ := heading_split hh ((form_heading hgk).1 hg)
        have := Dialect.Known.titles_disjoint ⟨lang, hd⟩ a1 b1 a2 b2
        rw [Option.some.injEq]
        subst this
        cases f <;> cases g <;> simp_all [Form.kind] <;> subst hk <;> simp at hgk
      | none =>
        cases g <;> simp only [Form.kind, reduceCtorEq] at hgk
        · exact absurd hg hnt
        · obtain ⟨kw, pre, b, gap, rest, _, hw, hb, _, e⟩ := hg
          have := hbar hw (by rcases hb with rfl | rfl | rfl <;> decide) e
          rcases hb with rfl | rfl | rfl <;> exact absurd this (by decide)
        · obtain ⟨pre, rest, hw, _, e, _⟩ := hg
          exact absurd (hbar hw (by decide) e) (by decide)
  · exact .inr hp
  · exfalso
    have hst : ∀ (p : Str) (c : Char) (r : Str), p = c :: r → c ≠ '#' → decide ((lstrip s).take p.length = p) = false := by
      rintro p c r rfl hc
      rw [decide_eq_false_iff_not]
      intro ht
      cases hs : lstrip s with
      | nil => rw [hs] at h1; simp at h1
      | cons y ys =>
        rw [hs] at h1 ht
        simp only [List.head?_cons, Option.some.injEq] at h1
        simp only [List.length_cons, List.take_succ_cons, List.cons.injEq] at ht
        exact hc (ht.1.symm.trans h1)
    unfold fenceOf at hfe
    simp only [List.find?_cons, hst _ '"' _ rfl (by decide), hst _ '`' _ rfl (by decide), List.find?_nil] at hfe
    simp at hfe

example : LineIs Sample.md 13 py"## Scenario Outline: s\n" := ⟨by decide, by decide +kernel⟩
example : HasForm Sample.enMd.dialect py"## Scenario Outline: s\n" .scenario :=
  ⟨py"Scenario Outline", [], 2, ' ', py" s\n", by decide +kernel, by unfold White; decide, by decide, by decide, by decide, by decide⟩
example : ¬ HasForm Sample.enMd.dialect py"## Scenario Outline: s\n" .tags := by
  rintro ⟨pre, n, rest, _, _, e⟩
  have : '@' ∈ py"## Scenario Outline: s\n" := by rw [e]; simp
  exact absurd this (by decide)

/-- **C57 is false.** In this accepted text the heading of line 5 is that of a scenario, but its title names a tag in back quotes; there is no scenario at
line 5. -/
theorem C57_counterexample_tag :
    HasForm Sample.enMd.dialect py"## Scenario: b `@x`\n" .scenario ∧ LineIs Sample.mdSwap 5 py"## Scenario: b `@x`\n" ∧
    ∃ d, (parse ⟨markdown, astBuilder, false⟩ Sample.mdSwap Sample.enMd Sample.fresh).1 = .ok (some d) ∧
      (∀ s ∈ d.scenarios, s.loc.line ≠ 5) := by
  refine ⟨⟨py"Scenario", [], 2, ' ', py" b `@x`\n", by decide +kernel, by unfold White; decide, by decide, by decide, by decide, by decide⟩, ⟨by decide, by decide +kernel⟩,
    ((parse ⟨markdown, astBuilder, false⟩ Sample.mdSwap Sample.enMd Sample.fresh).1.toOption.getD none).getD default, by decide +kernel, by decide +kernel⟩

/-- Two features. -/
def Sample.mdTwice : Str := py"# Feature: f
## Scenario: a
* Given x
# Feature: g
## Scenario: b
* Given y
"

/-- **C57 is false** also for a second feature: it is no error, its heading is dropped, and its scenarios go to the first feature. -/
theorem C57_counterexample_feature :
    LineIs Sample.mdTwice 4 py"# Feature: g\n" ∧ HeadingLine Sample.enMd.dialect.feature py"# Feature: g\n" ∧
    ∃ d, (parse ⟨markdown, astBuilder, false⟩ Sample.mdTwice Sample.enMd Sample.fresh).1 = .ok (some d) ∧
      (∀ e ∈ d.entries, e.loc.line ≠ 4) ∧ d.parts.all (fun p => p.2.2 = []) = true ∧ d.docStrings = [] ∧ d.scenarios.length = 2 := by
  refine ⟨⟨by decide, by decide +kernel⟩, ⟨py"Feature", [], 1, ' ', py" g\n", by decide +kernel, by unfold White; decide, by decide, by decide, by decide, by decide⟩,
    ((parse ⟨markdown, astBuilder, false⟩ Sample.mdTwice Sample.enMd Sample.fresh).1.toOption.getD none).getD default, by decide +kernel, by decide +kernel,
    by decide +kernel, by decide +kernel, by decide +kernel⟩

end Gherkin
