import Verif.Proofs.PrintTok
import Verif.Proofs.Describe

/-! The layout of a printed feature, and the document it stands for. -/

namespace Gherkin

namespace Print

open Layout (Ln place)
open Cst (thread threadOpt)
open Auto

/-- Forgets locations and ids. -/
def g0 : Change := ⟨fun _ => .zero, fun _ => 0, fun s => s⟩

def ln (s : Str) : Ln := ⟨s, []⟩
theorem ln_texts (s : Str) : (ln s).texts = [s] := rfl
theorem lns_texts (l : List Str) : (l.map ln).flatMap Ln.texts = l := by
  induction l with
  | nil => rfl
  | cons s l ih => simp [ln_texts, ih]

theorem noise_nil : Layout.Noise [] := by intro s hs; simp at hs

def pHead (y : Style) (keyword name : Option Str) (description : Str) : Layout.Head :=
  ⟨line y.title (keyword.getD [] ++ [':', ' '] ++ name.getD []), [], (linesOf description).map (· ++ ['\n']), []⟩

theorem pHead_texts (y : Style) (keyword name : Option Str) (description : Str) : (pHead y keyword name description).texts = head y keyword name description := by
  simp [pHead, Layout.Head.texts, head]

def pArg (y : Style) : StepArg → Layout.Arg
  | .none => .none
  | .table t => match t.rows with
    | [] => .none
    | r :: rs => .table (ln (row y r)) (rs.map fun r => ln (row y r))
  | .doc d =>
    let delim := d.delimiter.getD []
    .doc (line y.arg (delim ++ d.mediaType.getD [])) ((linesOf d.content).map fun s => line y.arg (writeDoc delim s)) (ln (line y.arg delim))

theorem pArg_texts (y : Style) (a : StepArg) : (pArg y a).texts = arg y a := by
  cases a with
  | none => rfl
  | table t =>
    cases h : t.rows with
    | nil => simp [pArg, h, Layout.Arg.texts, arg]
    | cons r rs =>
      simp only [pArg, h, Layout.Arg.texts, arg]
      rw [show ln (row y r) :: rs.map (fun r => ln (row y r)) = ((r :: rs).map (row y)).map ln by simp, lns_texts]
  | doc d => simp [pArg, Layout.Arg.texts, arg, ln_texts]

def pStep (y : Style) (s : Step) : Layout.Step := ⟨ln (line y.step (s.keyword.getD [] ++ s.text.getD [])), pArg y s.arg⟩
theorem pStep_texts (y : Style) (s : Step) : (pStep y s).texts = step y s := by simp [pStep, Layout.Step.texts, step, ln_texts, pArg_texts]

theorem flat_map {α β : Type} {f : α → List Str} {g : β → α} {h : β → List Str} (e : ∀ x, f (g x) = h x) (l : List β) : (l.map g).flatMap f = l.flatMap h := by
  simp [List.flatMap_map, e]

def pBackground (y : Style) (b : Background) : Layout.Background := ⟨pHead y b.keyword b.name b.description, b.steps.map (pStep y)⟩
theorem pBackground_texts (y : Style) (b : Background) : (pBackground y b).texts = background y b := by
  simp only [pBackground, Layout.Background.texts, background, pHead_texts, flat_map (pStep_texts y)]

def pTags (y : Style) (ts : List Tag) : List Ln := (tags y ts).map ln
theorem pTags_texts (y : Style) (ts : List Tag) : (pTags y ts).flatMap Ln.texts = tags y ts := lns_texts _

def pRows (y : Style) (rs : List Row) : List Ln := (rs.map (row y)).map ln

def pExamples (y : Style) (e : Examples) : Layout.Examples :=
  ⟨pTags y e.tags, pHead y e.keyword e.name e.description, pRows y (e.header.toList ++ e.body)⟩
theorem pExamples_texts (y : Style) (e : Examples) : (pExamples y e).texts = examples y e := by
  simp only [pExamples, Layout.Examples.texts, examples, pHead_texts, pTags_texts, pRows, lns_texts, List.append_assoc]

def pScenario (y : Style) (s : Scenario) : Layout.Scenario :=
  ⟨pTags y s.tags, pHead y s.keyword s.name s.description, s.steps.map (pStep y), s.examples.map (pExamples y)⟩
theorem pScenario_texts (y : Style) (s : Scenario) : (pScenario y s).texts = scenario y s := by
  simp only [pScenario, Layout.Scenario.texts, scenario, pHead_texts, pTags_texts, flat_map (pStep_texts y), flat_map (pExamples_texts y), List.append_assoc]

/-! ### The layouts are well-formed -/

theorem pHead_ok {d : Dialect} (hd : d.Known) {k : Kind} {p : Part} (y : Style) {kw nm : Option Str} {desc : Str} (h1 : Printable.Title (d.titles k) kw nm)
    (h2 : Printable.Description d p desc) : (pHead y kw nm desc).Ok d k p := by
  obtain ⟨⟨kw, hk, rfl⟩, s, rfl, hs⟩ := h1
  refine ⟨title_kind hd hk y.title s, ?_⟩
  by_cases he : desc = []
  · have : (pHead y (some kw) (some s) desc).prose = [] := by simp [pHead, linesOf, he]
    rw [if_pos this]
    exact ⟨noise_nil, rfl⟩
  · rcases h2 with h2 | ⟨h2, h3, h4⟩
    · exact absurd h2 he
    · have hp : (pHead y (some kw) (some s) desc).prose = (splitChar '\n' desc).map (· ++ ['\n']) := by simp [pHead, linesOf, he]
      split
      · exact ⟨noise_nil, rfl⟩
      · refine ⟨by intro x hx; simp [pHead] at hx, ?_, ?_, noise_nil, by intro x hx; simp [pHead] at hx⟩
        · rw [hp]
          intro x hx hb
          rw [List.head?_map] at hx
          obtain ⟨l, hl, rfl⟩ := Option.map_eq_some_iff.1 hx
          have := h2 l hl
          simp only [Layout.Blank, isBlankLine, List.all_append, Bool.and_eq_true] at hb
          obtain ⟨c, hc, hc'⟩ := List.any_eq_true.1 this
          rw [List.all_eq_true.1 hb.1 c hc] at hc'
          simp at hc'
        · rw [hp]
          intro x hx
          obtain ⟨l, hl, rfl⟩ := List.mem_map.1 hx
          rw [ends_newline hd]
          exact (h4 l hl).2

theorem pTags_ok {d : Dialect} (hd : d.Known) (y : Style) {ts : List Tag} (h : Printable.Tags ts) : Layout.TagsOk d (pTags y ts) := by
  intro t ht
  by_cases hne : ts = []
  · subst hne; simp [pTags, tags] at ht
  · simp only [pTags, tags, hne, if_false, List.map_cons, List.map_nil, List.mem_singleton] at ht
    subst ht
    refine ⟨⟨tag_kind hd h hne y.tags, noise_nil⟩, ?_⟩
    obtain ⟨items, hi, _⟩ := tag_line h hne y.tags 0
    refine (tags_ok_iff (n := 0) ?_).1 ⟨items, hi⟩
    have := lineKind_fits d ⟨line y.tags (joinStr [' '] (ts.map Tag.name)), 0⟩
    rw [show lineKind d ⟨line y.tags (joinStr [' '] (ts.map Tag.name)), 0⟩ = .tagLine from tag_kind hd h hne y.tags] at this
    simp only [fits, firstIs_iff] at this
    exact this

theorem pRows_ok {d : Dialect} (hd : d.Known) (y : Style) {rs : List Row} (h : Printable.Rows rs) : Layout.RowsOk d (pRows y rs) := by
  obtain ⟨h1, n, h2⟩ := h
  refine ⟨?_, n, ?_⟩
  · intro r hr
    simp only [pRows, List.map_map, List.mem_map, Function.comp] at hr
    obtain ⟨x, hx, rfl⟩ := hr
    refine ⟨⟨row_kind hd _ _, noise_nil⟩, ?_⟩
    obtain ⟨items, hi, _⟩ := row_line (h1 x hx) y.arg 0
    refine (row_ok_iff (n := 0) ?_).1 ⟨items, hi⟩
    obtain ⟨cs, _, e⟩ := row_lstrip y.arg (x.cells.map fun c => ⟨[' '], c.value, [' ']⟩)
    have e' : lstrip (ln (row y x)).text = _ := e
    simp only [Line.startsWith, Line.trimmed, e', startsWith]
    rfl
  · intro r hr cells hc
    simp only [pRows, List.map_map, List.mem_map, Function.comp] at hr
    obtain ⟨x, hx, rfl⟩ := hr
    obtain ⟨items, hi, ht⟩ := row_line (h1 x hx) y.arg 0
    have : Line.tableCells ⟨(ln (row y x)).text, 0⟩ = .ok items := hi
    rw [this] at hc
    injection hc with hc
    subst hc
    have := congrArg List.length ht
    simp at this
    rw [this, h2 x hx]

theorem splitChar_no (c : Char) : ∀ (s : Str), ∀ l ∈ splitChar c s, c ∉ l
  | [], l, h => by simp [splitChar] at h; simp [h]
  | x :: s, l, h => by
    have ih := splitChar_no c s
    simp only [splitChar] at h
    split at h
    · simp only [List.mem_cons] at h
      rcases h with rfl | h
      · simp
      · exact ih l h
    · rename_i hx
      cases hs : splitChar c s with
      | nil => rw [hs] at h; simp at h; subst h; simp; simpa using fun e : c = x => hx (by simp [e])
      | cons p ps =>
        rw [hs] at h ih
        simp only [List.mem_cons] at h
        rcases h with rfl | h
        · simp only [List.mem_cons, not_or]
          exact ⟨by simpa using fun e : c = x => hx (by simp [e]), ih p (by simp)⟩
        · exact ih l (by simp [h])

theorem splitChar_ne (c : Char) (s : Str) : splitChar c s ≠ [] := by
  cases s with
  | nil => simp [splitChar]
  | cons x s =>
    simp only [splitChar]
    split
    · simp
    · split <;> simp

theorem join_splitChar (c : Char) : ∀ s : Str, joinStr [c] (splitChar c s) = s
  | [] => rfl
  | x :: s => by
    have ih := join_splitChar c s
    simp only [splitChar]
    cases hs : splitChar c s with
    | nil => exact absurd hs (splitChar_ne c s)
    | cons p ps =>
      rw [hs] at ih
      split
      · rename_i h
        simp at h
        rw [joinStr, ih, h]; rfl
      · cases ps with
        | nil => simp [joinStr] at ih ⊢; exact ih
        | cons q qs => simp [joinStr] at ih ⊢; exact ih

theorem join_linesOf (s : Str) : joinStr ['\n'] (linesOf s) = s := by
  unfold linesOf
  split
  · rename_i h; simp [h, joinStr]
  · exact join_splitChar _ _

theorem written {delim s : Str} (h1 : '\n' ∉ s) (h2 : s.getLast? ≠ some '\r') (h3 : Escapable delim s) (n : Nat) :
    WritesDoc delim n s (line n (writeDoc delim s)) :=
  ⟨List.replicate n ' ', ['\n'], blanks_space n, by simp, rfl, .inl (by simp), h1, h2, h3⟩

theorem linesOf_sub {s l : Str} (h : l ∈ linesOf s) : l ∈ splitChar '\n' s := by
  unfold linesOf at h
  split at h
  · simp at h
  · exact h

theorem delim_head {delim : Str} (h : delim ∈ docDelimiters) : ∃ c cs, delim = c :: cs ∧ isSpace c = false := by
  simp [docDelimiters] at h
  rcases h with rfl | rfl <;> exact ⟨_, _, rfl, rfl⟩

theorem delim_line {delim : Str} (h : delim ∈ docDelimiters) (n i : Nat) (s : Str) :
    lstrip (line n (delim ++ s)) = delim ++ s ++ ['\n'] ∧ isDelim delim ⟨line n (delim ++ s), i⟩ = true := by
  obtain ⟨c, cs, e, hs⟩ := delim_head h
  have : lstrip (line n (delim ++ s)) = delim ++ s ++ ['\n'] := line_lstrip (by rw [e]; rfl) hs
  refine ⟨this, ?_⟩
  simp only [isDelim, this, List.isPrefixOf_iff_prefix]
  exact ⟨s ++ ['\n'], by simp⟩

theorem pArg_ok {d : Dialect} (hd : d.Known) (y : Style) {a : StepArg} (h : Printable.Arg a) : (pArg y a).Ok d := by
  cases a with
  | none => exact trivial
  | table t =>
    cases hr : t.rows with
    | nil => exact absurd hr h.1
    | cons r rs =>
      have := pRows_ok hd y h.2
      rw [hr] at this
      simp only [pArg, hr, Layout.Arg.Ok]
      simp [pRows] at this
      exact this
  | doc x =>
    obtain ⟨delim, hm, he, h1, h2⟩ := h
    simp only [pArg, Layout.Arg.Ok, he, Option.getD_some]
    refine ⟨delim, hm, (delim_line hm _ _ _).2, ?_, ?_, noise_nil⟩
    · intro s hs
      obtain ⟨l, hl, rfl⟩ := List.mem_map.1 hs
      have hl := linesOf_sub hl
      exact written_not_delim (l := ⟨_, 0⟩) hm (written (splitChar_no _ _ l hl) (h2 l hl).1 (h2 l hl).2 y.arg)
    · have := (delim_line hm y.arg 0 []).2
      rw [List.append_nil] at this
      exact this

theorem pStep_ok {d : Dialect} (hd : d.Known) (y : Style) {s : Step} (h : Printable.Step d s) : (pStep y s).Ok d := by
  obtain ⟨⟨kw, x, h1, h2, h3, h4, h5⟩, h6⟩ := h
  refine ⟨⟨?_, noise_nil⟩, pArg_ok hd y h6⟩
  simp only [pStep, ln, h1, h2, Option.getD_some]
  exact step_kind hd h4 _

theorem pBackground_ok {d : Dialect} (hd : d.Known) (y : Style) {b : Background} (h : Printable.Background d b) : (pBackground y b).Ok d := by
  refine ⟨pHead_ok hd y (k := .backgroundLine) h.1 h.2.1, ?_⟩
  intro s hs
  obtain ⟨x, hx, rfl⟩ := List.mem_map.1 hs
  exact pStep_ok hd y (h.2.2 x hx)

theorem pExamples_ok {d : Dialect} (hd : d.Known) (y : Style) {b : Examples} (h : Printable.Examples d b) : (pExamples y b).Ok d :=
  ⟨pTags_ok hd y h.1, pHead_ok hd y (k := .examplesLine) h.2.1 h.2.2.1, pRows_ok hd y h.2.2.2.2⟩

theorem pScenario_ok {d : Dialect} (hd : d.Known) (y : Style) {b : Scenario} (h : Printable.Scenario d b) : (pScenario y b).Ok d := by
  refine ⟨pTags_ok hd y h.1, pHead_ok hd y (k := .scenarioLine) h.2.1 h.2.2.1, ?_, ?_⟩
  · intro s hs
    obtain ⟨x, hx, rfl⟩ := List.mem_map.1 hs
    exact pStep_ok hd y (h.2.2.2.1 x hx)
  · intro s hs
    obtain ⟨x, hx, rfl⟩ := List.mem_map.1 hs
    exact pExamples_ok hd y (h.2.2.2.2 x hx)

/-! ### What the layouts stand for -/

theorem thread_place_map {α β γ δ ε : Type} {len : α → Nat} {f : Nat → α → β} {a : β → Nat → γ × Nat} {g : γ → δ} {p : ε → α} {t : ε → δ} : ∀ {xs : List ε}
    (_ : ∀ x ∈ xs, ∀ n k, g (a (f n (p x)) k).1 = t x) (n k : Nat), (thread a (place len f n (xs.map p)) k).1.map g = xs.map t
  | [], _, _, _ => rfl
  | x :: xs, h, n, k => by
    simp only [List.map_cons, place, thread, h x (by simp), thread_place_map (xs := xs) fun y hy => h y (by simp [hy])]

theorem tags_back {m : CState} (y : Style) {ts : List Tag} (h : Printable.Tags ts) (n k : Nat) :
    (Cst.tags (tagToks m n (pTags y ts)) k).1.map (Tag.change g0) = ts.map (Tag.change g0) := by
  by_cases hne : ts = []
  · subst hne; rfl
  · have e : ∀ t : List Tag, t.map (Tag.change g0) = (t.map Tag.name).map fun s => (⟨0, .zero, s⟩ : Tag) := by
      intro t; simp [Tag.change, g0]
    rw [tags_flat (h := fun t => (t.items.map (·.text)).map fun s => (⟨0, .zero, s⟩ : Tag))]
    · simp only [pTags, tags, hne, if_false, List.map_cons, List.map_nil, tagToks, place, List.flatten_cons, List.flatten_nil, List.append_nil]
      rw [show (ln (line y.tags (joinStr [' '] (ts.map Tag.name)))).text = line y.tags (joinStr [' '] (ts.map Tag.name)) from rfl, tag_tok h hne, e]
    · intro t n
      rw [Cst.lineTags, thread_map (h := fun (i : MItem) => (⟨0, .zero, i.text⟩ : Tag)) (by intros; rfl)]
      simp

theorem row_back {m : CState} (y : Style) {r : Row} (h : ∀ c ∈ r.cells, CellValue c.value) (n k : Nat) :
    (Cst.row (tokOf m .tableRow (ln (row y r)).text n) k).1.change g0 = r.change g0 := by
  have e := row_tok (m := m) h y n
  have e2 := congrArg (List.map fun s => (⟨.zero, s⟩ : Cell)) e
  simp only [List.map_map] at e2
  simp only [Cst.row, Row.change, g0, List.map_map]
  congr 1

theorem rows_back {m : CState} (y : Style) {rs : List Row} (h : ∀ r ∈ rs, ∀ c ∈ r.cells, CellValue c.value) (n k : Nat) :
    (thread Cst.row (rowToks m n (pRows y rs)) k).1.map (Row.change g0) = rs.map (Row.change g0) := by
  rw [rowToks, pRows, List.map_map]
  exact thread_place_map (fun r hr n k => row_back y (h r hr) n k) n k

theorem desc_back {m : CState} (hc : m.Calm) {p : Part} (y : Style) (kw nm : Option Str) {desc : Str} (h : Printable.Description m.dialect p desc) (n : Nat) :
    Cst.description (headDesc m n (pHead y kw nm desc)) = desc := by
  have e1 : ∀ (ls : List Str) (n : Nat), (others m n ls).map Cst.textOf = ls.map chomp := by
    intro ls
    induction ls with
    | nil => intro n; rfl
    | cons l ls ih =>
      intro n
      simp only [others, place, List.map_cons] at ih ⊢
      rw [ih, show Cst.textOf (tokOf m .other l n) = chomp l from other_plain hc.active hc.indent]
  unfold Cst.description headDesc
  rw [e1]
  by_cases he : desc = []
  · subst he; rfl
  · rcases h with h | ⟨h2, h3, h4⟩
    · exact absurd h he
    · have hp : (pHead y kw nm desc).prose = (splitChar '\n' desc).map (· ++ ['\n']) := by simp [pHead, linesOf, he]
      rw [hp, List.map_map]
      have : (splitChar '\n' desc).map (chomp ∘ fun x => x ++ ['\n']) = splitChar '\n' desc := by
        conv => rhs; rw [← List.map_id (splitChar '\n' desc)]
        apply List.map_congr_left
        intro l hl
        exact chomp_append (splitChar_no _ _ l hl) (h4 l hl).1 (by intro c hc; simp at hc; subst hc; rfl)
      rw [this]
      have : Cst.trimEnd (splitChar '\n' desc) = splitChar '\n' desc := by
        unfold Cst.trimEnd
        rw [List.getLast?_eq_head?_reverse] at h3
        cases hr : (splitChar '\n' desc).reverse with
        | nil => simp at hr; exact absurd hr (splitChar_ne _ _)
        | cons a as =>
          rw [hr] at h3
          rw [List.dropWhile_cons_of_neg (by simpa using h3), ← hr, List.reverse_reverse]
      rw [this, join_splitChar]

theorem inside_eq {m : CState} (hc : m.Calm) {delim : Str} (h : delim ∈ docDelimiters) (n : Nat) (s : Str) (i : Nat) :
    inside m (line n (delim ++ s)) = { m with active := some delim, indentToRemove := n } ∧
    (tokOf m .docStringSeparator (line n (delim ++ s)) i).keyword = some delim ∧
    (tokOf m .docStringSeparator (line n (delim ++ s)) i).text = some (rstripEol (strip (s ++ ['\n']))) := by
  obtain ⟨h1, h2⟩ := delim_line h n 0 s
  obtain ⟨c, cs, e, hs⟩ := delim_head h
  have hi : ∀ i, Line.indent ⟨line n (delim ++ s), i⟩ = n := by
    intro i
    simp only [line, List.append_assoc]
    rw [indent_append (blanks_space n) (by rw [e]; intro x hx; simp at hx; subst hx; exact hs)]
    simp
  have l1 : ∀ i, (Token.fresh ⟨line n (delim ++ s), i⟩).line = ⟨line n (delim ++ s), i⟩ := fun _ => rfl
  have hm : ∀ i, Classic.matchDocSep (Token.fresh ⟨line n (delim ++ s), i⟩) m = Classic.matchSep delim true (Token.fresh ⟨line n (delim ++ s), i⟩) m := by
    intro i
    have h : delim = Classic.quotes ∨ delim = Classic.ticks := by simpa [delims] using h
    simp only [Classic.matchDocSep, hc.active, l1, Line.startsWith, Line.trimmed, h1, startsWith]
    rcases h with rfl | rfl
    · rw [if_pos]; rfl
    · rw [if_neg]
      simp [Classic.ticks, Classic.quotes]
  have hp : ∀ i, Line.startsWith ⟨line n (delim ++ s), i⟩ delim = true := by
    intro i
    simp only [Line.startsWith, Line.trimmed, h1, startsWith, List.isPrefixOf_iff_prefix]
    exact ⟨s ++ ['\n'], by simp⟩
  refine ⟨?_, ?_, ?_⟩
  · simp only [inside, Classic.matchKind, hm, Classic.matchSep, l1, hp, if_true, hi]
  · simp only [tokOf, Classic.matchKind, hm, Classic.matchSep, l1, hp, if_true, setMatched]
  · simp only [tokOf, Classic.matchKind, hm, Classic.matchSep, l1, hp, if_true, setMatched, Option.map_some, Line.restTrimmed, Line.trimmed, h1]
    rw [List.append_assoc, List.drop_left]

theorem doc_tok {m : CState} {delim : Str} (h : delim ∈ docDelimiters) (ha : m.active = some delim) (s : Str) (i : Nat) :
    Cst.textOf (tokOf m .other s i) = docLine delim m.indentToRemove s := by
  have l1 : (Token.fresh ⟨s, i⟩).line = ⟨s, i⟩ := rfl
  simp only [Cst.textOf, tokOf, Classic.matchKind, Classic.matchOther, l1, setMatched, Option.map_some, Option.getD_some, outdent_eq, docLine, chomp]
  have h : delim = Classic.quotes ∨ delim = Classic.ticks := by simpa [delims] using h
  rw [ha]
  rcases h with rfl | rfl <;> rfl

theorem arg_back {m : CState} (hc : m.Calm) (y : Style) {a : StepArg} (h : Printable.Arg a) (n k : Nat) :
    ((argCst m n (pArg y a)).ast k).1.change g0 = a.change g0 := by
  cases a with
  | none => rfl
  | table t =>
    cases hr : t.rows with
    | nil => exact absurd hr h.1
    | cons r rs =>
      have := rows_back (m := m) y h.2.1 n k
      rw [hr] at this
      simp only [pArg, hr, argCst, Cst.Arg.ast, StepArg.change, DataTable.change]
      rw [← rowToks_cons]
      congr 2
      exact (by simpa [pRows, Function.comp_def] using this)
  | doc x =>
    obtain ⟨delim, hm, he, h1, h2⟩ := h
    obtain ⟨i1, i2, i3⟩ := inside_eq hc hm y.arg (x.mediaType.getD []) n
    simp only [pArg, he, Option.getD_some, argCst, Cst.Arg.ast, StepArg.change, DocString.change, i1]
    have e1 : ∀ (ls : List Str) (n : Nat), (∀ l ∈ ls, l ∈ splitChar '\n' x.content) →
        (others { m with active := some delim, indentToRemove := y.arg } n (ls.map fun s => line y.arg (writeDoc delim s))).map Cst.textOf = ls := by
      intro ls
      induction ls with
      | nil => intro n _; rfl
      | cons l ls ih =>
        intro n hl
        simp only [others, List.map_cons, place] at ih ⊢
        rw [ih _ fun l' h' => hl l' (by simp [h']), doc_tok hm rfl]
        have hl := hl l (by simp)
        rw [docLine_written hm (written (splitChar_no _ _ l hl) (h2 l hl).1 (h2 l hl).2 y.arg)]
    rw [e1 _ _ fun l hl => linesOf_sub hl, join_linesOf, i2]
    have e2 : (if Cst.textOf (tokOf m .docStringSeparator (line y.arg (delim ++ x.mediaType.getD [])) n) = [] then none
        else some (Cst.textOf (tokOf m .docStringSeparator (line y.arg (delim ++ x.mediaType.getD [])) n))) = x.mediaType := by
      rw [Cst.textOf, i3, Option.getD_some]
      cases hmt : x.mediaType with
      | none => rfl
      | some s =>
        obtain ⟨g1, g2⟩ := h1 s (by simp [hmt])
        have := strip_oneLine (a := []) (b := ['\n']) g2 (by intro c hc; simp at hc) (by intro c hc; simp at hc; subst hc; rfl)
        simp only [List.nil_append] at this
        rw [Option.getD_some, this, rstripEol_oneLine g2, if_neg g1]
    rw [e2]
    rfl

theorem step_back {m : CState} (hc : m.Calm) (y : Style) {s : Step} (h : Printable.Step m.dialect s) (n k : Nat) :
    ((stepCst m n (pStep y s)).ast k).1.change g0 = s.change g0 := by
  obtain ⟨⟨kw, x, h1, h2, h3, h4, h5⟩, h6⟩ := h
  obtain ⟨t1, t2, t3⟩ := step_tok hc.valid.known h4 h3 y.step n
  simp only [stepCst, Cst.CStep.ast, Step.change, pStep, arg_back hc y h6, ln, h1, h2, h5, Option.getD_some, t1, t2, t3]
  rfl

theorem steps_back {m : CState} (hc : m.Calm) (y : Style) {ss : List Step} (h : ∀ s ∈ ss, Printable.Step m.dialect s) (n k : Nat) :
    (thread Cst.CStep.ast (stepsCst m n (ss.map (pStep y))) k).1.map (Step.change g0) = ss.map (Step.change g0) :=
  thread_place_map (fun s hs n k => step_back hc y (h s hs) n k) n k

theorem head_back {m : CState} (hd : m.dialect.Known) {k : Kind} (y : Style) {kw nm : Option Str} (h : Printable.Title (m.dialect.titles k) kw nm) (desc : Str) (i : Nat) :
    (tokOf m k (pHead y kw nm desc).line i).keyword = kw ∧ (tokOf m k (pHead y kw nm desc).line i).text = nm ∧
    (tokOf m k (pHead y kw nm desc).line i).dialect = some m.dialectName := by
  obtain ⟨⟨kw, hk, rfl⟩, s, rfl, hs⟩ := h
  exact title_tok hd hk hs y.title i

theorem background_back {m : CState} (hc : m.Calm) (y : Style) {b : Background} (h : Printable.Background m.dialect b) (n k : Nat) :
    ((backgroundCst m n (pBackground y b)).ast k).1.change g0 = b.change g0 := by
  obtain ⟨h1, h2, h3⟩ := h
  obtain ⟨t1, t2, _⟩ := head_back hc.valid.known (k := .backgroundLine) y h1 b.description n
  simp only [backgroundCst, Cst.CBackground.ast, Background.change, pBackground, steps_back hc y h3, t1, t2, desc_back hc y b.keyword b.name h2]
  rfl

theorem examples_back {m : CState} (hc : m.Calm) (y : Style) {b : Examples} (h : Printable.Examples m.dialect b) (n k : Nat) :
    ((examplesCst m n (pExamples y b)).ast k).1.change g0 = b.change g0 := by
  obtain ⟨h0, h1, h2, h3, h4⟩ := h
  obtain ⟨t1, t2, _⟩ := head_back hc.valid.known (k := .examplesLine) y h1 b.description (n + tagLen (pTags y b.tags))
  have hr : ∀ n k, _ := fun n k => rows_back (m := m) y h4.1 n k
  simp only [examplesCst, Cst.CExamples.ast, Examples.change, pExamples, t1, t2, desc_back hc y b.keyword b.name h2, tags_back y h0,
    ← List.head?_map, List.map_tail]
  rw [hr]
  cases hh : b.header with
  | none => simp [h3 hh, g0]
  | some r => simp [g0]

theorem scenario_back {m : CState} (hc : m.Calm) (y : Style) {b : Scenario} (h : Printable.Scenario m.dialect b) (n k : Nat) :
    ((scenarioCst m n (pScenario y b)).ast k).1.change g0 = b.change g0 := by
  obtain ⟨h0, h1, h2, h3, h4⟩ := h
  obtain ⟨t1, t2, _⟩ := head_back hc.valid.known (k := .scenarioLine) y h1 b.description (n + tagLen (pTags y b.tags))
  simp only [scenarioCst, Cst.CScenario.ast, Scenario.change, pScenario, t1, t2, desc_back hc y b.keyword b.name h2, tags_back y h0, steps_back hc y h3]
  rw [thread_place_map (t := Examples.change g0) (fun e he n k => examples_back hc y (h4 e he) n k)]
  rfl

/-! ### Rules and features: their children are a background, scenarios and rules -/

/-- A rule with its children sorted. -/
def pRule (y : Style) (r : RuleNode) (b : Option Background) (ss : List Scenario) : Layout.Rule :=
  ⟨pTags y r.tags, pHead y r.keyword r.name r.description, b.map (pBackground y), ss.map (pScenario y)⟩

theorem opt_toList_map {α β : Type} (f : α → β) (b : Option α) : (b.map f).toList = b.toList.map f := by cases b <;> rfl

theorem pRule_texts (y : Style) {r : RuleNode} {b : Option Background} {ss : List Scenario}
    (h : r.children = b.toList.map .background ++ ss.map .scenario) : (pRule y r b ss).texts = rule y r := by
  simp only [pRule, Layout.Rule.texts, rule, pTags_texts, pHead_texts, h, List.flatMap_append, flat_map (pScenario_texts y), opt_toList_map,
    flat_map (pBackground_texts y), List.append_assoc]
  rw [flat_map (f := ruleChild y) (h := background y) (fun _ => rfl), flat_map (f := ruleChild y) (h := scenario y) (fun _ => rfl)]

theorem pRule_ok {d : Dialect} (hd : d.Known) (y : Style) {r : RuleNode} {b : Option Background} {ss : List Scenario} (h0 : Printable.Tags r.tags)
    (h1 : Printable.Title d.rule r.keyword r.name) (h2 : Printable.Description d .rule r.description) (h3 : ∀ x ∈ b, Printable.Background d x)
    (h4 : ∀ x ∈ ss, Printable.Scenario d x) : (pRule y r b ss).Ok d := by
  refine ⟨pTags_ok hd y h0, pHead_ok hd y (k := .ruleLine) h1 h2, ?_, ?_⟩
  · intro x hx
    obtain ⟨z, hz, rfl⟩ := Option.map_eq_some_iff.1 hx
    exact pBackground_ok hd y (h3 z hz)
  · intro x hx
    obtain ⟨z, hz, rfl⟩ := List.mem_map.1 hx
    exact pScenario_ok hd y (h4 z hz)

theorem backgroundOpt_back {m : CState} (hc : m.Calm) (y : Style) {b : Option Background} (h : ∀ x ∈ b, Printable.Background m.dialect x) (n k : Nat) :
    (threadOpt Cst.CBackground.ast ((b.map (pBackground y)).map (backgroundCst m n)) k).1.toList.map (Background.change g0) = b.toList.map (Background.change g0) := by
  cases b with
  | none => rfl
  | some b => simp [threadOpt, background_back hc y (h b rfl)]

theorem scenarios_back {m : CState} (hc : m.Calm) (y : Style) {ss : List Scenario} (h : ∀ x ∈ ss, Printable.Scenario m.dialect x) (n k : Nat) :
    (thread Cst.CScenario.ast (place (fun s => s.texts.length) (scenarioCst m) n (ss.map (pScenario y))) k).1.map (Scenario.change g0) = ss.map (Scenario.change g0) :=
  thread_place_map (fun e he n k => scenario_back hc y (h e he) n k) n k

theorem rule_back {m : CState} (hc : m.Calm) (y : Style) {r : RuleNode} {b : Option Background} {ss : List Scenario}
    (h : r.children = b.toList.map .background ++ ss.map .scenario) (h0 : Printable.Tags r.tags)
    (h1 : Printable.Title m.dialect.rule r.keyword r.name) (h2 : Printable.Description m.dialect .rule r.description)
    (h3 : ∀ x ∈ b, Printable.Background m.dialect x) (h4 : ∀ x ∈ ss, Printable.Scenario m.dialect x) (n k : Nat) :
    ((ruleCst m n (pRule y r b ss)).ast k).1.change g0 = r.change g0 := by
  obtain ⟨t1, t2, _⟩ := head_back hc.valid.known (k := .ruleLine) y h1 r.description (n + tagLen (pTags y r.tags))
  have e1 : RuleChild.change g0 ∘ RuleChild.background = RuleChild.background ∘ Background.change g0 := rfl
  have e2 : RuleChild.change g0 ∘ RuleChild.scenario = RuleChild.scenario ∘ Scenario.change g0 := rfl
  simp only [ruleCst, Cst.CRule.ast, RuleNode.change, pRule, t1, t2, desc_back hc y r.keyword r.name h2, tags_back y h0, List.map_append, List.map_map, e1, e2, h]
  simp only [← List.map_map]
  rw [backgroundOpt_back hc y h3, scenarios_back hc y h4]
  rfl

/-- Rules can be printed: their layouts. -/
theorem pRules {m : CState} (hc : m.Calm) (y : Style) : ∀ {rs : List RuleNode}, (∀ r ∈ rs, Printable.Rule m.dialect r) →
    ∃ Rs : List Layout.Rule, Rs.flatMap Layout.Rule.texts = rs.flatMap (rule y) ∧ (∀ R ∈ Rs, R.Ok m.dialect) ∧
      ∀ n k, (thread Cst.CRule.ast (place (fun s => s.texts.length) (ruleCst m) n Rs) k).1.map (RuleNode.change g0) = rs.map (RuleNode.change g0)
  | [], _ => ⟨[], rfl, by simp, fun _ _ => rfl⟩
  | r :: rs, h => by
    obtain ⟨Rs, g1, g2, g3⟩ := pRules hc y (rs := rs) fun x hx => h x (by simp [hx])
    obtain ⟨h0, h1, h2, b, ss, h3, h4, h5⟩ := h r (by simp)
    refine ⟨pRule y r b ss :: Rs, ?_, ?_, ?_⟩
    · rw [List.flatMap_cons, List.flatMap_cons, g1, pRule_texts y h3]
    · intro R hR
      simp only [List.mem_cons] at hR
      rcases hR with rfl | hR
      · exact pRule_ok hc.valid.known y h0 h1 h2 h4 h5
      · exact g2 R hR
    · intro n k
      simp only [place, thread, List.map_cons, g3]
      rw [rule_back hc y h3 h0 h1 h2 h4 h5]

/-- A feature can be printed: its layout. -/
theorem pFeature {m : CState} (hc : m.Calm) (y : Style) {f : Feature} (h0 : Printable.Tags f.tags) (h1 : Printable.Title m.dialect.feature f.keyword f.name)
    (h2 : Printable.Description m.dialect .feature f.description) {b : Option Background} {ss : List Scenario} {rs : List RuleNode}
    (h : f.children = b.toList.map .background ++ ss.map .scenario ++ rs.map .rule) (h3 : ∀ x ∈ b, Printable.Background m.dialect x)
    (h4 : ∀ x ∈ ss, Printable.Scenario m.dialect x) (h5 : ∀ x ∈ rs, Printable.Rule m.dialect x) (hl : f.language = some m.dialectName) :
    ∃ F : Layout.Feature, F.texts = tags y f.tags ++ head y f.keyword f.name f.description ++ f.children.flatMap (featureChild y) ∧ F.Ok m.dialect ∧
      ∀ n t k, ((featureCst m n t F).ast k).1.change g0 = f.change g0 := by
  have hd := hc.valid.known
  obtain ⟨Rs, g1, g2, g3⟩ := pRules hc y h5
  refine ⟨⟨pTags y f.tags, pHead y f.keyword f.name f.description, b.map (pBackground y), ss.map (pScenario y), Rs⟩, ?_, ?_, ?_⟩
  · simp only [Layout.Feature.texts, pTags_texts, pHead_texts, h, List.flatMap_append, flat_map (pScenario_texts y), opt_toList_map,
      flat_map (pBackground_texts y), List.append_assoc, g1]
    rw [flat_map (f := featureChild y) (h := background y) (fun _ => rfl), flat_map (f := featureChild y) (h := scenario y) (fun _ => rfl),
      flat_map (f := featureChild y) (h := rule y) (fun _ => rfl)]
  · refine ⟨pTags_ok hd y h0, pHead_ok hd y (k := .featureLine) h1 h2, ?_, ?_, g2⟩
    · intro x hx
      obtain ⟨z, hz, rfl⟩ := Option.map_eq_some_iff.1 hx
      exact pBackground_ok hd y (h3 z hz)
    · intro x hx
      obtain ⟨z, hz, rfl⟩ := List.mem_map.1 hx
      exact pScenario_ok hd y (h4 z hz)
  · intro n t k
    obtain ⟨t1, t2, t3⟩ := head_back hc.valid.known (k := .featureLine) y h1 f.description (n + tagLen (pTags y f.tags))
    have e1 : FeatureChild.change g0 ∘ FeatureChild.background = FeatureChild.background ∘ Background.change g0 := rfl
    have e2 : FeatureChild.change g0 ∘ FeatureChild.scenario = FeatureChild.scenario ∘ Scenario.change g0 := rfl
    have e3 : FeatureChild.change g0 ∘ FeatureChild.rule = FeatureChild.rule ∘ RuleNode.change g0 := rfl
    simp only [featureCst, Cst.CFeature.ast, Feature.change, t1, t2, t3, desc_back hc y f.keyword f.name h2, tags_back y h0, List.map_append, List.map_map,
      e1, e2, e3, h, hl]
    simp only [← List.map_map]
    rw [backgroundOpt_back hc y h3, scenarios_back hc y h4, g3]
    rfl

end Print

end Gherkin
