import Verif.Proofs.PrintAst
import Verif.Props.LineEnds

/-! The lines of a printed text. -/

namespace Gherkin

namespace Print

/-- A line that ends with a newline and has no other. -/
def Full (l : Str) : Prop := ∃ b, '\n' ∉ b ∧ l = b ++ ['\n']

def Fulls (ls : List Str) : Prop := ∀ l ∈ ls, Full l

theorem Fulls.append {a b : List Str} (ha : Fulls a) (hb : Fulls b) : Fulls (a ++ b) := by
  intro l hl
  simp only [List.mem_append] at hl
  exact hl.elim (ha l) (hb l)

theorem Fulls.cons {a : Str} {b : List Str} (ha : Full a) (hb : Fulls b) : Fulls (a :: b) := by
  intro l hl
  simp only [List.mem_cons] at hl
  rcases hl with rfl | hl
  · exact ha
  · exact hb l hl

theorem Fulls.nil : Fulls [] := by intro l hl; simp at hl

theorem Fulls.flat {α : Type} {f : α → List Str} {xs : List α} (h : ∀ x ∈ xs, Fulls (f x)) : Fulls (xs.flatMap f) := by
  intro l hl
  obtain ⟨x, hx, hl⟩ := List.mem_flatMap.1 hl
  exact h x hx l hl

theorem split_fulls : ∀ {ls : List Str}, Fulls ls → splitLines ls.flatten = ls
  | [], _ => rfl
  | l :: ls, h => by
    obtain ⟨b, hb, rfl⟩ := h l (by simp)
    rw [List.flatten_cons, splitLines_body hb, split_fulls fun x hx => h x (by simp [hx])]

theorem line_full {s : Str} (h : '\n' ∉ s) (n : Nat) : Full (line n s) :=
  ⟨List.replicate n ' ' ++ s, by simp; exact h, rfl⟩

theorem head_fulls {d : Dialect} (hd : d.Known) {k : Kind} (y : Style) {kw nm : Option Str} (desc : Str) (h1 : Printable.Title (d.titles k) kw nm) :
    Fulls (head y kw nm desc) := by
  obtain ⟨⟨kw, hk, rfl⟩, s, rfl, hs⟩ := h1
  refine .cons (line_full ?_ _) ?_
  · have := (hd.title_chars hk).1
    simp only [Option.getD_some, List.mem_append, List.mem_cons, List.not_mem_nil, not_or]
    exact ⟨⟨this, by decide, by decide, by simp⟩, hs.1⟩
  · intro l hl
    obtain ⟨x, hx, rfl⟩ := List.mem_map.1 hl
    exact ⟨x, splitChar_no _ _ x (linesOf_sub hx), rfl⟩

theorem escapeCell_no (s : Str) : '\n' ∉ escapeCell s := by
  induction s with
  | nil => simp [escapeCell]
  | cons c cs ih =>
    simp only [escapeCell, List.mem_append, not_or]
    refine ⟨?_, ih⟩
    split
    · simp
    · rename_i h
      split
      · simp
      · split
        · simp
        · simpa using fun e => h e.symm

theorem row_full (y : Style) (r : Row) : Full (row y r) := by
  refine line_full ?_ _
  simp [writeRow, escapeCell_no]

theorem join_no {ns : List Str} (h : ∀ n ∈ ns, '\n' ∉ n) : '\n' ∉ joinStr [' '] ns := by
  induction ns with
  | nil => simp [joinStr]
  | cons n ns ih =>
    cases ns with
    | nil => simpa [joinStr] using h n (by simp)
    | cons x xs =>
      have := ih fun n hn => h n (by simp [List.mem_cons.1 hn])
      simp [joinStr, h n (by simp)]
      exact this

theorem tags_fulls (y : Style) {ts : List Tag} (h : Printable.Tags ts) : Fulls (tags y ts) := by
  unfold tags
  split
  · exact .nil
  · refine .cons (line_full (join_no ?_) _) .nil
    intro n hn
    obtain ⟨t, ht, rfl⟩ := List.mem_map.1 hn
    obtain ⟨x, h1, h2⟩ := h t ht
    rw [h1]
    intro hc
    simp only [List.mem_cons] at hc
    rcases hc with hc | hc
    · simp at hc
    · have := (h2 _ hc).1
      simp [isSpace] at this

theorem enc_no {q : Char} (s : Str) (h : '\n' ∉ s) (hq : q ≠ '\n') : '\n' ∉ replaceAll (tri q) (esc q) s := by
  generalize hn : s.length = n
  induction n using Nat.strongRecOn generalizing s with
  | ind n ih =>
    rcases enc_cases (q := q) s with ⟨b, hb, e⟩ | ⟨_, ⟨hb, e⟩ | ⟨c, b, hb, e⟩⟩
    · rw [e]
      subst hb
      have := ih b.length (by rw [← hn]; simp; omega) b (fun hc => h (by simp [hc])) rfl
      simp only [List.mem_append, not_or]
      exact ⟨by simp; exact fun e => hq e.symm, this⟩
    · rw [e]; simp
    · rw [e]
      subst hb
      have := ih b.length (by rw [← hn]; simp) b (fun hc => h (by simp [hc])) rfl
      simp only [List.mem_cons, not_or]
      exact ⟨fun e => h (List.mem_cons.2 (.inl e)), this⟩

theorem writeDoc_no {delim s : Str} (hd : delim ∈ docDelimiters) (h : '\n' ∉ s) : '\n' ∉ writeDoc delim s := by
  obtain ⟨q, rfl, hesc, hq, hsp, hn, hr⟩ := delim_cases hd
  rw [writeDoc, hesc]
  exact enc_no s h hn

theorem arg_fulls (y : Style) {a : StepArg} (h : Printable.Arg a) : Fulls (arg y a) := by
  cases a with
  | none => exact .nil
  | table t =>
    intro l hl
    obtain ⟨r, _, rfl⟩ := List.mem_map.1 hl
    exact row_full y r
  | doc x =>
    obtain ⟨delim, hm, he, h1, h2⟩ := h
    have hdl : '\n' ∉ delim := by simp [docDelimiters] at hm; rcases hm with rfl | rfl <;> decide
    simp only [arg, he, Option.getD_some]
    refine .append (.cons (line_full ?_ _) ?_) (.cons (line_full hdl _) .nil)
    · simp only [List.mem_append, not_or]
      refine ⟨hdl, ?_⟩
      cases hx : x.mediaType with
      | none => simp
      | some s => exact (h1 s (by simp [hx])).2.1
    · intro l hl
      obtain ⟨s, hs, rfl⟩ := List.mem_map.1 hl
      exact line_full (writeDoc_no hm (splitChar_no _ _ s (linesOf_sub hs))) _

theorem step_fulls {d : Dialect} (hd : d.Known) (y : Style) {s : Step} (h : Printable.Step d s) : Fulls (step y s) := by
  obtain ⟨⟨kw, x, h1, h2, h3, h4, h5⟩, h6⟩ := h
  refine .cons (line_full ?_ _) (arg_fulls y h6)
  rw [h1, h2]
  simp only [Option.getD_some, List.mem_append, not_or]
  exact ⟨hd.step_chars (List.mem_of_find?_eq_some h4), h3.1⟩

theorem background_fulls {d : Dialect} (hd : d.Known) (y : Style) {b : Background} (h : Printable.Background d b) : Fulls (background y b) :=
  .append (head_fulls hd (k := .backgroundLine) y _ h.1) (.flat fun x hx => step_fulls hd y (h.2.2 x hx))

theorem examples_fulls {d : Dialect} (hd : d.Known) (y : Style) {b : Examples} (h : Printable.Examples d b) : Fulls (examples y b) := by
  refine .append (.append (tags_fulls y h.1) (head_fulls hd (k := .examplesLine) y _ h.2.1)) ?_
  intro l hl
  obtain ⟨r, _, rfl⟩ := List.mem_map.1 hl
  exact row_full y r

theorem scenario_fulls {d : Dialect} (hd : d.Known) (y : Style) {b : Scenario} (h : Printable.Scenario d b) : Fulls (scenario y b) :=
  .append (.append (.append (tags_fulls y h.1) (head_fulls hd (k := .scenarioLine) y _ h.2.1)) (.flat fun x hx => step_fulls hd y (h.2.2.2.1 x hx)))
    (.flat fun x hx => examples_fulls hd y (h.2.2.2.2 x hx))

theorem rule_fulls {d : Dialect} (hd : d.Known) (y : Style) {r : RuleNode} (h : Printable.Rule d r) : Fulls (rule y r) := by
  obtain ⟨h0, h1, h2, b, ss, h3, h4, h5⟩ := h
  refine .append (.append (tags_fulls y h0) (head_fulls hd (k := .ruleLine) y _ h1)) (.flat ?_)
  rw [h3]
  intro x hx
  simp only [List.mem_append, List.mem_map] at hx
  rcases hx with ⟨z, hz, rfl⟩ | ⟨z, hz, rfl⟩
  · exact background_fulls hd y (h4 z (by simpa using hz))
  · exact scenario_fulls hd y (h5 z hz)

theorem children_fulls {d : Dialect} (hd : d.Known) (y : Style) {cs : List FeatureChild} {b : Option Background} {ss : List Scenario} {rs : List RuleNode}
    (h : cs = b.toList.map .background ++ ss.map .scenario ++ rs.map .rule) (h3 : ∀ x ∈ b, Printable.Background d x)
    (h4 : ∀ x ∈ ss, Printable.Scenario d x) (h5 : ∀ x ∈ rs, Printable.Rule d x) : Fulls (cs.flatMap (featureChild y)) := by
  refine .flat ?_
  subst h
  intro x hx
  simp only [List.mem_append, List.mem_map] at hx
  rcases hx with (⟨z, hz, rfl⟩ | ⟨z, hz, rfl⟩) | ⟨z, hz, rfl⟩
  · exact background_fulls hd y (h3 z (by simpa using hz))
  · exact scenario_fulls hd y (h4 z hz)
  · exact rule_fulls hd y (h5 z hz)

theorem header_is {name : Str} (h : name ≠ [] ∧ ∀ c ∈ name, langChar c) : IsHeader name (line 0 (py"# language: " ++ name)) :=
  ⟨h.1, h.2, [], [' '], [], [' '], ['\n'], by intro c hc; simp at hc, by intro c hc; simp at hc; subst hc; rfl, by intro c hc; simp at hc,
    by intro c hc; simp at hc; subst hc; rfl, by intro c hc; simp at hc; subst hc; rfl, by simp [line]⟩

theorem header_full {name : Str} (h : name ≠ [] ∧ ∀ c ∈ name, langChar c) : Full (line 0 (py"# language: " ++ name)) := by
  refine line_full ?_ _
  simp only [List.mem_append, not_or]
  refine ⟨by decide, ?_⟩
  intro hc
  have := h.2 _ hc
  simp [langChar] at this

end Print

end Gherkin
