import Verif.Proofs.MdPrint
import Verif.Proofs.PrintText

/-! The Markdown lines of a feature mirror its classic lines. -/

namespace Gherkin

def noTickOk (d : Dialect) : Bool :=
  titleKinds.all (fun k => (d.titles k).all fun kw => !kw.contains '`') && d.stepKeywords.all fun kw => !kw.contains '`'

theorem no_tick_ok : dialects.all (fun p => noTickOk p.2) = true := by decide +kernel

theorem Dialect.Known.no_tick {d : Dialect} (h : d.Known) : noTickOk d = true := by
  obtain ⟨n, hn⟩ := h
  exact List.all_eq_true.1 no_tick_ok _ (lookup_mem hn)

theorem Dialect.Known.title_tick {d : Dialect} (h : d.Known) {k : Kind} {kw : Str} (hk : kw ∈ d.titles k) : '`' ∉ kw := by
  have := h.no_tick
  simp only [noTickOk, Bool.and_eq_true, List.all_eq_true] at this
  have := this.1 k (titles_kind hk) kw hk
  simpa using this

theorem Dialect.Known.step_tick {d : Dialect} (h : d.Known) {kw : Str} (hk : kw ∈ d.stepKeywords) : '`' ∉ kw := by
  have := h.no_tick
  simp only [noTickOk, Bool.and_eq_true, List.all_eq_true] at this
  have := this.2 kw hk
  simpa using this

namespace MdPrint

open Print (line linesOf)
open Markdown MdPrintable

/-- The classic style that goes with a Markdown style. -/
def plainStyle (y : MdStyle) : Style := ⟨0, 0, 0, y.arg⟩

/-- Wherever the lines `ls` and `ls'` stand, the texts still mirror each other. -/
def Mir (d : Dialect) (p q : Place) (ls ls' : List Str) : Prop := ∀ k k', Mirrors d q k k' → Mirrors d p (ls ++ k) (ls' ++ k')

theorem Mir.nil {d : Dialect} {p : Place} : Mir d p p [] [] := fun _ _ h => h
theorem Mir.seq {d : Dialect} {p q r : Place} {a a' b b' : List Str} (h : Mir d p q a a') (h' : Mir d q r b b') : Mir d p r (a ++ b) (a' ++ b') := by
  intro k k' hk
  rw [List.append_assoc, List.append_assoc]
  exact h _ _ (h' _ _ hk)
theorem Mir.one {d : Dialect} {s s' : Str} (h : SaysSame d s s') : Mir d .body .body [s] [s'] := fun _ _ hk => .line h hk
theorem Mir.flat {d : Dialect} {p : Place} {α : Type} {f g : α → List Str} {xs : List α} (h : ∀ x ∈ xs, Mir d p p (f x) (g x)) :
    Mir d p p (xs.flatMap f) (xs.flatMap g) := by
  induction xs with
  | nil => exact Mir.nil
  | cons x xs ih =>
    simp only [List.flatMap_cons]
    exact (h x (by simp)).seq (ih fun y hy => h y (by simp [hy]))

theorem white_blanks (n : Nat) : White (List.replicate n ' ') := by
  intro c hc
  rw [(List.mem_replicate.1 hc).2]; rfl

theorem no_tick_blanks (n : Nat) : '`' ∉ List.replicate n ' ' := by
  intro h
  exact absurd (List.mem_replicate.1 h).2 (by decide)

/-! ### Tags -/

def pairs : List Str → List TagPair
  | [] => []
  | [n] => [⟨n, ['\n'], ['\n']⟩]
  | n :: m :: ns => ⟨n, [' '], [' ']⟩ :: pairs (m :: ns)

theorem pairs_classic : ∀ {ns : List Str}, ns ≠ [] → (pairs ns).flatMap TagPair.classic = joinStr [' '] (ns.map ('@' :: ·)) ++ ['\n']
  | [], h => absurd rfl h
  | [n], _ => by simp [pairs, TagPair.classic, joinStr]
  | n :: m :: ns, _ => by
    have := pairs_classic (ns := m :: ns) (by simp)
    simp only [pairs, List.flatMap_cons] at this ⊢
    rw [this]
    simp [TagPair.classic, joinStr]

theorem pairs_markdown : ∀ {ns : List Str}, ns ≠ [] →
    (pairs ns).flatMap TagPair.markdown = joinStr [' '] (ns.map fun n => '`' :: '@' :: (n ++ ['`'])) ++ ['\n']
  | [], h => absurd rfl h
  | [n], _ => by simp [pairs, TagPair.markdown, joinStr]
  | n :: m :: ns, _ => by
    have := pairs_markdown (ns := m :: ns) (by simp)
    simp only [pairs, List.flatMap_cons] at this ⊢
    rw [this]
    simp [TagPair.markdown, joinStr]

theorem pairs_ok : ∀ {ns : List Str}, (∀ n ∈ ns, n ≠ [] ∧ TagName n ∧ '`' ∉ n) → ∀ t ∈ pairs ns, t.Ok
  | [], _, t, ht => by simp [pairs] at ht
  | [n], h, t, ht => by
    simp only [pairs, List.mem_singleton] at ht
    subst ht
    obtain ⟨a, b, c⟩ := h n (by simp)
    exact ⟨a, b, c, by intro x hx; simp at hx; subst hx; rfl, by simp⟩
  | n :: m :: ns, h, t, ht => by
    simp only [pairs, List.mem_cons] at ht
    rcases ht with rfl | ht
    · obtain ⟨a, b, c⟩ := h n (by simp)
      exact ⟨a, b, c, by intro x hx; simp at hx; subst hx; rfl, by simp⟩
    · exact pairs_ok (ns := m :: ns) (fun x hx => h x (List.mem_cons_of_mem _ hx)) t (by simpa [pairs] using ht)

theorem tag_lines {y : MdStyle} {ts : List Tag} (h : Printable.Tags ts) (h' : MdPrintable.Tags ts) (hne : ts ≠ []) :
    ∃ s s', Print.tags (plainStyle y) ts = [s] ∧ tags ts = [s'] ∧ TagLines s s' := by
  obtain ⟨ns, hn, he⟩ := Print.tag_names h
  have hne' : ns ≠ [] := by rintro rfl; simp at he; exact hne he
  refine ⟨_, _, if_neg hne, if_neg hne, [], [], pairs ns, by intro c hc; simp at hc, by intro c hc; simp at hc, ?_, pairs_ok ?_, ?_, ?_⟩
  · cases ns with
    | nil => exact absurd rfl hne'
    | cons n ns => cases ns <;> simp [pairs]
  · intro n hm
    have : '@' :: n ∈ ts.map Tag.name := by rw [he]; exact List.mem_map.2 ⟨n, hm, rfl⟩
    obtain ⟨t, ht, e⟩ := List.mem_map.1 this
    obtain ⟨h1, h2⟩ := h' t ht
    rw [e] at h1 h2
    exact ⟨by rintro rfl; exact h1 rfl, hn n hm, fun hb => h2 (by simp [hb])⟩
  · rw [pairs_classic hne', he]; simp [line, plainStyle]
  · rw [pairs_markdown hne']
    have : (ts.map fun t => '`' :: (t.name ++ ['`'])) = ns.map fun n => '`' :: '@' :: (n ++ ['`']) := by
      have := congrArg (List.map fun n => '`' :: (n ++ ['`'])) he
      simpa [Function.comp_def] using this
    rw [this]; simp [line]

theorem tags_mir {d : Dialect} {y : MdStyle} {ts : List Tag} (h : Printable.Tags ts) (h' : MdPrintable.Tags ts) :
    Mir d .body .body (Print.tags (plainStyle y) ts) (tags ts) := by
  by_cases hne : ts = []
  · simp only [Print.tags, tags, if_pos hne]; exact Mir.nil
  · obtain ⟨s, s', e, e', hs⟩ := tag_lines (y := y) h h' hne
    rw [e, e']; exact Mir.one (.tags hs)

theorem tags_start {d : Dialect} {y : MdStyle} {ts : List Tag} (h : Printable.Tags ts) (h' : MdPrintable.Tags ts) :
    Mir d .start .start (Print.tags (plainStyle y) ts) (tags ts) := by
  by_cases hne : ts = []
  · simp only [Print.tags, tags, if_pos hne]; exact Mir.nil
  · obtain ⟨s, s', e, e', hs⟩ := tag_lines (y := y) h h' hne
    rw [e, e']; exact fun _ _ hk => .tags hs hk

/-! ### Titles -/

theorem title_lines {d : Dialect} (hd : d.Known) {k : Kind} {y : MdStyle} {n : Nat} (hn : 1 ≤ n ∧ n ≤ 6) {keywords : List Str}
    (hk : ∀ x ∈ d.titles k, x ∈ keywords) {kw nm : Option Str} {desc : Str}
    (h : Printable.Title (d.titles k) kw nm) (h' : MdPrintable.Title nm desc) :
    ∃ s, Print.head (plainStyle y) kw nm desc = [s] ∧ TitleLines d keywords s (head n kw nm) := by
  obtain ⟨⟨x, hx, rfl⟩, s, rfl, h2⟩ := h
  obtain ⟨h3, rfl⟩ := h'
  refine ⟨_, by simp only [Print.head, linesOf, if_pos, List.map_nil]; rfl, [], [], x, ' ' :: (s ++ ['\n']), n, ' ', by intro c hc; simp at hc,
    by intro c hc; simp at hc, hk x hx, hn.1, hn.2, rfl, by simp [line, plainStyle], by simp [head, line], NoTag.form ?_⟩
  have : NoTag (s ++ ['\n']) := noTag_between (h3 s rfl) (noTag_of_no (by decide)) (by simp)
  have h5 : '`' ∉ List.replicate n '#' ++ ' ' :: (x ++ [':', ' ']) := by
    intro hm
    simp only [List.mem_append, List.mem_cons, List.mem_replicate] at hm
    rcases hm with hm | hm | hm | hm
    · exact absurd hm.2 (by decide)
    · exact absurd hm (by decide)
    · exact hd.title_tick hx hm
    · exact absurd hm (by decide)
  have := noTag_before h5 this
  simpa [head, line] using this

theorem title_mir {d : Dialect} (hd : d.Known) {k : Kind} {y : MdStyle} {n : Nat} (hn : 1 ≤ n ∧ n ≤ 6)
    (hk : ∀ x ∈ d.titles k, x ∈ d.rule ++ d.background ++ d.scenario ++ d.scenarioOutline ++ d.examples) {kw nm : Option Str} {desc : Str}
    (h : Printable.Title (d.titles k) kw nm) (h' : MdPrintable.Title nm desc) :
    Mir d .body .body (Print.head (plainStyle y) kw nm desc) [head n kw nm] := by
  obtain ⟨s, e, hs⟩ := title_lines (y := y) hd hn hk h h'
  rw [e]; exact Mir.one (.title hs)

/-! ### Rows -/

theorem row_lines {d : Dialect} {y : MdStyle} (hy : y.arg ≤ 5) {r : Row} (h : ∀ c ∈ r.cells, CellValue c.value)
    (h' : ∀ c ∈ r.cells, NoTag c.value ∧ ∀ v e, c.value = v ++ e → (e = [] ∨ e = ['\n']) → ¬ Markdown.Dashes v) :
    RowLines d (Print.row (plainStyle y) r) (row y r) := by
  have e : ∀ ws : List WCell, line y.arg (writeRow ws) = List.replicate y.arg ' ' ++ '|' :: (ws.flatMap (fun c => c.left ++ escapeCell c.value ++ c.right ++ ['|']) ++ ['\n']) := by
    intro ws; simp [line, writeRow]
  refine ⟨_, _, _, white_blanks y.arg, white_blanks y.arg, by simpa using hy, row_no_dash (cells := r.cells) fun c hc => ⟨h c hc, (h' c hc).2⟩, e _, e _, NoTag.form ?_⟩
  rw [row, e]
  exact noTag_before (no_tick_blanks _) (noTag_cons (by decide) (noTag_row fun c hc => (h' c hc).1))

theorem rows_mir {d : Dialect} {y : MdStyle} (hy : y.arg ≤ 5) {rs : List Row} (h : Printable.Rows rs) (h' : MdPrintable.Rows rs) :
    Mir d .body .body (rs.map (Print.row (plainStyle y))) (rs.map (row y)) := by
  have := Mir.flat (d := d) (p := .body) (f := fun r => [Print.row (plainStyle y) r]) (g := fun r => [row y r]) (xs := rs)
    fun r hr => Mir.one (.row (row_lines hy (h.1 r hr) (h' r hr)))
  rw [← List.map_eq_flatMap, ← List.map_eq_flatMap] at this
  exact this

/-! ### Doc strings -/

theorem contents_mir {d : Dialect} {delim : Str} {ls : List Str} (h : ∀ s ∈ ls, ¬ delim <+: lstrip s) : Mir d (.doc delim) (.doc delim) ls ls := by
  induction ls with
  | nil => exact Mir.nil
  | cons s ls ih => exact fun k k' hk => .content (h s (by simp)) (ih (fun x hx => h x (by simp [hx])) k k' hk)

theorem fence_of {delim : Str} (hm : delim ∈ docDelimiters) {s : Str} (n : Nat) (h : delim = py"```" → s.head? ≠ some '`') :
    fenceOf (line n (delim ++ s)) = some delim := by
  have e := (Print.delim_line hm n 0 s).1
  simp only [fenceOf, e]
  simp only [docDelimiters, List.mem_cons, List.not_mem_nil, or_false] at hm
  rcases hm with rfl | rfl
  · simp
  · have := h rfl
    cases s with
    | nil => simp
    | cons c s =>
      have hc : c ≠ '`' := by simpa using this
      simp [hc]

theorem arg_mir {d : Dialect} {y : MdStyle} (hy : y.arg ≤ 5) {a : StepArg} (h : Printable.Arg a) (h' : MdPrintable.Arg a) :
    Mir d .body .body (Print.arg (plainStyle y) a) (arg y a) := by
  cases a with
  | none => exact Mir.nil
  | table t => exact rows_mir hy h.2 h'
  | doc x =>
    obtain ⟨delim, hm, he, h1, h2⟩ := h
    have e : Print.arg (plainStyle y) (.doc x) = arg y (.doc x) := rfl
    rw [e]
    have e : arg y (.doc x) = [line y.arg (delim ++ x.mediaType.getD [])] ++ (((linesOf x.content).map fun s => line y.arg (writeDoc delim s)) ++ [line y.arg delim]) := by
      simp [arg, he]
    rw [e]
    have a1 : Mir d .body (.doc delim) [line y.arg (delim ++ x.mediaType.getD [])] [line y.arg (delim ++ x.mediaType.getD [])] := by
      refine fun k k' hk => .opening hm (fence_of hm _ ?_) hk
      rintro rfl
      have := h' he
      cases hx : x.mediaType with
      | none => simp
      | some s => exact this s hx
    have a3 : Mir d (.doc delim) .body [line y.arg delim] [line y.arg delim] := by
      refine fun k k' hk => .closing ?_ hk
      have := (Print.delim_line hm y.arg 0 []).2
      rw [List.append_nil] at this
      exact List.isPrefixOf_iff_prefix.1 this
    refine a1.seq ((contents_mir ?_).seq a3)
    intro s hs
    obtain ⟨l, hl, rfl⟩ := List.mem_map.1 hs
    have hl := Print.linesOf_sub hl
    have := written_not_delim (l := ⟨_, 0⟩) hm (Print.written (Print.splitChar_no _ _ l hl) (h2 l hl).1 (h2 l hl).2 y.arg)
    intro hp
    have hq : isDelim delim ⟨line y.arg (writeDoc delim l), 0⟩ = true := List.isPrefixOf_iff_prefix.2 hp
    exact absurd (hq.symm.trans this) (by decide)

/-! ### Steps and the rest -/

theorem step_mir {d : Dialect} (hd : d.Known) {y : MdStyle} (hy : y.Ok) {s : Gherkin.Step} (h : Printable.Step d s) (h' : MdPrintable.Step s) :
    Mir d .body .body (Print.step (plainStyle y) s) (step y s) := by
  obtain ⟨⟨kw, x, e1, e2, h3, h4, _⟩, h6⟩ := h
  obtain ⟨k1, k2, k3⟩ := h'
  rw [e1] at k1
  rw [e2] at k2
  have hkw := List.mem_of_find?_eq_some h4
  have hs : StepLines d (line 0 (kw ++ x)) (line y.step (y.bullet :: ' ' :: (kw ++ x))) := by
    refine ⟨[], List.replicate y.step ' ', kw, x ++ ['\n'], y.bullet, [' '], by intro c hc; simp at hc, white_blanks _, hkw, fun e => k1 (congrArg some e), hy.2.2.2.2.1,
      by intro c hc; simp at hc; subst hc; rfl, by simp [line], by simp [line], NoTag.form ?_⟩
    have : NoTag (x ++ ['\n']) := noTag_between (k2 x rfl) (noTag_of_no (by decide)) (by simp)
    have hb : y.bullet ≠ '`' := by rcases hy.2.2.2.2.1 with e | e | e <;> rw [e] <;> decide
    have := noTag_before (no_tick_blanks y.step) (noTag_cons hb (noTag_cons (c := ' ') (by decide) (noTag_before (hd.step_tick hkw) this)))
    simpa [line] using this
  have := (Mir.one (.step hs)).seq (arg_mir (d := d) hy.2.2.2.2.2 h6 k3)
  simpa [Print.step, step, e1, e2, plainStyle] using this

theorem background_mir {d : Dialect} (hd : d.Known) {y : MdStyle} (hy : y.Ok) {b : Gherkin.Background} (h : Printable.Background d b)
    (h' : MdPrintable.Background b) : Mir d .body .body (Print.background (plainStyle y) b) (background y b) :=
  (title_mir (k := .backgroundLine) hd hy.2.2.1 (fun x (hx : x ∈ d.background) => by simp [hx]) h.1 h'.1).seq
    (Mir.flat fun s hs => step_mir hd hy (h.2.2 s hs) (h'.2 s hs))

theorem examples_mir {d : Dialect} (hd : d.Known) {y : MdStyle} (hy : y.Ok) {e : Gherkin.Examples} (h : Printable.Examples d e)
    (h' : MdPrintable.Examples e) : Mir d .body .body (Print.examples (plainStyle y) e) (examples y e) := by
  have := (tags_mir (y := y) h.1 h'.1).seq ((title_mir (k := .examplesLine) (y := y) hd hy.2.2.2.1 (fun x (hx : x ∈ d.examples) => by simp [hx]) h.2.1 h'.2.1).seq
    (rows_mir hy.2.2.2.2.2 h.2.2.2.2 h'.2.2))
  simpa [Print.examples, examples] using this

theorem scenario_mir {d : Dialect} (hd : d.Known) {y : MdStyle} (hy : y.Ok) {s : Gherkin.Scenario} (h : Printable.Scenario d s)
    (h' : MdPrintable.Scenario s) : Mir d .body .body (Print.scenario (plainStyle y) s) (scenario y s) := by
  have := (tags_mir (y := y) h.1 h'.1).seq ((title_mir (k := .scenarioLine) (y := y) hd hy.2.2.1
      (fun x (hx : x ∈ d.scenario ++ d.scenarioOutline) => by simp at hx; rcases hx with hx | hx <;> simp [hx]) h.2.1 h'.2.1).seq
    ((Mir.flat (f := Print.step (plainStyle y)) (g := step y) fun x hx => step_mir hd hy (h.2.2.2.1 x hx) (h'.2.2.1 x hx)).seq
      (Mir.flat (f := Print.examples (plainStyle y)) (g := examples y) fun x hx => examples_mir hd hy (h.2.2.2.2 x hx) (h'.2.2.2 x hx))))
  simpa [Print.scenario, scenario] using this

theorem rule_mir {d : Dialect} (hd : d.Known) {y : MdStyle} (hy : y.Ok) {r : RuleNode} (h : Printable.Rule d r) (h' : MdPrintable.Rule r) :
    Mir d .body .body (Print.rule (plainStyle y) r) (rule y r) := by
  obtain ⟨h1, h2, _, b, ss, hc, h4, h5⟩ := h
  have hch : ∀ x ∈ r.children, Mir d .body .body (Print.ruleChild (plainStyle y) x) (ruleChild y x) := by
    intro x hx
    have h0 := h'.2.2 x hx
    rw [hc, List.mem_append, List.mem_map, List.mem_map] at hx
    rcases hx with ⟨z, hz, rfl⟩ | ⟨z, hz, rfl⟩
    · exact background_mir hd hy (h4 z (by simpa using hz)) h0
    · exact scenario_mir hd hy (h5 z hz) h0
  have := (tags_mir (y := y) h1 h'.1).seq ((title_mir (k := .ruleLine) (y := y) hd hy.2.1 (fun x (hx : x ∈ d.rule) => by simp [hx]) h2 h'.2.1).seq (Mir.flat hch))
  simpa [Print.rule, rule] using this

/-- The lines of the classic text, without the language header. -/
def classicLines (y : MdStyle) (f : Gherkin.Feature) : List Str :=
  Print.tags (plainStyle y) f.tags ++ Print.head (plainStyle y) f.keyword f.name f.description ++ f.children.flatMap (Print.featureChild (plainStyle y))

theorem feature_mir {lang : Str} {d : Dialect} (hd : dialectFor lang = some d) {y : MdStyle} (hy : y.Ok) {f : Gherkin.Feature} (hl : f.language = some lang)
    (h : MdPrintable.Feature f) : Mirrors d .start (classicLines y f) (feature y f) := by
  obtain ⟨⟨name, d', e1, e2, h0, h1, h2, bg, ss, rs, hch, h3, h4, h5⟩, k0, k1, k2⟩ := h
  rw [hl] at e1; cases e1
  rw [hd] at e2; cases e2
  have hk : d.Known := ⟨lang, hd⟩
  have hc : ∀ x ∈ f.children, Mir d .body .body (Print.featureChild (plainStyle y) x) (featureChild y x) := by
    intro x hx
    have h0 := k2 x hx
    rw [hch, List.mem_append, List.mem_append, List.mem_map, List.mem_map, List.mem_map] at hx
    rcases hx with (⟨z, hz, rfl⟩ | ⟨z, hz, rfl⟩) | ⟨z, hz, rfl⟩
    · exact background_mir hk hy (h3 z (by simpa using hz)) h0
    · exact scenario_mir hk hy (h4 z hz) h0
    · exact rule_mir hk hy (h5 z hz) h0
  obtain ⟨s, e, hs⟩ := title_lines (k := .featureLine) (y := y) hk hy.1 (keywords := d.feature) (fun x hx => hx) h1 k1
  have a := tags_start (d := d) (y := y) h0 k0 _ _ (.feature hs (Mir.flat hc [] [] .done))
  simpa [classicLines, feature, e] using a

/-! ### Lines -/

open Print (Full Fulls line_full)

theorem join_newline {ns : List Str} (h : ∀ n ∈ ns, '\n' ∉ n) : '\n' ∉ joinStr [' '] ns := Print.join_no h

theorem tags_fulls {ts : List Tag} (h : Printable.Tags ts) : Fulls (tags ts) := by
  unfold tags
  split
  · exact .nil
  · refine .cons (line_full (Print.join_no ?_) 0) .nil
    intro n hn
    obtain ⟨t, ht, rfl⟩ := List.mem_map.1 hn
    obtain ⟨x, e, hx⟩ := h t ht
    rw [e]
    intro hm
    simp at hm
    exact absurd (hx _ hm).1 (by decide)

theorem head_full {d : Dialect} (hd : d.Known) {k : Kind} (n : Nat) {kw nm : Option Str} (h : Printable.Title (d.titles k) kw nm) : Full (head n kw nm) := by
  obtain ⟨⟨x, hx, rfl⟩, s, rfl, h2⟩ := h
  refine line_full ?_ 0
  intro hm
  simp [List.mem_replicate] at hm
  rcases hm with hm | hm
  · exact (hd.title_chars hx).1 hm
  · exact h2.1 hm

theorem arg_fulls (y : MdStyle) {a : StepArg} (h : Printable.Arg a) : Fulls (arg y a) := by
  have : arg y a = Print.arg (plainStyle y) a := by cases a <;> rfl
  rw [this]; exact Print.arg_fulls _ h

theorem step_fulls {d : Dialect} (hd : d.Known) {y : MdStyle} (hy : y.Ok) {s : Gherkin.Step} (h : Printable.Step d s) : Fulls (step y s) := by
  obtain ⟨⟨kw, x, e1, e2, h3, h4, _⟩, h6⟩ := h
  refine .cons (line_full ?_ _) (arg_fulls y h6)
  have hkw := List.mem_of_find?_eq_some h4
  have hb : y.bullet ≠ '\n' := by rcases hy.2.2.2.2.1 with e | e | e <;> rw [e] <;> decide
  rw [e1, e2]
  intro hm
  simp at hm
  rcases hm with hm | hm | hm
  · exact hb hm.symm
  · exact hd.step_chars hkw hm
  · exact h3.1 hm

theorem steps_fulls {d : Dialect} (hd : d.Known) {y : MdStyle} (hy : y.Ok) {ss : List Gherkin.Step} (h : ∀ s ∈ ss, Printable.Step d s) :
    Fulls (ss.flatMap (step y)) := .flat fun s hs => step_fulls hd hy (h s hs)

theorem rows_fulls (y : MdStyle) (rs : List Row) : Fulls (rs.map (row y)) := by
  intro l hl
  obtain ⟨r, _, rfl⟩ := List.mem_map.1 hl
  exact Print.row_full (plainStyle y) r

theorem background_fulls {d : Dialect} (hd : d.Known) {y : MdStyle} (hy : y.Ok) {b : Gherkin.Background} (h : Printable.Background d b) : Fulls (background y b) :=
  .cons (head_full (k := .backgroundLine) hd _ h.1) (steps_fulls hd hy h.2.2)

theorem examples_fulls {d : Dialect} (hd : d.Known) {y : MdStyle} {e : Gherkin.Examples} (h : Printable.Examples d e) : Fulls (examples y e) :=
  .append (tags_fulls h.1) (.cons (head_full (k := .examplesLine) hd _ h.2.1) (rows_fulls y _))

theorem scenario_fulls {d : Dialect} (hd : d.Known) {y : MdStyle} (hy : y.Ok) {s : Gherkin.Scenario} (h : Printable.Scenario d s) : Fulls (scenario y s) :=
  .append (tags_fulls h.1) (.cons (head_full (k := .scenarioLine) hd _ h.2.1) (.append (steps_fulls hd hy h.2.2.2.1) (.flat fun e he => examples_fulls hd (h.2.2.2.2 e he))))

theorem rule_fulls {d : Dialect} (hd : d.Known) {y : MdStyle} (hy : y.Ok) {r : RuleNode} (h : Printable.Rule d r) : Fulls (rule y r) := by
  obtain ⟨h1, h2, _, b, ss, hc, h4, h5⟩ := h
  refine .append (tags_fulls h1) (.cons (head_full (k := .ruleLine) hd _ h2) (.flat fun x hx => ?_))
  rw [hc, List.mem_append, List.mem_map, List.mem_map] at hx
  rcases hx with ⟨z, hz, rfl⟩ | ⟨z, hz, rfl⟩
  · exact background_fulls hd hy (h4 z (by simpa using hz))
  · exact scenario_fulls hd hy (h5 z hz)

theorem feature_fulls {y : MdStyle} (hy : y.Ok) {f : Gherkin.Feature} (h : Printable.Feature f) : Fulls (feature y f) := by
  obtain ⟨name, d, e1, e2, h0, h1, h2, bg, ss, rs, hch, h3, h4, h5⟩ := h
  have hk : d.Known := ⟨name, e2⟩
  refine .append (tags_fulls h0) (.cons (head_full (k := .featureLine) hk _ h1) (.flat fun x hx => ?_))
  rw [hch, List.mem_append, List.mem_append, List.mem_map, List.mem_map, List.mem_map] at hx
  rcases hx with (⟨z, hz, rfl⟩ | ⟨z, hz, rfl⟩) | ⟨z, hz, rfl⟩
  · exact background_fulls hk hy (h3 z (by simpa using hz))
  · exact scenario_fulls hk hy (h4 z hz)
  · exact rule_fulls hk hy (h5 z hz)

theorem classic_fulls (y : MdStyle) {f : Gherkin.Feature} (h : Printable.Feature f) : Fulls (classicLines y f) := by
  obtain ⟨name, d, e1, e2, h0, h1, h2, bg, ss, rs, hch, h3, h4, h5⟩ := h
  have hk : d.Known := ⟨name, e2⟩
  exact .append (.append (Print.tags_fulls _ h0) (Print.head_fulls hk (k := .featureLine) _ _ h1)) (Print.children_fulls hk _ hch h3 h4 h5)

end MdPrint

end Gherkin
