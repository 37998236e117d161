import Verif.Proofs.RxTitle
import Verif.Proofs.RxEscape
import Verif.Proofs.Language
import Verif.Proofs.Quote
import Verif.Proofs.Listing
import Verif.Proofs.MdErrForms

/-! C64: the regular expressions of the code, run by the model of Python's `re` (Verif/Regex.lean) on any text. -/

namespace Gherkin

open Regex Markdown

/-- C64, packages/gurke/src/gurke/token_matcher.py:17: the expression for language headers matches exactly the lines `# language: name`, and its
group is the name. -/
theorem C64_language (s name : Str) :
    ((read py"^\\s*#\\s*language\\s*:\\s*([a-zA-Z\\-_]+)\\s*$").bind fun r => (r.match? s).bind (·.group 1)) = some name ↔ IsHeader name s := by
  have h := language_regex s
  unfold languageRe at h
  rw [h]
  exact languageName_iff

/-- C64, packages/gurke/src/gurke/gherkin_line.py:42, 47: the two substitutions remove white space, newlines excepted, from both ends of a cell
(at the right also before a final newline) and nothing else. -/
theorem C64_cell (raw : Str) : ∃ v,
    ((read py"^[^\\S\\n]*").bind fun r => (read py"[^\\S\\n]*$").map fun r' => r'.sub (fun _ => []) (r.sub (fun _ => []) raw)) = some v ∧
    (∀ c, v.head? = some c → isSpace c = false ∨ c = '\n') ∧ (∀ c, v.getLast? = some c → isSpace c = false ∨ c = '\n') ∧
    ∃ left right, Pad left ∧ Pad right ∧
      (raw = left ++ v ++ right ∨ ∃ w, v = w ++ ['\n'] ∧ raw = left ++ w ++ right ++ ['\n']) := by
  have h1 := cellLstrip_regex raw
  have h2 := cellRstrip_regex (cellLstrip raw)
  refine ⟨cellRstrip (cellLstrip raw), ?_, ?_, cellRstrip_last _, ?_⟩
  · revert h1 h2
    cases read py"^[^\\S\\n]*" with
    | none => rintro ⟨⟩
    | some r =>
      cases read py"[^\\S\\n]*$" with
      | none => rintro _ ⟨⟩
      | some r' =>
        intro h1 h2
        simp only [Option.map_some, Option.some.injEq] at h1 h2
        simp only [Option.bind_some, Option.map_some, h1, h2]
  · obtain ⟨w, hw, hs, hn⟩ := lstripBy_spec (p := isCellSpace) raw
    change NoHead isCellSpace (cellLstrip raw) at hn
    have hd : ∀ c, (cellLstrip raw).head? = some c → isSpace c = false ∨ c = '\n' := by
      intro c hc
      have := hn c hc
      simp only [isCellSpace, Bool.and_eq_false_iff, bne_eq_false_iff_eq] at this
      exact this
    intro c hc
    obtain ⟨pad, hp, h | ⟨w', h3, h4⟩⟩ := cellRstrip_spec (cellLstrip raw)
    · refine hd c ?_
      rw [h]
      cases hv : cellRstrip (cellLstrip raw) with
      | nil => rw [hv] at hc; simp at hc
      | cons a as => rw [hv] at hc; simpa using hc
    · rw [h3] at hc
      cases w' with
      | nil => simp at hc; exact .inr hc.symm
      | cons a as => refine hd c ?_; rw [h4]; simpa using hc
  · obtain ⟨w, hw, hs, hn⟩ := lstripBy_spec (p := isCellSpace) raw
    change raw = w ++ cellLstrip raw at hs
    have hp : Pad w := by intro c hc; have := hw c hc; simpa [isCellSpace] using this
    obtain ⟨pad, hp', h | ⟨w', h3, h4⟩⟩ := cellRstrip_spec (cellLstrip raw)
    · refine ⟨w, pad, hp, hp', .inl ?_⟩
      rw [List.append_assoc, ← h, ← hs]
    · refine ⟨w, pad, hp, hp', .inr ⟨w', h3, ?_⟩⟩
      rw [List.append_assoc, List.append_assoc, ← List.append_assoc w', ← h4, ← hs]

/-- White space followed by `#`. -/
def HasComment (s : Str) : Prop := ∃ a c b, isSpace c = true ∧ s = a ++ c :: '#' :: b

theorem uncomment_exact : ∀ s : Str, (¬ HasComment s ∧ uncomment s = s) ∨
    ∃ c rest, isSpace c = true ∧ s = uncomment s ++ c :: '#' :: rest ∧ ¬ HasComment (uncomment s ++ [c])
  | [] => .inl ⟨by
      rintro ⟨a, c, b, _, h⟩
      have := congrArg List.length h
      simp at this, rfl⟩
  | [x] => .inl ⟨by
      rintro ⟨a, c, b, _, h⟩
      have := congrArg List.length h
      simp at this
      omega, rfl⟩
  | x :: d :: rest => by
    by_cases hx : (isSpace x && d == '#') = true
    · simp only [Bool.and_eq_true, beq_iff_eq] at hx
      obtain ⟨hx, rfl⟩ := hx
      refine .inr ⟨x, rest, hx, ?_, ?_⟩
      · simp [uncomment, hx]
      · rintro ⟨a, c, b, _, h⟩
        have := congrArg List.length h
        simp [uncomment, hx] at this
        omega
    · have hu : uncomment (x :: d :: rest) = x :: uncomment (d :: rest) := by rw [uncomment, if_neg hx]
      have hcons : ∀ (t : Str), ¬ HasComment t → (∀ t', t = '#' :: t' → isSpace x = false) → ¬ HasComment (x :: t) := by
        rintro t ht hb ⟨a, c, b, hc, h⟩
        cases a with
        | nil =>
          simp only [List.nil_append, List.cons.injEq] at h
          rw [← h.1, hb _ h.2] at hc; cases hc
        | cons y ys =>
          simp only [List.cons_append, List.cons.injEq] at h
          exact ht ⟨ys, c, b, hc, h.2⟩
      have hsharp : d = '#' → isSpace x = false := by
        intro hd
        simpa [hd] using hx
      rcases uncomment_exact (d :: rest) with ⟨h1, h2⟩ | ⟨c, r, hc, h1, h2⟩
      · left
        refine ⟨hcons _ h1 (fun t' ht' => hsharp (List.cons.inj ht').1), by rw [hu, h2]⟩
      · right
        refine ⟨c, r, hc, by rw [hu, List.cons_append, ← h1], ?_⟩
        rw [hu, List.cons_append]
        refine hcons _ h2 fun t' ht' => ?_
        cases hv : uncomment (d :: rest) with
        | nil =>
          rw [hv] at ht'
          simp at ht'
          have := ht'.1; rw [this] at hc; exact absurd hc (by decide)
        | cons y ys =>
          rw [hv] at ht' h1
          simp only [List.cons_append, List.cons.injEq] at ht' h1
          exact hsharp (h1.1.trans ht'.1)

/-- C64, packages/gurke/src/gurke/gherkin_line.py:92: a tag line is read up to the first white space that is followed by `#`. -/
theorem C64_tag_comment (s : Str) : ∃ v, ((read py"\\s#").map fun r => r.splitFirst s) = some v ∧
    ((¬ HasComment s ∧ v = s) ∨ ∃ c rest, isSpace c = true ∧ s = v ++ c :: '#' :: rest ∧ ¬ HasComment (v ++ [c])) :=
  ⟨uncomment s, uncomment_regex s, uncomment_exact s⟩

/-- C64, packages/gurke/src/gurke/gherkin_line.py:97: the test for white space in a tag (the `+` in the expression is in the class). -/
theorem C64_tag_space (s : Str) : ∃ b, ((read py"[^\\S+]").map fun r => (r.search s).isSome) = some b ∧ (b = true ↔ ∃ c ∈ s, isSpace c = true) :=
  ⟨_, tagSpace_regex s, by simp⟩

/-- C64, packages/gurke/src/gurke/token_matcher_markdown.py:67: a Markdown line is tested for a row: at most five white-space characters, then `|`. -/
theorem C64_md_row (s : Str) : ∃ b, ((read py"^\\s?\\s?\\s?\\s?\\s?\\|").map fun r => (r.match? s).isSome) = some b ∧
    (b = true ↔ ∃ pre rest, White pre ∧ pre.length ≤ 5 ∧ s = pre ++ '|' :: rest) := by
  refine ⟨_, tableRow_regex ⟨s, 0⟩, ?_⟩
  obtain ⟨w, hw, hs, hn⟩ := lstripBy_spec (p := isSpace) s
  have hb : isSpace '|' = false := by decide
  have hlen : s.length - (lstripBy isSpace s).length = w.length := by
    have := congrArg List.length hs
    simp at this; omega
  simp only [Bool.and_eq_true, decide_eq_true_eq, Line.indent, Line.trimmed, Line.startsWith, startsWith, lstrip, hlen]
  constructor
  · rintro ⟨h1, h2⟩
    obtain ⟨t, ht⟩ := List.isPrefixOf_iff_prefix.1 h2
    exact ⟨w, t, hw, h1, by rw [hs, ← ht]; rfl⟩
  · rintro ⟨pre, rest, h1, h2, h3⟩
    have hl : lstripBy isSpace s = '|' :: rest := by
      rw [h3]; exact lstripBy_append h1 (by intro c hc; simp at hc; rw [← hc]; exact hb)
    have : pre.length = w.length := by
      have := congrArg List.length hs
      rw [hl, h3] at this
      simp at this; omega
    rw [hl]
    exact ⟨by omega, by simp [List.isPrefixOf]⟩

/-- C64, packages/gurke/src/gurke/token_matcher_markdown.py:79: a cell of dashes. -/
theorem C64_md_dashes (s : Str) : ∃ b, ((read py"^:?-+:?$").map fun r => (r.match? s).isSome) = some b ∧
    (b = true ↔ Dashes s ∨ ∃ r, Dashes r ∧ s = r ++ ['\n']) := by
  refine ⟨_, sepText_regex s, sepText_dashes, ?_⟩
  rintro (h | ⟨r, h, rfl⟩)
  · exact dashes_sep h
  · obtain ⟨a, n, b, ha, hb, rfl⟩ := h
    rw [sepText_eq]
    rcases ha with rfl | rfl <;> rcases hb with rfl | rfl <;> simp [dropColon, List.replicate_succ, List.dropWhile_append] 

theorem known_keywords : dialects.all (fun p => !p.2.feature.isEmpty && !p.2.rule.isEmpty && !p.2.background.isEmpty && !p.2.scenario.isEmpty &&
    !p.2.scenarioOutline.isEmpty && !p.2.examples.isEmpty && !p.2.given.isEmpty) = true := by decide +kernel

/-- The lists of title keywords that the Markdown matcher searches for. -/
def Dialect.titleLists (d : Dialect) : List (List Str) := [d.feature, d.rule, d.background, d.scenario, d.scenarioOutline, d.examples]

theorem Dialect.Known.lists {d : Dialect} (h : d.Known) : (∀ kws ∈ d.titleLists, kws ≠ []) ∧ d.stepKeywords ≠ [] := by
  obtain ⟨n, hn⟩ := h
  have := List.all_eq_true.1 known_keywords _ (lookup_mem hn)
  simp only [Bool.and_eq_true, Bool.not_eq_true', List.isEmpty_eq_false_iff] at this
  obtain ⟨⟨⟨⟨⟨⟨h1, h2⟩, h3⟩, h4⟩, h5⟩, h6⟩, h7⟩ := this
  refine ⟨?_, ?_⟩
  · intro kws hk
    simp only [titleLists, List.mem_cons, List.not_mem_nil, or_false] at hk
    rcases hk with rfl | rfl | rfl | rfl | rfl | rfl <;> assumption
  · intro h
    simp [stepKeywords] at h
    exact h7 h.1

theorem search_some {α : Type} {o : Option Rx} {f : Found → α} {s : Str} {β : Type} {x : Option β} {g : β → α}
    (h : (o.bind fun r => (r.search s).map f) = x.map g) : (o.bind fun r => r.search s).isSome = x.isSome := by
  have := congrArg Option.isSome h
  simp only [Option.isSome_map] at this
  rw [← this]
  cases o with
  | none => rfl
  | some r => simp

/-- C64, packages/gurke/src/gurke/token_matcher_markdown.py:11, 189-211: in every dialect, for every list of title keywords, the expression put together
of `^(#{1,6}\s)`, the escaped keywords, `:` and `(.*)` finds a match in a line (from its first character that is no white space) iff the line is a heading
with one of the keywords. -/
theorem C64_md_heading (d : Dialect) (hd : d.Known) (kws : List Str) (hk : kws ∈ d.titleLists) (s : Str) :
    ((read (py"^(#{1,6}\\s)(" ++ joinStr ['|'] (kws.map reEscape) ++ py"):(.*)")).bind fun r => r.search (lstrip s)).isSome = true ↔ HeadingLine kws s := by
  have h := search_some (headerTitle_regex kws (hd.lists.1 kws hk) [':'] (by decide) (lstrip s))
  have hp : py"^(#{1,6}\\s)(" ++ joinStr ['|'] (kws.map reEscape) ++ py"):(.*)" = titlePattern py"^(#{1,6}\\s)" kws [':'] := by
    simp [titlePattern]
  rw [hp, h]
  exact ⟨heading_sound (l := ⟨s, 0⟩), heading_found (l := ⟨s, 0⟩)⟩

/-- C64, packages/gurke/src/gurke/token_matcher_markdown.py:10, 189-211: the same for steps: a bullet, white space, one of the step keywords. -/
theorem C64_md_step (d : Dialect) (hd : d.Known) (s : Str) :
    ((read (py"^(\\s*[*+-]\\s*)(" ++ joinStr ['|'] (d.stepKeywords.map reEscape) ++ py")(.*)")).bind fun r => r.search (lstrip s)).isSome = true ↔
      ItemLine (d.given ++ d.when_ ++ d.then_ ++ d.and_ ++ d.but_) s := by
  obtain ⟨w, hw, hs, hn⟩ := lstripBy_spec (p := isSpace) s
  have h := search_some (bulletTitle_regex d.stepKeywords hd.lists.2 [] (by decide) (lstrip s) hn)
  have hp : py"^(\\s*[*+-]\\s*)(" ++ joinStr ['|'] (d.stepKeywords.map reEscape) ++ py")(.*)" =
      titlePattern py"^(\\s*[*+-]\\s*)" d.stepKeywords [] := by
    simp [titlePattern]
  rw [hp, h]
  exact ⟨item_sound (l := ⟨s, 0⟩), item_found (l := ⟨s, 0⟩)⟩

/-- C64, packages/gurke/src/gurke/token_matcher_markdown.py:136: a line has a match iff some text without back quotes, `@` before it, stands between back
quotes. -/
theorem C64_md_tags (s : Str) : ∃ ms, ((read py"`(@[^`]+)`").map fun r => (r.all s).map fun m => m.last.group 1) = some ms ∧
    (ms ≠ [] ↔ ∃ pre n rest, n ≠ [] ∧ '`' ∉ n ∧ s = pre ++ py"`@" ++ n ++ '`' :: rest) := by
  have h := findTags_regex s
  refine ⟨(Md.findTags s 0 0).map fun x => some x.2, ?_, ?_⟩
  · revert h
    cases read py"`(@[^`]+)`" with
    | none => rintro ⟨⟩
    | some r =>
      intro h
      simp only [Option.map_some, Option.some.injEq] at h ⊢
      have := congrArg (List.map Prod.snd) h
      simpa [List.map_map, Function.comp_def] using this
  · rw [ne_eq, List.map_eq_nil_iff]
    constructor
    · intro hne
      obtain ⟨⟨p, name⟩, hm⟩ := List.exists_mem_of_ne_nil _ hne
      obtain ⟨pre, n, rest, rfl, hn, hq, hs, _⟩ := findTags_spec s 0 0 p name hm
      exact ⟨pre, n, rest, hn, hq, by rw [hs]; simp⟩
    · rintro ⟨pre, n, rest, hn, hq, rfl⟩
      have := findTags_some n hn hq rest pre 0
      simpa using this

/-- C64, src/GherkinParser/gherkin_builder.py:36-37, 50: in every run of white space a backslash is put between the characters; the rest stays. -/
theorem C64_escape_whitespace (s : Str) : ((read py"\\s+").map fun r => r.sub (fun m => joinStr ['\\'] (m.text.map ([·]))) s) =
    some (Escape.escapeWhitespace false s) := escapeWhitespace_regex s

/-! ### The hypotheses can be met -/

example : ((read py"^\\s*#\\s*language\\s*:\\s*([a-zA-Z\\-_]+)\\s*$").bind fun r => (r.match? py"  #language : sr-Latn \r\n").bind (·.group 1)) =
    some py"sr-Latn" := by decide +kernel
example : IsHeader py"sr-Latn" py"  #language : sr-Latn \r\n" := (C64_language _ _).1 (by decide +kernel)
example : ∃ name, dialectFor name = some Sample.en.dialect := ⟨py"en", by decide +kernel⟩
example : ((read (py"^(#{1,6}\\s)(" ++ joinStr ['|'] (Sample.en.dialect.scenario.map reEscape) ++ py"):(.*)")).bind fun r =>
    r.search (lstrip py"  ### Example: a (b)\n")).isSome = true := by decide +kernel
example : HeadingLine Sample.en.dialect.scenario py"  ### Example: a (b)\n" :=
  (C64_md_heading Sample.en.dialect ⟨py"en", by decide +kernel⟩ _ (by simp [Dialect.titleLists]) _).1 (by decide +kernel)
example : ItemLine (Sample.en.dialect.given ++ Sample.en.dialect.when_ ++ Sample.en.dialect.then_ ++ Sample.en.dialect.and_ ++ Sample.en.dialect.but_)
    py" *   * all" := (C64_md_step Sample.en.dialect ⟨py"en", by decide +kernel⟩ _).1 (by decide +kernel)
example : ((read py"`(@[^`]+)`").map fun r => (r.all py"x `@a b` `c` `@d``@e`").map fun m => m.last.group 1) =
    some [some py"@a b", some py"@d", some py"@e"] := by decide +kernel
example : ((read py"\\s#").map fun r => r.splitFirst py"@a#b\t#c #d") = some py"@a#b" := by decide +kernel
example : ((read py"^[^\\S\\n]*").bind fun r => (read py"[^\\S\\n]*$").map fun r' => r'.sub (fun _ => []) (r.sub (fun _ => []) py"  a b  \n")) =
    some py"a b\n" := by decide +kernel
example : ((read py"\\s+").map fun r => r.sub (fun m => joinStr ['\\'] (m.text.map ([·]))) py"a   b c") = some py"a \\ \\ b c" := by decide +kernel


/-! Forms that an examples header can contain: a class that begins with `]`, an escape, a doubled quantifier, an open class. -/

example : ((read py"[]a]").map fun r => (r.all py"x]ab").map fun m => m.text) = some [py"]", py"a"] := by decide +kernel
example : ((read py"[^]a]+").map fun r => (r.all py"x]aby").map fun m => m.text) = some [py"x", py"by"] := by decide +kernel
example : ((read py"a\\nb").map fun r => (r.all py"a\nb").map fun m => m.text) = some [py"a\nb"] := by decide +kernel
example : read py"a**" = none ∧ read py"[]" = none ∧ read py"*a" = none ∧ read py"(a" = none := by decide +kernel
example : ((read py"[\\s]").map fun r => (r.all py"a b").map fun m => m.text) = some [py" "] := by decide +kernel
example : ((read py"[\\s\\-x]").map fun r => (r.all py"a-b x").map fun m => m.text) = some [py"-", py" ", py"x"] := by decide +kernel
example : ∀ c ∈ py"azAZ09", read ['\\', c] = none := by decide +kernel

/-- What Python's `re.escape` makes of the printable ASCII characters and of white space. -/
example : reEscape ((List.range' 32 95).map Char.ofNat) =
    py"\\ !\"\\#\\$%\\&'\\(\\)\\*\\+,\\-\\./0123456789:;<=>\\?@ABCDEFGHIJKLMNOPQRSTUVWXYZ\\[\\\\\\]\\^_`abcdefghijklmnopqrstuvwxyz\\{\\|\\}\\~" := by decide +kernel
example : reEscape py"\t\n\x0b\x0c\r" = py"\\\t\\\n\\\x0b\\\x0c\\\r" := by decide +kernel

end Gherkin
