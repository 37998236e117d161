import Verif.Spec.Print
import Verif.Proofs.LayTree
import Verif.Proofs.BadConv
import Verif.Proofs.DocLine
import Verif.Props.Tags
import Verif.Props.Cells

/-! Printed lines: what they are and what tokens they give. -/

namespace Gherkin

/-- Keywords have no newline; title keywords no colon. -/
def keywordsOk (d : Dialect) : Bool :=
  (titleKinds.all fun k => (d.titles k).all fun kw => !kw.contains '\n' && !kw.contains ':') && d.stepKeywords.all fun kw => !kw.contains '\n'

def nameOk (s : Str) : Bool := !s.isEmpty && s.all fun c => ('a' ≤ c && c ≤ 'z') || ('A' ≤ c && c ≤ 'Z') || c == '-' || c == '_'

theorem keywords_ok : dialects.all (fun p => keywordsOk p.2 && nameOk p.1) = true := by decide +kernel

theorem Dialect.Known.keywords {d : Dialect} (h : d.Known) : keywordsOk d = true := by
  obtain ⟨n, hn⟩ := h
  have := List.all_eq_true.1 keywords_ok _ (lookup_mem hn)
  simp only [Bool.and_eq_true] at this
  exact this.1

theorem dialect_name {n : Str} {d : Dialect} (h : dialectFor n = some d) : n ≠ [] ∧ ∀ c ∈ n, langChar c := by
  have := List.all_eq_true.1 keywords_ok _ (lookup_mem h)
  simp only [Bool.and_eq_true, nameOk] at this
  refine ⟨by simpa using this.2.1, ?_⟩
  intro c hc
  have := List.all_eq_true.1 this.2.2 c hc
  simp only [Bool.or_eq_true, Bool.and_eq_true, decide_eq_true_eq, beq_iff_eq, or_assoc] at this
  exact this

theorem Dialect.Known.title_chars {d : Dialect} (h : d.Known) {k : Kind} {kw : Str} (hk : kw ∈ d.titles k) : '\n' ∉ kw ∧ ':' ∉ kw := by
  have := h.keywords
  simp only [keywordsOk, Bool.and_eq_true, List.all_eq_true] at this
  have := this.1 k (titles_kind hk) kw hk
  simpa using this

theorem Dialect.Known.step_chars {d : Dialect} (h : d.Known) {kw : Str} (hk : kw ∈ d.stepKeywords) : '\n' ∉ kw := by
  have := h.keywords
  simp only [keywordsOk, Bool.and_eq_true, List.all_eq_true] at this
  have := this.2 kw hk
  simpa using this

theorem colon_unique {a b x y : Str} (ha : ':' ∉ a) (hb : ':' ∉ b) (h : a ++ ':' :: x = b ++ ':' :: y) : a = b := by
  induction a generalizing b with
  | nil =>
    cases b with
    | nil => rfl
    | cons c b => simp at h; exact absurd h.1 (by simp at hb; exact hb.1)
  | cons c a ih =>
    cases b with
    | nil => simp at h; exact absurd h.1.symm (by simp at ha; exact ha.1)
    | cons d b =>
      simp only [List.cons_append, List.cons.injEq] at h
      rw [h.1, ih (fun h => ha (by simp [h])) (fun h => hb (by simp [h])) h.2]

namespace Print

theorem blanks_space (n : Nat) : AllP isSpace (List.replicate n ' ') := by
  intro c hc
  rw [(List.mem_replicate.1 hc).2]; rfl

theorem line_lstrip {n : Nat} {s : Str} {c : Char} {cs : Str} (hs : s = c :: cs) (h : isSpace c = false) : lstrip (line n s) = s ++ ['\n'] := by
  subst hs
  unfold line lstrip
  rw [List.append_assoc, lstripBy_append (blanks_space n)]
  intro x hx
  simp at hx; subst hx; exact h

theorem headOk_cons {kw : Str} (h : headOk kw = true) : ∃ c cs, kw = c :: cs ∧ isSpace c = false := by
  cases kw with
  | nil => simp [headOk] at h
  | cons c cs =>
    refine ⟨c, cs, rfl, ?_⟩
    simp [headOk, isMarker] at h
    exact h.1.1.1.1.1

theorem oneLine_ends {s : Str} (h : Printable.OneLine s) : NoHead isSpace s ∧ NoLast isSpace s := by
  obtain ⟨a, b, _, _, _, h1, h2⟩ := strip_spec s
  rw [h.2] at h1 h2
  exact ⟨h1, h2⟩

theorem strip_oneLine {s a b : Str} (h : Printable.OneLine s) (ha : AllP isSpace a) (hb : AllP isSpace b) : strip (a ++ s ++ b) = s :=
  strip_core ha hb (oneLine_ends h).1 (oneLine_ends h).2

theorem rstripEol_oneLine {s : Str} (h : Printable.OneLine s) : rstripEol s = s := by
  unfold rstripEol
  apply rstripBy_id
  intro c hc
  have := (oneLine_ends h).2 c hc
  cases he : isEol c with
  | false => rfl
  | true =>
    simp [isEol] at he
    rcases he with rfl | rfl <;> simp [isSpace] at this

/-! ### Titles -/

/-- A printed title line. -/
theorem title_kind {d : Dialect} (hd : d.Known) {k : Kind} {kw : Str} (hk : kw ∈ d.titles k) (n : Nat) (s : Str) :
    Layout.kind d (line n (kw ++ [':', ' '] ++ s)) = k := by
  obtain ⟨c, cs, hc, hs⟩ := headOk_cons (hd.title_head hk)
  have hl : lstrip (line n (kw ++ [':', ' '] ++ s)) = (kw ++ [':', ' '] ++ s) ++ ['\n'] := line_lstrip (by rw [hc]; rfl) hs
  have ht : isTitle (d.titles k) ⟨line n (kw ++ [':', ' '] ++ s), 0⟩ = true := by
    simp only [isTitle, List.any_eq_true]
    refine ⟨kw, hk, ?_⟩
    simp only [hl, List.isPrefixOf_iff_prefix]
    exact ⟨' ' :: (s ++ ['\n']), by simp⟩
  have hk' := titles_kind hk
  simp only [titleKinds, List.mem_cons, List.not_mem_nil, or_false] at hk'
  unfold Layout.kind
  rcases hk' with rfl | rfl | rfl | rfl | rfl <;> exact (lineKind_iff hd (by simp)).2 ht

theorem title_find {d : Dialect} (hd : d.Known) {k : Kind} {kw : Str} (hk : kw ∈ d.titles k) (n i : Nat) (s : Str) :
    (d.titles k).find? (fun x => Line.startsWithTitle ⟨line n (kw ++ [':', ' '] ++ s), i⟩ x) = some kw := by
  obtain ⟨c, cs, hc, hs⟩ := headOk_cons (hd.title_head hk)
  have hl : lstrip (line n (kw ++ [':', ' '] ++ s)) = (kw ++ [':', ' '] ++ s) ++ ['\n'] := line_lstrip (by rw [hc]; rfl) hs
  have key : ∀ x ∈ d.titles k, Line.startsWithTitle ⟨line n (kw ++ [':', ' '] ++ s), i⟩ x = true ↔ x = kw := by
    intro x hx
    simp only [Line.startsWithTitle, Line.trimmed, hl, startsWith, List.isPrefixOf_iff_prefix]
    constructor
    · rintro ⟨t, ht⟩
      refine colon_unique (x := t) (y := ' ' :: (s ++ ['\n'])) (hd.title_chars hx).2 (hd.title_chars hk).2 ?_
      simpa using ht
    · rintro rfl
      exact ⟨' ' :: (s ++ ['\n']), by simp⟩
  have : ∃ y, (d.titles k).find? (fun x => Line.startsWithTitle ⟨line n (kw ++ [':', ' '] ++ s), i⟩ x) = some y := by
    rw [← Option.isSome_iff_exists, List.find?_isSome]
    exact ⟨kw, hk, (key kw hk).2 rfl⟩
  obtain ⟨y, hy⟩ := this
  rw [hy, (key y (List.mem_of_find?_eq_some hy)).1 (by simpa using List.find?_some hy)]

theorem title_tok {m : CState} (hd : m.dialect.Known) {k : Kind} {kw : Str} (hk : kw ∈ m.dialect.titles k) {s : Str} (hs : Printable.OneLine s) (n i : Nat) :
    (tokOf m k (line n (kw ++ [':', ' '] ++ s)) i).keyword = some kw ∧ (tokOf m k (line n (kw ++ [':', ' '] ++ s)) i).text = some s ∧
    (tokOf m k (line n (kw ++ [':', ' '] ++ s)) i).dialect = some m.dialectName := by
  obtain ⟨c, cs, hc, hsp⟩ := headOk_cons (hd.title_head hk)
  have hl : lstrip (line n (kw ++ [':', ' '] ++ s)) = (kw ++ [':', ' '] ++ s) ++ ['\n'] := line_lstrip (by rw [hc]; rfl) hsp
  have hf := title_find hd hk n i s
  have hr : rstripEol (strip (List.drop (kw.length + 1) ((kw ++ [':', ' '] ++ s) ++ ['\n']))) = s := by
    rw [show (kw ++ [':', ' '] ++ s) ++ ['\n'] = (kw ++ [':']) ++ ([' '] ++ s ++ ['\n']) by simp, List.drop_append_of_le_length (by simp)]
    rw [List.drop_eq_nil_of_le (by simp), List.nil_append, strip_oneLine hs (by intro c hc; simp at hc; subst hc; rfl) (by intro c hc; simp at hc; subst hc; rfl)]
    exact rstripEol_oneLine hs
  have l1 : (Token.fresh ⟨line n (kw ++ [':', ' '] ++ s), i⟩).line = ⟨line n (kw ++ [':', ' '] ++ s), i⟩ := rfl
  have hk' := titles_kind hk
  simp only [titleKinds, List.mem_cons, List.not_mem_nil, or_false] at hk'
  have main : tokOf m k (line n (kw ++ [':', ' '] ++ s)) i =
      setMatched m.dialectName (Token.fresh ⟨line n (kw ++ [':', ' '] ++ s), i⟩) (some k)
        (some (Line.restTrimmed ⟨line n (kw ++ [':', ' '] ++ s), i⟩ (kw.length + 1))) (some kw) none none [] := by
    rcases hk' with rfl | rfl | rfl | rfl | rfl <;> simp only [Dialect.titles] at hf <;>
      simp only [tokOf, Classic.matchKind, Classic.matchTitle, l1, hf]
  rw [main]
  simp only [setMatched, Option.map_some, Line.restTrimmed, Line.trimmed, hl, hr, and_self]

/-! ### Steps -/

theorem prefix_newline {k x : Str} (h : '\n' ∉ k) : k.isPrefixOf (x ++ ['\n']) = k.isPrefixOf x := by
  rw [Bool.eq_iff_iff, List.isPrefixOf_iff_prefix, List.isPrefixOf_iff_prefix, List.prefix_concat_iff]
  constructor
  · rintro (rfl | h')
    · simp at h
    · exact h'
  · exact .inr

theorem step_find {d : Dialect} (hd : d.Known) {kw s : Str} (hk : d.stepKeywords.find? (fun k => k.isPrefixOf (kw ++ s)) = some kw) (n i : Nat) :
    lstrip (line n (kw ++ s)) = (kw ++ s) ++ ['\n'] ∧
    d.stepKeywords.find? (fun x => Line.startsWith ⟨line n (kw ++ s), i⟩ x) = some kw := by
  obtain ⟨c, cs, hc, hsp⟩ := headOk_cons (hd.step_head (List.mem_of_find?_eq_some hk))
  have hl : lstrip (line n (kw ++ s)) = (kw ++ s) ++ ['\n'] := line_lstrip (by rw [hc]; rfl) hsp
  refine ⟨hl, ?_⟩
  rw [← hk]
  have : ∀ l : List Str, (∀ x ∈ l, '\n' ∉ x) → l.find? (fun x => Line.startsWith ⟨line n (kw ++ s), i⟩ x) = l.find? (fun k => k.isPrefixOf (kw ++ s)) := by
    intro l hl'
    induction l with
    | nil => rfl
    | cons x l ih =>
      have : Line.startsWith ⟨line n (kw ++ s), i⟩ x = x.isPrefixOf (kw ++ s) := by
        simp only [Line.startsWith, Line.trimmed, hl, startsWith]
        exact prefix_newline (hl' x (by simp))
      simp only [List.find?_cons, this, ih fun y hy => hl' y (by simp [hy])]
  exact this _ fun x hx => hd.step_chars hx

theorem step_kind {d : Dialect} (hd : d.Known) {kw s : Str} (hk : d.stepKeywords.find? (fun k => k.isPrefixOf (kw ++ s)) = some kw) (n : Nat) :
    Layout.kind d (line n (kw ++ s)) = .stepLine := by
  have := (step_find hd hk n 0).2
  refine (lineKind_iff hd (by simp)).2 ?_
  simp only [fits, isStep_iff, List.any_eq_true]
  exact ⟨kw, List.mem_of_find?_eq_some this, by simpa using List.find?_some this⟩

theorem step_tok {m : CState} (hd : m.dialect.Known) {kw s : Str} (hk : m.dialect.stepKeywords.find? (fun k => k.isPrefixOf (kw ++ s)) = some kw)
    (hs : Printable.OneLine s) (n i : Nat) :
    (tokOf m .stepLine (line n (kw ++ s)) i).keyword = some kw ∧ (tokOf m .stepLine (line n (kw ++ s)) i).text = some s ∧
    (tokOf m .stepLine (line n (kw ++ s)) i).keywordType = some (Classic.stepType m.dialect kw) := by
  obtain ⟨hl, hf⟩ := step_find hd hk n i
  have hr : rstripEol (strip (List.drop kw.length ((kw ++ s) ++ ['\n']))) = s := by
    rw [List.append_assoc, List.drop_left, ← List.nil_append (s ++ _), ← List.append_assoc,
      strip_oneLine hs (by intro c hc; simp at hc) (by intro c hc; simp at hc; subst hc; rfl)]
    exact rstripEol_oneLine hs
  have l1 : (Token.fresh ⟨line n (kw ++ s), i⟩).line = ⟨line n (kw ++ s), i⟩ := rfl
  simp only [tokOf, Classic.matchKind, Classic.matchStep, l1, hf, setMatched, Option.map_some, Line.restTrimmed, Line.trimmed, hl, hr, and_self]

/-! ### Tags -/

/-- The tags as written, the last one with the line end. -/
def srcTags : List Str → List SrcTag
  | [] => []
  | [x] => [⟨[], x, ['\n']⟩]
  | x :: y :: r => ⟨[], x, [' ']⟩ :: srcTags (y :: r)

theorem srcTags_flat : ∀ {ns : List Str}, ns ≠ [] → (srcTags ns).flatMap SrcTag.src = joinStr [' '] (ns.map ('@' :: ·)) ++ ['\n']
  | [], h => absurd rfl h
  | [x], _ => by simp [srcTags, SrcTag.src, joinStr]
  | x :: y :: r, _ => by
    rw [srcTags, List.flatMap_cons, srcTags_flat (by simp)]
    simp [SrcTag.src, joinStr]

theorem srcTags_names : ∀ ns : List Str, (srcTags ns).map (·.name) = ns
  | [] => rfl
  | [x] => rfl
  | x :: y :: r => by simp [srcTags, srcTags_names (y :: r)]

theorem srcTags_ok : ∀ {ns : List Str}, (∀ n ∈ ns, TagName n) → ∀ t ∈ srcTags ns, t.gap = [] ∧ TagName t.name ∧ White t.ws
  | [], _, t, h => by simp [srcTags] at h
  | [x], hn, t, h => by
    simp only [srcTags, List.mem_singleton] at h
    subst h
    exact ⟨rfl, hn x (by simp), by intro c hc; simp at hc; subst hc; rfl⟩
  | x :: y :: r, hn, t, h => by
    simp only [srcTags, List.mem_cons] at h
    rcases h with rfl | h
    · exact ⟨rfl, hn x (by simp), by intro c hc; simp at hc; subst hc; rfl⟩
    · exact srcTags_ok (fun n hm => hn n (List.mem_cons_of_mem _ hm)) t (by simpa using h)

theorem tag_names {ts : List Tag} (h : Printable.Tags ts) : ∃ ns : List Str, (∀ n ∈ ns, TagName n) ∧ ts.map Tag.name = ns.map ('@' :: ·) := by
  induction ts with
  | nil => exact ⟨[], by simp, rfl⟩
  | cons t ts ih =>
    obtain ⟨ns, h1, h2⟩ := ih fun t ht => h t (by simp [ht])
    obtain ⟨n, h3, h4⟩ := h t (by simp)
    refine ⟨n :: ns, ?_, by simp [h2, h3]⟩
    intro x hx
    simp only [List.mem_cons] at hx
    rcases hx with rfl | hx
    · exact h4
    · exact h1 x hx

theorem map_mapIdx_text {α : Type} {g : Nat → α → MItem} {f : α → Str} (h : ∀ i a, (g i a).text = f a) (l : List α) :
    (l.mapIdx g).map (·.text) = l.map f := by
  apply List.ext_getElem
  · simp
  · intro i h1 h2; simp [h]

theorem tag_line {ts : List Tag} (h : Printable.Tags ts) (hne : ts ≠ []) (n i : Nat) :
    ∃ items, Line.tags ⟨line n (joinStr [' '] (ts.map Tag.name)), i⟩ = .ok items ∧ items.map (·.text) = ts.map Tag.name := by
  obtain ⟨ns, h1, h2⟩ := tag_names h
  have hn : ns ≠ [] := by rintro rfl; simp at h2; exact hne h2
  have hs : srcTags ns ≠ [] := by
    intro he
    have := srcTags_names ns
    rw [he] at this; exact hn this.symm
  have e := C13_tags_roundtrip (List.replicate n ' ') (srcTags ns) [] i (blanks_space n) hs (srcTags_ok h1) .nil
  rw [srcTags_flat hn, List.append_nil, ← h2, ← List.append_assoc] at e
  refine ⟨_, e, ?_⟩
  rw [map_mapIdx_text (f := fun t => '@' :: t.name) (by intros; rfl), h2]
  conv => rhs; rw [← srcTags_names ns]
  simp

theorem joinTags_head {ts : List Tag} (h : Printable.Tags ts) (hne : ts ≠ []) : ∃ cs, joinStr [' '] (ts.map Tag.name) = '@' :: cs := by
  cases ts with
  | nil => exact absurd rfl hne
  | cons t ts =>
    obtain ⟨n, h3, _⟩ := h t (by simp)
    cases ts with
    | nil => exact ⟨n, by simp [joinStr, h3]⟩
    | cons u ts => exact ⟨_, by simp [joinStr, h3]; rfl⟩

theorem tag_kind {d : Dialect} (hd : d.Known) {ts : List Tag} (h : Printable.Tags ts) (hne : ts ≠ []) (n : Nat) :
    Layout.kind d (line n (joinStr [' '] (ts.map Tag.name))) = .tagLine := by
  obtain ⟨cs, hc⟩ := joinTags_head h hne
  refine (lineKind_iff hd (by simp)).2 ?_
  simp only [fits, firstIs, line_lstrip hc (by rfl)]
  rw [hc]; rfl

theorem tag_tok {m : CState} {ts : List Tag} (h : Printable.Tags ts) (hne : ts ≠ []) (n i : Nat) :
    (tokOf m .tagLine (line n (joinStr [' '] (ts.map Tag.name))) i).items.map (·.text) = ts.map Tag.name := by
  obtain ⟨cs, hc⟩ := joinTags_head h hne
  obtain ⟨items, h1, h2⟩ := tag_line h hne n i
  have hs : Line.startsWith ⟨line n (joinStr [' '] (ts.map Tag.name)), i⟩ ['@'] = true := by
    simp only [Line.startsWith, Line.trimmed, line_lstrip hc (by rfl), startsWith]
    rw [hc]; rfl
  have l1 : (Token.fresh ⟨line n (joinStr [' '] (ts.map Tag.name)), i⟩).line = ⟨line n (joinStr [' '] (ts.map Tag.name)), i⟩ := rfl
  simp only [tokOf, Classic.matchKind, Classic.matchTagLine, l1, hs, if_true, h1, setMatched, h2]

/-! ### Rows -/

theorem row_line {r : Row} (h : ∀ c ∈ r.cells, CellValue c.value) (n i : Nat) :
    ∃ items, Line.tableCells ⟨line n (writeRow (r.cells.map fun c => ⟨[' '], c.value, [' ']⟩)), i⟩ = .ok items ∧
      items.map (·.text) = r.cells.map (·.value) := by
  obtain ⟨items, h1, h2⟩ := C14_row_roundtrip (List.replicate n ' ') ['\n'] (r.cells.map fun c => ⟨[' '], c.value, [' ']⟩) i (blanks_space n)
    (by intro c hc; simp at hc; subst hc; rfl)
    (by
      intro w hw
      obtain ⟨c, hc, rfl⟩ := List.mem_map.1 hw
      constructor <;> (intro x hx; simp at hx; subst hx; exact ⟨rfl, by decide⟩))
    (by
      intro w hw
      obtain ⟨c, hc, rfl⟩ := List.mem_map.1 hw
      exact ⟨h c hc, by simp⟩)
  exact ⟨items, h1, by rw [h2]; simp⟩

theorem row_lstrip (n : Nat) (ws : List WCell) : ∃ cs, writeRow ws = '|' :: cs ∧ lstrip (line n (writeRow ws)) = '|' :: (cs ++ ['\n']) := by
  refine ⟨_, rfl, ?_⟩
  rw [line_lstrip (s := writeRow ws) rfl (by rfl)]; rfl

theorem row_kind {d : Dialect} (hd : d.Known) (n : Nat) (ws : List WCell) : Layout.kind d (line n (writeRow ws)) = .tableRow := by
  obtain ⟨cs, h1, h2⟩ := row_lstrip n ws
  refine (lineKind_iff hd (by simp)).2 ?_
  simp only [fits, firstIs, h2]
  rfl

theorem row_tok {m : CState} {r : Row} (h : ∀ c ∈ r.cells, CellValue c.value) (y : Style) (i : Nat) :
    (tokOf m .tableRow (row y r) i).items.map (·.text) = r.cells.map (·.value) := by
  unfold row
  obtain ⟨cs, _, h3⟩ := row_lstrip y.arg (r.cells.map fun c => ⟨[' '], c.value, [' ']⟩)
  obtain ⟨items, h1, h2⟩ := row_line h y.arg i
  have hs : Line.startsWith ⟨line y.arg (writeRow (r.cells.map fun c => ⟨[' '], c.value, [' ']⟩)), i⟩ ['|'] = true := by
    simp only [Line.startsWith, Line.trimmed, h3, startsWith]
    rfl
  have l1 : (Token.fresh ⟨line y.arg (writeRow (r.cells.map fun c => ⟨[' '], c.value, [' ']⟩)), i⟩).line =
    ⟨line y.arg (writeRow (r.cells.map fun c => ⟨[' '], c.value, [' ']⟩)), i⟩ := rfl
  simp only [tokOf, Classic.matchKind, Classic.matchTableRow, l1, hs, if_true, h1, setMatched, h2]

/-! ### Descriptions -/

theorem lstrip_newline (s : Str) : lstrip (s ++ ['\n']) = if lstrip s = [] then [] else lstrip s ++ ['\n'] := by
  obtain ⟨w, h1, h2, h3⟩ := lstripBy_spec (p := isSpace) s
  have e : lstripBy isSpace s = lstrip s := rfl
  rw [e] at h2 h3
  split
  · rename_i h
    rw [h, List.append_nil] at h2
    rw [h2]
    exact lstripBy_all (by intro c hc; simp at hc; rcases hc with hc | rfl; exact h1 c hc; rfl)
  · rename_i h
    conv => lhs; rw [h2]
    rw [List.append_assoc]
    refine lstripBy_append h1 ?_
    intro c hc
    cases hs : lstrip s with
    | nil => exact absurd hs h
    | cons x xs => rw [hs] at hc h3; exact h3 c (by simpa using hc)

theorem prefix_lstrip {k s : Str} (h : '\n' ∉ k) : k.isPrefixOf (lstrip (s ++ ['\n'])) = k.isPrefixOf (lstrip s) := by
  rw [lstrip_newline]
  split
  · rename_i h'; rw [h']
  · exact prefix_newline h

theorem isTitle_newline {d : Dialect} (hd : d.Known) (k : Kind) (s : Str) : isTitle (d.titles k) ⟨s ++ ['\n'], 0⟩ = isTitle (d.titles k) ⟨s, 0⟩ := by
  rw [Bool.eq_iff_iff]
  simp only [isTitle, List.any_eq_true]
  have : ∀ x ∈ d.titles k, (x ++ [':']).isPrefixOf (lstrip (s ++ ['\n'])) = (x ++ [':']).isPrefixOf (lstrip s) := fun x hx =>
    prefix_lstrip (by simp; exact (hd.title_chars hx).1)
  constructor
  · rintro ⟨x, hx, h⟩; exact ⟨x, hx, by rw [← this x hx]; exact h⟩
  · rintro ⟨x, hx, h⟩; exact ⟨x, hx, by rw [this x hx]; exact h⟩

theorem isStep_newline {d : Dialect} (hd : d.Known) (s : Str) : isStep d ⟨s ++ ['\n'], 0⟩ = isStep d ⟨s, 0⟩ := by
  rw [Bool.eq_iff_iff]
  simp only [isStep, List.any_eq_true]
  have : ∀ x ∈ d.stepKeywords, x.isPrefixOf (lstrip (s ++ ['\n'])) = x.isPrefixOf (lstrip s) := fun x hx =>
    prefix_lstrip (hd.step_chars hx)
  constructor
  · rintro ⟨x, hx, h⟩; exact ⟨x, hx, by rw [← this x hx]; exact h⟩
  · rintro ⟨x, hx, h⟩; exact ⟨x, hx, by rw [this x hx]; exact h⟩

theorem firstIs_newline (c : Char) (s : Str) : firstIs c ⟨s ++ ['\n'], 0⟩ = firstIs c ⟨s, 0⟩ := by
  simp only [firstIs, lstrip_newline]
  split
  · rename_i h; rw [h]
  · rename_i h
    cases hs : lstrip s with
    | nil => exact absurd hs h
    | cons x xs => rfl

theorem ends_newline {d : Dialect} (hd : d.Known) (p : Part) (s : Str) : ends d p ⟨s ++ ['\n'], 0⟩ = ends d p ⟨s, 0⟩ := by
  have h1 := isTitle_newline hd .scenarioLine s
  have h2 := isTitle_newline hd .ruleLine s
  have h3 := isTitle_newline hd .backgroundLine s
  have h4 := isTitle_newline hd .examplesLine s
  simp only [Dialect.titles] at h1 h2 h3 h4
  cases p <;> simp only [ends, firstIs_newline, h1, h2, h3, h4, isStep_newline hd]

end Print

end Gherkin
