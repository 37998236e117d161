import Verif.Proofs.Files

/-! C36–C38, C50: glob patterns, file searches, resource imports. -/

namespace Gherkin

open Glob Files

/-! ### C36 -/

/-- C36: every pattern made of plain characters, `?`, `*`, classes `[…]` of characters and ranges, `**` as a whole component and groups
`{a,b,…}` of such texts is turned into a regular expression that Python reads, and it
matches a path iff the path fits the pattern as specified in Spec/Glob.lean. -/
theorem C36_glob (g : List Glob.Item) (h : Ok true g) (path : Str) :
    ∃ b, Glob.matches (write g) path = some b ∧ (b = true ↔ Glob.Fits g path) := matches_write h path

/-- C36: a pattern without special characters matches exactly itself. -/
theorem C36_plain (pattern path : Str) (h : ∀ c ∈ pattern, c ∉ py"?*[]{}") :
    ∃ b, Glob.matches pattern path = some b ∧ (b = true ↔ path = pattern) := by
  obtain ⟨b, hb, h'⟩ := matches_write (chars_item_ok true (s := pattern) fun c hc => decide_eq_true (h c hc)) path
  rw [chars_item_write] at hb
  exact ⟨b, hb, h'.trans fits_chars⟩

/-- C36: `*` between plain texts stands for any text without `/`. -/
theorem C36_star (a z path : Str) (ha : ∀ c ∈ a, c ∉ py"?*[]{}") (hz : ∀ c ∈ z, c ∉ py"?*[]{}") :
    ∃ b, Glob.matches (a ++ '*' :: z) path = some b ∧ (b = true ↔ ∃ v, '/' ∉ v ∧ path = a ++ v ++ z) := by
  have hok : ∀ t, Ok t (a.map (fun c => .one (.char c)) ++ .one .many :: z.map (fun c => .one (.char c))) := by
    clear path
    induction a with
    | nil =>
      intro t
      refine ⟨?_, ?_, chars_item_ok _ fun c hc => decide_eq_true (hz c hc)⟩ <;> cases z <;> simp
    | cons c a ih => intro t; exact ⟨decide_eq_true (ha c (by simp)), ih (fun d hd => ha d (by simp [hd])) _⟩
  obtain ⟨b, hb, h'⟩ := matches_write (hok true) path
  have hw : write (a.map (fun c => .one (.char c)) ++ .one .many :: z.map (fun c => .one (.char c))) = a ++ '*' :: z := by
    clear hb h' hok
    induction a with
    | nil => simp [write, Simple.write, chars_item_write]
    | cons c a ih => simp [write, Simple.write, ih fun d hd => ha d (by simp [hd])]
  rw [hw] at hb
  refine ⟨b, hb, h'.trans ?_⟩
  clear hb h' hw hok ha b
  induction a generalizing path with
  | nil =>
    constructor
    · intro h
      cases h with
      | one h h' =>
        cases h with
        | many v hv h =>
          cases h
          exact ⟨v, hv, by rw [fits_chars.1 h']; simp⟩
    · rintro ⟨v, hv, rfl⟩
      refine .one ?_ (fits_chars.2 rfl)
      have := SimpleFits.many v hv .nil
      simpa using this
  | cons c a ih =>
    constructor
    · intro h
      cases h with
      | one h h' =>
        cases h with
        | char _ h =>
          cases h
          obtain ⟨v, hv, h⟩ := (ih _).1 h'
          exact ⟨v, hv, by rw [h]; rfl⟩
    · rintro ⟨v, hv, rfl⟩
      exact .one (v := [c]) (.char c .nil) ((ih _).2 ⟨v, hv, rfl⟩)

/-- C36: `**/*.ext` matches exactly the paths, however deep, that end in `.ext`. -/
theorem C36_extension (ext path : Str) (h : ∀ c ∈ ext, c ∉ py"?*[]{}") :
    ∃ b, Glob.matches (py"**/*." ++ ext) path = some b ∧ (b = true ↔ ('.' :: ext) <:+ path) := by
  obtain ⟨b, hb, h'⟩ := matches_write (end_ok (s := '.' :: ext) (by
    intro c hc
    rcases List.mem_cons.1 hc with rfl | hc
    · rfl
    · exact decide_eq_true (h c hc))) path
  rw [end_write] at hb
  exact ⟨b, hb, h'.trans fits_end⟩

/-- C36: `**/*.{a,b,…}` matches exactly the paths that end in one of `.a`, `.b`, …. -/
theorem C36_extensions (exts : List Str) (hne : exts ≠ []) (path : Str) (h : ∀ e ∈ exts, ∀ c ∈ e, c ∉ py"?*[]{},") :
    ∃ b, Glob.matches (py"**/*.{" ++ joinStr [','] exts ++ py"}") path = some b ∧ (b = true ↔ ∃ e ∈ exts, ('.' :: e) <:+ path) := by
  obtain ⟨b, hb, h'⟩ := matches_write (ext_ok hne (fun e he c hc => by
    have := h e he c hc
    simp only [List.mem_cons, List.not_mem_nil, or_false, not_or] at this
    refine ⟨?_, this.2.2.2.2.2.2⟩
    simp [plain, this])) path
  rw [ext_write] at hb
  exact ⟨b, hb, h'.trans fits_ext⟩

/-! Concrete cases: the text of the regular expression and matches. -/
example : patternToRe py"**/*.{feature,feature.md}" = py"(?ms)^((?:[^/]*(?:/|$))*)([^/]*)\\.(feature|feature\\.md)$" := by decide
example : Ok true [.dirs, .one (.char 'a'), .one .many, .oneOf [[.char 'b', .any], []], .one (.char '/'), .dirs] :=
  ⟨rfl, rfl, by decide, by decide, by decide, by simp [SimpleOk, plain], rfl, rfl, trivial⟩
example : write [.dirs, .one (.char 'a'), .one .many, .oneOf [[.char 'b', .any], []], .one (.char '/'), .dirs] = py"**/a*{b?,}/**" := by decide
example : Glob.matches py"**/a*{b?,}/**" py"x/y/aqqbz/w/v" = some true ∧ Glob.matches py"**/a*{b?,}/**" py"x/yaqqbz/w/v" = some false := by
  decide
example : Ok true [.one (.char 'x'), .one (.cls [.range 'a' 'c', .char '_']), .oneOf [[.cls [.char '1', .char '2']], [.many]]] := by
  simp [Ok, SimpleOk, ClassOk, ClassItem.Ok, plain]
example : write [.one (.char 'x'), .one (.cls [.range 'a' 'c', .char '_']), .oneOf [[.cls [.char '1', .char '2']], [.many]]] =
    py"x[a-c_]{[12],*}" := by decide
example : Glob.matches py"x[a-c_]{[12],*}" py"xb2" = some true ∧ Glob.matches py"x[a-c_]{[12],*}" py"xd2" = some false := by
  decide +kernel

/-- C36: a class cannot be negated: `!` (or `^`) after the bracket is escaped, so it is one more member of the class. -/
theorem C36_no_negation (items : List ClassItem) (h : ClassOk items) (sign : Char) (hs : sign = '!' ∨ sign = '^') (path : Str) :
    ∃ b, Glob.matches ('[' :: sign :: (items.flatMap ClassItem.write ++ [']'])) path = some b ∧
      (b = true ↔ path = [sign] ∨ ∃ c, (∃ i ∈ items, i.Has c) ∧ path = [c]) := by
  have hok : Ok true [.one (.cls (.char sign :: items))] := by
    refine ⟨⟨by simp, ?_⟩, trivial⟩
    intro i hi
    rcases List.mem_cons.1 hi with rfl | hi
    · rcases hs with rfl | rfl <;> exact ⟨rfl, by decide, by decide⟩
    · exact h.2 i hi
  obtain ⟨b, hb, hf⟩ := matches_write hok path
  refine ⟨b, by simpa [write, Simple.write, ClassItem.write] using hb, hf.trans ⟨?_, ?_⟩⟩
  · intro hp
    cases hp with
    | one h1 h2 =>
      cases h2
      cases h1 with
      | cls c hc h3 =>
        cases h3
        obtain ⟨i, hi, hc⟩ := hc
        rcases List.mem_cons.1 hi with rfl | hi
        · left; simpa [ClassItem.Has] using hc
        · exact .inr ⟨c, ⟨i, hi, hc⟩, rfl⟩
  · rintro (rfl | ⟨c, ⟨i, hi, hc⟩, rfl⟩)
    · exact .one (v := [sign]) (.cls sign ⟨.char sign, by simp, rfl⟩ .nil) .nil
    · exact .one (v := [c]) (.cls c ⟨i, by simp [hi], hc⟩ .nil) .nil

example : ClassOk [.range 'a' 'c', .char '_'] := by simp [ClassOk, ClassItem.Ok, plain]
example : Glob.matches py"[!a]x" py"bx" = some false ∧ Glob.matches py"[!a]x" py"ax" = some true := by decide +kernel

/-! ### C37 -/

/-- C37: `iter_files` yields exactly the files below the directory that match one of the patterns (all if none are given) and are not
ignored, themselves or through a directory on the way; each of them once. -/
theorem C37_iter_files (pats ign : Option (List (Str → Bool))) (es : List DirEntry) :
    (∀ p, p ∈ iterFiles pats ign es ↔
      FileAt es p ∧ (∀ l, pats = some l → ∃ m ∈ l, m (joinStr ['/'] p) = true) ∧
        ∀ l, ign = some l → ∀ q, q ≠ [] → q <+: p → ∀ m ∈ l, m (joinStr ['/'] q) = false) ∧
    (Tidy es → (iterFiles pats ign es).Nodup) := by
  refine ⟨fun p => ?_, walkAll_nodup pats ign [] es⟩
  rw [iterFiles, mem_walkAll]
  have h1 : wanted pats p = true ↔ ∀ l, pats = some l → ∃ m ∈ l, m (joinStr ['/'] p) = true := by
    cases pats with
    | none => simp [wanted]
    | some l => simp [wanted, relPath]
  have h2 : Clear ign [] p ↔ ∀ l, ign = some l → ∀ q, q ≠ [] → q <+: p → ∀ m ∈ l, m (joinStr ['/'] q) = false := by
    cases ign with
    | none => simp [Clear, ignored]
    | some l =>
      constructor
      · rintro h _ ⟨⟩ q hq hp m hm
        have := h q.length (List.length_pos_iff.2 hq) hp.length_le
        rw [← List.prefix_iff_eq_take.1 hp] at this
        simp only [ignored, List.nil_append, relPath, List.any_eq_false] at this
        simpa using this m hm
      · intro h k hk hk'
        have := h l rfl (p.take k) (by intro h; rw [List.take_eq_nil_iff] at h; rcases h with h | h; omega; simp [h] at hk'; omega) (List.take_prefix _ _)
        simp only [ignored, List.nil_append, relPath, List.any_eq_false]
        intro m hm; rw [this m hm]; simp
  constructor
  · rintro ⟨q, hq, h⟩
    obtain rfl : p = q := by simpa using hq
    exact ⟨h.1, h1.1 h.2.1, h2.1 h.2.2⟩
  · rintro ⟨h, h', h''⟩
    exact ⟨p, rfl, h, h1.2 h', h2.2 h''⟩

/-! A tree with a file that matches, one below an ignored directory, and one in a directory that cannot be read. -/
def Sample.tree : List DirEntry :=
  [.file py"b.resource", .dir py"lib" [.file py"a.resource", .file py"_x.resource", .file py"c.txt"],
    .dir py"old" [.file py"z.resource"], .locked py"secret", .file py".resource", .file py"w.feature"]

example : iterFiles (some [Files.pattern py"**/*.resource"]) (some [Files.pattern py"old"]) Sample.tree =
    [[py"b.resource"], [py"lib", py"a.resource"], [py"lib", py"_x.resource"], [py".resource"]] := by decide +kernel
example : Tidy Sample.tree := by
  refine .mk (by decide) fun n sub h => ?_
  simp only [Sample.tree, List.mem_cons, DirEntry.dir.injEq, reduceCtorEq, false_or, or_false, List.not_mem_nil] at h
  rcases h with ⟨rfl, rfl⟩ | ⟨rfl, rfl⟩
  · exact .mk (by decide) fun n sub h => by simp at h
  · exact .mk (by decide) fun n sub h => by simp at h

/-! ### C38 -/

theorem insertStr_perm (x : Str) (l : List Str) : (insertStr x l).Perm (x :: l) := by
  induction l with
  | nil => exact List.Perm.refl _
  | cons y l ih =>
    rw [insertStr]
    split
    · exact List.Perm.refl _
    · exact (ih.cons y).trans (List.Perm.swap _ _ _)

theorem sorted_perm (l : List Str) : (sorted l).Perm l := by
  induction l with
  | nil => exact List.Perm.refl _
  | cons x l ih => exact (insertStr_perm x _).trans (ih.cons x)

theorem insertStr_sorted (x : Str) (l : List Str) (h : l.Pairwise (· ≤ ·)) : (insertStr x l).Pairwise (· ≤ ·) := by
  induction l with
  | nil => simp [insertStr]
  | cons y l ih =>
    rw [insertStr]
    rw [List.pairwise_cons] at h
    split
    next hx =>
      have hx : x ≤ y := by simpa [strLe] using hx
      exact List.pairwise_cons.2 ⟨fun z hz => by
        rcases List.mem_cons.1 hz with rfl | hz
        · exact hx
        · exact List.le_trans hx (h.1 z hz), List.pairwise_cons.2 h⟩
    next hx =>
      have hx : ¬ x ≤ y := by simpa [strLe] using hx
      refine List.pairwise_cons.2 ⟨fun z hz => ?_, ih h.2⟩
      rcases List.mem_cons.1 ((insertStr_perm x l).mem_iff.1 hz) with rfl | hz
      · exact (List.le_total z y).resolve_left hx
      · exact h.1 z hz

theorem sorted_sorted (l : List Str) : (sorted l).Pairwise (· ≤ ·) := by
  induction l with
  | nil => exact .nil
  | cons x l ih => exact insertStr_sorted x _ ih

/-- Names are read off a relative path. -/
theorem relPath_inj {p q : List Str} (hp : p ≠ []) (hq : q ≠ []) (hp' : ∀ n ∈ p, '/' ∉ n) (hq' : ∀ n ∈ q, '/' ∉ n)
    (h : relPath p = relPath q) : p = q := by
  have front : ∀ (a b u v : Str), '/' ∉ a → '/' ∉ b → a ++ '/' :: u = b ++ '/' :: v → a = b ∧ u = v := by
    intro a
    induction a with
    | nil =>
      intro b u v _ hb he
      cases b with
      | nil => simpa using he
      | cons d b => simp at he; exact absurd he.1 (by rintro rfl; simp at hb)
    | cons c a ih =>
      intro b u v ha hb he
      cases b with
      | nil => simp at he; exact absurd he.1 (by rintro rfl; simp at ha)
      | cons d b =>
        simp only [List.cons_append, List.cons.injEq] at he
        obtain ⟨rfl, he⟩ := he
        obtain ⟨rfl, rfl⟩ := ih b u v (fun h => ha (by simp [h])) (fun h => hb (by simp [h])) he
        exact ⟨rfl, rfl⟩
  unfold relPath at h
  induction p generalizing q with
  | nil => exact absurd rfl hp
  | cons a p ih =>
    cases q with
    | nil => exact absurd rfl hq
    | cons b q =>
      cases p with
      | nil =>
        cases q with
        | nil => simpa [joinStr] using h
        | cons c q =>
          simp only [joinStr] at h
          exact absurd (show '/' ∈ a by rw [h]; simp) (hp' a (by simp))
      | cons c p =>
        cases q with
        | nil =>
          simp only [joinStr] at h
          exact absurd (show '/' ∈ b by rw [← h]; simp) (hq' b (by simp))
        | cons d q =>
          simp only [joinStr, List.append_assoc, List.singleton_append] at h
          obtain ⟨rfl, h'⟩ := front a b _ _ (hp' a (by simp)) (hq' b (by simp)) h
          rw [ih (q := d :: q) (by simp) (by simp) (fun n hn => hp' n (by simp [List.mem_cons.1 hn]))
            (fun n hn => hq' n (by simp [List.mem_cons.1 hn])) h']

theorem mem_resource (p : List Str) (es : List DirEntry) (h : FileAt es p) :
    ((wanted (some [Files.pattern py"**/*.resource"]) p = true ∧
      (!(startsWith (stem (p.getLastD [])) ['_'] || startsWith (stem (p.getLastD [])) ['.'])) = true) ↔
    ∃ pre n, p = pre ++ [n] ∧ py".resource" <:+ n ∧ n.head? ≠ some '_' ∧ n.head? ≠ some '.') := by
  obtain ⟨pre, n, rfl⟩ := h.last
  obtain ⟨b, hb, hb'⟩ := C36_extension py"resource" (relPath (pre ++ [n])) (by decide)
  have hb : Glob.matches py"**/*.resource" (relPath (pre ++ [n])) = some b := hb
  have hw : wanted (some [Files.pattern py"**/*.resource"]) (pre ++ [n]) = true ↔ py".resource" <:+ n := by
    simp only [wanted, List.any_cons, List.any_nil, Bool.or_false, Files.pattern]
    rw [hb]
    exact hb'.trans (suffix_relPath (by decide))
  rw [hw]
  have hstart : ∀ (s : Str) c, startsWith s [c] = false ↔ s.head? ≠ some c := by
    intro s c
    cases s with
    | nil => simp [startsWith]
    | cons d s =>
      simp only [startsWith, List.isPrefixOf, List.head?_cons, ne_eq, Option.some.injEq, Bool.and_true, beq_eq_false_iff_ne]
      exact ⟨fun h h' => h h'.symm, fun h h' => h h'.symm⟩
  constructor
  · rintro ⟨h1, h2⟩
    rw [List.getLastD_concat, stem_start (e := py"resource") (by decide) (by decide) h1,
      stem_start (e := py"resource") (by decide) (by decide) h1] at h2
    simp only [Bool.not_eq_true', Bool.or_eq_false_iff, hstart] at h2
    exact ⟨pre, n, rfl, h1, h2⟩
  · rintro ⟨pre', n', he, h1, h2⟩
    obtain ⟨rfl, h⟩ := List.append_inj' he rfl
    obtain rfl : n = n' := by simpa using h
    refine ⟨h1, ?_⟩
    rw [List.getLastD_concat, stem_start (e := py"resource") (by decide) (by decide) h1,
      stem_start (e := py"resource") (by decide) (by decide) h1]
    simp only [Bool.not_eq_true', Bool.or_eq_false_iff, hstart]
    exact h2

/-- C38: the resource imports are exactly the `.resource` files at any depth below the feature file's directory whose name does not
begin with `_` or `.`, as relative paths with `/`, in increasing order, each once. -/
theorem C38_resource_imports (es : List DirEntry) :
    (∀ x, x ∈ resourceImports es ↔ ∃ pre n, FileAt es (pre ++ [n]) ∧ py".resource" <:+ n ∧ n.head? ≠ some '_' ∧ n.head? ≠ some '.' ∧
      x = joinStr ['/'] (pre ++ [n])) ∧
    (resourceImports es).Pairwise (· ≤ ·) ∧
    (Tidy es → (∀ p, FileAt es p → ∀ n ∈ p, '/' ∉ n) → (resourceImports es).Nodup) := by
  refine ⟨?_, sorted_sorted _, ?_⟩
  · intro x
    rw [resourceImports, (sorted_perm _).mem_iff, List.mem_map]
    constructor
    · rintro ⟨p, hp, rfl⟩
      rw [List.mem_filter, iterFiles, mem_walkAll] at hp
      obtain ⟨⟨q, hq, hf, hw, _⟩, hs⟩ := hp
      obtain rfl : p = q := by simpa using hq
      obtain ⟨pre, n, rfl, h1, h2, h3⟩ := (mem_resource p es hf).1 ⟨hw, hs⟩
      exact ⟨pre, n, hf, h1, h2, h3, rfl⟩
    · rintro ⟨pre, n, hf, h1, h2, h3, rfl⟩
      obtain ⟨hw, hs⟩ := (mem_resource _ es hf).2 ⟨pre, n, rfl, h1, h2, h3⟩
      refine ⟨pre ++ [n], List.mem_filter.2 ⟨?_, hs⟩, rfl⟩
      rw [iterFiles, mem_walkAll]
      exact ⟨_, rfl, hf, hw, by intro k _ _; rfl⟩
  · intro ht hn
    rw [resourceImports, (sorted_perm _).nodup_iff]
    have hnd := (walkAll_nodup (some [Files.pattern py"**/*.resource"]) none [] es ht).filter (fun p =>
      !(startsWith (stem (p.getLastD [])) ['_'] || startsWith (stem (p.getLastD [])) ['.']))
    have hmem : ∀ p ∈ (iterFiles (some [Files.pattern py"**/*.resource"]) none es).filter (fun p =>
        !(startsWith (stem (p.getLastD [])) ['_'] || startsWith (stem (p.getLastD [])) ['.'])), FileAt es p := by
      intro p hp
      rw [List.mem_filter, iterFiles, mem_walkAll] at hp
      obtain ⟨⟨q, hq, hf, _⟩, _⟩ := hp
      obtain rfl : p = q := by simpa using hq
      exact hf
    rw [List.Nodup, List.pairwise_map]
    refine List.Pairwise.imp_of_mem ?_ hnd
    intro a b ha hb hab he
    obtain ⟨na, qa, rfl, _⟩ := (hmem a ha).head
    obtain ⟨nb, qb, rfl, _⟩ := (hmem b hb).head
    exact hab (relPath_inj (by simp) (by simp) (hn _ (hmem _ ha)) (hn _ (hmem _ hb)) he)

example : resourceImports Sample.tree = [py"b.resource", py"lib/a.resource", py"old/z.resource"] := by decide +kernel

/-! ### C50 -/

/-- C50: the feature files collected from a directory are exactly the files at any depth whose names end in `.feature` or `.feature.md`. -/
theorem C50_feature_files (es : List DirEntry) (p : List Str) :
    p ∈ featureFiles es ↔ FileAt es p ∧ ∃ pre n, p = pre ++ [n] ∧ (py".feature" <:+ n ∨ py".feature.md" <:+ n) := by
  rw [featureFiles, iterFiles, mem_walkAll]
  have hw : ∀ pre n, wanted (some [Files.pattern py"**/*.{feature,feature.md}"]) (pre ++ [n]) = true ↔
      (py".feature" <:+ n ∨ py".feature.md" <:+ n) := by
    intro pre n
    obtain ⟨b, hb, hb'⟩ := C36_extensions [py"feature", py"feature.md"] (by decide) (relPath (pre ++ [n])) (by decide)
    have hb : Glob.matches py"**/*.{feature,feature.md}" (relPath (pre ++ [n])) = some b := hb
    simp only [wanted, List.any_cons, List.any_nil, Bool.or_false, Files.pattern]
    rw [hb]
    refine hb'.trans ?_
    simp only [List.mem_cons, List.not_mem_nil, or_false, exists_eq_or_imp, exists_eq_left]
    exact or_congr (suffix_relPath (by decide)) (suffix_relPath (by decide))
  constructor
  · rintro ⟨q, hq, hf, h, _⟩
    obtain rfl : p = q := by simpa using hq
    obtain ⟨pre, n, rfl⟩ := hf.last
    exact ⟨hf, pre, n, rfl, (hw pre n).1 h⟩
  · rintro ⟨hf, pre, n, rfl, h⟩
    exact ⟨_, rfl, hf, (hw pre n).2 h, by intro k _ _; rfl⟩

example : featureFiles Sample.tree = [[py"w.feature"]] := by decide +kernel

end Gherkin
