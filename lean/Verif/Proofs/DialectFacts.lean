import Verif.MatcherClassic

/-! Facts about all shipped dialects, by evaluating the whole table once, lifted to all lines. -/

namespace Gherkin

/-- The kinds of title lines. -/
def titleKinds : List Kind := [.featureLine, .ruleLine, .backgroundLine, .scenarioLine, .examplesLine]

/-- The keywords of a title kind. -/
def Dialect.titles (d : Dialect) : Kind → List Str
  | .featureLine => d.feature
  | .ruleLine => d.rule
  | .backgroundLine => d.background
  | .scenarioLine => d.scenario ++ d.scenarioOutline
  | .examplesLine => d.examples
  | _ => []

/-- First characters with a meaning of their own. -/
def isMarker (c : Char) : Bool := isSpace c || c == '#' || c == '@' || c == '|' || c == '"' || c == '`'

/-- A keyword that starts with an ordinary character. -/
def headOk (kw : Str) : Bool := match kw with | c :: _ => !isMarker c | [] => false

def dialectOk (d : Dialect) : Bool :=
  (titleKinds.all fun k => (d.titles k).all headOk) && d.stepKeywords.all headOk &&
  (titleKinds.all fun k => titleKinds.all fun k' => k == k' ||
    (d.titles k).all fun kw => (d.titles k').all fun kw' => !(kw ++ [':']).isPrefixOf (kw' ++ [':'])) &&
  (titleKinds.all fun k => (d.titles k).all fun kw => d.stepKeywords.all fun s =>
    !s.isPrefixOf (kw ++ [':']) && !(kw ++ [':']).isPrefixOf s)

theorem dialects_ok : dialects.all (fun p => dialectOk p.2) = true := by decide +kernel

/-- A dialect of the table. -/
def Dialect.Known (d : Dialect) : Prop := ∃ name, dialectFor name = some d

theorem lookup_mem {α β : Type} [BEq α] [LawfulBEq α] {l : List (α × β)} {a : α} {b : β} (h : l.lookup a = some b) :
    (a, b) ∈ l := by
  induction l with
  | nil => simp [List.lookup] at h
  | cons p l ih =>
    obtain ⟨a', b'⟩ := p
    simp only [List.lookup] at h
    split at h
    · rename_i hq
      simp at hq h
      subst hq; subst h; simp
    · exact List.mem_cons_of_mem _ (ih h)

theorem Dialect.Known.ok {d : Dialect} (h : d.Known) : dialectOk d = true := by
  obtain ⟨n, hn⟩ := h
  exact List.all_eq_true.1 dialects_ok _ (lookup_mem hn)

theorem Dialect.Known.title_head {d : Dialect} (h : d.Known) {k : Kind} {kw : Str} (hk : kw ∈ d.titles k) : headOk kw = true := by
  have := h.ok
  unfold dialectOk at this
  simp only [Bool.and_eq_true, List.all_eq_true] at this
  have hk' : k ∈ titleKinds := by
    cases k <;> first | (simp [Dialect.titles] at hk; done) | decide
  exact this.1.1.1 k hk' kw hk

theorem Dialect.Known.step_head {d : Dialect} (h : d.Known) {kw : Str} (hk : kw ∈ d.stepKeywords) : headOk kw = true := by
  have := h.ok
  unfold dialectOk at this
  simp only [Bool.and_eq_true, List.all_eq_true] at this
  exact this.1.1.2 kw hk

theorem titles_kind {d : Dialect} {k : Kind} {kw : Str} (hk : kw ∈ d.titles k) : k ∈ titleKinds := by
  cases k <;> first | (simp [Dialect.titles] at hk; done) | decide

/-- Two title lines of different kinds never share a line. -/
theorem Dialect.Known.titles_disjoint {d : Dialect} (h : d.Known) {k k' : Kind} {kw kw' s : Str} (hk : kw ∈ d.titles k)
    (hk' : kw' ∈ d.titles k') (h1 : startsWith s (kw ++ [':']) = true) (h2 : startsWith s (kw' ++ [':']) = true) : k = k' := by
  have := h.ok
  unfold dialectOk at this
  simp only [Bool.and_eq_true, List.all_eq_true] at this
  have hd := this.1.2
  apply Classical.byContradiction
  intro hne
  have a := hd k (titles_kind hk) k' (titles_kind hk')
  have b := hd k' (titles_kind hk') k (titles_kind hk)
  have hne' : ¬ k' = k := fun h => hne h.symm
  simp [hne] at a
  simp [hne'] at b
  unfold startsWith at h1 h2
  rw [List.isPrefixOf_iff_prefix] at h1 h2
  rcases List.prefix_or_prefix_of_prefix h1 h2 with h | h
  · have := a kw hk kw' hk'
    rw [← List.isPrefixOf_iff_prefix, this] at h; simp at h
  · have := b kw' hk' kw hk
    rw [← List.isPrefixOf_iff_prefix, this] at h; simp at h

/-- A title line is never a step line. -/
theorem Dialect.Known.title_not_step {d : Dialect} (h : d.Known) {k : Kind} {kw st s : Str} (hk : kw ∈ d.titles k)
    (hs : st ∈ d.stepKeywords) (h1 : startsWith s (kw ++ [':']) = true) : startsWith s st = false := by
  have := h.ok
  unfold dialectOk at this
  simp only [Bool.and_eq_true, List.all_eq_true] at this
  have hd := this.2 k (titles_kind hk) kw hk st hs
  cases hss : startsWith s st with
  | false => rfl
  | true =>
    exfalso
    unfold startsWith at h1 hss
    rw [List.isPrefixOf_iff_prefix] at h1 hss
    simp at hd
    rcases List.prefix_or_prefix_of_prefix h1 hss with h | h
    · rw [← List.isPrefixOf_iff_prefix, hd.2] at h; simp at h
    · rw [← List.isPrefixOf_iff_prefix, hd.1] at h; simp at h

/-- A line that begins with a keyword begins with an ordinary character. -/
theorem startsWith_head {s p : Str} (h : startsWith s p = true) (hp : headOk p = true) :
    ∃ c rest, s = c :: rest ∧ isMarker c = false := by
  cases p with
  | nil => simp [headOk] at hp
  | cons c p =>
    cases s with
    | nil => simp [startsWith] at h
    | cons c' s =>
      simp [startsWith] at h
      refine ⟨c', s, rfl, ?_⟩
      rw [← h.1]
      simpa [headOk] using hp

theorem headOk_colon {kw : Str} (h : headOk kw = true) : headOk (kw ++ [':']) = true := by
  cases kw with
  | nil => simp [headOk] at h
  | cons c kw => simpa [headOk] using h

end Gherkin
