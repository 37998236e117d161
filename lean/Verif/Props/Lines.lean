import Verif.Spec.Steps
import Verif.Proofs.ClassicMatch
import Verif.Props.Samples

/-! C21, C22, C23: how single lines are recognised, in every shipped dialect. -/

namespace Gherkin

/-- The kinds a line can be recognised as by its beginning. -/
def markedKinds : List Kind :=
  [.empty, .comment, .tagLine, .tableRow, .docStringSeparator, .stepLine,
   .featureLine, .ruleLine, .backgroundLine, .scenarioLine, .examplesLine]

/-- What each recognition says about the beginning of the trimmed line. -/
inductive Begins (d : Dialect) (s : Str) : Kind → Prop
  | empty : s = [] → Begins d s .empty
  | comment : s.head? = some '#' → Begins d s .comment
  | tag : s.head? = some '@' → Begins d s .tagLine
  | row : s.head? = some '|' → Begins d s .tableRow
  | doc : s.head? = some '"' ∨ s.head? = some '`' → Begins d s .docStringSeparator
  | step {kw} : kw ∈ d.stepKeywords → startsWith s kw = true → Begins d s .stepLine
  | title {k kw} : kw ∈ d.titles k → startsWith s (kw ++ [':']) = true → Begins d s k

theorem startsWith_cons_head {s : Str} {c : Char} {p : Str} (h : startsWith s (c :: p) = true) : s.head? = some c := by
  cases s with
  | nil => simp [startsWith] at h
  | cons a s => simp [startsWith] at h; simp [h.1]

theorem matched_begins {m : CState} (hact : ∀ s, m.active = some s → s = Classic.quotes ∨ s = Classic.ticks) {t : Token} {k : Kind}
    (hk : k ∈ markedKinds) (h : (Classic.matchKind k t m).1 = .ok true) : Begins m.dialect t.line.trimmed k := by
  have title : ∀ (kws : List Str) (k : Kind), m.dialect.titles k = kws → (Classic.matchTitle k kws t m).1 = .ok true →
      Begins m.dialect t.line.trimmed k := by
    intro kws k hkws h
    unfold Classic.matchTitle at h
    split at h
    · rename_i kw hf
      exact .title (kw := kw) (by rw [hkws]; exact List.mem_of_find?_eq_some hf) (by have := List.find?_some hf; exact this)
    · simp at h
  cases k <;> simp only [Classic.matchKind] at h
  case eof => simp [markedKinds] at hk
  case language => simp [markedKinds] at hk
  case other => simp [markedKinds] at hk
  case empty =>
    refine .empty ?_
    unfold Classic.matchEmpty at h
    split at h
    · rename_i hb; simpa [Line.isBlank] using hb
    · simp at h
  case comment =>
    refine .comment ?_
    unfold Classic.matchComment at h
    split at h
    · rename_i hb; exact startsWith_cons_head hb
    · simp at h
  case tagLine =>
    refine .tag ?_
    unfold Classic.matchTagLine at h
    split at h
    · rename_i hb; exact startsWith_cons_head hb
    · simp at h
  case tableRow =>
    refine .row ?_
    unfold Classic.matchTableRow at h
    split at h
    · rename_i hb; exact startsWith_cons_head hb
    · simp at h
  case docStringSeparator =>
    have key : ∀ (sep : Str) (o : Bool), (sep = Classic.quotes ∨ sep = Classic.ticks) →
        (Classic.matchSep sep o t m).1 = .ok true → Begins m.dialect t.line.trimmed .docStringSeparator := by
      intro sep o hsep h
      unfold Classic.matchSep at h
      split at h
      · rename_i hb
        refine .doc ?_
        rcases hsep with rfl | rfl
        · exact .inl (startsWith_cons_head hb)
        · exact .inr (startsWith_cons_head hb)
      · simp at h
    unfold Classic.matchDocSep at h
    split at h
    · split at h
      · exact key _ _ (.inl rfl) h
      · exact key _ _ (.inr rfl) h
    · rename_i s hs; exact key _ _ (hact s hs) h
  case stepLine =>
    unfold Classic.matchStep at h
    split at h
    · rename_i kw hf
      exact .step (kw := kw) (List.mem_of_find?_eq_some hf) (by have := List.find?_some hf; exact this)
    · simp at h
  case featureLine => exact title _ _ rfl h
  case ruleLine => exact title _ _ rfl h
  case backgroundLine => exact title _ _ rfl h
  case scenarioLine => exact title _ _ rfl h
  case examplesLine => exact title _ _ rfl h

theorem begins_unique {d : Dialect} (hd : d.Known) {s : Str} {k k' : Kind} (h : Begins d s k) (h' : Begins d s k') : k = k' := by
  have word : ∀ {k}, Begins d s k → k = .stepLine ∨ k ∈ titleKinds →
      (k = .stepLine ∧ ∃ kw ∈ d.stepKeywords, startsWith s kw = true) ∨ (∃ kw ∈ d.titles k, startsWith s (kw ++ [':']) = true) := by
    intro k h hk
    cases h with
    | step h1 h2 => exact .inl ⟨rfl, _, h1, h2⟩
    | title h1 h2 => exact .inr ⟨_, h1, h2⟩
    | _ => simp [titleKinds] at hk
  have ord : ∀ {k}, Begins d s k → (k = .stepLine ∨ k ∈ titleKinds) → ∃ c rest, s = c :: rest ∧ isMarker c = false := by
    intro k h hk
    rcases word h hk with ⟨_, kw, h1, h2⟩ | ⟨kw, h1, h2⟩
    · exact startsWith_head h2 (hd.step_head h1)
    · exact startsWith_head h2 (headOk_colon (hd.title_head h1))
  have mark : ∀ {k}, Begins d s k → ¬ (k = .stepLine ∨ k ∈ titleKinds) →
      (k = .empty ∧ s = []) ∨ (k = .comment ∧ s.head? = some '#') ∨ (k = .tagLine ∧ s.head? = some '@') ∨
      (k = .tableRow ∧ s.head? = some '|') ∨ (k = .docStringSeparator ∧ (s.head? = some '"' ∨ s.head? = some '`')) := by
    intro k h hk
    cases h with
    | empty h => exact .inl ⟨rfl, h⟩
    | comment h => exact .inr (.inl ⟨rfl, h⟩)
    | tag h => exact .inr (.inr (.inl ⟨rfl, h⟩))
    | row h => exact .inr (.inr (.inr (.inl ⟨rfl, h⟩)))
    | doc h => exact .inr (.inr (.inr (.inr ⟨rfl, h⟩)))
    | step _ _ => exact absurd (.inl rfl) hk
    | title h1 _ => exact absurd (.inr (titles_kind h1)) hk
  have mixed : ∀ {k k'}, Begins d s k → (k = .stepLine ∨ k ∈ titleKinds) → Begins d s k' → ¬ (k' = .stepLine ∨ k' ∈ titleKinds) →
      False := by
    intro k k' h hk h' hk'
    obtain ⟨c, rest, hs, hc⟩ := ord h hk
    have := mark h' hk'
    rw [hs] at this
    simp only [isMarker, Bool.or_eq_false_iff, beq_eq_false_iff_ne] at hc
    obtain ⟨⟨⟨⟨⟨h1, h2⟩, h3⟩, h4⟩, h5⟩, h6⟩ := hc
    rcases this with ⟨_, h⟩ | ⟨_, h⟩ | ⟨_, h⟩ | ⟨_, h⟩ | ⟨_, h | h⟩ <;> simp_all
  by_cases hk : k = .stepLine ∨ k ∈ titleKinds <;> by_cases hk' : k' = .stepLine ∨ k' ∈ titleKinds
  · rcases word h hk with ⟨rfl, kw, h1, h2⟩ | ⟨kw, h1, h2⟩ <;> rcases word h' hk' with ⟨rfl, kw', h1', h2'⟩ | ⟨kw', h1', h2'⟩
    · rfl
    · have := hd.title_not_step h1' h1 h2'; rw [h2] at this; simp at this
    · have := hd.title_not_step h1 h1' h2; rw [h2'] at this; simp at this
    · exact hd.titles_disjoint h1 h1' h2 h2'
  · exact (mixed h hk h' hk').elim
  · exact (mixed h' hk' h hk).elim
  · have a := mark h hk
    have b := mark h' hk'
    rcases a with ⟨rfl, a⟩ | ⟨rfl, a⟩ | ⟨rfl, a⟩ | ⟨rfl, a⟩ | ⟨rfl, a⟩ <;>
      rcases b with ⟨rfl, b⟩ | ⟨rfl, b⟩ | ⟨rfl, b⟩ | ⟨rfl, b⟩ | ⟨rfl, b⟩ <;> simp_all

/-- C21: in every shipped dialect, a line is recognised as at most one of: blank, comment, tag line, table row, doc string
delimiter, step, feature, rule, background, scenario (or outline), examples. -/
theorem C21_lines_unambiguous (m : CState) (hm : m.Valid) (hact : ∀ s, m.active = some s → s = Classic.quotes ∨ s = Classic.ticks)
    (t : Token) (k k' : Kind) (hk : k ∈ markedKinds) (hk' : k' ∈ markedKinds)
    (h : (Classic.matchKind k t m).1 = .ok true) (h' : (Classic.matchKind k' t m).1 = .ok true) : k = k' :=
  begins_unique hm.known (matched_begins hact hk h) (matched_begins hact hk' h')

/-- The dialects whose keyword lists are not ordered so that the first match is the longest. -/
def unsortedDialects : List Str := [py"en-old", py"ht", py"sk"]

/-- A keyword that is a prefix of a later, different keyword hides it. -/
def noHidden : List Str → Bool
  | [] => true
  | kw :: kws => (kws.all fun kw' => !(kw.isPrefixOf kw') || kw.length == kw'.length) && noHidden kws

theorem dialects_noHidden : dialects.all (fun p => unsortedDialects.contains p.1 || noHidden p.2.stepKeywords) = true := by
  decide +kernel

theorem find_longest {kws : List Str} (h : noHidden kws = true) {s kw : Str} (hf : kws.find? (fun kw => startsWith s kw) = some kw) :
    ∀ kw' ∈ kws, startsWith s kw' = true → kw'.length ≤ kw.length := by
  induction kws with
  | nil => simp at hf
  | cons a kws ih =>
    simp only [noHidden, Bool.and_eq_true, List.all_eq_true] at h
    simp only [List.find?_cons] at hf
    split at hf
    · rename_i ha
      cases hf
      intro kw' hkw' hs
      simp only [List.mem_cons] at hkw'
      rcases hkw' with rfl | hkw'
      · exact Nat.le_refl _
      · have := h.1 kw' hkw'
        unfold startsWith at ha hs
        rw [List.isPrefixOf_iff_prefix] at ha hs
        rcases List.prefix_or_prefix_of_prefix ha hs with hp | hp
        · rw [← List.isPrefixOf_iff_prefix] at hp
          simp [hp] at this
          omega
        · exact hp.length_le
    · rename_i ha
      intro kw' hkw' hs
      simp only [List.mem_cons] at hkw'
      rcases hkw' with rfl | hkw'
      · simp [hs] at ha
      · exact ih h.2 hf kw' hkw' hs

/-- C22 for all shipped dialects but `en-old`, `ht` and `sk`: of all step keywords that begin the (trimmed) line, the step gets
the longest. The full property (without the exception list) is false, see `C22_counterexample`. -/
theorem C22_longest_step_keyword_partial (m : CState) (hm : m.Valid) (hname : m.dialectName ∉ unsortedDialects) (t t' : Token) (m' : CState)
    (h : Classic.matchKind .stepLine t m = (.ok true, t', m')) :
    ∃ kw ∈ m.dialect.stepKeywords, t'.keyword = some kw ∧ kw <+: t.line.trimmed ∧
      ∀ kw' ∈ m.dialect.stepKeywords, kw' <+: t.line.trimmed → kw'.length ≤ kw.length := by
  simp only [Classic.matchKind, Classic.matchStep] at h
  split at h
  · rename_i kw hf
    cases h
    have hd := List.all_eq_true.1 dialects_noHidden _ (lookup_mem hm.cur)
    simp only [Bool.or_eq_true] at hd
    rcases hd with hd | hd
    · simp only [List.contains_iff_mem] at hd
      exact absurd hd hname
    · refine ⟨kw, List.mem_of_find?_eq_some hf, rfl, ?_, ?_⟩
      · have := List.find?_some hf
        exact List.isPrefixOf_iff_prefix.1 this
      · intro kw' hkw' hp
        exact find_longest hd hf kw' hkw' (List.isPrefixOf_iff_prefix.2 hp)
  · simp at h

/-- A matcher for a dialect. -/
def Sample.matcher (name : Str) : CState := (CState.new name).getD Sample.en

/-- C22 fails for the three dialects: the recognised keyword is shorter than another keyword of the same dialect that also
begins the line. -/
theorem C22_counterexample : ∀ p ∈ [(py"en-old", py"Tha the x\n"), (py"ht", py"Sipoze ke x\n"), (py"sk", py"A tiež x\n")],
    ∃ kw' ∈ (Sample.matcher p.1).dialect.stepKeywords,
      startsWith (Line.mk p.2 1).trimmed kw' = true ∧
      ∃ kw, (Classic.matchKind .stepLine (Token.fresh ⟨p.2, 1⟩) (Sample.matcher p.1)).2.1.keyword = some kw ∧
        kw.length < kw'.length := by decide +kernel

def typesOk (d : Dialect) : Bool :=
  d.stepKeywords.all fun kw =>
    if kw == bullet then Classic.stepType d kw == .unknown
    else (d.keywordTypes kw).length == 1

theorem dialects_typesOk : dialects.all (fun p => typesOk p.2) = true := by decide +kernel

theorem keywordTypes_single {d : Dialect} {kw : Str} {k : KType} (h : d.keywordTypes kw = [k]) :
    k ≠ .unknown ∧ kw ∈ d.ofType k ∧ ∀ k', kw ∈ d.ofType k' → k' = k := by
  have mem : ∀ k', kw ∈ d.ofType k' → k' ∈ d.keywordTypes kw := by
    intro k' hk'
    cases k' <;> simp [Dialect.ofType, Dialect.keywordTypes] at hk' ⊢
    · exact hk'
    · exact hk'
    · exact hk'
    · exact hk'
  have back : k ∈ d.keywordTypes kw → k ≠ .unknown ∧ kw ∈ d.ofType k := by
    intro hk
    simp only [Dialect.keywordTypes, List.mem_append, List.mem_map, List.mem_filter, beq_iff_eq] at hk
    rcases hk with ((⟨x, ⟨h1, rfl⟩, rfl⟩ | ⟨x, ⟨h1, rfl⟩, rfl⟩) | ⟨x, ⟨h1, rfl⟩, rfl⟩) | ⟨x, ⟨h1, rfl⟩, rfl⟩
    · exact ⟨by simp, h1⟩
    · exact ⟨by simp, h1⟩
    · exact ⟨by simp, h1⟩
    · exact ⟨by simp, by simpa [Dialect.ofType] using h1⟩
  have hb := back (by rw [h]; simp)
  refine ⟨hb.1, hb.2, ?_⟩
  intro k' hk'
  have := mem k' hk'
  rw [h] at this
  simpa using this

/-- C23: the keyword type of a recognised step is `Unknown` exactly for the bullet `* `; otherwise its keyword is in the keyword
list of that type and in no other type's list. -/
theorem C23_step_type_exact (m : CState) (hm : m.Valid) (t t' : Token) (m' : CState)
    (h : Classic.matchKind .stepLine t m = (.ok true, t', m')) :
    ∃ kw ty, t'.keyword = some kw ∧ t'.keywordType = some ty ∧ kw ∈ m.dialect.stepKeywords ∧
      (ty = .unknown ↔ kw = bullet) ∧
      (kw ≠ bullet → kw ∈ m.dialect.ofType ty ∧ ∀ ty', kw ∈ m.dialect.ofType ty' → ty' = ty) := by
  simp only [Classic.matchKind, Classic.matchStep] at h
  split at h
  · rename_i kw hf
    cases h
    have hmem := List.mem_of_find?_eq_some hf
    have hd := List.all_eq_true.1 dialects_typesOk _ (lookup_mem hm.cur)
    simp only [typesOk, List.all_eq_true] at hd
    have hd := hd kw hmem
    refine ⟨kw, Classic.stepType m.dialect kw, rfl, rfl, hmem, ?_, ?_⟩
    · split at hd
      · rename_i hb
        simp only [beq_iff_eq] at hb hd
        rw [hd]; exact ⟨fun _ => hb, fun _ => rfl⟩
      · rename_i hb
        simp only [beq_iff_eq] at hb hd
        obtain ⟨k, hk⟩ := List.length_eq_one_iff.1 hd
        have := (keywordTypes_single hk).1
        simp only [Classic.stepType, hk]
        exact ⟨fun h => absurd h this, fun h => absurd h hb⟩
    · intro hb
      have hb' : ¬ (kw == bullet) = true := by simpa using hb
      rw [if_neg hb'] at hd
      simp only [beq_iff_eq] at hd
      obtain ⟨k, hk⟩ := List.length_eq_one_iff.1 hd
      have := (keywordTypes_single hk).2
      simp only [Classic.stepType, hk]
      exact this
  · simp at h

/-- The token a matcher call leaves behind. -/
def Sample.matched (k : Kind) (text : Str) : Bool × Option Str × Option KType × Option Str :=
  match Classic.matchKind k (Token.fresh ⟨text, 3⟩) Sample.en with
  | (.ok b, t, _) => (b, t.keyword, t.keywordType, t.text)
  | _ => (false, none, none, none)

example : Sample.matched .stepLine py"  Given a user\n" = (true, some py"Given ", some .context, some py"a user") := by decide +kernel
example : Sample.matched .stepLine py"  * a user\n" = (true, some py"* ", some .unknown, some py"a user") := by decide +kernel
example : Sample.matched .scenarioLine py"  Scenario Outline: x\n" = (true, some py"Scenario Outline", none, some py"x") := by
  decide +kernel
example : Sample.en.Valid ∧ Sample.en.active = none := ⟨⟨by decide +kernel, by decide +kernel⟩, rfl⟩

end Gherkin
