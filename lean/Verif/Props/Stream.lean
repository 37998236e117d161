import Verif.Spec.Stream
import Verif.Proofs.Reuse
import Verif.Proofs.ShiftPickle
import Verif.Props.Document
import Verif.Props.Pickles

/-! C09, C10, C42: objects used again and event streams. -/

namespace Gherkin

/-! ### C10 -/

/-- The matcher and builder objects after parsing some texts, one after the other, however each of these parses ended. -/
def parseAll {μ : Type} (M : Matcher μ) (stop : Bool) : List Str → μ → BState → μ × BState
  | [], m, b => (m, b)
  | t :: ts, m, b =>
    let c := (parse ⟨M, astBuilder, stop⟩ t m b).2
    parseAll M stop ts c.matcher c.builder

theorem parse_again {μ : Type} (M : Matcher μ) (stop : Bool) (text : Str) {m m' : μ} (hm : M.reset m' = M.reset m) (b b' : BState)
    (hb : b.nextId ≤ b'.nextId) :
    parse ⟨M, astBuilder, stop⟩ text m' b' =
      ((parse ⟨M, astBuilder, stop⟩ text m b).1.map (Option.map (Document.shift (b'.nextId - b.nextId))),
       (parse ⟨M, astBuilder, stop⟩ text m b).2.mapB (BState.shift (b'.nextId - b.nextId))) := by
  have := parse_map (cfg := ⟨M, astBuilder, stop⟩) (astBuilder_shift (b'.nextId - b.nextId)) (m := m) (m' := m') (b := b) (b' := b') hm
    (by show AstB.reset b' = BState.shift _ (AstB.reset b)
        simp only [AstB.reset, BState.shift, List.map_cons, List.map_nil]
        congr 1; omega) text
  rw [this]
  rcases (parse ⟨M, astBuilder, stop⟩ text m b).1 with e | r <;> rfl

theorem parseAll_nextId {μ : Type} (M : Matcher μ) (stop : Bool) (history : List Str) (m : μ) (b : BState) :
    b.nextId ≤ (parseAll M stop history m b).2.nextId := by
  induction history generalizing m b with
  | nil => exact Nat.le_refl _
  | cons t ts ih => exact Nat.le_trans (parse_nextId_mono M stop t m b) (ih _ _)

theorem classic_parseAll_for (stop : Bool) (history : List Str) {name : Str} {m : CState} (h : m.For name) (b : BState) :
    (parseAll classic stop history m b).1.For name := by
  induction history generalizing m b with
  | nil => exact h
  | cons t ts ih => exact ih (classic_parse_for stop t h b) _

theorem md_parseAll_for (stop : Bool) (history : List Str) {name : Str} {d : Dialect} {m : MdState} (h : m.For name d) (b : BState) :
    (parseAll markdown stop history m b).1.For name d := by
  induction history generalizing m b with
  | nil => exact h
  | cons t ts ih => exact ih (md_parse_for stop t h b) _

/-- C10: parsing a text with a parser and a matcher that have parsed any texts before gives what new objects give, documents with all
ids raised by the number of ids handed out before; errors, exceptions and everything else are equal. -/
theorem C10_reuse (stop : Bool) (history : List Str) (text : Str) (name : Str) (m : CState) (hm : CState.new name = some m) :
    let used := parseAll classic stop history m newBuilder
    (parse ⟨classic, astBuilder, stop⟩ text used.1 used.2).1 =
      (parse ⟨classic, astBuilder, stop⟩ text m newBuilder).1.map (Option.map (Document.shift used.2.nextId)) := by
  intro used
  have h := CState.new_for hm
  have h' := classic_parseAll_for stop history h newBuilder
  have := parse_again classic stop text (m := m) (m' := used.1) (classic_reset_same h.1 h'.1 (h'.2.trans h.2.symm)) newBuilder used.2
    (Nat.zero_le _)
  rw [this]
  rfl

/-- C10 (Markdown). -/
theorem C10_markdown_reuse (stop : Bool) (history : List Str) (text : Str) (name : Str) (m : MdState) (hm : MdState.new name = some m) :
    let used := parseAll markdown stop history m newBuilder
    (parse ⟨markdown, astBuilder, stop⟩ text used.1 used.2).1 =
      (parse ⟨markdown, astBuilder, stop⟩ text m newBuilder).1.map (Option.map (Document.shift used.2.nextId)) := by
  intro used
  have h := MdState.new_for hm
  have h' := md_parseAll_for stop history h newBuilder
  have := parse_again markdown stop text (m := m) (m' := used.1) (md_reset_same h h') newBuilder used.2 (Nat.zero_le _)
  rw [this]
  rfl

/-! A history that leaves an open doc string, another dialect and used ids behind. -/
example : (parseAll classic false [Sample.bad, py"# language: de\nFunktion: a\n  Szenario: b\n    * c\n      \"\"\"\n"] Sample.en newBuilder).1.active
    = some Classic.quotes ∧
  (parseAll classic false [Sample.bad, py"# language: de\nFunktion: a\n  Szenario: b\n    * c\n      \"\"\"\n"] Sample.en newBuilder).1.dialectName
    = py"de" ∧
  (parseAll classic false [Sample.bad, py"# language: de\nFunktion: a\n  Szenario: b\n    * c\n      \"\"\"\n"] Sample.en newBuilder).2.nextId = 4 := by
  decide +kernel
example : CState.new py"en" = some Sample.en := by decide +kernel

/-! ### C09 -/

theorem defaultMatcher_new : CState.new py"en" = some defaultMatcher := by decide +kernel

theorem parseDefault_grows (b : BState) (text : Str) : b.nextId ≤ (parseDefault b text).2.nextId :=
  parse_nextId_mono classic false text defaultMatcher b

theorem parseDefault_ids {b : BState} {text : Str} {d : Document} {b' : BState} (h : parseDefault b text = (.ok (some d), b')) :
    Fresh d.ids b.nextId b'.nextId := by
  simp only [parseDefault, Prod.mk.injEq] at h
  obtain ⟨h1, rfl⟩ := h
  obtain ⟨D, _, _, h3, h4⟩ := parsed_doc classic_lawful h1
  rw [h4, h3]
  exact doc_fresh _ _ _

/-- A list of ids, all distinct and handed out while the counter went from `a` to `b`. -/
def Between (l : List Nat) (a b : Nat) : Prop := l.Nodup ∧ a ≤ b ∧ ∀ i ∈ l, a ≤ i ∧ i < b

theorem Between.nil {a b : Nat} (h : a ≤ b) : Between [] a b := ⟨by simp, h, by simp⟩

theorem Between.append {l l' : List Nat} {a b c : Nat} (h : Between l a b) (h' : Between l' b c) : Between (l ++ l') a c := by
  refine ⟨List.nodup_append.2 ⟨h.1, h'.1, ?_⟩, Nat.le_trans h.2.1 h'.2.1, ?_⟩
  · intro x hx y hy e
    have := h.2.2 x hx; have := h'.2.2 y hy; omega
  · intro i hi
    have := h.2.1; have := h'.2.1
    rcases List.mem_append.1 hi with hi | hi
    · have := h.2.2 i hi; omega
    · have := h'.2.2 i hi; omega

theorem Between.of_fresh {l : List Nat} {a b : Nat} (h : Fresh l a b) : Between l a b := ⟨h.nodup, h.1, fun i hi => (h.mem i).1 hi⟩

theorem enum_between (eng : Engine) (opt : StreamOptions) (s : SourceFile) (b : BState) :
    Between ((enumEvents eng opt s b).1.flatMap Event.ids) b.nextId (enumEvents eng opt s b).2.2.nextId := by
  have hg := parseDefault_grows b s.data
  unfold enumEvents
  split <;> rename_i h <;> (rw [h] at hg; simp only at hg)
  · rw [List.flatMap_eq_nil_iff.2]
    · exact .nil hg
    · simp [createErrors, Event.ids]
  · exact .nil hg
  · exact .nil hg
  · exact .nil hg
  · exact .nil hg
  · rename_i d b'
    have hf := Between.of_fresh (parseDefault_ids h)
    have h1 : Between (((if opt.printSource then [Event.source s] else []) ++ (if opt.printAst then [Event.document s.uri d] else [])).flatMap Event.ids)
        b.nextId b'.nextId := by
      rw [List.flatMap_append]
      have : (if opt.printSource then [Event.source s] else []).flatMap Event.ids = [] := by split <;> rfl
      rw [this]
      split
      · simpa [Event.ids] using hf
      · exact .nil hg
    simp only
    split
    · split
      · rename_i ps n hc
        rw [List.flatMap_append]
        refine h1.append ?_
        have := Between.of_fresh (Pickles.compile_ok hc).1
        rw [List.flatMap_map]; exact this
      · exact h1
    · exact h1

theorem stream_between (eng : Engine) (opt : StreamOptions) (ss : List SourceFile) (b : BState) :
    Between ((streamFrom eng opt ss b).1.flatMap Event.ids) b.nextId (streamFrom eng opt ss b).2.2.nextId := by
  induction ss generalizing b with
  | nil => exact .nil (Nat.le_refl _)
  | cons s ss ih =>
    have h1 := enum_between eng opt s b
    simp only [streamFrom]
    rcases h : enumEvents eng opt s b with ⟨evs, c, b'⟩
    rw [h] at h1
    cases c with
    | some c => exact h1
    | none =>
      simp only [List.flatMap_append]
      exact h1.append (ih b')

/-- C09: whatever the sources and whether they parse or not, all ids of all documents and pickles in the stream are distinct. -/
theorem C09_stream_ids_distinct (eng : Engine) (opt : StreamOptions) (ss : List SourceFile) :
    ((stream eng opt ss).1.flatMap Event.ids).Nodup := (stream_between eng opt ss newBuilder).1

/-! ### C42 -/

theorem parseDefault_again (b : BState) (text : Str) :
    parseDefault b text = ((aloneOutcome text).map (Option.map (Document.shift b.nextId)),
      (parseDefault newBuilder text).2.shift b.nextId) := by
  have := parse_again classic false text (m := defaultMatcher) (m' := defaultMatcher) rfl newBuilder b (Nat.zero_le _)
  simp only [parseDefault, this, aloneOutcome]
  rfl

theorem aloneOutcome_some {text : Str} {r : Option Document} (h : aloneOutcome text = .ok r) : ∃ d, r = some d := by
  have := C08_document_returned classic classic_lawful false text defaultMatcher newBuilder r h
  exact Option.isSome_iff_exists.1 this

theorem aloneOutcome_ne_fuel (text : Str) : aloneOutcome text ≠ .error .outOfFuel :=
  (C01_classic_parse_terminates astBuilder false text defaultMatcher newBuilder).1

theorem parse_ne_single {μ : Type} (M : Matcher μ) (hM : M.Lawful) (text : Str) (m : μ) (b : BState) (e : Err) :
    (parse ⟨M, astBuilder, false⟩ text m b).1 ≠ .error (.single e) := by
  intro h
  rcases hp : parse ⟨M, astBuilder, false⟩ text m b with ⟨x, c⟩
  rw [hp] at h
  simp only at h
  subst h
  rcases parse_single (cfg := ⟨M, astBuilder, false⟩) hM hp with h | h
  · simp at h
  · simp only [astBuilder, AstB.result] at h
    split at h
    · simp at h
    · split at h <;> simp at h

theorem enum_block (eng : Engine) (opt : StreamOptions) (s : SourceFile) (b : BState) :
    ((enumEvents eng opt s b).2.1 = none → IsBlock eng opt s (enumEvents eng opt s b).1) ∧
    ((enumEvents eng opt s b).2.1.isSome → Crashes eng opt s ∧ ∀ e ∈ (enumEvents eng opt s b).1, ∀ u l m, e ≠ .parseError u l m) := by
  have hp := parseDefault_again b s.data
  rcases ha : aloneOutcome s.data with x | r
  · rw [ha] at hp
    cases x with
    | composite es =>
      have : enumEvents eng opt s b = (createErrors s.uri es, none, (parseDefault newBuilder s.data).2.shift b.nextId) := by
        unfold enumEvents; rw [hp]; rfl
      rw [this]
      exact ⟨fun _ => .inr ⟨es, ha, rfl⟩, by simp⟩
    | single e => exact absurd ha (parse_ne_single classic classic_lawful _ _ _ e)
    | crash c =>
      have : enumEvents eng opt s b = ([], some c, (parseDefault newBuilder s.data).2.shift b.nextId) := by
        unfold enumEvents; rw [hp]; rfl
      rw [this]
      exact ⟨by simp, fun _ => ⟨.inl ⟨c, ha⟩, by simp⟩⟩
    | outOfFuel => exact absurd ha (aloneOutcome_ne_fuel _)
  · obtain ⟨d, rfl⟩ := aloneOutcome_some ha
    rw [ha] at hp
    have hr := Pickles.compile_raised (k := b.nextId) (eng := eng) s.uri d (aloneNext s.data)
    unfold enumEvents
    rw [hp]
    simp only [Except.map, Option.map_some]
    have hn : ((parseDefault newBuilder s.data).2.shift b.nextId).nextId = aloneNext s.data + b.nextId := rfl
    rw [hn, hr]
    by_cases ho : opt.printPickles = true
    · simp only [ho, if_true]
      rcases hc : Pickles.compile eng s.uri d (aloneNext s.data) with c | ⟨ps, n⟩
      · refine ⟨by simp, fun _ => ⟨.inr ⟨ho, d, c, ha, hc⟩, ?_⟩⟩
        intro e he u l m h
        subst h
        simp only [List.mem_append] at he
        rcases he with he | he <;> split at he <;> simp at he
      · refine ⟨fun _ => .inl ⟨d, b.nextId, ha, ps, fun _ => ⟨n, hc⟩, ?_⟩, by simp⟩
        simp [ho]
    · simp only [ho]
      refine ⟨fun _ => .inl ⟨d, b.nextId, ha, [], fun h => absurd h ho, ?_⟩, by simp⟩
      simp [ho]

/-- C42: a stream that is not ended by an exception consists of one block per source, in order; each block is all or nothing: as
enabled the source, its document and its pickles in the compiler's order — the same as the text alone would give, with ids raised —
or, if the text does not parse, its parse errors one by one. -/
theorem C42_stream_blocks (eng : Engine) (opt : StreamOptions) (ss : List SourceFile) (h : (stream eng opt ss).2.1 = none) :
    ∃ blocks : List (List Event), (stream eng opt ss).1 = blocks.flatten ∧ List.Forall₂ (IsBlock eng opt) ss blocks := by
  unfold stream at *
  generalize newBuilder = b at *
  induction ss generalizing b with
  | nil => exact ⟨[], rfl, .nil⟩
  | cons s ss ih =>
    have h1 := (enum_block eng opt s b).1
    simp only [streamFrom] at h ⊢
    rcases he : enumEvents eng opt s b with ⟨evs, c, b'⟩
    rw [he] at h h1
    cases c with
    | some c => simp at h
    | none =>
      simp only at h ⊢
      obtain ⟨bs, e1, e2⟩ := ih b' h
      exact ⟨evs :: bs, by rw [e1]; rfl, .cons (h1 rfl) e2⟩

/-- C42: if an exception ends the stream, it comes from a source whose text, parsed (and compiled) alone, raises an exception that is
no parse error; all sources before it have their blocks, and none of the events of the source itself is a parse error. -/
theorem C42_stream_ended (eng : Engine) (opt : StreamOptions) (ss : List SourceFile) (h : (stream eng opt ss).2.1 ≠ none) :
    ∃ pre s post blocks rest, ss = pre ++ s :: post ∧ Crashes eng opt s ∧
      (stream eng opt ss).1 = List.flatten blocks ++ rest ∧ List.Forall₂ (IsBlock eng opt) pre blocks ∧
      ∀ e ∈ rest, ∀ u l m, e ≠ Event.parseError u l m := by
  unfold stream at *
  generalize newBuilder = b at *
  induction ss generalizing b with
  | nil => simp [streamFrom] at h
  | cons s ss ih =>
    have h1 := enum_block eng opt s b
    simp only [streamFrom] at h ⊢
    rcases he : enumEvents eng opt s b with ⟨evs, c, b'⟩
    rw [he] at h h1
    cases c with
    | some c => exact ⟨[], s, ss, [], evs, rfl, (h1.2 rfl).1, rfl, .nil, (h1.2 rfl).2⟩
    | none =>
      simp only at h ⊢
      obtain ⟨pre, s', post, bs, rest, e1, e2, e3, e4, e5⟩ := ih b' h
      exact ⟨s :: pre, s', post, evs :: bs, rest, by rw [e1]; rfl, e2, by rw [e3]; simp, .cons (h1.1 rfl) e4, e5⟩

/-! A stream over a good, a bad and another good source. -/

/-- Three sources, the second of which does not parse. -/
def Sample.sources : List SourceFile := [⟨py"a.feature", Sample.text⟩, ⟨py"b.feature", Sample.bad⟩, ⟨py"c.feature", Sample.text⟩]

example : (stream Sample.noEngine ⟨true, true, true⟩ Sample.sources).2.1 = none := by decide +kernel
example : (stream Sample.noEngine ⟨true, true, true⟩ Sample.sources).1.map (fun e => match e with
    | .source _ => 0 | .document _ _ => 1 | .pickle _ => 2 | .parseError _ _ _ => 3) = [0, 1, 2, 2, 2, 3, 0, 1, 2, 2, 2] := by
  decide +kernel

/-- A source with a tag that contains white space ends the stream (see C04). -/
example : (stream Sample.noEngine ⟨true, true, true⟩ [⟨py"a.feature", py"@a b\nFeature: x"⟩]).2.1 = some .attributeError := by decide +kernel

end Gherkin
