import Verif.Props.Stream
import Verif.Props.Samples
import Verif.Spec.Switches

/-! # C76: switching events off leaves them out and changes nothing else -/

namespace Gherkin

theorem enum_filter (eng : Engine) (opt : StreamOptions) (s : SourceFile) (b : BState) :
    enumEvents eng opt s b = ((enumEvents eng ⟨true, true, opt.printPickles⟩ s b).1.filter (Event.wanted opt),
      (enumEvents eng ⟨true, true, opt.printPickles⟩ s b).2) := by
  have herr : ∀ es, (createErrors s.uri es).filter (Event.wanted opt) = createErrors s.uri es := by
    intro es
    apply List.filter_eq_self.2
    intro e he
    simp only [createErrors, List.mem_map] at he
    obtain ⟨x, _, rfl⟩ := he
    rfl
  have hp : ∀ (h : opt.printPickles = true) (ps : List Pickle), (ps.map Event.pickle).filter (Event.wanted opt) = ps.map Event.pickle := by
    intro h ps
    apply List.filter_eq_self.2
    intro e he
    simp only [List.mem_map] at he
    obtain ⟨x, _, rfl⟩ := he
    exact h
  have hevs : ∀ d : Document, ([Event.source s] ++ [Event.document s.uri d]).filter (Event.wanted opt) =
      (if opt.printSource then [Event.source s] else []) ++ (if opt.printAst then [.document s.uri d] else []) := by
    intro d
    cases h1 : opt.printSource <;> cases h2 : opt.printAst <;> simp [Event.wanted, h1, h2]
  unfold enumEvents
  rcases parseDefault b s.data with ⟨r, b'⟩
  rcases r with x | r
  · cases x <;> simp only [herr, List.filter_nil]
  · cases r with
    | none => simp only [List.filter_nil]
    | some d =>
      simp only [if_true]
      by_cases ho : opt.printPickles = true
      · simp only [ho, if_true]
        rcases Pickles.compile eng s.uri d b'.nextId with c | ⟨ps, n⟩
        · simp only [hevs]
        · simp only [List.filter_append _ (List.map _ _), hevs, hp ho]
      · rw [if_neg ho, if_neg ho]
        simp only [hevs]

theorem streamFrom_filter (eng : Engine) (opt : StreamOptions) (ss : List SourceFile) (b : BState) :
    streamFrom eng opt ss b = ((streamFrom eng ⟨true, true, opt.printPickles⟩ ss b).1.filter (Event.wanted opt),
      (streamFrom eng ⟨true, true, opt.printPickles⟩ ss b).2) := by
  induction ss generalizing b with
  | nil => rfl
  | cons s ss ih =>
    simp only [streamFrom]
    rw [enum_filter eng opt s b]
    rcases enumEvents eng ⟨true, true, opt.printPickles⟩ s b with ⟨evs, c, b'⟩
    cases c with
    | some c => rfl
    | none =>
      simp only
      rw [ih b']
      rcases streamFrom eng ⟨true, true, opt.printPickles⟩ ss b' with ⟨evs', c', b''⟩
      simp only [List.filter_append]

/-- **C76, sources and documents.** Switching source events or document events off leaves out exactly these events; all others are the same, with the same
ids, in the same order, and the stream ends in the same way, also when it ends with an exception. -/
theorem C76_filter (eng : Engine) (opt : StreamOptions) (ss : List SourceFile) :
    (stream eng opt ss).1 = (stream eng ⟨true, true, opt.printPickles⟩ ss).1.filter (Event.wanted opt) ∧
    (stream eng opt ss).2.1 = (stream eng ⟨true, true, opt.printPickles⟩ ss).2.1 := by
  unfold stream
  rw [streamFrom_filter eng opt ss newBuilder]
  exact ⟨rfl, rfl⟩

theorem sameButIds_refl : ∀ evs : List Event, List.Forall₂ SameButIds evs evs
  | [] => .nil
  | e :: evs => .cons (.refl e) (sameButIds_refl evs)

theorem enum_pickles (eng : Engine) (opt : StreamOptions) (s : SourceFile) (b b1 : BState) (h : (enumEvents eng { opt with printPickles := true } s b1).2.1 = none) :
    (enumEvents eng { opt with printPickles := false } s b).2.1 = none ∧
    List.Forall₂ SameButIds (enumEvents eng { opt with printPickles := false } s b).1
      ((enumEvents eng { opt with printPickles := true } s b1).1.filter (Event.wanted { opt with printPickles := false })) := by
  have hp := parseDefault_again b s.data
  have hp1 := parseDefault_again b1 s.data
  rcases ha : aloneOutcome s.data with x | r
  · rw [ha] at hp hp1
    cases x with
    | composite es =>
      have e1 : ∀ (o : StreamOptions) (b : BState), parseDefault b s.data = ((Except.error (Exc.composite es)).map (Option.map (Document.shift b.nextId)),
        (parseDefault newBuilder s.data).2.shift b.nextId) → (enumEvents eng o s b).1 = createErrors s.uri es ∧ (enumEvents eng o s b).2.1 = none := by
        intro o b hp; unfold enumEvents; rw [hp]; exact ⟨rfl, rfl⟩
      rw [(e1 _ b hp).1, (e1 _ b1 hp1).1, (e1 _ b hp).2]
      refine ⟨rfl, ?_⟩
      rw [List.filter_eq_self.2]
      · exact sameButIds_refl _
      · intro e he
        simp only [createErrors, List.mem_map] at he
        obtain ⟨x, _, rfl⟩ := he
        rfl
    | single e => exact absurd ha (parse_ne_single classic classic_lawful _ _ _ e)
    | crash c =>
      exfalso
      unfold enumEvents at h
      rw [hp1] at h
      cases h
    | outOfFuel => exact absurd ha (aloneOutcome_ne_fuel _)
  · obtain ⟨d, rfl⟩ := aloneOutcome_some ha
    rw [ha] at hp hp1
    unfold enumEvents at h ⊢
    rw [hp1] at h ⊢
    rw [hp]
    simp only [Except.map, Option.map_some, if_true] at h ⊢
    rcases hc : Pickles.compile eng s.uri (d.shift b1.nextId) ((parseDefault newBuilder s.data).2.shift b1.nextId).nextId with c | ⟨ps, n⟩
    · rw [hc] at h; cases h
    · refine ⟨rfl, ?_⟩
      have hps : (ps.map Event.pickle).filter (Event.wanted { opt with printPickles := false }) = [] := by
        rw [List.filter_eq_nil_iff]
        intro e he
        simp only [List.mem_map] at he
        obtain ⟨x, _, rfl⟩ := he
        simp [Event.wanted]
      simp only [List.filter_append, hps, List.append_nil, Bool.false_eq_true, if_false]
      cases h1 : opt.printSource <;> cases h2 : opt.printAst
      · exact .nil
      · exact .cons (.document ..) .nil
      · exact .cons (.refl _) .nil
      · exact .cons (.refl _) (.cons (.document ..) .nil)

/-- **C76, pickles.** Switching pickles off leaves out exactly the pickles; of the other events only the ids of documents change. If the stream with pickles is
not ended by an exception, neither is the one without. -/
theorem C76_pickles (eng : Engine) (opt : StreamOptions) (ss : List SourceFile) (h : (stream eng { opt with printPickles := true } ss).2.1 = none) :
    (stream eng { opt with printPickles := false } ss).2.1 = none ∧
    List.Forall₂ SameButIds (stream eng { opt with printPickles := false } ss).1
      ((stream eng { opt with printPickles := true } ss).1.filter (Event.wanted { opt with printPickles := false })) := by
  unfold stream at h ⊢
  have key : ∀ (b b1 : BState), (streamFrom eng { opt with printPickles := true } ss b1).2.1 = none →
      (streamFrom eng { opt with printPickles := false } ss b).2.1 = none ∧
      List.Forall₂ SameButIds (streamFrom eng { opt with printPickles := false } ss b).1
        ((streamFrom eng { opt with printPickles := true } ss b1).1.filter (Event.wanted { opt with printPickles := false })) := by
    clear h
    induction ss with
    | nil => intro b b1 _; exact ⟨rfl, .nil⟩
    | cons s ss ih =>
      intro b b1 h
      have h0 := enum_pickles eng opt s b b1
      simp only [streamFrom] at h ⊢
      rcases e1 : enumEvents eng { opt with printPickles := true } s b1 with ⟨evs1, c1, b1'⟩
      rw [e1] at h h0
      cases c1 with
      | some c => cases h
      | none =>
        rcases e2 : enumEvents eng { opt with printPickles := false } s b with ⟨evs, c, b'⟩
        rw [e2] at h0
        obtain ⟨k1, k2⟩ := h0 rfl
        simp only at k1 k2 h
        subst k1
        simp only
        obtain ⟨j1, j2⟩ := ih b' b1' h
        refine ⟨j1, ?_⟩
        rw [List.filter_append]
        exact List.rel_append k2 j2
  exact key _ _ h

/-! ### The hypotheses can be met -/

/-- The ids of the second document: 3 with pickles of the first file, 1 without. -/
example : (stream Sample.noEngine ⟨false, true, true⟩ [⟨py"a", py"Feature: f\n  Scenario: s\n    * x\n"⟩, ⟨py"b", py"Feature: g\n  Rule: r\n"⟩]).2.1 = none ∧
    (stream Sample.noEngine ⟨false, true, true⟩ [⟨py"a", py"Feature: f\n  Scenario: s\n    * x\n"⟩, ⟨py"b", py"Feature: g\n  Rule: r\n"⟩]).1.map Event.ids =
      [[1, 0], [3, 2], [4]] ∧
    (stream Sample.noEngine ⟨false, true, false⟩ [⟨py"a", py"Feature: f\n  Scenario: s\n    * x\n"⟩, ⟨py"b", py"Feature: g\n  Rule: r\n"⟩]).1.map Event.ids =
      [[1, 0], [2]] := by decide +kernel

end Gherkin
