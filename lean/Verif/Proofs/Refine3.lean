import Verif.Proofs.Refine2
import Verif.TokenFormatter
import Verif.Spec.Source

/-! The whole parse with the classic matcher equals the queue-free parse over the lines of the text. -/

namespace Gherkin

theorem splitLines_ne_nil (text : Str) : ∀ s ∈ splitLines text, s ≠ [] := by
  induction text with
  | nil => simp [splitLines]
  | cons c cs ih =>
    unfold splitLines
    split
    · intro s hs
      simp only [List.mem_cons] at hs
      rcases hs with rfl | hs
      · simp
      · exact ih s hs
    · split
      · simp
      · rename_i l ls h
        intro s hs
        simp only [List.mem_cons] at hs
        rcases hs with rfl | hs
        · simp
        · exact ih s (by rw [h]; simp [hs])

theorem rest_ofStr (text : Str) : (Scanner.ofStr text).rest = tokenLines text := by
  simp only [Scanner.rest, Scanner.ofStr, tokenLines, sourceLines, eofLine, Nat.zero_add]

theorem tokenLines_numbers (text : Str) :
    (tokenLines text).map (·.number) = List.range' 1 ((splitLines text).length + 1) := by
  unfold tokenLines sourceLines eofLine
  rw [List.range'_concat]
  simp only [List.map_append, List.map_map, List.map_cons, List.map_nil]
  congr 1
  · have : ((fun x : Line => x.number) ∘ fun (x : Str × Nat) => ({ text := x.1, number := x.2 } : Line)) = Prod.snd := rfl
    rw [this, List.zipIdx_map_snd]
  · simp [Nat.add_comm]

theorem tokenLines_numbered (text : Str) : Numbered (tokenLines text) := by
  refine ⟨?_, ?_, ?_⟩
  · rw [tokenLines_numbers]; exact List.pairwise_lt_range'
  · intro l hl
    simp only [tokenLines, List.dropLast_concat, sourceLines, List.mem_map] at hl
    obtain ⟨⟨s, n⟩, hs, rfl⟩ := hl
    have := splitLines_ne_nil text s (List.fst_mem_of_mem_zipIdx hs)
    cases s with
    | nil => exact absurd rfl this
    | cons => rfl
  · exact ⟨eofLine text, by simp [tokenLines], rfl⟩

section
variable {σ ρ : Type} {B : Builder σ ρ} {stop : Bool}

/-- The classic parser processes the lines of the text one by one: its outcome, and the final state of matcher and builder, are
those of the queue-free parser. -/
theorem parse_sim (hB : B.Plain) (text : Str) {m : CState} (hm : m.Valid) (b : σ) :
    (parse (classicCfg B stop) text m b).1 = (Pure.parse (classicCfg B stop) (tokenLines text) m b).1 ∧
    (parse (classicCfg B stop) text m b).2.norm = (Pure.parse (classicCfg B stop) (tokenLines text) m b).2 := by
  have hin : (Ctx.init (classicCfg B stop) text m b).norm =
      { scanner := ⟨[], 0⟩, matcher := (classicCfg B stop).matcher.reset m, queue := [], errors := [],
        builder := (classicCfg B stop).builder.reset b, log := [] } := rfl
  have hp1 : ∀ (p : Prod) (t : Token) (c : Ctx CState σ), runProd (classicCfg B stop) p t c.norm =
      ((runProd (classicCfg B stop) p t c).1, (runProd (classicCfg B stop) p t c).2.norm) := by
    intro p t c
    rw [runProd_eq, runProd_eq]
    exact handle_norm _ _ { c with builder := applyEv (classicCfg B stop).builder c.builder (p.ev t), log := c.log ++ [p.ev t] }
  have hk0 : Keep false (tokenLines text) (Ctx.init (classicCfg B stop) text m b) := by
    refine ⟨fun _ => ⟨?_, ?_, .inl ⟨rfl, ?_⟩⟩, ?_, ?_⟩
    · simp [Ctx.init]
    · exact splitLines_ne_nil text
    · exact (rest_ofStr text).symm
    · exact Classic.reset_valid hm
    · intro e he; simp [Ctx.init] at he
  unfold parse Pure.parse
  rw [← hin, hp1]
  have hks : Keep false (tokenLines text) (runProd (classicCfg B stop) (.start .gherkinDocument) (Token.fresh ⟨[], 0⟩)
      (Ctx.init (classicCfg B stop) text m b)).2 := by
    have := Keep.runProds (stop := stop) hB hk0 [.start .gherkinDocument] (Token.fresh ⟨[], 0⟩)
    unfold runProds at this
    rcases hr : runProd (classicCfg B stop) (.start .gherkinDocument) (Token.fresh ⟨[], 0⟩)
      (Ctx.init (classicCfg B stop) text m b) with ⟨r, c⟩
    rw [hr] at this
    cases r <;> exact this
  have hsc := (runProd_frame (cfg := classicCfg B stop) (.start .gherkinDocument) (Token.fresh ⟨[], 0⟩)
      (Ctx.init (classicCfg B stop) text m b))
  rcases hr : runProd (classicCfg B stop) (.start .gherkinDocument) (Token.fresh ⟨[], 0⟩)
      (Ctx.init (classicCfg B stop) text m b) with ⟨r, c⟩
  rw [hr] at hks hsc
  cases r with
  | error x => exact ⟨rfl, rfl⟩
  | ok u =>
    simp only
    have hq : c.queue = [] := hsc.2.1
    have hl := loop_sim (stop := stop) hB (fuel := c.scanner.lines.length + 1) (q := 0) (tokenLines_numbered text) hks
      (by simp [Ctx.pend, hq])
    rcases hm1 : parseLoop (classicCfg B stop) (c.scanner.lines.length + 1) 0 c with ⟨r1, c1⟩
    rcases hm2 : Pure.loop (classicCfg B stop) (tokenLines text) 0 c.norm with ⟨r2, c2⟩
    rw [hm1, hm2] at hl
    simp only at hl
    obtain ⟨h1, h2⟩ := hl
    subst h2
    cases r2 with
    | error x => subst h1; exact ⟨rfl, rfl⟩
    | ok q =>
      subst h1
      simp only [Except.map]
      rw [hp1]
      rcases hr2 : runProd (classicCfg B stop) (.stop .gherkinDocument) (Token.fresh ⟨[], 0⟩) c1 with ⟨r3, c3⟩
      cases r3 with
      | error x => exact ⟨rfl, rfl⟩
      | ok u =>
        simp only
        have he : c3.norm.errors = c3.errors := rfl
        have hb : c3.norm.builder = c3.builder := rfl
        rw [he, hb]
        split
        · exact ⟨rfl, rfl⟩
        · rcases hres : B.result c3.builder with x | r
          · cases x <;> exact ⟨rfl, rfl⟩
          · exact ⟨rfl, rfl⟩

end

theorem getTableRows_plain {items : List Item} {n : Nat} {e : Err} {k : Nat}
    (h : AstB.getTableRows items n = (.error (.parser e), k)) : e.aliasOf = none := by
  unfold AstB.getTableRows at h
  simp only at h
  split at h
  · simp only [Prod.mk.injEq, Except.error.injEq, MExc.parser.injEq] at h
    rw [← h.1]; rfl
  · simp at h

theorem transform_plain {r : Rule} {items : List Item} {cs : List Comment} {n k : Nat} {e : Err}
    (h : AstB.transform r items cs n = (.error (.parser e), k)) : e.aliasOf = none := by
  cases r <;> simp only [AstB.transform] at h
  case dataTable =>
    unfold AstB.mkDataTable at h
    split at h <;> simp at h
    rename_i e' n' he
    obtain ⟨rfl, rfl⟩ := h
    exact getTableRows_plain he
  case examplesTable =>
    unfold AstB.mkExamplesTable at h
    split at h <;> simp at h
    rename_i e' n' he
    obtain ⟨rfl, rfl⟩ := h
    exact getTableRows_plain he
  case step => unfold AstB.mkStep at h; split at h <;> simp at h
  case docString => unfold AstB.mkDocString at h; repeat' (first | (simp at h; done) | split at h)
  case background => unfold AstB.mkBackground at h; repeat' (first | (simp at h; done) | split at h)
  case scenarioDefinition => unfold AstB.mkScenario at h; repeat' (first | (simp at h; done) | split at h)
  case examplesDefinition => unfold AstB.mkExamples at h; repeat' (first | (simp at h; done) | split at h)
  case description => unfold AstB.mkDescription at h; repeat' (first | (simp at h; done) | split at h)
  case rule => unfold AstB.mkRule at h; repeat' (first | (simp at h; done) | split at h)
  case feature => unfold AstB.mkFeature at h; repeat' (first | (simp at h; done) | split at h)
  all_goals simp at h

theorem astBuilder_plain : astBuilder.Plain := by
  intro b ev e h
  cases ev with
  | take l => simp [evAnswer] at h
  | start r => simp [evAnswer, astBuilder, AstB.startRule] at h
  | stop r =>
    simp only [evAnswer, astBuilder, AstB.endRule] at h
    split at h
    · simp at h
    · simp at h
    · split at h
      · simp at h
      · rename_i e' n' he
        simp only [Except.error.injEq] at h
        subst h
        exact transform_plain he
  | build t =>
    simp only [evAnswer, astBuilder, AstB.build] at h
    split at h
    · simp at h
    · split at h <;> simp at h

theorem formatter_plain : formatter.Plain := by
  intro b ev e h
  cases ev <;> simp [evAnswer, formatter] at h

end Gherkin
