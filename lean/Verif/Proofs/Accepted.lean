import Verif.Proofs.Run

/-! The invariant of every run, and what an accepted run amounts to. -/

namespace Gherkin

/-! ### Static facts about the table -/

/-- Every transition builds its token exactly once; end-of-file transitions, and only these, lead to state 42. -/
def rowOk2 (q : Nat) : Bool :=
  match table q with
  | some row => row.trans.all fun tr =>
      (tr.prods.filter (· == .build)).length == 1 && (tr.kind == .eof) == (tr.target == 42) &&
      tr.prods.getLast? == some .build
  | none => true

theorem rows_ok2 : ∀ q ∈ allStates, rowOk2 q = true := by decide +kernel

theorem table_builds {q : Nat} {row : StateRow} (h : table q = some row) {tr : Trans} (htr : tr ∈ row.trans) :
    (tr.prods.filter (· == .build)).length = 1 ∧ (tr.kind = .eof ↔ tr.target = 42) ∧
    tr.prods.getLast? = some .build := by
  have hq := rows_ok2 q (mem_allStates h)
  unfold rowOk2 at hq
  rw [h] at hq
  simp only [List.all_eq_true, Bool.and_eq_true, beq_iff_eq] at hq
  have := hq tr htr
  refine ⟨this.1.1, ?_, this.2⟩
  have h2 := this.1.2
  constructor
  · intro hk; simpa [hk] using h2
  · intro hk; simpa [hk] using h2

theorem builds_prods (t : Token) (ps : List Prod) (h : (ps.filter (· == .build)).length = 1) :
    builds (ps.map (Prod.ev t)) = [t] := by
  have key : ∀ ps : List Prod, builds (ps.map (Prod.ev t)) = List.replicate (ps.filter (· == .build)).length t := by
    intro ps
    induction ps with
    | nil => rfl
    | cons p ps ih =>
      cases p <;> simp [Prod.ev, builds, ih]
      rfl
  rw [key, h]; rfl

theorem confOf_42 : confOf 42 = some [(.gherkinDocument, .eps), (.none, .eps)] := by decide +kernel

section
variable {μ σ ρ : Type} {cfg : Config μ σ ρ}

/-- All that matching keeps. -/
theorem closed_all (hL : cfg.matcher.Lawful) (text : Str) : MatchClosed cfg
    (fun c c' => (c'.builder = c.builder ∧ c'.log = c.log) ∧ Grows c.errors c'.errors ∧
      (SrcInv text [] c → SrcInv text [] c') ∧ (cfg.stop = true → c.errors = [] → c'.errors = []))
    (fun c x c' => (c'.builder = c.builder ∧ c'.log = c.log) ∧ ExcOk cfg c.errors x ∧ True ∧ True) :=
  (closed_frame hL).and ((closed_errors hL).and ((closed_src hL text).and (closed_stop hL)))

/-- The invariant of the main loop, without the part about pending tokens. -/
structure RInv (cfg : Config μ σ ρ) (text : Str) (b0 : σ) (q : Nat) (c : Ctx μ σ) : Prop where
  fits : ∃ cf, confOf q = some cf ∧ Fits none (treeStack c.log) cf
  builder : c.builder = c.log.foldl (applyEv cfg.builder) b0
  errors : EInv c.errors
  clean : c.errors = [] → BuildsOk cfg.builder b0 c.log ∧ takes c.log = (builds c.log).map (·.line)
  tokens : ∀ t ∈ builds c.log, TokSrc text t ∧ ∃ k, t.type = some k ∧ (k = .eof ↔ t.eof = true) ∧ Built cfg.matcher k t
  stop : cfg.stop = true → c.errors = []

/-- One round of the main loop keeps the invariant. -/
theorem step_RInv (hL : cfg.matcher.Lawful) {text : Str} {b0 : σ} {q : Nat} {c : Ctx μ σ} {t : Token}
    (hI : RInv cfg text b0 q c) (ht : TokSrc text t) :
    (∀ q' c', matchToken cfg q t { c with log := c.log ++ [.take t.line] } = (.ok q', c') →
      RInv cfg text b0 q' c' ∧ takes c'.log = takes c.log ++ [t.line] ∧ (SrcInv text [] c → SrcInv text [] c') ∧
      (t.eof = true → c'.errors = [] → q' = 42) ∧ (t.eof = false → q ≠ 42 → q' ≠ 42)) ∧
    (∀ x c', matchToken cfg q t { c with log := c.log ++ [.take t.line] } = (.error x, c') → ExcOk cfg c.errors x) := by
  have h := matchToken_cases hL (closed_all hL text) q t { c with log := c.log ++ [.take t.line] }
  rcases hm : matchToken cfg q t { c with log := c.log ++ [.take t.line] } with ⟨r, c'⟩
  rw [hm] at h
  simp only at h
  cases h with
  | noState h => exact ⟨by simp, fun x c'' h => by cases h; trivial⟩
  | matchExc h1 h2 =>
    refine ⟨by simp, fun x c'' h => ?_⟩
    cases h
    exact h2.2.1
  | unexpected h1 h2 h3 h4 h5 h6 =>
    rename_i row t' c1
    obtain ⟨⟨hb, hlog⟩, hg, hsrc, hstop⟩ := h2
    simp only at hb hlog hg hsrc hstop
    rcases h6 with ⟨hs, rfl, rfl⟩ | ⟨hs, rfl, ha⟩ | ⟨hs, x, rfl, ha⟩
    · exact ⟨by simp, fun x c'' h => by cases h; exact hs⟩
    · refine ⟨?_, by simp⟩
      intro q' c'' heq
      cases heq
      obtain ⟨ha1, ha2, ha3⟩ := addError_ok ha
      have hstay := (table_follows_grammar h1).1
      have hlog' : c'.log = c.log ++ [.take t.line] := by rw [ha3]; exact hlog
      refine ⟨⟨?_, ?_, ?_, ?_, ?_, ?_⟩, ?_, ?_, ?_, ?_⟩
      · obtain ⟨cf, hcf, hf⟩ := hI.fits
        refine ⟨cf, by rw [hstay]; exact hcf, ?_⟩
        rw [hlog', treeStack_append]
        exact hf
      · rw [hlog', ha3]; simp [hb, hI.builder, applyEv]
      · exact (hg.trans ha1).2 hI.errors
      · intro h0; exact absurd h0 ha2
      · rw [hlog', builds_append]; simpa [builds] using hI.tokens
      · intro hst; rw [hs] at hst; simp at hst
      · rw [hlog', takes_append]; simp [takes]
      · intro hs'
        have hs1 := hsrc (hs'.congr rfl rfl)
        rw [ha3]
        exact hs1.congr rfl rfl
      · intro _ h0; exact absurd h0 ha2
      · intro _ hq; rw [hstay]; exact hq
    · exact ⟨by simp, fun y c'' h => by cases h; exact (addError_err ha hs).1.mono hg⟩
  | taken h1 h2 hj0 hj1 h4 h5 h6 h7 h8 h9 hj2 h11 h12 =>
    rename_i row pre tr post t0 t' c0 c1 c2
    obtain ⟨⟨hb, hlog⟩, hg, hsrc, hstop⟩ := hj2
    simp only at hb hlog hg hsrc hstop
    have htr : tr ∈ row.trans := by rw [h2]; simp
    rcases h12 with ⟨rfl, hp⟩ | ⟨x, rfl, hp⟩
    · refine ⟨?_, by simp⟩
      intro q' c'' heq
      cases heq
      obtain ⟨p1, p2, p3, p4, p5⟩ := runProds_spec hp
      have pf := runProds_frame (cfg := cfg) tr.prods t' c2
      rw [hp] at pf
      have hlog' : c'.log = c.log ++ ([.take t.line] ++ tr.prods.map (Prod.ev t')) := by rw [p1, hlog]; simp
      obtain ⟨hb1, hb2, hb3⟩ := table_builds h1 htr
      have hblds : builds (tr.prods.map (Prod.ev t')) = [t'] := builds_prods t' _ hb1
      have htype : t'.type = some tr.kind := matchTok_true_type hL h7
      have hkeof : tr.kind = .eof ↔ t.eof = true := by
        have := matchTok_true_eof hL h7
        rw [this]; simp [Token.eof, h4]
      refine ⟨⟨?_, ?_, ?_, ?_, ?_, ?_⟩, ?_, ?_, ?_, ?_⟩
      · obtain ⟨cf, hcf, hf⟩ := hI.fits
        obtain ⟨cf1, cf', e1, e2, e3⟩ := (table_follows_grammar h1).2 tr htr
        rw [hcf] at e1; cases e1
        refine ⟨cf', e2, ?_⟩
        have := fits_prods (t := t') hf htype (confOf_ne e2) e3
        rw [hlog']
        simp only [treeStack, List.foldl_append, List.foldl_cons, List.foldl_nil, List.foldl_map, applyT]
        exact this
      · rw [hlog', p2, hb, hI.builder]; simp [applyEv]
      · exact (hg.trans p3).2 hI.errors
      · intro h0
        have hc0 : c.errors = [] := (hg.trans p3).nil h0
        obtain ⟨k1, k2⟩ := hI.clean hc0
        rw [hlog']
        refine ⟨?_, ?_⟩
        · rw [BuildsOk_append]
          refine ⟨k1, ?_⟩
          rw [BuildsOk_append]
          refine ⟨⟨rfl, trivial⟩, ?_⟩
          have := p4 h0
          rw [hb, hI.builder] at this
          simpa [applyEv] using this
        · rw [takes_append, takes_append, builds_append, builds_append, hblds, takes_prods, k2]
          simp [takes, builds, h5]
      · intro u hu
        rw [hlog', builds_append, builds_append, hblds] at hu
        simp [builds] at hu
        rcases hu with hu | hu
        · exact hI.tokens u hu
        · subst hu
          refine ⟨ht.congr h5 h6, tr.kind, htype, ?_, ?_⟩
          · rw [hkeof]; simp [Token.eof, h5]
          · obtain ⟨_, hmt, _⟩ := matchTok_true h7
            exact ⟨t0, c0.matcher, c1.matcher, h4.trans h5.symm, hmt⟩
      · intro hst; exact p5 hst (hstop hst (hI.stop hst))
      · rw [hlog', takes_append, takes_append, takes_prods]; simp [takes]
      · intro hs'
        exact (hsrc (hs'.congr rfl rfl)).congr pf.1 pf.2.1
      · intro he _; exact hb2.1 (hkeof.2 he)
      · intro he _ h42
        have := hkeof.1 (hb2.2 h42)
        rw [he] at this; simp at this
    · exact ⟨by simp, fun y c'' h => by cases h; exact (runProds_exc hp).mono hg⟩

/-- The whole main loop. -/
theorem parseLoop_RInv (hL : cfg.matcher.Lawful) {text : Str} {b0 : σ} {c : Ctx μ σ} {fuel : Nat}
    (hI : RInv cfg text b0 0 c) (hsrc : SrcInv text [] c) (hf : c.pend < fuel) :
    (∀ c', parseLoop cfg fuel 0 c = (.ok (), c') → ∃ q, RInv cfg text b0 q c' ∧ (c'.errors = [] → q = 42)) ∧
    (∀ x c', parseLoop cfg fuel 0 c = (.error x, c') → ExcOk cfg [] x) := by
  have := parseLoop_ind (cfg := cfg) (I := fun q c => RInv cfg text b0 q c ∧ SrcInv text [] c)
    (F := fun q c => RInv cfg text b0 q c ∧ (c.errors = [] → q = 42)) (Q := fun x _ => ExcOk cfg [] x)
    (by
      intro q c t c1 ⟨hI, hs⟩ hr
      obtain ⟨ht, hs1⟩ := readToken_src (extra := []) (by simp) hs hr
      have hc1 : c1.builder = c.builder ∧ c1.log = c.log ∧ c1.errors = c.errors := by
        rcases readToken_cases c with ⟨t', q, hq, hc⟩ | ⟨l, ls, hq, hl, hc⟩ | ⟨hq, hl, hc⟩ <;>
          (rw [hr] at hc; cases hc; exact ⟨rfl, rfl, rfl⟩)
      have hI1 : RInv cfg text b0 q c1 := by
        refine ⟨?_, ?_, ?_, ?_, ?_, ?_⟩
        · rw [hc1.2.1]; exact hI.fits
        · rw [hc1.1, hc1.2.1]; exact hI.builder
        · rw [hc1.2.2]; exact hI.errors
        · rw [hc1.2.2, hc1.2.1]; exact hI.clean
        · rw [hc1.2.1]; exact hI.tokens
        · rw [hc1.2.2]; exact hI.stop
      have hst := step_RInv hL hI1 ht
      refine ⟨fun q' c' hm => ?_, fun x c' hm => ?_⟩
      · obtain ⟨a1, a2, a3, a4, a5⟩ := hst.1 q' c' hm
        refine ⟨fun he => ⟨a1, a4 he⟩, fun he => ⟨a1, a3 ?_⟩⟩
        refine ⟨fun u hu => hs1.queue u (by simpa using .inr hu), ?_⟩
        rcases hs1.scanner with h | ⟨h, u, hu, hu'⟩
        · exact .inl h
        · refine .inr ⟨h, u, ?_, hu'⟩
          simp at hu ⊢
          rcases hu with rfl | hu
          · rw [he] at hu'; simp at hu'
          · exact hu
      · have := hst.2 x c' hm
        have hE : EInv c1.errors := hI1.errors
        cases x with
        | composite es => exact fun _ => this hE
        | single e => exact this
        | crash k => trivial
        | outOfFuel => exact this)
    fuel 0 c ⟨hI, hsrc⟩
  refine ⟨this.1, fun x c' h => ?_⟩
  have hne := parseLoop_ne_fuel hL fuel 0 c hf
  rw [h] at hne
  exact this.2 x c' h (by intro hx; subst hx; simp at hne)

/-- The context when the main loop starts. -/
theorem start_RInv (text : Str) (m : μ) (b : σ) {c : Ctx μ σ}
    (h : runProd cfg (.start .gherkinDocument) (Token.fresh ⟨[], 0⟩) (Ctx.init cfg text m b) = (.ok (), c)) :
    RInv cfg text (cfg.builder.reset b) 0 c ∧ SrcInv text [] c := by
  have hp : runProds cfg [.start .gherkinDocument] (Token.fresh ⟨[], 0⟩) (Ctx.init cfg text m b) = (.ok (), c) := by
    simp [runProds, h]
  obtain ⟨p1, p2, p3, p4, p5⟩ := runProds_spec hp
  have pf := runProds_frame (cfg := cfg) [.start .gherkinDocument] (Token.fresh ⟨[], 0⟩) (Ctx.init cfg text m b)
  rw [hp] at pf
  simp only [Ctx.init, List.nil_append, List.map_cons, List.map_nil, Prod.ev, List.foldl_cons, List.foldl_nil, applyEv] at *
  refine ⟨⟨?_, ?_, ?_, ?_, ?_, ?_⟩, ?_⟩
  · refine ⟨conf0, confOf_zero, ?_⟩
    rw [p1]
    simp only [treeStack, List.foldl_cons, List.foldl_nil, applyT, conf0]
    exact .cons (by simp [advs]) (by simp) (by simp) (.cons (by decide) (by simp) (by simp) .nil)
  · rw [p1, p2]; rfl
  · exact p3.2 ⟨by simp, by simp⟩
  · intro h0
    rw [p1]
    exact ⟨p4 h0, rfl⟩
  · rw [p1]; simp [builds]
  · intro hs; exact p5 hs trivial
  · refine ⟨?_, ?_⟩
    · rw [pf.2.1]; simp
    · rw [pf.1]; left; simp [Scanner.ofStr]

/-- What an accepted parse amounts to: a derivation tree of the grammar whose leaves are the processed lines, and a builder
that accepted exactly the tree's events. -/
structure Accepted (cfg : Config μ σ ρ) (text : Str) (b0 : σ) (c : Ctx μ σ) (kids : List Tree) : Prop where
  conforms : Conforms (.node .gherkinDocument kids)
  stack : treeStack c.log = [(.none, [.node .gherkinDocument kids])]
  leaves : (Tree.node .gherkinDocument kids).leaves = builds c.log
  lines : takes c.log = (builds c.log).map (·.line)
  builder : c.builder = c.log.foldl (applyEv cfg.builder) b0
  builds : BuildsOk cfg.builder b0 c.log
  tokens : ∀ t ∈ Gherkin.builds c.log, TokSrc text t ∧
    ∃ k, t.type = some k ∧ (k = .eof ↔ t.eof = true) ∧ Built cfg.matcher k t

theorem parse_cases (hL : cfg.matcher.Lawful) (text : Str) (m : μ) (b : σ) :
    (∀ r c, parse cfg text m b = (.ok r, c) → c.errors = [] ∧ cfg.builder.result c.builder = .ok r ∧
      ∃ kids, Accepted cfg text (cfg.builder.reset b) c kids) ∧
    (∀ es c, parse cfg text m b = (.error (.composite es), c) →
      (es.map (·.msg)).Nodup ∧ 1 ≤ es.length ∧ es.length ≤ 11 ∧ cfg.stop = false) := by
  unfold parse
  have h0 : ∀ y d, runProd cfg (.start .gherkinDocument) (Token.fresh ⟨[], 0⟩) (Ctx.init cfg text m b) = (y, d) →
      ∀ x, y = .error x → ExcOk cfg [] x := by
    intro y d h x hx
    rw [runProd_eq] at h
    exact (handle_errors h).2 x hx
  have comp : ∀ es, ExcOk cfg [] (.composite es) →
      (es.map (·.msg)).Nodup ∧ 1 ≤ es.length ∧ es.length ≤ 11 ∧ cfg.stop = false := by
    intro es h
    have := h ⟨by simp, by simp⟩
    exact ⟨this.1, by omega, by omega, this.2.2⟩
  rcases hp : runProd cfg (.start .gherkinDocument) (Token.fresh ⟨[], 0⟩) (Ctx.init cfg text m b) with ⟨y, c⟩
  have h0' := h0 y c hp
  cases y with
  | error x =>
    simp only
    refine ⟨by simp, fun es d h => ?_⟩
    simp at h
    exact comp es (h0' _ (by rw [← h.1]))
  | ok u =>
    simp only
    obtain ⟨hI, hs⟩ := start_RInv text m b hp
    have hpd : c.pend < c.scanner.lines.length + 1 := by
      have pf := runProd_frame (cfg := cfg) (.start .gherkinDocument) (Token.fresh ⟨[], 0⟩) (Ctx.init cfg text m b)
      rw [hp] at pf
      have hq : c.queue = [] := pf.2.1
      simp [Ctx.pend, hq]
    have hl := parseLoop_RInv hL hI hs hpd
    rcases hpl : parseLoop cfg (c.scanner.lines.length + 1) 0 c with ⟨y, c1⟩
    cases y with
    | error x =>
      simp only
      refine ⟨by simp, fun es d h => ?_⟩
      simp at h
      exact comp es (by rw [← h.1]; exact hl.2 x c1 hpl)
    | ok u =>
      simp only
      obtain ⟨q, hR, h42⟩ := hl.1 c1 hpl
      rcases hpp : runProd cfg (.stop .gherkinDocument) (Token.fresh ⟨[], 0⟩) c1 with ⟨y, c2⟩
      have hpe := runProd_eq (cfg := cfg) (.stop .gherkinDocument) (Token.fresh ⟨[], 0⟩) c1
      rw [hpp] at hpe
      have hhe := handle_errors hpe.symm
      simp only at hhe
      cases y with
      | error x =>
        simp only
        refine ⟨by simp, fun es d h => ?_⟩
        simp at h
        have := hhe.2 x rfl
        rw [h.1] at this
        have := this hR.errors
        exact ⟨this.1, by omega, by omega, this.2.2⟩
      | ok u =>
        simp only
        have hg := hhe.1 () rfl
        split
        · rename_i hne
          refine ⟨by simp, fun es d h => ?_⟩
          simp at h
          obtain ⟨rfl, rfl⟩ := h
          have := hg.1.2 hR.errors
          refine ⟨this.1, ?_, by have := this.2; omega, ?_⟩
          · cases hce : c2.errors with
            | nil => exact absurd hce hne
            | cons a l => simp
          · cases hst : cfg.stop with
            | false => rfl
            | true =>
              exfalso
              have hc1 := hR.stop hst
              rcases handle_ok hpe.symm with ⟨_, rfl⟩ | ⟨_, _, hs, _⟩
              · exact hne hc1
              · rw [hst] at hs; simp at hs
        · rename_i hne
          have hc2 : c2.errors = [] := by simpa using hne
          have hc1 : c1.errors = [] := hg.1.nil hc2
          have hq := h42 hc1
          subst hq
          have hans := hg.2 hc2
          have hctx : c2 = { c1 with
              builder := applyEv cfg.builder c1.builder (Prod.ev (Token.fresh ⟨[], 0⟩) (.stop .gherkinDocument)),
              log := c1.log ++ [Prod.ev (Token.fresh ⟨[], 0⟩) (.stop .gherkinDocument)] } := by
            rcases handle_ok hpe.symm with ⟨_, h⟩ | ⟨e, he, _⟩
            · exact h
            · rw [hans] at he; simp at he
          have hacc : ∃ kids, Accepted cfg text (cfg.builder.reset b) c2 kids := by
            obtain ⟨cf, hcf, hf⟩ := hR.fits
            rw [confOf_42] at hcf
            cases hcf
            have hlog : c2.log = c1.log ++ [.stop .gherkinDocument] := by rw [hctx]; rfl
            have hbl : builds c2.log = builds c1.log := by rw [hlog, builds_append]; simp [builds]
            have htk : takes c2.log = takes c1.log := by rw [hlog, takes_append]; simp [takes]
            cases hts : treeStack c1.log with
            | nil => rw [hts] at hf; cases hf
            | cons p s =>
              rw [hts] at hf
              cases hf with
              | @cons _ _ cs _ _ _ f1 f2 f20 f3 =>
                cases f3 with
                | @cons _ _ cs0 _ _ _ f4 f5 f50 f6 =>
                  cases f6
                  have hcs0 : cs0 = [] := f50 rfl
                  subst hcs0
                  have hst : treeStack c2.log = [(.none, [.node .gherkinDocument cs])] := by
                    rw [hlog, treeStack_append, hts]; rfl
                  obtain ⟨k1, k2⟩ := hR.clean hc1
                  refine ⟨cs, ?_, hst, ?_, ?_, ?_, ?_, ?_⟩
                  · obtain ⟨w', hw, hl⟩ := advs_sound f1 Lang.eps
                    simp at hw hl
                    exact .node f2 hw hl
                  · have := treeStack_leaves c2.log
                    rw [hst] at this
                    simpa [TStack.leaves] using this
                  · rw [hbl, htk]; exact k2
                  · rw [hctx]; simp [hR.builder, Prod.ev]
                  · rw [hlog, BuildsOk_append]
                    refine ⟨k1, ?_, trivial⟩
                    rw [← hR.builder]; exact hans
                  · rw [hbl]; exact hR.tokens
          refine ⟨fun r d h => ?_, fun es d h => ?_⟩
          · cases hres : cfg.builder.result c2.builder with
            | ok r' =>
              rw [hres] at h; simp at h
              obtain ⟨rfl, rfl⟩ := h
              exact ⟨hc2, hres, hacc⟩
            | error x =>
              rw [hres] at h
              cases x <;> simp at h
          · cases hres : cfg.builder.result c2.builder with
            | ok r' => rw [hres] at h; simp at h
            | error x => rw [hres] at h; cases x <;> simp at h

end

end Gherkin
