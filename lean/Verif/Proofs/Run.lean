import Verif.Proofs.Tree
import Verif.Spec.Source

/-! The run of the driver as a whole: what one step does, an induction principle, and the invariant that ties the builder
and the concrete syntax tree to the log. -/

namespace Gherkin

section
variable {μ σ ρ : Type} {cfg : Config μ σ ρ}

/-! ### Errors -/

/-- The error list keeps its shape: at most ten entries with different messages. -/
def EInv (es : List Err) : Prop := (es.map (·.msg)).Nodup ∧ es.length ≤ 10

theorem syncErrors_msg (t : Token) (es : List Err) : (syncErrors t es).map (·.msg) = es.map (·.msg) := by
  simp only [syncErrors, List.map_map]
  apply List.map_congr_left
  intro e _
  simp only [Function.comp]
  split <;> rfl

theorem syncErrors_length (t : Token) (es : List Err) : (syncErrors t es).length = es.length := by
  simp [syncErrors]

theorem syncErrors_nil (t : Token) : syncErrors t [] = [] := rfl

theorem syncErrors_eq_nil {t : Token} {es : List Err} : syncErrors t es = [] ↔ es = [] := by
  simp [syncErrors]

/-- `Grows es es'`: `es'` begins with the messages of `es`, and keeps the shape. -/
def Grows (es es' : List Err) : Prop := (es.map (·.msg)) <+: (es'.map (·.msg)) ∧ (EInv es → EInv es')

theorem Grows.refl (es : List Err) : Grows es es := ⟨List.prefix_rfl, id⟩
theorem Grows.trans {a b c : List Err} (h : Grows a b) (h' : Grows b c) : Grows a c :=
  ⟨h.1.trans h'.1, h'.2 ∘ h.2⟩
theorem Grows.nil {a b : List Err} (h : Grows a b) (hb : b = []) : a = [] := by
  subst hb; simpa [Grows] using h.1
theorem Grows.sync (t : Token) (es : List Err) : Grows es (syncErrors t es) := by
  refine ⟨by rw [syncErrors_msg]; exact List.prefix_rfl, fun h => ⟨by rw [syncErrors_msg]; exact h.1, by rw [syncErrors_length]; exact h.2⟩⟩

/-- What an exception raised during the run tells. -/
def ExcOk (cfg : Config μ σ ρ) (es : List Err) : Exc → Prop
  | .composite es' => EInv es → (es'.map (·.msg)).Nodup ∧ es'.length = 11 ∧ cfg.stop = false
  | .single _ => cfg.stop = true
  | .crash _ => True
  | .outOfFuel => False

theorem ExcOk.mono {es es' : List Err} {x : Exc} (h : Grows es es') (hx : ExcOk cfg es' x) : ExcOk cfg es x := by
  cases x <;> simp only [ExcOk] at * <;> first | assumption | exact fun h' => hx (h.2 h')

theorem addError_ok {e : Err} {c c' : Ctx μ σ} (h : addError e c = (.ok (), c')) :
    Grows c.errors c'.errors ∧ c'.errors ≠ [] ∧ c' = { c with errors := c'.errors } := by
  rcases addError_cases e c with ⟨h1, h2⟩ | ⟨h1, h2, h3⟩ | ⟨h1, h2, h3⟩
  · rw [h2] at h; cases h
    refine ⟨.refl _, ?_, rfl⟩
    intro h0; rw [h0] at h1; simp at h1
  · rw [h3] at h; cases h
    refine ⟨⟨by simp, fun hi => ⟨?_, by simp; omega⟩⟩, by simp, rfl⟩
    simp only [List.map_append, List.map_cons, List.map_nil]
    rw [List.nodup_append]
    refine ⟨hi.1, by simp, ?_⟩
    intro a ha b hb
    simp at hb
    subst hb
    intro hab; subst hab
    exact h1 ha
  · rw [h3] at h; cases h

theorem addError_err {e : Err} {c c' : Ctx μ σ} {x : Exc} (h : addError e c = (.error x, c')) (hs : cfg.stop = false) :
    ExcOk cfg c.errors x ∧ x ≠ .outOfFuel ∧ (∀ k, x ≠ .crash k) := by
  rcases addError_cases e c with ⟨h1, h2⟩ | ⟨h1, h2, h3⟩ | ⟨h1, h2, h3⟩
  · rw [h2] at h; cases h
  · rw [h3] at h; cases h
  · rw [h3] at h; cases h
    refine ⟨fun hi => ⟨?_, ?_, hs⟩, by simp, by simp⟩
    · simp only [List.map_append, List.map_cons, List.map_nil]
      rw [List.nodup_append]
      refine ⟨hi.1, by simp, ?_⟩
      intro a ha b hb
      simp at hb
      subst hb
      intro hab; subst hab
      exact h1 ha
    · have := hi.2
      simp; omega

theorem handle_errors {α : Type} {d : α} {r : Except MExc α} {c c' : Ctx μ σ} {y : Except Exc α}
    (h : handle cfg d r c = (y, c')) :
    (∀ a, y = .ok a → Grows c.errors c'.errors ∧ (c'.errors = [] → r = .ok a)) ∧
    (∀ x, y = .error x → ExcOk cfg c.errors x) := by
  unfold handle at h
  split at h
  · cases h
    exact ⟨fun a ha => by cases ha; exact ⟨.refl _, fun _ => rfl⟩, by simp⟩
  · cases h
    exact ⟨by simp, fun x hx => by cases hx; trivial⟩
  · rename_i e
    split at h
    · cases h
      rename_i hs
      exact ⟨by simp, fun x hx => by cases hx; exact hs⟩
    · rename_i hs
      simp at hs
      rcases ha : addError e c with ⟨z, c1⟩
      rw [ha] at h
      cases z with
      | ok u =>
        simp at h
        obtain ⟨rfl, rfl⟩ := h
        have := addError_ok ha
        refine ⟨fun a _ => ⟨this.1, fun h0 => absurd h0 this.2.1⟩, by simp⟩
      | error x =>
        simp at h
        obtain ⟨rfl, rfl⟩ := h
        refine ⟨by simp, fun y hy => by cases hy; exact (addError_err ha hs).1⟩

theorem matchTok_errors {k : Kind} {t t' : Token} {c c' : Ctx μ σ} {y : Except Exc Bool}
    (h : matchTok cfg k t c = (y, t', c')) :
    (∀ b, y = .ok b → Grows c.errors c'.errors) ∧ (∀ x, y = .error x → ExcOk cfg c.errors x) := by
  unfold matchTok at h
  split at h
  · cases h; exact ⟨fun _ _ => .refl _, by simp⟩
  · rcases hm : cfg.matcher.match_ k t c.matcher with ⟨r, t1, m1⟩
    rw [hm] at h
    simp only at h
    rcases hh : handle cfg false r { c with matcher := m1, errors := syncErrors t1 c.errors } with ⟨z, c1⟩
    rw [hh] at h
    cases h
    have := handle_errors hh
    simp only at this
    refine ⟨fun b hb => (Grows.sync _ _).trans (this.1 b hb).1, fun x hx => (this.2 x hx).mono (Grows.sync _ _)⟩

/-- Matching lets the error list grow and raises well-shaped exceptions. -/
theorem closed_errors (hL : cfg.matcher.Lawful) : MatchClosed cfg
    (fun c c' => Grows c.errors c'.errors) (fun c x _ => ExcOk cfg c.errors x) := by
  apply MatchClosed.of_tok hL
  · intro c; exact .refl _
  · intro a b c h1 h2; exact h1.trans h2
  · intro a b x c h1 h2; exact h2.mono h1
  · intro k t c b t' c' h; exact (matchTok_errors h).1 b rfl
  · intro k t c x t' c' h; exact (matchTok_errors h).2 x rfl
  · intro c s q; exact .refl _

/-- With `stop_at_first_error` no error is ever recorded. -/
theorem closed_stop (hL : cfg.matcher.Lawful) : MatchClosed cfg
    (fun c c' => cfg.stop = true → c.errors = [] → c'.errors = []) (fun _ _ _ => True) := by
  apply MatchClosed.of_tok hL
  · intro c _ h; exact h
  · intro a b c h1 h2 hs h; exact h2 hs (h1 hs h)
  · intro a b x c _ _; trivial
  · intro k t c b t' c' h hst hc
    unfold matchTok at h
    split at h
    · cases h; exact hc
    · rcases hmm : cfg.matcher.match_ k t c.matcher with ⟨r, t1, m1⟩
      rw [hmm] at h
      simp only at h
      rcases hh : handle cfg false r { c with matcher := m1, errors := syncErrors t1 c.errors } with ⟨z, d⟩
      rw [hh] at h
      cases h
      rcases handle_ok hh with ⟨_, rfl⟩ | ⟨_, _, hs, _⟩
      · simp [hc, syncErrors]
      · rw [hst] at hs; simp at hs
  · intros; trivial
  · intro c s q _ h; exact h

/-! ### Source tokens -/

/-- A token that belongs to the text. -/
def TokSrc (text : Str) (t : Token) : Prop := t.line ∈ tokenLines text ∧ t.loc.line = t.line.number

/-- Queue and scanner hold tokens of the text; once the end of the text has been read, its token is in the queue. -/
structure SrcInv (text : Str) (extra : List Token) (c : Ctx μ σ) : Prop where
  queue : ∀ t ∈ extra ++ c.queue, TokSrc text t
  scanner : (c.scanner.lineNumber ≤ (splitLines text).length ∧
      c.scanner.lines = (splitLines text).drop c.scanner.lineNumber) ∨
    (c.scanner.lines = [] ∧ ∃ t ∈ extra ++ c.queue, t.eof = true)

theorem sourceLines_get (text : Str) (i : Nat) (s : Str) (h : (splitLines text)[i]? = some s) :
    (⟨s, i + 1⟩ : Line) ∈ tokenLines text := by
  simp only [tokenLines, sourceLines, List.mem_append, List.mem_map]
  left
  refine ⟨(s, i + 1), ?_, rfl⟩
  rw [List.mk_mem_zipIdx_iff_le_and_getElem?_sub]
  simp [h]

/-- Reading a token: it belongs to the text, and it is not read past an end-of-file token that is waiting. -/
theorem readToken_src {text : Str} {c c1 : Ctx μ σ} {t : Token} {extra : List Token}
    (hx : ∀ t ∈ extra, t.eof = false)
    (h : SrcInv text extra c) (hr : readToken c = (t, c1)) :
    TokSrc text t ∧ SrcInv text (extra ++ [t]) c1 := by
  rcases readToken_cases c with ⟨t', q, hq, hc⟩ | ⟨l, ls, hq, hl, hc⟩ | ⟨hq, hl, hc⟩
  · rw [hr] at hc; cases hc
    have ht : TokSrc text t := h.queue t (by simp [hq])
    refine ⟨ht, ⟨?_, ?_⟩⟩
    · intro u hu
      apply h.queue u
      simp [hq] at hu ⊢
      exact hu
    · rcases h.scanner with h' | ⟨h', u, hu, hu'⟩
      · exact .inl h'
      · refine .inr ⟨h', u, ?_, hu'⟩
        simp [hq] at hu ⊢
        exact hu
  all_goals
    have hsc : c.scanner.lineNumber ≤ (splitLines text).length ∧
        c.scanner.lines = (splitLines text).drop c.scanner.lineNumber := by
      rcases h.scanner with h' | ⟨_, u, hu, hu'⟩
      · exact h'
      · simp [hq] at hu
        have := hx u hu
        simp [hu'] at this
  · rw [hr] at hc; cases hc
    have hdrop := hsc.2
    rw [hl] at hdrop
    have hget : (splitLines text)[c.scanner.lineNumber]? = some l := by
      rw [← List.head?_drop, ← hdrop]; rfl
    have hlt : c.scanner.lineNumber < (splitLines text).length := by
      rw [List.getElem?_eq_some_iff] at hget
      exact hget.1
    have ht : TokSrc text (Token.fresh ⟨l, c.scanner.lineNumber + 1⟩) := ⟨sourceLines_get text _ _ hget, rfl⟩
    refine ⟨ht, ⟨?_, ?_⟩⟩
    · intro u hu
      simp at hu
      rcases hu with hu | hu | hu
      · exact h.queue u (by simp [hu])
      · subst hu; exact ht
      · simp [hq] at hu
    · left
      refine ⟨by simp only; omega, ?_⟩
      simp only
      have : (splitLines text).drop (c.scanner.lineNumber + 1) = ((splitLines text).drop c.scanner.lineNumber).tail := by
        simp
      rw [this, ← hdrop]; rfl
  · rw [hr] at hc; cases hc
    have hn : c.scanner.lineNumber = (splitLines text).length := by
      have := hsc.2
      rw [hl] at this
      have := List.drop_eq_nil_iff.1 this.symm
      omega
    have ht : TokSrc text (Token.fresh ⟨[], c.scanner.lineNumber + 1⟩) := by
      refine ⟨?_, rfl⟩
      simp [tokenLines, Token.fresh, eofLine, hn]
    refine ⟨ht, ⟨?_, ?_⟩⟩
    · intro u hu
      simp at hu
      rcases hu with hu | hu | hu
      · exact h.queue u (by simp [hu])
      · subst hu; exact ht
      · simp [hq] at hu
    · right
      refine ⟨rfl, Token.fresh ⟨[], c.scanner.lineNumber + 1⟩, by simp, rfl⟩

theorem TokSrc.congr {text : Str} {t t' : Token} (h : TokSrc text t) (hl : t'.line = t.line)
    (hll : t'.loc.line = t.loc.line) : TokSrc text t' := by
  unfold TokSrc at *; rw [hl, hll]; exact h

theorem SrcInv.congr {text : Str} {extra : List Token} {c c' : Ctx μ σ} (h : SrcInv text extra c)
    (hs : c'.scanner = c.scanner) (hq : c'.queue = c.queue) : SrcInv text extra c' :=
  ⟨by rw [hq]; exact h.queue, by rw [hs, hq]; exact h.scanner⟩

theorem SrcInv.replace {text : Str} {acc : List Token} {t t' : Token} {c : Ctx μ σ} (h : SrcInv text (acc ++ [t]) c)
    (hl : t'.line = t.line) (hll : t'.loc.line = t.loc.line) : SrcInv text (acc ++ [t']) c := by
  refine ⟨?_, ?_⟩
  · intro u hu
    simp at hu
    rcases hu with hu | hu | hu
    · exact h.queue u (by simp [hu])
    · subst hu; exact (h.queue t (by simp)).congr hl hll
    · exact h.queue u (by simp [hu])
  · rcases h.scanner with h' | ⟨h', u, hu, hu'⟩
    · exact .inl h'
    · right
      refine ⟨h', ?_⟩
      simp at hu
      rcases hu with hu | hu | hu
      · exact ⟨u, by simp [hu], hu'⟩
      · subst hu; exact ⟨t', by simp, by simpa [Token.eof, hl] using hu'⟩
      · exact ⟨u, by simp [hu], hu'⟩

theorem laLoop_src (hL : cfg.matcher.Lawful) {text : Str} {la : LA} {fuel : Nat} {acc : List Token} {c : Ctx μ σ}
    {b : Bool} {ts : List Token} {c' : Ctx μ σ} (hx : ∀ t ∈ acc, t.eof = false) (h : SrcInv text acc c)
    (hl : laLoop cfg la fuel acc c = (.ok (b, ts), c')) : SrcInv text ts c' := by
  induction fuel generalizing acc c with
  | zero => simp [laLoop] at hl
  | succ fuel ih =>
    unfold laLoop at hl
    rcases hr : readToken c with ⟨t, c1⟩
    rw [hr] at hl
    simp only at hl
    have h1 := (readToken_src hx h hr).2
    have f1 := matchTok_frame (cfg := cfg) la.expected t c1
    have l1 := matchTok_line hL la.expected t c1
    have ll1 := matchTok_locLine hL la.expected t c1
    rcases hm : matchTok cfg la.expected t c1 with ⟨r, t2, c2⟩
    rw [hm] at hl f1 l1 ll1
    simp only at f1 l1 ll1
    have h2 : SrcInv text (acc ++ [t2]) c2 := (h1.congr f1.1 f1.2.1).replace l1 ll1
    cases r with
    | error x => simp at hl
    | ok bb =>
      cases bb with
      | true => simp at hl; obtain ⟨⟨_, rfl⟩, rfl⟩ := hl; exact h2
      | false =>
        simp only at hl
        have f2 := matchAny_frame (cfg := cfg) skipKinds t2 c2
        have l2 := matchAny_line hL skipKinds t2 c2
        rcases hm2 : matchAny cfg skipKinds t2 c2 with ⟨r, t3, c3⟩
        rw [hm2] at hl f2 l2
        simp only at f2 l2
        have h3 : SrcInv text (acc ++ [t3]) c3 := (h2.congr f2.1 f2.2.1).replace l2.1 l2.2
        cases r with
        | error x => simp at hl
        | ok bb =>
          cases bb with
          | false => simp at hl; obtain ⟨⟨_, rfl⟩, rfl⟩ := hl; exact h3
          | true =>
            refine ih ?_ h3 hl
            intro u hu
            simp at hu
            rcases hu with hu | hu
            · exact hx u hu
            · subst hu
              cases he : u.eof with
              | false => rfl
              | true =>
                exfalso
                have : t2.eof = true := by simpa [Token.eof, l2.1] using he
                rw [matchAny_eof (by decide) this] at hm2
                simp at hm2

/-- Matching keeps the pending tokens tokens of the text. -/
theorem closed_src (hL : cfg.matcher.Lawful) (text : Str) : MatchClosed cfg
    (fun c c' => SrcInv text [] c → SrcInv text [] c') (fun _ _ _ => True) := by
  refine ⟨fun c h => h, fun h1 h2 h => h2 (h1 h), fun _ _ => trivial, ?_, fun _ => trivial, ?_, fun _ => trivial⟩
  · intro k t c b t' c' h hs
    have := matchTok_frame (cfg := cfg) k t c; rw [h] at this
    exact hs.congr this.1 this.2.1
  · intro l c b c' h hs
    unfold lookahead at h
    rcases hl : laLoop cfg l (c.queue.length + c.scanner.lines.length + 1) [] c with ⟨r, c1⟩
    rw [hl] at h
    cases r with
    | error x => simp at h
    | ok p =>
      obtain ⟨b', ts⟩ := p
      simp at h
      obtain ⟨_, rfl⟩ := h
      have := laLoop_src hL (by simp) hs hl
      refine ⟨?_, ?_⟩
      · intro u hu
        simp at hu
        apply this.queue u
        simp; rcases hu with hu | hu <;> simp [hu]
      · rcases this.scanner with h' | ⟨h', u, hu, hu'⟩
        · exact .inl h'
        · refine .inr ⟨h', u, ?_, hu'⟩
          simp at hu ⊢; rcases hu with hu | hu <;> simp [hu]

/-! ### Builder -/

/-- The effect of one logged event on the builder, and whether the builder accepted it. -/
def applyEv (B : Builder σ ρ) (b : σ) : Ev → σ
  | .take _ => b
  | .start r => (B.start r b).2
  | .stop r => (B.stop r b).2
  | .build t => (B.build t b).2

/-- The builder's answer to one logged event. -/
def evAnswer (B : Builder σ ρ) (b : σ) : Ev → Except MExc Unit
  | .take _ => .ok ()
  | .start r => (B.start r b).1
  | .stop r => (B.stop r b).1
  | .build t => (B.build t b).1

/-- The builder accepted all events of a log. -/
def BuildsOk (B : Builder σ ρ) : σ → List Ev → Prop
  | _, [] => True
  | b, e :: es => evAnswer B b e = .ok () ∧ BuildsOk B (applyEv B b e) es

theorem BuildsOk_append {B : Builder σ ρ} {b : σ} {es es' : List Ev} :
    BuildsOk B b (es ++ es') ↔ BuildsOk B b es ∧ BuildsOk B (es.foldl (applyEv B) b) es' := by
  induction es generalizing b with
  | nil => simp [BuildsOk]
  | cons e es ih => simp [BuildsOk, ih, and_assoc]

theorem runProd_eq (p : Prod) (t : Token) (c : Ctx μ σ) :
    runProd cfg p t c = handle cfg () (evAnswer cfg.builder c.builder (p.ev t))
      { c with builder := applyEv cfg.builder c.builder (p.ev t), log := c.log ++ [p.ev t] } := by
  cases p <;> rfl

/-- Running productions: log and builder follow the events. -/
theorem runProds_spec {ps : List Prod} {t : Token} {c c' : Ctx μ σ} (h : runProds cfg ps t c = (.ok (), c')) :
    c'.log = c.log ++ ps.map (Prod.ev t) ∧
    c'.builder = (ps.map (Prod.ev t)).foldl (applyEv cfg.builder) c.builder ∧
    Grows c.errors c'.errors ∧
    (c'.errors = [] → BuildsOk cfg.builder c.builder (ps.map (Prod.ev t))) ∧
    (cfg.stop = true → c.errors = [] → c'.errors = []) := by
  induction ps generalizing c with
  | nil => simp [runProds] at h; subst h; simp [BuildsOk, Grows.refl]
  | cons p ps ih =>
    simp only [runProds] at h
    rcases hp : runProd cfg p t c with ⟨r, c1⟩
    rw [hp] at h
    cases r with
    | error x => simp at h
    | ok u =>
      simp only at h
      obtain ⟨i1, i2, i3, i4, i5⟩ := ih h
      rw [runProd_eq] at hp
      have hc := handle_ctx (cfg := cfg) () (evAnswer cfg.builder c.builder (p.ev t))
        { c with builder := applyEv cfg.builder c.builder (p.ev t), log := c.log ++ [p.ev t] }
      have he := (handle_errors hp).1 u rfl
      rw [hp] at hc
      simp only at hc he
      refine ⟨?_, ?_, he.1.trans i3, ?_, ?_⟩
      · rw [i1, hc.2.2.2.2]; simp
      · rw [i2, hc.2.2.2.1]; simp
      · intro h0
        have h1 : c1.errors = [] := i3.nil h0
        refine ⟨he.2 h1, ?_⟩
        have := i4 h0
        rwa [hc.2.2.2.1] at this
      · intro hst h0
        refine i5 hst ?_
        rcases handle_ok hp with ⟨_, rfl⟩ | ⟨_, _, hs, _⟩
        · exact h0
        · rw [hst] at hs; simp at hs

theorem runProds_exc {ps : List Prod} {t : Token} {c c' : Ctx μ σ} {x : Exc} (h : runProds cfg ps t c = (.error x, c')) :
    ExcOk cfg c.errors x := by
  induction ps generalizing c with
  | nil => simp [runProds] at h
  | cons p ps ih =>
    simp only [runProds] at h
    rcases hp : runProd cfg p t c with ⟨r, c1⟩
    rw [hp] at h
    rw [runProd_eq] at hp
    have he := handle_errors hp
    cases r with
    | error y =>
      simp at h
      obtain ⟨rfl, rfl⟩ := h
      exact he.2 _ rfl
    | ok u =>
      simp only at h
      exact (ih h).mono (he.1 u rfl).1

/-! ### One step and the whole loop -/

/-- A token as a matcher call left it. -/
def Built (M : Matcher μ) (k : Kind) (t : Token) : Prop :=
  ∃ t0 m m', t0.line = t.line ∧ M.match_ k t0 m = (.ok true, t, m')

/-- The outcome of one step of the driver. -/
inductive StepResult (cfg : Config μ σ ρ) (J : Ctx μ σ → Ctx μ σ → Prop) (E : Ctx μ σ → Exc → Ctx μ σ → Prop)
    (q : Nat) (t : Token) (c : Ctx μ σ) : Except Exc Nat → Ctx μ σ → Prop
  | noState : table q = none → StepResult cfg J E q t c (.error (.crash .runtimeError)) c
  | matchExc {row x c'} : table q = some row → E c x c' → StepResult cfg J E q t c (.error x) c'
  | taken {row pre tr post t0 t' c0 c1 c2 c' r} : table q = some row → row.trans = pre ++ tr :: post →
      J c c0 → J c c1 → t0.line = t.line → t'.line = t.line → t'.loc.line = t.loc.line →
      matchTok cfg tr.kind t0 c0 = (.ok true, t', c1) →
      (∀ l, tr.la = some l → lookahead cfg l c1 = (.ok true, c2)) → (tr.la = Option.none → c2 = c1) → J c c2 →
      (∀ tr' ∈ pre, tr'.la = none → ∃ t0 t1 c0 c1, J c c0 ∧ t0.line = t.line ∧
        matchTok cfg tr'.kind t0 c0 = (.ok false, t1, c1)) →
      (r = .ok tr.target ∧ runProds cfg tr.prods t' c2 = (.ok (), c') ∨
        ∃ x, r = .error x ∧ runProds cfg tr.prods t' c2 = (.error x, c')) →
      StepResult cfg J E q t c r c'
  | unexpected {row t' c1 c' r} : table q = some row → J c c1 → t'.line = t.line → t'.loc.line = t.loc.line →
      (∀ tr ∈ row.trans, tr.la = none → ∃ t0 t1 c0 c1, J c c0 ∧ t0.line = t.line ∧
        matchTok cfg tr.kind t0 c0 = (.ok false, t1, c1)) →
      (cfg.stop = true ∧ r = .error (.single (Gherkin.unexpected row.expected t')) ∧ c' = c1 ∨
       cfg.stop = false ∧ r = .ok row.stay ∧ addError (Gherkin.unexpected row.expected t') c1 = (.ok (), c') ∨
       cfg.stop = false ∧ ∃ x, r = .error x ∧ addError (Gherkin.unexpected row.expected t') c1 = (.error x, c')) →
      StepResult cfg J E q t c r c'

theorem matchToken_cases (hL : cfg.matcher.Lawful) {J : Ctx μ σ → Ctx μ σ → Prop} {E : Ctx μ σ → Exc → Ctx μ σ → Prop}
    (hJ : MatchClosed cfg J E) (q : Nat) (t : Token) (c : Ctx μ σ) :
    StepResult cfg J E q t c (matchToken cfg q t c).1 (matchToken cfg q t c).2 := by
  unfold matchToken
  split
  · rename_i h; exact .noState h
  · rename_i row hrow
    have h := tryTrans_cases hL hJ row.trans t c
    rcases htr : tryTrans cfg row.trans t c with ⟨r, t', c'⟩
    rw [htr] at h
    simp only at h ⊢
    cases h with
    | fail h => exact .matchExc hrow h
    | none h1 h2 h3 h4 =>
      simp only
      split
      · rename_i hs
        exact .unexpected hrow h1 h2 h3 h4 (.inl ⟨hs, rfl, rfl⟩)
      · rename_i hs
        simp at hs
        rcases ha : addError (unexpected row.expected t') c' with ⟨z, c2⟩
        cases z with
        | ok u => exact .unexpected hrow h1 h2 h3 h4 (.inr (.inl ⟨hs, rfl, ha⟩))
        | error x => exact .unexpected hrow h1 h2 h3 h4 (.inr (.inr ⟨hs, x, rfl, ha⟩))
    | taken h1 h2 h3 h4 h5 h6 h7 h8 h9 h10 h11 h12 =>
      rcases h12 with ⟨rfl, hp⟩ | ⟨x, rfl, hp⟩
      · exact .taken hrow h1 h2 h3 h4 h5 h6 h7 h8 h9 h10 h11 (.inl ⟨rfl, hp⟩)
      · exact .taken hrow h1 h2 h3 h4 h5 h6 h7 h8 h9 h10 h11 (.inr ⟨x, rfl, hp⟩)

/-- Induction over the main loop: `I` holds whenever the loop starts a new round, `F` when it is left, `Q` when an
exception leaves it. -/
theorem parseLoop_ind (I : Nat → Ctx μ σ → Prop) (F : Nat → Ctx μ σ → Prop) (Q : Exc → Ctx μ σ → Prop)
    (step : ∀ q c t c1, I q c → readToken c = (t, c1) →
      (∀ q' c', matchToken cfg q t { c1 with log := c1.log ++ [.take t.line] } = (.ok q', c') →
        (t.eof = true → F q' c') ∧ (t.eof = false → I q' c')) ∧
      (∀ x c', matchToken cfg q t { c1 with log := c1.log ++ [.take t.line] } = (.error x, c') → Q x c'))
    (fuel q : Nat) (c : Ctx μ σ) (hI : I q c) :
    (∀ c', parseLoop cfg fuel q c = (.ok (), c') → ∃ q', F q' c') ∧
    (∀ x c', parseLoop cfg fuel q c = (.error x, c') → x ≠ .outOfFuel → Q x c') := by
  induction fuel generalizing q c with
  | zero =>
    constructor
    · intro c' h; simp [parseLoop] at h
    · intro x c' h hx; simp [parseLoop] at h; exact absurd h.1.symm hx
  | succ fuel ih =>
    unfold parseLoop
    rcases hr : readToken c with ⟨t, c1⟩
    simp only
    have hs := step q c t c1 hI hr
    rcases hm : matchToken cfg q t { c1 with log := c1.log ++ [.take t.line] } with ⟨r, c2⟩
    cases r with
    | error x =>
      simp only
      exact ⟨by simp, fun y c' h _ => by cases h; exact hs.2 _ _ hm⟩
    | ok q' =>
      simp only
      have h2 := hs.1 q' c2 hm
      cases he : t.eof with
      | true =>
        simp
        exact ⟨q', h2.1 he⟩
      | false =>
        simp only [Bool.false_eq_true, if_false]
        exact ih q' c2 (h2.2 he)

end

end Gherkin
