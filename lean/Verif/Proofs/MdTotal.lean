import Verif.Proofs.StepT

/-! The Markdown parser with the AST builder: everything that can come out. -/

namespace Gherkin

open AstNode Auto

/-! ### What the Markdown matcher raises -/

namespace Md

/-- The matcher raises only on rows that cannot be read. -/
theorem matchKind_crash {k : Kind} {t t' : Token} {m m' : MdState} {e : MExc} (h : matchKind k t m = (.error e, t', m')) :
    e = .crash .runtimeError ∧ BadRow t.line.text := by
  have row : ∀ (t t' : Token) (m m' : MdState) e, matchTableRow t m = (.error e, t', m') → e = .crash .runtimeError ∧ BadRow t.line.text := by
    intro t t' m m' e h
    unfold matchTableRow at h
    split at h
    · rename_i hs
      simp only [Bool.and_eq_true] at hs
      split at h
      · split at h <;> simp at h
      · rename_i c hc
        simp only [Prod.mk.injEq, Except.error.injEq] at h
        obtain ⟨h1, h2⟩ := badRow_of hs.2 hc
        exact ⟨by rw [← h.1, h1], h2⟩
    · simp at h
  have com : ∀ (t t' : Token) (m m' : MdState) e, matchComment t m = (.error e, t', m') → e = .crash .runtimeError ∧ BadRow t.line.text := by
    intro t t' m m' e h
    unfold matchComment at h
    simp only at h
    split at h
    · rename_i hs
      split at h
      · simp at h
      · rename_i c hc
        simp only [Prod.mk.injEq, Except.error.injEq] at h
        obtain ⟨h1, h2⟩ := badRow_of hs hc
        exact ⟨by rw [← h.1, h1], h2⟩
    · simp at h
  have title : ∀ k p ks s (t t' : Token) (m m' : MdState) e, matchTitle k p ks s t m = (.error e, t', m') → False := by
    intro k p ks s t t' m m' e h
    unfold matchTitle at h
    split at h <;> simp at h
  have feat : ∀ (t t' : Token) (m m' : MdState) e, matchFeature t m = (.error e, t', m') → False := by
    intro t t' m m' e h
    unfold matchFeature at h
    repeat' split at h
    all_goals simp at h
  have scen : ∀ (t t' : Token) (m m' : MdState) e, matchScenario t m = (.error e, t', m') → False := by
    intro t t' m m' e h
    unfold matchScenario at h
    split at h
    · exact title _ _ _ _ _ _ _ _ _ h
    · exact title _ _ _ _ _ _ _ _ _ h
  have eo : ∀ (t t' : Token) (m m' : MdState) e, matchEof t m = (.error e, t', m') → False := by
    intro t t' m m' e h; unfold matchEof at h; split at h <;> simp at h
  have sep : ∀ (t t' : Token) (m m' : MdState) e, matchDocSep t m = (.error e, t', m') → False := by
    intro t t' m m' e h; unfold matchDocSep matchSep at h; repeat' split at h
    all_goals simp at h
  have tag : ∀ (t t' : Token) (m m' : MdState) e, matchTagLine t m = (.error e, t', m') → False := by
    intro t t' m m' e h; unfold matchTagLine at h; simp only at h; split at h <;> simp at h
  cases k <;> simp only [matchKind] at h
  case eof => exact (eo _ _ _ _ _ h).elim
  case comment => exact com _ _ _ _ _ h
  case tagLine => exact (tag _ _ _ _ _ h).elim
  case featureLine => exact (feat _ _ _ _ _ h).elim
  case scenarioLine => exact (scen _ _ _ _ _ h).elim
  case docStringSeparator => exact (sep _ _ _ _ _ h).elim
  case tableRow => exact row _ _ _ _ _ h
  case language => simp [matchLanguage] at h
  case other => simp [matchOther] at h
  case empty =>
    have key : ∀ (gs : List (Token → MdState → Except MExc Bool × Token × MdState)), (∀ g ∈ gs, g ∈ emptyProbes) →
        ∀ (u : Token) (m : MdState) (t' : Token) (m' : MdState) e, orElse gs u m = (.error e, t', m') → e = .crash .runtimeError ∧ BadRow u.line.text := by
      intro gs
      induction gs with
      | nil => intro _ u m t' m' e h; simp [orElse] at h
      | cons g gs ih =>
        intro hg u m t' m' e h
        have hgp := hg g (by simp)
        have hline : (g u m).2.1.line = u.line := by
          simp only [emptyProbes, List.mem_cons, List.not_mem_nil, or_false] at hgp
          rcases hgp with rfl | rfl | rfl | rfl | rfl | rfl | rfl | rfl | rfl | rfl | rfl | rfl
          · exact markdown_lawful.line .tagLine u m
          · exact markdown_lawful.line .featureLine u m
          · exact markdown_lawful.line .scenarioLine u m
          · exact markdown_lawful.line .backgroundLine u m
          · exact markdown_lawful.line .examplesLine u m
          · exact markdown_lawful.line .ruleLine u m
          · exact markdown_lawful.line .tableRow u m
          · exact markdown_lawful.line .comment u m
          · exact markdown_lawful.line .language u m
          · exact markdown_lawful.line .docStringSeparator u m
          · exact markdown_lawful.line .eof u m
          · exact markdown_lawful.line .stepLine u m
        unfold orElse at h
        rcases hx : g u m with ⟨r, u1, m1⟩
        rw [hx] at h hline
        simp only at hline
        rcases r with e1 | b
        · simp only [Prod.mk.injEq, Except.error.injEq] at h
          obtain ⟨rfl, rfl, rfl⟩ := h
          simp only [emptyProbes, List.mem_cons, List.not_mem_nil, or_false] at hgp
          rcases hgp with rfl | rfl | rfl | rfl | rfl | rfl | rfl | rfl | rfl | rfl | rfl | rfl
          · exact (tag _ _ _ _ _ hx).elim
          · exact (feat _ _ _ _ _ hx).elim
          · exact (scen _ _ _ _ _ hx).elim
          · exact (title _ _ _ _ _ _ _ _ _ hx).elim
          · exact (title _ _ _ _ _ _ _ _ _ hx).elim
          · exact (title _ _ _ _ _ _ _ _ _ hx).elim
          · exact row _ _ _ _ _ hx
          · exact com _ _ _ _ _ hx
          · simp [matchLanguage] at hx
          · exact (sep _ _ _ _ _ hx).elim
          · exact (eo _ _ _ _ _ hx).elim
          · exact (title _ _ _ _ _ _ _ _ _ hx).elim
        · cases b with
          | true => simp at h
          | false =>
            simp only at h
            have := ih (fun g' hg' => hg g' (by simp [hg'])) u1 m1 t' m' e h
            rwa [hline] at this
    unfold matchEmpty at h
    rcases hx : orElse emptyProbes t m with ⟨r, u, m1⟩
    rw [hx] at h
    rcases r with e1 | b
    · simp only [Prod.mk.injEq, Except.error.injEq] at h
      obtain ⟨rfl, rfl, rfl⟩ := h
      exact key _ (fun _ h => h) _ _ _ _ _ hx
    · simp only at h
      split at h <;> simp at h
  all_goals exact (title _ _ _ _ _ _ _ _ _ h).elim

end Md

/-! ### Tokens and contexts -/

section
variable {σ ρ : Type} {B : Builder σ ρ} {stop : Bool} {text : Str}

/-- The token is a line of the text, or the end of the file. -/
def TokW (text : Str) (t : Token) : Prop := t.line.text = [] ∨ t.line.text ∈ splitLines text

structure CtxW (text : Str) (c : Ctx MdState σ) : Prop where
  queue : ∀ t ∈ c.queue, TokW text t
  scanner : ∀ s ∈ c.scanner.lines, s ∈ splitLines text

/-- The exception is about a row that cannot be read. -/
def RowCrash (text : Str) (x : Exc) : Prop := x = .crash .runtimeError ∧ ∃ s ∈ splitLines text, BadRow s

theorem TokW.congr {t t' : Token} (h : TokW text t) (hl : t'.line = t.line) : TokW text t' := by
  unfold TokW at *; rw [hl]; exact h

theorem CtxW.congr {c c' : Ctx MdState σ} (h : CtxW text c) (h1 : c'.scanner = c.scanner) (h2 : c'.queue = c.queue) : CtxW text c' :=
  ⟨by rw [h2]; exact h.queue, by rw [h1]; exact h.scanner⟩

theorem badRow_ne {s : Str} (h : BadRow s) : s ≠ [] := by
  obtain ⟨ws, a, n, w, _, _, ha, _, rfl⟩ := h
  intro h0
  cases a with
  | nil => simp at ha
  | cons x xs => simp at h0

theorem mdTok_err {k : Kind} {t t' : Token} {c c' : Ctx MdState σ} {x : Exc} (ht : TokW text t)
    (h : matchTok ⟨markdown, B, stop⟩ k t c = (.error x, t', c')) : RowCrash text x := by
  unfold matchTok at h
  split at h
  · simp at h
  · simp only [markdown] at h
    rcases hm : Md.matchKind k t c.matcher with ⟨r, t1, m1⟩
    rw [hm] at h
    rcases r with e | b
    · obtain ⟨rfl, hb⟩ := Md.matchKind_crash hm
      simp only [handle, Prod.mk.injEq, Except.error.injEq] at h
      refine ⟨h.1.symm, _, ?_, hb⟩
      rcases ht with ht | ht
      · exact absurd ht (badRow_ne hb)
      · exact ht
    · simp [handle] at h

/-- A successful call: the answer, and the context apart from the matcher's state. -/
theorem mdTok_ok {k : Kind} {t t' : Token} {c c' : Ctx MdState σ} {b : Bool}
    (h : matchTok ⟨markdown, B, stop⟩ k t c = (.ok b, t', c')) :
    c'.builder = c.builder ∧ ((∀ e ∈ c.errors, e.aliasOf = none) → c'.errors = c.errors) ∧
    ((k ≠ .eof ∧ t.eof = true ∧ b = false) ∨ Md.matchKind k t c.matcher = (.ok b, t', c'.matcher)) := by
  unfold matchTok at h
  split at h
  · rename_i hk
    simp only [Prod.mk.injEq, Except.ok.injEq] at h
    obtain ⟨rfl, rfl, rfl⟩ := h
    exact ⟨rfl, fun _ => rfl, .inl ⟨hk.1, hk.2, rfl⟩⟩
  · simp only [markdown] at h
    rcases hm : Md.matchKind k t c.matcher with ⟨r, t1, m1⟩
    rw [hm] at h
    rcases r with e | b
    · obtain ⟨rfl, hb⟩ := Md.matchKind_crash hm
      simp [handle] at h
    · simp only [handle, Prod.mk.injEq, Except.ok.injEq] at h
      obtain ⟨rfl, rfl, rfl⟩ := h
      refine ⟨rfl, fun ha => ?_, .inr rfl⟩
      simp only [syncErrors]
      rw [List.map_congr_left (g := id), List.map_id]
      intro e he
      simp [ha e he]

theorem readToken_W {c c1 : Ctx MdState σ} {t : Token} (h : CtxW text c) (hr : readToken c = (t, c1)) : TokW text t ∧ CtxW text c1 := by
  rcases readToken_cases c with ⟨t', q, hq, hc⟩ | ⟨l, ls, hq, hl, hc⟩ | ⟨hq, hl, hc⟩
  · rw [hr] at hc; cases hc
    exact ⟨h.queue _ (by simp [hq]), ⟨fun u hu => h.queue u (by rw [hq]; simp [hu]), h.scanner⟩⟩
  · rw [hr] at hc; cases hc
    exact ⟨.inr (h.scanner l (by simp [hl])), ⟨h.queue, fun s hs => h.scanner s (by rw [hl]; exact List.mem_cons_of_mem _ hs)⟩⟩
  · rw [hr] at hc; cases hc
    exact ⟨.inl rfl, ⟨h.queue, by simp⟩⟩

theorem mdAny_err {ks : List Kind} : ∀ {t t' : Token} {c c' : Ctx MdState σ} {x : Exc}, TokW text t →
    matchAny ⟨markdown, B, stop⟩ ks t c = (.error x, t', c') → RowCrash text x := by
  induction ks with
  | nil => intro t t' c c' x _ h; simp [matchAny] at h
  | cons k ks ih =>
    intro t t' c c' x ht h
    unfold matchAny at h
    have hl := matchTok_line (cfg := ⟨markdown, B, stop⟩) markdown_lawful k t c
    rcases hm : matchTok ⟨markdown, B, stop⟩ k t c with ⟨r, t1, c1⟩
    rw [hm] at h hl
    rcases r with e | b
    · simp only [Prod.mk.injEq, Except.error.injEq] at h
      obtain ⟨rfl, rfl, rfl⟩ := h
      exact mdTok_err ht hm
    · cases b with
      | true => simp at h
      | false => exact ih (ht.congr hl) h

theorem mdLoop {la : LA} : ∀ {fuel : Nat} {acc : List Token} {c : Ctx MdState σ}, CtxW text c → (∀ t ∈ acc, TokW text t) →
    (∀ b ts c', laLoop ⟨markdown, B, stop⟩ la fuel acc c = (.ok (b, ts), c') → CtxW text c' ∧ ∀ t ∈ ts, TokW text t) ∧
    (∀ x c', laLoop ⟨markdown, B, stop⟩ la fuel acc c = (.error x, c') → x = .outOfFuel ∨ RowCrash text x) := by
  intro fuel
  induction fuel with
  | zero =>
    intro acc c _ _
    refine ⟨by simp [laLoop], fun x c' h => ?_⟩
    simp only [laLoop, Prod.mk.injEq, Except.error.injEq] at h
    exact .inl h.1.symm
  | succ fuel ih =>
    intro acc c hc ha
    unfold laLoop
    rcases hr : readToken c with ⟨t, c1⟩
    simp only
    obtain ⟨ht, hc1⟩ := readToken_W hc hr
    have f1 := matchTok_frame (cfg := ⟨markdown, B, stop⟩) la.expected t c1
    have l1 := matchTok_line (cfg := ⟨markdown, B, stop⟩) markdown_lawful la.expected t c1
    rcases hm : matchTok ⟨markdown, B, stop⟩ la.expected t c1 with ⟨r, t2, c2⟩
    rw [hm] at f1 l1
    simp only at f1 l1
    have ht2 := ht.congr l1
    have hc2 := hc1.congr f1.1 f1.2.1
    rcases r with e | b
    · refine ⟨by simp, fun x c' h => ?_⟩
      simp only [Prod.mk.injEq, Except.error.injEq] at h
      obtain ⟨rfl, rfl⟩ := h
      exact .inr (mdTok_err ht hm)
    · cases b with
      | true =>
        refine ⟨fun b ts c' h => ?_, by simp⟩
        simp only [Prod.mk.injEq, Except.ok.injEq] at h
        obtain ⟨⟨rfl, rfl⟩, rfl⟩ := h
        refine ⟨hc2, fun u hu => ?_⟩
        simp at hu
        rcases hu with hu | rfl
        · exact ha u hu
        · exact ht2
      | false =>
        simp only
        have f2 := matchAny_frame (cfg := ⟨markdown, B, stop⟩) skipKinds t2 c2
        have l2 := matchAny_line (cfg := ⟨markdown, B, stop⟩) markdown_lawful skipKinds t2 c2
        rcases hm2 : matchAny ⟨markdown, B, stop⟩ skipKinds t2 c2 with ⟨r, t3, c3⟩
        rw [hm2] at f2 l2
        simp only at f2 l2
        have ht3 := ht2.congr l2.1
        have hc3 := hc2.congr f2.1 f2.2.1
        have ha3 : ∀ u ∈ acc ++ [t3], TokW text u := by
          intro u hu
          simp at hu
          rcases hu with hu | rfl
          · exact ha u hu
          · exact ht3
        rcases r with e | b
        · refine ⟨by simp, fun x c' h => ?_⟩
          simp only [Prod.mk.injEq, Except.error.injEq] at h
          obtain ⟨rfl, rfl⟩ := h
          exact .inr (mdAny_err ht2 hm2)
        · cases b with
          | true => exact ih hc3 ha3
          | false =>
            refine ⟨fun b ts c' h => ?_, by simp⟩
            simp only [Prod.mk.injEq, Except.ok.injEq] at h
            obtain ⟨⟨rfl, rfl⟩, rfl⟩ := h
            exact ⟨hc3, ha3⟩

theorem mdTok_keep {k : Kind} {t : Token} {c : Ctx MdState σ} {P : MdState → Prop} (hP : ∀ k t m, P m → P (Md.matchKind k t m).2.2)
    (h : P c.matcher) : P (matchTok ⟨markdown, B, stop⟩ k t c).2.2.matcher := by
  unfold matchTok
  split
  · exact h
  · simp only [markdown]
    have h1 := hP k t c.matcher h
    rcases hm : Md.matchKind k t c.matcher with ⟨r, t1, m1⟩
    rw [hm] at h1
    rcases r with e | b
    · obtain ⟨rfl, hb⟩ := Md.matchKind_crash hm
      exact h1
    · exact h1

/-- What matching keeps. -/
structure MdJ (text : Str) (c c' : Ctx MdState σ) : Prop where
  builder : c'.builder = c.builder
  src : SrcInv text [] c → SrcInv text [] c'
  errors : (∀ e ∈ c.errors, e.aliasOf = none) → c'.errors = c.errors
  w : CtxW text c → CtxW text c'
  keep : ∀ P : MdState → Prop, (∀ k t m, P m → P (Md.matchKind k t m).2.2) → P c.matcher → P c'.matcher

theorem closed_md (text : Str) : MatchClosedT (⟨markdown, B, stop⟩ : Config MdState σ ρ) (TokW text) (MdJ text)
    (fun c x _ => CtxW text c → RowCrash text x) := by
  have hf := closed_frame (cfg := (⟨markdown, B, stop⟩ : Config MdState σ ρ)) markdown_lawful
  have hs := closed_src (cfg := (⟨markdown, B, stop⟩ : Config MdState σ ρ)) markdown_lawful text
  have he : MatchClosed (⟨markdown, B, stop⟩ : Config MdState σ ρ)
      (fun c c' => (∀ e ∈ c.errors, e.aliasOf = none) → c'.errors = c.errors) (fun _ _ _ => True) := by
    apply MatchClosed.of_tok markdown_lawful
    · intro c _; rfl
    · intro a b c h1 h2 h
      have := h1 h
      rw [← this]; exact h2 (by rw [this]; exact h)
    · intros; trivial
    · intro k t c b t' c' h; exact (mdTok_ok h).2.1
    · intros; trivial
    · intro c s q _; rfl
  have hk : MatchClosed (⟨markdown, B, stop⟩ : Config MdState σ ρ)
      (fun c c' => ∀ P : MdState → Prop, (∀ k t m, P m → P (Md.matchKind k t m).2.2) → P c.matcher → P c'.matcher) (fun _ _ _ => True) := by
    apply MatchClosed.of_tok markdown_lawful
    · intro c P _ h; exact h
    · intro a b c h1 h2 P hP h; exact h2 P hP (h1 P hP h)
    · intros; trivial
    · intro k t c b t' c' h P hP h0
      have := mdTok_keep (B := B) (stop := stop) (k := k) (t := t) hP h0
      rw [h] at this; exact this
    · intros; trivial
    · intro c s q P _ h; exact h
  refine ⟨fun h hl _ => h.congr hl, fun c => ⟨rfl, id, fun _ => rfl, id, fun _ _ h => h⟩, ?_, ?_, ?_, ?_, ?_, ?_⟩
  · intro a b c h1 h2
    exact ⟨h2.builder.trans h1.builder, h2.src ∘ h1.src, he.trans h1.errors h2.errors, h2.w ∘ h1.w, hk.trans h1.keep h2.keep⟩
  · intro a b x c h1 h2 h; exact h2 (h1.w h)
  · intro k t c b t' c' _ h
    have f := matchTok_frame (cfg := (⟨markdown, B, stop⟩ : Config MdState σ ρ)) k t c
    rw [h] at f
    exact ⟨(hf.tok h).1, hs.tok h, he.tok h, fun hw => hw.congr f.1 f.2.1, hk.tok h⟩
  · intro k t c x t' c' ht h _; exact mdTok_err ht h
  · intro l c b c' h
    refine ⟨(hf.la h).1, hs.la h, he.la h, fun hw => ?_, hk.la h⟩
    unfold lookahead at h
    have := mdLoop (B := B) (stop := stop) (la := l) (fuel := c.queue.length + c.scanner.lines.length + 1) (acc := []) hw (by simp)
    rcases hx : laLoop ⟨markdown, B, stop⟩ l (c.queue.length + c.scanner.lines.length + 1) [] c with ⟨r, c1⟩
    rw [hx] at h this
    rcases r with e | ⟨b', ts⟩
    · simp at h
    · simp only [Prod.mk.injEq, Except.ok.injEq] at h
      obtain ⟨rfl, rfl⟩ := h
      obtain ⟨h1, h2⟩ := this.1 _ _ _ rfl
      refine ⟨fun u hu => ?_, h1.scanner⟩
      simp only [List.mem_append] at hu
      rcases hu with hu | hu
      · exact h1.queue u hu
      · exact h2 u hu
  · intro l c x c' h hw
    have hnf := lookahead_ne_fuel (cfg := (⟨markdown, B, stop⟩ : Config MdState σ ρ)) markdown_lawful l c
    rw [h] at hnf
    unfold lookahead at h
    have := mdLoop (B := B) (stop := stop) (la := l) (fuel := c.queue.length + c.scanner.lines.length + 1) (acc := []) hw (by simp)
    rcases hx : laLoop ⟨markdown, B, stop⟩ l (c.queue.length + c.scanner.lines.length + 1) [] c with ⟨r, c1⟩
    rw [hx] at h this
    rcases r with e | ⟨b', ts⟩
    · simp only [Prod.mk.injEq, Except.error.injEq] at h
      obtain ⟨rfl, rfl⟩ := h
      rcases this.2 _ _ rfl with rfl | h
      · simp at hnf
      · exact h
    · simp at h

end

end Gherkin
