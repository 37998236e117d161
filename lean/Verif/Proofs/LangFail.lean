import Verif.Proofs.Language
import Verif.Proofs.ErrAll

/-! An unknown language in the language header. -/

namespace Gherkin

open Auto

theorem match_language {m : CState} {l : Line} (h : Classic.languageName l.lineText = none) :
    Classic.matchKind .language (Token.fresh l) m = (.ok false, Token.fresh l, m) := by
  have hl : (Token.fresh l).line = l := rfl
  simp [Classic.matchKind, Classic.matchLanguage, hl, h]

theorem Auto.pick_skip {tr : Trans} {trs : List Trans} {l : Line} {rest : List Line} {m : CState}
    (h : (Classic.matchKind tr.kind (Token.fresh l) m).1 = .ok false) : Auto.pick (tr :: trs) l rest m = Auto.pick trs l rest m := by
  simp only [Auto.pick]
  split
  · rfl
  · rcases hx : Classic.matchKind tr.kind (Token.fresh l) m with ⟨r, t, m'⟩
    rw [hx] at h
    simp only at h
    subst h
    rfl

theorem Auto.pick_hit {tr : Trans} {trs : List Trans} {l : Line} {rest : List Line} {m m' : CState} {t : Token} (hne : l.isEof = false)
    (hla : tr.la = none) (h : Classic.matchKind tr.kind (Token.fresh l) m = (.ok true, t, m')) :
    Auto.pick (tr :: trs) l rest m = some (tr, t, m') := by
  simp only [Auto.pick, hne, Bool.false_eq_true, and_false, if_false, h, hla]

theorem match_eof_no {l : Line} (hne : l.isEof = false) {m : CState} :
    Classic.matchKind .eof (Token.fresh l) m = (.ok false, Token.fresh l, m) := by
  have : (Token.fresh l).eof = false := hne
  simp [Classic.matchKind, Classic.matchEof, this]

theorem match_no {m : CState} (hv : m.Valid) (ha : m.active = none) {l : Line} {k : Kind} (a1 : k ≠ .language) (a2 : k ≠ .eof)
    (a3 : k ≠ .other) (a4 : lineKind m.dialect l ≠ k) : (Classic.matchKind k (Token.fresh l) m).1 = .ok false := by
  rw [match_fits ha a1 a2]
  cases hf : fits m.dialect l k with
  | false => rfl
  | true => exact absurd ((lineKind_iff hv.known a3).2 hf) a4

/-- A blank line or a comment before the feature. -/
theorem step_before {l : Line} (hne : l.isEof = false) (hb : Before l) (rest : List Line) {m : CState} (hv : m.Valid) (ha : m.active = none) :
    ∃ tr t, Auto.step 0 l rest m = some (tr, t, m) ∧ tr.target = 0 ∧ tr.prods = [.build] := by
  obtain ⟨h1, h2⟩ := hb
  have hk := (blank_comment hv.known).2 h1
  have hm0 : ∀ k, k ≠ .language → k ≠ .eof → k ≠ .other → lineKind m.dialect l ≠ k → (Classic.matchKind k (Token.fresh l) m).1 = .ok false :=
    fun k a1 a2 a3 a4 => match_no hv ha a1 a2 a3 a4
  have hl : (Token.fresh l).line = l := rfl
  show ∃ tr t, Auto.pick state0.trans l rest m = some (tr, t, m) ∧ _
  unfold state0
  simp only
  rw [Auto.pick_skip (by rw [match_eof_no hne]), Auto.pick_skip (by rw [match_language h2]),
    Auto.pick_skip (hm0 .tagLine (by simp) (by simp) (by simp) (by rcases hk with h | h <;> rw [h] <;> simp)),
    Auto.pick_skip (hm0 .featureLine (by simp) (by simp) (by simp) (by rcases hk with h | h <;> rw [h] <;> simp))]
  rcases hk with h | h
  · have hc : (Classic.matchKind .comment (Token.fresh l) m).1 = .ok true :=
      match_true ha (by simp) (by simp) ⟨by
        intro h'
        have := (lineKind_iff hv.known (k := .tagLine) (by simp)).2 h'
        rw [h] at this; simp at this, by
        intro h'
        have := (lineKind_iff hv.known (k := .tableRow) (by simp)).2 h'
        rw [h] at this; simp at this⟩ ((lineKind_iff hv.known (k := .comment) (by simp)).1 h)
    have : ∃ t, Classic.matchKind .comment (Token.fresh l) m = (.ok true, t, m) := by
      revert hc
      simp only [Classic.matchKind, Classic.matchComment]
      split <;> simp
    obtain ⟨t, ht⟩ := this
    exact ⟨_, t, Auto.pick_hit hne rfl ht, rfl, rfl⟩
  · rw [Auto.pick_skip (hm0 .comment (by simp) (by simp) (by simp) (by rw [h]; simp))]
    have hc : (Classic.matchKind .empty (Token.fresh l) m).1 = .ok true :=
      match_true ha (by simp) (by simp) ⟨by
        intro h'
        have := (lineKind_iff hv.known (k := .tagLine) (by simp)).2 h'
        rw [h] at this; simp at this, by
        intro h'
        have := (lineKind_iff hv.known (k := .tableRow) (by simp)).2 h'
        rw [h] at this; simp at this⟩ ((lineKind_iff hv.known (k := .empty) (by simp)).1 h)
    have : ∃ t, Classic.matchKind .empty (Token.fresh l) m = (.ok true, t, m) := by
      revert hc
      simp only [Classic.matchKind, Classic.matchEmpty]
      split <;> simp
    obtain ⟨t, ht⟩ := this
    exact ⟨_, t, Auto.pick_hit hne rfl ht, rfl, rfl⟩

section
variable {σ ρ : Type} {B : Builder σ ρ}

theorem loop_before {I : σ → Prop} (hB : ∀ t b, I b → (B.build t b).1 = .ok () ∧ I (B.build t b).2) {l2 : List Line} : ∀ {l1 : List Line} {c : Ctx CState σ},
    (∀ l ∈ l1, l.isEof = false ∧ Before l) → c.matcher.Valid → c.matcher.active = none → c.errors = [] → I c.builder →
    ∃ c', c'.matcher = c.matcher ∧ c'.errors = [] ∧
      Pure.loop (classicCfg B true) (l1 ++ l2) 0 c = Pure.loop (classicCfg B true) l2 0 c' := by
  intro l1
  induction l1 with
  | nil => intro c _ _ _ hc _; exact ⟨c, rfl, hc, rfl⟩
  | cons l l1 ih =>
    intro c h hv ha hc hI
    obtain ⟨tr, t, h1, h2, h3⟩ := step_before (h l (by simp)).1 (h l (by simp)).2 (l1 ++ l2) hv ha
    have hs : ∃ c', c'.matcher = c.matcher ∧ c'.errors = [] ∧ I c'.builder ∧
        Pure.step (classicCfg B true) 0 l (l1 ++ l2) { c with log := c.log ++ [.take l] } = (.ok 0, c') := by
      have hp : Auto.pick state0.trans l (l1 ++ l2) ({ c with log := c.log ++ [.take l] } : Ctx CState σ).matcher = some (tr, t, c.matcher) := h1
      have ht : table 0 = some state0 := rfl
      unfold Pure.step
      rw [ht]
      simp only
      rw [try_complete (c := { c with log := c.log ++ [.take l] }) (Token.fresh_of l) (by exact hc) hp, h3]
      generalize hc0 : ({ c with log := c.log ++ [.take l], matcher := c.matcher } : Ctx CState σ) = c0
      have e1 : c0.errors = [] := by rw [← hc0]; exact hc
      have e2 : c0.matcher = c.matcher := by rw [← hc0]
      have e3 : I c0.builder := by rw [← hc0]; exact hI
      have hb : BuildsOk B c0.builder ([Prod.build].map (Prod.ev t)) := by
        simp [BuildsOk, Prod.ev, evAnswer, (hB t _ e3).1]
      rw [runProds_clean hb, h2]
      exact ⟨{ c0 with builder := ([Prod.build].map (Prod.ev t)).foldl (applyEv B) c0.builder, log := c0.log ++ [Prod.build].map (Prod.ev t) },
        e2, e1, (hB t _ e3).2, rfl⟩
    obtain ⟨c1, f1, f2, f4, f3⟩ := hs
    obtain ⟨c2, g1, g2, g3⟩ := ih (c := c1) (fun x hx => h x (by simp [hx])) (by rw [f1]; exact hv) (by rw [f1]; exact ha) f2 f4
    refine ⟨c2, g1.trans f1, g2, ?_⟩
    rw [List.cons_append]
    simp only [Pure.loop, f3, (h l (by simp)).1]
    exact g3

theorem step_header {l : Line} {name : Str} (hne : l.isEof = false) (hh : IsHeader name l.text) (hd : dialectFor name = none) (rest : List Line)
    (c : Ctx CState σ) : ∃ c', Pure.step (classicCfg B true) 0 l rest c =
      (.error (.single (Err.mkNoSuchLanguage name ⟨l.number, some (l.indent + 1)⟩ (some l.number))), c') := by
  have ht : table 0 = some state0 := rfl
  have h1 := header_iff.2 hh
  have hl : (Token.fresh l).line = l := rfl
  have he : (Token.fresh l).eof = false := hne
  unfold Pure.step
  rw [ht]
  have e1 : ∀ c : Ctx CState σ, matchTok (classicCfg B true) .eof (Token.fresh l) c = (.ok false, Token.fresh l, { c with errors := syncErrors (Token.fresh l) c.errors }) := by
    intro c
    simp [matchTok, classic, match_eof_no hne, handle]
  have e2 : ∀ c : Ctx CState σ, ∃ c', matchTok (classicCfg B true) .language (Token.fresh l) c =
      (.error (.single (Err.mkNoSuchLanguage name ⟨l.number, some (l.indent + 1)⟩ (some l.number))),
        setMatched c.matcher.dialectName (Token.fresh l) (some .language) (some name) none none none [], c') := by
    intro c
    simp [matchTok, classic, Classic.matchKind, Classic.matchLanguage, hl, h1, hd, he, handle]
    simp [setMatched, hl, hne, Token.fresh]
  obtain ⟨c', e2⟩ := e2 { c with errors := syncErrors (Token.fresh l) c.errors }
  simp only [state0, Pure.try_, Pure.test, e1, e2]
  exact ⟨_, rfl⟩

end

/-- The first error of a text with an unknown language in its header. -/
theorem unknown_language {text : Str} {m : CState} (hm : m.Valid) {n : Nat} {name : Str} (h : HeaderAt text n name) (hd : dialectFor name = none)
    (b : BState) : ∃ l ∈ sourceLines text, l.number = n ∧ IsHeader name l.text ∧
      (parse ⟨classic, astBuilder, true⟩ text m b).1 =
        .error (.single (Err.mkNoSuchLanguage name ⟨n, some (l.indent + 1)⟩ (some n))) := by
  obtain ⟨⟨s, hs, hh⟩, hbef⟩ := h
  obtain ⟨hn1, hn2⟩ := hs
  have hlt : n - 1 < (splitLines text).length := by
    have := (List.getElem?_eq_some_iff.1 hn2).1; exact this
  have hsl : (sourceLines text).length = (splitLines text).length := by simp [sourceLines]
  have hlt' : n - 1 < (sourceLines text).length := by rw [hsl]; exact hlt
  let l := (sourceLines text)[n - 1]
  have hlt2 : l.text = s ∧ l.number = n := by
    have : (splitLines text)[n - 1] = s := (List.getElem?_eq_some_iff.1 hn2).2
    simp only [l, sourceLines, List.getElem_map, List.getElem_zipIdx, this, true_and]
    omega
  have hsplit : sourceLines text = (sourceLines text).take (n - 1) ++ l :: (sourceLines text).drop n := by
    have := List.take_append_drop (n - 1) (sourceLines text)
    rw [List.drop_eq_getElem_cons hlt', show n - 1 + 1 = n by omega] at this
    exact this.symm
  have hmem : l ∈ sourceLines text := List.getElem_mem hlt'
  have hne : ∀ x ∈ sourceLines text, x.isEof = false := fun x hx => sourceLines_noteof hx
  refine ⟨l, hmem, hlt2.2, by rw [hlt2.1]; exact hh, ?_⟩
  have htl : tokenLines text = (sourceLines text).take (n - 1) ++ (l :: (sourceLines text).drop n ++ [eofLine text]) := by
    unfold tokenLines
    conv => lhs; rw [hsplit]
    simp
  have hb : ∀ x ∈ (sourceLines text).take (n - 1), x.isEof = false ∧ Before x := by
    have hb0 := (before_iff (P := fun s => BlankText s ∨ (CommentText s ∧ ∀ nm, ¬ IsHeader nm s)) htl
      (fun x hx => hne x (List.mem_of_mem_take hx))).2 (by
        intro k hk s hs
        refine hbef k ?_ s hs
        simp at hk; omega)
    intro x hx
    refine ⟨hne x (List.mem_of_mem_take hx), ?_⟩
    rcases hb0 x hx with h | ⟨h1, h2⟩
    · refine ⟨.inl (blank_iff.2 h), not_header.2 fun nm hnm => ?_⟩
      obtain ⟨a, b, h1, h2⟩ := header_comment hnm
      have := h '#' (by rw [h2]; simp)
      simp [isSpace] at this
    · exact ⟨.inr (comment_iff.2 h1), not_header.2 h2⟩
  rw [(parse_sim (stop := true) astBuilder_plain text hm b).1]
  unfold Pure.parse
  have hv := Classic.reset_valid hm
  have ha : (Classic.reset m).active = none := by rfl
  rcases hx : runProd (classicCfg astBuilder true) (.start .gherkinDocument) (Token.fresh ⟨[], 0⟩)
    { scanner := ⟨[], 0⟩, matcher := (classicCfg astBuilder true).matcher.reset m, queue := [], errors := [],
      builder := (classicCfg astBuilder true).builder.reset b, log := [] } with ⟨r, c⟩
  have hr : r = .ok () ∧ c.matcher = Classic.reset m ∧ c.errors = [] ∧ c.builder.stack ≠ [] := by
    simp only [runProd, astBuilder, handle, Prod.mk.injEq] at hx
    obtain ⟨rfl, rfl⟩ := hx
    exact ⟨rfl, rfl, rfl, by simp [AstB.startRule]⟩
  obtain ⟨rfl, h1, h2, h3⟩ := hr
  simp only
  obtain ⟨c', g1, g2, g3⟩ := loop_before (B := astBuilder) (I := fun b => b.stack ≠ []) (by
    intro t b hb
    simp only [astBuilder, AstB.build]
    split
    · exact ⟨rfl, hb⟩
    · split
      · rename_i h; exact absurd h hb
      · simp) (l2 := l :: (sourceLines text).drop n ++ [eofLine text])
    hb (c := c) (by rw [h1]; exact hv) (by rw [h1]; exact ha) h2 h3
  rw [htl, g3]
  obtain ⟨c2, g4⟩ := step_header (B := astBuilder) (hne l hmem) (by rw [hlt2.1]; exact hh) hd ((sourceLines text).drop n ++ [eofLine text])
    { c' with log := c'.log ++ [.take l] }
  rw [List.cons_append]
  simp only [Pure.loop, g4, hlt2.2]

end Gherkin
