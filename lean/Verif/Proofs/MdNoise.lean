import Verif.Proofs.MdRenum
import Verif.Proofs.MirrorDoc
import Verif.Proofs.NoiseRun
import Verif.Proofs.BadConv

/-! Markdown texts that differ by a line of prose. -/

namespace Gherkin

open Md Markdown

/-! ### The matcher on prose -/

/-- What the matcher sees of a line of prose. -/
structure ProseL (d : Dialect) (l : Line) : Prop where
  forms : ∀ f, ¬ HasForm d l.text f
  fence : fenceOf l.text = none
  sep : ¬ SeparatorRow l.text
  row : ¬ BadRow l.text
  eof : l.isEof = false

theorem mild_sep_no {d : Dialect} {f : Str} {l : Line} {m : MdState} (hm : Mild d f m) (h : fenceOf l.text = none) : Ans l m .docStringSeparator false := by
  obtain ⟨_, ha | ⟨ha, hf⟩⟩ := hm
  · exact sep_no ha h
  · have hs : l.startsWith f = false := by
      have hf' : f ∈ [py"\"\"\"", py"````", py"```"] := hf
      unfold fenceOf at h
      rw [List.find?_eq_none] at h
      have := h f hf'
      unfold Line.startsWith startsWith
      rw [Bool.eq_false_iff]
      intro hc
      rw [List.isPrefixOf_iff_prefix] at hc
      apply this
      simp only [decide_eq_true_eq]
      exact (List.prefix_iff_eq_take.1 hc).symm
    refine ⟨Token.fresh l, ?_⟩
    simp [matchKind, matchDocSep, ha, matchSep, show (Token.fresh l).line = l from rfl, hs]

/-- Lines with a bar in front that are neither rows nor separator rows: they begin with six or more white space characters. -/
theorem bar_prose {d : Dialect} {l : Line} {m : MdState} (h : ProseL d l) {k : Kind} (hk : k = .tableRow ∨ k = .comment) : Ans l m k false := by
  cases hb : l.startsWith ['|'] with
  | false =>
    refine bar_no (fun hc => ?_) hk
    unfold Line.startsWith startsWith at hb
    rw [show l.lineText = l.trimmed from rfl] at hc
    cases ht : l.trimmed with
    | nil => rw [ht] at hc; simp at hc
    | cons c cs => rw [ht] at hc hb; simp only [List.head?_cons, Option.some.injEq] at hc; subst hc; simp [List.isPrefixOf] at hb
  | true =>
    obtain ⟨cells, hc⟩ := (row_ok_iff (n := l.number) hb).2 h.row
    have hs : isGfmSeparator cells = false := by
      cases hs : isGfmSeparator cells with
      | false => rfl
      | true => exact absurd (separator_sound hb hc hs) h.sep
    have hl : (Token.fresh l).line = l := rfl
    rcases hk with rfl | rfl
    · have hi : ¬ l.indent ≤ 5 := by
        intro hi
        apply h.forms .row
        obtain ⟨pre, hw, ht⟩ := lstrip_split l.text
        unfold Line.startsWith startsWith at hb
        rw [List.isPrefixOf_iff_prefix] at hb
        obtain ⟨rest, hr⟩ := hb
        rw [show lstrip l.text = l.trimmed from rfl, ← hr] at ht
        have hlen : l.indent = pre.length := by
          unfold Line.indent
          rw [← hr, ht]; simp
        exact ⟨pre, rest, hw, by omega, ht, fun hd => h.sep ⟨pre, rest, hw, ht, hd⟩⟩
      exact ⟨Token.fresh l, by simp [matchKind, matchTableRow, hl, hi]⟩
    · exact ⟨_, by simp [matchKind, matchComment, hl, hb, hc, hs]; rfl⟩

theorem prose_calm {d : Dialect} {f : Str} {m : MdState} {l : Line} (hm : Mild d f m) (h : ProseL d l) : ∀ k ∈ calmKinds, Ans l m k false := by
  have none_of : ∀ {ps kws suf}, ¬ (searchTitle ps kws suf).isSome = true → searchTitle ps kws suf = none := by
    intro ps kws suf h; cases hs : searchTitle ps kws suf with
    | none => rfl
    | some x => rw [hs] at h; simp at h
  have hd := hm.1
  have ho := Token.fresh_of l
  have hform := h.forms
  intro k hk
  have : k = .tagLine ∨ k = .comment ∨ k = .stepLine ∨ k = .tableRow ∨ k = .docStringSeparator ∨ k = .scenarioLine ∨ k = .backgroundLine ∨
      k = .examplesLine ∨ k = .ruleLine := by revert hk; cases k <;> decide
  rcases this with rfl | rfl | rfl | rfl | rfl | rfl | rfl | rfl | rfl
  · exact tags_no (hform .tags)
  · exact bar_prose h (.inr rfl)
  · refine ⟨Token.fresh l, ?_⟩
    simp only [matchKind, matchStep]
    exact title_no ho (none_of fun hs => hform .step (by rw [hd] at hs; exact item_sound hs))
  · exact bar_prose h (.inl rfl)
  · exact mild_sep_no hm h.fence
  · refine ⟨Token.fresh l, ?_⟩
    have s1 : searchTitle (headerPrefix l.lineText) m.dialect.scenario [':'] = none := none_of fun hs => hform .scenario (by
      rw [hd] at hs
      obtain ⟨kw, pre, n, sp, rest, hk, more⟩ := heading_sound hs
      exact ⟨kw, pre, n, sp, rest, by simp [hk], more⟩)
    have s2 : searchTitle (headerPrefix l.lineText) m.dialect.scenarioOutline [':'] = none := none_of fun hs => hform .scenario (by
      rw [hd] at hs
      obtain ⟨kw, pre, n, sp, rest, hk, more⟩ := heading_sound hs
      exact ⟨kw, pre, n, sp, rest, by simp [hk], more⟩)
    simp only [matchKind, matchScenario, title_no ho s1, title_no ho s2]
  · refine ⟨Token.fresh l, ?_⟩
    exact title_no ho (none_of fun hs => hform .background (by rw [hd] at hs; exact heading_sound hs))
  · refine ⟨Token.fresh l, ?_⟩
    exact title_no ho (none_of fun hs => hform .examples (by rw [hd] at hs; exact heading_sound hs))
  · refine ⟨Token.fresh l, ?_⟩
    exact title_no ho (none_of fun hs => hform .rule (by rw [hd] at hs; exact heading_sound hs))

theorem prose_empty {d : Dialect} {f : Str} {m : MdState} {l : Line} (hm : Good d f m) (h : ProseL d l) : Ans l m .empty true := by
  obtain ⟨t, h1, _⟩ := empty_ans hm.2 h.eof (f := fun _ => false) (prose_calm hm.1 h)
  exact ⟨t, by rw [h1]; simp [calmKinds]⟩

theorem ans_test {l : Line} {m : MdState} {k : Kind} {b : Bool} (he : l.isEof = false) (h : Ans l m k b) : ∃ t, MdAuto.test k l m = (.ok b, t, m) := by
  obtain ⟨t, h⟩ := h
  exact ⟨t, by unfold MdAuto.test; rw [if_neg (by rw [he]; simp), h]⟩

theorem prose_skip {d : Dialect} {l : Line} (h : ProseL d l) : mdSkip d l = true := by
  obtain ⟨t, h1⟩ := prose_empty (f := Classic.ticks) (canon_good d _) h
  simp [mdSkip, h.eof, Md.skipped, skipKinds, h1]

theorem prose_any {d : Dialect} {f : Str} {m : MdState} {l : Line} (hm : Good d f m) (h : ProseL d l) : MdAuto.any skipKinds l m = some (true, m) := by
  obtain ⟨t, h1⟩ := ans_test h.eof (prose_empty hm h)
  simp only [skipKinds, MdAuto.any, h1]

namespace MdAuto

theorem peek_insert {d : Dialect} {f : Str} {all : List Line} (hk : MdKeeps (Good d f) all) {sk : Line → Bool} (hsk : Textual sk) {n : Line} (hn : ProseL d n)
    (hs : sk n = true) {B B' : List Line} (hB : B.map (·.text) = B'.map (·.text)) (la : LA) : ∀ {A : List Line} {m : MdState}, (∀ l ∈ A, l ∈ all) → Good d f m →
    peek sk la (A ++ n :: B') m = peek sk la (A ++ B) m := by
  intro A
  induction A with
  | nil =>
    intro m _ hm
    obtain ⟨t, h1⟩ := ans_test hn.eof (prose_calm hm.1 hn la.expected (by cases la <;> decide))
    simp only [List.nil_append, peek, h1, prose_any hm hn, hs, if_true]
    exact peek_renum hsk hB m
  | cons l A ih =>
    intro m hsub hm
    have hl := hsub l (by simp)
    have h1 := hk la.expected l m hl hm
    simp only [List.cons_append, peek]
    rcases ht : test la.expected l m with ⟨r, t, m1⟩
    rw [ht] at h1
    cases r with
    | error e => rfl
    | ok b =>
      cases b with
      | true => rfl
      | false =>
        simp only
        rcases ha : any skipKinds l m1 with _ | ⟨b, m2⟩
        · rfl
        · cases b with
          | false => rfl
          | true => simp only [ih (fun x hx => hsub x (by simp [hx])) (hk.any_keep hl h1 ha)]

/-- A run over a prefix does not depend on what follows, as long as look-aheads do not see the difference. -/
theorem run_append {sk : Line → Bool} {d : Dialect} {f : Str} {all : List Line} (h1 : MdKeeps (Mild d f) all) (h2 : MdKeeps (Good d f) all) {A B : List Line}
    (hA : ∀ l ∈ A, l.isEof = false) : ∀ {q : Nat} {m : MdState} {mv : List Auto.Move} {q' : Nat} {m' : MdState},
    Run sk q m (A ++ B) mv q' m' → (∀ l ∈ A ++ B, l ∈ all) → MdAt d f q m →
    ∃ mvA mvB qk mk, mv = mvA ++ mvB ∧ mvA.length = A.length ∧ Run sk qk mk B mvB q' m' ∧ MdAt d f qk mk ∧
      ∀ B', (∀ A' la m, (∀ l ∈ A', l ∈ all) → Good d f m → peek sk la (A' ++ B') m = peek sk la (A' ++ B) m) → ∀ mvB' q'' m'', Run sk qk mk B' mvB' q'' m'' →
        Run sk q m (A ++ B') (mvA ++ mvB') q'' m'' := by
  induction A with
  | nil => intro q m mv q' m' h _ hm; exact ⟨[], mv, q, m, rfl, rfl, h, hm, fun B' _ mvB' q'' m'' h => h⟩
  | cons l A ih =>
    intro q m mv q' m' h hsub hm
    have hl := hA l (by simp)
    have hla := hsub l (by simp)
    have hsub' : ∀ x ∈ A ++ B, x ∈ all := fun x hx => hsub x (by simp only [List.cons_append, List.mem_cons]; exact .inr hx)
    cases h with
    | last _ he => rw [hl] at he; simp at he
    | @cons _ _ _ _ tr t m1 mv1 _ _ hs he hr =>
      obtain ⟨mvA, mvB, qk, mk, g1, g2, g3, g4, g5⟩ := ih (fun x hx => hA x (by simp [hx])) hr hsub' (mdStep_at h1 h2 hla hsub' hl hm hs)
      refine ⟨_ :: mvA, mvB, qk, mk, by rw [g1]; rfl, by simp [g2], g3, g4, ?_⟩
      intro B' hB' mvB' q'' m'' hr'
      refine .cons ?_ he (g5 B' hB' mvB' q'' m'' hr')
      unfold step at hs ⊢
      cases hrow : table q with
      | none => rw [hrow] at hs; simp at hs
      | some row =>
        rw [hrow] at hs
        simp only at hs ⊢
        obtain ⟨t', k1, _, k2⟩ := pick_renum (l' := l) rfl (r' := A ++ B') (I := Good d f) (fun la m hm => hB' A la m (fun x hx => hsub' x (by simp [hx])) hm)
          (fun k m hm => h2 k l m hla hm) (fun la m b m' hm hp => h2.peek_keep hsub' hm hp) (by
            by_cases hq : q ≤ 2
            · exact .inl fun x hx => (first_row hrow hq x hx).1
            · exact .inr ⟨hm.1, hm.2 (by omega)⟩) hs
        have := k2 rfl
        subst this
        exact k1

end MdAuto

/-! ### The step on prose -/

/-- After the feature line and outside doc strings the first transition for an empty or other line leads back to the state. -/
def proseOk (q : Nat) : Bool :=
  match table q with
  | some row => decide (q ≤ 2) || Auto.openStates.contains q ||
      ((match row.trans.find? fun tr => tr.kind == .empty || tr.kind == .other with
        | some tr => tr.target == q && tr.la == none
        | none => false) &&
      row.trans.all fun tr => tr.kind == .empty || tr.kind == .other || tr.kind == .eof || calmKinds.contains tr.kind)
  | none => true

theorem rows_proseOk : ∀ q ∈ allStates, proseOk q = true := by decide +kernel

theorem find_split {α : Type} {p : α → Bool} : ∀ {xs : List α} {x : α}, xs.find? p = some x → ∃ pre post, xs = pre ++ x :: post ∧ p x = true ∧ ∀ y ∈ pre, p y = false
  | [], _, h => by simp at h
  | y :: ys, x, h => by
    rw [List.find?_cons] at h
    cases hy : p y with
    | true => rw [hy] at h; simp only [Option.some.injEq] at h; subst h; exact ⟨[], ys, rfl, hy, by simp⟩
    | false =>
      rw [hy] at h
      obtain ⟨pre, post, h1, h2, h3⟩ := find_split h
      refine ⟨y :: pre, post, by rw [h1]; rfl, h2, fun z hz => ?_⟩
      rcases List.mem_cons.1 hz with rfl | hz
      · exact hy
      · exact h3 z hz

theorem pick_pass {sk : Line → Bool} {l : Line} {rest : List Line} {m : MdState} {post : List Trans} : ∀ {pre : List Trans},
    (∀ x ∈ pre, ∃ t, MdAuto.test x.kind l m = (.ok false, t, m)) → MdAuto.pick sk (pre ++ post) l rest m = MdAuto.pick sk post l rest m
  | [], _ => rfl
  | x :: pre, h => by
    obtain ⟨t, h1⟩ := h x (by simp)
    simp only [List.cons_append, MdAuto.pick, h1]
    exact pick_pass fun y hy => h y (by simp [hy])

theorem prose_step {sk : Line → Bool} {d : Dialect} {f : Str} {q : Nat} {row : StateRow} {n : Line} {m : MdState} (hm : Good d f m) (hq : 2 < q)
    (ho : q ∉ Auto.openStates) (hrow : table q = some row) (hn : ProseL d n) (rest : List Line) :
    ∃ tr t, MdAuto.step sk q n rest m = some (tr, t, m) ∧ tr.target = q ∧ (tr.kind = .empty ∨ tr.kind = .other) ∧ t.type = some tr.kind := by
  have h := rows_proseOk q (mem_allStates hrow)
  unfold proseOk at h
  rw [hrow] at h
  have hq' : decide (q ≤ 2) = false := by simp; omega
  have ho' : Auto.openStates.contains q = false := by simpa using ho
  simp only [hq', ho', Bool.false_or, Bool.and_eq_true, List.all_eq_true] at h
  obtain ⟨h1, h2⟩ := h
  cases hf : row.trans.find? fun tr => tr.kind == .empty || tr.kind == .other with
  | none => rw [hf] at h1; simp at h1
  | some tr =>
    rw [hf] at h1
    simp only [Bool.and_eq_true, beq_iff_eq] at h1
    obtain ⟨pre, post, e1, e2, e3⟩ := find_split hf
    have hpre : ∀ x ∈ pre, ∃ t, MdAuto.test x.kind n m = (.ok false, t, m) := by
      intro x hx
      have a := h2 x (by rw [e1]; simp [hx])
      have b := e3 x hx
      rw [b] at a
      simp only [Bool.false_or, Bool.or_eq_true, beq_iff_eq, List.contains_iff_mem] at a
      rcases a with a | a
      · rw [a]
        refine ⟨Token.fresh n, ?_⟩
        have : (Token.fresh n).eof = false := hn.eof
        simp [MdAuto.test, matchKind, matchEof, this]
      · exact ans_test hn.eof (prose_calm hm.1 hn _ a)
    have htr : ∃ t, MdAuto.test tr.kind n m = (.ok true, t, m) ∧ (tr.kind = .empty ∨ tr.kind = .other) := by
      simp only [Bool.or_eq_true, beq_iff_eq] at e2
      rcases e2 with e | e
      · rw [e]; obtain ⟨t, ht⟩ := ans_test hn.eof (prose_empty hm hn); exact ⟨t, ht, .inl rfl⟩
      · rw [e]; obtain ⟨t, ht⟩ := ans_test (l := n) (m := m) (k := .other) (b := true) hn.eof ⟨_, rfl⟩; exact ⟨t, ht, .inr rfl⟩
    obtain ⟨t, ht, hk⟩ := htr
    refine ⟨tr, t, ?_, h1.1, hk, ?_⟩
    · unfold MdAuto.step
      rw [hrow]
      simp only
      rw [e1, pick_pass hpre]
      simp only [MdAuto.pick, ht, h1.2]
    · unfold MdAuto.test at ht
      rw [if_neg (by rw [hn.eof]; simp)] at ht
      have h4 := markdown_lawful.type tr.kind (Token.fresh n) m
      rw [show markdown.match_ tr.kind (Token.fresh n) m = _ from ht] at h4
      exact h4 rfl

end Gherkin
