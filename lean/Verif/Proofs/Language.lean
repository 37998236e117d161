import Verif.Proofs.Opaque
import Verif.Spec.Language

/-! The language header. -/

namespace Gherkin

open Cst

theorem isLangChar_iff (c : Char) : Classic.isLangChar c = true ↔ langChar c := by
  simp [Classic.isLangChar, langChar, or_assoc]

theorem langChar_not_space {c : Char} (h : langChar c) : isSpace c = false := by
  have key : ∀ n : Nat, n < 128 → (65 ≤ n ∧ n ≤ 90 ∨ 97 ≤ n ∧ n ≤ 122 ∨ n = 45 ∨ n = 95) →
      ((9 ≤ n && n ≤ 13) || (28 ≤ n && n ≤ 32) || n == 0x85 || n == 0xA0 || n == 0x1680 ||
      (0x2000 ≤ n && n ≤ 0x200A) || n == 0x2028 || n == 0x2029 || n == 0x202F || n == 0x205F || n == 0x3000) = false := by
    intro n hn h
    simp; omega
  have hc : c.toNat < 128 ∧ (65 ≤ c.toNat ∧ c.toNat ≤ 90 ∨ 97 ≤ c.toNat ∧ c.toNat ≤ 122 ∨ c.toNat = 45 ∨ c.toNat = 95) := by
    have conv : ∀ a b : Char, a ≤ b ↔ a.toNat ≤ b.toNat := fun a b => by
      rw [Char.le_def, UInt32.le_iff_toNat_le]; rfl
    rcases h with ⟨h1, h2⟩ | ⟨h1, h2⟩ | rfl | rfl
    · rw [conv] at h1 h2
      have e1 : 'a'.toNat = 97 := rfl
      have e2 : 'z'.toNat = 122 := rfl
      omega
    · rw [conv] at h1 h2
      have e1 : 'A'.toNat = 65 := rfl
      have e2 : 'Z'.toNat = 90 := rfl
      omega
    · decide
    · decide
  exact key _ hc.1 hc.2

theorem lstrip_pre {w s : Str} (hw : White w) (hs : ∀ c ∈ s.head?, isSpace c = false) : lstrip (w ++ s) = s :=
  lstripBy_append hw hs

theorem dropPre_append (p s : Str) : Classic.dropPre p (p ++ s) = some s := by
  simp [Classic.dropPre, List.isPrefixOf_iff_prefix]

theorem dropPre_some {p s r : Str} (h : Classic.dropPre p s = some r) : s = p ++ r := by
  unfold Classic.dropPre at h
  split at h
  · rename_i hp
    obtain ⟨t, rfl⟩ := List.isPrefixOf_iff_prefix.1 hp
    simp at h; rw [h]
  · simp at h

theorem lstrip_split (s : Str) : ∃ w, White w ∧ s = w ++ lstrip s := by
  obtain ⟨w, h1, h2, _⟩ := lstripBy_spec (p := isSpace) s
  exact ⟨w, h1, h2⟩

theorem languageName_iff {s name : Str} : Classic.languageName s = some name ↔ IsHeader name s := by
  constructor
  · intro h
    unfold Classic.languageName at h
    cases h1 : Classic.dropPre ['#'] (lstrip s) with
    | none => rw [h1] at h; simp at h
    | some s1 =>
      rw [h1] at h
      simp only at h
      cases h2 : Classic.dropPre py"language" (lstrip s1) with
      | none => rw [h2] at h; simp at h
      | some s2 =>
        rw [h2] at h
        simp only at h
        cases h3 : Classic.dropPre [':'] (lstrip s2) with
        | none => rw [h3] at h; simp at h
        | some s3 =>
          rw [h3] at h
          simp only at h
          split at h
          · simp at h
          · rename_i hn
            split at h
            · rename_i hr
              simp only [Option.some.injEq] at h
              obtain ⟨a, ha, ea⟩ := lstrip_split s
              obtain ⟨b, hb, eb⟩ := lstrip_split s1
              obtain ⟨c, hc, ec⟩ := lstrip_split s2
              obtain ⟨d, hd, ed⟩ := lstrip_split s3
              refine ⟨by rw [← h]; simpa using hn, ?_, a, b, c, d, (lstrip s3).dropWhile Classic.isLangChar, ha, hb, hc, hd, ?_, ?_⟩
              · intro x hx
                rw [← h] at hx
                exact (isLangChar_iff x).1 (by simpa using List.all_eq_true.1 List.all_takeWhile x hx)
              · intro x hx; exact List.all_eq_true.1 hr x hx
              · have e4 : lstrip s3 = name ++ (lstrip s3).dropWhile Classic.isLangChar := by
                  rw [← h]; exact (List.takeWhile_append_dropWhile).symm
                generalize (lstrip s3).dropWhile Classic.isLangChar = tl at e4
                have : s = a ++ (['#'] ++ (b ++ (py"language" ++ (c ++ ([':'] ++ (d ++ (name ++ tl))))))) := by
                  rw [← e4, ← ed, ← dropPre_some h3, ← ec, ← dropPre_some h2, ← eb, ← dropPre_some h1, ← ea]
                rw [this]; simp
            · simp at h
  · rintro ⟨h0, h1, a, b, c, d, e, ha, hb, hc, hd, he, rfl⟩
    have hhead : ∀ x ∈ (name ++ e).head?, isSpace x = false := by
      cases name with
      | nil => exact absurd rfl h0
      | cons y ys => intro x hx; simp at hx; subst hx; exact langChar_not_space (h1 _ (by simp))
    have e1 : lstrip (a ++ ['#'] ++ b ++ py"language" ++ c ++ [':'] ++ d ++ name ++ e) =
        ['#'] ++ (b ++ (py"language" ++ (c ++ ([':'] ++ (d ++ (name ++ e)))))) := by
      have := lstrip_pre (s := ['#'] ++ (b ++ (py"language" ++ (c ++ ([':'] ++ (d ++ (name ++ e))))))) ha (by intro x hx; simp at hx; subst hx; decide)
      rw [← this]; simp
    have e2 : lstrip (b ++ (py"language" ++ (c ++ ([':'] ++ (d ++ (name ++ e)))))) = py"language" ++ (c ++ ([':'] ++ (d ++ (name ++ e)))) :=
      lstrip_pre hb (by intro x hx; simp [] at hx; subst hx; decide)
    have e3 : lstrip (c ++ ([':'] ++ (d ++ (name ++ e)))) = [':'] ++ (d ++ (name ++ e)) :=
      lstrip_pre hc (by intro x hx; simp at hx; subst hx; decide)
    have e4 : lstrip (d ++ (name ++ e)) = name ++ e := lstrip_pre hd hhead
    have htw : (name ++ e).takeWhile Classic.isLangChar = name ∧ (name ++ e).dropWhile Classic.isLangChar = e := by
      have hn : ∀ x ∈ name, Classic.isLangChar x = true := fun x hx => (isLangChar_iff x).2 (h1 x hx)
      have hee : e.takeWhile Classic.isLangChar = [] ∧ e.dropWhile Classic.isLangChar = e := by
        cases e with
        | nil => simp
        | cons y ys =>
          have : Classic.isLangChar y = false := by
            cases hy : Classic.isLangChar y with
            | false => rfl
            | true =>
              have := langChar_not_space ((isLangChar_iff y).1 hy)
              rw [he y (by simp)] at this; simp at this
          simp [this]
      exact ⟨by rw [List.takeWhile_append_of_pos hn, hee.1]; simp, by rw [List.dropWhile_append_of_pos hn, hee.2]⟩
    unfold Classic.languageName
    rw [e1, dropPre_append]
    simp only [e2, dropPre_append, e3, e4, htw.1, htw.2]
    have : name.isEmpty = false := by simpa using h0
    rw [this]
    simp only [Bool.false_eq_true, if_false]
    rw [if_pos (List.all_eq_true.2 he)]

theorem languageName_lstrip (s : Str) : Classic.languageName (lstrip s) = Classic.languageName s := by
  have : lstrip (lstrip s) = lstrip s := by
    obtain ⟨w, h1, h2, h3⟩ := lstripBy_spec (p := isSpace) s
    exact lstripBy_id h3
  unfold Classic.languageName
  rw [this]

theorem header_iff {l : Line} {name : Str} : Classic.languageName l.lineText = some name ↔ IsHeader name l.text := by
  rw [← languageName_iff, ← languageName_lstrip l.text]; rfl

theorem blank_iff {l : Line} : isBlankLine l = true ↔ BlankText l.text := by simp [isBlankLine, BlankText, White]

theorem comment_iff {l : Line} : firstIs '#' l = true ↔ CommentText l.text := by
  constructor
  · intro h
    obtain ⟨w, h1, h2⟩ := lstrip_split l.text
    simp only [firstIs, beq_iff_eq] at h
    cases hl : lstrip l.text with
    | nil => rw [hl] at h; simp at h
    | cons c cs => rw [hl] at h h2; simp at h; subst h; exact ⟨w, cs, h1, h2⟩
  · rintro ⟨a, b, ha, h⟩
    simp only [firstIs, h]
    rw [lstrip_pre (s := '#' :: b) ha (by intro x hx; simp at hx; subst hx; decide)]
    rfl

theorem not_header {l : Line} : Classic.languageName l.lineText = none ↔ ∀ nm, ¬ IsHeader nm l.text := by
  constructor
  · intro h nm hn; rw [header_iff.2 hn] at h; simp at h
  · intro h
    cases hl : Classic.languageName l.lineText with
    | none => rfl
    | some nm => exact absurd (header_iff.1 hl) (h nm)

theorem header_comment {name s : Str} (h : IsHeader name s) : CommentText s := by
  obtain ⟨_, _, a, b, c, d, e, ha, _, _, _, _, rfl⟩ := h
  exact ⟨a, b ++ py"language" ++ c ++ [':'] ++ d ++ name ++ e, ha, by simp⟩

namespace Auto

def rowOk9 (q : Nat) : Bool :=
  match table q with
  | some row => row.trans.all fun tr => (q != 0 || (tr.kind != .other && ((tr.kind == .comment || tr.kind == .empty) == (tr.target == 0)))) &&
      (tr.kind != .featureLine || tr.target == 3) && (openStates.contains q || row.trans.any (·.kind == .comment))
  | none => true

theorem rows_ok9 : ∀ q ∈ allStates, rowOk9 q = true := by decide +kernel

theorem row9 {q : Nat} {row : StateRow} (h : table q = some row) {tr : Trans} (htr : tr ∈ row.trans) :
    (q = 0 → tr.kind ≠ .other ∧ ((tr.kind = .comment ∨ tr.kind = .empty) ↔ tr.target = 0)) ∧ (tr.kind = .featureLine → tr.target = 3) ∧
    (q ∉ openStates → .comment ∈ kindsOf q) := by
  have hq := rows_ok9 q (mem_allStates h)
  unfold rowOk9 at hq
  rw [h] at hq
  simp only [List.all_eq_true] at hq
  have := hq tr htr
  simp only [Bool.and_eq_true] at this
  obtain ⟨⟨h1, h2⟩, h3⟩ := this
  refine ⟨?_, ?_, ?_⟩
  · rintro rfl
    simp at h1
    refine ⟨h1.1, ?_⟩
    have h2 := h1.2
    rw [Bool.eq_iff_iff] at h2
    simpa using h2
  · intro hk; rw [hk] at h2; simpa using h2
  · intro ho
    rw [show openStates.contains q = false by simpa using ho] at h3
    simp only [Bool.false_or, List.any_eq_true, beq_iff_eq] at h3
    obtain ⟨tr', h4, h5⟩ := h3
    simp only [kindsOf, h, List.mem_map]
    exact ⟨tr', h4, h5⟩

/-- The lines that can stand before a language header. -/
def Before (l : Line) : Prop := (isBlankLine l = true ∨ firstIs '#' l = true) ∧ Classic.languageName l.lineText = none

theorem blank_comment {d : Dialect} (hd : d.Known) {l : Line} :
    (lineKind d l = .comment ∨ lineKind d l = .empty) ↔ (isBlankLine l = true ∨ firstIs '#' l = true) := by
  rw [lineKind_iff hd (k := .comment) (by simp), lineKind_iff hd (k := .empty) (by simp)]
  simp only [fits]
  constructor
  · rintro (h | h)
    · exact .inr h
    · exact .inl h
  · rintro (h | h)
    · exact .inr h
    · exact .inl h

theorem target_zero {l : Line} {rest : List Line} {m m' : CState} {tr : Trans} {t : Token} (hi : Inv 0 m) (hne : l.isEof = false)
    (h : StepSpec 0 l rest m tr t m') : tr.target = 0 ↔ Before l := by
  have ha : m.active = none := by
    apply Classical.byContradiction
    intro hc; have := hi.active.2 hc; simp [openStates] at this
  obtain ⟨row, hrow, htr⟩ := step_row h
  obtain ⟨f1, f2⟩ := (row9 hrow htr).1 rfl
  rw [← f2]
  rcases step_kind hi ha hne h with ⟨h1, _, h3⟩ | ⟨h1, h2⟩ | ⟨h1, _⟩
  · rw [h1]
    simp only [Before]
    constructor
    · rintro (h | h) <;> simp at h
    · rintro ⟨_, h⟩; rw [h] at h3; simp at h3
  · rw [h1, blank_comment hi.valid.known]
    exact ⟨fun h => ⟨h, by simpa using h2⟩, fun h => h.1⟩
  · exact absurd h1 f1

theorem state_nonzero : ∀ {mv1 : List Move} {q : Nat} {m : CState} {lines : List Line} {z : Move} {mv2 : List Move} {q' : Nat} {m' : CState},
    Run q m lines (mv1 ++ z :: mv2) q' m' → Src lines → q ≠ 0 → z.state ≠ 0 := by
  intro mv1
  induction mv1 with
  | nil =>
    intro q m lines z mv2 q' m' h hs hq
    obtain ⟨l, rest, x, mv', m1, h1, h2, h3, h4, _⟩ := run_cons h hs
    simp at h2
    rw [h2.1, h3]; exact hq
  | cons y mv1 ih =>
    intro q m lines z mv2 q' m' h hs hq
    obtain ⟨l, rest, x, mv', m1, h1, h2, h3, h4, _, h6⟩ := run_cons h hs
    simp at h2
    rcases h6 with ⟨_, _, h7, _⟩ | ⟨_, hs', hr⟩
    · rw [h7] at h2; simp at h2
    · rw [← h2.2] at hr
      exact ih hr hs' fun h0 => hq (h4.facts.zero h0)

theorem state_zero : ∀ {mv1 : List Move} {m : CState} {lines : List Line} {z : Move} {mv2 : List Move} {q' : Nat} {m' : CState},
    Run 0 m lines (mv1 ++ z :: mv2) q' m' → Src lines → Inv 0 m → (z.state = 0 ↔ ∀ y ∈ mv1, Before y.tok.line) := by
  intro mv1
  induction mv1 with
  | nil =>
    intro m lines z mv2 q' m' h hs _
    obtain ⟨l, rest, x, mv', m1, h1, h2, h3, h4, _⟩ := run_cons h hs
    simp at h2
    simp [h2.1, h3]
  | cons y mv1 ih =>
    intro m lines z mv2 q' m' h hs hi
    obtain ⟨l, rest, x, mv', m1, h1, h2, h3, h4, h5, h6⟩ := run_cons h hs
    simp at h2
    rcases h6 with ⟨_, _, h7, _⟩ | ⟨hne, hs', hr⟩
    · rw [h7] at h2; simp at h2
    · rw [← h2.2] at hr
      have ht := target_zero hi hne h4
      have hi' := inv_step hi h4
      simp only [List.mem_cons, forall_eq_or_imp]
      rw [h2.1, h5.1, ← ht]
      by_cases h0 : x.tr.target = 0
      · rw [h0] at hr hi'
        rw [ih hr hs' hi']
        exact ⟨fun h => ⟨h0, h⟩, fun h => h.2⟩
      · constructor
        · intro hz; exact absurd hz (state_nonzero hr hs' h0)
        · intro h; exact absurd h.1 h0

end Auto

theorem lineIs_iff {text : Str} {l1 l2 : List Line} {l : Line} (h : tokenLines text = l1 ++ l :: l2) (hne : l.isEof = false) {s : Str} :
    LineIs text (l1.length + 1) s ↔ s = l.text := by
  have h1 := tokenLines_lineIs (l := l) (by rw [h]; simp) hne
  rw [(lines_split h).1] at h1
  constructor
  · intro h2
    have := h1.2.symm.trans h2.2
    simpa using this.symm
  · rintro rfl; exact h1

/-- Lines before a line. -/
theorem before_iff {text : Str} {l1 l2 : List Line} (h : tokenLines text = l1 ++ l2) (hne : ∀ l ∈ l1, l.isEof = false) {P : Str → Prop} :
    (∀ l ∈ l1, P l.text) ↔ ∀ k, k < l1.length + 1 → ∀ s, LineIs text k s → P s := by
  constructor
  · intro hp k hk s hs
    obtain ⟨h1, h2⟩ := hs
    have hlt : k - 1 < l1.length := by omega
    have hsp : l1 = l1.take (k - 1) ++ l1[k - 1] :: l1.drop k := by
      have := List.take_append_drop (k - 1) l1
      rw [List.drop_eq_getElem_cons hlt] at this
      rw [show k - 1 + 1 = k by omega] at this
      exact this.symm
    have hl : tokenLines text = l1.take (k - 1) ++ l1[k - 1] :: (l1.drop k ++ l2) := by
      rw [h]; conv => lhs; rw [hsp]
      simp
    have hlen : (l1.take (k - 1)).length + 1 = k := by simp; omega
    have := (lineIs_iff hl (hne _ (List.getElem_mem hlt)) (s := s)).1 (by rw [hlen]; exact ⟨h1, h2⟩)
    rw [this]; exact hp _ (List.getElem_mem hlt)
  · intro hp l hl
    obtain ⟨a, b, rfl⟩ := List.append_of_mem hl
    refine hp (a.length + 1) (by simp) l.text ?_
    exact (lineIs_iff (l2 := b ++ l2) (by rw [h]; simp) (hne l hl)).2 rfl

/-- The header is where the parser changes its language. -/
theorem header_move {text : Str} {m : CState} (hm : m.Valid) {mv1 : List Auto.Move} {z : Auto.Move} {mv2 : List Auto.Move} {q : Nat} {m' : CState}
    (hr : Auto.Run 0 (Classic.reset m) (tokenLines text) (mv1 ++ z :: mv2) q m') :
    z.tr.kind = .language ↔ ∃ name, HeaderAt text (mv1.length + 1) name := by
  have hsrc := Auto.tokenLines_src text
  have hinv := Auto.inv_start hm
  obtain ⟨l1, l, l2, m1, m2, e1, e2, e3, e4, e5, e6, e7, e8⟩ := Auto.run_at hr hsrc hinv
  have hz := Auto.state_zero hr hsrc hinv
  have hne1 : ∀ y ∈ l1, y.isEof = false := by
    obtain ⟨src, e, g1, g2, g3⟩ := hsrc.shape
    intro y hy
    apply g3
    rw [e1] at g1
    have : l1 ++ (l :: l2).dropLast = src := by
      have := congrArg List.dropLast g1
      rw [List.dropLast_append_of_ne_nil (by simp)] at this
      simpa using this
    rw [← this]; simp [hy]
  have hbef : (∀ y ∈ mv1, Auto.Before y.tok.line) ↔
      ∀ k, k < l1.length + 1 → ∀ s, LineIs text k s → BlankText s ∨ (CommentText s ∧ ∀ nm, ¬ IsHeader nm s) := by
    rw [← before_iff e1 hne1 (P := fun s => BlankText s ∨ (CommentText s ∧ ∀ nm, ¬ IsHeader nm s)), e7]
    simp only [List.mem_map, forall_exists_index, and_imp, forall_apply_eq_imp_iff₂]
    refine forall_congr' fun y => forall_congr' fun _ => ?_
    simp only [Auto.Before, blank_iff, comment_iff, not_header]
    constructor
    · rintro ⟨h | h, h'⟩
      · exact .inl h
      · exact .inr ⟨h, h'⟩
    · rintro (h | ⟨h, h'⟩)
      · refine ⟨.inl h, fun nm hn => ?_⟩
        obtain ⟨a, b, _, hab⟩ := header_comment hn
        have := h '#' (by rw [hab]; simp)
        simp [isSpace] at this
      · exact ⟨.inr h, h'⟩
  rw [← e2]
  constructor
  · intro hk
    obtain ⟨f0, f1⟩ := e3.facts.lang hk
    have hne : l.isEof = false := by
      rcases e3.eof with h | h
      · rw [hk] at h; simp at h
      · exact h
    have hmt := e3.matched
    rw [hk] at hmt
    simp only [Classic.matchKind, Classic.matchLanguage] at hmt
    split at hmt
    · simp at hmt
    · rename_i name hn
      exact ⟨name, ⟨l.text, (lineIs_iff e1 hne).2 rfl, header_iff.1 hn⟩, hbef.1 (hz.1 f0)⟩
  · rintro ⟨name, ⟨s, h1, h2⟩, h3⟩
    have hst := hz.2 (hbef.2 h3)
    have hne : l.isEof = false := by
      cases he : l.isEof with
      | false => rfl
      | true =>
        exfalso
        have hmem : LineIs text (l1.length + 1) s := h1
        obtain ⟨_, h4⟩ := hmem
        have hl2 : l2 = [] := by
          rcases e8 with ⟨_, h, _⟩ | ⟨h, _⟩
          · exact h
          · rw [he] at h; simp at h
        have hlen : (splitLines text).length = l1.length := by
          have := congrArg List.length e1
          simp [tokenLines, sourceLines, hl2] at this
          exact this
        simp [← hlen] at h4
    have hs : s = l.text := (lineIs_iff e1 hne).1 h1
    subst hs
    rw [hst] at e3 e5
    have ha : m1.active = none := by
      apply Classical.byContradiction
      intro hc; have := e5.active.2 hc; simp [Auto.openStates] at this
    rcases Auto.step_kind e5 ha hne e3 with ⟨h, _⟩ | ⟨_, h⟩ | ⟨h, _⟩
    · exact h
    · rw [header_iff.2 h2] at h; simp at h
    · obtain ⟨row, hrow, htr⟩ := Auto.step_row e3
      exact absurd h ((Auto.row9 hrow htr).1 rfl).1

theorem Auto.run_inv {q : Nat} {m : CState} {lines : List Line} {mv : List Move} {q' : Nat} {m' : CState} (h : Run q m lines mv q' m') :
    Inv q m → Inv q' m' := by
  induction h with
  | nil => exact id
  | last hs he => exact fun hi => inv_step hi (step_spec hs)
  | cons hs he hr ih => exact fun hi => ih (inv_step hi (step_spec hs))

theorem Auto.run_nolang {q : Nat} {m : CState} {lines : List Line} {mv : List Move} {q' : Nat} {m' : CState} (h : Run q m lines mv q' m') :
    Inv q m → (∀ x ∈ mv, x.tr.kind ≠ .language) → m'.dialect = m.dialect ∧ m'.dialectName = m.dialectName := by
  induction h with
  | nil => intros; exact ⟨rfl, rfl⟩
  | last hs he =>
    intro hi h0
    exact step_dialect (step_spec hs) hi (h0 _ List.mem_cons_self)
  | cons hs he hr ih =>
    intro hi h0
    obtain ⟨e1, e2⟩ := step_dialect (step_spec hs) hi (h0 _ List.mem_cons_self)
    obtain ⟨e3, e4⟩ := ih (inv_step hi (step_spec hs)) fun x hx => h0 x (by simp [hx])
    exact ⟨e3.trans e1, e4.trans e2⟩

theorem reset_name {m : CState} (hm : m.Valid) : (Classic.reset m).dialectName = m.defaultName := by
  unfold Classic.reset
  split
  · obtain ⟨d, hd⟩ := Option.isSome_iff_exists.1 hm.dflt
    rw [hd]
  · rename_i h; simpa using h

/-- The language in force at the end of an accepted text. -/
theorem final_dialect {text : Str} {m : CState} (hm : m.Valid) {mv : List Auto.Move} {q : Nat} {m' : CState}
    (hr : Auto.Run 0 (Classic.reset m) (tokenLines text) mv q m') :
    dialectFor m'.dialectName = some m'.dialect ∧
    (∀ n name, HeaderAt text n name → m'.dialectName = name) ∧
    ((∀ n name, ¬ HeaderAt text n name) → m'.dialectName = m.defaultName) := by
  have hsrc := Auto.tokenLines_src text
  have hinv := Auto.inv_start hm
  refine ⟨(Auto.run_inv hr hinv).valid.cur, ?_, ?_⟩
  · intro n name hh
    have hh' := hh
    obtain ⟨⟨s, ⟨hn, hls⟩, his⟩, _⟩ := hh
    have hlen : mv.length = (splitLines text).length + 1 := by
      have := congrArg List.length (Auto.run_lines hr hsrc)
      simpa [tokenLines, sourceLines] using this
    have hlt : n - 1 < (splitLines text).length := (List.getElem?_eq_some_iff.1 hls).1
    have hlt' : n - 1 < mv.length := by omega
    obtain ⟨mv1, z, mv2, rfl, hl⟩ : ∃ mv1 z mv2, mv = mv1 ++ z :: mv2 ∧ mv1.length = n - 1 := by
      refine ⟨mv.take (n - 1), mv[n - 1], mv.drop (n - 1 + 1), ?_, by simp; omega⟩
      rw [← List.drop_eq_getElem_cons hlt', List.take_append_drop]
    have hn1 : mv1.length + 1 = n := by omega
    have hk := (header_move hm hr).2 ⟨name, by rw [hn1]; exact hh'⟩
    obtain ⟨l1, l, l2, m1, m2, e1, e2, e3, e4, e5, e6, e7, e8⟩ := Auto.run_at hr hsrc hinv
    have hne : l.isEof = false := by
      rcases e3.eof with h | h
      · rw [hk] at h; simp at h
      · exact h
    rcases e8 with ⟨h, _⟩ | ⟨_, hsrc2, hrun⟩
    · rw [hne] at h; simp at h
    have ht : z.tr.target ≠ 0 := by rw [(e3.facts.lang hk).2]; simp
    have hs : s = l.text := (lineIs_iff e1 hne).1 (by rw [e2, hn1]; exact ⟨hn, hls⟩)
    subst hs
    have hmt := e3.matched
    rw [hk] at hmt
    simp only [Classic.matchKind, Classic.matchLanguage] at hmt
    rw [show (Token.fresh l).line.lineText = l.lineText from rfl, header_iff.2 his] at hmt
    simp only at hmt
    cases hd : dialectFor name with
    | none => rw [hd] at hmt; simp at hmt
    | some d =>
      rw [hd] at hmt
      simp only [Prod.mk.injEq] at hmt
      rw [(Auto.run_dialect hrun e6 ht).2, ← hmt.2.2]
  · intro hno
    rw [(Auto.run_nolang hr hinv ?_).2, reset_name hm]
    intro x hx hk
    obtain ⟨mv1, mv2, rfl⟩ := List.append_of_mem hx
    obtain ⟨name, hh⟩ := (header_move hm hr).1 hk
    exact hno _ _ hh

/-- The language of the feature is the language in force at the end. -/
theorem feature_language {text : Str} {m : CState} (hm : m.Valid) {mv : List Auto.Move} {q : Nat} {m' : CState} {D : CDoc}
    (hr : Auto.Run 0 (Classic.reset m) (tokenLines text) mv q m') (hD : D.Ok) (ht : D.toks = (mv.map (·.tok)).filter Token.isCore)
    {f : CFeature} (hf : D.feature = some f) : f.line.dialect = some m'.dialectName := by
  have hsrc := Auto.tokenLines_src text
  have hinv := Auto.inv_start hm
  have hty := (hD.1 f (by simpa using hf)).2.2.1
  have hmem : f.line ∈ (mv.map (·.tok)).filter Token.isCore := by
    rw [← ht]; simp [CDoc.toks, hf, CFeature.toks]
  obtain ⟨hmem, _⟩ := List.mem_filter.1 hmem
  obtain ⟨x, hx, hxt⟩ := List.mem_map.1 hmem
  obtain ⟨mv1, mv2, rfl⟩ := List.append_of_mem hx
  obtain ⟨l1, l, l2, m1, m2, e1, e2, e3, e4, e5, e6, e7, e8⟩ := Auto.run_at hr hsrc hinv
  have hk : x.tr.kind = .featureLine := by
    have := Auto.matched_type e3.matched
    rw [hxt, hty] at this
    simpa using this.symm
  have hne : l.isEof = false := by
    rcases e3.eof with h | h
    · rw [hk] at h; simp at h
    · exact h
  rcases e8 with ⟨h, _⟩ | ⟨_, hsrc2, hrun⟩
  · rw [hne] at h; simp at h
  obtain ⟨row, hrow, htr⟩ := Auto.step_row e3
  have htg := (Auto.row9 hrow htr).2.1 hk
  rw [(Auto.run_dialect hrun e6 (by rw [htg]; simp)).2, (Auto.step_dialect e3 e5 (by rw [hk]; simp)).2, ← hxt]
  have hmt := e3.matched
  rw [hk] at hmt
  simp only [Classic.matchKind, Classic.matchTitle] at hmt
  split at hmt
  · simp only [Prod.mk.injEq] at hmt
    rw [← hmt.2.1]; rfl
  · simp at hmt

/-! ### Comments -/

/-- A line is read as a comment just if it is one, outside doc strings, and not the language header. -/
theorem comment_move {text : Str} {m : CState} (hm : m.Valid) {mv1 : List Auto.Move} {z : Auto.Move} {mv2 : List Auto.Move} {q : Nat} {m' : CState}
    (hr : Auto.Run 0 (Classic.reset m) (tokenLines text) (mv1 ++ z :: mv2) q m') :
    z.tr.kind = .comment ↔ firstIs '#' z.tok.line = true ∧ z.state ∉ Auto.openStates ∧ z.tr.kind ≠ .language := by
  have hsrc := Auto.tokenLines_src text
  have hinv := Auto.inv_start hm
  obtain ⟨l1, l, l2, m1, m2, e1, e2, e3, e4, e5, e6, e7, e8⟩ := Auto.run_at hr hsrc hinv
  obtain ⟨row, hrow, htr⟩ := Auto.step_row e3
  rw [e4.1]
  constructor
  · intro hk
    have ho : z.state ∉ Auto.openStates := by
      intro ho
      rcases e3.facts.inside ho with h | h
      · rw [hk] at h; simp at h
      · rw [hk] at h; simp at h
    have hmt := e3.matched
    rw [hk] at hmt
    simp only [Classic.matchKind, Classic.matchComment] at hmt
    split at hmt
    · rename_i h
      refine ⟨?_, ho, by rw [hk]; simp⟩
      simp only [Token.fresh, Line.startsWith, startsWith, Line.trimmed] at h
      simp only [firstIs]
      cases hl : lstrip l.text with
      | nil => rw [hl] at h; simp at h
      | cons c cs => rw [hl] at h; simp at h; subst h; simp
    · simp at hmt
  · rintro ⟨h1, h2, h3⟩
    have hne : l.isEof = false := by
      cases he : l.isEof with
      | false => rfl
      | true =>
        have : l.text = [] := by simpa [Line.isEof] using he
        simp [firstIs, this, lstrip, lstripBy] at h1
    have ha : m1.active = none := by
      apply Classical.byContradiction
      intro hc; exact h2 (e5.active.2 hc)
    have hlk : lineKind m1.dialect l = .comment := (lineKind_iff e5.valid.known (by simp)).2 h1
    rcases Auto.step_kind e5 ha hne e3 with ⟨h, _⟩ | ⟨h, _⟩ | ⟨_, h⟩
    · exact absurd h h3
    · rw [h, hlk]
    · rw [hlk] at h; exact absurd ((Auto.row9 hrow htr).2.2 h2) h

theorem comment_token {l : Line} {m m' : CState} {t : Token} (h : Classic.matchKind .comment (Token.fresh l) m = (.ok true, t, m')) :
    t.loc = ⟨l.number, some 1⟩ ∧ t.text = some (chomp l.text) := by
  simp only [Classic.matchKind, Classic.matchComment] at h
  split at h
  · simp only [Prod.mk.injEq] at h
    rw [← h.2.1]
    simp [setMatched, Token.fresh, chomp]
  · simp at h

end Gherkin
