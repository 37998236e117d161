import Verif.Spec.Reformat
import Verif.Props.Rows
import Verif.Props.Cells
import Verif.Props.Tags
import Verif.Proofs.Rewrite2
import Verif.Proofs.IndentDoc
import Verif.Props.Flat
import Mathlib.Tactic.Tauto

/-! Lines that differ in their formatting say the same. -/

namespace Gherkin

open Auto Pickles Robot
open Layout (SameWords)

namespace Reformat

theorem strip_around {a x b : Str} (ha : White a) (hb : White b) : strip (a ++ x ++ b) = strip x := by
  obtain ⟨p, q, hp, hq, e, h1, h2⟩ := strip_spec x
  have : a ++ x ++ b = (a ++ p) ++ strip x ++ (q ++ b) := by
    conv_lhs => rw [e]
    simp [List.append_assoc]
  rw [this]
  refine strip_core ?_ ?_ h1 h2
  · intro c hc; rcases List.mem_append.1 hc with h | h; exacts [ha c h, hp c h]
  · intro c hc; rcases List.mem_append.1 hc with h | h; exacts [hq c h, hb c h]

theorem words_strip {s s' : Str} (h : SameWords s s') : strip s' = strip s := by
  obtain ⟨a, x, b, a', b', h1, h2, h3, h4, rfl, rfl⟩ := h
  rw [strip_around h1 h2, strip_around h3 h4]

theorem words_self (s : Str) : SameWords s s := ⟨[], s, [], [], [], by simp [White], by simp [White], by simp [White], by simp [White], by simp, by simp⟩

theorem lstrip_strip (s : Str) : ∃ w, AllP isSpace w ∧ lstrip s = strip s ++ w := by
  obtain ⟨w, h1, h2, _⟩ := rstripBy_spec (p := isSpace) (lstrip s)
  exact ⟨w, h1, h2⟩

theorem prefix_cases {p w tr : Str} (h : p <+: w ++ tr) : p <+: w ∨ ∃ r, r ≠ [] ∧ p = w ++ r ∧ r <+: tr := by
  rcases List.prefix_or_prefix_of_prefix h (List.prefix_append w tr) with h1 | ⟨r, rfl⟩
  · exact .inl h1
  · by_cases hr : r = []
    · left; simp [hr]
    · exact .inr ⟨r, hr, rfl, (List.prefix_append_right_inj w).1 h⟩

theorem prefix_tail {p w tr : Str} {c : Char} (hc : p.getLast? = some c) (hs : isSpace c = false) (ht : AllP isSpace tr) : p <+: w ++ tr ↔ p <+: w := by
  constructor
  · intro h
    rcases prefix_cases h with h | ⟨r, h1, rfl, h2⟩
    · exact h
    · rw [List.getLast?_append] at hc
      cases hr : r.getLast? with
      | none => rw [List.getLast?_eq_none_iff] at hr; exact absurd hr h1
      | some x =>
        rw [hr] at hc
        simp only [Option.some_or, Option.some.injEq] at hc
        subst hc
        have := ht _ (h2.subset (List.mem_of_getLast? hr))
        rw [hs] at this; simp at this
  · intro h
    exact h.trans (List.prefix_append _ _)

/-- A line begins with a word that does not end in white space exactly if its stripped text does. -/
theorem starts_word {s p : Str} {c : Char} {n : Nat} (hc : p.getLast? = some c) (hs : isSpace c = false) : Line.startsWith ⟨s, n⟩ p = startsWith (strip s) p := by
  obtain ⟨w, h1, h2⟩ := lstrip_strip s
  rw [Bool.eq_iff_iff]
  simp only [Line.startsWith, Line.trimmed, startsWith, h2, List.isPrefixOf_iff_prefix]
  exact prefix_tail hc hs h1

/-- The rest after a word that the stripped text begins with. -/
theorem rest_word {s p : Str} {n : Nat} (hp : p <+: strip s) : Line.restTrimmed ⟨s, n⟩ p.length = strip ((strip s).drop p.length) := by
  obtain ⟨w, h1, h2⟩ := lstrip_strip s
  simp only [Line.restTrimmed, Line.trimmed, h2]
  rw [List.drop_append_of_le_length hp.length_le]
  have := strip_around (a := []) (x := (strip s).drop p.length) (b := w) (by simp [White]) h1
  simpa using this

/-! ### Tokens -/

theorem fresh_line (s : Str) (n : Nat) : (Token.fresh ⟨s, n⟩).line = ⟨s, n⟩ := rfl

theorem lstrip_front {a x : Str} (ha : White a) : lstrip (a ++ x) = lstrip x := by
  obtain ⟨p, hp, e, h1⟩ := lstripBy_spec (p := isSpace) x
  have : a ++ x = (a ++ p) ++ lstrip x := by
    conv_lhs => rw [e]
    simp [List.append_assoc, lstrip]
  rw [this]
  refine lstripBy_append ?_ h1
  intro c hc; rcases List.mem_append.1 hc with h | h; exacts [ha c h, hp c h]

theorem title_prefix {kw kw0 rest : Str} (h : ':' ∉ kw) (h0 : ':' ∉ kw0) : kw0 ++ [':'] <+: kw ++ ':' :: rest ↔ kw0 = kw := by
  constructor
  · induction kw0 generalizing kw with
    | nil =>
      cases kw with
      | nil => intro _; rfl
      | cons c cs =>
        intro hp
        obtain ⟨t, ht⟩ := hp
        simp at ht
        exact absurd (by simp [← ht.1]) h
    | cons c cs ih =>
      intro hp
      cases kw with
      | nil =>
        obtain ⟨t, ht⟩ := hp
        simp at ht
        exact absurd (by simp [ht.1]) h0
      | cons d ds =>
        rw [List.cons_append, List.cons_append, List.cons_prefix_cons] at hp
        rw [hp.1, ih (by simp at h; exact h.2) (by simp at h0; exact h0.2) hp.2]
  · rintro rfl
    exact ⟨rest, by simp⟩

theorem titles_plain : (dialects.all fun p => (p.2.feature ++ p.2.rule ++ p.2.background ++ (p.2.scenario ++ p.2.scenarioOutline) ++ p.2.examples).all fun k => !k.contains ':') = true := by
  decide +kernel

theorem title_read {a kw r : Str} (ha : White a) (h : ':' ∉ kw) : (∀ kw0, ':' ∉ kw0 → (Line.startsWithTitle ⟨a ++ kw ++ ':' :: r, 0⟩ kw0 = true ↔ kw0 = lstrip kw)) ∧
    Line.restTrimmed ⟨a ++ kw ++ ':' :: r, 0⟩ ((lstrip kw).length + 1) = strip r := by
  obtain ⟨p, hp, e, hn⟩ := lstripBy_spec (p := isSpace) kw
  have hsub : ':' ∉ lstrip kw := fun hx => h (by rw [e]; exact List.mem_append_right _ hx)
  have ht : lstrip (a ++ kw ++ ':' :: r) = lstrip kw ++ ':' :: r := by
    rw [List.append_assoc, lstrip_front ha]
    conv_lhs => rw [e, List.append_assoc, lstrip_front hp]
    refine lstripBy_id ?_
    intro c hc
    cases hk : lstripBy isSpace kw with
    | nil => rw [hk] at hc; simp at hc; rw [← hc]; decide
    | cons x y => rw [hk] at hc hn; simp at hc; exact hn c (by simpa using hc)
  constructor
  · intro kw0 h0
    simp only [Line.startsWithTitle, Line.trimmed, ht, startsWith, List.isPrefixOf_iff_prefix]
    exact title_prefix hsub h0
  · simp only [Line.restTrimmed, Line.trimmed, ht]
    have : lstrip kw ++ ':' :: r = (lstrip kw ++ [':']) ++ r := by simp
    rw [this, show (lstrip kw).length + 1 = (lstrip kw ++ [':']).length by simp, List.drop_left]

theorem title_same {s s' : Str} (h : Layout.SameTitle s s') (m : CState) (k' : Kind) (kws : List Str) (hk : ∀ k ∈ kws, ':' ∉ k) :
    let t := (Classic.matchTitle k' kws (Token.fresh ⟨s, 0⟩) m).2.1
    let t' := (Classic.matchTitle k' kws (Token.fresh ⟨s', 0⟩) m).2.1
    t'.keyword = t.keyword ∧ t'.text = t.text ∧ t'.dialect = t.dialect := by
  obtain ⟨a, kw, w, name, b, a', w', b', h1, h2, h3, h4, h5, h6, h7, e1, e2⟩ := h
  have e1 : s = a ++ kw ++ ':' :: (w ++ name ++ b) := by rw [e1]; simp
  have e2 : s' = a' ++ kw ++ ':' :: (w' ++ name ++ b') := by rw [e2]; simp
  obtain ⟨f1, g1⟩ := title_read (r := w ++ name ++ b) h1 h7
  obtain ⟨f2, g2⟩ := title_read (r := w' ++ name ++ b') h4 h7
  rw [← e1] at f1 g1
  rw [← e2] at f2 g2
  have hf : ∀ l : List Str, (∀ kw ∈ l, kw ∈ kws) → l.find? (fun kw => Line.startsWithTitle ⟨s', 0⟩ kw) = l.find? fun kw => Line.startsWithTitle ⟨s, 0⟩ kw := by
    intro l
    induction l with
    | nil => intro _; rfl
    | cons x l ih =>
      intro hl
      have hx : Line.startsWithTitle ⟨s', 0⟩ x = Line.startsWithTitle ⟨s, 0⟩ x := by
        rw [Bool.eq_iff_iff, f1 x (hk x (hl x (by simp))), f2 x (hk x (hl x (by simp)))]
      simp only [List.find?_cons, hx, ih fun kw hk => hl kw (by simp [hk])]
  simp only [Classic.matchTitle, fresh_line, hf kws fun _ h => h]
  cases hq : kws.find? fun kw => Line.startsWithTitle ⟨s, 0⟩ kw with
  | none => exact ⟨rfl, rfl, rfl⟩
  | some kw0 =>
    have h8 := (f1 kw0 (hk kw0 (List.mem_of_find?_eq_some hq))).1 (List.find?_some hq)
    subst h8
    simp only [setMatched, fresh_line, g1, g2, strip_around h2 h3, strip_around h5 h6]
    exact ⟨trivial, trivial, trivial⟩

theorem trimmed_same {s s' : Str} (h : lstrip s' = lstrip s) (n : Nat) : (∀ p, Line.startsWith ⟨s', n⟩ p = Line.startsWith ⟨s, n⟩ p) ∧
    ∀ k, Line.restTrimmed ⟨s', n⟩ k = Line.restTrimmed ⟨s, n⟩ k := by
  simp [Line.startsWith, Line.restTrimmed, Line.trimmed, h]

theorem step_same {s s' : Str} (h : Layout.SameStepLine s s') {m : CState} (hm : m.dialect.Known) :
    let t := tokOf m .stepLine s 0
    let t' := tokOf m .stepLine s' 0
    t'.keyword = t.keyword ∧ t'.text = t.text ∧ t'.keywordType = t.keywordType := by
  simp only [tokOf, Classic.matchKind, Classic.matchStep, fresh_line]
  have key : (∀ kw ∈ m.dialect.stepKeywords, Line.startsWith ⟨s', 0⟩ kw = Line.startsWith ⟨s, 0⟩ kw) ∧
      ∀ kw ∈ m.dialect.stepKeywords, Line.startsWith ⟨s, 0⟩ kw = true → Line.restTrimmed ⟨s', 0⟩ kw.length = Line.restTrimmed ⟨s, 0⟩ kw.length := by
    rcases h with ⟨h, hb⟩ | ⟨a, a', x, ha, ha', rfl, rfl⟩ | ⟨a, kw, w, x, b, a', w', b', h1, h2, h3, h4, h5, h6, ⟨c, hc, hsp⟩, rfl, rfl, honly⟩
    · have hst := words_strip h
      have one : ∀ y, strip y = strip s → ∀ kw ∈ m.dialect.stepKeywords, Line.startsWith ⟨y, 0⟩ kw = startsWith (strip s) kw := by
        intro y hy kw hk
        obtain ⟨w, h1, h2⟩ := lstrip_strip y
        rw [Bool.eq_iff_iff]
        simp only [Line.startsWith, Line.trimmed, startsWith, h2, List.isPrefixOf_iff_prefix, hy]
        constructor
        · intro h
          rcases prefix_cases h with h | ⟨r, g1, g2, g3⟩
          · exact h
          · exfalso
            apply hb
            obtain ⟨name, hn⟩ := hm
            obtain ⟨p, q, hp, hq, e, _⟩ := strip_spec s
            exact ⟨name, m.dialect, hn, kw, hk, p, strip s, q, [], r, hp, hq, by simp [White], fun c hc => h1 c (g3.subset hc), e, by simpa using g2⟩
        · intro h
          exact h.trans (List.prefix_append _ _)
      refine ⟨fun kw hk => by rw [one s rfl kw hk, one s' hst kw hk], fun kw hk hs => ?_⟩
      rw [one s rfl kw hk] at hs
      have hp : kw <+: strip s := by simpa [startsWith] using hs
      rw [rest_word hp, rest_word (by rw [hst]; exact hp), hst]
    · obtain ⟨h1, h2⟩ := trimmed_same (s := a ++ x) (s' := a' ++ x) (by rw [lstrip_front ha, lstrip_front ha']) 0
      exact ⟨fun kw _ => h1 kw, fun kw _ _ => h2 _⟩
    · obtain ⟨name, hn⟩ := hm
      have lead : ∀ p y, White p → lstrip (p ++ (kw ++ y)) = kw ++ y := by
        intro p y hp
        rw [lstrip_front hp]
        refine lstripBy_id ?_
        intro e he
        cases kw with
        | nil => simp at hc
        | cons k ks => simp at hc he; rw [← he, hc]; exact hsp
      have l1 : lstrip (a ++ (kw ++ w ++ x ++ b)) = kw ++ w ++ x ++ b := by simpa using lead a (w ++ x ++ b) h1
      have l2 : lstrip (a' ++ (kw ++ w' ++ x ++ b')) = kw ++ w' ++ x ++ b' := by simpa using lead a' (w' ++ x ++ b') h4
      have yes : ∀ y z : Str, kw <+: kw ++ y ++ x ++ z := fun y z => ⟨y ++ x ++ z, by simp⟩
      have one : ∀ kw' ∈ m.dialect.stepKeywords, kw' <+: kw ++ w ++ x ++ b ∨ kw' <+: kw ++ w' ++ x ++ b' → kw' = kw := fun kw' hk => honly name _ hn kw' hk
      constructor
      · intro kw' hk
        rw [Bool.eq_iff_iff]
        simp only [Line.startsWith, Line.trimmed, startsWith, l1, l2, List.isPrefixOf_iff_prefix]
        constructor
        · intro h; rw [one kw' hk (.inr h)]; exact yes w b
        · intro h; rw [one kw' hk (.inl h)]; exact yes w' b'
      · intro kw' hk h
        simp only [Line.startsWith, Line.trimmed, startsWith, l1, List.isPrefixOf_iff_prefix] at h
        rw [one kw' hk (.inl h)]
        have d1 : (kw ++ w ++ x ++ b).drop kw.length = w ++ x ++ b := by simp only [List.append_assoc, List.drop_left]
        have d2 : (kw ++ w' ++ x ++ b').drop kw.length = w' ++ x ++ b' := by simp only [List.append_assoc, List.drop_left]
        simp only [Line.restTrimmed, Line.trimmed, l1, l2, d1, d2]
        rw [strip_around h2 h3, strip_around h5 h6]
  have hf : m.dialect.stepKeywords.find? (fun kw => Line.startsWith ⟨s', 0⟩ kw) = m.dialect.stepKeywords.find? fun kw => Line.startsWith ⟨s, 0⟩ kw := by
    have : ∀ l : List Str, (∀ kw ∈ l, Line.startsWith ⟨s', 0⟩ kw = Line.startsWith ⟨s, 0⟩ kw) →
        l.find? (fun kw => Line.startsWith ⟨s', 0⟩ kw) = l.find? fun kw => Line.startsWith ⟨s, 0⟩ kw := by
      intro l
      induction l with
      | nil => intro _; rfl
      | cons a l ih =>
        intro hl
        simp only [List.find?_cons, hl a (by simp), ih fun kw hk => hl kw (by simp [hk])]
    exact this _ key.1
  rw [hf]
  cases hq : m.dialect.stepKeywords.find? fun kw => Line.startsWith ⟨s, 0⟩ kw with
  | none => exact ⟨rfl, rfl, rfl⟩
  | some kw =>
    have h1 := List.find?_some hq
    have h2 := key.2 kw (List.mem_of_find?_eq_some hq) h1
    simp only [setMatched, fresh_line, h2]
    exact ⟨trivial, trivial, trivial⟩

/-! ### Tags -/

theorem tags_say {l : Layout.Ln} {ns : List Str} (h : Layout.TagLineSays l.text ns) (m : CState) :
    ((tokOf m .tagLine l.text 0).items.map fun i => (⟨0, .zero, i.text⟩ : Tag)) = ns.map fun n => ⟨0, .zero, '@' :: n⟩ := by
  obtain ⟨indent, tags, rest, h1, h2, h3, h4, h5, rfl⟩ := h
  obtain ⟨t, e1, _, e2⟩ := C13_tags_recognised indent tags rest 0 m h1 h2 h3 h4
  rw [tokOf, h5, e1]
  have := congrArg (List.map fun x : Str => (⟨0, .zero, x⟩ : Tag)) e2
  simpa [List.map_map, Function.comp_def] using this

theorem tagged_say {ts : List Layout.Ln} {ns : List Str} (h : Layout.TagsSay ts ns) (m : CState) : tagged m ts = ns.map fun n => ⟨0, .zero, '@' :: n⟩ := by
  induction h with
  | nil => rfl
  | cons h _ ih =>
    rw [tagged_lines] at ih ⊢
    rw [List.flatMap_cons, ih, tags_say h, List.map_append]

theorem tagged_same {ts ts' : List Layout.Ln} (h : Layout.SameTags ts ts') (m : CState) : tagged m ts' = tagged m ts := by
  obtain ⟨ns, h1, h2⟩ := h
  rw [tagged_say h1, tagged_say h2]

/-! ### Rows -/

theorem row_says {s : Str} {vs : List Str} (h : Layout.RowSays s vs) (number : Nat) : ∃ items, Line.tableCells ⟨s, number⟩ = .ok items ∧ items.map (·.text) = vs := by
  obtain ⟨indent, cells, trail, hi, ht, hok, rfl, rfl⟩ := h
  generalize hw : ('|' :: cells.flatMap fun c => c.left ++ c.raw ++ c.right ++ ['|']) = row
  have hrow : NoHead isSpace row := by
    intro c hc; rw [← hw] at hc; simp at hc; subst hc; rfl
  have hlast : NoLast isSpace row := by
    intro c hc
    have : c = '|' := by
      rw [← hw] at hc
      cases cells using List.reverseRecOn with
      | nil => simpa using hc.symm
      | append_singleton cs w _ =>
        rw [List.flatMap_append, List.flatMap_singleton, ← List.append_assoc, ← List.cons_append, List.getLast?_append] at hc
        simpa using hc.symm
    subst this; rfl
  have htr : (Line.mk (indent ++ row ++ trail) number).trimmed = row ++ trail := by
    rw [List.append_assoc]
    refine trimmed_append hi ?_
    intro c hc
    exact hrow c (by rw [← hw] at hc ⊢; simpa using hc)
  have hstrip : strip (Line.mk (indent ++ row ++ trail) number).trimmed = row := by
    rw [htr]
    exact strip_core (a := []) (by simp [AllP]) ht hrow hlast
  let segs : List (Str × Str) := cells.map fun w => (w.left ++ w.raw ++ w.right, w.left ++ w.value ++ w.right)
  have hsrc : row = [] ++ barred (segs ++ [([], [])]) := by
    rw [← hw]
    have key : ∀ cs : List Layout.RCell, '|' :: (cs.flatMap fun c => c.left ++ c.raw ++ c.right ++ ['|']) =
        barred (cs.map (fun w => (w.left ++ w.raw ++ w.right, w.left ++ w.value ++ w.right)) ++ [([], [])]) := by
      intro cs
      induction cs with
      | nil => rfl
      | cons w cs ih => simp [barred] at ih ⊢; exact ih
    exact key cells
  have hreads : ∀ x ∈ segs ++ [([], [])], Reads x.1 x.2 := by
    intro x hx
    simp [segs] at hx
    rcases hx with ⟨w, hw, rfl⟩ | rfl
    · obtain ⟨p1, p2, p3, _⟩ := hok w hw
      exact reads_append (pad_plain p1) (reads_append p3 (pad_plain p2))
    · exact .nil
  have hsp := splitCells_complete (segs ++ [([], [])]) .nil hreads 0 1 [] true
  rw [← hsrc] at hsp
  refine ⟨_, by unfold Line.tableCells; rw [hstrip, hsp], ?_⟩
  simp only [cellsFrom, true_or, if_true, List.nil_append]
  rw [cellsOf_append_last]
  apply List.ext_getElem
  · simp [segs]
  · intro i h1 h2
    simp at h2
    simp only [List.getElem_mapIdx, List.getElem_map, segs]
    obtain ⟨p1, p2, _, p4, p5⟩ := hok _ (List.getElem_mem h2)
    exact strip_cell (w := ⟨cells[i].left, cells[i].value, cells[i].right⟩) p1 p2 p4 p5

theorem row_token {s : Str} {vs : List Str} (h : Layout.RowSays s vs) (m : CState) : (tokOf m .tableRow s 0).items.map (·.text) = vs := by
  obtain ⟨items, h1, h2⟩ := row_says h 0
  have hb : Line.startsWith ⟨s, 0⟩ ['|'] = true := by
    obtain ⟨indent, cells, trail, hi, ht, hok, rfl, rfl⟩ := h
    unfold Line.startsWith
    rw [List.append_assoc, trimmed_append hi (by intro c hc; simp at hc; subst hc; rfl)]
    simp [startsWith]
  simp only [tokOf, Classic.matchKind, Classic.matchTableRow, fresh_line, hb, if_true, h1, setMatched, h2]

theorem row_words {s s' : Str} (h : SameWords s s') (m : CState) : (tokOf m .tableRow s' 0).items.map (·.text) = (tokOf m .tableRow s 0).items.map (·.text) := by
  have hst := words_strip h
  have hb : Line.startsWith ⟨s', 0⟩ ['|'] = Line.startsWith ⟨s, 0⟩ ['|'] := by
    rw [starts_word (c := '|') (by simp) (by decide), starts_word (c := '|') (by simp) (by decide), hst]
  have htw : ∀ x, strip (Line.trimmed ⟨x, 0⟩) = strip x := by
    intro x
    obtain ⟨p, hp, e, _⟩ := lstripBy_spec (p := isSpace) x
    show strip (lstrip x) = strip x
    unfold strip
    rw [show lstrip (lstrip x) = lstrip x from lstripBy_id (by assumption)]
  simp only [tokOf, Classic.matchKind, Classic.matchTableRow, fresh_line, hb, Line.tableCells, htw, hst]
  cases splitCells (strip s) 0 1 [] true with
  | error e => split <;> rfl
  | ok cells => split <;> simp [setMatched, Token.fresh, Function.comp_def]

theorem rowed_same {r r' : Layout.Ln} (h : Layout.SameRow r r') (m : CState) : rowed m r' = rowed m r := by
  have key : (tokOf m .tableRow r'.text 0).items.map (·.text) = (tokOf m .tableRow r.text 0).items.map (·.text) := by
    rcases h with h | ⟨vs, h1, h2⟩
    · exact row_words h m
    · rw [row_token h1, row_token h2]
  have := congrArg (List.map fun x : Str => (⟨.zero, x⟩ : Cell)) key
  simp only [List.map_map, Function.comp_def] at this
  simp only [rowed, bareRow, Cst.row, Row.change, List.map_map, Function.comp_def, Cell.change, unplacing]
  simpa using this

/-! ### Parts -/

theorem map_same {α β : Type} {R : α → α → Prop} {f : α → β} (h : ∀ a a', R a a' → f a' = f a) : ∀ {as as' : List α}, List.Forall₂ R as as' → as'.map f = as.map f
  | _, _, .nil => rfl
  | _, _, .cons h1 h2 => by rw [List.map_cons, List.map_cons, h _ _ h1, map_same h h2]

theorem inside_indent {m : CState} (hc : m.Calm) {delim : Str} (hd : delim ∈ docDelimiters) {o : Str} (ho : isDelim delim ⟨o, 0⟩ = true) :
    (inside m o).indentToRemove = indentation o := by
  have hsep : ∀ sep, Line.startsWith ⟨o, 0⟩ sep = true → (Classic.matchSep sep true (Token.fresh ⟨o, 0⟩) m).2.2.indentToRemove = indentation o := by
    intro sep h
    simp only [Classic.matchSep, fresh_line, h, if_true]
    exact indent_indentation ⟨o, 0⟩
  have h : delim = Classic.quotes ∨ delim = Classic.ticks := by simpa [delims] using hd
  simp only [inside, Classic.matchKind, Classic.matchDocSep, hc.active]
  by_cases hq : (Token.fresh ⟨o, 0⟩).line.startsWith Classic.quotes = true
  · rw [if_pos hq]; exact hsep _ hq
  · rw [if_neg hq]
    rcases h with rfl | rfl
    · exact absurd ho hq
    · exact hsep _ ho

theorem doc_others {m : CState} {delim : Str} (hd : delim ∈ docDelimiters) (ha : m.active = some delim) : ∀ (ls : List Str) (n : Nat),
    (others m n ls).map Cst.textOf = ls.map (docLine delim m.indentToRemove)
  | [], _ => rfl
  | l :: ls, n => by
    have ih := doc_others hd ha ls
    simp only [others, List.map_cons, Layout.place] at ih ⊢
    rw [ih, Print.doc_tok hd ha]

theorem delim_last {delim : Str} (hd : delim ∈ docDelimiters) : ∃ c, delim.getLast? = some c ∧ isSpace c = false := by
  simp only [docDelimiters, List.mem_cons, List.not_mem_nil, or_false] at hd
  rcases hd with rfl | rfl
  · exact ⟨'"', by decide, by decide⟩
  · exact ⟨'`', by decide, by decide⟩

theorem arg_same {m : CState} (hc : m.Calm) {a a' : Layout.Arg} (h : Layout.SameArg a a') : bareArg (argCst m 0 a') = bareArg (argCst m 0 a) := by
  cases h with
  | none => rfl
  | @table r rs r' rs' h =>
    have e : ∀ (r : Layout.Ln) (rs : List Layout.Ln), bareArg (argCst m 0 (.table r rs)) = .table ⟨.zero, (r :: rs).map (rowed m)⟩ := by
      intro r rs
      simp only [bareArg, argCst, Cst.Arg.ast, StepArg.change, DataTable.change, rows_bare, List.map_cons, rowed_place]
      rfl
    rw [e, e, map_same (f := rowed m) (fun _ _ h => rowed_same h m) h]
  | @doc o ls c o' ls' c' delim hw hd ho hl =>
    obtain ⟨x, hx, hx'⟩ := delim_last hd
    have ho' : isDelim delim ⟨o', 0⟩ = true := by
      have h1 : ∀ y, isDelim delim ⟨y, 0⟩ = Line.startsWith ⟨y, 0⟩ delim := fun _ => rfl
      rw [h1, starts_word hx hx'] at ho ⊢
      rw [words_strip hw]; exact ho
    obtain ⟨a1, a2, a3⟩ := Rewrite.opening_reads hc hd ho 0
    obtain ⟨b1, b2, b3⟩ := Rewrite.opening_reads hc hd ho' 0
    have hr : Line.restTrimmed ⟨o', 0⟩ delim.length = Line.restTrimmed ⟨o, 0⟩ delim.length := by
      have h1 : ∀ y, isDelim delim ⟨y, 0⟩ = true → delim <+: strip y := by
        intro y hy
        have : Line.startsWith ⟨y, 0⟩ delim = true := hy
        rw [starts_word hx hx'] at this
        simpa [startsWith] using this
      rw [rest_word (h1 o' ho'), rest_word (h1 o ho), words_strip hw]
    simp only [bareArg, argCst, Cst.Arg.ast, StepArg.change, DocString.change, doc_others hd a2, doc_others hd b2, inside_indent hc hd ho, inside_indent hc hd ho', hl, a1, b1, Cst.textOf, a3,
      b3, hr]

theorem stepped_same {m : CState} (hc : m.Calm) {s s' : Layout.Step} (h : Layout.SameStep s s') : stepped m s' = stepped m s := by
  obtain ⟨h1, h2, h3⟩ := step_same h.1 hc.valid.known
  simp only [stepped, bareStep, stepCst, Cst.CStep.ast, Step.change, Cst.Arg.bare, arg_bare m (0 + _), arg_same hc h.2, h1, h2, h3]

theorem desc_same {m : CState} (hc : m.Calm) {h h' : Layout.Head} (hh : Layout.SameHead h h') : Cst.description (headDesc m 0 h') = Cst.description (headDesc m 0 h) := by
  unfold Cst.description headDesc
  rw [Rewrite.others_text hc, Rewrite.others_text hc, hh.2]

theorem head_same {h h' : Layout.Head} (hh : Layout.SameHead h h') {m : CState} (hm : m.dialect.Known) {k : Kind} (hk : k ∈ [Kind.featureLine, .ruleLine, .backgroundLine, .scenarioLine, .examplesLine]) :
    (tokOf m k h'.line 0).keyword = (tokOf m k h.line 0).keyword ∧ (tokOf m k h'.line 0).text = (tokOf m k h.line 0).text ∧
    (tokOf m k h'.line 0).dialect = (tokOf m k h.line 0).dialect := by
  obtain ⟨name, hn⟩ := hm
  have ht := List.all_eq_true.1 titles_plain _ (lookup_mem hn)
  simp only [List.all_eq_true, Bool.not_eq_true', List.contains_eq_mem, decide_eq_false_iff_not] at ht
  simp only [List.mem_cons, List.not_mem_nil, or_false] at hk
  rcases hk with rfl | rfl | rfl | rfl | rfl <;> exact title_same hh.1 m _ _ fun k hk => ht k (by simp only [List.mem_append] at hk ⊢; tauto)

theorem back_same {m : CState} (hc : m.Calm) {b b' : Layout.Background} (h : Layout.SameBackground b b') : back m b' = back m b := by
  have e : ∀ b : Layout.Background, back m b = ⟨0, .zero, (tokOf m .backgroundLine b.head.line 0).keyword, (tokOf m .backgroundLine b.head.line 0).text, Cst.description (headDesc m 0 b.head),
      b.steps.map (stepped m)⟩ := by
    intro b
    have h1 : ∀ n, (stepsCst m n b.steps).map bareStep = b.steps.map (stepped m) := Gherkin.place_same (g := bareStep) (fun n x => step_bare m n x) b.steps
    simp only [back, bareBackground, backgroundCst, Cst.CBackground.ast, Background.change, steps_bare, h1]
  obtain ⟨k1, k2, _⟩ := head_same h.1 hc.valid.known (k := .backgroundLine) (by simp)
  rw [e, e, k1, k2, desc_same hc h.1, map_same (f := stepped m) (fun _ _ h => stepped_same hc h) h.2]

theorem exam_same {m : CState} (hc : m.Calm) {e e' : Layout.Examples} (h : Layout.SameExamples e e') : exam m e' = exam m e := by
  obtain ⟨k1, k2, _⟩ := head_same h.2.1 hc.valid.known (k := .examplesLine) (by simp)
  have hr : e'.table.map (rowed m) = e.table.map (rowed m) := map_same (f := rowed m) (fun _ _ h => rowed_same h m) h.2.2
  have r1 : e'.table.head?.map (rowed m) = e.table.head?.map (rowed m) := by rw [← List.head?_map, hr, List.head?_map]
  have r2 : e'.table.tail.map (rowed m) = e.table.tail.map (rowed m) := by rw [List.map_tail, hr, ← List.map_tail]
  simp only [exam, k1, k2, desc_same hc h.2.1, tagged_same h.1, r1, r2]

theorem scen_same {m : CState} (hc : m.Calm) {s s' : Layout.Scenario} (h : Layout.SameScenario s s') : scen m s' = scen m s := by
  obtain ⟨k1, k2, _⟩ := head_same h.2.1 hc.valid.known (k := .scenarioLine) (by simp)
  rw [scen_says, scen_says]
  simp only [saying, k1, k2, desc_same hc h.2.1, tagged_same h.1, map_same (f := stepped m) (fun _ _ h => stepped_same hc h) h.2.2.1,
    map_same (f := exam m) (fun _ _ h => exam_same hc h) h.2.2.2]

theorem opt_same {α β : Type} {R : α → α → Prop} {f : α → β} (h : ∀ a a', R a a' → f a' = f a) {o o' : Option α} (ho : Option.Rel R o o') : o'.toList.map f = o.toList.map f := by
  cases ho with
  | none => rfl
  | some h1 => simp [h _ _ h1]

theorem ruled_same {m : CState} (hc : m.Calm) {r r' : Layout.Rule} (h : Layout.SameRule r r') : ruled m r' = ruled m r := by
  obtain ⟨k1, k2, _⟩ := head_same h.2.1 hc.valid.known (k := .ruleLine) (by simp)
  simp only [ruled, k1, k2, desc_same hc h.2.1, tagged_same h.1, opt_same (f := back m) (fun _ _ h => back_same hc h) h.2.2.1,
    map_same (f := scen m) (fun _ _ h => scen_same hc h) h.2.2.2]

theorem featured_same {m : CState} (hc : m.Calm) {F F' : Layout.File} (h : Layout.SameFile F F') : featured m F'.feature = featured m F.feature := by
  obtain ⟨k1, k2, k3⟩ := head_same h.head hc.valid.known (k := .featureLine) (by simp)
  simp only [featured, k1, k2, k3, desc_same hc h.head, tagged_same h.tags, opt_same (f := back m) (fun _ _ h => back_same hc h) h.background,
    map_same (f := scen m) (fun _ _ h => scen_same hc h) h.scenarios, map_same (f := ruled m) (fun _ _ h => ruled_same hc h) h.rules]

theorem header_unique {name name' s : Str} (h : IsHeader name s) (h' : IsHeader name' s) : name' = name := by
  have h1 := languageName_iff.2 h
  have h2 := languageName_iff.2 h'
  rw [h1] at h2
  simpa using h2.symm

theorem matcher_header (m : CState) {F : Layout.File} {l : Layout.Ln} (hl : F.language = some l) {name : Str} (h : IsHeader name l.text) {d : Dialect} (hd : dialectFor name = some d) :
    fileMatcher m F = { m with dialectName := name, dialect := d } := by
  have := header_iff (l := ⟨l.text, 0⟩) (name := name)
  simp only [fileMatcher, hl, Classic.matchKind, Classic.matchLanguage, fresh_line, this.2 h, hd]

theorem matcher_calm {m : CState} (hc : m.Calm) {F : Layout.File} {name : Str} (hF : F.Ok name) : (fileMatcher m F).Calm := by
  cases hl : F.language with
  | none => simpa [fileMatcher, hl] using hc
  | some l =>
    obtain ⟨_, _, hF⟩ := hF
    rw [hl] at hF
    obtain ⟨_, nm, d, h1, h2, _⟩ := hF
    rw [matcher_header m hl h1 h2]
    exact ⟨⟨h2, hc.valid.dflt⟩, hc.active, hc.indent⟩

theorem matcher_same (m : CState) {F F' : Layout.File} {name : Str} (hF : F.Ok name) (h : Layout.SameFile F F') : fileMatcher m F' = fileMatcher m F := by
  obtain ⟨_, _, hF⟩ := hF
  have hr := h.language
  cases hl : F.language with
  | none =>
    rw [hl] at hr
    have : F'.language = none := by
      generalize F'.language = o at hr
      cases hr; rfl
    simp [fileMatcher, hl, this]
  | some l =>
    rw [hl] at hr hF
    obtain ⟨_, nm, d, h1, h2, _⟩ := hF
    obtain ⟨l', hl', nm', g1, g2⟩ : ∃ l', F'.language = some l' ∧ ∃ nm, IsHeader nm l.text ∧ IsHeader nm l'.text := by
      generalize F'.language = o at hr
      cases hr with
      | some h => exact ⟨_, rfl, h⟩
    obtain rfl := header_unique h1 g1
    rw [matcher_header m hl h1 h2, matcher_header m hl' g2 h2]

end Reformat

end Gherkin
