import Verif.Spec.Columns
import Verif.Props.Calls

/-! # C93: the names and the order of the columns do not matter -/

namespace Gherkin

open Robot Pickles

theorem columns_cells (cols : List (Str × Str)) : ((cols.map fun c => cellOf c.1).map (·.value)).zip ((cols.map fun c => cellOf c.2).map (·.value)) = cols := by
  induction cols with
  | nil => rfl
  | cons c cols ih => simp [cellOf] at ih ⊢; exact ih

theorem interpolated_pieces {eng : Engine} {cols : List (Str × Str)} (hp : PlainTexts cols) {ps : List Piece} (hok : ∀ p ∈ ps, p.Ok) :
    interpolated eng cols (ps.flatMap Piece.src) (ps.flatMap (Piece.fill cols)) := by
  have := interpolateFrom_pieces (eng := eng) (values := cols.map fun c => cellOf c.2) (hs := cols.map fun c => cellOf c.1) (i := 0) (ps := ps)
    (by simp only [List.mem_map]; rintro v ⟨c, hc, rfl⟩; exact (hp c hc).2)
    (by simp only [List.mem_map]; rintro v ⟨c, hc, rfl⟩; exact (hp c hc).1) (by simp) hok
  rw [List.drop_zero, columns_cells] at this
  exact this

theorem replacedAll_none {cols : List (Str × Str)} {s : Str} (h : ¬ Mentions cols s) : ReplacedAll cols s s := by
  induction cols with
  | nil => rfl
  | cons c cols ih =>
    exact ⟨s, .none fun x => h ⟨c, by simp, x⟩, ih fun ⟨x, hx, y⟩ => h ⟨x, by simp [hx], y⟩⟩

theorem interpolated_none {eng : Engine} {cols : List (Str × Str)} (hp : PlainTexts cols) {s : Str} (h : ¬ Mentions cols s) : interpolated eng cols s s := by
  refine (C28_replaces_partial eng ⟨0, ⟨1, none⟩, cols.map fun c => cellOf c.1⟩ ⟨0, ⟨1, none⟩, cols.map fun c => cellOf c.2⟩ ?_ (by simp) s s).2 ?_
  · simp only [List.mem_map]; rintro v ⟨c, hc, rfl⟩ x hx; exact ((hp c hc).1 x hx).1
  · have e : columns ⟨0, ⟨1, none⟩, cols.map fun c => cellOf c.1⟩ ⟨0, ⟨1, none⟩, cols.map fun c => cellOf c.2⟩ = cols := columns_cells cols
    rw [e]; exact replacedAll_none h

theorem find_nodup {cols : List (Str × Str)} (h : (cols.map (·.1)).Nodup) {c : Str × Str} (hc : c ∈ cols) : cols.find? (fun x => x.1 = c.1) = some c := by
  induction cols with
  | nil => simp at hc
  | cons x cols ih =>
    rw [List.map_cons, List.nodup_cons] at h
    rcases List.mem_cons.1 hc with rfl | hc
    · simp
    · rw [List.find?_cons_of_neg, ih h.2 hc]
      have : c.1 ∈ cols.map (·.1) := List.mem_map_of_mem hc
      simp only [decide_eq_true_eq]
      rintro e
      exact h.1 (e ▸ this)

theorem fill_rename {f : Str → Str} {cols cols' : List (Str × Str)} (h : Renaming f cols cols') {p : Piece}
    (hp : ∀ n, p = .hole n → n ∈ cols.map (·.1) ∨ (f n = n ∧ n ∉ cols'.map (·.1))) : (p.rename f).fill cols' = p.fill cols := by
  cases p with
  | plain s => rfl
  | hole n =>
    have hnd : (cols.map (·.1)).Nodup := by
      have : ((cols.map fun c => (f c.1, c.2)).map (·.1)).Nodup := ((h.perm.map _).nodup_iff).2 h.names
      rw [List.map_map] at this
      refine List.Pairwise.of_map (S := (· ≠ ·)) f (fun a b hab e => hab (congrArg f e)) ?_
      rw [List.map_map]; exact this
    by_cases hn : n ∈ cols.map (·.1)
    · obtain ⟨c, hc, rfl⟩ := List.mem_map.1 hn
      have h2 : (f c.1, c.2) ∈ cols' := h.perm.subset (List.mem_map.2 ⟨c, hc, rfl⟩)
      simp only [Piece.rename, Piece.fill]
      rw [find_nodup hnd hc, find_nodup h.names h2]
    · rcases hp n rfl with hx | ⟨hf, hx⟩
      · exact absurd hx hn
      · have e1 : cols.find? (fun x => x.1 = n) = none := by
          rw [List.find?_eq_none]; intro x hx'; simp only [decide_eq_true_eq]; rintro rfl; exact hn (List.mem_map_of_mem hx')
        have e2 : cols'.find? (fun x => x.1 = n) = none := by
          rw [List.find?_eq_none]; intro x hx'; simp only [decide_eq_true_eq]; rintro rfl; exact hx (List.mem_map_of_mem hx')
        simp only [Piece.rename, Piece.fill, hf, e1, e2]

theorem interpolated_renamed {eng : Engine} {f : Str → Str} {cols cols' : List (Str × Str)} (hr : Renaming f cols cols') (hp : PlainTexts cols) (hp' : PlainTexts cols')
    {s s' x y : Str} (h : RenamedText f cols cols' s s') (hx : interpolated eng cols s x) (hy : interpolated eng cols' s' y) : x = y := by
  have uniq : ∀ {cols : List (Str × Str)} {s a b : Str}, interpolated eng cols s a → interpolated eng cols s b → a = b := by
    intro cols s a b h1 h2; unfold interpolated at h1 h2; rw [h1] at h2; simpa using h2
  rcases h with ⟨ps, hok, rfl, rfl, hh⟩ | ⟨rfl, h1, h2⟩
  · have hok' : ∀ p ∈ ps.map (Piece.rename f), p.Ok := by
      simp only [List.mem_map]
      rintro _ ⟨p, hpm, rfl⟩
      cases p with
      | plain s => exact hok _ hpm
      | hole n =>
        by_cases hn : n ∈ cols.map (·.1)
        · obtain ⟨c, hc, rfl⟩ := List.mem_map.1 hn
          have h2 : (f c.1, c.2) ∈ cols' := hr.perm.subset (List.mem_map.2 ⟨c, hc, rfl⟩)
          exact ⟨fun e => ((hp' _ h2).1 _ e).2.1 rfl, fun e => ((hp' _ h2).1 _ e).2.2 rfl⟩
        · rcases hh n hpm with hx | ⟨hf, _⟩
          · exact absurd hx hn
          · simp only [Piece.rename, hf]; exact hok _ hpm
    rw [uniq hx (interpolated_pieces hp hok), uniq hy (interpolated_pieces hp' hok'), List.flatMap_map]
    apply List.flatMap_congr
    intro p hpm
    exact (fill_rename hr fun n e => hh n (e ▸ hpm)).symm
  · rw [uniq hx (interpolated_none hp h1), uniq hy (interpolated_none hp' h2)]

theorem rel_option {R A B : Str → Str → Prop} (hR : ∀ s s' x y, R s s' → A s x → B s' y → x = y) {a a' b b' : Option Str} (h : Option.Rel R a a')
    (h1 : Option.Rel A a b) (h2 : Option.Rel B a' b') : b = b' := by
  cases h with
  | none => cases h1; cases h2; rfl
  | some h => cases h1 with | some h1 => cases h2 with | some h2 => rw [hR _ _ _ _ h h1 h2]

theorem rel_list {α β γ : Type} {R : α → β → Prop} {A : α → γ → Prop} {B : β → γ → Prop} (hR : ∀ s s' x y, R s s' → A s x → B s' y → x = y) {a : List α} {a' : List β} {b b' : List γ}
    (h : List.Forall₂ R a a') (h1 : List.Forall₂ A a b) (h2 : List.Forall₂ B a' b') : b = b' := by
  induction h generalizing b b' with
  | nil => cases h1; cases h2; rfl
  | cons h _ ih =>
    cases h1 with
    | cons x1 y1 =>
      cases h2 with
      | cons x2 y2 => rw [hR _ _ _ _ h x1 x2, ih y1 y2]

theorem sameArg_unique {R A B : Str → Str → Prop} (hR : ∀ s s' x y, R s s' → A s x → B s' y → x = y) {a a' : StepArg} {p p' : Option PArg} (h : SameArg R a a')
    (h1 : ArgRel A a p) (h2 : ArgRel B a' p') : p = p' := by
  cases a with
  | none => cases a' <;> rcases p with _ | _ | _ <;> rcases p' with _ | _ | _ <;> simp_all [SameArg, ArgRel]
  | table t =>
    cases a' with
    | table t' =>
      rcases p with _ | rows | _
      · exact h1.elim
      · rcases p' with _ | rows' | _
        · exact h2.elim
        · simp only [SameArg, ArgRel] at h h1 h2
          have := rel_list (A := fun (r : Row) cells => List.Forall₂ (fun (c : Cell) v => A c.value v) r.cells cells) (B := fun (r : Row) cells => List.Forall₂ (fun (c : Cell) v => B c.value v) r.cells cells)
            (fun (r r' : Row) (x y : List Str) hr hx hy => rel_list (A := fun (c : Cell) v => A c.value v) (B := fun (c : Cell) v => B c.value v) (fun (c c' : Cell) (x y : Str) => hR c.value c'.value x y) hr hx hy) h h1 h2
          rw [this]
        · exact h2.elim
      · exact h1.elim
    | none => exact h.elim
    | doc d => exact h.elim
  | doc d =>
    cases a' with
    | doc d' =>
      rcases p with _ | _ | ⟨co, mt⟩
      · exact h1.elim
      · exact h1.elim
      · rcases p' with _ | _ | ⟨co', mt'⟩
        · exact h2.elim
        · exact h2.elim
        · simp only [SameArg, ArgRel] at h h1 h2
          rw [hR _ _ _ _ h.1 h1.1 h2.1, rel_option hR h.2 h1.2 h2.2]
    | none => exact h.elim
    | table t => exact h.elim

theorem sameArg_bare {a a' : StepArg} (h : a.change ⟨fun _ => .zero, fun _ => 0, fun s => s⟩ = a'.change ⟨fun _ => .zero, fun _ => 0, fun s => s⟩) {p p' : Option PArg}
    (h1 : ArgRel Eq a p) (h2 : ArgRel Eq a' p') : p = p' := by
  rw [← argRel_change ⟨fun _ => .zero, fun _ => 0, fun s => s⟩, h, argRel_change] at h1
  exact ArgRel.unique (R := Eq) (fun s a b x y => x.symm.trans y) h1 h2

/-- Two cases whose steps correspond, filled to the same texts and counting alike, have the same calls. -/
theorem same_calls {eng : Engine} {printable : Char → Bool}
    {es : List DirEntry} {uri name content : Str} {sets : List Setting} {tests : List Test} {fn : Option Str} {d : Document}
    {es' : List DirEntry} {uri' name' content' : Str} {sets' : List Setting} {tests' : List Test} {fn' : Option Str} {d' : Document}
    (hb : build eng printable es uri name content = .ok (.suite sets tests, fn)) (hd : parseFile name content = .ok (some d))
    (hb' : build eng printable es' uri' name' content' = .ok (.suite sets' tests', fn')) (hd' : parseFile name' content' = .ok (some d'))
    {i j : Nat} {c c' : Case} {t t' : Test} (hc : d.cases[i]? = some c) (ht : tests[i]? = some t) (hc' : d'.cases[j]? = some c') (ht' : tests'[j]? = some t')
    {R : Str → Str → Prop} (hI : ∀ s s' x y, R s s' → c.fillBy (interpolated eng) s x → c'.fillBy (interpolated eng) s' y → x = y)
    (hty : (c.steps.map (·.keywordType) = c'.steps.map (·.keywordType)) → ∀ k, k < c.steps.length → (c.typeAt k = some .unknown ↔ c'.typeAt k = some .unknown))
    (hbg : c.background.map Step.bare = c'.background.map Step.bare)
    (hname : Option.Rel R c.scenario.name c'.scenario.name)
    (hsteps : List.Forall₂ (SameStep R) c.scenario.steps c'.scenario.steps) :
    t.bareCalls = t'.bareCalls ∧ ∃ n, t.name = n ++ c.suffix ∧ t'.name = n ++ c'.suffix := by
  obtain ⟨f1, hf⟩ : ∃ f, d.feature = some f := by
    cases h : d.feature with
    | none => simp [Document.cases, h] at hc
    | some f => exact ⟨f, rfl⟩
  obtain ⟨f1', hf'⟩ : ∃ f, d'.feature = some f := by
    cases h : d'.feature with
    | none => simp [Document.cases, h] at hc'
    | some f => exact ⟨f, rfl⟩
  obtain ⟨p, own, a1, a2, a3, a4, a5⟩ := suite_exact hd hf hb hc ht
  obtain ⟨p', own', b1, b2, b3, b4, b5⟩ := suite_exact hd' hf' hb' hc' ht'
  have hblen : c.background.length = c'.background.length := by simpa using congrArg List.length hbg
  have hslen : c.scenario.steps.length = c'.scenario.steps.length := hsteps.length_eq
  have hlen : c.steps.length = c'.steps.length := by
    unfold Case.steps
    by_cases h0 : c.scenario.steps = []
    · rw [if_pos h0, if_pos (List.length_eq_zero_iff.1 (by rw [← hslen, h0]; rfl))]
    · rw [if_neg h0, if_neg (fun x => h0 (List.length_eq_zero_iff.1 (by rw [hslen, x]; rfl))), List.length_append, List.length_append, hblen, hslen]
  have hget : ∀ (k : Nat) (s s' : Step), c.steps[k]? = some s → c'.steps[k]? = some s' →
      if k < c.background.length then s.bare = s'.bare else SameStep R s s' := by
    intro k s s' h1 h2
    have l1 := (List.getElem?_eq_some_iff.1 h1).1
    unfold Case.steps at h1 h2 l1
    by_cases h0 : c.scenario.steps = []
    · rw [if_pos h0] at h1; simp at h1
    · rw [if_neg h0] at h1 l1
      rw [if_neg (fun x => h0 (List.length_eq_zero_iff.1 (by rw [hslen, x]; rfl)))] at h2
      by_cases hk : k < c.background.length
      · rw [if_pos hk]
        rw [List.getElem?_append_left hk] at h1
        rw [List.getElem?_append_left (by omega)] at h2
        have := congrArg (·[k]?) hbg
        simpa [h1, h2] using this
      · rw [if_neg hk]
        rw [List.getElem?_append_right (by omega)] at h1
        rw [List.getElem?_append_right (by omega), ← hblen] at h2
        exact forall₂_get hsteps h1 h2
  have htypes : c.steps.map (·.keywordType) = c'.steps.map (·.keywordType) := by
    apply List.ext_getElem?
    intro k
    rw [List.getElem?_map, List.getElem?_map]
    by_cases hk : k < c.steps.length
    · obtain ⟨s, hs⟩ : ∃ s, c.steps[k]? = some s := ⟨_, List.getElem?_eq_getElem hk⟩
      obtain ⟨s', hs'⟩ : ∃ s, c'.steps[k]? = some s := ⟨_, List.getElem?_eq_getElem (by omega)⟩
      have := hget k s s' hs hs'
      rw [hs, hs', Option.map_some, Option.map_some]
      by_cases hkb : k < c.background.length
      · rw [if_pos hkb] at this
        exact congrArg some (show s.bare.keywordType = s'.bare.keywordType from congrArg Step.keywordType this)
      · rw [if_neg hkb] at this
        exact congrArg some this.type
    · rw [List.getElem?_eq_none (by omega), List.getElem?_eq_none (by omega)]
  have hty := hty htypes
  constructor
  · rw [calls_exact a2, calls_exact b2]
    apply List.ext_getElem?
    intro k
    rw [List.getElem?_map, List.getElem?_map]
    by_cases hk : k < c.steps.length
    · obtain ⟨s, hs⟩ : ∃ s, c.steps[k]? = some s := ⟨_, List.getElem?_eq_getElem hk⟩
      obtain ⟨s', hs'⟩ : ∃ s, c'.steps[k]? = some s := ⟨_, List.getElem?_eq_getElem (by omega)⟩
      obtain ⟨q, hq⟩ : ∃ q, p.steps[k]? = some q := ⟨_, List.getElem?_eq_getElem (by omega)⟩
      obtain ⟨q', hq'⟩ : ∃ q, p'.steps[k]? = some q := ⟨_, List.getElem?_eq_getElem (by omega)⟩
      have z1 : (c.steps.zip p.steps)[k]? = some (s, q) := by rw [List.getElem?_zip_eq_some]; exact ⟨hs, hq⟩
      have z2 : (c'.steps.zip p'.steps)[k]? = some (s', q') := by rw [List.getElem?_zip_eq_some]; exact ⟨hs', hq'⟩
      have t1 := a5 k hk
      have t2 := b5 k (by omega)
      rw [hq, Option.map_some, Option.some.injEq] at t1
      rw [hq', Option.map_some, Option.some.injEq] at t2
      have t3 := hty k hk
      rw [← t1, ← t2] at t3
      obtain ⟨⟨x, x1, x2⟩, x3⟩ := texts_at_by a3 hs hq
      obtain ⟨⟨y, y1, y2⟩, y3⟩ := texts_at_by b3 hs' hq'
      have hk2 := hget k s s' hs hs'
      have key : s.keyword = s'.keyword ∧ q.text = q'.text ∧ q.arg = q'.arg := by
        by_cases hkb : k < c.background.length
        · rw [if_pos hkb] at hk2
          have e1 : c.fillAtBy (interpolated eng) k = Eq := by funext a b; unfold Case.fillAtBy; rw [if_pos hkb]
          have e2 : c'.fillAtBy (interpolated eng) k = Eq := by funext a b; unfold Case.fillAtBy; rw [if_pos (by omega)]
          rw [e1] at x2 x3
          rw [e2] at y2 y3
          have w1 : s.keyword = s'.keyword := show s.bare.keyword = s'.bare.keyword from congrArg Step.keyword hk2
          have w2 : s.text = s'.text := show s.bare.text = s'.bare.text from congrArg Step.text hk2
          rw [x1, y1, Option.some.injEq] at w2
          exact ⟨w1, by rw [← x2, ← y2, w2], sameArg_bare (show s.bare.arg = s'.bare.arg from congrArg Step.arg hk2) x3 y3⟩
        · rw [if_neg hkb] at hk2
          have e1 : c.fillAtBy (interpolated eng) k = c.fillBy (interpolated eng) := by
            funext a b; unfold Case.fillAtBy; rw [if_neg hkb]
          have e2 : c'.fillAtBy (interpolated eng) k = c'.fillBy (interpolated eng) := by
            funext a b; unfold Case.fillAtBy; rw [if_neg (by omega)]
          rw [e1] at x2 x3
          rw [e2] at y2 y3
          have w2 := hk2.text
          rw [x1, y1, Option.rel_some_some] at w2
          exact ⟨hk2.keyword, hI _ _ _ _ w2 x2 y2, sameArg_unique hI hk2.arg x3 y3⟩
      rw [z1, z2, Option.map_some, Option.map_some, key.1, key.2.1, key.2.2]
      simp only [t3]
    · rw [List.getElem?_eq_none (by rw [List.length_zip]; omega), List.getElem?_eq_none (by rw [List.length_zip]; omega)]
  · obtain ⟨n, n1, n2⟩ := texts_name_by a3
    obtain ⟨n', m1, m2⟩ := texts_name_by b3
    rw [n1, m1, Option.rel_some_some] at hname
    have hn := hI _ _ _ _ hname n2 m2
    have u1 : t.name = p.name ++ c.suffix := by
      have : t.unplaced.name = _ := congrArg Test.name a2
      exact this
    have u2 : t'.name = p'.name ++ c'.suffix := by
      have : t'.unplaced.name = _ := congrArg Test.name b2
      exact this
    exact ⟨p.name, u1, by rw [u2, hn]⟩

/-- **C93.** Give the columns of an examples block other names - all different -, everywhere in the outline, and put them in another order: the tests of its rows make the same calls
as before, and have the same names up to the list of the row's values. -/
theorem C93_columns (eng : Engine) (printable : Char → Bool)
    (es : List DirEntry) (uri name content : Str) (sets : List Setting) (tests : List Test) (fn : Option Str) (d : Document)
    (es' : List DirEntry) (uri' name' content' : Str) (sets' : List Setting) (tests' : List Test) (fn' : Option Str) (d' : Document)
    (hb : build eng printable es uri name content = .ok (.suite sets tests, fn)) (hd : parseFile name content = .ok (some d))
    (hb' : build eng printable es' uri' name' content' = .ok (.suite sets' tests', fn')) (hd' : parseFile name' content' = .ok (some d'))
    (i j : Nat) (c c' : Case) (t t' : Test) (hc : d.cases[i]? = some c) (ht : tests[i]? = some t) (hc' : d'.cases[j]? = some c') (ht' : tests'[j]? = some t')
    (e e' : Examples) (h h' r r' : Row) (hrow : c.row = some (e, h, r)) (hrow' : c'.row = some (e', h', r'))
    (f : Str → Str) (hren : Renaming f (columns h r) (columns h' r')) (hp : PlainTexts (columns h r)) (hp' : PlainTexts (columns h' r'))
    (hbg : c.background.map Step.bare = c'.background.map Step.bare)
    (hname : Option.Rel (RenamedText f (columns h r) (columns h' r')) c.scenario.name c'.scenario.name)
    (hsteps : List.Forall₂ (SameStep (RenamedText f (columns h r) (columns h' r'))) c.scenario.steps c'.scenario.steps) :
    t.bareCalls = t'.bareCalls ∧ ∃ n, t.name = n ++ c.suffix ∧ t'.name = n ++ c'.suffix := by
  refine same_calls hb hd hb' hd' hc ht hc' ht' (R := RenamedText f (columns h r) (columns h' r')) ?_ ?_ hbg hname hsteps
  · intro s s' x y hs hx hy
    have e1 : c.fillBy (interpolated eng) = interpolated eng (columns h r) := by funext a b; unfold Case.fillBy; rw [hrow]
    have e2 : c'.fillBy (interpolated eng) = interpolated eng (columns h' r') := by funext a b; unfold Case.fillBy; rw [hrow']
    rw [e1] at hx
    rw [e2] at hy
    exact interpolated_renamed hren hp hp' hs hx hy
  · intro htypes k _
    have hfm : ∀ l : List Step, l.filterMap (·.keywordType) = (l.map (·.keywordType)).filterMap id := by intro l; rw [List.filterMap_map]; rfl
    unfold Case.typeAt
    rw [hfm, hfm, List.map_take, List.map_take, htypes, hrow, hrow']
    rfl

/-! ### The hypotheses can be met -/

namespace Sample.Columns

def before : Str := py"Feature: f
  Background:
    * a shop

  Scenario Outline: buy <what>
    When I buy <number> <what> for <money>
      | <what> | <number> |
    Then 1 < 2

    Examples:
      | number | what |
      | 7      | figs |
"

def after : Str := py"Feature: f
  Background:
    * a shop

  Scenario Outline: buy <thing>
    When I buy <n> <thing> for <money>
      | <thing> | <n> |
    Then 1 < 2

    Examples:
      | thing | n |
      | figs  | 7 |
"

/-- The new names. -/
def newName (n : Str) : Str := if n = py"number" then py"n" else if n = py"what" then py"thing" else n

/-- Of the first case: background, name, steps, columns and the list of values; and its test. -/
def first (text : Str) : Option (Case × Robot.Test) :=
  match parseFile py"a.feature" text, build Sample.noEngine (fun _ => true) [] [] py"a.feature" text with
  | .ok (some d), .ok (.suite _ (t :: _), _) => d.cases.head?.map fun c => (c, t)
  | _, _ => none

def cols (text : Str) : List (Str × Str) := (((first text).bind fun x => x.1.row).map fun x => columns x.2.1 x.2.2).getD []

end Sample.Columns

open Sample.Columns in
/-- Columns renamed and exchanged; the text `I buy <number> <what> for <money>` with a placeholder that is not of a column; the text `1 < 2` without placeholders; and the calls. -/
example : Renaming newName (cols before) (cols after) ∧ (cols before).length = 2 ∧ PlainTexts (cols before) ∧ PlainTexts (cols after) ∧
    ((first before).map fun x => x.1.scenario.steps.map (·.text)) = some [some py"I buy <number> <what> for <money>", some py"1 < 2"] ∧
    ((first after).map fun x => x.1.scenario.steps.map (·.text)) = some [some py"I buy <n> <thing> for <money>", some py"1 < 2"] ∧
    RenamedText newName (cols before) (cols after) py"I buy <number> <what> for <money>" py"I buy <n> <thing> for <money>" ∧
    RenamedText newName (cols before) (cols after) py"1 < 2" py"1 < 2" ∧
    (first before).map (fun x => x.2.bareCalls) = (first after).map (fun x => x.2.bareCalls) ∧
    (first before).map (fun x => x.2.name) = some py"buy figs number = 7 what = figs" ∧
    (first after).map (fun x => x.2.name) = some py"buy figs thing = figs n = 7" := by
  have e1 : cols before = [(py"number", py"7"), (py"what", py"figs")] := by decide +kernel
  have e2 : cols after = [(py"thing", py"figs"), (py"n", py"7")] := by decide +kernel
  rw [e1, e2]
  refine ⟨⟨by decide, by decide⟩, rfl, by unfold PlainTexts; decide, by unfold PlainTexts; decide, by decide +kernel, by decide +kernel, ?_, ?_, by decide +kernel, by decide +kernel, by decide +kernel⟩
  · refine .inl ⟨[.plain py"I buy ", .hole py"number", .plain py" ", .hole py"what", .plain py" for ", .hole py"money"], ?_, by decide, by decide, ?_⟩
    · intro p hp
      simp only [List.mem_cons, List.not_mem_nil, or_false] at hp
      rcases hp with rfl | rfl | rfl | rfl | rfl | rfl <;> simp [Piece.Ok]
    · intro n hn
      simp only [List.mem_cons, Piece.hole.injEq, reduceCtorEq, false_or, List.not_mem_nil, or_false] at hn
      rcases hn with rfl | rfl | rfl <;> decide
  · exact .inr ⟨rfl, by unfold Mentions; decide, by unfold Mentions; decide⟩

/-- The condition on the values cannot be dropped: a value that is itself a placeholder is filled again by the columns to the right of it, and not by those to the left. -/
theorem C93_order (eng : Engine) :
    interpolate eng (Sample.row [py"a", py"b"]).cells (Sample.row [py"<b>", py"x"]).cells py"<a>" = .ok py"x" ∧
    interpolate eng (Sample.row [py"b", py"a"]).cells (Sample.row [py"x", py"<b>"]).cells py"<a>" = .ok py"<b>" ∧
    Renaming id (columns (Sample.row [py"a", py"b"]) (Sample.row [py"<b>", py"x"])) (columns (Sample.row [py"b", py"a"]) (Sample.row [py"x", py"<b>"])) :=
  ⟨by rfl, by rfl, by decide, by decide⟩

end Gherkin
