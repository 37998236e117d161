import Verif.Spec.Tags
import Verif.Proofs.Strip
import Verif.MatcherClassic
import Mathlib.Tactic.Choose
import Mathlib.Data.List.Induction

/-! C13: tag lines. -/

namespace Gherkin

theorem uncomment_spec (s : Str) : ∃ r, s = uncomment s ++ r ∧ TagEnd r := by
  fun_induction uncomment s with
  | case1 => exact ⟨[], rfl, .nil⟩
  | case2 c => exact ⟨[], rfl, .nil⟩
  | case3 c d rest h =>
    simp at h
    exact ⟨c :: d :: rest, rfl, by rw [h.2]; exact .comment h.1⟩
  | case4 c d rest h ih =>
    obtain ⟨r, h1, h2⟩ := ih
    exact ⟨r, by simpa using h1, h2⟩

/-- No white space followed by `#`. -/
def NoHash (s : Str) : Prop := ∀ a c b, s = a ++ c :: '#' :: b → isSpace c = false

theorem noHash_tail {c : Char} {s : Str} (h : NoHash (c :: s)) : NoHash s := fun a x b hs => h (c :: a) x b (by simp [hs])

theorem uncomment_append {u r : Str} (hu : NoHash u) (hr : TagEnd r) : uncomment (u ++ r) = u := by
  induction u with
  | nil =>
    cases hr with
    | nil => rfl
    | comment hc => simp [uncomment, hc]
  | cons c u ih =>
    have ih := ih (noHash_tail hu)
    cases u with
    | nil =>
      cases hr with
      | nil => rfl
      | @comment x rest hx =>
        have : (x == '#') = false := by
          simp; rintro rfl; simp [isSpace] at hx
        simp only [List.cons_append, List.nil_append, uncomment, this, Bool.and_false, Bool.false_eq_true, if_false, hx]
        simp
    | cons d u =>
      have hcd : (isSpace c && d == '#') = false := by
        by_cases hd : d = '#'
        · subst hd
          have := hu [] c u rfl
          simp [this]
        · simp [hd]
      simp only [List.cons_append, uncomment, hcd, Bool.false_eq_true, if_false]
      rw [List.cons_append] at ih
      rw [ih]

theorem splitChar_spec (sep : Char) (s : Str) : ∃ p ps, splitChar sep s = p :: ps ∧ s = p ++ ps.flatMap (sep :: ·) ∧
    (∀ q ∈ p :: ps, sep ∉ q) := by
  induction s with
  | nil => exact ⟨[], [], rfl, rfl, by simp⟩
  | cons c s ih =>
    obtain ⟨p, ps, h1, h2, h3⟩ := ih
    by_cases hc : c = sep
    · subst hc
      refine ⟨[], p :: ps, by simp [splitChar, h1], by simp [← h2], ?_⟩
      intro q hq
      rw [List.mem_cons] at hq
      rcases hq with rfl | hq
      · simp
      · exact h3 q hq
    · refine ⟨c :: p, ps, by simp [splitChar, hc, h1], by simp [← h2], ?_⟩
      intro q hq
      rw [List.mem_cons] at hq
      rcases hq with rfl | hq
      · have := h3 p (by simp); simp [this, Ne.symm hc]
      · exact h3 q (by simp [hq])

theorem splitChar_flat {sep : Char} : ∀ {p : Str} {ps : List Str}, sep ∉ p → (∀ q ∈ ps, sep ∉ q) →
    splitChar sep (p ++ ps.flatMap (sep :: ·)) = p :: ps := by
  intro p ps
  induction ps generalizing p with
  | nil =>
    intro hp _
    induction p with
    | nil => rfl
    | cons c p ih =>
      simp at hp ih
      simp [splitChar, Ne.symm hp.1, ih hp.2]
  | cons q ps ih =>
    intro hp hps
    induction p with
    | nil =>
      have := ih (p := q) (hps q (by simp)) (fun x hx => hps x (by simp [hx]))
      simp [splitChar, this]
    | cons c p ihp =>
      simp at hp
      have := ihp hp.2
      rw [List.cons_append]
      simp [splitChar, Ne.symm hp.1] at this ⊢
      rw [this]

/-- What the loop over the pieces does. -/
theorem tagLoop_spec (items : List Str) (column : Nat) :
    (∀ tags, tagLoop items column = .ok tags →
      (∀ i ∈ items, ∀ c ∈ strip i, isSpace c = false) ∧
      tags = items.mapIdx fun n i => ⟨column + ((items.take n).flatMap ('@' :: ·)).length, '@' :: strip i⟩) ∧
    ((∀ i ∈ items, ∀ c ∈ strip i, isSpace c = false) → ∃ tags, tagLoop items column = .ok tags) := by
  induction items generalizing column with
  | nil => exact ⟨fun tags h => ⟨by simp, by cases h; rfl⟩, fun _ => ⟨[], rfl⟩⟩
  | cons i items ih =>
    have hat : isSpace '@' = false := rfl
    obtain ⟨ih1, ih2⟩ := ih (column + i.length + 1)
    refine ⟨fun tags h => ?_, fun h => ?_⟩
    · simp only [tagLoop] at h
      split at h
      · cases h
      rename_i hs
      simp [hat] at hs
      split at h
      · rename_i tags' ht
        cases h
        obtain ⟨h1, h2⟩ := ih1 _ ht
        refine ⟨?_, ?_⟩
        · intro x hx
          rw [List.mem_cons] at hx
          rcases hx with rfl | hx
          · exact hs
          · exact h1 x hx
        · rw [h2, List.mapIdx_cons]
          simp [Nat.add_assoc, Nat.add_comm, Nat.add_left_comm]
      · cases h
    · obtain ⟨tags, ht⟩ := ih2 fun x hx => h x (by simp [hx])
      have hs : ('@' :: strip i).any isSpace = false := by
        simp [hat]; exact h i (by simp)
      exact ⟨_, by simp only [tagLoop, hs]; rw [ht]; rfl⟩

theorem white_of_strip {i : Str} : ∃ gap ws, White gap ∧ White ws ∧ i = gap ++ strip i ++ ws := by
  obtain ⟨a, b, h1, h2, h3, _⟩ := strip_spec i
  exact ⟨a, b, h1, h2, h3⟩

theorem noHash_append {a b : Str} (ha : NoHash a) (hb : NoHash b) (hh : b.head? ≠ some '#') : NoHash (a ++ b) := by
  intro x c y h
  rcases List.append_eq_append_iff.1 h with ⟨w, h1, h2⟩ | ⟨w, h1, h2⟩
  · exact hb w c y h2
  · cases w with
    | nil => simp at h2; exact hb [] c y (by simpa using h2.symm)
    | cons d w =>
      simp at h2
      obtain ⟨rfl, h2⟩ := h2
      cases w with
      | nil => simp at h2; rw [← h2] at hh; simp at hh
      | cons e w =>
        simp at h2
        obtain ⟨rfl, _⟩ := h2
        exact ha x c w (by simpa using h1)

theorem noHash_nospace {a : Str} (h : ∀ c ∈ a, isSpace c = false) : NoHash a := fun x c y hx => h c (by simp [hx])
theorem noHash_white {a : Str} (h : White a) : NoHash a := fun x c y hx => by
  have := h '#' (by simp [hx])
  simp [isSpace] at this

theorem noHash_tags {tags : List SrcTag} (ht : ∀ t ∈ tags, t.gap = [] ∧ TagName t.name ∧ White t.ws) : NoHash (tags.flatMap SrcTag.src) := by
  induction tags with
  | nil => exact fun x c y h => by simp at h
  | cons t tags ih =>
    have h := ht t (by simp)
    rw [List.flatMap_cons]
    refine noHash_append ?_ (ih fun x hx => ht x (by simp [hx])) ?_
    · unfold SrcTag.src
      rw [h.1]
      have : '@' :: ([] ++ t.name ++ t.ws) = ('@' :: t.name) ++ t.ws := by simp
      rw [this]
      refine noHash_append (noHash_nospace ?_) (noHash_white h.2.2) ?_
      · intro c hc
        simp at hc
        rcases hc with rfl | hc
        · rfl
        · exact (h.2.1 c hc).1
      · intro hc
        have := h.2.2 '#' (List.mem_of_mem_head? hc)
        simp [isSpace] at this
    · cases tags <;> simp [SrcTag.src]

/-- C13, reading: on a tag line (first character `@`) the tags read are these: the line is white space, then one or more tags — `@`,
name and white space, see `SrcTag` —, then possibly a comment; the i-th tag read is `@` and the i-th name, its column is the
1-based position of its `@` in the line. Names contain neither white space nor `@`. -/
theorem C13_tags_read (l : Line) (items : List MItem) (hat : l.trimmed.head? = some '@') (h : l.tags = .ok items) :
    ∃ (indent : Str) (tags : List SrcTag) (rest : Str),
      White indent ∧ tags ≠ [] ∧ (∀ t ∈ tags, White t.gap ∧ TagName t.name ∧ White t.ws) ∧ TagEnd rest ∧
      l.text = indent ++ tags.flatMap SrcTag.src ++ rest ∧
      items = tags.mapIdx fun i t =>
        { column := (indent ++ (tags.take i).flatMap SrcTag.src).length + 1, text := '@' :: t.name } := by
  unfold Line.tags at h
  obtain ⟨a, ha, htext, hnh, hind⟩ := trimmed_spec l
  obtain ⟨a', b, ha', hb, htr, _, _⟩ := strip_spec l.trimmed
  have ha0 : a' = [] := by
    cases a' with
    | nil => rfl
    | cons c a' =>
      have := hnh c (by rw [htr]; rfl)
      rw [ha' c (by simp)] at this; cases this
  subst ha0
  rw [List.nil_append] at htr
  generalize strip l.trimmed = s at h htr
  obtain ⟨r, hs, hr⟩ := uncomment_spec s
  generalize uncomment s = u at h hs
  obtain ⟨a2, w, ha2, hw, hu, _, _⟩ := strip_spec u
  have hu0 : (strip u).head? = some '@' ∧ a2 = [] := by
    rw [htr, hs, hu] at hat
    cases a2 with
    | nil =>
      cases hu' : strip u with
      | nil =>
        exfalso
        rw [hu'] at hat
        cases w with
        | nil =>
          cases hr with
          | nil =>
            cases b with
            | nil => simp at hat
            | cons x b => simp at hat; subst hat; have := hb '@' (by simp); simp [isSpace] at this
          | comment hc => simp at hat; subst hat; simp [isSpace] at hc
        | cons x w => simp at hat; subst hat; have := hw '@' (by simp); simp [isSpace] at this
      | cons x y => rw [hu'] at hat; simp at hat; simp [hat]
    | cons c a2 =>
      simp at hat; subst hat; have := ha2 '@' (by simp); simp [isSpace] at this
  obtain ⟨hcore, rfl⟩ := hu0
  rw [List.nil_append] at hu
  generalize strip u = core at h hu hcore
  obtain ⟨p, ps, hsp, hcsrc, hno⟩ := splitChar_spec '@' core
  have hp : p = [] := by
    cases p with
    | nil => rfl
    | cons c p =>
      rw [hcsrc] at hcore; simp at hcore; subst hcore
      have := hno ('@' :: p) (by simp); simp at this
  subst hp
  rw [List.nil_append] at hcsrc
  rw [hsp] at h
  simp only [List.drop_one, List.tail_cons] at h
  obtain ⟨hnos, hitems⟩ := (tagLoop_spec ps _).1 _ h
  obtain ⟨init, last, rfl⟩ : ∃ init last, ps = init ++ [last] := by
    cases ps using List.reverseRecOn with
    | nil => rw [hcsrc] at hcore; simp at hcore
    | append_singleton init last _ => exact ⟨init, last, rfl⟩
  -- the end of the line
  obtain ⟨e, rest, he, hrest, heq⟩ : ∃ e rest, White e ∧ TagEnd rest ∧ w ++ r ++ b = e ++ rest := by
    cases hr with
    | nil => exact ⟨w ++ b, [], by intro c hc; simp at hc; rcases hc with hc | hc; exact hw c hc; exact hb c hc, .nil, by simp⟩
    | @comment c rest hc => exact ⟨w, c :: '#' :: rest ++ b, hw, .comment hc, by simp⟩
  have hch : ∀ i : Str, ∃ t : SrcTag, White t.gap ∧ White t.ws ∧ i = t.gap ++ t.name ++ t.ws ∧ t.name = strip i := by
    intro i
    obtain ⟨g, ws, h1, h2, h3⟩ := white_of_strip (i := i)
    exact ⟨⟨g, strip i, ws⟩, h1, h2, h3, rfl⟩
  choose f hf using hch
  have hname : ∀ i ∈ init ++ [last], TagName (f i).name := by
    intro i hi c hc
    refine ⟨hnos i hi c (by rw [← (hf i).2.2.2]; exact hc), ?_⟩
    rintro rfl
    exact hno i (by simp at hi ⊢; right; exact hi) (by rw [(hf i).2.2.1]; simp [hc])
  have hflat : ∀ is : List Str, (is.map f).flatMap SrcTag.src = is.flatMap ('@' :: ·) := by
    intro is
    induction is with
    | nil => rfl
    | cons i is ih => simp only [List.map_cons, List.flatMap_cons, ih, SrcTag.src]; rw [← (hf i).2.2.1]
  refine ⟨a, init.map f ++ [{ f last with ws := (f last).ws ++ e }], rest, ha, by simp, ?_, hrest, ?_, ?_⟩
  · intro t ht
    simp at ht
    rcases ht with ⟨i, hi, rfl⟩ | rfl
    · exact ⟨(hf i).1, hname i (by simp [hi]), (hf i).2.1⟩
    · refine ⟨(hf last).1, hname last (by simp), ?_⟩
      intro c hc
      simp at hc
      rcases hc with hc | hc
      · exact (hf last).2.1 c hc
      · exact he c hc
  · have h1 : (init.map f ++ [{ f last with ws := (f last).ws ++ e }]).flatMap SrcTag.src = core ++ e := by
      rw [List.flatMap_append, hflat, hcsrc, List.flatMap_append]
      simp only [List.flatMap_singleton, SrcTag.src]
      conv => rhs; rw [(hf last).2.2.1]
      simp
    rw [h1, htext, htr, hs, hu, List.append_assoc _ r b, List.append_assoc _ w, ← List.append_assoc w r b, heq]
    simp
  · rw [hitems]
    apply List.ext_getElem
    · simp
    · intro n h1 h2
      simp at h2
      simp only [List.getElem_mapIdx]
      congr 1
      · have : (List.take n (init.map f ++ [{ f last with ws := (f last).ws ++ e }])).flatMap SrcTag.src =
            (List.take n (init ++ [last])).flatMap ('@' :: ·) := by
          rw [List.take_append_of_le_length (by simp; omega), List.take_append_of_le_length (by omega), ← List.map_take, hflat]
        rw [this, ← hind]
        simp; omega
      · by_cases hn : n < init.length
        · simp [List.getElem_append, hn, (hf _).2.2.2]
        · simp [List.getElem_append, hn, (hf _).2.2.2]

/-- C13, writing: tags written one after the other, with any white space after each (even none), any indentation, and optionally a comment
at the end, are read back: the same names in the same order, each with the 1-based position of its `@` in the line. -/
theorem C13_tags_roundtrip (indent : Str) (tags : List SrcTag) (rest : Str) (number : Nat)
    (hi : White indent) (hne : tags ≠ []) (ht : ∀ t ∈ tags, t.gap = [] ∧ TagName t.name ∧ White t.ws) (hr : TagEnd rest) :
    Line.tags ⟨indent ++ tags.flatMap SrcTag.src ++ rest, number⟩ = .ok (tags.mapIdx fun i t =>
        { column := (indent ++ (tags.take i).flatMap SrcTag.src).length + 1, text := '@' :: t.name }) := by
  obtain ⟨init, last, rfl⟩ : ∃ init last, tags = init ++ [last] := by
    cases tags using List.reverseRecOn with
    | nil => exact absurd rfl hne
    | append_singleton init last _ => exact ⟨init, last, rfl⟩
  have hl := ht last (by simp)
  generalize hS : (init ++ [last]).flatMap SrcTag.src = S
  have hShead : ∃ S1, S = '@' :: S1 := by
    rw [← hS]; cases init <;> simp [SrcTag.src]
  have hSn : NoHead isSpace S := by
    obtain ⟨S1, rfl⟩ := hShead
    intro c hc; simp at hc; subst hc; rfl
  have htr : (Line.mk (indent ++ S ++ rest) number).trimmed = S ++ rest := by
    rw [List.append_assoc]
    refine trimmed_append hi ?_
    obtain ⟨S1, rfl⟩ := hShead
    intro c hc; simp at hc; subst hc; rfl
  have hind : (Line.mk (indent ++ S ++ rest) number).indent = indent.length := by
    rw [List.append_assoc]
    refine indent_append hi ?_
    obtain ⟨S1, rfl⟩ := hShead
    intro c hc; simp at hc; subst hc; rfl
  -- the core
  generalize hC : ((init.map fun t => t.name ++ t.ws) ++ [last.name]).flatMap ('@' :: ·) = core
  have hSC : S = core ++ last.ws := by
    rw [← hS, ← hC]
    simp only [List.flatMap_append, List.flatMap_singleton, SrcTag.src, hl.1, List.flatMap_map]
    have : ∀ is : List SrcTag, (∀ t ∈ is, t.gap = []) →
        (is.flatMap fun t => '@' :: (t.gap ++ t.name ++ t.ws)) = is.flatMap fun t => '@' :: (t.name ++ t.ws) := by
      intro is his
      induction is with
      | nil => rfl
      | cons t is ih => simp only [List.flatMap_cons]; rw [ih fun x hx => his x (by simp [hx]), his t (by simp)]; rfl
    rw [show init.flatMap SrcTag.src = init.flatMap fun t => '@' :: (t.gap ++ t.name ++ t.ws) from rfl,
      this init fun t h => (ht t (by simp [h])).1]
    simp
  have hCl : NoLast isSpace core := by
    rw [← hC]
    intro c hc
    have hnm : ∀ c, ('@' :: last.name).getLast? = some c → isSpace c = false := by
      intro c hc
      have hm := List.mem_of_getLast? hc
      simp at hm
      rcases hm with rfl | hm
      · rfl
      · exact (hl.2.1 c hm).1
    apply hnm
    rw [List.flatMap_append, List.getLast?_append] at hc
    simpa using hc
  have hCh : NoHead isSpace core := by
    rw [← hC]; intro c hc
    have : c = '@' := by cases init <;> simp at hc <;> exact hc.symm
    subst this; rfl
  have hstripS : strip S = core := by
    rw [hSC]
    exact strip_core (a := []) (by simp [AllP]) hl.2.2 hCh hCl
  have hnohash : NoHash S := by rw [← hS]; exact noHash_tags ht
  have hcorehash : NoHash core := by
    intro x c y h
    exact hnohash x c (y ++ last.ws) (by rw [hSC, h]; simp)
  have hun : strip (uncomment (strip (S ++ rest))) = core := by
    cases hr with
    | nil =>
      rw [List.append_nil, hstripS]
      have := uncomment_append hcorehash .nil
      rw [List.append_nil] at this
      rw [this]
      exact (by simpa using strip_core (a := []) (b := []) (s := core) (by simp [AllP]) (by simp [AllP]) hCh hCl)
    | @comment c rest hc =>
      have : strip (S ++ c :: '#' :: rest) = S ++ (c :: '#' :: rstrip rest) := by
        unfold strip lstrip
        rw [lstripBy_id]
        · unfold rstrip
          obtain ⟨w, h1, h2, h3⟩ := rstripBy_spec (p := isSpace) rest
          have h2' : S ++ c :: '#' :: rest = (S ++ c :: '#' :: rstripBy isSpace rest) ++ w := by
            rw [List.append_assoc, List.cons_append, List.cons_append, ← h2]
          rw [h2', rstripBy_append h1]
          intro x hx
          cases hrr : rstripBy isSpace rest with
          | nil =>
            rw [hrr, List.getLast?_append] at hx
            simp at hx; subst hx; rfl
          | cons y ys =>
            apply h3 x
            rw [hrr] at hx ⊢
            rw [List.getLast?_append] at hx
            simpa using hx
        · obtain ⟨S1, rfl⟩ := hShead
          intro x hx; simp at hx; subst hx; rfl
      rw [this, uncomment_append hnohash (.comment hc), hstripS]
  have hsp : splitChar '@' core = [] :: ((init.map fun t => t.name ++ t.ws) ++ [last.name]) := by
    have := splitChar_flat (sep := '@') (p := []) (ps := (init.map fun t => t.name ++ t.ws) ++ [last.name]) (by simp) ?_
    · rw [List.nil_append, hC] at this; exact this
    · intro q hq hat
      simp at hq
      rcases hq with ⟨t, h1, rfl⟩ | rfl
      · have h := ht t (by simp [h1])
        simp at hat
        rcases hat with hat | hat
        · exact (h.2.1 _ hat).2 rfl
        · have := h.2.2 _ hat; simp [isSpace] at this
      · exact (hl.2.1 _ hat).2 rfl
  have hstrip : ∀ t ∈ init, strip (t.name ++ t.ws) = t.name := by
    intro t h1
    have h := ht t (by simp [h1])
    have := strip_core (a := []) (s := t.name) (b := t.ws) (by simp [AllP]) h.2.2
      (fun c hc => (h.2.1 c (List.mem_of_mem_head? hc)).1) (fun c hc => (h.2.1 c (List.mem_of_getLast? hc)).1)
    simpa using this
  have hstripl : strip last.name = last.name := by
    have := strip_core (a := []) (s := last.name) (b := []) (by simp [AllP]) (by simp [AllP])
      (fun c hc => (hl.2.1 c (List.mem_of_mem_head? hc)).1) (fun c hc => (hl.2.1 c (List.mem_of_getLast? hc)).1)
    simpa using this
  obtain ⟨items, hit⟩ := (tagLoop_spec ((init.map fun t => t.name ++ t.ws) ++ [last.name]) (indent.length + 1)).2 (by
    intro i hi c hc
    simp at hi
    rcases hi with ⟨t, h1, rfl⟩ | rfl
    · rw [hstrip t h1] at hc; exact ((ht t (by simp [h1])).2.1 c hc).1
    · rw [hstripl] at hc; exact (hl.2.1 c hc).1)
  have hres := ((tagLoop_spec _ _).1 _ hit).2
  unfold Line.tags
  rw [htr, hun, hsp, hind]
  simp only [List.drop_one, List.tail_cons]
  rw [hit, hres]
  congr 1
  apply List.ext_getElem
  · simp
  · intro n h1 h2
    simp at h2
    simp only [List.getElem_mapIdx]
    congr 1
    · rw [List.take_append_of_le_length (by simp; omega), List.take_append_of_le_length (by omega), ← List.map_take]
      have : ∀ is : List SrcTag, (∀ t ∈ is, t.gap = []) → (is.map fun t => t.name ++ t.ws).flatMap ('@' :: ·) = is.flatMap SrcTag.src := by
        intro is his
        induction is with
        | nil => rfl
        | cons t is ih =>
          simp only [List.map_cons, List.flatMap_cons]; rw [ih fun x hx => his x (by simp [hx])]
          simp [SrcTag.src, his t (by simp)]
      rw [this _ fun t h => (ht t (by simp [List.mem_of_mem_take h])).1]
      simp; omega
    · by_cases hn : n < init.length
      · rw [List.getElem_append_left (by simpa using hn), List.getElem_append_left hn]
        simp only [List.getElem_map]
        rw [hstrip _ (List.getElem_mem hn)]
      · rw [List.getElem_append_right (by simpa using hn), List.getElem_append_right (by omega)]
        simp [hstripl]

/-- C13 at the level of the matcher: such a line is recognised as a tag line. -/
theorem C13_tags_recognised (indent : Str) (tags : List SrcTag) (rest : Str) (number : Nat) (m : CState)
    (hi : White indent) (hne : tags ≠ []) (ht : ∀ t ∈ tags, t.gap = [] ∧ TagName t.name ∧ White t.ws) (hr : TagEnd rest) :
    ∃ t, Classic.matchKind .tagLine (Token.fresh ⟨indent ++ tags.flatMap SrcTag.src ++ rest, number⟩) m = (.ok true, t, m) ∧
      t.type = some .tagLine ∧ t.items.map (·.text) = tags.map fun t => '@' :: t.name := by
  have h1 := C13_tags_roundtrip indent tags rest number hi hne ht hr
  have hst : (Line.mk (indent ++ tags.flatMap SrcTag.src ++ rest) number).startsWith ['@'] = true := by
    unfold Line.startsWith
    cases tags with
    | nil => exact absurd rfl hne
    | cons t tags =>
      rw [List.append_assoc, trimmed_append hi (by intro c hc; simp [SrcTag.src] at hc; subst hc; rfl)]
      simp [SrcTag.src, startsWith]
  have hm : Classic.matchKind .tagLine (Token.fresh ⟨indent ++ tags.flatMap SrcTag.src ++ rest, number⟩) m =
      (.ok true, setMatched m.dialectName (Token.fresh ⟨indent ++ tags.flatMap SrcTag.src ++ rest, number⟩) (some .tagLine) none none
        none none (tags.mapIdx fun i t =>
          { column := (indent ++ (tags.take i).flatMap SrcTag.src).length + 1, text := '@' :: t.name }), m) := by
    unfold Classic.matchKind Classic.matchTagLine
    simp only [Token.fresh, hst, if_true, h1]
  refine ⟨_, hm, rfl, ?_⟩
  show (tags.mapIdx fun i t => _).map _ = _
  apply List.ext_getElem <;> simp

/-- Non-vacuity. -/
example : Line.tags ⟨py"  @a#b  @c@d #x @e\n", 7⟩ = .ok [⟨3, py"@a#b"⟩, ⟨9, py"@c"⟩, ⟨11, py"@d"⟩] := by decide +kernel

end Gherkin
