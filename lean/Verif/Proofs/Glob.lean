import Verif.Glob
import Verif.Proofs.RxTitle
import Verif.Spec.Glob

/-! Patterns mean what the specification says. -/

namespace Gherkin.Glob

/-! Regular expressions as the sets of texts they read: without groups and the order of the matches. -/

/-- Regular expressions with line anchors. -/
inductive Re
  | eps | set (f : Char → Bool) | seq (a b : Re) | alt (a b : Re) | star (a : Re) | bol (multi : Bool) | eol (multi : Bool)

/-- `[^/]`. -/
def notSlash : Re := .set (· != '/')

/-- A position in the subject: the character before it and the characters after it. -/
structure Pos where
  prev : Option Char
  rest : Str
  deriving DecidableEq, Repr

/-- A loop that reads as often as it likes; every round must make progress. -/
def starEnds (f : Pos → List Pos) : Nat → Pos → List Pos
  | 0, p => [p]
  | n + 1, p => p :: ((f p).filter fun q => q.rest.length < p.rest.length).flatMap (starEnds f n)

/-- The positions at which a match that starts at a position can end (all ways of backtracking). -/
def Re.ends : Re → Pos → List Pos
  | .eps, p => [p]
  | .set f, p => match p.rest with
    | [] => []
    | c :: cs => if f c then [⟨some c, cs⟩] else []
  | .seq a b, p => (a.ends p).flatMap b.ends
  | .alt a b, p => a.ends p ++ b.ends p
  | .star a, p => starEnds a.ends p.rest.length p
  | .bol multi, p => if p.prev = none ∨ (multi = true ∧ p.prev = some '\n') then [p] else []
  | .eol multi, p => if p.rest = [] ∨ p.rest = ['\n'] ∨ (multi = true ∧ p.rest.head? = some '\n') then [p] else []

/-- Reading the text `v` leads from one position to another. -/
def Reads (p : Pos) (v : Str) (q : Pos) : Prop := p.rest = v ++ q.rest ∧ q.prev = v.getLast?.or p.prev

theorem Reads.nil (p : Pos) : Reads p [] p := ⟨rfl, rfl⟩

theorem Reads.cons {p : Pos} {c : Char} {cs v : Str} {q : Pos} (h : p.rest = c :: cs) (h' : Reads ⟨some c, cs⟩ v q) : Reads p (c :: v) q := by
  refine ⟨by rw [h]; simpa using h'.1, ?_⟩
  rw [h'.2]
  cases v with
  | nil => rfl
  | cons d v => rw [List.getLast?_cons_cons]; simp [List.getLast?_cons]

theorem Reads.append {p q r : Pos} {v w : Str} (h : Reads p v q) (h' : Reads q w r) : Reads p (v ++ w) r := by
  refine ⟨by rw [h.1, h'.1, List.append_assoc], ?_⟩
  rw [h'.2, h.2, List.getLast?_append]
  cases w.getLast? <;> rfl

/-- Where a text can be read there is a position after it. -/
theorem Reads.of_append (p : Pos) (v w : Str) (h : p.rest = v ++ w) : ∃ q, Reads p v q ∧ q.rest = w :=
  ⟨⟨v.getLast?.or p.prev, w⟩, ⟨h, rfl⟩, rfl⟩

theorem Reads.inj {p q q' : Pos} {v : Str} (h : Reads p v q) (h' : Reads p v q') : q = q' := by
  have h1 := h.1.symm.trans h'.1
  rcases q with ⟨a, b⟩; rcases q' with ⟨a', b'⟩
  have := List.append_cancel_left h1
  have h2 := h.2.trans h'.2.symm
  simp_all

/-! ### Loops -/

/-- What a loop reads: the texts its rounds read, one after the other. -/
inductive Rounds (R : Pos → Str → Pos → Prop) : Pos → Str → Pos → Prop
  | nil (p : Pos) : Rounds R p [] p
  | cons {p q r : Pos} {v w : Str}  : v ≠ [] → Reads p v q → R p v q → Rounds R q w r → Rounds R p (v ++ w) r

theorem mem_starEnds {f : Pos → List Pos} {R : Pos → Str → Pos → Prop} (hR : ∀ p q, q ∈ f p ↔ ∃ v, Reads p v q ∧ R p v q)
    {n : Nat} {p q : Pos} (hn : p.rest.length ≤ n) : q ∈ starEnds f n p ↔ ∃ v, Reads p v q ∧ Rounds R p v q := by
  induction n generalizing p with
  | zero =>
    rw [starEnds]
    have hp : p.rest = [] := by cases h : p.rest with | nil => rfl | cons c cs => rw [h] at hn; simp at hn
    constructor
    · intro h; rw [List.mem_singleton] at h; subst h; exact ⟨[], Reads.nil _, .nil _⟩
    · rintro ⟨v, h1, h2⟩
      have : v = [] := by have := h1.1; rw [hp] at this; cases v with | nil => rfl | cons c v => simp at this
      subst this
      rw [List.mem_singleton]; exact h1.inj (Reads.nil p)
  | succ n ih =>
    rw [starEnds, List.mem_cons, List.mem_flatMap]
    constructor
    · rintro (h | ⟨m, hm, h⟩)
      · subst h; exact ⟨[], Reads.nil _, .nil _⟩
      · rw [List.mem_filter] at hm
        obtain ⟨hm, hlt⟩ := hm
        have hlt : m.rest.length < p.rest.length := by simpa using hlt
        obtain ⟨v, hv, hr⟩ := (hR p m).1 hm
        obtain ⟨w, hw, hs⟩ := (ih (p := m) (by omega)).1 h
        refine ⟨v ++ w, hv.append hw, .cons ?_ hv hr hs⟩
        intro hv0
        rw [hv0] at hv
        have := hv.1
        simp only [List.nil_append] at this
        rw [this] at hlt
        exact Nat.lt_irrefl _ hlt
    · rintro ⟨v, h1, h2⟩
      cases h2 with
      | nil => left; rfl
      | @cons _ m _ v w hne hv hr hs =>
        right
        have hlen : m.rest.length < p.rest.length := by
          rw [hv.1, List.length_append]
          have : 0 < v.length := List.length_pos_iff.2 hne
          omega
        refine ⟨m, ?_, ?_⟩
        · rw [List.mem_filter]
          exact ⟨(hR p m).2 ⟨v, hv, hr⟩, by simpa using hlen⟩
        · refine (ih (p := m) (by omega)).2 ⟨w, ?_, hs⟩
          have := h1.1
          rw [hv.1, List.append_assoc] at this
          refine ⟨List.append_cancel_left this, ?_⟩
          rw [h1.2, hv.2, List.getLast?_append]
          cases w.getLast? <;> rfl

theorem mem_set {f : Char → Bool} {p q : Pos} : q ∈ (Re.set f).ends p ↔ ∃ v, Reads p v q ∧ ∃ c, v = [c] ∧ f c = true := by
  rcases p with ⟨a, _ | ⟨c, cs⟩⟩
  · constructor
    · intro h; cases h
    · rintro ⟨v, h, c, rfl, _⟩; exact absurd h.1 (by simp)
  · show q ∈ (if f c = true then [(⟨some c, cs⟩ : Pos)] else []) ↔ _
    constructor
    · intro h
      by_cases hc : f c = true
      · rw [if_pos hc, List.mem_singleton] at h
        subst h
        exact ⟨[c], ⟨rfl, rfl⟩, c, rfl, hc⟩
      · rw [if_neg hc] at h; cases h
    · rintro ⟨v, h, d, rfl, hd⟩
      have h1 := h.1
      simp only [List.cons_append, List.nil_append, List.cons.injEq] at h1
      obtain ⟨rfl, h1⟩ := h1
      rw [if_pos hd, List.mem_singleton]
      rcases q with ⟨x, y⟩
      have h2 := h.2
      simp_all

theorem mem_seq {a b : Re} {p q : Pos} : q ∈ (Re.seq a b).ends p ↔ ∃ m, m ∈ a.ends p ∧ q ∈ b.ends m := by
  show q ∈ (a.ends p).flatMap b.ends ↔ _
  rw [List.mem_flatMap]

theorem mem_alt {a b : Re} {p q : Pos} : q ∈ (Re.alt a b).ends p ↔ q ∈ a.ends p ∨ q ∈ b.ends p := by
  show q ∈ a.ends p ++ b.ends p ↔ _
  rw [List.mem_append]

theorem mem_eol {p q : Pos} : q ∈ (Re.eol true).ends p ↔ q = p ∧ (p.rest = [] ∨ p.rest.head? = some '\n') := by
  have h : (p.rest = [] ∨ p.rest = ['\n'] ∨ (true = true ∧ p.rest.head? = some '\n')) ↔ (p.rest = [] ∨ p.rest.head? = some '\n') := by
    constructor
    · rintro (h | h | h)
      · exact .inl h
      · exact .inr (by rw [h]; rfl)
      · exact .inr h.2
    · rintro (h | h)
      · exact .inl h
      · exact .inr (.inr ⟨rfl, h⟩)
  rw [Re.ends]
  by_cases hh : p.rest = [] ∨ p.rest.head? = some '\n'
  · rw [if_pos (h.2 hh)]; simp [hh]
  · rw [if_neg (fun x => hh (h.1 x))]; simp [hh]

theorem rounds_set {f : Char → Bool} {p q : Pos} {v : Str} (h : Reads p v q) :
    Rounds (fun _ v _ => ∃ c, v = [c] ∧ f c = true) p v q ↔ ∀ c ∈ v, f c = true := by
  constructor
  · intro hr
    clear h
    induction hr with
    | nil => simp
    | cons _ _ h _ ih =>
      obtain ⟨c, rfl, hc⟩ := h
      simpa using ⟨hc, ih⟩
  · intro hv
    induction v generalizing p with
    | nil => rw [h.inj (Reads.nil p)]; exact .nil _
    | cons c v ih =>
      obtain ⟨m, hm, hr⟩ := Reads.of_append p [c] (v ++ q.rest) h.1
      refine .cons (v := [c]) (by simp) hm ⟨c, rfl, hv c (by simp)⟩ (ih ⟨hr, ?_⟩ fun d hd => hv d (by simp [hd]))
      rw [h.2, hm.2]
      show (List.getLast? ([c] ++ v)).or p.prev = _
      rw [List.getLast?_append]
      cases v.getLast? <;> rfl

/-- `[^/]*`. -/
theorem mem_notSlash {p q : Pos} : q ∈ (Re.star notSlash).ends p ↔ ∃ v, Reads p v q ∧ '/' ∉ v := by
  show q ∈ starEnds (Re.ends notSlash) p.rest.length p ↔ _
  rw [mem_starEnds (f := notSlash.ends) (fun _ _ => mem_set) (Nat.le_refl _)]
  constructor
  · rintro ⟨v, h, hr⟩
    exact ⟨v, h, fun hm => by simpa using (rounds_set h).1 hr _ hm⟩
  · rintro ⟨v, h, hr⟩
    refine ⟨v, h, (rounds_set h).2 fun c hc => ?_⟩
    simp only [bne_iff_ne, ne_eq]
    rintro rfl
    exact hr hc

/-- What one round of `(?:[^/]*(?:/|$))*` reads. -/
def DeepRound (_ : Pos) (v : Str) (q : Pos) : Prop :=
  (∃ u, v = u ++ ['/'] ∧ '/' ∉ u) ∨ ('/' ∉ v ∧ (q.rest = [] ∨ q.rest.head? = some '\n'))

theorem mem_deepRound {p q : Pos} :
    q ∈ (Re.seq (.star notSlash) (.alt (.set (· == '/')) (.eol true))).ends p ↔ ∃ v, Reads p v q ∧ DeepRound p v q := by
  rw [mem_seq]
  constructor
  · rintro ⟨m, h1, h2⟩
    obtain ⟨u, hu, hn⟩ := mem_notSlash.1 h1
    rcases mem_alt.1 h2 with h2 | h2
    · obtain ⟨w, hw, c, rfl, hc⟩ := mem_set.1 h2
      rw [beq_iff_eq] at hc
      subst hc
      exact ⟨_, hu.append hw, .inl ⟨u, rfl, hn⟩⟩
    · obtain ⟨rfl, h⟩ := mem_eol.1 h2
      exact ⟨u, hu, .inr ⟨hn, h⟩⟩
  · rintro ⟨v, h, ⟨u, rfl, hu⟩ | ⟨hv, he⟩⟩
    · obtain ⟨m, hm, hr⟩ := Reads.of_append p u ('/' :: q.rest) (by rw [h.1]; simp)
      refine ⟨m, mem_notSlash.2 ⟨u, hm, hu⟩, mem_alt.2 (.inl (mem_set.2 ⟨['/'], ⟨hr, ?_⟩, '/', rfl, rfl⟩))⟩
      rw [h.2]; simp
    · exact ⟨q, mem_notSlash.2 ⟨v, h, hv⟩, mem_alt.2 (.inr (mem_eol.2 ⟨rfl, he⟩))⟩

theorem rounds_deep {p q : Pos} {v : Str} (h : Reads p v q) :
    Rounds DeepRound p v q ↔ (v = [] ∨ v.getLast? = some '/' ∨ q.rest = [] ∨ q.rest.head? = some '\n') := by
  constructor
  · intro hr
    clear h
    induction hr with
    | nil => exact .inl rfl
    | @cons p q r v w hne _ h hs ih =>
      right
      rcases ih with rfl | ih | ih
      · have hqr : q = r := by
          generalize hw : ([] : Str) = w at hs
          cases hs with
          | nil => rfl
          | cons hx => exact absurd (List.append_eq_nil_iff.1 hw.symm).1 hx
        subst hqr
        rw [List.append_nil]
        rcases h with ⟨u, rfl, _⟩ | ⟨_, h⟩
        · left; simp
        · right; exact h
      · left; rw [List.getLast?_append, ih]; rfl
      · right; exact ih
  · intro hv
    induction hl : v.length using Nat.strongRecOn generalizing p v with
    | ind n ih =>
      subst hl
      by_cases hs : '/' ∈ v
      · obtain ⟨u, w, rfl, hu⟩ := List.append_of_mem hs |> fun _ => List.eq_append_cons_of_mem hs
        obtain ⟨m, hm, hmr⟩ := Reads.of_append p (u ++ ['/']) (w ++ q.rest) (by rw [h.1]; simp)
        have : u ++ '/' :: w = (u ++ ['/']) ++ w := by simp
        rw [this]
        refine .cons (by simp) hm (.inl ⟨u, rfl, hu⟩) (ih w.length (by simp; omega) ⟨hmr, ?_⟩ ?_ rfl)
        · rw [h.2, hm.2, this, List.getLast?_append]
          cases w.getLast? <;> rfl
        · rcases hv with hv | hv | hv
          · simp at hv
          · cases w with
            | nil => exact .inl rfl
            | cons d w => right; left; rw [this, List.getLast?_append] at hv; simpa [List.getLast?_cons] using hv
          · exact .inr (.inr hv)
      · by_cases hv0 : v = []
        · subst hv0; rw [h.inj (Reads.nil p)]; exact .nil _
        · have he : q.rest = [] ∨ q.rest.head? = some '\n' := by
            rcases hv with hv | hv | hv
            · exact absurd hv hv0
            · exact absurd (List.mem_of_getLast? hv) hs
            · exact hv
          have := Rounds.cons hv0 h (.inr ⟨hs, he⟩) (.nil (R := DeepRound) q)
          rwa [List.append_nil] at this

/-- `(?:[^/]*(?:/|$))*`. -/
theorem mem_deep {p q : Pos} : q ∈ (Re.star (.seq (.star notSlash) (.alt (.set (· == '/')) (.eol true)))).ends p ↔
    ∃ v, Reads p v q ∧ (v = [] ∨ v.getLast? = some '/' ∨ q.rest = [] ∨ q.rest.head? = some '\n') := by
  show q ∈ starEnds (Re.ends _) p.rest.length p ↔ _
  rw [mem_starEnds (fun _ _ => mem_deepRound) (Nat.le_refl _)]
  constructor <;> rintro ⟨v, h, hr⟩
  · exact ⟨v, h, (rounds_deep h).1 hr⟩
  · exact ⟨v, h, (rounds_deep h).2 hr⟩

/-! ### Items -/

def ClassItem.item : ClassItem → Regex.Item
  | .char c => .one c
  | .range a b => .range a b

def simpleRe : Simple → Re
  | .char c => .set (· == c)
  | .any => .set fun _ => true
  | .many => .star notSlash
  | .cls items => .set (Regex.Set.has ⟨false, items.map ClassItem.item⟩)

theorem item_has (i : ClassItem) (c : Char) : i.item.has c = true ↔ i.Has c := by
  cases i <;> simp [ClassItem.item, Regex.Item.has, ClassItem.Has]

theorem items_has (items : List ClassItem) (c : Char) : Regex.Set.has ⟨false, items.map ClassItem.item⟩ c = true ↔ ∃ i ∈ items, i.Has c := by
  simp only [Regex.Set.has, Bool.false_xor, List.any_map, List.any_eq_true, Function.comp]
  exact exists_congr fun i => and_congr Iff.rfl (item_has i c)

def deepRe : Re := .star (.seq (.star notSlash) (.alt (.set (· == '/')) (.eol true)))

theorem mem_simple {s : Simple} {p q : Pos} : q ∈ (simpleRe s).ends p ↔ ∃ v, Reads p v q ∧ SimpleFits [s] v := by
  cases s with
  | char c =>
    rw [simpleRe, mem_set]
    refine exists_congr fun v => and_congr Iff.rfl ⟨?_, ?_⟩
    · rintro ⟨d, rfl, hd⟩
      rw [beq_iff_eq] at hd; subst hd
      exact .char _ .nil
    · intro h; cases h with | char _ h => cases h; exact ⟨c, rfl, by simp⟩
  | any =>
    rw [simpleRe, mem_set]
    refine exists_congr fun v => and_congr Iff.rfl ⟨?_, ?_⟩
    · rintro ⟨d, rfl, hd⟩
      exact .any _ .nil
    · intro h; cases h with | any c h => cases h; exact ⟨c, rfl, rfl⟩
  | cls items =>
    rw [simpleRe, mem_set]
    refine exists_congr fun v => and_congr Iff.rfl ⟨?_, ?_⟩
    · rintro ⟨d, rfl, hd⟩
      exact .cls _ ((items_has items d).1 hd) .nil
    · intro h; cases h with | cls c hc h => cases h; exact ⟨c, rfl, (items_has items c).2 hc⟩
  | many =>
    rw [simpleRe, mem_notSlash]
    refine exists_congr fun v => and_congr Iff.rfl ⟨?_, ?_⟩
    · intro h
      have := SimpleFits.many v h .nil
      rwa [List.append_nil] at this
    · intro h; cases h with | many v hv h => cases h; simpa using hv

theorem SimpleFits.cons {s : Simple} {ss : List Simple} {v w : Str} (h : SimpleFits [s] v) (h' : SimpleFits ss w) :
    SimpleFits (s :: ss) (v ++ w) := by
  cases h with
  | char c h => cases h; exact .char c h'
  | any c h => cases h; exact .any c h'
  | cls c hc h => cases h; exact .cls c hc h'
  | many v hv h => cases h; rw [List.append_nil]; exact .many v hv h'

theorem SimpleFits.uncons {s : Simple} {ss : List Simple} {w : Str} (h : SimpleFits (s :: ss) w) :
    ∃ u v, w = u ++ v ∧ SimpleFits [s] u ∧ SimpleFits ss v := by
  cases h with
  | char c h => exact ⟨[c], _, rfl, .char c .nil, h⟩
  | any c h => exact ⟨[c], _, rfl, .any c .nil, h⟩
  | cls c hc h => exact ⟨[c], _, rfl, .cls c hc .nil, h⟩
  | many v hv h => exact ⟨v, _, rfl, by simpa using SimpleFits.many v hv .nil, h⟩

theorem mem_simples {ss : List Simple} {cur : Re} {p q : Pos} :
    q ∈ (ss.foldl (fun c s => Re.seq c (simpleRe s)) cur).ends p ↔ ∃ m, m ∈ cur.ends p ∧ ∃ v, Reads m v q ∧ SimpleFits ss v := by
  induction ss generalizing cur with
  | nil =>
    refine ⟨fun h => ⟨q, h, [], Reads.nil _, .nil⟩, ?_⟩
    rintro ⟨m, hm, v, hv, h⟩
    cases h
    rwa [hv.inj (Reads.nil m)]
  | cons s ss ih =>
    rw [List.foldl_cons, ih]
    constructor
    · rintro ⟨m, hm, v, hv, h⟩
      obtain ⟨k, hk, hm⟩ := mem_seq.1 hm
      obtain ⟨u, hu, h'⟩ := mem_simple.1 hm
      exact ⟨k, hk, u ++ v, hu.append hv, h'.cons h⟩
    · rintro ⟨k, hk, w, hw, h⟩
      obtain ⟨u, v, rfl, h1, h2⟩ := h.uncons
      obtain ⟨m, hm, hr⟩ := Reads.of_append k u (v ++ q.rest) (by rw [hw.1, List.append_assoc])
      refine ⟨m, mem_seq.2 ⟨k, hk, mem_simple.2 ⟨u, hm, h1⟩⟩, v, ⟨hr, ?_⟩, h2⟩
      rw [hw.2, hm.2, List.getLast?_append]
      cases v.getLast? <;> rfl

/-- One more item. -/
theorem step_item {cur r : Re} {i : Item} {g : List Item} (hr : ∀ m q : Pos, q ∈ r.ends m → ∃ v, Reads m v q ∧
      ∀ w, q.rest = w → Fits g w → Fits (i :: g) (v ++ w))
    (hr' : ∀ (m : Pos), Fits (i :: g) m.rest → ∃ q, q ∈ r.ends m ∧ Fits g q.rest) (p : Pos) :
    (∃ m, m ∈ (Re.seq cur r).ends p ∧ Fits g m.rest) ↔ ∃ m, m ∈ cur.ends p ∧ Fits (i :: g) m.rest := by
  constructor
  · rintro ⟨q, hq, h⟩
    obtain ⟨m, hm, hq⟩ := mem_seq.1 hq
    obtain ⟨v, hv, hf⟩ := hr m q hq
    exact ⟨m, hm, by rw [hv.1]; exact hf _ rfl h⟩
  · rintro ⟨m, hm, h⟩
    obtain ⟨q, hq, h⟩ := hr' m h
    exact ⟨q, mem_seq.2 ⟨m, hm, hq⟩, h⟩

theorem step_one (cur : Re) (s : Simple) (g : List Item) (p : Pos) :
    (∃ m, m ∈ (Re.seq cur (simpleRe s)).ends p ∧ Fits g m.rest) ↔ ∃ m, m ∈ cur.ends p ∧ Fits (.one s :: g) m.rest := by
  refine step_item (fun m q h => ?_) (fun m h => ?_) p
  · obtain ⟨v, hv, hs⟩ := mem_simple.1 h
    exact ⟨v, hv, fun w _ hw => .one hs hw⟩
  · generalize hx : m.rest = x at h
    cases h with
    | @one _ v _ w hs hf =>
      obtain ⟨q, hq, rfl⟩ := Reads.of_append m v w hx
      exact ⟨q, mem_simple.2 ⟨v, hq, hs⟩, hf⟩

theorem step_deep (cur : Re) (g : List Item) (p : Pos) :
    (∃ m, m ∈ (Re.seq cur deepRe).ends p ∧ Fits g m.rest) ↔ ∃ m, m ∈ cur.ends p ∧ Fits (.dirs :: g) m.rest := by
  refine step_item (fun m q h => ?_) (fun m h => ?_) p
  · obtain ⟨v, hv, hs⟩ := mem_deep.1 h
    exact ⟨v, hv, fun w hqw hw => .dirs (by rwa [← hqw]) hw⟩
  · generalize hx : m.rest = x at h
    cases h with
    | @dirs v _ w hs hf =>
      obtain ⟨q, hq, rfl⟩ := Reads.of_append m v w hx
      exact ⟨q, mem_deep.2 ⟨v, hq, hs⟩, hf⟩

theorem step_alts (cur X : Re) (alts : List (List Simple)) (hX : ∀ p q, q ∈ X.ends p ↔ ∃ a ∈ alts, ∃ v, Reads p v q ∧ SimpleFits a v)
    (g : List Item) (p : Pos) :
    (∃ m, m ∈ (Re.seq cur X).ends p ∧ Fits g m.rest) ↔ ∃ m, m ∈ cur.ends p ∧ Fits (.oneOf alts :: g) m.rest := by
  refine step_item (fun m q h => ?_) (fun m h => ?_) p
  · obtain ⟨a, ha, v, hv, hs⟩ := (hX _ _).1 h
    exact ⟨v, hv, fun w _ hw => .oneOf ha hs hw⟩
  · generalize hx : m.rest = x at h
    cases h with
    | @oneOf _ a v _ w ha hs hf =>
      obtain ⟨q, hq, rfl⟩ := Reads.of_append m v w hx
      exact ⟨q, (hX _ _).2 ⟨a, ha, v, hq, hs⟩, hf⟩


end Gherkin.Glob
