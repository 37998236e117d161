import Verif.Spec.Pattern
import Verif.Proofs.RxText

/-! C80: the expressions of the model of `re` stand for sets of texts. -/

namespace Gherkin.Regex

open Pattern

/-- The matches of the expression are those of the texts of the set. -/
def Den (r : Rx) (L : Texts) : Prop :=
  ∀ (p : Pos) (B R : Str), (∃ q ∈ r.run p, q.back = B ∧ q.rest = R) ↔ ∃ v, L v ∧ p.rest = v ++ R ∧ B = v.reverse ++ p.back

theorem Den.congr {r : Rx} {K L : Texts} (h : Den r K) (e : ∀ s, K s ↔ L s) : Den r L := by
  intro p B R
  rw [h p B R]
  constructor
  · rintro ⟨v, h1, h2⟩; exact ⟨v, (e v).1 h1, h2⟩
  · rintro ⟨v, h1, h2⟩; exact ⟨v, (e v).2 h1, h2⟩

theorem den_eps : Den .eps (· = []) := by
  intro p B R
  constructor
  · rintro ⟨q, hq, rfl, rfl⟩
    simp only [Rx.run, List.mem_singleton] at hq
    subst hq
    exact ⟨[], rfl, rfl, rfl⟩
  · rintro ⟨v, rfl, h2, h3⟩
    exact ⟨p, by simp [Rx.run], by simp [h3], by simp [h2]⟩

theorem den_set {s : Set} {P : Char → Prop} (h : ∀ c, s.has c = true ↔ P c) : Den (.set s) (one P) := by
  intro p B R
  constructor
  · rintro ⟨q, hq, rfl, rfl⟩
    simp only [Rx.run] at hq
    cases hp : p.rest with
    | nil => rw [hp] at hq; simp at hq
    | cons c cs =>
      rw [hp] at hq
      simp only at hq
      by_cases hc : s.has c = true
      · rw [if_pos hc, List.mem_singleton] at hq
        subst hq
        exact ⟨[c], ⟨c, rfl, (h c).1 hc⟩, rfl, rfl⟩
      · rw [if_neg hc] at hq; simp at hq
  · rintro ⟨v, ⟨c, rfl, hc⟩, h2, h3⟩
    refine ⟨⟨c :: p.back, R, p.caps⟩, ?_, by simp [h3], rfl⟩
    simp only [Rx.run, h2, List.singleton_append]
    rw [if_pos ((h c).2 hc)]
    simp

theorem den_seq {a b : Rx} {K L : Texts} (ha : Den a K) (hb : Den b L) : Den (.seq a b) (cat K L) := by
  intro p B R
  constructor
  · rintro ⟨q, hq, rfl, rfl⟩
    simp only [Rx.run, List.mem_flatMap] at hq
    obtain ⟨o, ho, hq⟩ := hq
    obtain ⟨v, h1, h2, h3⟩ := (ha p o.back o.rest).1 ⟨o, ho, rfl, rfl⟩
    obtain ⟨w, h4, h5, h6⟩ := (hb o q.back q.rest).1 ⟨q, hq, rfl, rfl⟩
    exact ⟨v ++ w, ⟨v, w, rfl, h1, h4⟩, by rw [h2, h5]; simp, by rw [h6, h3]; simp⟩
  · rintro ⟨_, ⟨v, w, rfl, h1, h4⟩, h2, h3⟩
    obtain ⟨o, ho, h5, h6⟩ := (ha p (v.reverse ++ p.back) (w ++ R)).2 ⟨v, h1, by rw [h2]; simp, rfl⟩
    obtain ⟨q, hq, h7, h8⟩ := (hb o B R).2 ⟨w, h4, h6, by rw [h3, h5]; simp⟩
    exact ⟨q, by simp only [Rx.run, List.mem_flatMap]; exact ⟨o, ho, hq⟩, h7, h8⟩

theorem den_alt {a b : Rx} {K L : Texts} (ha : Den a K) (hb : Den b L) : Den (.alt a b) (fun s => K s ∨ L s) := by
  intro p B R
  constructor
  · rintro ⟨q, hq, rfl, rfl⟩
    simp only [Rx.run, List.mem_append] at hq
    rcases hq with hq | hq
    · obtain ⟨v, h1, h2⟩ := (ha p q.back q.rest).1 ⟨q, hq, rfl, rfl⟩
      exact ⟨v, .inl h1, h2⟩
    · obtain ⟨v, h1, h2⟩ := (hb p q.back q.rest).1 ⟨q, hq, rfl, rfl⟩
      exact ⟨v, .inr h1, h2⟩
  · rintro ⟨v, h1 | h1, h2⟩
    · obtain ⟨q, hq, h3⟩ := (ha p B R).2 ⟨v, h1, h2⟩
      exact ⟨q, by simp only [Rx.run, List.mem_append]; exact .inl hq, h3⟩
    · obtain ⟨q, hq, h3⟩ := (hb p B R).2 ⟨v, h1, h2⟩
      exact ⟨q, by simp only [Rx.run, List.mem_append]; exact .inr hq, h3⟩

theorem den_group {a : Rx} {L : Texts} (n : Nat) (ha : Den a L) : Den (.group n a) L := by
  intro p B R
  rw [← ha p B R]
  constructor
  · rintro ⟨q, hq, rfl, rfl⟩
    simp only [Rx.run, List.mem_map] at hq
    obtain ⟨o, ho, rfl⟩ := hq
    exact ⟨o, ho, rfl, rfl⟩
  · rintro ⟨q, hq, h1, h2⟩
    exact ⟨{ q with caps := (n, p.rest.take (p.rest.length - q.rest.length)) :: q.caps }, by simp only [Rx.run, List.mem_map]; exact ⟨q, hq, rfl⟩, h1, h2⟩

theorem pow_nil_of {L : Texts} : ∀ (n : Nat) {a s : Str}, L a → pow L n s → pow L (n + 1) (a ++ s) := fun _ _ s ha hs => ⟨_, s, rfl, ha, hs⟩

theorem den_star {a : Rx} {L : Texts} (ha : Den a L) : Den (.star a) (Pattern.times L fun _ => True) := by
  have key : ∀ (n : Nat) (p : Pos) (B R : Str), p.rest.length ≤ n →
      ((∃ q ∈ loop a.run n p, q.back = B ∧ q.rest = R) ↔ ∃ v, Pattern.times L (fun _ => True) v ∧ p.rest = v ++ R ∧ B = v.reverse ++ p.back) := by
    intro n
    induction n with
    | zero =>
      intro p B R hn
      have hp : p.rest = [] := by simpa using hn
      constructor
      · rintro ⟨q, hq, rfl, rfl⟩
        simp only [loop, List.mem_singleton] at hq
        subst hq
        exact ⟨[], ⟨0, trivial, rfl⟩, rfl, rfl⟩
      · rintro ⟨v, _, h2, h3⟩
        rw [hp] at h2
        have h2 := h2.symm
        simp only [List.append_eq_nil_iff] at h2
        obtain ⟨rfl, rfl⟩ := h2
        exact ⟨p, by simp [loop], by simp [h3], hp⟩
    | succ n ih =>
      intro p B R hn
      constructor
      · rintro ⟨q, hq, rfl, rfl⟩
        simp only [loop, List.mem_append, List.mem_flatMap, List.mem_filter, decide_eq_true_eq, List.mem_singleton] at hq
        rcases hq with ⟨o, ⟨ho, hlt⟩, hq⟩ | rfl
        · obtain ⟨v, h1, h2, h3⟩ := (ha p o.back o.rest).1 ⟨o, ho, rfl, rfl⟩
          obtain ⟨w, ⟨k, _, h4⟩, h5, h6⟩ := (ih o q.back q.rest (by omega)).1 ⟨q, hq, rfl, rfl⟩
          exact ⟨v ++ w, ⟨k + 1, trivial, v, w, rfl, h1, h4⟩, by rw [h2, h5]; simp, by rw [h6, h3]; simp⟩
        · exact ⟨[], ⟨0, trivial, rfl⟩, rfl, rfl⟩
      · rintro ⟨v, ⟨k, _, hk⟩, h2, h3⟩
        have hk' : v = [] ∨ ∃ x y j, x ≠ [] ∧ v = x ++ y ∧ L x ∧ pow L j y := by
          clear h2 h3
          induction k generalizing v with
          | zero => exact .inl hk
          | succ k ihk =>
            obtain ⟨x, y, rfl, hx, hy⟩ := hk
            by_cases he : x = []
            · subst he
              exact ihk y hy
            · exact .inr ⟨x, y, k, he, rfl, hx, hy⟩
        simp only [loop, List.mem_append, List.mem_flatMap, List.mem_filter, decide_eq_true_eq, List.mem_singleton]
        rcases hk' with rfl | ⟨x, y, j, hx, rfl, h4, h5⟩
        · exact ⟨p, .inr rfl, by simp [h3], by simpa using h2⟩
        · obtain ⟨o, ho, h6, h7⟩ := (ha p (x.reverse ++ p.back) (y ++ R)).2 ⟨x, h4, by rw [h2]; simp, rfl⟩
          have hlt : o.rest.length < p.rest.length := by
            have := List.length_pos_iff.2 hx
            rw [h7, h2]; simp; omega
          obtain ⟨q, hq, h8, h9⟩ := (ih o B R (by omega)).2 ⟨y, ⟨j, trivial, h5⟩, h7, by rw [h3, h6]; simp⟩
          exact ⟨q, .inl ⟨o, ⟨ho, hlt⟩, hq⟩, h8, h9⟩
  intro p B R
  exact key _ p B R (Nat.le_refl _)

theorem den_times {r : Rx} {L : Texts} (h : Den r L) : ∀ n, Den (Regex.times r n) (pow L n)
  | 0 => den_eps
  | n + 1 => den_seq h (den_times h n)

theorem den_upTo {r : Rx} {L : Texts} (h : Den r L) : ∀ n, Den (upTo r n) (Pattern.times L fun k => k ≤ n)
  | 0 => den_eps.congr fun s => ⟨fun e => ⟨0, Nat.le_refl _, e⟩, fun ⟨k, hk, e⟩ => by cases (Nat.le_zero.1 hk); exact e⟩
  | n + 1 => (den_alt (den_seq h (den_upTo h n)) den_eps).congr fun s => by
      constructor
      · rintro (⟨a, b, rfl, ha, k, hk, hb⟩ | rfl)
        · exact ⟨k + 1, Nat.succ_le_succ hk, a, b, rfl, ha, hb⟩
        · exact ⟨0, Nat.zero_le _, rfl⟩
      · rintro ⟨k, hk, e⟩
        cases k with
        | zero => exact .inr e
        | succ k =>
          obtain ⟨a, b, rfl, ha, hb⟩ := e
          exact .inl ⟨a, b, rfl, ha, k, Nat.le_of_succ_le_succ hk, hb⟩

theorem pow_add {L : Texts} : ∀ (m n : Nat) (s : Str), pow L (m + n) s ↔ cat (pow L m) (pow L n) s
  | 0, n, s => by
    rw [Nat.zero_add]
    exact ⟨fun h => ⟨[], s, rfl, rfl, h⟩, fun ⟨a, b, e, ha, hb⟩ => by cases (ha : a = []); simpa [e] using hb⟩
  | m + 1, n, s => by
    rw [show m + 1 + n = (m + n) + 1 by omega]
    constructor
    · rintro ⟨a, b, rfl, ha, hb⟩
      obtain ⟨x, y, rfl, hx, hy⟩ := (pow_add m n b).1 hb
      exact ⟨a ++ x, y, by simp, ⟨a, x, rfl, ha, hx⟩, hy⟩
    · rintro ⟨_, y, rfl, ⟨a, x, rfl, ha, hx⟩, hy⟩
      exact ⟨a, x ++ y, by simp, ha, (pow_add m n (x ++ y)).2 ⟨x, y, rfl, hx, hy⟩⟩

theorem den_counted {r : Rx} {L : Texts} (h : Den r L) {m n : Nat} (hmn : m ≤ n) :
    Den (.seq (Regex.times r m) (upTo r (n - m))) (Pattern.times L fun k => m ≤ k ∧ k ≤ n) :=
  (den_seq (den_times h m) (den_upTo h (n - m))).congr fun s => by
    constructor
    · rintro ⟨a, b, rfl, ha, k, hk, hb⟩
      exact ⟨m + k, ⟨by omega, by omega⟩, (pow_add m k _).2 ⟨a, b, rfl, ha, hb⟩⟩
    · rintro ⟨k, ⟨h1, h2⟩, e⟩
      rw [show k = m + (k - m) by omega] at e
      obtain ⟨a, b, rfl, ha, hb⟩ := (pow_add m (k - m) _).1 e
      exact ⟨a, b, rfl, ha, k - m, by omega, hb⟩

theorem den_plus {r : Rx} {L : Texts} (h : Den r L) : Den (.seq r (.star r)) (Pattern.times L fun k => 1 ≤ k) :=
  (den_seq h (den_star h)).congr fun s => by
    constructor
    · rintro ⟨a, b, rfl, ha, k, _, hb⟩
      exact ⟨k + 1, by omega, a, b, rfl, ha, hb⟩
    · rintro ⟨k, h1, e⟩
      obtain ⟨k, rfl⟩ : ∃ j, k = j + 1 := ⟨k - 1, by omega⟩
      obtain ⟨a, b, rfl, ha, hb⟩ := e
      exact ⟨a, b, rfl, ha, k, trivial, hb⟩

theorem den_opt {r : Rx} {L : Texts} (h : Den r L) : Den (.alt r .eps) (Pattern.times L fun k => k ≤ 1) :=
  (den_alt h den_eps).congr fun s => by
    constructor
    · rintro (ha | rfl)
      · exact ⟨1, Nat.le_refl _, s, [], by simp, ha, rfl⟩
      · exact ⟨0, by omega, rfl⟩
    · rintro ⟨k, h1, e⟩
      rcases (by omega : k = 0 ∨ k = 1) with rfl | rfl
      · exact .inr e
      · obtain ⟨a, b, rfl, ha, hb⟩ := e
        cases (hb : b = [])
        rw [List.append_nil]; exact .inl ha

/-- `re.sub` of an expression that does not match the empty text. -/
theorem den_sub {r : Rx} {L : Texts} (h : Den r L) (h0 : ¬ L []) (new s : Str) : Replaced L new s (r.sub (fun _ => new) s) := by
  have key : ∀ (n : Nat) (rest back : Str), rest.length ≤ n → Replaced L new rest (splice (fun _ => new) rest (r.from false ⟨back, rest, []⟩)) := by
    intro n
    induction n with
    | zero =>
      intro rest back hn
      have : rest = [] := by simpa using hn
      subst this
      rw [from_none]
      · exact .nil
      · rw [List.find?_eq_none]
        intro q hq
        obtain ⟨v, h1, h2, _⟩ := (h ⟨back, [], []⟩ q.back q.rest).1 ⟨q, hq, rfl, rfl⟩
        have h2 := h2.symm
        simp only [List.append_eq_nil_iff] at h2
        rw [h2.1] at h1
        exact absurd h1 h0
    | succ n ih =>
      intro rest back hn
      cases hf : (r.run ⟨back, rest, []⟩).find? (fun q => !false || q.rest.length < rest.length) with
      | some q =>
        obtain ⟨v, h1, h2, h3⟩ := (h ⟨back, rest, []⟩ q.back q.rest).1 ⟨q, List.mem_of_find?_eq_some hf, rfl, rfl⟩
        have := splice_some (r := r) (p := ⟨back, rest, []⟩) (q := q) (must := false) (fun _ => new) hf
        simp only at this h2
        rw [this]
        have hv : 0 < v.length := List.length_pos_iff.2 (by rintro rfl; exact h0 h1)
        have hl : (q.rest.length == rest.length) = false := by
          have := congrArg List.length h2; rw [List.length_append] at this; rw [beq_eq_false_iff_ne]; omega
        rw [hl]
        have h4 := ih q.rest q.back (by have := congrArg List.length h2; rw [List.length_append] at this; omega)
        have h5 := Replaced.found (new := new) h1 h4
        rw [← h2] at h5
        exact h5
      | none =>
        cases rest with
        | nil => rw [from_none hf]; exact .nil
        | cons c cs =>
          rw [splice_none _ hf]
          refine .keep ?_ (ih cs _ (by simpa using hn))
          intro m s' e hm
          obtain ⟨q, hq, _⟩ := (h ⟨back, c :: cs, []⟩ (m.reverse ++ back) s').2 ⟨m, hm, e, rfl⟩
          have := List.find?_eq_none.1 hf q hq
          simp at this
  simp only [Rx.sub, all_from]
  exact key _ _ _ (Nat.le_refl _)

end Gherkin.Regex
