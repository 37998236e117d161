import Verif.Proofs.PatternRun

/-! C80: the reader of the model of `re` understands the notation. -/

namespace Gherkin.Regex

open Pattern

/-- The flags without `(?ms)`. -/
def noFlags : Flags := ⟨false, false⟩

theorem alnum_word {c : Char} : isAlnum c = true ↔ word c := by
  simp only [isAlnum, word, Bool.or_eq_true, Bool.and_eq_true, decide_eq_true_eq, or_assoc]

theorem escape_not {c : Char} (h : ¬ word c) : escape c = some ⟨false, [.one c]⟩ :=
  escape_other (by rw [← alnum_word] at h; simpa using h)

theorem atom_ne {w : Str} {L : Texts} (h : Means .atom w L) : w ≠ [] := by cases h <;> simp

theorem head_append {w : Str} (x : Str) (hw : w ≠ []) {c : Char} (h : w.head? ≠ some c) : (w ++ x).head? ≠ some c := by
  cases w with
  | nil => exact absurd rfl hw
  | cons d w => exact h

theorem means_head {lvl : Level} {w : Str} {L : Texts} (h : Means lvl w L) : w.head? ≠ some '?' := by
  induction h with
  | char hc => intro h; simp at h; subst h; exact hc (by decide)
  | @next v w K L _ _ h1 h2 =>
    cases v with
    | nil => exact h2
    | cons c v => exact h1
  | @either v w K L _ _ h1 h2 =>
    cases v with
    | nil => simp
    | cons c v => exact h1
  | once _ h => exact h
  | only _ h => exact h
  | nothing => simp
  | star hw h => exact head_append _ (atom_ne hw) h
  | plus hw h => exact head_append _ (atom_ne hw) h
  | opt hw h => exact head_append _ (atom_ne hw) h
  | counted hw _ _ _ h => exact head_append _ (by simp) (head_append _ (by simp) (head_append _ (atom_ne hw) h))
  | _ => simp

/-! ### Classes -/

theorem class_ne {w : Str} {P : Char → Prop} (h : Class w P) : w ≠ [] := by
  induction h with
  | more _ _ h _ => intro e; simp only [List.append_eq_nil_iff] at e; exact h e.1
  | _ => simp

theorem class_head {w : Str} {P : Char → Prop} (h : Class w P) : w.head? ≠ some '^' := by
  induction h with
  | char hc => intro h; simp at h; subst h; exact hc (by decide)
  | range ha => intro h; simp at h; subst h; exact ha (by decide)
  | more h1 _ h _ => exact head_append _ (class_ne h1) h
  | _ => simp

theorem stepCls_char (st : State) (neg first : Bool) (items : List Item) (lo : Option Char) {c : Char} (hc : c ∉ classSpecial) :
    stepCls st neg first items lo false c = some { st with mode := .cls neg false (flush items lo) (some c) false } := by
  simp only [classSpecial, List.mem_cons, List.not_mem_nil, or_false, not_or] at hc
  obtain ⟨h1, h2, h3, h4, h5⟩ := hc
  unfold stepCls
  rw [if_neg (by simp [h2]), if_neg h4]
  cases lo with
  | none => rfl
  | some a => simp only; rw [if_neg h5]

theorem class_steps {w : Str} {P : Char → Prop} (h : Class w P) : ∀ (st : State) (neg first : Bool) (items : List Item) (lo : Option Char),
    ∃ items' lo' js, steps noFlags { st with mode := .cls neg first items lo false } w = some { st with mode := .cls neg false items' lo' false } ∧
      flush items' lo' = flush items lo ++ js ∧ ∀ c, (js.any fun i => i.has c) = true ↔ P c := by
  induction h with
  | @char d hd =>
    intro st neg first items lo
    refine ⟨flush items lo, some d, [.one d], ?_, rfl, fun c => by simp [Item.has]⟩
    simp only [steps, step, stepCls_char _ _ _ _ _ hd]
  | @range a b ha hb hab =>
    intro st neg first items lo
    refine ⟨flush items lo ++ [.range a b], none, [.range a b], ?_, rfl, fun c => by simp [Item.has]⟩
    have hb' := hb
    simp only [classSpecial, List.mem_cons, List.not_mem_nil, or_false, not_or] at hb'
    obtain ⟨_, h2, _, h4, _⟩ := hb'
    simp only [steps, step, stepCls_char _ _ _ _ _ ha]
    simp only [stepCls]
    simp [h2, h4, hab]
  | space =>
    intro st neg first items lo
    exact ⟨flush items lo ++ [.space], none, [.space], rfl, rfl, fun c => by simp [Item.has]⟩
  | nonSpace =>
    intro st neg first items lo
    exact ⟨flush items lo ++ [.nonSpace], none, [.nonSpace], rfl, rfl, fun c => by simp [Item.has]⟩
  | newline =>
    intro st neg first items lo
    exact ⟨flush items lo, some '\n', [.one '\n'], by cases lo <;> rfl, rfl, fun c => by simp [Item.has]⟩
  | @escaped d hd =>
    intro st neg first items lo
    refine ⟨flush items lo, some d, [.one d], ?_, rfl, fun c => by simp [Item.has]⟩
    simp only [steps, step]
    rw [show stepCls { st with mode := .cls neg first items lo false } neg first items lo false '\\' = some { st with mode := .clsEsc neg items lo false } from rfl]
    simp only [stepClsEsc, escape_not hd]
  | more _ _ ih1 ih2 =>
    intro st neg first items lo
    obtain ⟨i1, l1, j1, h1, h2, h3⟩ := ih1 st neg first items lo
    obtain ⟨i2, l2, j2, h4, h5, h6⟩ := ih2 st neg false i1 l1
    refine ⟨i2, l2, j1 ++ j2, ?_, by rw [h5, h2]; simp, fun c => ?_⟩
    · rw [steps_append, h1, Option.bind_some, h4]
    · rw [List.any_append, Bool.or_eq_true, h3, h6]

theorem class_read {w : Str} {P : Char → Prop} (h : Class w P) (st : State) (neg : Bool) :
    ∃ s : Set, steps noFlags { st with mode := .cls neg true [] none false } (w ++ [']']) = some (st.push (.set s)) ∧
      ∀ c, s.has c = true ↔ if neg then ¬ P c else P c := by
  obtain ⟨items, lo, js, h1, h2, h3⟩ := class_steps h st neg true [] none
  refine ⟨⟨neg, flush items lo⟩, ?_, fun c => ?_⟩
  · rw [steps_append, h1]
    rfl
  · have hfl : flush items lo = js := h2
    simp only [Set.has, hfl]
    have := h3 c
    cases neg
    · simpa using this
    · simp only [Bool.true_xor, Bool.not_eq_true', if_true]
      rw [← this, Bool.not_eq_true]

/-! ### Digits -/

theorem digits_min (m : Option Nat) : ∀ (ds : Str), (∀ c ∈ ds, '0' ≤ c ∧ c ≤ '9') → ∀ (st : State), ds ≠ [] →
    steps noFlags { st with mode := .braceMin m } ds = some { st with mode := .braceMin (some (ds.foldl (fun n c => n * 10 + (c.toNat - '0'.toNat)) (m.getD 0))) }
  | [], _, _, h => absurd rfl h
  | [d], hd, st, _ => by
    simp only [steps, step]
    rw [if_pos (hd d (by simp))]
    rfl
  | d :: e :: ds, hd, st, _ => by
    rw [steps]
    simp only [step]
    rw [if_pos (hd d (by simp))]
    exact digits_min (some (digit m d)) (e :: ds) (fun c hc => hd c (List.mem_cons_of_mem _ hc)) st (by simp)

theorem digits_max (k : Nat) (m : Option Nat) : ∀ (ds : Str), (∀ c ∈ ds, '0' ≤ c ∧ c ≤ '9') → ∀ (st : State), ds ≠ [] →
    steps noFlags { st with mode := .braceMax k m } ds = some { st with mode := .braceMax k (some (ds.foldl (fun n c => n * 10 + (c.toNat - '0'.toNat)) (m.getD 0))) }
  | [], _, _, h => absurd rfl h
  | [d], hd, st, _ => by
    simp only [steps, step]
    rw [if_pos (hd d (by simp))]
    rfl
  | d :: e :: ds, hd, st, _ => by
    rw [steps]
    simp only [step]
    rw [if_pos (hd d (by simp))]
    exact digits_max k (some (digit m d)) (e :: ds) (fun c hc => hd c (List.mem_cons_of_mem _ hc)) st (by simp)

/-! ### Reading -/

/-- Reading a piece of notation between items. -/
def ReadOk : Level → Str → Texts → Prop
  | .atom, w, L => ∀ st : State, st.mode = .norm → ∃ st' r, steps noFlags st w = some st' ∧ st'.mode = .norm ∧ st'.outer = st.outer ∧ st'.cur = st.cur.push r ∧ Den r L
  | .piece, w, L => ∀ st : State, st.mode = .norm → ∃ st' r b, steps noFlags st w = some st' ∧ st'.mode = .norm ∧ st'.outer = st.outer ∧
      st'.cur = { st.cur.push r with last := some (r, b) } ∧ Den r L
  | .seq, w, L => ∀ (st : State) (K : Texts), st.mode = .norm → Den st.cur.cur K → ∃ st', steps noFlags st w = some st' ∧ st'.mode = .norm ∧ st'.outer = st.outer ∧
      st'.cur.num = st.cur.num ∧ st'.cur.alts = st.cur.alts ∧ Den st'.cur.cur (cat K L)
  | .alt, w, L => ∀ st : State, st.mode = .norm → st.cur.alts = none → st.cur.cur = .eps → ∃ st', steps noFlags st w = some st' ∧ st'.mode = .norm ∧
      st'.outer = st.outer ∧ st'.cur.num = st.cur.num ∧ Den st'.cur.body L

theorem den_lit (c : Char) : Den (lit c) (· = [c]) :=
  (den_set (P := (· = c)) fun d => by simp [Set.has, Item.has]).congr fun s =>
    ⟨fun ⟨d, h, e⟩ => by rw [h, e], fun h => ⟨c, h, rfl⟩⟩

theorem cat_eps (L : Texts) (s : Str) : cat (· = []) L s ↔ L s :=
  ⟨fun ⟨a, b, e, ha, hb⟩ => by cases (ha : a = []); simpa [e] using hb, fun h => ⟨[], s, rfl, rfl, h⟩⟩

theorem open_steps (st : State) {w : Str} (hw : w ≠ []) (hh : w.head? ≠ some '?') :
    steps noFlags { st with mode := .opened } w = steps noFlags { st with mode := .opened }.open w := by
  cases w with
  | nil => exact absurd rfl hw
  | cons c w =>
    have hc : c ≠ '?' := by intro e; subst e; exact hh rfl
    simp only [steps]
    congr 1
    simp only [step]
    rw [if_neg hc]
    rfl

theorem repeat_ok (st : State) (r : Rx) (f : Rx → Rx) (st1 : State) (h1 : st1.outer = st.outer) (h2 : st1.cur = st.cur.push r) :
    ∃ st', st1.repeat f = some st' ∧ st'.mode = .norm ∧ st'.outer = st.outer ∧ st'.cur = { st.cur.push (f r) with last := some (f r, false) } := by
  refine ⟨{ st1 with cur := { st1.cur with last := some (f r, false) }, mode := .norm }, ?_, rfl, h1, ?_⟩
  · simp only [State.repeat, h2, Frame.push]
  · simp only [h2, Frame.push]

theorem repeat_steps {w : Str} {L M : Texts} (ih : ReadOk .atom w L) (c : Char) (f : Rx → Rx)
    (hc : ∀ st : State, st.mode = .norm → step noFlags st c = st.repeat f) (hf : ∀ r, Den r L → Den (f r) M) : ReadOk .piece (w ++ [c]) M := by
  intro st hm
  obtain ⟨st1, r, h1, h2, h3, h4, h5⟩ := ih st hm
  obtain ⟨st', h6, h7, h8, h9⟩ := repeat_ok st r f st1 h3 h4
  refine ⟨st', f r, false, ?_, h7, h8, h9, hf r h5⟩
  rw [steps_append, h1, Option.bind_some, steps, hc st1 h2, h6]
  rfl

theorem means_read {lvl : Level} {w : Str} {L : Texts} (h : Means lvl w L) : ReadOk lvl w L := by
  induction h with
  | @char c hc =>
    intro st hm
    refine ⟨st.push (lit c), lit c, ?_, rfl, rfl, rfl, den_lit c⟩
    rw [steps, step_plain noFlags st hm (by simpa [Pickles.isMeta, special] using hc)]
    rfl
  | @escaped c hc =>
    intro st hm
    refine ⟨st.push (lit c), lit c, ?_, rfl, rfl, rfl, den_lit c⟩
    rw [steps, show step noFlags st '\\' = some { st with mode := .esc } by simp [step, hm, stepNorm]]
    simp only [steps, step, escape_not hc]
    rfl
  | newline =>
    intro st hm
    refine ⟨st.push (lit '\n'), lit '\n', ?_, rfl, rfl, rfl, den_lit _⟩
    rw [steps, show step noFlags st '\\' = some { st with mode := .esc } by simp [step, hm, stepNorm]]
    rfl
  | space =>
    intro st hm
    refine ⟨st.push (.set ⟨false, [.space]⟩), _, ?_, rfl, rfl, rfl, den_set fun c => by simp [Set.has, Item.has]⟩
    rw [steps, show step noFlags st '\\' = some { st with mode := .esc } by simp [step, hm, stepNorm]]
    rfl
  | nonSpace =>
    intro st hm
    refine ⟨st.push (.set ⟨false, [.nonSpace]⟩), _, ?_, rfl, rfl, rfl, den_set fun c => by simp [Set.has, Item.has]⟩
    rw [steps, show step noFlags st '\\' = some { st with mode := .esc } by simp [step, hm, stepNorm]]
    rfl
  | dot =>
    intro st hm
    refine ⟨st.push (.set ⟨true, [.one '\n']⟩), _, ?_, rfl, rfl, rfl, den_set fun c => by simp [Set.has, Item.has]⟩
    rw [steps, show step noFlags st '.' = some (st.push (.set ⟨true, [.one '\n']⟩)) by simp [step, hm, stepNorm, noFlags]]
    rfl
  | @cls w P hw =>
    intro st hm
    obtain ⟨s, h1, h2⟩ := class_read hw st false
    refine ⟨st.push (.set s), .set s, ?_, rfl, rfl, rfl, den_set (by simpa using h2)⟩
    rw [List.cons_append, steps, show step noFlags st '[' = some { st with mode := .cls0 } by simp [step, hm, stepNorm]]
    rw [← h1]
    cases w with
    | nil => exact absurd rfl (class_ne hw)
    | cons c w =>
      have hc : c ≠ '^' := by intro e; subst e; exact class_head hw rfl
      simp only [List.cons_append, steps]
      congr 1
      simp only [step]
      rw [if_neg hc]
      rfl
  | @notCls w P hw =>
    intro st hm
    obtain ⟨s, h1, h2⟩ := class_read hw st true
    refine ⟨st.push (.set s), .set s, ?_, rfl, rfl, rfl, den_set (by simpa using h2)⟩
    rw [List.cons_append, steps, show step noFlags st '[' = some { st with mode := .cls0 } by simp [step, hm, stepNorm]]
    rw [← h1]
    rfl
  | @group w L hw ih =>
    intro st hm
    obtain ⟨st1, h1, h2, h3, h4, h5⟩ := ih { st with mode := .opened }.open rfl rfl rfl
    refine ⟨{ st1 with outer := st.outer, cur := st.cur.push st1.cur.close, mode := .norm }, st1.cur.close, ?_, rfl, rfl, rfl, ?_⟩
    · rw [List.cons_append, steps, show step noFlags st '(' = some { st with mode := .opened } by simp [step, hm, stepNorm]]
      simp only
      rw [open_steps st (by simp) (by
        cases w with
        | nil => simp
        | cons c w => exact head_append _ (by simp) (means_head hw)), steps_append, h1]
      simp only [Option.bind_some, steps, step, h2, stepNorm, h3]
      rfl
    · rw [Frame.close, h4]
      exact den_group _ h5
  | @plainGroup w L hw ih =>
    intro st hm
    obtain ⟨st1, h1, h2, h3, h4, h5⟩ := ih { st with outer := st.cur :: st.outer, cur := Frame.new none, mode := .norm } rfl rfl rfl
    refine ⟨{ st1 with outer := st.outer, cur := st.cur.push st1.cur.close, mode := .norm }, st1.cur.close, ?_, rfl, rfl, rfl, ?_⟩
    · rw [List.append_assoc, steps_append]
      rw [show steps noFlags st py"(?:" = some { st with outer := st.cur :: st.outer, cur := Frame.new none, mode := .norm } by
        simp [steps, step, hm, stepNorm]]
      rw [Option.bind_some, steps_append, h1]
      simp only [Option.bind_some, steps, step, h2, stepNorm, h3]
      rfl
    · rw [Frame.close, h4]
      exact h5
  | once _ ih =>
    intro st hm
    obtain ⟨st1, r, h1, h2, h3, h4, h5⟩ := ih st hm
    exact ⟨st1, r, true, h1, h2, h3, h4, h5⟩
  | star _ ih => exact repeat_steps ih '*' .star (fun st hm => by simp [step, hm, stepNorm]) fun r h => den_star h
  | plus _ ih => exact repeat_steps ih '+' (fun r => .seq r (.star r)) (fun st hm => by simp [step, hm, stepNorm]) fun r h => den_plus h
  | opt _ ih => exact repeat_steps ih '?' (fun r => .alt r .eps) (fun st hm => by simp [step, hm, stepNorm]) fun r h => den_opt h
  | @counted w L ds es _ hds hes hle ih =>
    intro st hm
    obtain ⟨st1, r, h1, h2, h3, h4, h5⟩ := ih st hm
    obtain ⟨st', h6, h7, h8, h9⟩ := repeat_ok st r (fun r => .seq (Regex.times r (number ds)) (upTo r (number es - number ds)))
      { st1 with mode := .braceMax (number ds) (some (number es)) } h3 h4
    refine ⟨st', _, false, ?_, h7, h8, h9, den_counted h5 hle⟩
    rw [show w ++ '{' :: ds ++ ',' :: es ++ ['}'] = w ++ ('{' :: (ds ++ (',' :: (es ++ ['}'])))) by simp]
    rw [steps_append, h1, Option.bind_some, steps, show step noFlags st1 '{' = some { st1 with mode := .braceMin none } by simp [step, h2, stepNorm]]
    simp only
    rw [steps_append, digits_min none ds hds.2 st1 hds.1, Option.bind_some, steps]
    rw [show step noFlags { st1 with mode := .braceMin (some (ds.foldl (fun n c => n * 10 + (c.toNat - '0'.toNat)) ((none : Option Nat).getD 0))) } ',' =
      some { st1 with mode := .braceMax (number ds) none } from rfl]
    simp only
    rw [steps_append, digits_max _ none es hes.2 st1 hes.1, Option.bind_some, steps]
    rw [show step noFlags { st1 with mode := .braceMax (number ds) (some (es.foldl (fun n c => n * 10 + (c.toNat - '0'.toNat)) ((none : Option Nat).getD 0))) } '}' =
      some st' from ?_]
    · rfl
    · simp only [step]
      rw [if_neg (by decide), if_pos ⟨trivial, hle⟩]
      exact h6
  | nothing =>
    intro st K hm hK
    exact ⟨st, rfl, hm, rfl, rfl, rfl, hK.congr fun s => ⟨fun h => ⟨s, [], by simp, h, rfl⟩, fun ⟨a, b, e, ha, hb⟩ => by
      cases (hb : b = []); simpa [e] using ha⟩⟩
  | next _ _ ih1 ih2 =>
    intro st K hm hK
    obtain ⟨st1, h1, h2, h3, h4, h5, h6⟩ := ih1 st K hm hK
    obtain ⟨st2, r, b, g1, g2, g3, g4, g5⟩ := ih2 st1 h2
    refine ⟨st2, by rw [steps_append, h1, Option.bind_some, g1], g2, by rw [g3, h3], by rw [g4]; exact h4, by rw [g4]; exact h5, ?_⟩
    rw [g4]
    refine (den_seq h6 g5).congr fun s => ?_
    constructor
    · rintro ⟨_, c, rfl, ⟨a, b, rfl, ha, hb⟩, hc⟩
      exact ⟨a, b ++ c, by simp, ha, b, c, rfl, hb, hc⟩
    · rintro ⟨a, _, rfl, ha, b, c, rfl, hb, hc⟩
      exact ⟨a ++ b, c, by simp, ⟨a, b, rfl, ha, hb⟩, hc⟩
  | only _ ih =>
    intro st hm ha hc
    obtain ⟨st1, h1, h2, h3, h4, h5, h6⟩ := ih st _ hm (by rw [hc]; exact den_eps)
    refine ⟨st1, h1, h2, h3, h4, ?_⟩
    rw [Frame.body, h5, ha]
    exact h6.congr (cat_eps _)
  | either _ _ ih1 ih2 =>
    intro st hm ha hc
    obtain ⟨st1, h1, h2, h3, h4, h5⟩ := ih1 st hm ha hc
    obtain ⟨st2, g1, g2, g3, g4, g5, g6⟩ := ih2 { st1 with cur := { st1.cur with alts := some st1.cur.body, pre := .eps, last := none }, mode := .norm } _ rfl den_eps
    refine ⟨st2, ?_, g2, by rw [g3]; exact h3, by rw [g4]; exact h4, ?_⟩
    · rw [steps_append, h1, Option.bind_some, steps]
      rw [show step noFlags st1 '|' = some { st1 with cur := { st1.cur with alts := some st1.cur.body, pre := .eps, last := none }, mode := .norm } by
        simp [step, h2, stepNorm]]
      exact g1
    · rw [Frame.body, g5]
      exact den_alt h5 (g6.congr (cat_eps _))

/-- A pattern is read, and stands for its texts. -/
theorem read_means {w : Str} {L : Texts} (h : Means .alt w L) (hw : startsWith w py"(?ms)" = false) : ∃ r, read w = some r ∧ Den r L := by
  obtain ⟨st, h1, h2, h3, h4, h5⟩ := means_read h State.init rfl rfl rfl
  refine ⟨st.cur.body, ?_, h5⟩
  simp only [read, hw]
  have : State.finish st = some st.cur.body := by
    have ho : st.outer = [] := h3
    have hn : st.cur.num = none := h4
    simp only [State.finish, ho, h2, Frame.close, hn]
  have h1' : steps ⟨false, false⟩ State.init w = some st := h1
  simp only [Bool.false_eq_true, if_false, h1', Option.bind_some, this]

end Gherkin.Regex
