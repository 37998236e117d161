import Verif.Proofs.Glob

/-! How `re` reads the expression of a glob pattern. -/

namespace Gherkin.Glob

open Regex (Rx Frame State Mode steps step stepNorm stepCls stepClsEsc lit flush Flags)

/-! ### Forgetting groups -/

def toRe : Rx → Re
  | .eps => .eps
  | .set s => .set s.has
  | .seq a b => .seq (toRe a) (toRe b)
  | .alt a b => .alt (toRe a) (toRe b)
  | .star a => .star (toRe a)
  | .bol m => .bol m
  | .eol m => .eol m
  | .group _ a => toRe a

def forget (p : Regex.Pos) : Pos := ⟨p.back.head?, p.rest⟩

theorem loop_forget {f : Regex.Pos → List Regex.Pos} {g : Pos → List Pos} (h : ∀ p q, q ∈ g (forget p) ↔ ∃ x ∈ f p, forget x = q) :
    ∀ (n : Nat) (p : Regex.Pos) (q : Pos), q ∈ starEnds g n (forget p) ↔ ∃ x ∈ Regex.loop f n p, forget x = q := by
  intro n
  induction n with
  | zero => intro p q; simp [starEnds, Regex.loop, eq_comm]
  | succ n ih =>
    intro p q
    simp only [starEnds, Regex.loop, List.mem_cons, List.mem_flatMap, List.mem_filter, List.mem_append, List.not_mem_nil, or_false, decide_eq_true_eq]
    constructor
    · rintro (rfl | ⟨y, ⟨hy, hl⟩, hq⟩)
      · exact ⟨p, .inr rfl, rfl⟩
      · obtain ⟨x, hx, rfl⟩ := (h p y).1 hy
        obtain ⟨z, hz, hzq⟩ := (ih x q).1 hq
        exact ⟨z, .inl ⟨x, ⟨hx, hl⟩, hz⟩, hzq⟩
    · rintro ⟨z, ⟨x, ⟨hx, hl⟩, hz⟩ | rfl, rfl⟩
      · exact .inr ⟨forget x, ⟨(h p _).2 ⟨x, hx, rfl⟩, hl⟩, (ih x _).2 ⟨z, hz, rfl⟩⟩
      · exact .inl rfl

theorem run_forget : ∀ (r : Rx) (p : Regex.Pos) (q : Pos), q ∈ (toRe r).ends (forget p) ↔ ∃ x ∈ r.run p, forget x = q := by
  intro r
  induction r with
  | eps => intro p q; simp [toRe, Re.ends, Rx.run, eq_comm]
  | set s =>
    intro p q
    simp only [toRe, Re.ends, Rx.run, forget]
    cases p.rest with
    | nil => simp
    | cons c cs => simp only; split <;> simp [eq_comm]
  | seq a b iha ihb =>
    intro p q
    simp only [toRe, Re.ends, Rx.run, List.mem_flatMap]
    constructor
    · rintro ⟨y, hy, hq⟩
      obtain ⟨x, hx, rfl⟩ := (iha p y).1 hy
      obtain ⟨z, hz, hzq⟩ := (ihb x q).1 hq
      exact ⟨z, ⟨x, hx, hz⟩, hzq⟩
    · rintro ⟨z, ⟨x, hx, hz⟩, rfl⟩
      exact ⟨forget x, (iha p _).2 ⟨x, hx, rfl⟩, (ihb x _).2 ⟨z, hz, rfl⟩⟩
  | alt a b iha ihb =>
    intro p q
    simp only [toRe, Re.ends, Rx.run, List.mem_append, iha, ihb]
    constructor
    · rintro (⟨x, hx, h⟩ | ⟨x, hx, h⟩)
      · exact ⟨x, .inl hx, h⟩
      · exact ⟨x, .inr hx, h⟩
    · rintro ⟨x, hx | hx, h⟩
      · exact .inl ⟨x, hx, h⟩
      · exact .inr ⟨x, hx, h⟩
  | star a ih => intro p q; exact loop_forget ih _ p q
  | bol m =>
    intro p q
    simp only [toRe, Re.ends, Rx.run, forget, List.head?_eq_none_iff]
    split <;> simp [eq_comm]
  | eol m =>
    intro p q
    simp only [toRe, Re.ends, Rx.run, forget]
    split <;> simp [eq_comm]
  | group n a ih =>
    intro p q
    simp only [toRe, Rx.run, List.mem_map]
    rw [ih]
    constructor
    · rintro ⟨x, hx, rfl⟩; exact ⟨_, ⟨x, hx, rfl⟩, rfl⟩
    · rintro ⟨_, ⟨x, hx, rfl⟩, rfl⟩; exact ⟨x, hx, rfl⟩

theorem fullmatch_forget (r : Rx) (s : Str) : r.fullmatch s = true ↔ ∃ q, q ∈ (toRe r).ends ⟨none, s⟩ ∧ q.rest = [] := by
  unfold Rx.fullmatch
  rw [List.any_eq_true]
  constructor
  · rintro ⟨x, hx, h⟩
    exact ⟨forget x, (run_forget r (Regex.start s) _).2 ⟨x, hx, rfl⟩, by simpa [forget] using h⟩
  · rintro ⟨q, hq, h⟩
    obtain ⟨x, hx, rfl⟩ := (run_forget r (Regex.start s) q).1 hq
    exact ⟨x, hx, by simpa [forget] using h⟩

/-! ### The pieces of a pattern -/

theorem pieces_prev (prev prev' : Option Char) (grp : Bool) (s : Str) (h : s.head? ≠ some '*') :
    pieces prev grp 0 s = pieces prev' grp 0 s := by
  cases s with
  | nil => rfl
  | cons c cs =>
    have : c ≠ '*' := by simpa using h
    simp [pieces, this]

theorem pieces_star (prev : Option Char) (grp : Bool) (s : Str) (h : s.head? ≠ some '*') :
    pieces prev grp 0 ('*' :: s) = .seg :: pieces (some '*') grp 0 s := by
  rw [pieces_prev (some '*') prev _ _ h]
  cases s with
  | nil => rfl
  | cons c cs =>
    have : c ≠ '*' := by simpa using h
    simp [pieces, this, isGlobstar]

theorem piece_char {grp : Bool} {c : Char} (hc : plain c = true) (hg : grp = false ∨ c ≠ ',') :
    ((piece grp c).1 = .esc c ∨ (piece grp c).1 = .lit c) ∧ (piece grp c).2 = grp := by
  have h := hc
  simp only [plain, List.mem_cons, List.not_mem_nil, or_false, not_or, decide_eq_true_eq] at h
  obtain ⟨h1, h2, h3, h4, h5, h6⟩ := h
  by_cases h7 : c ∈ py"\\/$^+.()=!|"
  · unfold piece; rw [if_pos h7]; exact ⟨.inl rfl, rfl⟩
  · have h8 : ¬ c ∈ py"[]" := by simp [h3, h4]
    unfold piece
    rw [if_neg h7, if_neg h1, if_neg h8, if_neg h5, if_neg h6]
    by_cases hcm : c = ','
    · rw [if_pos hcm]
      rcases hg with hg | hg
      · subst hg; exact ⟨.inl rfl, rfl⟩
      · exact absurd hcm hg
    · rw [if_neg hcm]; exact ⟨.inr rfl, rfl⟩


/-- The flags of the expression. -/
def flags : Flags := ⟨true, true⟩

/-- The rest of the expression. -/
def rest (prev : Option Char) (grp : Bool) (s : Str) : Str := (pieces prev grp 0 s).flatMap Piece.text

/-- The reader has read one more item. -/
structure Next (st : State) (r : Re) (st' : State) : Prop where
  mode : st'.mode = .norm
  outer : st'.outer = st.outer
  num : st'.cur.num = st.cur.num
  alts : st'.cur.alts = st.cur.alts
  ends : (toRe st'.cur.cur).ends = (Re.seq (toRe st.cur.cur) r).ends

theorem next_push (st : State) (x : Rx) (r : Re) (h : (toRe x).ends = r.ends) : Next st r (st.push x) := by
  refine ⟨rfl, rfl, rfl, rfl, ?_⟩
  show (Re.seq (toRe st.cur.cur) (toRe x)).ends = _
  funext p
  simp only [Re.ends, h]

theorem next_push' (st : State) (x : Rx) (n : Nat) (r : Re) (h : (toRe x).ends = r.ends) :
    Next st r { outer := st.outer, cur := st.cur.push x, groups := n, mode := .norm } := by
  refine ⟨rfl, rfl, rfl, rfl, ?_⟩
  show (Re.seq (toRe st.cur.cur) (toRe x)).ends = _
  funext p
  simp only [Re.ends, h]

/-- A character that stands for itself, escaped or not. -/
inductive Stands (c : Char) : Str → Prop
  | plain : Pickles.isMeta c = false → Stands c [c]
  | esc : Regex.isAlnum c = false → Stands c ['\\', c]

theorem rest_char {c : Char} (hc : plain c = true) {grp : Bool} (hg : grp = false ∨ c ≠ ',') (prev : Option Char) (s : Str) :
    ∃ w, Stands c w ∧ rest prev grp (c :: s) = w ++ rest (some c) grp s := by
  have h2 : c ≠ '*' := by rintro rfl; simp [plain] at hc
  obtain ⟨h, h'⟩ := piece_char hc hg
  unfold rest
  simp only [pieces, h2, if_false, if_true]
  rw [h', List.flatMap_cons]
  refine ⟨(piece grp c).1.text, ?_, rfl⟩
  have hcc := hc
  simp only [plain, List.mem_cons, List.not_mem_nil, or_false, not_or, decide_eq_true_eq] at hcc
  obtain ⟨h1, _, h3, h4, h5, h6⟩ := hcc
  by_cases h7 : c ∈ py"\\/$^+.()=!|"
  · have : (piece grp c).1 = .esc c := by unfold piece; rw [if_pos h7]
    rw [this]
    refine .esc ?_
    simp only [List.mem_cons, List.not_mem_nil, or_false] at h7
    rcases h7 with rfl | rfl | rfl | rfl | rfl | rfl | rfl | rfl | rfl | rfl | rfl <;> decide
  · have h8 : ¬ c ∈ py"[]" := by simp [h3, h4]
    have hp : (piece grp c).1 = if c = ',' then (if grp then .bar else .esc c) else .lit c := by
      unfold piece
      rw [if_neg h7, if_neg h1, if_neg h8, if_neg h5, if_neg h6]
      split <;> rfl
    rw [hp]
    by_cases hcm : c = ','
    · rw [if_pos hcm]
      rcases hg with hg | hg
      · subst hg; subst hcm; exact .esc (by decide)
      · exact absurd hcm hg
    · rw [if_neg hcm]
      refine .plain ?_
      simp only [List.mem_cons, List.not_mem_nil, or_false, not_or] at h7
      simp [Pickles.isMeta, h1, h2, h3, h4, h5, h6, h7]

theorem step_stands (st : State) (hm : st.mode = .norm) {c : Char} {w : Str} (h : Stands c w) (t : Str) : steps flags st (w ++ t) = steps flags (st.push (lit c)) t := by
  cases h with
  | plain h => simp [steps, Regex.step_plain flags st hm h]
  | esc h =>
    have e1 : step flags st '\\' = some { st with mode := .esc } := by simp [step, hm, stepNorm]
    have e2 : step flags { st with mode := .esc } c = some (st.push (lit c)) := by
      simp [step, Regex.escape_other h, State.push, lit]
    simp [steps, e1, e2]

/-! ### Classes -/

/-- The reader is inside a class and has read these items. -/
def InClass (m : Mode) (items : List Regex.Item) : Prop :=
  (m = .cls0 ∧ items = []) ∨ ∃ I L, m = .cls false false I L false ∧ flush I L = items

theorem meta_class {c : Char} (h : Pickles.isMeta c = false) : c ≠ ']' ∧ c ≠ '\\' ∧ c ≠ '^' := by
  refine ⟨?_, ?_, ?_⟩ <;> (rintro rfl; revert h; decide)

/-- A single character of a class. -/
theorem class_char (st : State) {items : List Regex.Item} (hm : InClass st.mode items) {c : Char} {w : Str} (h : Stands c w) (hc : c ≠ '-') (t : Str) :
    steps flags st (w ++ t) = steps flags { st with mode := .cls false false items (some c) false } t := by
  obtain ⟨o, cu, g, m⟩ := st
  simp only at hm
  cases h with
  | plain h =>
    obtain ⟨h1, h2, h3⟩ := meta_class h
    rcases hm with ⟨rfl, rfl⟩ | ⟨I, L, rfl, hI⟩
    · simp [steps, step, stepCls, h1, h2, h3]
    · cases L with
      | none => simp only [flush] at hI; subst hI; simp [steps, step, stepCls, h1, h2]
      | some a => simp only [flush] at hI; subst hI; simp [steps, step, stepCls, h1, h2, hc, flush]
  | esc h =>
    have he := Regex.escape_other h
    rcases hm with ⟨rfl, rfl⟩ | ⟨I, L, rfl, hI⟩
    · simp [steps, step, stepCls, stepClsEsc, he, flush]
    · cases L with
      | none => simp only [flush] at hI; subst hI; simp [steps, step, stepCls, stepClsEsc, he, flush]
      | some a => simp only [flush] at hI; subst hI; simp [steps, step, stepCls, stepClsEsc, he, flush]

theorem class_dash (st : State) {I : List Regex.Item} {a : Char} (hm : st.mode = .cls false false I (some a) false) (t : Str) :
    steps flags st ('-' :: t) = steps flags { st with mode := .cls false false I (some a) true } t := by
  obtain ⟨o, cu, g, m⟩ := st
  simp only at hm
  subst hm
  simp [steps, step, stepCls]

theorem class_upper (st : State) {I : List Regex.Item} {a b : Char} (hm : st.mode = .cls false false I (some a) true) {w : Str} (h : Stands b w) (hab : a ≤ b) (t : Str) :
    steps flags st (w ++ t) = steps flags { st with mode := .cls false false (I ++ [.range a b]) none false } t := by
  obtain ⟨o, cu, g, m⟩ := st
  simp only at hm
  subst hm
  cases h with
  | plain h =>
    obtain ⟨h1, h2, h3⟩ := meta_class h
    simp [steps, step, stepCls, h1, h2, hab]
  | esc h => simp [steps, step, stepCls, stepClsEsc, Regex.escape_other h, hab]

theorem rest_dash (prev : Option Char) (grp : Bool) (s : Str) : rest prev grp ('-' :: s) = '-' :: rest (some '-') grp s := by
  simp [rest, pieces, piece, Piece.text]

/-- The items of a class. -/
theorem class_items : ∀ (items : List ClassItem), (∀ i ∈ items, i.Ok) → ∀ (st : State) (acc : List Regex.Item), InClass st.mode acc →
    ∀ (prev : Option Char) (grp : Bool) (s t : Str), ∃ (m : Mode) (prev' : Option Char), InClass m (acc ++ items.map ClassItem.item) ∧ (items ≠ [] → m ≠ .cls0) ∧
      steps flags st (rest prev grp (items.flatMap ClassItem.write ++ ']' :: s) ++ t) = steps flags { st with mode := m } (rest prev' grp (']' :: s) ++ t) := by
  intro items
  induction items with
  | nil =>
    intro _ st acc hm prev grp s t
    exact ⟨st.mode, prev, by simpa using hm, fun h => absurd rfl h, rfl⟩
  | cons i items ih =>
    intro hok st acc hm prev grp s t
    have hi := hok i (by simp)
    have hrest := fun j hj => hok j (List.mem_cons_of_mem i hj)
    cases i with
    | char c =>
      obtain ⟨h1, h2, h3⟩ := hi
      obtain ⟨w, hw, he⟩ := rest_char h1 (grp := grp) (.inr h2) prev (items.flatMap ClassItem.write ++ ']' :: s)
      obtain ⟨m, prev', k1, k2, k3⟩ := ih hrest { st with mode := .cls false false acc (some c) false } (acc ++ [.one c]) (.inr ⟨_, _, rfl, rfl⟩) (some c) grp s t
      refine ⟨m, prev', by simpa [ClassItem.item] using k1, fun _ => ?_, ?_⟩
      · by_cases hn : items = []
        · subst hn
          rintro rfl
          rcases k1 with ⟨_, h⟩ | ⟨I, L, h, _⟩
          · simp at h
          · cases h
        · exact k2 hn
      · simp only [List.flatMap_cons, ClassItem.write, List.cons_append, List.nil_append]
        rw [he, List.append_assoc, class_char st hm hw h3, k3]
    | range a b =>
      obtain ⟨⟨a1, a2, a3⟩, ⟨b1, b2, b3⟩, hab⟩ := hi
      obtain ⟨w, hw, he⟩ := rest_char a1 (grp := grp) (.inr a2) prev ('-' :: b :: (items.flatMap ClassItem.write ++ ']' :: s))
      obtain ⟨u, hu, hue⟩ := rest_char b1 (grp := grp) (.inr b2) (some '-') (items.flatMap ClassItem.write ++ ']' :: s)
      obtain ⟨m, prev', k1, k2, k3⟩ := ih hrest { st with mode := .cls false false (acc ++ [.range a b]) none false } (acc ++ [.range a b]) (.inr ⟨_, _, rfl, rfl⟩) (some b) grp s t
      refine ⟨m, prev', by simpa [ClassItem.item] using k1, fun _ => ?_, ?_⟩
      · by_cases hn : items = []
        · subst hn
          rintro rfl
          rcases k1 with ⟨_, h⟩ | ⟨I, L, h, _⟩
          · simp at h
          · cases h
        · exact k2 hn
      · simp only [List.flatMap_cons, ClassItem.write, List.cons_append, List.nil_append]
        rw [he, List.append_assoc, class_char st hm hw a3, rest_dash, List.cons_append, class_dash _ rfl, hue, List.append_assoc, class_upper _ rfl hu hab, k3]

/-! ### Items -/

theorem rest_quest (prev : Option Char) (grp : Bool) (s : Str) : rest prev grp ('?' :: s) = '.' :: rest (some '?') grp s := by
  simp [rest, pieces, piece, Piece.text]

theorem rest_bracket (prev : Option Char) (grp : Bool) (s : Str) : rest prev grp ('[' :: s) = '[' :: rest (some '[') grp s := by
  simp [rest, pieces, piece, Piece.text]

theorem rest_bracket' (prev : Option Char) (grp : Bool) (s : Str) : rest prev grp (']' :: s) = ']' :: rest (some ']') grp s := by
  simp [rest, pieces, piece, Piece.text]

theorem rest_star (prev : Option Char) (grp : Bool) (s : Str) (h : s.head? ≠ some '*') : rest prev grp ('*' :: s) = py"([^/]*)" ++ rest (some '*') grp s := by
  unfold rest
  rw [pieces_star _ _ _ h]; rfl

def slashless : Regex.Set := ⟨true, [.one '/']⟩

theorem slashless_re : toRe (.set slashless) = notSlash := by
  have : slashless.has = (· != '/') := funext fun c => Regex.has_not '/' c
  simp [toRe, notSlash, this]

theorem seq_eps (r : Re) : (Re.seq .eps r).ends = r.ends := by
  funext p
  simp [Re.ends]

theorem star_ends {a b : Re} (h : a.ends = b.ends) : (Re.star a).ends = (Re.star b).ends := by
  funext p; simp only [Re.ends, h]

theorem read_seg (st : State) (hm : st.mode = .norm) (t : Str) : steps flags st (py"([^/]*)" ++ t) =
    steps flags { outer := st.outer, cur := st.cur.push (.group (st.groups + 1) (.seq .eps (.star (.set slashless)))), groups := st.groups + 1, mode := .norm } t := by
  rw [Regex.steps_append]
  have e1 : step flags st '(' = some { st with mode := .opened } := by simp [step, hm, stepNorm]
  rw [steps, e1]
  rfl

/-- `((?:[^/]*(?:/|$))*)`. -/
def deepRx : Rx := .seq .eps (.star (.seq (.seq .eps (.star (.set slashless))) (.alt (.seq .eps (lit '/')) (.seq .eps (.eol true)))))

theorem read_deep (st : State) (hm : st.mode = .norm) (t : Str) : steps flags st (py"((?:[^/]*(?:/|$))*)" ++ t) =
    steps flags { outer := st.outer, cur := st.cur.push (.group (st.groups + 1) deepRx), groups := st.groups + 1, mode := .norm } t := by
  rw [Regex.steps_append]
  have e1 : step flags st '(' = some { st with mode := .opened } := by simp [step, hm, stepNorm]
  rw [steps, e1]
  rfl

theorem deep_ends : (toRe deepRx).ends = deepRe.ends := by
  have h1 : (Regex.Set.has ⟨false, [.one '/']⟩) = (· == '/') := funext fun c => Regex.has_one '/' c
  show (Re.seq .eps (.star (.seq (.seq .eps (.star (toRe (.set slashless)))) (.alt (.seq .eps (.set (Regex.Set.has ⟨false, [.one '/']⟩))) (.seq .eps (.eol true)))))).ends = _
  rw [seq_eps, slashless_re, h1]
  apply star_ends
  funext p
  simp [Re.ends]

/-- One simple item. -/
theorem read_simple (s : Simple) (ss : List Simple) (h : SimpleOk (s :: ss)) (grp : Bool) (prev : Option Char) (x t : Str) (st : State) (hm : st.mode = .norm)
    (hx : s = .many → x.head? ≠ some '*') :
    ∃ st' prev', steps flags st (rest prev grp (s.write ++ x) ++ t) = steps flags st' (rest prev' grp x ++ t) ∧ Next st (simpleRe s) st' := by
  cases s with
  | char c =>
    obtain ⟨w, hw, he⟩ := rest_char h.1 (grp := grp) (.inr h.2.1) prev x
    refine ⟨st.push (lit c), some c, ?_, next_push _ _ _ ?_⟩
    · simp only [Simple.write, List.cons_append, List.nil_append]
      rw [he, List.append_assoc, step_stands st hm hw]
    · have : (Regex.Set.has ⟨false, [.one c]⟩) = (· == c) := funext fun d => Regex.has_one c d
      show (Re.set (Regex.Set.has ⟨false, [.one c]⟩)).ends = _
      rw [this]; rfl
  | any =>
    refine ⟨st.push (.set ⟨true, []⟩), some '?', ?_, next_push _ _ _ ?_⟩
    · simp only [Simple.write, List.cons_append, List.nil_append]
      rw [rest_quest]
      have : step flags st '.' = some (st.push (.set ⟨true, []⟩)) := by simp [step, hm, stepNorm, flags]
      simp [steps, this]
    · show (Re.set (Regex.Set.has ⟨true, []⟩)).ends = _
      have : (Regex.Set.has ⟨true, []⟩) = fun _ => true := by funext c; simp [Regex.Set.has]
      rw [this]; rfl
  | many =>
    refine ⟨_, some '*', ?_, next_push' st (.group (st.groups + 1) (.seq .eps (.star (.set slashless)))) (st.groups + 1) _ ?_⟩
    · simp only [Simple.write, List.cons_append, List.nil_append]
      rw [rest_star _ _ _ (hx rfl), List.append_assoc, read_seg st hm]
    · show (Re.seq .eps (.star (toRe (.set slashless)))).ends = _
      rw [seq_eps, slashless_re]; rfl
  | cls items =>
    obtain ⟨⟨hne, hok⟩, _⟩ := h
    obtain ⟨m, prev', k1, k2, k3⟩ := class_items items hok { st with mode := .cls0 } [] (.inl ⟨rfl, rfl⟩) (some '[') grp x t
    refine ⟨st.push (.set ⟨false, items.map ClassItem.item⟩), some ']', ?_, next_push _ _ _ rfl⟩
    simp only [Simple.write, List.cons_append, List.append_assoc, List.nil_append]
    have e1 : step flags st '[' = some { st with mode := .cls0 } := by simp [step, hm, stepNorm]
    rw [rest_bracket, List.cons_append, steps, e1]
    simp only
    rw [k3, rest_bracket', List.cons_append, steps]
    rcases k1 with ⟨h, _⟩ | ⟨I, L, h, hf⟩
    · exact absurd h (k2 hne)
    · subst h
      have e2 : step flags { st with mode := .cls false false I L false } ']' = some (st.push (.set ⟨false, items.map ClassItem.item⟩)) := by
        simp only [List.nil_append] at hf
        simp [step, stepCls, hf, State.push]
      simp only [e2]

theorem Next.trans {st st1 st2 : State} {r r' : Re} (h : Next st r st1) (h' : Next st1 r' st2) : Next st (.seq r r') st2 := by
  refine ⟨h'.mode, h'.outer.trans h.outer, h'.num.trans h.num, h'.alts.trans h.alts, ?_⟩
  rw [h'.ends]
  funext p
  simp only [Re.ends, h.ends, List.flatMap_assoc]

theorem simple_head {ss : List Simple} {rest : Str} (h : SimpleOk ss) (hm : ss.head? ≠ some .many) (hr : rest.head? ≠ some '*') :
    (ss.flatMap Simple.write ++ rest).head? ≠ some '*' := by
  cases ss with
  | nil => exact hr
  | cons s ss =>
    cases s with
    | char c =>
      have := h.1
      simp only [List.flatMap_cons, Simple.write, List.cons_append, List.head?_cons, ne_eq, Option.some.injEq]
      rintro rfl; simp [plain] at this
    | any => simp [Simple.write]
    | many => simp at hm
    | cls items => simp [Simple.write]

/-- The simple items of an alternative. -/
theorem read_simples : ∀ (ss : List Simple), SimpleOk ss → ∀ (st : State), st.mode = .norm → ∀ (prev : Option Char) (grp : Bool) (x t : Str), x.head? ≠ some '*' →
    ∃ st', steps flags st (rest prev grp (ss.flatMap Simple.write ++ x) ++ t) = steps flags st' (rest none grp x ++ t) ∧
      st'.mode = .norm ∧ st'.outer = st.outer ∧ st'.cur.num = st.cur.num ∧ st'.cur.alts = st.cur.alts ∧
      (toRe st'.cur.cur).ends = (ss.foldl (fun c s => Re.seq c (simpleRe s)) (toRe st.cur.cur)).ends := by
  have hfold : ∀ (ss : List Simple) (a b : Re), a.ends = b.ends → (ss.foldl (fun c s => Re.seq c (simpleRe s)) a).ends = (ss.foldl (fun c s => Re.seq c (simpleRe s)) b).ends := by
    intro ss
    induction ss with
    | nil => intro a b h; exact h
    | cons s ss ih => intro a b h; apply ih; funext p; simp only [Re.ends, h]
  intro ss
  induction ss with
  | nil =>
    intro _ st hm prev grp x t hx
    refine ⟨st, ?_, hm, rfl, rfl, rfl, rfl⟩
    rw [List.flatMap_nil, List.nil_append]
    unfold rest
    rw [pieces_prev prev none _ _ hx]
  | cons s ss ih =>
    intro hok st hm prev grp x t hx
    have hss : SimpleOk ss := by
      cases s with
      | char c => exact hok.2.2
      | any => exact hok
      | many => exact hok.2
      | cls items => exact hok.2
    obtain ⟨st1, prev1, h1, h2⟩ := read_simple s ss hok grp prev (ss.flatMap Simple.write ++ x) t st hm (by
      rintro rfl
      exact simple_head hss hok.1 hx)
    obtain ⟨st2, k1, k2, k3, k4, k5, k6⟩ := ih hss st1 h2.mode prev1 grp x t hx
    refine ⟨st2, ?_, k2, k3.trans h2.outer, k4.trans h2.num, k5.trans h2.alts, ?_⟩
    · rw [List.flatMap_cons, List.append_assoc, h1, k1]
    · rw [k6]
      exact hfold ss _ _ h2.ends

theorem rest_open (prev : Option Char) (grp : Bool) (s : Str) : rest prev grp ('{' :: s) = '(' :: rest (some '{') true s := by
  simp [rest, pieces, piece, Piece.text]

theorem rest_close (prev : Option Char) (grp : Bool) (s : Str) : rest prev grp ('}' :: s) = ')' :: rest (some '}') false s := by
  simp [rest, pieces, piece, Piece.text]

theorem rest_comma (prev : Option Char) (s : Str) : rest prev true (',' :: s) = '|' :: rest (some ',') true s := by
  simp [rest, pieces, piece, Piece.text]

/-- No piece begins with `?`. -/
theorem rest_head : ∀ (s : Str) (prev : Option Char) (grp : Bool) (n : Nat) (t : Str), t.head? ≠ some '?' → ((pieces prev grp n s).flatMap Piece.text ++ t).head? ≠ some '?' := by
  have hp : ∀ (grp : Bool) (c : Char) (t : Str), ((piece grp c).1.text ++ t).head? ≠ some '?' := by
    intro grp c t
    by_cases hq : c = '?'
    · subst hq; cases grp <;> simp [piece, Piece.text]
    · unfold piece
      repeat' split
      all_goals simp_all [Piece.text]
  intro s
  induction s with
  | nil =>
    intro prev grp n t ht
    simp only [pieces]
    repeat' split
    · simpa using ht
    · simp [Piece.text]
    · simp [Piece.text]
  | cons c cs ih =>
    intro prev grp n t ht
    simp only [pieces]
    repeat' split
    · exact ih _ _ _ _ ht
    · rw [List.flatMap_cons, List.append_assoc]; exact hp _ _ _
    · simp [Piece.text]
    · simp [Piece.text]

theorem body_re (f : Frame) : (toRe f.body) = match f.alts with | none => toRe f.cur | some a => .alt (toRe a) (toRe f.cur) := by
  unfold Frame.body
  cases f.alts <;> rfl

theorem mem_body (f : Frame) (p q : Pos) : q ∈ (toRe f.body).ends p ↔ (∃ r, f.alts = some r ∧ q ∈ (toRe r).ends p) ∨ q ∈ (toRe f.cur).ends p := by
  rw [body_re]
  cases f.alts with
  | none => simp
  | some a => simp only; rw [mem_alt]; simp

/-- A group. -/
theorem read_alts (n : Nat) : ∀ (as : List (List Simple)), as ≠ [] → (∀ a ∈ as, SimpleOk a) → ∀ (st : State) (f0 : Frame) (o : List Frame), st.mode = .norm → st.outer = f0 :: o →
    st.cur.num = some n → st.cur.pre = .eps → st.cur.last = none → ∀ (prev : Option Char) (x t : Str),
    ∃ X st', steps flags st (rest prev true (joinStr [','] (as.map fun a => a.flatMap Simple.write) ++ '}' :: x) ++ t) = steps flags st' (rest (some '}') false x ++ t) ∧
      st'.mode = .norm ∧ st'.outer = o ∧ st'.cur = f0.push (.group n X) ∧
      ∀ p q, q ∈ (toRe X).ends p ↔ (∃ r, st.cur.alts = some r ∧ q ∈ (toRe r).ends p) ∨ ∃ a ∈ as, ∃ v, Reads p v q ∧ SimpleFits a v := by
  have heps : ∀ (p m : Pos), m ∈ Re.eps.ends p ↔ m = p := by intro p m; exact List.mem_singleton
  intro as
  induction as with
  | nil => intro h; exact absurd rfl h
  | cons a as ih =>
    intro _ hok st f0 o hm ho hn hpre hlast prev x t
    have ha := hok a (by simp)
    have hcur : toRe st.cur.cur = .eps := by unfold Frame.cur; rw [hlast, hpre]; rfl
    cases as with
    | nil =>
      obtain ⟨st1, h1, h2, h3, h4, h5, h6⟩ := read_simples a ha st hm prev true ('}' :: x) t (by simp)
      rw [hcur] at h6
      refine ⟨st1.cur.body, { outer := o, cur := f0.push (.group n st1.cur.body), groups := st1.groups, mode := .norm }, ?_, rfl, rfl, rfl, fun p q => ?_⟩
      · rw [List.map_cons, List.map_nil, joinStr, h1, rest_close, List.cons_append, steps]
        have e : step flags st1 ')' = some { outer := o, cur := f0.push (.group n st1.cur.body), groups := st1.groups, mode := .norm } := by
          simp [step, h2, stepNorm, h3, ho, Frame.close, h4, hn]
        rw [e]
      · rw [mem_body, h5, h6, mem_simples]
        refine or_congr Iff.rfl ?_
        constructor
        · rintro ⟨m, hm, v, hv⟩
          rw [heps] at hm; subst hm
          exact ⟨a, by simp, v, hv⟩
        · rintro ⟨b, hb, v, hv⟩
          rw [List.mem_singleton] at hb; subst hb
          exact ⟨p, (heps _ _).2 rfl, v, hv⟩
    | cons b as =>
      obtain ⟨st1, h1, h2, h3, h4, h5, h6⟩ := read_simples a ha st hm prev true (',' :: (joinStr [','] ((b :: as).map fun a => a.flatMap Simple.write) ++ '}' :: x)) t (by simp)
      rw [hcur] at h6
      obtain ⟨X, st2, k1, k2, k3, k4, k5⟩ := ih (by simp) (fun y hy => hok y (by simp [hy]))
        { st1 with cur := { st1.cur with alts := some st1.cur.body, pre := .eps, last := none } } f0 o h2 (h3.trans ho) (h4.trans hn) rfl rfl (some ',') x t
      refine ⟨X, st2, ?_, k2, k3, k4, fun p q => ?_⟩
      · have hj : joinStr [','] ((a :: b :: as).map fun a => a.flatMap Simple.write) ++ '}' :: x =
            a.flatMap Simple.write ++ ',' :: (joinStr [','] ((b :: as).map fun a => a.flatMap Simple.write) ++ '}' :: x) := by simp [joinStr]
        rw [hj, h1, rest_comma, List.cons_append, steps]
        have e : step flags st1 '|' = some { st1 with cur := { st1.cur with alts := some st1.cur.body, pre := .eps, last := none } } := by
          simp [step, h2, stepNorm]
        rw [e]
        exact k1
      · rw [k5]
        simp only [Option.some.injEq]
        constructor
        · rintro (⟨r, rfl, hq⟩ | ⟨y, hy, h⟩)
          · rcases (mem_body _ _ _).1 hq with h | h
            · rw [h5] at h; exact .inl h
            · rw [h6] at h
              obtain ⟨m, hm, v, hv⟩ := mem_simples.1 h
              rw [heps] at hm; subst hm
              exact .inr ⟨a, by simp, v, hv⟩
          · exact .inr ⟨y, by simp [List.mem_cons.1 hy], h⟩
        · rintro (h | ⟨y, hy, v, hv⟩)
          · exact .inl ⟨_, rfl, (mem_body _ _ _).2 (.inl (by rw [h5]; exact h))⟩
          · rcases List.mem_cons.1 hy with rfl | hy
            · exact .inl ⟨_, rfl, (mem_body _ _ _).2 (.inr (by rw [h6]; exact mem_simples.2 ⟨p, (heps _ _).2 rfl, v, hv⟩))⟩
            · exact .inr ⟨y, hy, v, hv⟩

theorem write_head {g : List Item} {b : Bool} (h : Ok b g) (h1 : g.head? ≠ some (.one .many)) (h2 : g.head? ≠ some .dirs) :
    (write g).head? ≠ some '*' := by
  rcases g with _ | ⟨i, g⟩
  · simp [write]
  · rcases i with (c | _ | _ | is) | alts | _
    · have := h.1
      simp only [write, Simple.write, List.singleton_append, List.head?_cons, ne_eq, Option.some.injEq]
      rintro rfl; simp [plain] at this
    · simp [write, Simple.write]
    · simp at h1
    · simp [write, Simple.write]
    · simp [write]
    · simp at h2

theorem rest_deep (prev : Option Char) (hp : prev = none ∨ prev = some '/') (grp : Bool) (s : Str) :
    rest prev grp ('*' :: '*' :: '/' :: s) = py"((?:[^/]*(?:/|$))*)" ++ rest (some '/') grp s := by
  rcases hp with rfl | rfl <;> rfl

theorem rest_deep_end (prev : Option Char) (hp : prev = none ∨ prev = some '/') (grp : Bool) : rest prev grp ['*', '*'] = py"((?:[^/]*(?:/|$))*)" := by
  rcases hp with rfl | rfl <;> rfl

theorem ends_seq_congr {a b r : Re} (h : a.ends = (Re.seq b r).ends) (P : Pos → Prop) (p : Pos) : (∃ m, m ∈ a.ends p ∧ P m) ↔ ∃ m, m ∈ (Re.seq b r).ends p ∧ P m := by
  rw [h]

/-- A whole pattern. -/
theorem read_write (t : Str) (ht : t ≠ [] ∧ t.head? ≠ some '?') : ∀ (g : List Item) (b : Bool), Ok b g → ∀ (prev : Option Char), (b = true → prev = none ∨ prev = some '/') →
    ∀ (st : State), st.mode = .norm → ∃ st', steps flags st (rest prev false (write g) ++ t) = steps flags st' t ∧
      st'.mode = .norm ∧ st'.outer = st.outer ∧ st'.cur.num = st.cur.num ∧ st'.cur.alts = st.cur.alts ∧
      ∀ p, (∃ q, q ∈ (toRe st'.cur.cur).ends p ∧ q.rest = []) ↔ ∃ m, m ∈ (toRe st.cur.cur).ends p ∧ Fits g m.rest := by
  have last : ∀ (c : Re) (p : Pos), (∃ q, q ∈ c.ends p ∧ q.rest = []) ↔ ∃ m, m ∈ c.ends p ∧ Fits [] m.rest := by
    intro c p
    refine exists_congr fun m => and_congr Iff.rfl ⟨fun h => by rw [h]; exact .nil, fun h => ?_⟩
    generalize m.rest = x at h
    cases h; rfl
  intro g
  induction g with
  | nil =>
    intro b _ prev _ st hm
    exact ⟨st, rfl, hm, rfl, rfl, rfl, fun p => last _ p⟩
  | cons i g ih =>
    intro b h prev hp st hm
    have one : ∀ (s : Simple) (c : Char) (b' : Bool), (∀ (x : Str) (hx : s = .many → x.head? ≠ some '*'), ∃ st', steps flags st (rest prev false (s.write ++ x) ++ t) = steps flags st' (rest (some c) false x ++ t) ∧ Next st (simpleRe s) st') →
        Ok b' g → (b' = true → c = '/') → (s = .many → (write g).head? ≠ some '*') → ∃ st', steps flags st (rest prev false (s.write ++ write g) ++ t) = steps flags st' t ∧
      st'.mode = .norm ∧ st'.outer = st.outer ∧ st'.cur.num = st.cur.num ∧ st'.cur.alts = st.cur.alts ∧
      ∀ p, (∃ q, q ∈ (toRe st'.cur.cur).ends p ∧ q.rest = []) ↔ ∃ m, m ∈ (toRe st.cur.cur).ends p ∧ Fits (.one s :: g) m.rest := by
      intro s c b' hs hg hb hx
      obtain ⟨st1, h1, h2⟩ := hs (write g) hx
      obtain ⟨st2, k1, k2, k3, k4, k5, k6⟩ := ih b' hg (some c) (fun e => .inr (by rw [hb e])) st1 h2.mode
      refine ⟨st2, h1.trans k1, k2, k3.trans h2.outer, k4.trans h2.num, k5.trans h2.alts, fun p => ?_⟩
      rw [k6, ends_seq_congr h2.ends (fun m => Fits g m.rest)]
      exact step_one _ s g p
    rcases i with (c | _ | _ | is) | alts | _
    · refine one (.char c) c (c == '/') (fun x _ => ?_) h.2 (fun e => beq_iff_eq.1 e) (fun e => by cases e)
      obtain ⟨w, hw, he⟩ := rest_char h.1 (grp := false) (.inl rfl) prev x
      refine ⟨st.push (lit c), ?_, next_push _ _ _ ?_⟩
      · simp only [Simple.write, List.cons_append, List.nil_append]
        rw [he, List.append_assoc, step_stands st hm hw]
      · have : (Regex.Set.has ⟨false, [.one c]⟩) = (· == c) := funext fun d => Regex.has_one c d
        show (Re.set (Regex.Set.has ⟨false, [.one c]⟩)).ends = _
        rw [this]; rfl
    · refine one .any '?' false (fun x hx => ?_) h (fun e => by cases e) (fun e => by cases e)
      refine ⟨st.push (.set ⟨true, []⟩), ?_, next_push _ _ _ ?_⟩
      · simp only [Simple.write, List.cons_append, List.nil_append]
        rw [rest_quest]
        have : step flags st '.' = some (st.push (.set ⟨true, []⟩)) := by simp [step, hm, stepNorm, flags]
        simp [steps, this]
      · show (Re.set (Regex.Set.has ⟨true, []⟩)).ends = _
        have : (Regex.Set.has ⟨true, []⟩) = fun _ => true := by funext c; simp [Regex.Set.has]
        rw [this]; rfl
    · refine one .many '*' false (fun x hx => ?_) h.2.2 (fun e => by cases e) (fun _ => write_head h.2.2 h.1 h.2.1)
      refine ⟨_, ?_, next_push' st (.group (st.groups + 1) (.seq .eps (.star (.set slashless)))) (st.groups + 1) _ ?_⟩
      · simp only [Simple.write, List.cons_append, List.nil_append]
        rw [rest_star _ _ _ (hx rfl), List.append_assoc, read_seg st hm]
      · show (Re.seq .eps (.star (toRe (.set slashless)))).ends = _
        rw [seq_eps, slashless_re]; rfl
    · refine one (.cls is) ']' false (fun x hx => ?_) h.2 (fun e => by cases e) (fun e => by cases e)
      obtain ⟨hne, hok⟩ := h.1
      obtain ⟨m, prev', k1, k2, k3⟩ := class_items is hok { st with mode := .cls0 } [] (.inl ⟨rfl, rfl⟩) (some '[') false x t
      refine ⟨st.push (.set ⟨false, is.map ClassItem.item⟩), ?_, next_push _ _ _ rfl⟩
      simp only [Simple.write, List.cons_append, List.append_assoc, List.nil_append]
      have e1 : step flags st '[' = some { st with mode := .cls0 } := by simp [step, hm, stepNorm]
      rw [rest_bracket, List.cons_append, steps, e1]
      simp only
      rw [k3, rest_bracket', List.cons_append, steps]
      rcases k1 with ⟨h, _⟩ | ⟨I, L, h, hf⟩
      · exact absurd h (k2 hne)
      · subst h
        have e2 : step flags { st with mode := .cls false false I L false } ']' = some (st.push (.set ⟨false, is.map ClassItem.item⟩)) := by
          simp only [List.nil_append] at hf
          simp [step, stepCls, hf, State.push]
        simp only [e2]
    · obtain ⟨h1, h2, h3⟩ := h
      obtain ⟨X, st1, j1, j2, j3, j4, j5⟩ := read_alts (st.groups + 1) alts h1 h2 st.open st.cur st.outer rfl rfl rfl rfl rfl (some '{') (write g) t
      have j6 : (toRe st1.cur.cur).ends = (Re.seq (toRe st.cur.cur) (toRe X)).ends := by rw [j4]; rfl
      obtain ⟨st2, k1, k2, k3, k4, k5, k6⟩ := ih false h3 (some '}') (fun e => by cases e) st1 j2
      refine ⟨st2, ?_, k2, k3.trans j3, k4.trans (by rw [j4]; rfl), k5.trans (by rw [j4]; rfl), fun p => ?_⟩
      · rw [write, rest_open, List.cons_append, steps]
        have e1 : step flags st '(' = some { st with mode := .opened } := by simp [step, hm, stepNorm]
        rw [e1]
        simp only
        have hne : rest (some '{') true (joinStr [','] (alts.map fun a => a.flatMap Simple.write) ++ '}' :: write g) ++ t ≠ [] := by simp [ht.1]
        rw [Regex.opened_steps flags st _ hne (rest_head _ _ _ _ _ ht.2), j1, k1]
      · rw [k6, ends_seq_congr j6 (fun m => Fits g m.rest)]
        exact step_alts _ _ _ (fun p q => (j5 p q).trans (by simp [State.open, Frame.new])) _ _
    · obtain ⟨h1, h2⟩ := h
      have hnext : Next st deepRe { outer := st.outer, cur := st.cur.push (.group (st.groups + 1) deepRx), groups := st.groups + 1, mode := .norm } :=
        next_push' st (.group (st.groups + 1) deepRx) _ _ deep_ends
      cases g with
      | nil =>
        refine ⟨_, ?_, hnext.mode, hnext.outer, hnext.num, hnext.alts, fun p => ?_⟩
        · rw [write, rest_deep_end prev (hp h1), read_deep st hm]
        · rw [last, ends_seq_congr hnext.ends (fun m => Fits [] m.rest)]
          exact step_deep _ _ _
      | cons j g =>
        obtain ⟨st2, k1, k2, k3, k4, k5, k6⟩ := ih true h2 (some '/') (fun _ => .inr rfl) _ hnext.mode
        refine ⟨st2, ?_, k2, k3.trans hnext.outer, k4.trans hnext.num, k5.trans hnext.alts, fun p => ?_⟩
        · have : write (.dirs :: j :: g) = '*' :: '*' :: '/' :: write (j :: g) := rfl
          rw [this, rest_deep prev (hp h1), List.append_assoc, read_deep st hm, k1]
        · rw [k6, ends_seq_congr hnext.ends (fun m => Fits (j :: g) m.rest)]
          exact step_deep _ _ _

/-- Matching a written pattern. -/
theorem matches_write {g : List Item} (h : Ok true g) (path : Str) :
    ∃ b, «matches» (write g) path = some b ∧ (b = true ↔ Fits g path) := by
  obtain ⟨st, h1, h2, h3, h4, h5, h6⟩ := read_write ['$'] (by simp) g true h none (fun _ => .inl rfl) (State.init.push (.bol true)) rfl
  have hread : Regex.read (patternToRe (write g)) = some (.seq st.cur.cur (.eol true)) := by
    have hs : startsWith (patternToRe (write g)) py"(?ms)" = true := by simp [patternToRe, startsWith, List.isPrefixOf]
    have hd : (patternToRe (write g)).drop 5 = '^' :: (rest none false (write g) ++ ['$']) := by simp [patternToRe, rest]
    unfold Regex.read
    simp only [hs, if_true, hd]
    have e0 : step flags State.init '^' = some (State.init.push (.bol true)) := rfl
    have e1 : step flags st '$' = some (st.push (.eol true)) := by simp [step, h2, stepNorm, flags]
    show ((steps flags State.init ('^' :: (rest none false (write g) ++ ['$']))).bind State.finish) = _
    rw [steps, e0]
    simp only
    rw [h1, steps, e1]
    have ho : st.outer = [] := h3
    have hn : st.cur.num = none := h4
    have ha : st.cur.alts = none := h5
    simp [steps, State.push, State.finish, ho, Frame.close, Frame.body, Frame.push, hn, ha]
    rfl
  refine ⟨_, by rw [«matches», hread]; rfl, ?_⟩
  rw [fullmatch_forget]
  have hcur : ∀ p, (∃ m, m ∈ (toRe (State.init.push (.bol true)).cur.cur).ends p ∧ Fits g m.rest) ↔ (p.prev = none ∨ p.prev = some '\n') ∧ Fits g p.rest := by
    intro p
    show (∃ m, m ∈ (Re.seq .eps (.bol true)).ends p ∧ _) ↔ _
    rw [seq_eps]
    simp only [Re.ends]
    by_cases hh : p.prev = none ∨ (True ∧ p.prev = some '\n')
    · rw [if_pos hh]; simp at hh ⊢; simp [hh]
    · rw [if_neg hh]; simp at hh ⊢; simp [hh]
  have := (h6 ⟨none, path⟩).trans (hcur ⟨none, path⟩)
  simp only [true_or, true_and] at this
  rw [← this]
  constructor
  · rintro ⟨q, hq, hq0⟩
    obtain ⟨k, hk, hq⟩ := mem_seq.1 hq
    have hq := (mem_eol.1 hq).1
    subst hq
    exact ⟨q, hk, hq0⟩
  · rintro ⟨q, hq, hq0⟩
    exact ⟨q, mem_seq.2 ⟨q, hq, mem_eol.2 ⟨rfl, .inl hq0⟩⟩, hq0⟩

end Gherkin.Glob
