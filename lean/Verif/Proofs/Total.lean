import Verif.Proofs.ErrStep
import Verif.Proofs.Describe

/-! The AST builder never crashes on what the parser feeds it: abstract interpretation of the transition table. -/

namespace Gherkin

open AstNode

/-- What a node must contain before its rule may end. -/
def needKey : Rule → Option Key
  | .step => some (.t .stepLine) | .docString => some (.t .docStringSeparator) | .dataTable => some (.t .tableRow)
  | .background => some (.t .backgroundLine) | .scenario => some (.t .scenarioLine) | .examples => some (.t .examplesLine)
  | .scenarioDefinition => some (.r .scenario) | .examplesDefinition => some (.r .examples) | .description => some (.t .other)
  | .ruleHeader => some (.t .ruleLine) | .featureHeader => some (.t .featureLine) | .rule => some (.r .ruleHeader)
  | _ => none

/-- The builder's stack: the open rules, and whether each has what it needs. -/
abbrev AStack := List (Rule × Bool)

def absProd (k : Kind) (p : Prod) (s : AStack) : Option AStack :=
  match p with
  | .start r => some ((r, false) :: s)
  | .build => match s with
    | [] => none
    | (r, b) :: rest => if k = .comment then some s else some ((r, b || needKey r == some (.t k)) :: rest)
  | .stop _ => match s with
    | (r, b) :: (pr, pb) :: rest =>
      if (needKey r).isSome && !b then none
      else if r = .dataTable ∨ r = .examplesTable then some ((pr, pb) :: rest)
      else some ((pr, pb || needKey pr == some (.r r)) :: rest)
    | _ => none

def absRun (k : Kind) : List Prod → AStack → Option AStack
  | [], s => some s
  | p :: ps, s => (absProd k p s).bind (absRun k ps)

namespace AStack

def doc : AStack := [(.gherkinDocument, false), (.none, false)]
def feature : AStack := (.feature, false) :: doc
def rule : AStack := (.rule, true) :: feature
def background (b : AStack) : AStack := (.background, true) :: b
def scenario (b : AStack) : AStack := (.scenario, true) :: (.scenarioDefinition, false) :: b
def examples (b : AStack) : AStack := (.examples, true) :: (.examplesDefinition, false) :: scenario b
def desc (b : AStack) : AStack := (.description, true) :: b
def step (b : AStack) : AStack := (.step, true) :: b
def table (b : AStack) : AStack := (.dataTable, true) :: b
def docStr (b : AStack) : AStack := (.docString, true) :: b

/-- The stacks in the states between the background and the examples, relative to the first of them (6 or 26). -/
def block (b : AStack) : Nat → AStack
  | 0 | 2 => background b
  | 1 => desc (background b)
  | 3 => step (background b)
  | 4 => table (step (background b))
  | 5 => (.tags, false) :: (.scenarioDefinition, false) :: b
  | 6 | 8 => scenario b
  | 7 => desc (scenario b)
  | 9 => step (scenario b)
  | 10 => table (step (scenario b))
  | 11 => (.tags, false) :: (.examplesDefinition, false) :: scenario b
  | 12 | 14 => examples b
  | 13 => desc (examples b)
  | _ => (.examplesTable, false) :: examples b

end AStack

open AStack in
/-- The stack in each state of the parser. -/
def absAt (q : Nat) : AStack :=
  match q with
  | 0 | 42 => doc
  | 1 => (.featureHeader, false) :: feature
  | 2 => (.tags, false) :: (.featureHeader, false) :: feature
  | 3 | 5 => (.featureHeader, true) :: feature
  | 4 => desc ((.featureHeader, true) :: feature)
  | 22 => (.tags, false) :: (.ruleHeader, false) :: (.rule, false) :: feature
  | 23 | 25 => (.ruleHeader, true) :: (.rule, false) :: feature
  | 24 => desc ((.ruleHeader, true) :: (.rule, false) :: feature)
  | 43 | 44 => docStr (step (scenario rule))
  | 45 | 46 => docStr (step (background rule))
  | 47 | 48 => docStr (step (scenario feature))
  | 49 | 50 => docStr (step (background feature))
  | q => if q < 22 then block feature (q - 6) else block rule (q - 26)

/-- `a` promises no more than `b`. -/
def AStack.le (a b : AStack) : Bool :=
  a.map (·.1) == b.map (·.1) && (a.zip b).all fun p => !p.1.2 || p.2.2

def AStack.pending (r : Rule) (a : AStack) : Bool := a.any fun x => x.1 == r && !x.2

/-- Whether the top node may be closed, even if it lacks something. -/
def AStack.closable : AStack → Bool
  | (r, b) :: _ :: _ => b || (needKey r).isNone || [Rule.featureHeader, .ruleHeader, .scenario, .examples, .tags].contains r
  | _ => false

def rowOkT (q : Nat) : Bool :=
  (absAt q).closable && !(absAt q).pending .description && !(absAt q).pending .docString &&
  match table q with
  | some row => row.stay == q && row.trans.all fun tr =>
      (!tr.prods.contains (.start .description) || (tr.kind == .other && (row.trans.dropLast.all fun x => x.kind != .other) &&
        row.trans.any fun x => x.kind == .empty && x.la == none)) &&
      (!tr.prods.contains (.start .docString) || (tr.kind == .docStringSeparator && !Auto.openStates.contains q)) &&
      match absRun tr.kind tr.prods (absAt q) with
      | some s => (absAt tr.target).le s
      | none => false
  | none => true

theorem rows_okT : ∀ q ∈ 42 :: allStates, rowOkT q = true := by decide +kernel

/-! ### Concrete stacks -/

/-- An item that causes no trouble later. `P` is a property of all tokens. -/
def ItemOk (P : Token → Prop) : Item → Prop
  | .tok t => P t ∧ (t.type = some .other → t.text.isSome = true)
  | .node r sub => r ≠ .rule ∧ ∀ k, needKey r = some k → ∃ i ∈ sub, i.key = k
  | .rule o => o.isSome = true
  | _ => True

/-- The node has what its rule needs. -/
def Needed (r : Rule) (items : List Item) : Prop :=
  match r with
  | .description => ∃ t, Item.tok t ∈ items ∧ t.type = some .other ∧ ∃ s, t.text = some s ∧ s ≠ []
  | .docString => ∃ t ts, getTokens items .docStringSeparator = t :: ts ∧ t.text.isSome = true
  | r => ∀ k, needKey r = some k → ∃ i ∈ items, i.key = k

structure FrameOk (P : Token → Prop) (f : Rule × Bool) (items : List Item) : Prop where
  all : ∀ i ∈ items, ItemOk P i
  needed : f.2 = true → Needed f.1 items
  fresh : f.1 = .docString → f.2 = false → getTokens items .docStringSeparator = []

/-- The builder's stack has this shape. -/
inductive StackOk (P : Token → Prop) : AStack → List (Rule × List Item) → Prop
  | nil : StackOk P [] []
  | cons {r b items a s} : FrameOk P (r, b) items → StackOk P a s → StackOk P ((r, b) :: a) ((r, items) :: s)

theorem StackOk.weaken {P : Token → Prop} : ∀ {a b : AStack} {s : List (Rule × List Item)}, StackOk P b s → a.le b = true →
    (a.any fun x => x.1 == .docString && !x.2) = false → StackOk P a s := by
  intro a b s h
  induction h generalizing a with
  | nil =>
    intro hl _
    cases a with
    | nil => exact .nil
    | cons x xs => simp [AStack.le] at hl
  | @cons r bb items b' s' hf _ ih =>
    intro hl hp
    cases a with
    | nil => simp [AStack.le] at hl
    | cons x xs =>
      obtain ⟨r', c⟩ := x
      simp only [AStack.le, List.map_cons, List.zip_cons_cons, List.all_cons, Bool.and_eq_true, beq_iff_eq, List.cons.injEq] at hl
      obtain ⟨⟨h1, h2⟩, h3, h4⟩ := hl
      subst h1
      simp only [List.any_cons, Bool.or_eq_false_iff] at hp
      refine .cons ⟨hf.all, ?_, ?_⟩ (ih (by simp [AStack.le, h2]; simpa using h4) hp.2)
      · intro hc; simp only at hc; subst hc; simp at h3; exact hf.needed h3
      · intro hr hc
        simp only at hr hc
        subst hr; subst hc
        simp at hp

theorem tok_of_key {i : Item} {k : Kind} (h : i.key = .t k) : ∃ t, i = .tok t ∧ t.type = some k := by
  cases i with
  | tok t =>
    refine ⟨t, rfl, ?_⟩
    simp only [Item.key] at h
    cases ht : t.type with
    | none => rw [ht] at h; simp at h
    | some k' => rw [ht] at h; simp at h; rw [h]
  | _ => simp [Item.key] at h

theorem getTokens_mem {items : List Item} {k : Kind} {t : Token} : t ∈ getTokens items k ↔ Item.tok t ∈ items ∧ t.type = some k := by
  simp only [getTokens, getItems, List.mem_filterMap, List.mem_filter, decide_eq_true_eq]
  constructor
  · rintro ⟨i, ⟨h1, h2⟩, h3⟩
    obtain ⟨t', rfl, h4⟩ := tok_of_key h2
    simp at h3; subst h3
    exact ⟨h1, h4⟩
  · rintro ⟨h1, h2⟩
    exact ⟨.tok t, ⟨h1, by simp [Item.key, h2]⟩, rfl⟩

theorem getToken_some {items : List Item} {k : Kind} (h : ∃ i ∈ items, i.key = .t k) : ∃ t, getToken items k = some t := by
  obtain ⟨i, h1, h2⟩ := h
  obtain ⟨t, rfl, h3⟩ := tok_of_key h2
  have : t ∈ getTokens items k := getTokens_mem.2 ⟨h1, h3⟩
  unfold getToken
  cases hg : getTokens items k with
  | nil => rw [hg] at this; simp at this
  | cons a b => exact ⟨a, rfl⟩

theorem getSingle_some {items : List Item} {k : Key} (h : ∃ i ∈ items, i.key = k) : ∃ i ∈ items, i.key = k ∧ getSingle items k = some i := by
  obtain ⟨i, h1, h2⟩ := h
  have : i ∈ getItems items k := by simp [getItems, h1, h2]
  unfold getSingle
  cases hg : getItems items k with
  | nil => rw [hg] at this; simp at this
  | cons a b =>
    have : a ∈ getItems items k := by rw [hg]; simp
    simp [getItems] at this
    exact ⟨a, this.1, this.2, rfl⟩

/-- The only complaint of the AST builder: a ragged table, at one of its rows. -/
def RaggedAt (items : List Item) (e : Err) : Prop :=
  ∃ t t0, Item.tok t ∈ items ∧ t.type = some .tableRow ∧ Item.tok t0 ∈ items ∧ t0.type = some .tableRow ∧
    t.items.length ≠ t0.items.length ∧ e = Err.mkAst py"inconsistent cell count within the table" t.loc

theorem getTableRows_cases {items : List Item} {n : Nat} :
    (∃ rs, (AstB.getTableRows items n).1 = .ok rs ∧ (getTokens items .tableRow ≠ [] → rs ≠ [])) ∨
    (∃ e, (AstB.getTableRows items n).1 = .error (.parser e) ∧ RaggedAt items e) := by
  unfold AstB.getTableRows
  simp only
  cases hr : AstB.raggedRow (AstB.makeRows (getTokens items .tableRow) n) with
  | none =>
    left
    refine ⟨_, rfl, ?_⟩
    intro h h'
    apply h
    simpa [AstB.makeRows] using h'
  | some r =>
    right
    refine ⟨_, rfl, ?_⟩
    have tokOf : ∀ r ∈ AstB.makeRows (getTokens items .tableRow) n, ∃ t, Item.tok t ∈ items ∧ t.type = some .tableRow ∧ r.loc = t.loc ∧
        r.cells.length = t.items.length := by
      intro r hm
      simp only [AstB.makeRows, List.mem_map] at hm
      obtain ⟨⟨t, i⟩, h1, rfl⟩ := hm
      have h2 := (List.mem_zipIdx h1).2.2
      have h3 : t ∈ getTokens items .tableRow := by rw [h2]; exact List.getElem_mem _
      obtain ⟨h4, h5⟩ := getTokens_mem.1 h3
      exact ⟨t, h4, h5, rfl, by simp [AstB.getCells]⟩
    have hm : ∃ r0 ∈ AstB.makeRows (getTokens items .tableRow) n, r ∈ AstB.makeRows (getTokens items .tableRow) n ∧
        r.cells.length ≠ r0.cells.length := by
      unfold AstB.raggedRow at hr
      split at hr
      · simp at hr
      · rename_i r0 rs h0
        rw [h0]
        exact ⟨r0, by simp, List.mem_of_find?_eq_some hr, by have := List.find?_some hr; simpa using this⟩
    obtain ⟨r0, m0, m1, hne⟩ := hm
    obtain ⟨t0, a1, a2, _, a4⟩ := tokOf r0 m0
    obtain ⟨t, b1, b2, b3, b4⟩ := tokOf r m1
    exact ⟨t, t0, b1, b2, a1, a2, by rw [← a4, ← b4]; exact hne, by rw [b3]⟩

theorem mapM_isSome {α β : Type} {f : α → Option β} : ∀ {xs : List α}, (∀ x ∈ xs, (f x).isSome = true) → ∃ ys, xs.mapM f = some ys := by
  intro xs
  induction xs with
  | nil => intro _; exact ⟨[], rfl⟩
  | cons x xs ih =>
    intro h
    obtain ⟨ys, hy⟩ := ih fun y hy => h y (by simp [hy])
    obtain ⟨y, hx⟩ := Option.isSome_iff_exists.1 (h x (by simp))
    exact ⟨y :: ys, by simp [List.mapM_cons, hx, hy]⟩

theorem dropWhile_ne_nil {α : Type} {p : α → Bool} {x : α} : ∀ {xs : List α}, x ∈ xs → p x = false → xs.dropWhile p ≠ [] := by
  intro xs
  induction xs with
  | nil => simp
  | cons y ys ih =>
    intro h hp
    simp only [List.dropWhile_cons]
    split
    · rename_i hy
      rcases List.mem_cons.1 h with rfl | h
      · rw [hp] at hy; simp at hy
      · exact ih h hp
    · simp

/-- What closing a node can give. -/
def Closed (r : Rule) (items : List Item) (P : Token → Prop) (res : Except MExc Item) : Prop :=
  (∃ i, res = .ok i ∧ i.key = .r r ∧ ItemOk P i) ∨
  (∃ e, res = .error (.parser e) ∧ (r = .dataTable ∨ r = .examplesTable) ∧ RaggedAt items e)

theorem transform_ok {P : Token → Prop} {r : Rule} {b : Bool} {items : List Item} {cm : List Comment} {n : Nat} (hf : FrameOk P (r, b) items)
    (hb : (needKey r).isSome = true → b = true) : Closed r items P (AstB.transform r items cm n).1 := by
  have hneed : (needKey r).isSome = true → Needed r items := fun h => hf.needed (hb h)
  have ok : ∀ i, (AstB.transform r items cm n).1 = .ok i → i.key = .r r → ItemOk P i → Closed r items P (AstB.transform r items cm n).1 :=
    fun i h1 h2 h3 => .inl ⟨i, h1, h2, h3⟩
  cases r with
  | none => exact ok _ rfl rfl ⟨by simp, by simp [needKey]⟩
  | gherkinDocument => exact ok _ rfl rfl trivial
  | feature =>
    clear ok
    simp only [AstB.transform, AstB.mkFeature]
    left
    split
    · exact ⟨_, rfl, rfl, trivial⟩
    · split
      · exact ⟨_, rfl, rfl, trivial⟩
      · split
        · rename_i h
          exfalso
          have : ∃ ys, AstB.getRules items = some ys := by
            apply mapM_isSome
            intro i hi
            simp only [getItems, List.mem_filter, decide_eq_true_eq] at hi
            have h1 := hf.all i hi.1
            obtain ⟨_, h2⟩ := hi
            cases i with
            | rule o => cases o with
              | none => simp [ItemOk] at h1
              | some o => rfl
            | node r sub => simp [Item.key] at h2; simp [ItemOk, h2] at h1
            | tok t =>
              simp only [Item.key] at h2
              split at h2 <;> simp at h2
            | _ => simp [Item.key] at h2
          rw [h] at this; simp at this
        · exact ⟨_, rfl, rfl, trivial⟩
  | featureHeader => exact ok _ rfl rfl ⟨by simp, hneed rfl⟩
  | rule =>
    clear ok
    have h0 := hneed rfl
    obtain ⟨i, h1, h2, h3⟩ := getSingle_some (h0 _ rfl)
    have hi := hf.all i h1
    have : ∃ sub, i = .node .ruleHeader sub := by
      cases i with
      | node r sub => simp [Item.key] at h2; exact ⟨sub, by rw [h2]⟩
      | tok t => simp only [Item.key] at h2; split at h2 <;> simp at h2
      | _ => simp [Item.key] at h2
    obtain ⟨sub, rfl⟩ := this
    obtain ⟨t, ht⟩ := getToken_some (hi.2 _ rfl)
    left
    simp only [AstB.transform, AstB.mkRule, AstB.getNode, h3, ht]
    exact ⟨_, rfl, rfl, rfl⟩
  | ruleHeader => exact ok _ rfl rfl ⟨by simp, hneed rfl⟩
  | background =>
    obtain ⟨t, ht⟩ := getToken_some (hneed rfl _ rfl)
    left
    simp only [AstB.transform, AstB.mkBackground, ht]
    exact ⟨_, rfl, rfl, trivial⟩
  | scenarioDefinition =>
    obtain ⟨i, h1, h2, h3⟩ := getSingle_some (hneed rfl _ rfl)
    have hi := hf.all i h1
    have : ∃ sub, i = .node .scenario sub := by
      cases i with
      | node r sub => simp [Item.key] at h2; exact ⟨sub, by rw [h2]⟩
      | tok t => simp only [Item.key] at h2; split at h2 <;> simp at h2
      | _ => simp [Item.key] at h2
    obtain ⟨sub, rfl⟩ := this
    obtain ⟨t, ht⟩ := getToken_some (hi.2 _ rfl)
    left
    simp only [AstB.transform, AstB.mkScenario, AstB.getNode, h3, ht]
    exact ⟨_, rfl, rfl, trivial⟩
  | scenario => exact ok _ rfl rfl ⟨by simp, hneed rfl⟩
  | examplesDefinition =>
    obtain ⟨i, h1, h2, h3⟩ := getSingle_some (hneed rfl _ rfl)
    have hi := hf.all i h1
    have : ∃ sub, i = .node .examples sub := by
      cases i with
      | node r sub => simp [Item.key] at h2; exact ⟨sub, by rw [h2]⟩
      | tok t => simp only [Item.key] at h2; split at h2 <;> simp at h2
      | _ => simp [Item.key] at h2
    obtain ⟨sub, rfl⟩ := this
    obtain ⟨t, ht⟩ := getToken_some (hi.2 _ rfl)
    left
    simp only [AstB.transform, AstB.mkExamples, AstB.getNode, h3, ht]
    exact ⟨_, rfl, rfl, trivial⟩
  | examples => exact ok _ rfl rfl ⟨by simp, hneed rfl⟩
  | examplesTable =>
    clear ok
    simp only [AstB.transform, AstB.mkExamplesTable]
    have hg := @getTableRows_cases items n
    rcases hx : AstB.getTableRows items n with ⟨x, n'⟩
    rw [hx] at hg
    rcases hg with ⟨rs, h1, _⟩ | ⟨e, h1, h2⟩
    · simp only at h1; subst h1; exact .inl ⟨_, rfl, rfl, trivial⟩
    · simp only at h1; subst h1; exact .inr ⟨e, rfl, .inr rfl, h2⟩
  | step =>
    obtain ⟨t, ht⟩ := getToken_some (hneed rfl _ rfl)
    left
    simp only [AstB.transform, AstB.mkStep, ht]
    exact ⟨_, rfl, rfl, trivial⟩
  | dataTable =>
    clear ok
    simp only [AstB.transform, AstB.mkDataTable]
    have hg := @getTableRows_cases items n
    rcases hx : AstB.getTableRows items n with ⟨x, n'⟩
    rw [hx] at hg
    rcases hg with ⟨rs, h1, h2⟩ | ⟨e, h1, h2⟩
    · simp only at h1; subst h1
      obtain ⟨i, k1, k2⟩ := hneed rfl _ rfl
      obtain ⟨t, rfl, k3⟩ := tok_of_key k2
      have : rs ≠ [] := h2 (by intro h; have := getTokens_mem.2 ⟨k1, k3⟩; rw [h] at this; simp at this)
      cases rs with
      | nil => exact absurd rfl this
      | cons a b => exact .inl ⟨_, rfl, rfl, trivial⟩
    · simp only at h1; subst h1; exact .inr ⟨e, rfl, .inl rfl, h2⟩
  | docString =>
    obtain ⟨t, ts, h1, h2⟩ := hneed rfl
    obtain ⟨md, h2⟩ := Option.isSome_iff_exists.1 h2
    have ht : getToken items .docStringSeparator = some t := by simp [getToken, h1]
    obtain ⟨ys, hy⟩ := mapM_isSome (f := (·.text)) (xs := getTokens items .other) (by
      intro x hx
      obtain ⟨k1, k2⟩ := getTokens_mem.1 hx
      exact (hf.all _ k1).2 k2)
    left
    simp only [AstB.transform, AstB.mkDocString, ht, h2, hy]
    exact ⟨_, rfl, rfl, trivial⟩
  | tags => exact ok _ rfl rfl ⟨by simp, by simp [needKey]⟩
  | description =>
    obtain ⟨t, k1, k2, s, k3, k4⟩ := hneed rfl
    left
    simp only [AstB.transform, AstB.mkDescription]
    have hmem : some s ∈ (getTokens items .other).map (·.text) := by
      rw [List.mem_map]; exact ⟨t, getTokens_mem.2 ⟨k1, k2⟩, k3⟩
    have hne : AstB.trimTexts ((getTokens items .other).map (·.text)) ≠ [] := by
      unfold AstB.trimTexts
      intro h
      rw [List.reverse_eq_nil_iff] at h
      exact dropWhile_ne_nil (x := some s) (by simpa using hmem) (by simp [k4]) h
    have hall : ∀ x ∈ AstB.trimTexts ((getTokens items .other).map (·.text)), (id x).isSome = true := by
      intro x hx
      unfold AstB.trimTexts at hx
      rw [List.mem_reverse] at hx
      have := (List.dropWhile_sublist _).subset hx
      rw [List.mem_reverse, List.mem_map] at this
      obtain ⟨u, u1, rfl⟩ := this
      obtain ⟨v1, v2⟩ := getTokens_mem.1 u1
      exact (hf.all _ v1).2 v2
    obtain ⟨ys, hy⟩ := mapM_isSome hall
    split
    · rename_i h; exact absurd h hne
    · rw [hy]; exact ⟨_, rfl, rfl, trivial⟩

end Gherkin
