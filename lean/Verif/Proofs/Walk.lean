import Verif.Proofs.Accepted

/-! The events an accepted run sends to the AST builder are the walk over its derivation tree, and the builder evaluates that tree
bottom up. -/

namespace Gherkin

/-! ### Walks -/

mutual
/-- The builder events of a tree. -/
def walkT : Tree → List Ev
  | .leaf _ t => [.build t]
  | .node r cs => .start r :: (walkF cs ++ [.stop .none])
/-- The builder events of a list of trees. -/
def walkF : List Tree → List Ev
  | [] => []
  | c :: cs => walkT c ++ walkF cs
end

theorem walkF_append (a b : List Tree) : walkF (a ++ b) = walkF a ++ walkF b := by
  induction a with
  | nil => rfl
  | cons c a ih => simp [walkF, ih]

/-- The builder events of an unfinished tree. -/
def walkS : TStack → List Ev
  | [] => []
  | [(_, cs)] => walkF cs
  | (r, cs) :: s :: rest => walkS (s :: rest) ++ .start r :: walkF cs

/-- The events the builder sees; it ignores the argument of `end_rule`. -/
def erase : List Ev → List Ev
  | [] => []
  | .take _ :: es => erase es
  | .stop _ :: es => .stop .none :: erase es
  | e :: es => e :: erase es

theorem erase_append (a b : List Ev) : erase (a ++ b) = erase a ++ erase b := by
  induction a with
  | nil => rfl
  | cons e a ih => cases e <;> simp [erase, ih]

theorem foldl_erase (b : BState) (log : List Ev) :
    (erase log).foldl (applyEv astBuilder) b = log.foldl (applyEv astBuilder) b ∧
    (BuildsOk astBuilder b (erase log) ↔ BuildsOk astBuilder b log) := by
  induction log generalizing b with
  | nil => exact ⟨rfl, Iff.rfl⟩
  | cons e es ih =>
    cases e with
    | take l => exact ⟨(ih b).1, by simp only [erase, BuildsOk, evAnswer, applyEv, true_and]; exact (ih b).2⟩
    | start r =>
      refine ⟨by simp only [erase, List.foldl_cons]; exact (ih _).1, ?_⟩
      simp only [erase, BuildsOk]; rw [(ih _).2]
    | stop r =>
      have h : applyEv astBuilder b (.stop .none) = applyEv astBuilder b (.stop r) ∧
          evAnswer astBuilder b (.stop .none) = evAnswer astBuilder b (.stop r) := ⟨rfl, rfl⟩
      refine ⟨by simp only [erase, List.foldl_cons, h.1]; exact (ih _).1, ?_⟩
      simp only [erase, BuildsOk, h.1, h.2]; rw [(ih _).2]
    | build t =>
      refine ⟨by simp only [erase, List.foldl_cons]; exact (ih _).1, ?_⟩
      simp only [erase, BuildsOk]; rw [(ih _).2]

theorem applyEv_depth {b : BState} {e : Ev} {s : TStack} (hok : evAnswer astBuilder b e = .ok ())
    (hd : s.length = b.stack.length) :
    (applyT s e).length = (applyEv astBuilder b e).stack.length ∧ (s ≠ [] → walkS (applyT s e) = walkS s ++ erase [e]) := by
  cases e with
  | take l => simp [applyT, applyEv, erase, hd]
  | start r =>
    refine ⟨by simp [applyT, applyEv, astBuilder, AstB.startRule, hd], fun hs => ?_⟩
    cases s with
    | nil => exact absurd rfl hs
    | cons x s => simp [applyT, walkS, walkF, erase]
  | stop r =>
    simp only [evAnswer, astBuilder, AstB.endRule] at hok
    match hb : b.stack with
    | [] => rw [hb] at hok; simp at hok
    | [x] => rw [hb] at hok; simp at hok
    | (r1, i1) :: (r2, i2) :: rest =>
      rw [hb] at hd
      match s, hd with
      | (r, cs) :: (pr, pcs) :: srest, hd =>
        refine ⟨?_, fun _ => ?_⟩
        · simp only [applyT, applyEv, astBuilder, AstB.endRule, hb]
          cases AstB.transform r1 i1 b.comments b.nextId with
          | mk x n => cases x <;> (simp at hd ⊢; exact hd)
        · simp only [applyT]
          cases srest with
          | nil => simp [walkS, walkF_append, walkF, walkT, erase]
          | cons y ys => simp [walkS, walkF_append, walkF, walkT, erase]
  | build t =>
    cases s with
    | nil =>
      refine ⟨?_, fun h => absurd rfl h⟩
      cases hb : b.stack with
      | nil =>
        simp only [evAnswer, astBuilder, AstB.build] at hok
        simp only [applyT, applyEv, astBuilder, AstB.build]
        split <;> simp [hb]
      | cons x y => rw [hb] at hd; simp at hd
    | cons p rest =>
      obtain ⟨r, cs⟩ := p
      refine ⟨?_, fun _ => ?_⟩
      · simp only [applyT, applyEv, astBuilder, AstB.build]
        cases hb : b.stack with
        | nil => rw [hb] at hd; simp at hd
        | cons x y =>
          rw [hb] at hd
          split <;> simp at hd ⊢ <;> simp [hb, hd]
      · simp only [applyT]
        cases rest with
        | nil => simp [walkS, walkF_append, walkF, walkT, erase]
        | cons y ys => simp [walkS, walkF_append, walkF, walkT, erase]

/-- In a log the AST builder accepted, the events are the walk over the tree. -/
theorem erase_eq_walk {b : BState} (hb : b.stack.length = 1) {log : List Ev} (h : BuildsOk astBuilder b log) :
    erase log = walkS (treeStack log) := by
  have key : ∀ (log : List Ev) (b : BState) (s : TStack), s ≠ [] → s.length = b.stack.length → BuildsOk astBuilder b log →
      walkS (log.foldl applyT s) = walkS s ++ erase log := by
    intro log
    induction log with
    | nil => intro b s _ _ _; simp [erase]
    | cons e es ih =>
      intro b s hs hd hok
      obtain ⟨h1, h2⟩ := hok
      obtain ⟨a1, a2⟩ := applyEv_depth h1 hd
      rw [List.foldl_cons, ih _ _ (applyT_ne s e hs) a1 h2, a2 hs, List.append_assoc, ← erase_append]
      rfl
  have := key log b [(.none, [])] (by simp) (by simp [hb]) h
  rw [treeStack, this]
  simp [walkS, walkF]

/-! ### Evaluation -/

mutual
/-- What a tree adds to its parent node, and the id counter afterwards; `none` if the builder refuses. -/
def evalT : Tree → Nat → Option (List Item × Nat)
  | .leaf k t, n => if k = .comment then some ([], n) else some ([.tok t], n)
  | .node r cs, n =>
    match evalF cs n with
    | none => none
    | some (items, n1) =>
      match AstB.transform r items [] n1 with
      | (.ok item, n2) => some ([item], n2)
      | (.error _, _) => none
/-- What a list of trees adds to its parent node. -/
def evalF : List Tree → Nat → Option (List Item × Nat)
  | [], n => some ([], n)
  | c :: cs, n =>
    match evalT c n with
    | none => none
    | some (i1, n1) =>
      match evalF cs n1 with
      | none => none
      | some (i2, n2) => some (i1 ++ i2, n2)
end

mutual
/-- The comment tokens of a tree. -/
def commentsT : Tree → List Comment
  | .leaf k t => if k = .comment then [⟨t.loc, t.text⟩] else []
  | .node _ cs => commentsF cs
/-- The comment tokens of a list of trees. -/
def commentsF : List Tree → List Comment
  | [] => []
  | c :: cs => commentsT c ++ commentsF cs
end

mutual
/-- No node for a whole document inside; leaves carry their kind. -/
def Plain : Tree → Prop
  | .leaf k t => t.type = some k
  | .node r cs => r ≠ .gherkinDocument ∧ PlainF cs
/-- The same for a list of trees. -/
def PlainF : List Tree → Prop
  | [] => True
  | c :: cs => Plain c ∧ PlainF cs
end

theorem transform_comments {r : Rule} (hr : r ≠ .gherkinDocument) (items : List Item) (cms : List Comment) (n : Nat) :
    AstB.transform r items cms n = AstB.transform r items [] n := by
  cases r <;> first | rfl | exact absurd rfl hr

mutual
theorem walkT_eval : ∀ (c : Tree), Plain c → ∀ (b : BState) (r : Rule) (items : List Item) (rest : List (Rule × List Item)),
    b.stack = (r, items) :: rest → BuildsOk astBuilder b (walkT c) →
    ∃ its n', evalT c b.nextId = some (its, n') ∧
      (walkT c).foldl (applyEv astBuilder) b =
        { stack := (r, items ++ its) :: rest, comments := b.comments ++ commentsT c, nextId := n' }
  | .leaf k t, hp, b, r, items, rest, hb, _ => by
    simp only [Plain] at hp
    by_cases hk : k = .comment
    · subst hk
      refine ⟨[], b.nextId, by simp [evalT], ?_⟩
      simp [walkT, applyEv, astBuilder, AstB.build, hp, hb, commentsT]
    · have hk' : t.type ≠ some .comment := by rw [hp]; simpa using hk
      refine ⟨[.tok t], b.nextId, by simp [evalT, hk], ?_⟩
      simp [walkT, applyEv, astBuilder, AstB.build, hb, commentsT, hk', hk]
  | .node r' cs, hp, b, r, items, rest, hb, hok => by
    simp only [walkT] at hok
    obtain ⟨_, hok⟩ := hok
    rw [BuildsOk_append] at hok
    obtain ⟨hok1, hok2, _⟩ := hok
    have hst : (applyEv astBuilder b (.start r')) = { b with stack := (r', []) :: (r, items) :: rest } := by
      simp [applyEv, astBuilder, AstB.startRule, hb]
    rw [hst] at hok1 hok2
    obtain ⟨its, n1, h1, h2⟩ := walkF_eval cs hp.2 { b with stack := (r', []) :: (r, items) :: rest } r' [] ((r, items) :: rest) rfl hok1
    rw [h2] at hok2
    simp only [evAnswer, astBuilder, AstB.endRule, List.nil_append] at hok2
    rw [transform_comments hp.1] at hok2
    simp only [walkT, List.foldl_cons, List.foldl_append, List.foldl_nil]
    rw [hst, h2]
    simp only [applyEv, astBuilder, AstB.endRule, List.nil_append, evalT, commentsT]
    simp only at h1
    rw [h1, transform_comments hp.1]
    rcases ht : AstB.transform r' its [] n1 with ⟨x, n2⟩
    rw [ht] at hok2
    cases x with
    | error e => simp at hok2
    | ok item => exact ⟨[item], n2, by simp only [ht], rfl⟩
theorem walkF_eval : ∀ (cs : List Tree), PlainF cs → ∀ (b : BState) (r : Rule) (items : List Item) (rest : List (Rule × List Item)),
    b.stack = (r, items) :: rest → BuildsOk astBuilder b (walkF cs) →
    ∃ its n', evalF cs b.nextId = some (its, n') ∧
      (walkF cs).foldl (applyEv astBuilder) b =
        { stack := (r, items ++ its) :: rest, comments := b.comments ++ commentsF cs, nextId := n' }
  | [], _, b, r, items, rest, hb, _ => by
    refine ⟨[], b.nextId, rfl, ?_⟩
    cases b; simp [walkF, commentsF] at hb ⊢; exact hb
  | c :: cs, hp, b, r, items, rest, hb, hok => by
    simp only [walkF] at hok
    rw [BuildsOk_append] at hok
    obtain ⟨i1, n1, h1, h2⟩ := walkT_eval c hp.1 b r items rest hb hok.1
    rw [h2] at hok
    obtain ⟨i2, n2, h3, h4⟩ := walkF_eval cs hp.2 _ r (items ++ i1) rest rfl hok.2
    refine ⟨i1 ++ i2, n2, ?_, ?_⟩
    · simp only at h3
      simp [evalF, h1, h3]
    · simp only [walkF, List.foldl_append]
      rw [h2, h4]
      simp [commentsF]
end

/-! ### Conforming trees -/

/-- The symbols of a right-hand side. -/
def Re.syms : Re → List Sym
  | .empty => []
  | .eps => []
  | .sym s => [s]
  | .alt a b => a.syms ++ b.syms
  | .seq a b => a.syms ++ b.syms
  | .star a => a.syms

theorem Lang.syms {g : Re} {w : List Sym} (h : Lang g w) : ∀ s ∈ w, s ∈ g.syms := by
  induction h with
  | eps => simp
  | sym s => simp [Re.syms]
  | altL _ ih => intro s hs; simp [Re.syms, ih s hs]
  | altR _ ih => intro s hs; simp [Re.syms, ih s hs]
  | seq _ _ ih1 ih2 => intro s hs; simp at hs; rcases hs with hs | hs <;> simp [Re.syms, ih1 _, ih2 _, hs]
  | starNil => simp
  | starCons _ _ ih1 ih2 =>
    intro s hs; simp at hs
    rcases hs with hs | hs
    · exact ih1 s hs
    · exact ih2 s hs

theorem Skips.mem {w w' : List Sym} (h : Skips w w') : ∀ s ∈ w, s ∈ w' ∨ s.ignorable = true := by
  induction h with
  | nil => simp
  | keep _ ih =>
    intro s hs; simp at hs
    rcases hs with rfl | hs
    · simp
    · rcases ih s hs with h | h <;> simp [h]
  | skip hi _ ih =>
    intro s hs; simp at hs
    rcases hs with rfl | hs
    · exact .inr hi
    · exact ih s hs

theorem doc_not_child (r : Rule) (hr : r ≠ .none) : Sym.r .gherkinDocument ∉ (grammar r).syms := by
  cases r <;> first | exact absurd rfl hr | decide

theorem none_not_child (r : Rule) : Sym.r .none ∉ (grammar r).syms := by
  cases r <;> decide

mutual
theorem Conforms.plain : ∀ (c : Tree), Conforms c → c.sym ≠ .r .gherkinDocument → c.sym ≠ .r .none → Plain c
  | .leaf k t, h, _, _ => by cases h; assumption
  | .node r cs, h, hs, hn => by
    refine ⟨by rintro rfl; exact hs rfl, ?_⟩
    cases h with
    | node h1 h2 h3 =>
      refine Conforms.plainF cs h1 ?_
      intro c hc
      have hm := Skips.mem h2 c.sym (List.mem_map_of_mem hc)
      constructor
      · intro he
        rw [he] at hm
        rcases hm with hm | hm
        · exact doc_not_child r (by rintro rfl; exact hn rfl) (h3.syms _ hm)
        · simp [Sym.ignorable] at hm
      · intro he
        rw [he] at hm
        rcases hm with hm | hm
        · exact none_not_child r (h3.syms _ hm)
        · simp [Sym.ignorable] at hm
theorem Conforms.plainF : ∀ (cs : List Tree), (∀ c ∈ cs, Conforms c) →
    (∀ c ∈ cs, c.sym ≠ .r .gherkinDocument ∧ c.sym ≠ .r .none) → PlainF cs
  | [], _, _ => trivial
  | c :: cs, h, hs => ⟨Conforms.plain c (h c (by simp)) (hs c (by simp)).1 (hs c (by simp)).2,
      Conforms.plainF cs (fun x hx => h x (by simp [hx])) (fun x hx => hs x (by simp [hx]))⟩
end

/-- What an accepted parse with the AST builder returns, in terms of its derivation tree. -/
theorem accepted_eval {μ : Type} {M : Matcher μ} {stop : Bool} {text : Str} {b : BState} {c : Ctx μ BState} {kids : List Tree}
    (hA : Accepted ⟨M, astBuilder, stop⟩ text (AstB.reset b) c kids) :
    PlainF kids ∧ ∃ items n, evalF kids b.nextId = some (items, n) ∧
      c.builder = { stack := [(.none, [AstB.mkDocument items (commentsF kids)])], comments := commentsF kids, nextId := n } := by
  have hplain : PlainF kids := by
    have := hA.conforms
    cases this with
    | node h1 h2 h3 =>
      refine Conforms.plainF kids h1 ?_
      intro x hx
      have hm := Skips.mem h2 x.sym (List.mem_map_of_mem hx)
      refine ⟨fun he => ?_, fun he => ?_⟩
      · rw [he] at hm
        rcases hm with hm | hm
        · exact doc_not_child _ (by simp) (h3.syms _ hm)
        · simp [Sym.ignorable] at hm
      · rw [he] at hm
        rcases hm with hm | hm
        · exact none_not_child _ (h3.syms _ hm)
        · simp [Sym.ignorable] at hm
  refine ⟨hplain, ?_⟩
  have hw := erase_eq_walk (b := AstB.reset b) rfl hA.builds
  have hf := foldl_erase (AstB.reset b) c.log
  rw [hA.stack] at hw
  simp only [walkS, walkF, walkT, List.append_nil] at hw
  have hb := hA.builder
  simp only at hb
  have hok := hf.2.2 hA.builds
  rw [hw] at hf hok
  obtain ⟨_, hok⟩ := hok
  rw [BuildsOk_append] at hok
  have hst : applyEv astBuilder (AstB.reset b) (.start .gherkinDocument) =
      { stack := [(.gherkinDocument, []), (.none, [])], comments := [], nextId := b.nextId } := rfl
  rw [hst] at hok
  obtain ⟨its, n, h1, h2⟩ := walkF_eval kids hplain _ .gherkinDocument [] [(.none, [])] rfl hok.1
  refine ⟨its, n, h1, ?_⟩
  rw [hb, ← hf.1]
  simp only [List.foldl_cons, List.foldl_append, List.foldl_nil]
  rw [hst, h2]
  simp [applyEv, astBuilder, AstB.endRule, AstB.transform]

end Gherkin
