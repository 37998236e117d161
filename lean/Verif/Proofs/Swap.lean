import Verif.Proofs.FirstError5
import Verif.Proofs.MdEolBuild
import Verif.Proofs.MdOrder
import Verif.TokenFormatter

/-! Two parses of the same text with the same matcher and different builders, step by step: one builder that never complains, one that does. -/

namespace Gherkin

namespace Swap

/-- A complaint of the builder. -/
abbrev Own (e : Err) : Prop := e.kind = .astBuilder

/-- Errors that are not complaints of the builder. -/
def others (es : List Err) : List Err := es.filter fun e => !decide (Own e)

/-- The text after the place begins with another letter than complaints of the builder do. -/
def Worded (e : Err) : Prop :=
  ∃ loc s, e.msg = Location.pre loc ++ s ∧ (Own e → e.aliasOf = none ∧ s.head? = some 'i') ∧ (¬ Own e → s.head? ≠ some 'i')

theorem others_append (es es' : List Err) : others (es ++ es') = others es ++ others es' := List.filter_append ..

theorem others_sync (t : Token) (es : List Err) : others (syncErrors t es) = syncErrors t (others es) := by
  simp only [others, syncErrors, List.filter_map]
  congr 1
  apply List.filter_congr
  intro e _
  simp only [Function.comp]
  split <;> rfl

theorem worded_sync {t : Token} {es : List Err} (h : ∀ e ∈ es, Worded e) : ∀ e ∈ syncErrors t es, Worded e := by
  intro e he
  simp only [syncErrors, List.mem_map] at he
  obtain ⟨e', h1, rfl⟩ := he
  have := h e' h1
  split
  · exact this
  · exact this

theorem digits_no (n : Nat) : ')' ∉ natStr n := by
  intro h
  have := Nat.isDigit_of_mem_toDigits (by decide) (by decide) h
  revert this; decide

/-- Where the place ends. -/
theorem pre_inj {l l' : Location} {s s' : Str} (h : l.pre ++ s = l'.pre ++ s') : s = s' := by
  have e : ∀ (l : Location) (s : Str), (l.pre ++ s).dropWhile (· != ')') = py"): " ++ s := by
    intro l s
    have h1 : ∀ c ∈ py"(" ++ natStr l.line ++ py":" ++ natStr (l.column.getD 0), (c != ')') = true := by
      intro c hc
      simp only [List.mem_append, bne_iff_ne, ne_eq] at hc ⊢
      rintro rfl
      rcases hc with ((hc | hc) | hc) | hc
      · revert hc; decide
      · exact digits_no _ hc
      · revert hc; decide
      · exact digits_no _ hc
    rw [show l.pre ++ s = (py"(" ++ natStr l.line ++ py":" ++ natStr (l.column.getD 0)) ++ (py"): " ++ s) by simp [Location.pre],
      List.dropWhile_append_of_pos h1]
    rfl
  have := congrArg (List.dropWhile (· != ')')) h
  rw [e, e] at this
  exact List.append_cancel_left this

theorem msg_apart {e e' : Err} (h : Worded e) (h' : Worded e') (hm : e.msg = e'.msg) : Own e ↔ Own e' := by
  obtain ⟨l, s, h1, h2, h3⟩ := h
  obtain ⟨l', s', h1', h2', h3'⟩ := h'
  rw [h1, h1'] at hm
  have := pre_inj hm
  subst this
  constructor
  · intro h; exact Decidable.byContradiction fun hn => h3' hn (h2 h).2
  · intro h; exact Decidable.byContradiction fun hn => h3 hn (h2' h).2

section
variable {μ σ₁ σ₂ ρ₁ ρ₂ : Type} {M : Matcher μ} {B₁ : Builder σ₁ ρ₁} {B₂ : Builder σ₂ ρ₂} {K : Crash → Prop} {J : σ₂ → Prop}

/-- Two contexts that agree on everything the matcher and the driver see; the second one has just the errors that are not complaints of the builder. -/
structure Sim (J : σ₂ → Prop) (c₁ : Ctx μ σ₁) (c₂ : Ctx μ σ₂) : Prop where
  scanner : c₂.scanner = c₁.scanner
  matcher : c₂.matcher = c₁.matcher
  queue : c₂.queue = c₁.queue
  errs : c₂.errors = others c₁.errors
  worded : ∀ e ∈ c₁.errors, Worded e
  few : c₁.errors.length ≤ 10
  good : J c₂.builder

/-- Not a good end. -/
def Off {α : Type} (y : Except Exc α × Ctx μ σ₂) : Prop := (∃ x, y.1 = .error x) ∨ y.2.errors ≠ []

/-- What can come out of the same step, on both sides. -/
inductive Lock (K : Crash → Prop) (J : σ₂ → Prop) {α : Type} : Except Exc α × Ctx μ σ₁ → Except Exc α × Ctx μ σ₂ → Prop
  | ok {a c₁ c₂} : Sim J c₁ c₂ → Lock K J (.ok a, c₁) (.ok a, c₂)
  | crash {x c₁ c₂} : Lock K J (.error (.crash x), c₁) (.error (.crash x), c₂)
  | own {x c₁ y} : K x → Lock K J (.error (.crash x), c₁) y
  | full {es c₁ y} : es.length = 11 → (∀ e ∈ es, Own e) ∨ Off y → Lock K J (.error (.composite es), c₁) y
  | fuel {c₁ c₂} : Lock K J (.error .outOfFuel, c₁) (.error .outOfFuel, c₂)

def bnd {σ α β : Type} (p : Except Exc α × Ctx μ σ) (g : α → Ctx μ σ → Except Exc β × Ctx μ σ) : Except Exc β × Ctx μ σ :=
  match p with
  | (.ok a, c) => g a c
  | (.error x, c) => (.error x, c)

/-- The same step on both sides; on the second side, errors stay. -/
structure Both (K : Crash → Prop) (J : σ₂ → Prop) {α : Type} (P : α → Prop) (F₁ : Ctx μ σ₁ → Except Exc α × Ctx μ σ₁) (F₂ : Ctx μ σ₂ → Except Exc α × Ctx μ σ₂) : Prop where
  lock : ∀ c₁ c₂, Sim J c₁ c₂ → Lock K J (F₁ c₁) (F₂ c₂)
  off : ∀ c₂, c₂.errors ≠ [] → Off (F₂ c₂)
  post : ∀ c a c', F₂ c = (.ok a, c') → P a

theorem Both.bnd {α β : Type} {P : α → Prop} {Q : β → Prop} {F₁ : Ctx μ σ₁ → Except Exc α × Ctx μ σ₁} {F₂ : Ctx μ σ₂ → Except Exc α × Ctx μ σ₂}
    {G₁ : α → Ctx μ σ₁ → Except Exc β × Ctx μ σ₁} {G₂ : α → Ctx μ σ₂ → Except Exc β × Ctx μ σ₂} (h : Both K J P F₁ F₂) (hg : ∀ a, P a → Both K J Q (G₁ a) (G₂ a)) :
    Both K J Q (fun c => Swap.bnd (F₁ c) G₁) (fun c => Swap.bnd (F₂ c) G₂) := by
  have hoff : ∀ y : Except Exc α × Ctx μ σ₂, Off y → (∀ a, y.1 = .ok a → P a) → Off (Swap.bnd y G₂) := by
    rintro ⟨r, c⟩ hy hp
    cases r with
    | error x => exact .inl ⟨x, rfl⟩
    | ok a =>
      rcases hy with ⟨x, hx⟩ | hy
      · cases hx
      · exact (hg a (hp a rfl)).off c hy
  have hpost : ∀ c a, (F₂ c).1 = .ok a → P a := by
    intro c a ha
    exact h.post c a (F₂ c).2 (by rw [← ha])
  refine ⟨fun c₁ c₂ hs => ?_, fun c₂ hc => hoff _ (h.off c₂ hc) (hpost c₂), ?_⟩
  · have hl := h.lock c₁ c₂ hs
    have hp := hpost c₂
    generalize F₁ c₁ = p at hl
    generalize F₂ c₂ = q at hl hp
    cases hl with
    | @ok a d₁ d₂ hs' => exact (hg a (hp a rfl)).lock _ _ hs'
    | crash => exact .crash
    | own hk => exact .own hk
    | full h1 h2 =>
      refine .full h1 ?_
      rcases h2 with h2 | h2
      · exact .inl h2
      · exact .inr (hoff _ h2 hp)
    | fuel => exact .fuel
  · intro c b c' hb
    rcases hF : F₂ c with ⟨r, d⟩
    simp only [hF, Swap.bnd] at hb
    cases r with
    | error x => simp at hb
    | ok a => exact (hg a (hpost c a (by rw [hF]))).post d b c' hb

theorem Both.pure {α : Type} {P : α → Prop} (a : α) (ha : P a) : Both K J P (fun c : Ctx μ σ₁ => (.ok a, c)) (fun c : Ctx μ σ₂ => (.ok a, c)) :=
  ⟨fun _ _ h => .ok h, fun _ h => .inr h, fun c b c' h => by simp at h; rw [← h.1]; exact ha⟩

theorem Both.imp {α : Type} {P Q : α → Prop} {F₁ : Ctx μ σ₁ → Except Exc α × Ctx μ σ₁} {F₂ : Ctx μ σ₂ → Except Exc α × Ctx μ σ₂} (h : Both K J P F₁ F₂) (hi : ∀ a, P a → Q a) :
    Both K J Q F₁ F₂ := ⟨h.lock, h.off, fun c a c' hc => hi a (h.post c a c' hc)⟩

/-- An error that is not a complaint of the builder. -/
theorem addError_both {e : Err} (he : Worded e) (hn : ¬ Own e) : Both (K := K) (J := J) (fun _ => True) (addError (μ := μ) (σ := σ₁) e) (addError (μ := μ) (σ := σ₂) e) := by
  have hoff : ∀ c₂ : Ctx μ σ₂, c₂.errors ≠ [] → Off (addError e c₂) := by
    intro c hc
    rcases addError_cases e c with ⟨_, h⟩ | ⟨_, _, h⟩ | ⟨_, _, h⟩ <;> rw [h]
    · exact .inr hc
    · right; simp
    · exact .inl ⟨_, rfl⟩
  refine ⟨fun c₁ c₂ hs => ?_, hoff, fun _ _ _ _ => trivial⟩
  have hmem : e.msg ∈ c₂.errors.map (·.msg) ↔ e.msg ∈ c₁.errors.map (·.msg) := by
    rw [hs.errs]
    simp only [List.mem_map, others, List.mem_filter]
    constructor
    · rintro ⟨x, ⟨h1, _⟩, h2⟩; exact ⟨x, h1, h2⟩
    · rintro ⟨x, h1, h2⟩
      refine ⟨x, ⟨h1, ?_⟩, h2⟩
      have := msg_apart (hs.worded x h1) he h2
      simpa [this] using hn
  have hle : c₂.errors.length ≤ c₁.errors.length := by rw [hs.errs]; exact List.length_filter_le ..
  have hone : others [e] = [e] := by simp [others, hn]
  rcases addError_cases e c₁ with ⟨h0, h⟩ | ⟨h0, h1, h⟩ | ⟨h0, h1, h⟩
  · rcases addError_cases e c₂ with ⟨k0, k⟩ | ⟨k0, k1, k⟩ | ⟨k0, k1, k⟩
    · rw [h, k]; exact .ok hs
    · exact absurd (hmem.2 h0) k0
    · exact absurd (hmem.2 h0) k0
  · rcases addError_cases e c₂ with ⟨k0, k⟩ | ⟨k0, k1, k⟩ | ⟨k0, k1, k⟩
    · exact absurd (hmem.1 k0) h0
    · rw [h, k]
      refine .ok ⟨hs.scanner, hs.matcher, hs.queue, ?_, ?_, ?_, hs.good⟩
      · simp only; rw [others_append, hone, hs.errs]
      · intro x hx
        rcases List.mem_append.1 hx with hx | hx
        · exact hs.worded x hx
        · rw [List.mem_singleton.1 hx]; exact he
      · simp; omega
    · omega
  · rw [h]
    refine .full (by have := hs.few; simp; omega) (.inr ?_)
    rcases addError_cases e c₂ with ⟨k0, k⟩ | ⟨k0, k1, k⟩ | ⟨k0, k1, k⟩
    · exact absurd (hmem.1 k0) h0
    · rw [k]; right; simp
    · rw [k]; exact .inl ⟨_, rfl⟩

/-- What is asked of the matcher: its errors are no complaints of a builder. -/
def Matches (M : Matcher μ) : Prop := ∀ k t m e, (M.match_ k t m).1 = .error (.parser e) → Worded e ∧ ¬ Own e

/-- What is asked of the first builder. -/
structure Complains (K : Crash → Prop) (B : Builder σ₁ ρ₁) : Prop where
  ev : ∀ b ev e, evAnswer B b ev = .error (.parser e) → Worded e ∧ Own e
  crash : ∀ b ev x, evAnswer B b ev = .error (.crash x) → K x
  res : ∀ b e, B.result b ≠ .error (.parser e)
  resCrash : ∀ b x, B.result b = .error (.crash x) → K x

/-- What is asked of the second builder. -/
structure Silent (J : σ₂ → Prop) (B : Builder σ₂ ρ₂) : Prop where
  ev : ∀ b ev, evAnswer B b ev = .ok ()
  keep : ∀ (b : σ₂) (p : Prod) (t : Token), J b → (t.type ≠ none ∨ p ≠ .build) → J (applyEv B b (p.ev t))
  res : ∀ b, J b → ∃ r, B.result b = .ok r
  start : ∀ b, J (B.reset b)

def pk {σ α : Type} (p : Except Exc α × Token × Ctx μ σ) : Except Exc (α × Token) × Ctx μ σ :=
  match p with
  | (.ok a, t, c) => (.ok (a, t), c)
  | (.error x, _, c) => (.error x, c)

local notation "cfg₁" => Config.mk M B₁ false
local notation "cfg₂" => Config.mk M B₂ false

theorem handle_both {α : Type} (d : α) (r : Except MExc α) (h : ∀ e, r = .error (.parser e) → Worded e ∧ ¬ Own e) :
    Both K J (fun _ => True) (handle cfg₁ d r) (handle cfg₂ d r) := by
  cases r with
  | ok a => exact Both.pure a trivial
  | error x =>
    cases x with
    | crash k => exact ⟨fun _ _ _ => .crash, fun _ _ => .inl ⟨_, rfl⟩, fun _ _ _ _ => trivial⟩
    | parser e =>
      obtain ⟨h1, h2⟩ := h e rfl
      have e1 : ∀ {σ ρ : Type} (B : Builder σ ρ), handle (Config.mk M B false) d (.error (.parser e)) = fun c : Ctx μ σ => Swap.bnd (addError e c) fun _ c => (.ok d, c) := by
        intro σ ρ B
        funext c
        simp only [handle, Bool.false_eq_true, if_false, Swap.bnd]
        rcases addError e c with ⟨y, c'⟩
        rcases y with x | u <;> rfl
      rw [e1, e1]
      exact (addError_both h1 h2).bnd fun _ _ => Both.pure d trivial

theorem sync_ne {t : Token} {es : List Err} (h : es ≠ []) : syncErrors t es ≠ [] := by
  simpa [syncErrors] using h

theorem handle_true {σ ρ : Type} {cfg : Config μ σ ρ} {r : Except MExc Bool} {c c' : Ctx μ σ} (h : handle cfg false r c = (.ok true, c')) : r = .ok true := by
  cases r with
  | ok a => simp only [handle, Prod.mk.injEq, Except.ok.injEq] at h; rw [h.1]
  | error x =>
    cases x with
    | crash k => simp [handle] at h
    | parser e =>
      simp only [handle] at h
      split at h
      · simp at h
      · split at h <;> simp at h

theorem matchTok_both (hL : M.Lawful) (hM : Matches M) (k : Kind) (t : Token) :
    Both K J (fun a : Bool × Token => a.1 = true → a.2.type ≠ none) (fun c => pk (matchTok cfg₁ k t c)) (fun c => pk (matchTok cfg₂ k t c)) := by
  by_cases hk : k ≠ .eof ∧ t.eof = true
  · have e1 : ∀ {σ ρ : Type} (B : Builder σ ρ), (fun c : Ctx μ σ => pk (matchTok (Config.mk M B false) k t c)) = fun c => (.ok (false, t), c) := by
      intro σ ρ B
      funext c
      unfold matchTok
      rw [if_pos hk]; rfl
    rw [e1, e1]
    exact Both.pure _ (by simp)
  · have e1 : ∀ {σ ρ : Type} (B : Builder σ ρ) (c : Ctx μ σ), pk (matchTok (Config.mk M B false) k t c) =
        Swap.bnd (handle (Config.mk M B false) false (M.match_ k t c.matcher).1
          { c with matcher := (M.match_ k t c.matcher).2.2, errors := syncErrors (M.match_ k t c.matcher).2.1 c.errors })
          fun b c' => (.ok (b, (M.match_ k t c.matcher).2.1), c') := by
      intro σ ρ B c
      unfold matchTok
      rw [if_neg hk]
      simp only [Swap.bnd, pk]
      generalize handle _ _ _ _ = y
      rcases y with ⟨x | b, c'⟩ <;> rfl
    refine ⟨fun c₁ c₂ hs => ?_, fun c₂ hc => ?_, ?_⟩
    · rw [e1, e1, hs.matcher]
      have hh := (handle_both (K := K) (J := J) (B₁ := B₁) (B₂ := B₂) (M := M) false (M.match_ k t c₁.matcher).1 (hM k t c₁.matcher)).bnd
        (G₁ := fun b c' => (.ok (b, (M.match_ k t c₁.matcher).2.1), c')) (G₂ := fun b c' => (.ok (b, (M.match_ k t c₁.matcher).2.1), c'))
        (Q := fun _ => True) (fun b _ => Both.pure _ trivial)
      refine hh.lock _ _ ⟨hs.scanner, rfl, hs.queue, ?_, worded_sync hs.worded, ?_, hs.good⟩
      · simp only; rw [hs.errs, others_sync]
      · simp only; rw [syncErrors_length]; exact hs.few
    · rw [e1]
      have hh := (handle_both (K := K) (J := J) (B₁ := B₁) (B₂ := B₂) (M := M) false (M.match_ k t c₂.matcher).1 (hM k t c₂.matcher)).bnd
        (G₁ := fun b c' => (.ok (b, (M.match_ k t c₂.matcher).2.1), c')) (G₂ := fun b c' => (.ok (b, (M.match_ k t c₂.matcher).2.1), c'))
        (Q := fun _ => True) (fun b _ => Both.pure _ trivial)
      exact hh.off _ (sync_ne hc)
    · rintro c ⟨b, t'⟩ c' h
      rw [e1] at h
      simp only [Swap.bnd] at h
      intro hb
      simp only at hb
      subst hb
      generalize hy : handle _ _ _ _ = y at h
      rcases y with ⟨x | b, d⟩
      · simp at h
      · simp only [Prod.mk.injEq, Except.ok.injEq] at h
        obtain ⟨⟨rfl, rfl⟩, rfl⟩ := h
        have := hL.type k t c.matcher (handle_true hy)
        rw [this]; simp

theorem matchAny_both (hL : M.Lawful) (hM : Matches M) : ∀ (ks : List Kind) (t : Token),
    Both K J (fun _ : Bool × Token => True) (fun c => pk (matchAny cfg₁ ks t c)) (fun c => pk (matchAny cfg₂ ks t c))
  | [], t => Both.pure (false, t) trivial
  | k :: ks, t => by
    have e1 : ∀ {σ ρ : Type} (B : Builder σ ρ), (fun c : Ctx μ σ => pk (matchAny (Config.mk M B false) (k :: ks) t c)) = fun c =>
        Swap.bnd (pk (matchTok (Config.mk M B false) k t c)) fun a c' => if a.1 = true then (.ok (true, a.2), c') else pk (matchAny (Config.mk M B false) ks a.2 c') := by
      intro σ ρ B
      funext c
      simp only [matchAny]
      rcases matchTok (Config.mk M B false) k t c with ⟨x | b, t', c'⟩
      · rfl
      · cases b <;> rfl
    rw [e1, e1]
    refine (matchTok_both hL hM k t).bnd fun a _ => ?_
    by_cases ha : a.1 = true
    · simp only [if_pos ha]; exact Both.pure _ trivial
    · simp only [if_neg ha]; exact matchAny_both hL hM ks a.2

def rd {σ : Type} (c : Ctx μ σ) : Except Exc Token × Ctx μ σ := (.ok (readToken c).1, (readToken c).2)

theorem rd_both : Both K J (fun _ : Token => True) (rd (μ := μ) (σ := σ₁)) (rd (μ := μ) (σ := σ₂)) := by
  refine ⟨fun c₁ c₂ hs => ?_, fun c₂ hc => .inr ?_, fun _ _ _ _ => trivial⟩
  · unfold rd readToken
    rw [hs.queue, hs.scanner]
    cases c₁.queue with
    | nil =>
      simp only
      exact .ok ⟨rfl, hs.matcher, rfl, hs.errs, hs.worded, hs.few, hs.good⟩
    | cons t q =>
      simp only
      exact .ok ⟨rfl, hs.matcher, rfl, hs.errs, hs.worded, hs.few, hs.good⟩
  · unfold rd readToken
    cases c₂.queue <;> exact hc

theorem laLoop_both (hL : M.Lawful) (hM : Matches M) (la : LA) : ∀ (fuel : Nat) (acc : List Token),
    Both K J (fun _ => True) (laLoop cfg₁ la fuel acc) (laLoop cfg₂ la fuel acc)
  | 0, acc => ⟨fun _ _ _ => .fuel, fun _ _ => .inl ⟨_, rfl⟩, fun _ _ _ _ => trivial⟩
  | fuel + 1, acc => by
    have e1 : ∀ {σ ρ : Type} (B : Builder σ ρ), laLoop (Config.mk M B false) la (fuel + 1) acc = fun c : Ctx μ σ =>
        Swap.bnd (rd c) fun t c => Swap.bnd (pk (matchTok (Config.mk M B false) la.expected t c)) fun a c =>
          if a.1 = true then (.ok (true, acc ++ [a.2]), c)
          else Swap.bnd (pk (matchAny (Config.mk M B false) skipKinds a.2 c)) fun a c =>
            if a.1 = true then laLoop (Config.mk M B false) la fuel (acc ++ [a.2]) c else (.ok (false, acc ++ [a.2]), c) := by
      intro σ ρ B
      funext c
      simp only [laLoop, rd, Swap.bnd]
      rcases readToken c with ⟨t, c1⟩
      simp only
      rcases matchTok (Config.mk M B false) la.expected t c1 with ⟨x | b, t2, c2⟩
      · rfl
      · cases b with
        | true => rfl
        | false =>
          simp only [pk, Bool.false_eq_true, if_false]
          rcases matchAny (Config.mk M B false) skipKinds t2 c2 with ⟨x | b, t3, c3⟩
          · rfl
          · cases b <;> rfl
    rw [e1, e1]
    refine rd_both.bnd fun t _ => (matchTok_both hL hM la.expected t).bnd fun a _ => ?_
    by_cases ha : a.1 = true
    · simp only [if_pos ha]; exact Both.pure _ trivial
    · simp only [if_neg ha]
      refine (matchAny_both hL hM skipKinds a.2).bnd fun a _ => ?_
      by_cases ha : a.1 = true
      · simp only [if_pos ha]; exact laLoop_both hL hM la fuel _
      · simp only [if_neg ha]; exact Both.pure _ trivial

theorem queue_both (b : Bool) (ts : List Token) : Both K J (fun _ : Bool => True) (fun c : Ctx μ σ₁ => (.ok b, { c with queue := c.queue ++ ts }))
    (fun c : Ctx μ σ₂ => (.ok b, { c with queue := c.queue ++ ts })) :=
  ⟨fun c₁ c₂ hs => .ok ⟨hs.scanner, hs.matcher, by simp only; rw [hs.queue], hs.errs, hs.worded, hs.few, hs.good⟩, fun _ h => .inr h, fun _ _ _ _ => trivial⟩

theorem lookahead_both (hL : M.Lawful) (hM : Matches M) (la : LA) : Both K J (fun _ => True) (lookahead cfg₁ la) (lookahead cfg₂ la) := by
  have e1 : ∀ {σ ρ : Type} (B : Builder σ ρ) (c : Ctx μ σ), lookahead (Config.mk M B false) la c =
      Swap.bnd (laLoop (Config.mk M B false) la (c.queue.length + c.scanner.lines.length + 1) [] c) fun a c => (.ok a.1, { c with queue := c.queue ++ a.2 }) := by
    intro σ ρ B c
    simp only [lookahead, Swap.bnd]
    rcases laLoop (Config.mk M B false) la _ [] c with ⟨x | a, c'⟩ <;> rfl
  have main := fun n => (laLoop_both (K := K) (J := J) (B₁ := B₁) (B₂ := B₂) hL hM la n []).bnd (Q := fun _ => True)
    (G₁ := fun a c => (.ok a.1, { c with queue := c.queue ++ a.2 })) (G₂ := fun a c => (.ok a.1, { c with queue := c.queue ++ a.2 })) fun a _ => queue_both a.1 a.2
  refine ⟨fun c₁ c₂ hs => ?_, fun c₂ hc => ?_, fun _ _ _ _ => trivial⟩
  · rw [e1, e1, hs.queue, hs.scanner]
    exact (main _).lock _ _ hs
  · rw [e1]
    exact (main _).off _ hc

theorem testTrans_both (hL : M.Lawful) (hM : Matches M) (tr : Trans) (t : Token) :
    Both K J (fun a : Bool × Token => a.1 = true → a.2.type ≠ none) (fun c => pk (testTrans cfg₁ tr t c)) (fun c => pk (testTrans cfg₂ tr t c)) := by
  have e1 : ∀ {σ ρ : Type} (B : Builder σ ρ), (fun c : Ctx μ σ => pk (testTrans (Config.mk M B false) tr t c)) = fun c =>
      Swap.bnd (pk (matchTok (Config.mk M B false) tr.kind t c)) fun a c =>
        if a.1 = true then
          match tr.la with
          | none => (.ok (true, a.2), c)
          | some la => Swap.bnd (lookahead (Config.mk M B false) la c) fun b c => (.ok (b, a.2), c)
        else (.ok (false, a.2), c) := by
    intro σ ρ B
    funext c
    simp only [testTrans]
    rcases matchTok (Config.mk M B false) tr.kind t c with ⟨x | b, t', c'⟩
    · rfl
    · cases b with
      | false => rfl
      | true =>
        cases tr.la with
        | none => rfl
        | some la =>
          simp only [pk, Swap.bnd, if_true]
          rcases lookahead (Config.mk M B false) la c' with ⟨x | b, c2⟩ <;> rfl
  rw [e1, e1]
  refine (matchTok_both hL hM tr.kind t).bnd fun a ha => ?_
  by_cases hb : a.1 = true
  · simp only [if_pos hb]
    cases tr.la with
    | none => exact Both.pure _ fun _ => ha hb
    | some la => exact (lookahead_both hL hM la).bnd fun b _ => Both.pure _ fun _ => ha hb
  · simp only [if_neg hb]; exact Both.pure _ (by simp)

theorem runProd_both (h1 : Complains K B₁) (h2 : Silent J B₂) (p : Prod) (t : Token) (ht : t.type ≠ none ∨ p ≠ .build) :
    Both K J (fun _ => True) (runProd cfg₁ p t) (runProd cfg₂ p t) := by
  have e2 : ∀ c : Ctx μ σ₂, runProd cfg₂ p t c = (.ok (), { c with builder := applyEv B₂ c.builder (p.ev t), log := c.log ++ [p.ev t] }) := by
    intro c
    rw [runProd_eq]
    simp only [h2.ev, handle]
  refine ⟨fun c₁ c₂ hs => ?_, fun c₂ hc => by rw [e2]; exact .inr hc, fun _ _ _ _ => trivial⟩
  rw [e2, runProd_eq]
  have hs' : ∀ c₁' : Ctx μ σ₁, c₁'.scanner = c₁.scanner → c₁'.matcher = c₁.matcher → c₁'.queue = c₁.queue → others c₁'.errors = others c₁.errors →
      (∀ e ∈ c₁'.errors, Worded e) → c₁'.errors.length ≤ 10 → Sim J c₁' { c₂ with builder := applyEv B₂ c₂.builder (p.ev t), log := c₂.log ++ [p.ev t] } :=
    fun c₁' k1 k2 k3 k4 k5 k6 => ⟨by rw [k1]; exact hs.scanner, by rw [k2]; exact hs.matcher, by rw [k3]; exact hs.queue, by rw [k4]; exact hs.errs, k5, k6, h2.keep _ _ _ hs.good ht⟩
  cases ha : evAnswer B₁ c₁.builder (p.ev t) with
  | ok u =>
    simp only [handle]
    exact .ok (hs' _ rfl rfl rfl rfl hs.worded hs.few)
  | error x =>
    cases x with
    | crash x => simp only [handle]; exact .own (h1.crash _ _ _ ha)
    | parser e =>
      obtain ⟨he, ho⟩ := h1.ev _ _ _ ha
      simp only [handle, Bool.false_eq_true, if_false]
      generalize hc : ({ c₁ with builder := _, log := _ } : Ctx μ σ₁) = c
      have hce : c.errors = c₁.errors := by rw [← hc]
      have hw : ∀ x ∈ c.errors ++ [e], Worded x := by
        intro x hx
        rcases List.mem_append.1 hx with hx | hx
        · exact hs.worded x (by rw [← hce]; exact hx)
        · rw [List.mem_singleton.1 hx]; exact he
      have hone : others (c.errors ++ [e]) = others c₁.errors := by rw [others_append, hce]; simp [others, ho]
      rcases addError_cases e c with ⟨_, k⟩ | ⟨_, k1, k⟩ | ⟨_, k1, k⟩
      · rw [k]
        exact .ok (hs' _ (by rw [← hc]) (by rw [← hc]) (by rw [← hc]) (by rw [hce]) (by rw [hce]; exact hs.worded) (by rw [hce]; exact hs.few))
      · rw [k]
        exact .ok (hs' _ (by rw [← hc]) (by rw [← hc]) (by rw [← hc]) hone hw (by simp; omega))
      · rw [k]
        refine .full (by have := hs.few; rw [← hce] at this; simp; omega) ?_
        by_cases hall : ∀ x ∈ c.errors ++ [e], Own x
        · exact .inl hall
        · right; right
          simp only
          rw [hs.errs, ← hone]
          intro hn
          apply hall
          intro x hx
          simp only [others, List.filter_eq_nil_iff] at hn
          simpa using hn x hx

theorem runProds_both (h1 : Complains K B₁) (h2 : Silent J B₂) (t : Token) (ht : t.type ≠ none) : ∀ (ps : List Prod),
    Both K J (fun _ => True) (runProds cfg₁ ps t) (runProds cfg₂ ps t)
  | [] => Both.pure () trivial
  | p :: ps => by
    have e1 : ∀ {σ ρ : Type} (B : Builder σ ρ), runProds (Config.mk M B false) (p :: ps) t = fun c : Ctx μ σ =>
        Swap.bnd (runProd (Config.mk M B false) p t c) fun _ c => runProds (Config.mk M B false) ps t c := by
      intro σ ρ B
      funext c
      simp only [runProds, Swap.bnd]
      rcases runProd (Config.mk M B false) p t c with ⟨x | u, c'⟩ <;> rfl
    rw [e1, e1]
    exact (runProd_both h1 h2 p t (.inl ht)).bnd fun _ _ => runProds_both h1 h2 t ht ps

theorem tryTrans_both (hL : M.Lawful) (hM : Matches M) (h1 : Complains K B₁) (h2 : Silent J B₂) : ∀ (rows : List Trans) (t : Token),
    Both K J (fun _ => True) (fun c => pk (tryTrans cfg₁ rows t c)) (fun c => pk (tryTrans cfg₂ rows t c))
  | [], t => Both.pure (none, t) trivial
  | tr :: rows, t => by
    have e1 : ∀ {σ ρ : Type} (B : Builder σ ρ), (fun c : Ctx μ σ => pk (tryTrans (Config.mk M B false) (tr :: rows) t c)) = fun c =>
        Swap.bnd (pk (testTrans (Config.mk M B false) tr t c)) fun a c =>
          if a.1 = true then Swap.bnd (runProds (Config.mk M B false) tr.prods a.2 c) fun _ c => (.ok (some tr.target, a.2), c)
          else pk (tryTrans (Config.mk M B false) rows a.2 c) := by
      intro σ ρ B
      funext c
      simp only [tryTrans]
      rcases testTrans (Config.mk M B false) tr t c with ⟨x | b, t', c'⟩
      · rfl
      · cases b with
        | false => rfl
        | true =>
          simp only [pk, Swap.bnd, if_true]
          rcases runProds (Config.mk M B false) tr.prods t' c' with ⟨x | u, c2⟩ <;> rfl
    rw [e1, e1]
    refine (testTrans_both hL hM tr t).bnd fun a ha => ?_
    by_cases hb : a.1 = true
    · simp only [if_pos hb]
      exact (runProds_both h1 h2 a.2 (ha hb) tr.prods).bnd fun _ _ => Both.pure _ trivial
    · simp only [if_neg hb]
      exact tryTrans_both hL hM h1 h2 rows a.2

theorem unexpected_worded (ks : List Kind) (t : Token) : Worded (unexpected ks t) ∧ ¬ Own (unexpected ks t) := by
  unfold unexpected
  split
  · have : ¬ Own (Err.mkUnexpectedEof t ks) := by simp [Own, Err.mkUnexpectedEof]
    exact ⟨⟨_, _, rfl, fun h => absurd h this, fun _ => by simp⟩, this⟩
  · have : ¬ Own (Err.mkUnexpectedToken t ks) := by simp [Own, Err.mkUnexpectedToken]
    exact ⟨⟨_, _, rfl, fun h => absurd h this, fun _ => by simp⟩, this⟩

theorem matchToken_both (hL : M.Lawful) (hM : Matches M) (h1 : Complains K B₁) (h2 : Silent J B₂) (q : Nat) (t : Token) :
    Both K J (fun _ => True) (matchToken cfg₁ q t) (matchToken cfg₂ q t) := by
  have e1 : ∀ {σ ρ : Type} (B : Builder σ ρ), matchToken (Config.mk M B false) q t = fun c : Ctx μ σ =>
      match table q with
      | none => (.error (.crash .runtimeError), c)
      | some row => Swap.bnd (pk (tryTrans (Config.mk M B false) row.trans t c)) fun a c =>
        match a.1 with
        | some target => (.ok target, c)
        | none => Swap.bnd (addError (unexpected row.expected a.2) c) fun _ c => (.ok row.stay, c) := by
    intro σ ρ B
    funext c
    simp only [matchToken]
    cases table q with
    | none => rfl
    | some row =>
      simp only
      rcases tryTrans (Config.mk M B false) row.trans t c with ⟨x | o, t', c'⟩
      · rfl
      · cases o with
        | some target => rfl
        | none =>
          simp only [pk, Swap.bnd, Bool.false_eq_true, if_false]
          rcases addError (unexpected row.expected t') c' with ⟨x | u, c2⟩ <;> rfl
  rw [e1, e1]
  cases table q with
  | none => exact ⟨fun _ _ _ => .crash, fun _ _ => .inl ⟨_, rfl⟩, fun _ _ _ _ => trivial⟩
  | some row =>
    refine (tryTrans_both hL hM h1 h2 row.trans t).bnd fun a _ => ?_
    rcases a with ⟨o, t'⟩
    cases o with
    | some target => exact Both.pure _ trivial
    | none =>
      obtain ⟨w1, w2⟩ := unexpected_worded row.expected t'
      exact (addError_both w1 w2).bnd fun _ _ => Both.pure _ trivial

theorem Both.logged {α : Type} {P : α → Prop} {F₁ : Ctx μ σ₁ → Except Exc α × Ctx μ σ₁} {F₂ : Ctx μ σ₂ → Except Exc α × Ctx μ σ₂} (h : Both K J P F₁ F₂) (evs : List Ev) :
    Both K J P (fun c => F₁ { c with log := c.log ++ evs }) (fun c => F₂ { c with log := c.log ++ evs }) :=
  ⟨fun _ _ hs => h.lock _ _ ⟨hs.scanner, hs.matcher, hs.queue, hs.errs, hs.worded, hs.few, hs.good⟩, fun _ hc => h.off _ hc, fun _ a c' hc => h.post _ a c' hc⟩

theorem parseLoop_both (hL : M.Lawful) (hM : Matches M) (h1 : Complains K B₁) (h2 : Silent J B₂) : ∀ (fuel q : Nat),
    Both K J (fun _ => True) (parseLoop cfg₁ fuel q) (parseLoop cfg₂ fuel q)
  | 0, q => ⟨fun _ _ _ => .fuel, fun _ _ => .inl ⟨_, rfl⟩, fun _ _ _ _ => trivial⟩
  | fuel + 1, q => by
    have e1 : ∀ {σ ρ : Type} (B : Builder σ ρ), parseLoop (Config.mk M B false) (fuel + 1) q = fun c : Ctx μ σ =>
        Swap.bnd (rd c) fun t c => Swap.bnd (matchToken (Config.mk M B false) q t { c with log := c.log ++ [.take t.line] }) fun q' c =>
          if t.eof = true then (.ok (), c) else parseLoop (Config.mk M B false) fuel q' c := by
      intro σ ρ B
      funext c
      simp only [parseLoop, rd, Swap.bnd]
      rcases readToken c with ⟨t, c1⟩
      simp only
      rcases matchToken (Config.mk M B false) q t { c1 with log := c1.log ++ [.take t.line] } with ⟨x | q', c2⟩ <;> rfl
    rw [e1, e1]
    refine rd_both.bnd fun t _ => ((matchToken_both hL hM h1 h2 q t).logged [.take t.line]).bnd fun q' _ => ?_
    by_cases ht : t.eof = true
    · simp only [if_pos ht]; exact Both.pure _ trivial
    · simp only [if_neg ht]; exact parseLoop_both hL hM h1 h2 fuel q'

end

end Swap

end Gherkin
