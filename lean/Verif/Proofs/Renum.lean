import Verif.Proofs.Builds

/-! Lines with the same text but other numbers are read in the same way. -/

namespace Gherkin

open Auto

/-- A token without the place it comes from. -/
def Token.erase (t : Token) : Token := { t with line := ⟨[], 0⟩, loc := ⟨0, none⟩ }

theorem erase_type (t : Token) : t.erase.type = t.type := rfl
theorem erase_core (t : Token) : t.erase.isCore = t.isCore := rfl
theorem erase_items (t : Token) : t.erase.items = t.items := rfl
theorem erase_text (t : Token) : t.erase.text = t.text := rfl

theorem matchKind_renum {k : Kind} {s : Str} {n n' : Nat} {m m' : CState} {b : Bool} {t : Token}
    (h : Classic.matchKind k (Token.fresh ⟨s, n⟩) m = (.ok b, t, m')) :
    ∃ t', Classic.matchKind k (Token.fresh ⟨s, n'⟩) m = (.ok b, t', m') ∧ t'.erase = t.erase := by
  have hl : ∀ n, (Token.fresh ⟨s, n⟩).line = ⟨s, n⟩ := fun _ => rfl
  have e1 : ∀ p, (Line.mk s n').startsWith p = (Line.mk s n).startsWith p := fun _ => rfl
  have e2 : ∀ p, (Line.mk s n').startsWithTitle p = (Line.mk s n).startsWithTitle p := fun _ => rfl
  have e3 : (Line.mk s n').isBlank = (Line.mk s n).isBlank := rfl
  have e4 : (Line.mk s n').isEof = (Line.mk s n).isEof := rfl
  have e5 : (Line.mk s n').lineText = (Line.mk s n).lineText := rfl
  have e6 : (Line.mk s n').tags = (Line.mk s n).tags := rfl
  have e7 : (Line.mk s n').tableCells = (Line.mk s n).tableCells := rfl
  have e8 : ∀ j, (Line.mk s n').lineTextFrom j = (Line.mk s n).lineTextFrom j := fun _ => rfl
  have e9 : (Line.mk s n').indent = (Line.mk s n).indent := rfl
  have e10 : ∀ j, (Line.mk s n').restTrimmed j = (Line.mk s n).restTrimmed j := fun _ => rfl
  revert h
  cases k <;>
    simp only [Classic.matchKind, Classic.matchEof, Classic.matchEmpty, Classic.matchComment, Classic.matchTagLine, Classic.matchTitle,
      Classic.matchStep, Classic.matchDocSep, Classic.matchSep, Classic.matchTableRow, Classic.matchLanguage, Classic.matchOther,
      Token.eof, hl, e1, e2, e3, e4, e5, e6, e7, e8, e9, e10] <;>
    (repeat' split) <;> intro h <;> simp only [Prod.mk.injEq, Except.ok.injEq, reduceCtorEq, false_and] at h <;>
    (obtain ⟨rfl, rfl, rfl⟩ := h; exact ⟨_, rfl, rfl⟩)

theorem match_ok_renum (k : Kind) (s : Str) (n n' : Nat) (m : CState) (b : Bool) :
    (Classic.matchKind k (Token.fresh ⟨s, n⟩) m).1 = .ok b ↔ (Classic.matchKind k (Token.fresh ⟨s, n'⟩) m).1 = .ok b := by
  have key : ∀ n n', (Classic.matchKind k (Token.fresh ⟨s, n⟩) m).1 = .ok b → (Classic.matchKind k (Token.fresh ⟨s, n'⟩) m).1 = .ok b := by
    intro n n' h
    obtain ⟨t', h', _⟩ := matchKind_renum (n' := n') (b := b) (t := (Classic.matchKind k (Token.fresh ⟨s, n⟩) m).2.1)
      (m' := (Classic.matchKind k (Token.fresh ⟨s, n⟩) m).2.2) (Prod.ext h rfl)
    rw [h']
  exact ⟨key n n', key n' n⟩

theorem peek_renum (la : LA) (m : CState) : ∀ {r r' : List Line}, r.map (·.text) = r'.map (·.text) → Pure.peek la m r = Pure.peek la m r'
  | [], [], _ => rfl
  | [], _ :: _, h => by simp at h
  | _ :: _, [], h => by simp at h
  | l :: r, l' :: r', h => by
    simp only [List.map_cons, List.cons.injEq] at h
    have ih := peek_renum la m h.2
    obtain ⟨s, n⟩ := l
    obtain ⟨s', n'⟩ := l'
    obtain ⟨h1, _⟩ := h
    simp only at h1
    subst h1
    have e1 : ∀ p, (Line.mk s n').startsWith p = (Line.mk s n).startsWith p := fun _ => rfl
    have e3 : (Line.mk s n').isBlank = (Line.mk s n).isBlank := rfl
    have e4 : (Line.mk s n').isEof = (Line.mk s n).isEof := rfl
    have e6 : (Line.mk s n').tags = (Line.mk s n).tags := rfl
    simp only [Pure.peek, e1, e3, e4, e6]
    have hm := match_ok_renum la.expected s n n' m true
    by_cases hb : (Classic.matchKind la.expected (Token.fresh ⟨s, n⟩) m).1 = .ok true
    · rw [hb, hm.1 hb]
    · have hb' := fun h => hb (hm.2 h)
      have g : ∀ (x : Except MExc Bool) (y : Except Crash Bool), x ≠ .ok true → (match x with | .ok true => .ok true | _ => y) = y := by
        intro x y hx
        split
        · exact absurd rfl hx
        · rfl
      split
      · rfl
      · have := g _ (if ((Line.mk s n).isBlank || (Line.mk s n).startsWith ['#']) = true then Pure.peek la m r
              else if (Line.mk s n).startsWith ['@'] = true then match (Line.mk s n).tags with | .ok _ => Pure.peek la m r | .error x => .error x else .ok false) hb
        have t' := g _ (if ((Line.mk s n).isBlank || (Line.mk s n).startsWith ['#']) = true then Pure.peek la m r'
              else if (Line.mk s n).startsWith ['@'] = true then match (Line.mk s n).tags with | .ok _ => Pure.peek la m r' | .error x => .error x else .ok false) hb'
        rw [ih] at this
        rw [← ih] at t' ⊢
        rw [← ih] at this
        exact this.trans t'.symm

theorem passed_renum {s : Str} {n n' : Nat} {r r' : List Line} {m : CState} (hp : ∀ la, Pure.peek la m r' = Pure.peek la m r) {x : Trans}
    (h : Passed ⟨s, n⟩ r m x) : Passed ⟨s, n'⟩ r' m x := by
  rcases h with h | h | ⟨la, h1, h2, h3⟩
  · exact .inl h
  · exact .inr (.inl ((match_ok_renum _ _ _ _ _ _).1 h))
  · exact .inr (.inr ⟨la, h1, (hp la).trans h2, (match_ok_renum _ _ _ _ _ _).1 h3⟩)

/-- A match on a tag line does not change the matcher. -/
theorem tag_state {l : Line} {m m' : CState} {t : Token} {x : Except MExc Bool} (h : Classic.matchKind .tagLine (Token.fresh l) m = (x, t, m')) : m' = m := by
  have := Classic.matchKind_state (k := .tagLine) (by simp) (by simp) (Token.fresh l) m
  rw [h] at this; exact this

/-- A step can be made from the facts about it. -/
theorem Auto.step_make {q : Nat} {l : Line} {rest : List Line} {m m' : CState} {tr : Trans} {t : Token} {row : StateRow} {pre post : List Trans}
    (hrow : table q = some row) (htr : row.trans = pre ++ tr :: post) (hpass : ∀ x ∈ pre, Passed l rest m x)
    (hm : Classic.matchKind tr.kind (Token.fresh l) m = (.ok true, t, m')) (he : tr.kind = .eof ∨ l.isEof = false)
    (hp : ∀ la, tr.la = some la → Pure.peek la m rest = .ok true) : step q l rest m = some (tr, t, m') := by
  have hla := (row_facts hrow).1
  rw [htr] at hla
  simp only [laOnTags, List.all_append, List.all_cons, Bool.and_eq_true] at hla
  unfold step
  rw [hrow]
  simp only [htr]
  refine pick_make hla.1 hm he ?_ hpass
  intro la h
  have hk : tr.kind = .tagLine := by
    have := hla.2.1
    rw [h] at this
    simpa using this
  rw [hk] at hm
  rw [tag_state hm]
  exact hp la h

theorem step_renum {q : Nat} {l l' : Line} {r r' : List Line} {m m' : CState} {tr : Trans} {t : Token} (h : step q l r m = some (tr, t, m'))
    (hl : l.text = l'.text) (hp : ∀ la, Pure.peek la m r' = Pure.peek la m r) :
    ∃ t', step q l' r' m = some (tr, t', m') ∧ t'.erase = t.erase := by
  have hs := step_spec h
  obtain ⟨row, pre, post, h1, h2, h3⟩ := hs.row
  obtain ⟨s, n⟩ := l
  obtain ⟨s', n'⟩ := l'
  simp only at hl
  subst hl
  obtain ⟨t', g1, g2⟩ := matchKind_renum (n' := n') hs.matched
  exact ⟨t', step_make h1 h2 (fun x hx => passed_renum hp (h3 x hx)) g1 hs.eof (fun la h => (hp la).trans (hs.peek la h)), g2⟩

/-- What two moves have in common that read the same text. -/
structure Alike (x y : Move) : Prop where
  state : y.state = x.state
  tr : y.tr = x.tr
  tok : y.tok.erase = x.tok.erase

theorem run_renum {q : Nat} {m : CState} {lines : List Line} {mv : List Move} {q' : Nat} {m' : CState} (h : Run q m lines mv q' m') :
    ∀ {lines' : List Line}, lines.map (·.text) = lines'.map (·.text) → ∃ mv', Run q m lines' mv' q' m' ∧ List.Forall₂ Alike mv mv' := by
  induction h with
  | nil q m =>
    intro ls h
    have : ls = [] := by simpa using h.symm
    subst this
    exact ⟨[], .nil _ _, .nil⟩
  | @last q m l rest tr t m' hs he =>
    intro ls h
    cases ls with
    | nil => simp at h
    | cons l' r' =>
      simp only [List.map_cons, List.cons.injEq] at h
      obtain ⟨t', g1, g2⟩ := step_renum hs h.1 (fun la => (peek_renum la _ h.2).symm)
      refine ⟨_, .last g1 (by simpa [Line.isEof, h.1] using he), .cons ⟨rfl, rfl, g2⟩ .nil⟩
  | @cons q m l rest tr t m' mv q' m'' hs he _ ih =>
    intro ls h
    cases ls with
    | nil => simp at h
    | cons l' r' =>
      simp only [List.map_cons, List.cons.injEq] at h
      obtain ⟨t', g1, g2⟩ := step_renum hs h.1 (fun la => (peek_renum la _ h.2).symm)
      obtain ⟨mv', k1, k2⟩ := ih h.2
      refine ⟨_, .cons g1 (by simpa [Line.isEof, h.1] using he) k1, .cons ⟨rfl, rfl, g2⟩ k2⟩

/-- A run over a prefix does not depend on what follows, as long as look-aheads do not see the difference. -/
theorem run_append {A B : List Line} (hA : ∀ l ∈ A, l.isEof = false) : ∀ {q : Nat} {m : CState} {mv : List Move} {q' : Nat} {m' : CState},
    Run q m (A ++ B) mv q' m' → Inv q m →
    ∃ mvA mvB qk mk, mv = mvA ++ mvB ∧ mvA.length = A.length ∧ Run qk mk B mvB q' m' ∧ Inv qk mk ∧
      ∀ B', (∀ A' la m, m.Valid → Pure.peek la m (A' ++ B') = Pure.peek la m (A' ++ B)) → ∀ mvB' q'' m'', Run qk mk B' mvB' q'' m'' →
        Run q m (A ++ B') (mvA ++ mvB') q'' m'' := by
  induction A with
  | nil => intro q m mv q' m' h hi; exact ⟨[], mv, q, m, rfl, rfl, h, hi, fun B' _ mvB' q'' m'' h => h⟩
  | cons l A ih =>
    intro q m mv q' m' h hi
    have hl := hA l (by simp)
    cases h with
    | last _ he => rw [hl] at he; simp at he
    | cons hs he hr =>
      have hsp := step_spec hs
      obtain ⟨mvA, mvB, qk, mk, h1, h2, h3, h4, h5⟩ := ih (fun x hx => hA x (by simp [hx])) hr (inv_step hi hsp)
      refine ⟨_ :: mvA, mvB, qk, mk, by rw [h1]; rfl, by simp [h2], h3, h4, ?_⟩
      intro B' hB' mvB' q'' m'' hr'
      obtain ⟨row, pre, post, g1, g2, g3⟩ := hsp.row
      have hp : ∀ la, Pure.peek la m (A ++ B') = Pure.peek la m (A ++ B) := fun la => hB' A la m hi.valid
      refine .cons (step_make g1 g2 ?_ hsp.matched hsp.eof (fun la h => (hp la).trans (hsp.peek la h))) he (h5 B' hB' mvB' q'' m'' hr')
      intro x hx
      rcases g3 x hx with h | h | ⟨la, h1, h2, h3⟩
      · exact .inl h
      · exact .inr (.inl h)
      · exact .inr (.inr ⟨la, h1, (hp la).trans h2, h3⟩)

end Gherkin
