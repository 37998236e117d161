import Verif.Proofs.Plain
import Verif.Proofs.Opaque
import Verif.Proofs.Language
import Verif.Props.LineEnds
import Verif.Spec.Noise

/-! Texts that differ by a blank line or a comment. -/

namespace Gherkin

open Auto Cst

namespace Auto

theorem noise_target (q : Nat) (c : Bool) : noiseTarget q c = q ∨ (c = true ∧ ∃ T, Near T q ∧ noiseTarget q c = T + 2) := by
  cases c with
  | false => exact .inl rfl
  | true =>
    unfold noiseTarget
    simp only [if_true]
    by_cases h1 : titles.contains q = true
    · rw [if_pos h1]
      exact .inr ⟨trivial, q, ⟨by simpa using h1, .inl rfl⟩, rfl⟩
    · rw [if_neg h1]
      by_cases h2 : titles.contains (q - 1) = true
      · rw [if_pos h2]
        have hm : q - 1 ∈ titles := by simpa using h2
        have : q = q - 1 + 1 := by
          have : q ≠ 0 := by rintro rfl; simp [titles] at hm
          omega
        exact .inr ⟨trivial, q - 1, ⟨hm, .inr (.inl this)⟩, by omega⟩
      · rw [if_neg h2]; exact .inl rfl

theorem titles_noOther : ∀ T ∈ titles, noOther (T + 2) = true := by decide +kernel

/-- The flag of `scan` at a place of a run. -/
theorem run_flag {mvA : List Move} : ∀ {q : Nat} {m : CState} {lines : List Line} {z : Move} {mvY : List Move} {q' : Nat} {m' : CState} {o : Bool},
    Run q m lines (mvA ++ z :: mvY) q' m' → Src lines → (o = true ↔ q ∈ openStates) →
    ((mvA.map (·.tok)).foldl flagAfter o = true ↔ z.state ∈ openStates) := by
  induction mvA with
  | nil =>
    intro q m lines z mvY q' m' o h hs ho
    obtain ⟨l, rest, x, mv', m1, h0, h1, h2, h3, h4, _⟩ := run_cons h hs
    simp only [List.nil_append, List.cons.injEq] at h1
    simp only [List.map_nil, List.foldl_nil]
    rw [h1.1, h2]; exact ho
  | cons y mvA ih =>
    intro q m lines z mvY q' m' o h hs ho
    obtain ⟨l, rest, x, mv', m1, h0, h1, h2, h3, h4, h5⟩ := run_cons h hs
    simp only [List.cons_append, List.cons.injEq] at h1
    obtain ⟨rfl, rfl⟩ := h1
    rcases h5 with ⟨_, h5, h6, _⟩ | ⟨h5, h6, h7⟩
    · simp at h6
    · simp only [List.map_cons, List.foldl_cons]
      refine ih h7 h6 ?_
      exact flag_step h3.facts (matched_type h3.matched) ho

theorem head_state {q : Nat} {m : CState} {lines : List Line} {mv : List Move} {q' : Nat} {m' : CState} (h : Run q m lines mv q' m')
    (hs : Src lines) : ∃ z mvY, mv = z :: mvY ∧ z.state = q ∧ (table q).isSome = true := by
  obtain ⟨l, rest, x, mv', m1, h0, h1, h2, h3, h4, _⟩ := run_cons h hs
  obtain ⟨row, hrow, _⟩ := step_row h3
  exact ⟨x, mv', h1, h2, by rw [hrow]; rfl⟩

/-- A line of noise more. -/
theorem insert_run {A B B' : List Line} {n : Line} (hA : ∀ l ∈ A, l.isEof = false) (hB : Src B) (hAB : Src (A ++ B)) (hn : n.isNoise = true)
    (hne : n.isEof = false) (hh : Classic.languageName n.lineText = none) (hBB : B.map (·.text) = B'.map (·.text)) {m : CState} {mv : List Move} {q' : Nat} {m' : CState}
    (h : Run 0 m (A ++ B) mv q' m') (hi : Inv 0 m) :
    ∃ mvA z mvY, mv = mvA ++ z :: mvY ∧ mvA.length = A.length ∧ (z.state ∉ openStates → (n.isBlank = false → Safe (z :: mvY)) →
      ∃ mv', Run 0 m (A ++ n :: B') mv' q' m' ∧ essence false mv' = essence false mv) := by
  obtain ⟨mvA, mvB, qk, mk, h1, h2, h3, h4, h5⟩ := run_append hA h hi
  obtain ⟨z, mvY, rfl, hz, hrow⟩ := head_state h3 hB
  refine ⟨mvA, z, mvY, h1, h2, fun hop hsafe => ?_⟩
  subst h1
  rw [hz] at hop
  obtain ⟨row, hrow⟩ := Option.isSome_iff_exists.1 hrow
  obtain ⟨tr, t, g1, g2, g3⟩ := noise_step h4 hop hrow hne hn (.inr hh) B'
  have ht := matched_type (step_spec g1).matched
  have hflag : false = (mvA.map (·.tok)).foldl flagAfter false := by
    have := run_flag (o := false) h hAB (by simp [openStates])
    rw [hz] at this
    cases hf : (mvA.map (·.tok)).foldl flagAfter false with
    | false => rfl
    | true => exact absurd (this.1 hf) hop
  have fin : ∀ mvB', Run tr.target mk B' mvB' q' m' → essence false mvB' = essence false (z :: mvY) →
      ∃ mv', Run 0 m (A ++ n :: B') mv' q' m' ∧ essence false mv' = essence false (mvA ++ z :: mvY) := by
    intro mvB' k1 k2
    refine ⟨mvA ++ ⟨qk, tr, t⟩ :: mvB', h5 (n :: B') (fun A' la m hm => peek_insert hm hn hne hBB A') _ _ _ (.cons g1 hne k1), ?_⟩
    refine essence_append hflag ?_
    rw [essence_skip ht g3, k2]
  rcases noise_target qk (n.startsWith ['#']) with hT | ⟨hc, T, hT, hT2⟩
  · rw [hT] at g2
    obtain ⟨mvB', k1, k2⟩ := run_renum h3 hBB
    rw [← g2] at k1
    exact fin _ k1 (essence_alike k2)
  · rw [hT2] at g2
    have hb : n.isBlank = false := by
      have hd := h4.valid.known
      have e1 := (noise_kind (l := n) hd).2 hc
      cases hb : n.isBlank with
      | false => rfl
      | true => rw [(noise_kind (l := n) hd).1 hb] at e1; simp at e1
    obtain ⟨mvB', k1, k2⟩ := near_run hT ⟨hT.title, .inr (.inr rfl)⟩ h3 hB h4 (.inr (hsafe hb)) hBB
    rw [← g2] at k1
    exact fin _ k1 k2

/-- A line of noise less. -/
theorem remove_run {A B B' : List Line} {n : Line} (hA : ∀ l ∈ A, l.isEof = false) (hB' : Src B') (hAB : Src (A ++ n :: B')) (hn : n.isNoise = true)
    (hne : n.isEof = false) (hh : Classic.languageName n.lineText = none) (hBB : B.map (·.text) = B'.map (·.text)) {m : CState} {mv : List Move} {q' : Nat} {m' : CState}
    (h : Run 0 m (A ++ n :: B') mv q' m') (hi : Inv 0 m) :
    ∃ mvA z mvY, mv = mvA ++ z :: mvY ∧ mvA.length = A.length ∧ (z.state ∉ openStates →
      ∃ mv', Run 0 m (A ++ B) mv' q' m' ∧ essence false mv' = essence false mv) := by
  obtain ⟨mvA, mvB, qk, mk, h1, h2, h3, h4, h5⟩ := run_append hA h hi
  cases h3 with
  | last _ he => rw [hne] at he; simp at he
  | @cons _ _ _ _ tr t m1 mvY _ _ hst _ hrun =>
  refine ⟨mvA, ⟨qk, tr, t⟩, mvY, h1, h2, fun hop => ?_⟩
  simp only at hop
  subst h1
  obtain ⟨row, hrow, _⟩ := step_row (step_spec hst)
  obtain ⟨tr0, t0, g1, g2, g3⟩ := noise_step h4 hop hrow hne hn (.inr hh) B'
  rw [hst] at g1
  simp only [Option.some.injEq, Prod.mk.injEq] at g1
  obtain ⟨rfl, rfl, rfl⟩ := g1
  have ht := matched_type (step_spec hst).matched
  have hflag : false = (mvA.map (·.tok)).foldl flagAfter false := by
    have := run_flag (o := false) h hAB (by simp [openStates])
    simp only at this
    cases hf : (mvA.map (·.tok)).foldl flagAfter false with
    | false => rfl
    | true => exact absurd (this.1 hf) hop
  have fin : ∀ mvB', Run qk m1 B mvB' q' m' → essence false mvB' = essence false mvY →
      ∃ mv', Run 0 m (A ++ B) mv' q' m' ∧ essence false mv' = essence false (mvA ++ ⟨qk, tr, t⟩ :: mvY) := by
    intro mvB' k1 k2
    refine ⟨mvA ++ mvB', h5 B (fun A' la m hm => (peek_insert hm hn hne hBB A').symm) _ _ _ k1, ?_⟩
    refine essence_append hflag ?_
    rw [essence_skip ht g3, k2]
  rcases noise_target qk (n.startsWith ['#']) with hT | ⟨hc, T, hT, hT2⟩
  · rw [hT] at g2
    rw [g2] at hrun
    obtain ⟨mvB', k1, k2⟩ := run_renum hrun hBB.symm
    exact fin _ k1 (essence_alike k2)
  · rw [hT2] at g2
    rw [g2] at hrun
    have hn2 : Near T (T + 2) := ⟨hT.title, .inr (.inr rfl)⟩
    obtain ⟨mvB', k1, k2⟩ := near_run hn2 hT hrun hB' (inv_move h4 hop hn2.facts.2.2.1) (.inl (titles_noOther T hT.title)) hBB.symm
    exact fin _ k1 k2

end Auto

/-! ### Lines -/

theorem splitLines_append {pre : Str} (hp : AtLineStart pre) (post : Str) : splitLines (pre ++ post) = splitLines pre ++ splitLines post := by
  have key : ∀ (n : Nat) (s : Str), s.length ≤ n → AtLineStart s → splitLines (s ++ post) = splitLines s ++ splitLines post := by
    refine lines_ind (P := fun s => AtLineStart s → splitLines (s ++ post) = splitLines s ++ splitLines post) ?_ ?_ ?_
    · intro _; rfl
    · rintro body h1 h2 (rfl | ⟨p, rfl⟩)
      · exact absurd rfl h2
      · simp at h1
    · intro body s h1 ih h2
      rw [splitLines_body h1]
      have e : body ++ ['\n'] ++ s ++ post = body ++ ['\n'] ++ (s ++ post) := by simp
      rw [e, splitLines_body h1, ih ?_, List.cons_append]
      rcases h2 with h2 | ⟨p, h2⟩
      · simp at h2
      · cases s using List.reverseRecOn with
        | nil => exact .inl rfl
        | append_singleton s c =>
          right
          have h3 : (body ++ ['\n'] ++ s) ++ [c] = p ++ ['\n'] := by simpa using h2
          have := (List.append_inj' h3 rfl).2
          simp at this
          subst this
          exact ⟨s, rfl⟩
  exact key _ pre (Nat.le_refl _) hp

theorem zip_text (xs : List Str) (n : Nat) : ((xs.zipIdx n).map fun (s, n) => (Line.mk s n)).map (·.text) = xs := by
  induction xs generalizing n with
  | nil => rfl
  | cons x xs ih => simp only [List.zipIdx_cons, List.map_cons, ih]

/-- The lines of the two texts. -/
theorem noise_lines {pre line post : Str} (hp : AtLineStart pre) (hl : ∃ body, line = body ++ ['\n'] ∧ '\n' ∉ body) :
    ∃ A B B', tokenLines (pre ++ post) = A ++ B ∧ tokenLines (pre ++ line ++ post) = A ++ ⟨line, (splitLines pre).length + 1⟩ :: B' ∧
      A.length = (splitLines pre).length ∧ B.map (·.text) = B'.map (·.text) ∧ (∀ l ∈ A, l.isEof = false) := by
  obtain ⟨body, rfl, hb⟩ := hl
  have e1 : splitLines (pre ++ post) = splitLines pre ++ splitLines post := splitLines_append hp post
  have e2 : splitLines (pre ++ (body ++ ['\n']) ++ post) = splitLines pre ++ (body ++ ['\n']) :: splitLines post := by
    rw [List.append_assoc, splitLines_append hp, splitLines_body hb]
  refine ⟨((splitLines pre).zipIdx 1).map fun (s, n) => ⟨s, n⟩, (((splitLines post).zipIdx (1 + (splitLines pre).length)).map fun (s, n) => ⟨s, n⟩) ++ [eofLine (pre ++ post)],
    (((splitLines post).zipIdx (1 + (splitLines pre).length + 1)).map fun (s, n) => ⟨s, n⟩) ++ [eofLine (pre ++ (body ++ ['\n']) ++ post)], ?_, ?_, ?_, ?_, ?_⟩
  · simp only [tokenLines, sourceLines, e1, List.zipIdx_append, List.map_append, List.append_assoc]
  · simp only [tokenLines, sourceLines]
    rw [e2, List.zipIdx_append, List.zipIdx_cons, List.map_append, List.map_cons, List.append_assoc, List.cons_append, Nat.add_comm 1]
  · simp
  · rw [List.map_append, List.map_append, zip_text, zip_text]; rfl
  · intro l hl
    have hm : l ∈ sourceLines pre := hl
    exact sourceLines_noteof hm

end Gherkin
