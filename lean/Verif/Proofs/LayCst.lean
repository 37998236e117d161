import Verif.Proofs.LayTags

/-! Syntax trees of layouts, and the runs that read them. -/

namespace Gherkin

namespace Auto

open Layout (Ln place)

/-- Lines taken as text. -/
def others (m : CState) (n : Nat) (ls : List Str) : List Token := place (fun _ => 1) (fun n s => tokOf m .other s n) n ls

def rowToks (m : CState) (n : Nat) (rs : List Ln) : List Token := place (fun l => l.texts.length) (fun n l => tokOf m .tableRow l.text n) n rs

/-- The matcher inside the doc string that a line opens. -/
def inside (m : CState) (o : Str) : CState := (Classic.matchKind .docStringSeparator (Token.fresh ⟨o, 0⟩) m).2.2

def argCst (m : CState) (n : Nat) : Layout.Arg → Cst.Arg
  | .none => .none
  | .table r rs => .table (tokOf m .tableRow r.text n) (rowToks m (n + r.texts.length) rs)
  | .doc o ls c => .doc (tokOf m .docStringSeparator o n) (others (inside m o) (n + 1) ls)
      (tokOf (inside m o) .docStringSeparator c.text (n + 1 + ls.length))

def stepCst (m : CState) (n : Nat) (s : Layout.Step) : Cst.CStep :=
  ⟨tokOf m .stepLine s.line.text n, argCst m (n + s.line.texts.length) s.arg⟩

def headDesc (m : CState) (n : Nat) (h : Layout.Head) : List Token := others m (n + 1 + h.gap.length) h.prose

def stepsCst (m : CState) (n : Nat) (ss : List Layout.Step) : List Cst.CStep := place (fun s => s.texts.length) (stepCst m) n ss

def backgroundCst (m : CState) (n : Nat) (b : Layout.Background) : Cst.CBackground :=
  ⟨tokOf m .backgroundLine b.head.line n, headDesc m n b.head, stepsCst m (n + b.head.texts.length) b.steps⟩

def tagLen (ts : List Ln) : Nat := (ts.flatMap Ln.texts).length

def examplesCst (m : CState) (n : Nat) (e : Layout.Examples) : Cst.CExamples :=
  ⟨tagToks m n e.tags, tokOf m .examplesLine e.head.line (n + tagLen e.tags), headDesc m (n + tagLen e.tags) e.head,
    rowToks m (n + tagLen e.tags + e.head.texts.length) e.table⟩

def scenarioCst (m : CState) (n : Nat) (s : Layout.Scenario) : Cst.CScenario :=
  let n1 := n + tagLen s.tags
  let n2 := n1 + s.head.texts.length
  ⟨tagToks m n s.tags, tokOf m .scenarioLine s.head.line n1, headDesc m n1 s.head, stepsCst m n2 s.steps,
    place (fun e => e.texts.length) (examplesCst m) (n2 + (s.steps.flatMap Layout.Step.texts).length) s.examples⟩

def backgroundsLen (b : Option Layout.Background) : Nat := (b.toList.flatMap Layout.Background.texts).length

def ruleCst (m : CState) (n : Nat) (r : Layout.Rule) : Cst.CRule :=
  let n1 := n + tagLen r.tags
  let n2 := n1 + r.head.texts.length
  ⟨tagToks m n r.tags, tokOf m .ruleLine r.head.line n1, headDesc m n1 r.head, r.background.map (backgroundCst m n2),
    place (fun s => s.texts.length) (scenarioCst m) (n2 + backgroundsLen r.background) r.scenarios⟩

def featureCst (m : CState) (n : Nat) (language : Option Token) (f : Layout.Feature) : Cst.CFeature :=
  let n1 := n + tagLen f.tags
  let n2 := n1 + f.head.texts.length
  let n3 := n2 + backgroundsLen f.background
  let n4 := n3 + (f.scenarios.flatMap Layout.Scenario.texts).length
  ⟨language, tagToks m n f.tags, tokOf m .featureLine f.head.line n1, headDesc m n1 f.head, f.background.map (backgroundCst m n2),
    place (fun s => s.texts.length) (scenarioCst m) n3 f.scenarios,
    place (fun s => s.texts.length) (ruleCst m) n4 f.rules⟩

/-! ### Descriptions -/

/-- Static facts about title states. -/
def titleOk (p : Part) (T : Nat) : Bool :=
  leads [T] .empty [T] && still [T, T + 2] && leads [T + 1] .comment [T + 2] && still [T + 2] && leads [T] .other [T + 1] && leads [T + 1] .other [T + 1] &&
  (kindsOf T).all (fun k => k == .eof || k == .other || k == .empty || (endKinds p).contains k) &&
  (kindsOf (T + 1)).all (fun k => k == .eof || k == .other || (endKinds p).contains k) && T != 0

theorem titles_ok : ∀ p ∈ allParts, ∀ T ∈ titleStates p, titleOk p T = true := by decide +kernel

theorem other_kind (m : CState) (s : Str) (n : Nat) : Classic.matchKind .other (Token.fresh ⟨s, n⟩) m = (.ok true, tokOf m .other s n, m) := rfl

theorem tokOf_other (m : CState) (s : Str) (n : Nat) : (tokOf m .other s n).type = some .other := rfl

/-- A line of a description. -/
theorem Piece.prose1 {m : CState} (hc : m.Calm) {q q' : Nat} (hq : leads [q] .other [q'] = true) (h0 : q ≠ 0) {s : Str}
    (hk : Layout.kind m.dialect s ∉ kindsOf q ∨ Layout.kind m.dialect s = .other) {n : Nat} : Piece m [q] n [s] [tokOf m .other s n] [q'] := by
  intro hne x hx
  obtain rfl : x = q := by simpa using hx
  obtain ⟨hq1, tr, hq2, hq3⟩ := leads_mem hq hx
  refine ⟨tr.target, hq3, fun rest => ?_⟩
  have he : Line.isEof ⟨s, n⟩ = false := by
    have := hne s (by simp)
    simpa [Line.isEof] using this
  have hst := other_step hq2 hc hq1 (l := ⟨s, n⟩) hk he (.inl h0) (rest := rest)
  rw [other_kind] at hst
  exact Go.core hst he (tokOf_other _ _ _) (by simp) (by simp)

theorem Piece.proses {m : CState} (hc : m.Calm) {q : Nat} (hq : leads [q] .other [q] = true) (h0 : q ≠ 0) : ∀ {ls : List Str},
    (∀ s ∈ ls, Layout.kind m.dialect s ∉ kindsOf q ∨ Layout.kind m.dialect s = .other) → ∀ {n : Nat}, Piece m [q] n ls (others m n ls) [q]
  | [], _, _ => Piece.nil
  | s :: ls, h, n => by
    have := (Piece.prose1 hc hq h0 (h s (by simp)) (n := n)).seq (Piece.proses hc hq h0 (ls := ls) (fun x hx => h x (by simp [hx])) (n := n + 1))
    simpa [others, place] using this

/-- What follows a title line: the description. -/
theorem Piece.head {m : CState} (hc : m.Calm) {p : Part} {T : Nat} (hT : T ∈ titleStates p) {k : Kind} {h : Layout.Head} (hh : h.Ok m.dialect k p)
    {n : Nat} : Piece m [T] (n + 1) (h.gap ++ h.prose ++ h.after) (headDesc m n h) [T, T + 1, T + 2] := by
  have hd := hc.valid.known
  have ok := titles_ok p (mem_parts p) T hT
  simp only [titleOk, Bool.and_eq_true, List.all_eq_true, bne_iff_ne, Bool.or_eq_true, beq_iff_eq] at ok
  obtain ⟨⟨⟨⟨⟨⟨⟨⟨o1, o2⟩, o3⟩, o4⟩, o5⟩, o6⟩, o7⟩, o8⟩, o9⟩ := ok
  have z : ∀ x, T + x ≠ 0 := by intro x; omega
  have hok := hh.2
  have nend : ∀ s, ends m.dialect p ⟨s, 0⟩ = false → Layout.kind m.dialect s ∉ endKinds p := by
    intro s hs hm
    rw [(ends_iff hd p ⟨s, 0⟩).2 hm] at hs
    simp at hs
  split at hok
  · rename_i hp
    have : Piece m [T, T + 2] (n + 1) h.gap [] [T, T + 2] := Piece.noise hc o2 hok.1 (.inl (by simp; omega))
    have e : headDesc m n h = [] := by simp [headDesc, hp, others, place]
    rw [e, hp, hok.2, List.append_nil, List.append_nil]
    exact this.mono (by simp) (by simp)
  · rename_i hp
    obtain ⟨g1, g2, g3, g4, g5⟩ := hok
    have p1 : Piece m [T] (n + 1) h.gap [] [T] := Piece.blanks hc o1 g1 (by simp; omega)
    have p2 : Piece m [T] (n + 1 + h.gap.length) h.prose (headDesc m n h) [T + 1] := by
      unfold headDesc
      cases hpr : h.prose with
      | nil => exact absurd hpr hp
      | cons s ls =>
        rw [hpr] at g2 g3
        have hs := nend s (g3 s (by simp))
        have hb : Layout.kind m.dialect s ≠ .empty := by
          intro he
          have hf := lineKind_fits m.dialect ⟨s, 0⟩
          rw [show lineKind m.dialect ⟨s, 0⟩ = .empty from he] at hf
          exact g2 s (by simp) hf
        have hne : Layout.kind m.dialect s ≠ .eof := lineKind_eof _ _
        have first := Piece.prose1 hc o5 o9 (s := s) (n := n + 1 + h.gap.length) (by
          by_cases ho : Layout.kind m.dialect s = .other
          · exact .inr ho
          · left; intro hm
            rcases o7 _ hm with ((h | h) | h) | h
            · exact hne h
            · exact ho h
            · exact hb h
            · exact hs (by simpa using h))
        have more := Piece.proses hc o6 (z 1) (ls := ls) (n := n + 1 + h.gap.length + 1) (by
          intro s' hs'
          by_cases ho : Layout.kind m.dialect s' = .other
          · exact .inr ho
          · left; intro hm
            rcases o8 _ hm with (h | h) | h
            · exact lineKind_eof _ _ h
            · exact ho h
            · exact nend s' (g3 s' (by simp [hs'])) (by simpa using h))
        simpa [others, place] using first.seq more
    have p3 : Piece m [T + 1] (n + 1 + h.gap.length + h.prose.length) h.after [] [T, T + 1, T + 2] := by
      cases ha : h.after with
      | nil => exact Piece.nil.mono (fun _ h => h) (by simp)
      | cons s ls =>
        rw [ha] at g4 g5
        have a := Piece.comment hc (g5 s (by simp)) o3 (.inl (by simp)) (n := n + 1 + h.gap.length + h.prose.length)
        have b := Piece.noise hc o4 (ls := ls) (fun x hx => g4 x (by simp [hx])) (.inl (by simp)) (n := n + 1 + h.gap.length + h.prose.length + 1)
        exact (a.seq b).mono (fun _ h => h) (by simp)
    have := (p1.seq p2).seq (p3 |> fun h => by rw [List.length_append, ← Nat.add_assoc]; exact h)
    simpa using this

end Auto

end Gherkin
