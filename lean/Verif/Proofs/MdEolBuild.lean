import Verif.Proofs.MdEolParse
import Verif.Spec.MdLineEnds

/-! The complaints of the builders have places of their own; what a text begins with does not depend on its line ends. -/

namespace Gherkin



open Auto

theorem getTableRows_placed {items : List Item} {n : Nat} {e : Err} {k : Nat}
    (h : AstB.getTableRows items n = (.error (.parser e), k)) : e.aliasOf = none := by
  unfold AstB.getTableRows at h
  simp only at h
  split at h
  · simp only [Prod.mk.injEq, Except.error.injEq, MExc.parser.injEq] at h
    rw [← h.1]; rfl
  · simp at h

theorem transform_placed {r : Rule} {items : List Item} {cs : List Comment} {n k : Nat} {e : Err}
    (h : AstB.transform r items cs n = (.error (.parser e), k)) : e.aliasOf = none := by
  cases r <;> simp only [AstB.transform] at h
  case dataTable =>
    unfold AstB.mkDataTable at h
    split at h <;> simp at h
    rename_i e' n' he
    obtain ⟨rfl, rfl⟩ := h
    exact getTableRows_placed he
  case examplesTable =>
    unfold AstB.mkExamplesTable at h
    split at h <;> simp at h
    rename_i e' n' he
    obtain ⟨rfl, rfl⟩ := h
    exact getTableRows_placed he
  case step => unfold AstB.mkStep at h; split at h <;> simp at h
  case docString => unfold AstB.mkDocString at h; repeat' (first | (simp at h; done) | split at h)
  case background => unfold AstB.mkBackground at h; repeat' (first | (simp at h; done) | split at h)
  case scenarioDefinition => unfold AstB.mkScenario at h; repeat' (first | (simp at h; done) | split at h)
  case examplesDefinition => unfold AstB.mkExamples at h; repeat' (first | (simp at h; done) | split at h)
  case description => unfold AstB.mkDescription at h; repeat' (first | (simp at h; done) | split at h)
  case rule => unfold AstB.mkRule at h; repeat' (first | (simp at h; done) | split at h)
  case feature => unfold AstB.mkFeature at h; repeat' (first | (simp at h; done) | split at h)
  all_goals simp at h


theorem astBuilder_clean : astBuilder.Clean := by
  intro ev b e h
  cases ev with
  | take l => simp [evAnswer] at h
  | start r => simp [evAnswer, astBuilder, AstB.startRule] at h
  | stop r =>
    simp only [evAnswer, astBuilder, AstB.endRule] at h
    split at h
    · simp at h
    · simp at h
    · split at h
      · simp at h
      · rename_i e' n' he
        simp only [Except.error.injEq] at h
        subst h
        exact transform_placed he
  | build t =>
    simp only [evAnswer, astBuilder, AstB.build] at h
    split at h
    · simp at h
    · split at h <;> simp at h

theorem formatter_clean : formatter.Clean := by
  intro ev b e h
  cases ev <;> simp [evAnswer, formatter] at h

namespace Markdown

theorem hasTag_found {s : Str} (h : HasTag s) : (Md.findTags (Line.mk s 0).lineText 0 0).isEmpty = false := by
  obtain ⟨a, n, b, h1, h2, e⟩ := h
  exact tag_found (d := default) (l := ⟨s, 0⟩) ⟨a, n, b, h1, h2, by simpa using e⟩

theorem hasTag_sound {s : Str} (h : (Md.findTags (Line.mk s 0).lineText 0 0).isEmpty = false) : HasTag s := by
  obtain ⟨a, n, b, h1, h2, e⟩ := tag_sound (d := default) (l := ⟨s, 0⟩) h
  exact ⟨a, n, b, h1, h2, by simpa using e⟩

theorem isBlank_white {s : Str} {n : Nat} : (Line.mk s n).isBlank = false ↔ ¬ White s := by
  obtain ⟨a, ha, hs, hn⟩ := lstripBy_spec (p := isSpace) s
  have e : (Line.mk s n).trimmed = lstripBy isSpace s := rfl
  cases hl : lstripBy isSpace s with
  | nil =>
    rw [hl, List.append_nil] at hs
    simp only [Line.isBlank, e, hl, List.isEmpty_nil, Bool.true_eq_false, false_iff, Decidable.not_not]
    intro h; exact h (by rw [hs]; exact ha)
  | cons c cs =>
    simp only [Line.isBlank, e, hl, List.isEmpty_cons, true_iff]
    intro h
    have h1 := h c (by rw [hs, hl]; simp)
    have h2 := hn c (by rw [hl]; rfl)
    rw [h1] at h2; simp at h2

theorem FirstNotBlank.lead {text : Str} (h : FirstNotBlank text) : MdBlind.Lead (splitLines text) := by
  intro pre s post e hp
  exact isBlank_white.2 (h pre s post e fun x hx => hasTag_sound (hp x hx))

theorem white_rstrip {s : Str} : White (rstripEol s) ↔ White s := by
  obtain ⟨w, hw, hs, _⟩ := rstripBy_spec (p := isEol) s
  constructor
  · intro h c hc
    rw [hs] at hc
    rcases List.mem_append.1 hc with hc | hc
    · exact h c hc
    · exact allEol_space hw c hc
  · intro h c hc
    exact h c (by rw [hs]; exact List.mem_append_left _ hc)

theorem hasTag_rstrip {s : Str} : HasTag (rstripEol s) ↔ HasTag s := by
  constructor
  · rintro ⟨a, n, b, h1, h2, e⟩
    obtain ⟨w, _, hs, _⟩ := rstripBy_spec (p := isEol) s
    exact ⟨a, n, b ++ w, h1, h2, by rw [hs, show rstripBy isEol s = rstripEol s from rfl, e]; simp⟩
  · rintro ⟨a, n, b, h1, h2, rfl⟩
    obtain ⟨w, hw, hs, hl⟩ := rstripBy_spec (p := isEol) b
    refine ⟨a, n, rstripBy isEol b, h1, h2, ?_⟩
    rw [show a ++ py"`@" ++ n ++ py"`" ++ b = (a ++ py"`@" ++ n ++ py"`" ++ rstripBy isEol b) ++ w by
      conv => lhs; rw [hs]
      simp]
    refine rstripBy_append hw fun c hc => ?_
    rw [List.getLast?_append] at hc
    cases hb : (rstripBy isEol b).getLast? with
    | some x => rw [hb] at hc; simp at hc; subst hc; exact hl x hb
    | none =>
      rw [hb, show a ++ py"`@" ++ n ++ py"`" = (a ++ py"`@" ++ n) ++ ['`'] from rfl, List.getLast?_append] at hc
      simp at hc; subst hc; rfl

theorem FirstNotBlank.same {s t : Str} (h : (splitLines s).map rstripEol = (splitLines t).map rstripEol) (hs : FirstNotBlank s) : FirstNotBlank t := by
  intro pre x post e hp
  rw [e, List.map_append, List.map_cons] at h
  obtain ⟨pre', rest, e1, h1, h2⟩ := List.map_eq_append_iff.1 h
  obtain ⟨x', post', rfl, h3, _⟩ := List.map_eq_cons_iff.1 h2
  have := hs pre' x' post' e1 ?_
  · rw [← white_rstrip, ← h3, white_rstrip]; exact this
  · intro y hy
    have : rstripEol y ∈ pre.map rstripEol := by rw [← h1]; exact List.mem_map_of_mem hy
    obtain ⟨z, hz, e2⟩ := List.mem_map.1 this
    rw [← hasTag_rstrip, ← e2, hasTag_rstrip]
    exact hp z hz

end Markdown

end Gherkin
