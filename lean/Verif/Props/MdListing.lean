import Verif.Proofs.MdListing
import Verif.Proofs.Takes

/-! C85: token listings of Markdown texts. -/

namespace Gherkin

open Markdown

section
variable {μ σ ρ : Type} {cfg : Config μ σ ρ}

/-- The last line that a parse takes is the end of the text. -/
theorem takes_last (hL : cfg.matcher.Lawful) {text : Str} {m : μ} {b : σ} {r : ρ} {c : Ctx μ σ} (h : parse cfg text m b = (.ok r, c)) :
    ∃ ls e, takes c.log = ls ++ [e] ∧ e.isEof = true := by
  unfold parse at h
  rcases hp : runProd cfg (.start .gherkinDocument) (Token.fresh ⟨[], 0⟩) (Ctx.init cfg text m b) with ⟨y, c0⟩
  rw [hp] at h
  rcases y with x | u
  · simp at h
  · simp only at h
    have hl := (parseLoop_ind (cfg := cfg) (fun _ _ => True) (fun _ c => ∃ ls e, takes c.log = ls ++ [e] ∧ e.isEof = true) (fun _ _ => True)
      (fun q c t c1 _ hr => ⟨fun q' c' hm => ⟨fun he => by
        have := matchToken_takes hL q t { c1 with log := c1.log ++ [.take t.line] }
        rw [hm] at this
        simp only [takes_append] at this
        exact ⟨_, _, this, he⟩, fun _ => trivial⟩, fun _ _ _ => trivial⟩)
      (c0.scanner.lines.length + 1) 0 c0 trivial).1
    rcases hpl : parseLoop cfg (c0.scanner.lines.length + 1) 0 c0 with ⟨y, c1⟩
    rw [hpl] at h
    rcases y with x | u
    · simp at h
    · obtain ⟨q', hF⟩ := hl c1 hpl
      simp only at h
      have htk2 := runProds_takes (cfg := cfg) [.stop .gherkinDocument] (Token.fresh ⟨[], 0⟩) c1
      rcases hpp : runProd cfg (.stop .gherkinDocument) (Token.fresh ⟨[], 0⟩) c1 with ⟨y, c2⟩
      rw [hpp] at h
      simp only [runProds, hpp] at htk2
      rcases y with x | u
      · simp at h
      · simp only at h htk2
        have hc : c = c2 := by
          split at h
          · simp at h
          · split at h <;> simp_all
        rw [hc, htk2]
        exact hF

end

theorem builds_formatted {text lang : Str} {d : Dialect} (hd : dialectFor lang = some d) : ∀ (ts : List Token),
    (∀ t ∈ ts, t.line.isEof = false ∧ ∃ s, Fmt.formatToken t = .ok s ∧ MdListed d t.line s) →
    ∃ ss, ts.mapM Fmt.formatToken = .ok ss ∧ List.Forall₂ (MdListed d) (ts.map (·.line)) ss := by
  intro ts
  induction ts with
  | nil => intro _; exact ⟨[], rfl, .nil⟩
  | cons t ts ih =>
    intro h
    obtain ⟨_, s, h1, h2⟩ := h t (by simp)
    obtain ⟨ss, h3, h4⟩ := ih fun x hx => h x (by simp [hx])
    refine ⟨s :: ss, ?_, .cons h2 h4⟩
    rw [List.mapM_cons, h1, h3]
    rfl

/-! ### C85 -/

/-- **C85.** When a parse of a Markdown text with the token formatter gives a result, this has a line for each line of the text, and at last `EOF`. What is shown for a line is said in
`Spec/MdListing.lean`. The lines are in the order in which the parser takes them up: -/
theorem C85_markdown_listing (stop : Bool) (text lang : Str) (d : Dialect) (hd : dialectFor lang = some d) (m : MdState) (hm : MdState.new lang = some m) (b : List Token) (r : Str)
    (h : (parse ⟨markdown, formatter, stop⟩ text m b).1 = .ok r) :
    ∃ lines shown, lines.Perm (sourceLines text) ∧ List.Forall₂ (MdListed d) lines shown ∧ r = joinStr py"\n" (shown ++ [py"EOF"]) ∧
      (OneFence text → PlainHeadings text → lines = sourceLines text) := by
  rcases hp : parse ⟨markdown, formatter, stop⟩ text m b with ⟨x, c⟩
  have hperm := C03_markdown_all_lines formatter stop text m b r h
  have hord := fun h1 h2 => (C03_lines_in_order_partial formatter stop text h1 h2 m b).2.1 r h
  rw [hp] at h hperm hord
  simp only at h hperm hord
  subst h
  obtain ⟨_, hres, kids, hA⟩ := (parse_cases (cfg := ⟨markdown, formatter, stop⟩) markdown_lawful text m b).1 _ c hp
  obtain ⟨ls, e, hls, he⟩ := takes_last (cfg := ⟨markdown, formatter, stop⟩) markdown_lawful hp
  have hB := parse_builtIn (cfg := ⟨markdown, formatter, stop⟩) (P := Md.Fenced lang d) markdown_lawful (fun k t m h => fenced_keep k t m h) text m b (md_speaks hd hm) hp
  have hnot : ∀ l ∈ sourceLines text, l.isEof = false := fun l hl => Auto.sourceLines_noteof hl
  have hee : e = eofLine text := by
    have : e ∈ tokenLines text := hperm.mem_iff.1 (by rw [hls]; simp)
    rcases List.mem_append.1 this with h | h
    · rw [hnot e h] at he; simp at he
    · simpa using h
  have hlp : ls.Perm (sourceLines text) := by
    rw [hls, hee] at hperm
    exact (List.perm_append_right_iff _).1 hperm
  have hbl := hA.lines
  rw [hls] at hbl
  obtain ⟨ts, us, hts, hm1, hm2⟩ := List.map_eq_append_iff.1 hbl.symm
  obtain ⟨t, rfl⟩ : ∃ t, us = [t] := by
    cases us with
    | nil => simp at hm2
    | cons t us => cases us with
      | nil => exact ⟨t, rfl⟩
      | cons _ _ => simp at hm2
  simp only [List.map_cons, List.map_nil, List.cons.injEq, and_true] at hm2
  have hall : ∀ u ∈ ts, u.line.isEof = false ∧ ∃ s, Fmt.formatToken u = .ok s ∧ MdListed d u.line s := by
    intro u hu
    have hul : u.line ∈ sourceLines text := hlp.mem_iff.1 (by rw [← hm1]; exact List.mem_map_of_mem hu)
    have hue := hnot _ hul
    refine ⟨hue, ?_⟩
    have hub : u ∈ builds c.log := by rw [hts]; simp [hu]
    obtain ⟨hs, k, hk, hkeof, _⟩ := hA.tokens u hub
    obtain ⟨k', hk', t0, m0, m1, hF, ht0, hmt⟩ := hB u hub
    rw [hk] at hk'; cases hk'
    have hof : t0.Of u.line := by
      refine ⟨ht0, ?_⟩
      have := markdown_lawful.locLine k t0 m0
      simp only [markdown] at this hmt
      rw [hmt] at this
      rw [← this]; exact hs.2
    have hi := Md.indep k hof m0
    simp only [markdown] at hmt
    have hfresh : Md.matchKind k (Token.fresh u.line) m0 = (.ok true, u, m1) := by
      have a := hi.res; have b := hi.st; have c := hi.tokTrue
      rw [hmt] at a b c
      rcases hx : Md.matchKind k (Token.fresh u.line) m0 with ⟨x1, x2, x3⟩
      rw [hx] at a b c
      simp only at a b c
      rw [← a, ← b, ← c trivial]
    refine md_listed (text := text) hd hF hue (tokenLines_lineIs hs.1 hue) ?_ hfresh
    intro hk0
    have := hkeof.1 hk0
    simp [Token.eof, hue] at this
  obtain ⟨ss, hs1, hs2⟩ := builds_formatted (text := text) hd ts hall
  refine ⟨ls, ss, hlp, by rw [← hm1]; exact hs2, ?_, ?_⟩
  · rw [hA.builder, formatter_fold, show formatter.reset b = [] from rfl, List.nil_append, hts] at hres
    have hte : Fmt.formatToken t = .ok py"EOF" := by
      have : t.eof = true := by unfold Token.eof; rw [hm2]; exact he
      simp [Fmt.formatToken, this]
    have : Fmt.result (ts ++ [t]) = .ok r := hres
    rw [Fmt.result, show (ts ++ [t]).mapM Fmt.formatToken = .ok (ss ++ [py"EOF"]) from by
      rw [List.mapM_append, hs1]; simp only [List.mapM_cons, hte]; rfl] at this
    simpa using this.symm
  · intro h1 h2
    have := hord h1 h2
    rw [hls, hee] at this
    exact List.append_cancel_right this

/-- The listing of the sample text. -/
example : (parse ⟨markdown, formatter, false⟩ Sample.md Sample.enMd []).1 = .ok py"(1:1)TagLine://2:@a,7:@b
(2:3)FeatureLine:()Feature/f/
(3:1)Empty://
(4:1)Empty://
(5:1)Empty://
(6:4)BackgroundLine:()Background//
(7:3)StepLine:(Context)Given /x/
(8:3)TableRow:()|//5:a,9:b
(9:3)Comment://
(10:3)TableRow:()|//5:1,9:2
(11:1)Empty://
(12:1)TagLine://2:@c
(13:4)ScenarioLine:()Scenario Outline/s/
(14:3)StepLine:(Action)When /y/
(15:3)DocStringSeparator:()```//
(16:1)Other:/doc/
(17:3)DocStringSeparator:()```//
(18:1)TagLine://2:@d
(19:5)ExamplesLine:()Examples//
(20:3)TableRow:()|//5:p
(21:3)Comment://
(22:3)TableRow:()|//5:1
EOF" := by decide +kernel

example : MdState.new py"en" = some Sample.enMd ∧ OneFence Sample.md ∧ PlainHeadings Sample.md :=
  ⟨by decide +kernel, ⟨py"```", by decide +kernel⟩, by
    have h : ∀ s ∈ splitLines Sample.md, (lstrip s).head? = some '#' → '`' ∉ s := by decide +kernel
    rintro s hs hh ⟨a, b, rfl⟩
    exact h _ hs hh (by simp)⟩

end Gherkin
