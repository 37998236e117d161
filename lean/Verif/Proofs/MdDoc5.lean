import Verif.Proofs.MdDoc4
import Verif.Props.Document

/-! The doc strings of accepted Markdown texts: from the tokens to the document. -/

namespace Gherkin

open Markdown Cst

theorem unique_split {α : Type} {l a b a' b' : List α} {x : α} (hn : l.Nodup) (h1 : l = a ++ x :: b) (h2 : l = a' ++ x :: b') : a = a' ∧ b = b' := by
  subst h1
  induction a generalizing a' with
  | nil =>
    cases a' with
    | nil => simp at h2; exact ⟨rfl, h2⟩
    | cons y ys =>
      simp at h2
      obtain ⟨rfl, h2⟩ := h2
      simp [h2] at hn
  | cons y ys ih =>
    cases a' with
    | nil =>
      simp at h2
      obtain ⟨rfl, h2⟩ := h2
      simp at hn
    | cons z zs =>
      simp at h2
      obtain ⟨rfl, h2⟩ := h2
      obtain ⟨e1, e2⟩ := ih (by simp at hn; exact hn.2) h2
      exact ⟨by rw [e1], e2⟩

theorem description_mem {ts : List Token} {t : Token} (ht : t ∈ ts) (hn : textOf t ≠ []) (hall : ∀ u ∈ ts, '\n' ∉ textOf u) :
    textOf t ∈ splitChar '\n' (description ts) := by
  have hm : textOf t ∈ trimEnd (ts.map textOf) := mem_trimEnd (List.mem_map.2 ⟨t, ht, rfl⟩) hn
  rw [description, splitChar_join]
  · exact hm
  · intro y hy
    have : y ∈ ts.map textOf := by
      unfold trimEnd at hy
      rw [List.mem_reverse] at hy
      simpa using (List.dropWhile_sublist _).subset hy
    obtain ⟨u, hu, rfl⟩ := List.mem_map.1 this
    exact hall u hu
  · intro h0; rw [h0] at hm; simp at hm

theorem fencedLine_eq {f : Str} (hf : f ∈ Md.Fences) (l : Line) (n : Nat) :
    rstripEol (Classic.unescapeDoc (some f) (l.lineTextFrom n)) = fencedLine f n l.text := by
  have e1 : escaped Classic.quotes = py"\\\"\\\"\\\"" := rfl
  have e2 : escaped Classic.ticks = py"\\`\\`\\`" := rfl
  rw [outdent_eq]
  simp only [Md.Fences, List.mem_cons, List.not_mem_nil, or_false] at hf
  rcases hf with rfl | rfl | rfl
  · have : ¬ (Classic.quotes = py"````") := by decide
    simp [fencedLine, this, Classic.unescapeDoc, docLine, chomp, e1]
  · have h1 : ¬ (Md.ticks4 = Classic.quotes) := by decide
    have h2 : ¬ (Md.ticks4 = Classic.ticks) := by decide
    have h3 : Md.ticks4 = py"````" := rfl
    simp only [fencedLine, Classic.unescapeDoc, Option.some.injEq, h1, h2, if_false, chomp]
    rw [if_pos h3]
  · have : ¬ (Classic.ticks = py"````") := by decide
    have h1 : ¬ (Classic.ticks = Classic.quotes) := by decide
    simp [fencedLine, this, h1, Classic.unescapeDoc, docLine, chomp, e2]

theorem md_docStrings {text : Str} (hf : OneFence text) (hp : PlainHeadings text) {stop : Bool} {m : MdState} {b : BState} {d : Document}
    (h : (parse ⟨markdown, astBuilder, stop⟩ text m b).1 = .ok (some d)) (hd : NoFenceInText d) : ∀ x ∈ d.docStrings, DocQuoted text x := by
  obtain ⟨f, hf⟩ := hf
  have hord := (parse_order (md_steady (B := astBuilder) (stop := stop) (Md.reset m).dialect hf hp) m b ⟨rfl, .inl (by simp [markdown, Md.reset])⟩).2.1 _ h
  rcases hpe : parse ⟨markdown, astBuilder, stop⟩ text m b with ⟨x, c⟩
  obtain ⟨D, h1, h2, h3, _⟩ := parsed_doc markdown_lawful h
  rw [hpe] at h h2 h3 hord
  simp only at h
  subst h
  obtain ⟨_, _, kids, hA⟩ := (parse_cases (cfg := ⟨markdown, astBuilder, stop⟩) markdown_lawful text m b).1 _ c hpe
  have hB := parse_builtIn (cfg := ⟨markdown, astBuilder, stop⟩) (P := Md.Fenced (Md.reset m).dialectName (Md.reset m).dialect) markdown_lawful
    (fun k t m h => fenced_keep k t m h) text m b ⟨⟨rfl, rfl⟩, by simp [markdown, Md.reset]⟩ hpe
  have hlines : (builds c.log).map (·.line) = tokenLines text := by rw [← hA.lines]; exact hord
  have hnd : ((builds c.log).filter Token.isCore).Nodup := by
    refine List.Nodup.sublist List.filter_sublist ?_
    have : ((builds c.log).map (·.line)).Nodup := by
      rw [hlines]
      have := (tokenLines_numbered text).inc
      refine List.Pairwise.of_map (fun l : Line => l.number) ?_ (this.imp (fun {a b} (h : a < b) => Nat.ne_of_lt h))
      intro a b hab e; exact hab (by rw [e])
    exact List.Pairwise.of_map (fun t : Token => t.line) (fun a b hab e => hab (by rw [e])) this
  have hC : Complete f (builds c.log) := by
    rcases parse_fences hf hp hpe with hs | hs
    · exfalso
      obtain ⟨pre, t, post, e, hc, ho, hq⟩ := hs
      have htb : t ∈ builds c.log := by rw [e]; simp
      have htf : fenceOf t.line.text = some f := by
        have hmem := (hA.tokens t htb).1.1
        simp only [tokenLines, sourceLines, eofLine, List.mem_append, List.mem_map, List.mem_singleton] at hmem
        rcases hmem with ⟨⟨s, n⟩, hs, e⟩ | e
        · rcases hf s (List.fst_mem_of_mem_zipIdx hs) with h | h
          · rw [← e] at hq; exact absurd (.inl h) hq
          · rw [← e]; exact h
        · rw [e] at hq; exact absurd (.inl (by decide : fenceOf [] = none)) hq
      have hother : ∀ u ∈ builds c.log, u.type = some .other → ProseOf u.line.text (textOf u) ∧ '\n' ∉ textOf u := by
        intro u hu hku
        obtain ⟨husrc, _⟩ := hA.tokens u hu
        obtain ⟨k', hk', u0, n0, n0', ⟨_, hQ⟩, hu0, hum⟩ := hB u hu
        rw [hku] at hk'; cases hk'
        simp only [markdown, Md.matchKind] at hum
        have hpr := other_prose hQ hum
        rw [hu0] at hpr
        refine ⟨hpr, (prose_text hpr).2 ?_⟩
        by_cases hue : u.line.isEof = true
        · exact ⟨[], by simp, .inl (by simpa [Line.isEof] using hue)⟩
        · have := tokenLines_lineIs husrc.1 (by simpa using hue)
          exact splitLines_lf text _ (List.mem_of_getElem? this.2)
      have htc : t.isCore = true := by rw [isCore_kind ho]; rfl
      have htD : t ∈ D.toks := by rw [h2, List.mem_filter]; exact ⟨htb, htc⟩
      have htold := doc_told h1 htD ho (commentsOf (builds c.log)) b.nextId
      rw [← h3] at htold
      have hfx := prose_fence (hother t htb ho).1 htf
      rcases htold with ⟨p, hpp, ts, ht, hts, e'⟩ | ⟨s, hs, x, hx, ts, ht, hts, _, st, o, cl, hi, k1, k2, k3⟩
      · refine hfx (hd p hpp (textOf t) ?_)
        rw [e']
        refine description_mem ht ?_ ?_
        · intro e0; rw [e0] at hfx; exact hfx (by decide)
        · intro u hu
          have := (hts u hu).1
          rw [h2, List.mem_filter] at this
          exact (hother u this.1 (hts u hu).2).2
      · obtain ⟨A, Bb, hAB⟩ := hi
        obtain ⟨t1, t2, rfl⟩ := List.append_of_mem ht
        have s1 : (builds c.log).filter Token.isCore = (A ++ st :: o :: t1) ++ t :: (t2 ++ [cl] ++ Bb) := by
          rw [← h2, ← hAB]; simp
        have s2 : (builds c.log).filter Token.isCore = pre.filter Token.isCore ++ t :: post.filter Token.isCore := by
          rw [e, List.filter_append, List.filter_cons, if_pos htc]
        obtain ⟨e1, _⟩ := unique_split hnd s2 s1
        obtain ⟨X, ls, c', Y, _, _, _, j3, j4⟩ := hc.find e1 k1 k2
        have := (hts c' (by rw [List.mem_append, j4]; left; simp)).2
        rw [j3.type] at this; simp at this
    · exact hs
  intro x hx
  simp only [Document.docStrings, List.mem_filterMap] at hx
  obtain ⟨s, hs, hx⟩ := hx
  rw [h3] at hs
  obtain ⟨S, hS, k, rfl⟩ := ast_steps hs
  cases ha : S.arg with
  | none => simp [CStep.ast, ha, Arg.ast] at hx
  | table r rs => simp [CStep.ast, ha, Arg.ast] at hx
  | doc o ls cl =>
    simp [CStep.ast, ha, Arg.ast] at hx
    subst hx
    have hok := csteps_ok h1 hS
    obtain ⟨hok0, hok⟩ := hok
    rw [ha] at hok
    obtain ⟨A, Bb, hAB⟩ := step_infix hS
    have e1 : (builds c.log).filter Token.isCore = A ++ S.line :: o :: (ls ++ cl :: Bb) := by
      rw [← h2, ← hAB]; simp [CStep.toks, ha, Arg.toks]
    obtain ⟨X, ls', c', Y, eb, k1, k2, k3, k4⟩ := hC.find e1 hok0 hok.1
    have hblock := block_unique (p := fun t : Token => t.type = some .other) k4 hok.2.2.1 (fun t ht => (k2 t ht).type)
      (by intro z hz; simp at hz; subst hz; rw [hok.2.2.2]; simp) (by intro z hz; simp at hz; subst hz; rw [k3.type]; simp)
    obtain ⟨rfl, hcl⟩ := hblock
    simp only [List.cons.injEq] at hcl
    obtain ⟨rfl, _⟩ := hcl
    have hl : tokenLines text = X.map (·.line) ++ o.line :: (ls.map (·.line) ++ cl.line :: Y.map (·.line)) := by
      rw [← hlines, eb]; simp
    have hY : Y.map (·.line) ≠ [] := by
      intro h0
      rw [h0] at hl
      have hl' : tokenLines text = (X.map (·.line) ++ o.line :: ls.map (·.line)) ++ [cl.line] := by rw [hl]; simp
      have this := (List.append_inj' hl' rfl).2
      simp only [eofLine, List.cons.injEq, and_true] at this
      have hfe := k3.fence
      rw [← this] at hfe
      exact absurd hfe (by simp [show fenceOf [] = none by decide])
    obtain ⟨n1, n2⟩ := lines_split hl
    have n3 := (n2 (by simp)).1
    rw [List.dropLast_append_of_ne_nil (by simp), List.dropLast_cons_of_ne_nil hY] at n3
    obtain ⟨hst, hF⟩ := Md.fence_starts k1.fence
    have hob : o ∈ builds c.log := by rw [eb]; simp
    obtain ⟨hosrc, _⟩ := hA.tokens o hob
    have hne : o.line.isEof = false := by
      cases he : o.line.isEof with
      | false => rfl
      | true =>
        have := k1.fence
        rw [isEof_text he] at this
        exact absurd this (by simp [show fenceOf [] = none by decide])
    have hli := tokenLines_lineIs hosrc.1 hne
    obtain ⟨ws, w1, w2, _, w3⟩ := trimmed_spec o.line
    have hsplit := startsWith_split hst
    have hbody : docBody text o.line.number f = ls.map (·.line) := by
      rw [docBody, n3]
      refine takeWhile_split ?_ ?_
      · intro y hy
        obtain ⟨u, hu, rfl⟩ := List.mem_map.1 hy
        rw [isDelim_eq]
        have := (k2 u hu).fence
        rw [Md.fence_cases] at this
        simp only [Md.Fences, List.mem_cons, List.not_mem_nil, or_false] at hF
        cases hsw : u.line.startsWith f with
        | false => rfl
        | true =>
          exfalso
          revert this
          rcases hF with rfl | rfl | rfl
          · simp [hsw]
          · split
            · simp
            · simp [hsw]
          · split
            · simp
            · split
              · simp
              · simp [hsw]
      · rw [isDelim_eq, (Md.fence_starts k3.fence).1]; rfl
    have hlo : o.loc.line = o.line.number := hosrc.2
    simp only [DocQuoted]
    rw [hlo]
    refine ⟨f, ?_, k1.keyword, ws, o.line.trimmed.drop f.length, w1, ?_, ?_, ?_, ?_, cl.line, ?_, ?_⟩
    · exact hF
    · rw [show ws ++ f ++ o.line.trimmed.drop f.length = o.line.text by rw [w2, List.append_assoc, ← hsplit]]; exact hli
    · rw [k1.column, ← w3]
    · simp [textOf, k1.text, Line.restTrimmed]
    · rw [hbody, List.map_map]
      congr 1
      refine List.map_congr_left fun u hu => ?_
      simp only [Function.comp, textOf, (k2 u hu).text, Option.getD_some, fencedLine_eq hF, w3]
    · rw [hbody, n3]; simp
    · rw [isDelim_eq]; exact (Md.fence_starts k3.fence).1

end Gherkin
