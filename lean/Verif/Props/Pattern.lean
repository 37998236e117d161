import Verif.Proofs.PatternRead
import Verif.Props.Pickles

/-! C80: a header of an examples table is a regular expression. -/

namespace Gherkin

open Pickles Pattern

/-- Every header cell of the document is, between `<` and `>`, a pattern in the notation, and this pattern does not stand for the empty text. -/
def Document.PatternHeaders (d : Document) : Prop :=
  ∀ e ∈ d.examples, ∀ h ∈ e.header, ∀ c ∈ h.cells, ∃ L, Means .alt ('<' :: c.value ++ ['>']) L ∧ ¬ L []

theorem header_reads {h : Str} {L : Texts} (hm : Means .alt ('<' :: h ++ ['>']) L) : ∃ r, Regex.read ('<' :: (h ++ ['>'])) = some r ∧ Regex.Den r L :=
  Regex.read_means hm (by simp [startsWith, List.isPrefixOf])

theorem substituted_replaced : ∀ {cols : List (Str × Str)} {s s' : Str}, (∀ c ∈ cols, ∃ L, Means .alt ('<' :: c.1 ++ ['>']) L ∧ ¬ L []) →
    SubstitutedAll cols s s' → AllReplaced cols s s'
  | [], _, _, _, h => by cases (h : _ = _); exact .nil
  | (h, v) :: cols, s, s', hc, ⟨r, hr, hs⟩ => by
    obtain ⟨L, hm, h0⟩ := hc (h, v) (by simp)
    obtain ⟨r', hr', hd⟩ := header_reads hm
    rw [hr'] at hr
    cases hr
    exact .column hm (Regex.den_sub hd h0 v s) (substituted_replaced (fun c hc' => hc c (List.mem_cons_of_mem _ hc')) hs)

theorem columns_header {h r : Row} {c : Str × Str} (hc : c ∈ columns h r) : ∃ x ∈ h.cells, x.value = c.1 := by
  have := (List.of_mem_zip (by simpa [columns] using hc : c ∈ (h.cells.map (·.value)).zip (r.cells.map (·.value)))).1
  simpa using this

/-- **C80, one text.** If the headers are patterns, the text of an outline row is the outline's text where, one column after the other and from left to right,
what the pattern `<header>` matches is replaced by the value, verbatim, and everything else is kept. -/
theorem C80_text (eng : Engine) (h r : Row) (hh : ∀ c ∈ h.cells, ∃ L, Means .alt ('<' :: c.value ++ ['>']) L ∧ ¬ L [])
    (hl : h.cells.length ≤ r.cells.length) (s : Str) : ∃ s', interpolate eng h.cells r.cells s = .ok s' ∧ AllReplaced (columns h r) s s' := by
  have hr : ∀ c ∈ h.cells, (Regex.read ('<' :: (c.value ++ ['>']))).isSome = true := by
    intro c hc
    obtain ⟨L, hm, _⟩ := hh c hc
    obtain ⟨r, hr, _⟩ := header_reads hm
    rw [hr]; rfl
  obtain ⟨s', h1, _⟩ := interpolateFrom_sub (eng := eng) (s := s) (values := r.cells) hr (i := 0) (by omega)
  refine ⟨s', h1, substituted_replaced ?_ ((C28_by_pattern eng h r hr hl s s').1 h1)⟩
  intro c hc
  obtain ⟨x, hx, e⟩ := columns_header hc
  rw [← e]; exact hh x hx

/-- **C80, the pickles.** If the headers of an accepted text are patterns, the text compiles, and in every pickle of an outline row name, step texts, table
cells, doc strings and media types are those of the outline with what the patterns match replaced by the row's values; all others are copied. -/
theorem C80_pickles {μ : Type} (M : Matcher μ) (hM : M.Lawful) (hF : M.Filling) (stop : Bool) (text : Str) (m : μ) (b : BState) (d : Document)
    (h : (parse ⟨M, astBuilder, stop⟩ text m b).1 = .ok (some d)) (hh : d.PatternHeaders) (eng : Engine) (uri : Str) (n : Nat) :
    ∃ ps n', compile eng uri d n = .ok (ps, n') ∧ List.Forall₂ (Case.Texts AllReplaced) d.cases ps := by
  have hr : d.ReadableHeaders := by
    intro e he hd hhd c hc
    obtain ⟨L, hm, _⟩ := hh e he hd hhd c hc
    obtain ⟨r, hr, _⟩ := header_reads hm
    rw [hr]; rfl
  have hc := parsed_compilable hM hF h hr
  obtain ⟨ps, n', h1⟩ := compile_total eng uri hc n
  refine ⟨ps, n', h1, texts_by eng uri d (parsed_backgroundFirst hM h) ?_ n n' ps h1⟩
  intro e he hd hhd r hr s s' hi
  obtain ⟨t, h2, h3⟩ := C80_text eng hd r (hh e he hd hhd) ((hc.rows e he hd hhd).2 r hr) s
  rw [h2] at hi
  cases hi
  exact h3

/-- The notation says which texts are meant. -/
theorem C80_one_meaning (h : Str) (L L' : Texts) (hm : Means .alt ('<' :: h ++ ['>']) L) (hm' : Means .alt ('<' :: h ++ ['>']) L') (s : Str) : L s ↔ L' s := by
  obtain ⟨r, hr, hd⟩ := header_reads hm
  obtain ⟨r', hr', hd'⟩ := header_reads hm'
  rw [hr] at hr'
  cases hr'
  have key : ∀ {K : Texts}, Regex.Den r K → (K s ↔ ∃ q ∈ r.run ⟨[], s, []⟩, q.back = s.reverse ∧ q.rest = []) := by
    intro K hK
    rw [hK ⟨[], s, []⟩ s.reverse []]
    constructor
    · intro h; exact ⟨s, h, by simp, by simp⟩
    · rintro ⟨v, h1, h2, _⟩
      have : s = v := by simpa using h2
      rw [this]; exact h1
  rw [key hd, key hd']

/-! ### A pattern -/

namespace Sample

/-- Characters that are not special stand for themselves. -/
theorem chars : ∀ (w : Str) {v : Str} {K : Texts}, (∀ c ∈ w, c ∉ special) → Means .seq v K → ∃ L, Means .seq (v ++ w) L ∧ ∀ s, L s ↔ ∃ a, s = a ++ w ∧ K a
  | [], v, K, _, h => ⟨K, by simpa using h, fun s => ⟨fun h => ⟨s, by simp, h⟩, fun ⟨a, e, h⟩ => by rw [e]; simpa using h⟩⟩
  | c :: w, v, K, hw, h => by
    obtain ⟨L, h1, h2⟩ := chars w (fun d hd => hw d (List.mem_cons_of_mem _ hd)) (h.next (.once (.char (hw c (by simp)))))
    refine ⟨L, by simpa using h1, fun s => ?_⟩
    rw [h2]
    constructor
    · rintro ⟨_, rfl, a, b, rfl, ha, rfl⟩; exact ⟨a, by simp, ha⟩
    · rintro ⟨a, rfl, ha⟩; exact ⟨a ++ [c], by simp, a, [c], rfl, ha, rfl⟩

/-- `<colou?r>` stands for `<color>` and `<colour>`. -/
theorem colour : ∃ L, Means .alt ('<' :: py"colou?r" ++ ['>']) L ∧ ∀ s, L s ↔ s = py"<color>" ∨ s = py"<colour>" := by
  obtain ⟨K, h1, h2⟩ := chars py"<colo" (v := []) (by decide) .nothing
  obtain ⟨L, h3, h4⟩ := chars py"r>" (by decide) (h1.next (.opt (.char (c := 'u') (by decide))))
  refine ⟨L, .only h3, fun s => ?_⟩
  rw [h4]
  constructor
  · rintro ⟨_, rfl, a, b, rfl, ha, n, hn, hb⟩
    obtain ⟨x, rfl, rfl⟩ := (h2 a).1 ha
    rcases (by omega : n = 0 ∨ n = 1) with rfl | rfl
    · cases (hb : b = []); exact .inl rfl
    · obtain ⟨y, z, rfl, rfl, hz⟩ := hb
      cases (hz : z = []); exact .inr rfl
  · rintro (rfl | rfl)
    · exact ⟨py"<colo", rfl, py"<colo", [], rfl, (h2 _).2 ⟨[], rfl, rfl⟩, 0, by omega, rfl⟩
    · exact ⟨py"<colou", rfl, py"<colo", py"u", rfl, (h2 _).2 ⟨[], rfl, rfl⟩, 1, by omega, py"u", [], rfl, rfl, rfl⟩

def painted : Str := py"Feature: f
Scenario Outline: <color>
  Given <colour> or <colr>
  Examples:
    | colou?r |
    | red |
"

def paintedDoc : Document := ((parse ⟨classic, astBuilder, false⟩ painted en fresh).1.toOption.getD none).getD default

theorem painted_ok : (parse ⟨classic, astBuilder, false⟩ painted en fresh).1 = .ok (some paintedDoc) := by decide +kernel

theorem painted_headers : paintedDoc.PatternHeaders := by
  intro e he h hh c hc
  have key : ∀ e ∈ paintedDoc.examples, ∀ h ∈ e.header, ∀ c ∈ h.cells, c.value = py"colou?r" := by decide +kernel
  rw [key e he h hh c hc]
  obtain ⟨L, h1, h2⟩ := colour
  exact ⟨L, h1, by rw [h2]; decide⟩

end Sample

example (eng : Engine) : ∃ ps n', compile eng py"u" Sample.paintedDoc 7 = .ok (ps, n') ∧ List.Forall₂ (Case.Texts AllReplaced) Sample.paintedDoc.cases ps :=
  C80_pickles classic classic_lawful classic_filling false Sample.painted Sample.en Sample.fresh Sample.paintedDoc Sample.painted_ok Sample.painted_headers eng py"u" 7

/-- What comes out: both spellings are replaced. -/
example (eng : Engine) : interpolate eng (Sample.row [py"colou?r"]).cells (Sample.row [py"red"]).cells py"<colour> or <colr> or <color>" = .ok py"red or <colr> or red" :=
  substituted_one (by decide +kernel) eng

end Gherkin
