import Verif.Proofs.Filled
import Verif.Spec.PickleText

/-! C24–C29: compiling documents to pickles. -/

namespace Gherkin

open Pickles

/-- The number of pickles a scenario should give. -/
def Scenario.count (s : Scenario) : Nat :=
  if s.examples = [] then 1 else (s.examples.map fun e => if e.header.isSome then e.body.length else 0).sum

theorem rows_length (s : Scenario) : s.rows.length = s.count := by
  unfold Scenario.rows Scenario.count
  split
  · rename_i h; simp [h]
  · rename_i x y h
    rw [if_neg (by simp [h]), List.length_flatMap]
    congr 1
    apply List.map_congr_left
    intro e _
    cases e.header <;> simp

theorem forall₂_mem_right {α β : Type} {R : α → β → Prop} : ∀ {as : List α} {bs : List β}, List.Forall₂ R as bs → ∀ {b : β}, b ∈ bs →
    ∃ a ∈ as, R a b
  | _, _, .nil, b, h => by simp at h
  | _, _, .cons hab hrest, b, h => by
    simp only [List.mem_cons] at h
    rcases h with rfl | h
    · exact ⟨_, by simp, hab⟩
    · obtain ⟨a, ha, hr⟩ := forall₂_mem_right hrest h
      exact ⟨a, by simp [ha], hr⟩

theorem forall₂_and_mem {α β : Type} {R : α → β → Prop} : ∀ {as : List α} {bs : List β}, List.Forall₂ R as bs →
    List.Forall₂ (fun a b => a ∈ as ∧ R a b) as bs
  | _, _, .nil => .nil
  | _, _, .cons hab hrest => .cons ⟨by simp, hab⟩ ((forall₂_and_mem hrest).imp fun _ _ h => ⟨by simp [h.1], h.2⟩)

theorem compile_forall₂ {eng : Engine} {uri : Str} {d : Document} {ps : List Pickle} {n n' : Nat} (hd : d.BackgroundFirst)
    (h : compile eng uri d n = .ok (ps, n')) : ∃ lang, (∀ f ∈ d.feature, f.children ≠ [] → f.language = some lang) ∧
      List.Forall₂ (Realises eng uri lang) d.cases ps := (compile_ok h).2 hd

/-- Parsed documents are as the compiler theorems need them: backgrounds come first; and they compile without an exception if every header cell of an examples table, between `<` and `>`, is a regular
expression of the modelled kind. (Classic and Markdown.) -/
theorem C24_parsed_documents_compile {μ : Type} (M : Matcher μ) (hM : M.Lawful) (hF : M.Filling) (eng : Engine) (uri : Str) (stop : Bool) (text : Str)
    (m : μ) (b : BState) (d : Document) (h : (parse ⟨M, astBuilder, stop⟩ text m b).1 = .ok (some d)) :
    d.BackgroundFirst ∧ (d.ReadableHeaders → ∀ n, ∃ ps n', compile eng uri d n = .ok (ps, n')) :=
  ⟨parsed_backgroundFirst hM h, fun hh n => compile_total eng uri (parsed_compilable hM hF h hh) n⟩

/-- C24: one pickle for each scenario without examples blocks; otherwise one per body row of each examples block with a header. -/
theorem C24_pickle_count (eng : Engine) (uri : Str) (d : Document) (hd : d.BackgroundFirst) (n n' : Nat) (ps : List Pickle)
    (h : compile eng uri d n = .ok (ps, n')) : ps.length = (d.scenarios.map Scenario.count).sum := by
  obtain ⟨lang, _, hf⟩ := compile_forall₂ hd h
  rw [← hf.length_eq]
  have := congrArg List.length (cases_scenarios d)
  rw [List.length_map, List.length_flatMap] at this
  rw [this]
  congr 1
  exact List.map_congr_left (fun s _ => by simp [rows_length])

/-- C29 (order): the pickles, in order, stand for the scenarios in document order, each with its rows in order: the `astNodeIds` are
the scenario's id, followed for outlines by the row's id. -/
theorem C29_pickles_in_order (eng : Engine) (uri : Str) (d : Document) (hd : d.BackgroundFirst) (n n' : Nat) (ps : List Pickle)
    (h : compile eng uri d n = .ok (ps, n')) :
    ps.map (·.astNodeIds) = d.scenarios.flatMap fun s =>
      if s.examples = [] then [[s.id]]
      else s.examples.flatMap fun e => if e.header.isSome then e.body.map fun r => [s.id, r.id] else [] := by
  obtain ⟨lang, _, hf⟩ := compile_forall₂ hd h
  rw [forall₂_map_eq (f := Case.nodeIds) (fun c p hcp => hcp.nodeIds) hf]
  have := congrArg (List.map fun (x : Scenario × Option (Examples × Row × Row)) => x.1.id :: (x.2.elim [] fun (_, _, r) => [r.id])) (cases_scenarios d)
  rw [List.map_map] at this
  change d.cases.map Case.nodeIds = _ at this
  rw [this, List.map_flatMap]
  congr 1
  funext s
  unfold Scenario.rows
  split
  · rename_i h; simp [h]
  · rename_i x y h
    rw [if_neg (by simp [h]), List.map_map, List.map_flatMap]
    congr 1
    funext e
    cases he : e.header with
    | none => simp
    | some hd => simp [Function.comp_def]

/-- C29: pickles and the document's cases correspond one to one, in order. Every id a pickle refers to is an id of the document. -/
theorem C29_ids_exist (eng : Engine) (uri : Str) (d : Document) (hd : d.BackgroundFirst) (n n' : Nat) (ps : List Pickle)
    (h : compile eng uri d n = .ok (ps, n')) :
    ∀ p ∈ ps, (∀ i ∈ p.astNodeIds, i ∈ d.ids) ∧ (∀ t ∈ p.tags, t.astNodeId ∈ d.ids) ∧ ∀ s ∈ p.steps, ∀ i ∈ s.astNodeIds, i ∈ d.ids := by
  obtain ⟨lang, _, hf⟩ := compile_forall₂ hd h
  intro p hp
  obtain ⟨c, hc, hr⟩ := forall₂_mem_right hf hp
  obtain ⟨h1, h2, h3, h4⟩ := case_ids hc
  have hrow : ∀ i, (i ∈ c.row.elim [] fun (x : Examples × Row × Row) => [x.2.2.id]) → i ∈ d.ids := by
    intro i hi
    cases hrw : c.row with
    | none => simp [hrw] at hi
    | some x =>
      obtain ⟨e, hd, r⟩ := x
      simp [hrw] at hi; subst hi
      obtain ⟨a1, a2, a3⟩ := h4 e hd r hrw
      refine h1 _ ?_
      simp only [Scenario.ids, List.mem_cons, List.mem_append, List.mem_flatMap]
      refine .inr (.inr ⟨e, a1, ?_⟩)
      simp only [Examples.ids, List.mem_cons, List.mem_append, List.mem_map]
      exact .inr (.inr ⟨r, .inr a3, rfl⟩)
  refine ⟨?_, ?_, ?_⟩
  · rw [hr.nodeIds]
    intro i hi
    simp only [Case.nodeIds, List.mem_cons] at hi
    rcases hi with rfl | hi
    · exact h1 _ (by simp [Scenario.ids])
    · exact hrow i hi
  · rw [hr.tags]
    intro t ht
    simp only [List.mem_map] at ht
    obtain ⟨t', ht', rfl⟩ := ht
    simp only [Case.tags, List.mem_append] at ht'
    rcases ht' with (ht' | ht') | ht'
    · exact h2 _ ht'
    · refine h1 _ ?_
      simp only [Scenario.ids, List.mem_cons, List.mem_append, List.mem_map]
      exact .inr (.inl (.inl ⟨t', ht', rfl⟩))
    · cases hrw : c.row with
      | none => simp [hrw] at ht'
      | some x =>
        obtain ⟨e, hd, r⟩ := x
        simp [hrw] at ht'
        obtain ⟨a1, a2, a3⟩ := h4 e hd r hrw
        refine h1 _ ?_
        simp only [Scenario.ids, List.mem_cons, List.mem_append, List.mem_flatMap]
        refine .inr (.inr ⟨e, a1, ?_⟩)
        simp only [Examples.ids, List.mem_cons, List.mem_append, List.mem_map]
        exact .inr (.inl ⟨t', ht', rfl⟩)
  · intro s hs i hi
    have hsi : s.astNodeIds ∈ c.stepIds := by rw [← hr.stepIds]; exact List.mem_map_of_mem hs
    simp only [Case.stepIds] at hsi
    split at hsi
    · simp at hsi
    · simp only [List.mem_append, List.mem_map] at hsi
      rcases hsi with ⟨x, hx, he⟩ | ⟨x, hx, he⟩
      · rw [← he] at hi; simp at hi; subst hi; exact h3 x hx
      · rw [← he] at hi; simp only [List.mem_cons] at hi
        rcases hi with rfl | hi
        · refine h1 _ ?_
          simp only [Scenario.ids, List.mem_cons, List.mem_append, List.mem_flatMap]
          exact .inr (.inl (.inr ⟨x, hx, by simp [Step.ids]⟩))
        · exact hrow i hi

/-- C29: the ids of pickles and pickle steps are those handed out by the id generator during compilation, each once: with C08 they
are distinct from each other and from the ids of all documents parsed before with the same generator. -/
theorem C29_pickle_ids_fresh (eng : Engine) (uri : Str) (d : Document) (n n' : Nat) (ps : List Pickle)
    (h : compile eng uri d n = .ok (ps, n')) :
    (ps.flatMap fun p => p.id :: p.steps.map (·.id)).Nodup ∧ n ≤ n' ∧
    ∀ i, (i ∈ ps.flatMap fun p => p.id :: p.steps.map (·.id)) ↔ n ≤ i ∧ i < n' :=
  have hF := (compile_ok h).1
  ⟨hF.nodup, hF.1, hF.mem⟩

/-- C25: the steps of each pickle refer, in order, to the steps of the feature's background, the steps of the enclosing rule's
background and the scenario's own steps (the latter together with the row); a scenario without steps gives none. -/
theorem C25_pickle_steps (eng : Engine) (uri : Str) (d : Document) (hd : d.BackgroundFirst) (n n' : Nat) (ps : List Pickle)
    (h : compile eng uri d n = .ok (ps, n')) : ps.map (fun p => p.steps.map (·.astNodeIds)) = d.cases.map Case.stepIds := by
  obtain ⟨lang, _, hf⟩ := compile_forall₂ hd h
  exact forall₂_map_eq (fun c p hcp => hcp.stepIds) hf

/-- C26: the tags of each pickle are the feature's, the rule's, the scenario's and the examples block's, with ids and names. -/
theorem C26_pickle_tags (eng : Engine) (uri : Str) (d : Document) (hd : d.BackgroundFirst) (n n' : Nat) (ps : List Pickle)
    (h : compile eng uri d n = .ok (ps, n')) :
    ps.map (fun p => p.tags.map fun t => (t.astNodeId, t.name)) = d.cases.map fun c => c.tags.map fun t => (t.id, t.name) := by
  obtain ⟨lang, _, hf⟩ := compile_forall₂ hd h
  refine forall₂_map_eq (fun c p hcp => ?_) hf
  rw [hcp.tags, List.map_map]; rfl

/-- C27: the type of the `i`-th step of each pickle. -/
theorem C27_pickle_types (eng : Engine) (uri : Str) (d : Document) (hd : d.BackgroundFirst) (n n' : Nat) (ps : List Pickle)
    (h : compile eng uri d n = .ok (ps, n')) :
    List.Forall₂ (fun (c : Case) (p : Pickle) => p.steps.length = c.steps.length ∧
      ∀ i, i < c.steps.length → (p.steps[i]?).map (·.type) = some (c.typeAt i)) d.cases ps := by
  obtain ⟨lang, _, hf⟩ := compile_forall₂ hd h
  refine hf.imp ?_
  intro c p hr
  have hl : p.steps.length = c.steps.length := by
    have := congrArg List.length hr.types
    rw [List.length_map] at this
    rw [this]
    have : ∀ (l : Option KType) (ss : List Step), (types l ss).length = ss.length := by
      intro l ss; induction ss generalizing l with
      | nil => rfl
      | cons s ss ih => simp [types, ih]
    exact this _ _
  refine ⟨hl, fun i hi => ?_⟩
  rw [← List.getElem?_map, hr.types, types_get _ _ _ hi, lastType_eq]
  rfl

theorem interpolate_nil (eng : Engine) (s s' : Str) (h : interpolate eng [] [] s = .ok s') : s = s' := by
  simpa [interpolate, interpolateFrom] using h

theorem pickleArg_rel {eng : Engine} {hs vs : List Cell} {R : Str → Str → Prop} (hR : ∀ s s', interpolate eng hs vs s = .ok s' → R s s')
    {arg : StepArg} {a : Option PArg} {n n' : Nat} (h : pickleArg eng arg hs vs n = .ok (a, n')) : ArgRel R arg a := by
  cases arg with
  | none => obtain ⟨rfl, _⟩ := pure_ok' h; trivial
  | table t =>
    obtain ⟨rows, n1, h1, h2⟩ := bind_ok h
    obtain ⟨rfl, _⟩ := pure_ok h2
    refine (each_ok h1).imp ?_
    rintro r cells ⟨k, k', hk⟩
    refine (each_ok hk).imp ?_
    rintro c v ⟨k, k', hk⟩
    exact hR _ _ (lift_ok hk).1
  | doc d =>
    obtain ⟨c, n1, h1, h2⟩ := bind_ok h
    obtain ⟨hc, rfl⟩ := lift_ok h1
    cases hm : d.mediaType with
    | none =>
      rw [hm] at h2; obtain ⟨rfl, _⟩ := pure_ok h2
      exact ⟨hR _ _ hc, by rw [hm]; exact .none⟩
    | some mt =>
      rw [hm] at h2
      obtain ⟨c, n1, h1, h2⟩ := bind_ok h2
      obtain ⟨hc', rfl⟩ := lift_ok h1
      obtain ⟨rfl, _⟩ := pure_ok h2
      exact ⟨hR _ _ hc, by rw [hm]; exact .some (hR _ _ hc')⟩

/-- A header row and a value row with which interpolation is a simultaneous replacement: no special character, `<` or `>` in the
headers, no `<` in the values, no value missing. -/
def PlainColumns (h r : Row) : Prop :=
  (∀ c ∈ h.cells, PlainHeader c.value) ∧ (∀ c ∈ r.cells, '<' ∉ c.value) ∧ h.cells.length ≤ r.cells.length

/-- C28 for one text: with plain columns all placeholders are filled at once, values verbatim, everything else unchanged. -/
theorem C28_interpolate_partial (eng : Engine) (h r : Row) (hp : PlainColumns h r) (s : Str) (hs : Pieced s) :
    ∃ s', interpolate eng h.cells r.cells s = .ok s' ∧ Fills (columns h r) s s' := by
  obtain ⟨ps, hok, rfl⟩ := hs
  exact ⟨_, interpolateFrom_pieces hp.2.1 hp.1 (by have := hp.2.2; omega) hok, ps, hok, rfl, by simp [columns]⟩

theorem texts_by {R : List (Str × Str) → Str → Str → Prop} (eng : Engine) (uri : Str) (d : Document) (hd : d.BackgroundFirst)
    (hR : ∀ e ∈ d.examples, ∀ h ∈ e.header, ∀ r ∈ e.body, ∀ s s', interpolate eng h.cells r.cells s = .ok s' → R (columns h r) s s')
    (n n' : Nat) (ps : List Pickle)
    (h : compile eng uri d n = .ok (ps, n')) : List.Forall₂ (Case.Texts R) d.cases ps := by
  obtain ⟨lang, _, hf⟩ := compile_forall₂ hd h
  have hf' : List.Forall₂ (fun c p => c ∈ d.cases ∧ Realises eng uri lang c p) d.cases ps := forall₂_and_mem hf
  refine hf'.imp ?_
  rintro c p ⟨hc, hr⟩
  have hstep : ∀ (s : Step) (q : PStep), (∃ ty k k', pickleStep eng s ty k = .ok (q, k')) → StepRel Eq s q := by
    rintro s q ⟨ty, k, k', hq⟩
    obtain ⟨_, _, h3, h4, _⟩ := pickleStep_ok hq
    exact ⟨⟨_, h3, rfl⟩, pickleArg_rel (interpolate_nil eng) h4⟩
  unfold Case.Texts
  have h1 := hr.name
  have h2 := hr.steps
  cases hrow : c.row with
  | none =>
    rw [hrow] at h1 h2
    exact ⟨h1, h2.imp hstep⟩
  | some x =>
    obtain ⟨e, hd', r⟩ := x
    rw [hrow] at h1 h2
    obtain ⟨a1, a2, a3⟩ := (case_ids hc).2.2.2 e hd' r hrow
    have hsc : c.scenario ∈ d.scenarios := by
      have : (c.scenario, c.row) ∈ d.cases.map fun c => (c.scenario, c.row) := List.mem_map_of_mem hc
      rw [cases_scenarios] at this
      simp only [List.mem_flatMap, List.mem_map, Prod.mk.injEq] at this
      obtain ⟨s, hs, r, _, rfl, _⟩ := this
      exact hs
    have hI := hR e (by simp only [Document.examples, List.mem_flatMap]; exact ⟨_, hsc, a1⟩) hd' a2 r a3
    refine ⟨?_, ?_⟩
    · obtain ⟨nm, e1, e2⟩ := h1; exact ⟨nm, e1, hI _ _ e2⟩
    · intro hne
      rcases h2 with ⟨h2, _⟩ | ⟨ps', qs, e1, e2, e3⟩
      · exact absurd h2 hne
      · refine ⟨ps', qs, e1, e2.imp hstep, e3.imp ?_⟩
        rintro s q ⟨ty, k, k', hq⟩
        obtain ⟨_, _, ⟨t, b1, b2⟩, b3, _⟩ := outlineStep_ok hq
        exact ⟨⟨t, b1, hI _ _ b2⟩, pickleArg_rel hI b3⟩

/-- C28 for one text: unless a header contains a character special in regular expressions, or a value is missing, exactly this happens: one column
after the other, every `<header>` is replaced by the value, verbatim, and everything else stays. -/
theorem C28_replaces_partial (eng : Engine) (h r : Row) (hh : ∀ c ∈ h.cells, ∀ x ∈ c.value, isMeta x = false) (hl : h.cells.length ≤ r.cells.length)
    (s s' : Str) : interpolate eng h.cells r.cells s = .ok s' ↔ ReplacedAll (columns h r) s s' := by
  obtain ⟨t, h1, h2⟩ := interpolateFrom_replaced (eng := eng) (values := r.cells) (hs := h.cells) (i := 0) (s := s)
    (fun c hc => by rw [List.any_eq_false]; intro x hx; rw [hh c hc x hx]; simp) (by omega)
  rw [interpolate, h1]
  rw [List.drop_zero] at h2
  constructor
  · intro e; injection e with e; rw [← e]; exact h2
  · intro e; rw [replacedAll_unique h2 e]

/-- C28: in every pickle of an outline row, in name, step texts, table cells, doc strings and media types, every `<header>` is replaced by the
row's value, verbatim, one column after the other; in pickles of plain scenarios, and in background steps, everything is copied.
Partial: headers must not contain regular-expression characters; see the counterexample. -/
theorem C28_pickle_replaced_partial (eng : Engine) (uri : Str) (d : Document) (hd : d.BackgroundFirst)
    (hcols : ∀ e ∈ d.examples, ∀ h ∈ e.header, ∀ r ∈ e.body, (∀ c ∈ h.cells, ∀ x ∈ c.value, isMeta x = false) ∧ h.cells.length ≤ r.cells.length)
    (n n' : Nat) (ps : List Pickle) (h : compile eng uri d n = .ok (ps, n')) : List.Forall₂ (Case.Texts ReplacedAll) d.cases ps :=
  texts_by eng uri d hd (fun e he h hh r hr s s' hi => (C28_replaces_partial eng h r (hcols e he h hh r hr).1 (hcols e he h hh r hr).2 s s').1 hi) n n' ps h

/-- C28: replacing column after column fills all placeholders at once if no value contains `<` and no header `<` or `>`. -/
theorem C28_filled_at_once {cols : List (Str × Str)} (hc : ∀ c ∈ cols, ('<' ∉ c.1 ∧ '>' ∉ c.1) ∧ '<' ∉ c.2) {s s' : Str} (hs : Pieced s)
    (h : ReplacedAll cols s s') : Fills cols s s' := by
  obtain ⟨ps, hok, rfl⟩ := hs
  exact ⟨ps, hok, rfl, replacedAll_fills hc hok h⟩

/-- C28: in every pickle of an outline row the placeholders in name, step texts, table cells, doc strings and media types are
filled at once and verbatim; in pickles of plain scenarios, and in background steps, everything is copied.
Partial: headers must not contain regular-expression characters and values no `<`; see the counterexamples. -/
theorem C28_pickle_texts_partial (eng : Engine) (uri : Str) (d : Document) (hd : d.BackgroundFirst)
    (hcols : ∀ e ∈ d.examples, ∀ h ∈ e.header, ∀ r ∈ e.body, PlainColumns h r) (n n' : Nat) (ps : List Pickle)
    (h : compile eng uri d n = .ok (ps, n')) : List.Forall₂ (Case.Texts fun cols s s' => Pieced s → Fills cols s s') d.cases ps :=
  texts_by eng uri d hd (fun e he h hh r hr s s' hs hp => by
    obtain ⟨s2, e1, e2⟩ := C28_interpolate_partial eng h r (hcols e he h hh r hr) s hp
    rw [e1] at hs; simp at hs; rw [← hs]; exact e2) n n' ps h

/-! ### Why C28 is partial -/

/-- A row of the given values. -/
def Sample.row (vs : List Str) : Row := { id := 0, loc := ⟨1, none⟩, cells := vs.map fun v => ⟨⟨1, none⟩, v⟩ }

/-- A value that contains a placeholder of a later column is substituted again: the result is not that of filling at once. -/
theorem C28_counterexample_value (eng : Engine) :
    interpolate eng (Sample.row [py"a", py"b"]).cells (Sample.row [py"<b>", py"x"]).cells py"<a>" = .ok py"x" ∧
    ¬ Fills (columns (Sample.row [py"a", py"b"]) (Sample.row [py"<b>", py"x"])) py"<a>" py"x" := by
  refine ⟨by rfl, ?_⟩
  rintro ⟨ps, hok, h1, h2⟩
  have key : ∀ ps : List Piece, (∀ p ∈ ps, p.Ok) → py"<a>" = ps.flatMap Piece.src →
      ps.flatMap (Piece.fill (columns (Sample.row [py"a", py"b"]) (Sample.row [py"<b>", py"x"]))) = py"<b>" := by
    intro ps
    induction ps with
    | nil => intro _ h; simp at h
    | cons p ps ih =>
      intro hok h
      cases p with
      | plain s =>
        cases s with
        | nil =>
          simp only [List.flatMap_cons, Piece.src, Piece.fill, List.nil_append] at h ⊢
          exact ih (fun p hp => hok p (by simp [hp])) h
        | cons c s =>
          simp [Piece.src] at h
          have := hok (.plain (c :: s)) (by simp)
          simp [Piece.Ok] at this
          exact absurd h.1 this.1
      | hole nm =>
        have h3 := hok (.hole nm) (by simp)
        simp only [List.flatMap_cons, Piece.src, List.cons_append, List.append_assoc, List.nil_append, List.cons.injEq, true_and] at h
        have hnm : nm = py"a" ∧ ps.flatMap Piece.src = [] := by
          cases nm with
          | nil => simp at h
          | cons c nm =>
            simp only [List.cons_append, List.cons.injEq] at h
            obtain ⟨rfl, h⟩ := h
            cases nm with
            | nil => simp at h; exact ⟨rfl, by simpa using h⟩
            | cons c nm =>
              simp only [List.cons_append, List.cons.injEq] at h
              obtain ⟨rfl, h⟩ := h
              simp [Piece.Ok] at h3
        obtain ⟨rfl, h4⟩ := hnm
        have h5 : ps.flatMap (Piece.fill (columns (Sample.row [py"a", py"b"]) (Sample.row [py"<b>", py"x"]))) = [] := by
          rw [List.flatMap_eq_nil_iff] at h4 ⊢
          intro q hq
          have := h4 q hq
          cases q with
          | plain s => exact this
          | hole n => simp [Piece.src] at this
        rw [List.flatMap_cons, h5]
        decide
  have := key ps hok h1
  rw [this] at h2
  exact absurd h2 (by decide)

/-- One column after the other, `re.sub` with the pattern `<header>` and the value. -/
def SubstitutedAll : List (Str × Str) → Str → Str → Prop
  | [], s, s' => s' = s
  | (h, v) :: columns, s, s' => ∃ r, Regex.read ('<' :: (h ++ ['>'])) = some r ∧ SubstitutedAll columns (r.sub (fun _ => v) s) s'

theorem interpolateFrom_sub {eng : Engine} {values : List Cell} : ∀ {hs : List Cell} {i : Nat} {s : Str},
    (∀ h ∈ hs, readable h.value = true) → i + hs.length ≤ values.length →
    ∃ s', interpolateFrom eng values i hs s = .ok s' ∧ SubstitutedAll ((hs.map (·.value)).zip ((values.drop i).map (·.value))) s s'
  | [], i, s, _, _ => ⟨s, rfl, rfl⟩
  | h :: hs, i, s, hh, hi => by
    have hlt : i < values.length := by simp at hi; omega
    rw [interpolateFrom]
    simp only [List.getElem?_eq_getElem hlt]
    obtain ⟨r, hr, he⟩ := reSub_readable (hh h (by simp)) eng values[i].value s
    rw [he]
    obtain ⟨s', h1, h2⟩ := interpolateFrom_sub (eng := eng) (values := values) (hs := hs) (i := i + 1)
      (s := r.sub (fun _ => values[i].value) s) (fun x hx => hh x (by simp [hx])) (by simp at hi; omega)
    refine ⟨s', h1, ?_⟩
    have hd : values.drop i = values[i] :: values.drop (i + 1) := List.drop_eq_getElem_cons hlt
    simp only [hd, List.map_cons, List.zip_cons_cons]
    exact ⟨r, hr, h2⟩

theorem substitutedAll_unique : ∀ {cols : List (Str × Str)} {s a b : Str}, SubstitutedAll cols s a → SubstitutedAll cols s b → a = b
  | [], _, _, _, ha, hb => ha.trans hb.symm
  | (h, v) :: cols, s, a, b, ⟨r, h1, h2⟩, ⟨u, h3, h4⟩ => by
    rw [h1] at h3
    cases h3
    exact substitutedAll_unique h2 h4

/-- C28 for one text, whatever the headers: if each of them, between `<` and `>`, is a regular expression of the modelled kind and no value is missing,
exactly this happens: column after column, `re.sub` with the pattern `<header>` and the value. -/
theorem C28_by_pattern (eng : Engine) (h r : Row) (hh : ∀ c ∈ h.cells, (Regex.read ('<' :: (c.value ++ ['>']))).isSome = true)
    (hl : h.cells.length ≤ r.cells.length) (s s' : Str) :
    interpolate eng h.cells r.cells s = .ok s' ↔ SubstitutedAll (columns h r) s s' := by
  obtain ⟨t, h1, h2⟩ := interpolateFrom_sub (eng := eng) (s := s) (values := r.cells) hh (i := 0) (by omega)
  unfold interpolate
  rw [h1]
  constructor
  · rintro ⟨⟩; simpa [columns] using h2
  · intro h3
    have h2' : SubstitutedAll (columns h r) s t := by simpa [columns] using h2
    rw [substitutedAll_unique h3 h2']

theorem substituted_one {h v s s' : Str} (he : (Regex.read ('<' :: (h ++ ['>']))).map (fun r => r.sub (fun _ => v) s) = some s') (eng : Engine) :
    interpolate eng (Sample.row [h]).cells (Sample.row [v]).cells s = .ok s' := by
  cases hr : Regex.read ('<' :: (h ++ ['>'])) with
  | none => rw [hr] at he; cases he
  | some r =>
    rw [hr] at he
    refine (C28_by_pattern eng _ _ ?_ (by simp [Sample.row]) s s').2 ⟨r, hr, (Option.some.inj he).symm⟩
    intro c hc
    simp [Sample.row] at hc
    subst hc
    simp [hr]

/-- Headers are used as regular expressions: the header `a|b` does not fill `<a|b>`, it replaces `<a` and `b>`; the header `price (EUR)` does
not fill `<price (EUR)>`, but `<price EUR>`; the header `a.b` fills `<axb>` too. -/
theorem C28_counterexample_header (eng : Engine) :
    interpolate eng (Sample.row [py"a|b"]).cells (Sample.row [py"7"]).cells py"take <a|b>" = .ok py"take 7|7" ∧
    interpolate eng (Sample.row [py"price (EUR)"]).cells (Sample.row [py"7"]).cells py"<price (EUR)> or <price EUR>" = .ok py"<price (EUR)> or 7" ∧
    interpolate eng (Sample.row [py"a.b"]).cells (Sample.row [py"7"]).cells py"<a.b> or <axb>" = .ok py"7 or 7" :=
  ⟨substituted_one (by decide +kernel) eng, substituted_one (by decide +kernel) eng, substituted_one (by decide +kernel) eng⟩

/-! ### The hypotheses can be met -/

/-- `C28_replaces_partial` speaks about values with placeholders and about texts with `<` anywhere. -/
example (eng : Engine) : ReplacedAll [(py"a", py"<b>"), (py"b", py"x<a>")] py"1 < <a><<b>" py"1 < x<a><x<a>" :=
  (C28_replaces_partial eng (Sample.row [py"a", py"b"]) (Sample.row [py"<b>", py"x<a>"]) (by decide) (by decide) _ _).1 (by rfl)

/-- An engine that rejects everything. -/
def Sample.noEngine : Engine := fun _ _ _ => .error .indexError

/-- The pickles of the sample document. -/
def Sample.pickles : List Pickle := (((compile Sample.noEngine py"a.feature" Sample.doc Sample.fresh.nextId).toOption.map (·.1))).getD []

example : compile Sample.noEngine py"a.feature" Sample.doc 100 ≠ .ok ([], 100) := by decide +kernel
example : Sample.pickles.map (·.astNodeIds) = [[12, 7], [12, 8], [14]] := by decide +kernel
example : Sample.pickles.map (·.name) = [py"buy egg", py"buy milk", py"other"] := by decide +kernel
example : Sample.pickles.map (·.tags.length) = [4, 4, 2] := by decide +kernel
example : Sample.pickles.map (·.steps.map (·.type)) = [[some .context, some .action, some .outcome], [some .context, some .action, some .outcome],
    [some .context, some .unknown]] := by decide +kernel
example : Sample.doc.BackgroundFirst := parsed_backgroundFirst classic_lawful (stop := false) (text := Sample.text) (m := Sample.en)
  (b := Sample.fresh) (by decide +kernel)
example : (Sample.doc.examples.all fun e => e.header.toList.all fun h => e.body.all fun r =>
    (h.cells.all fun c => c.value.all fun x => !isMeta x && x != '<' && x != '>') && (r.cells.all fun c => !c.value.contains '<') &&
    h.cells.length ≤ r.cells.length) = true := by decide +kernel
example : Pieced py"buy <what> now" := ⟨[.plain py"buy ", .hole py"what", .plain py" now"], by simp [Piece.Ok], rfl⟩

end Gherkin
