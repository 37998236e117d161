import Verif.Spec.Hooks

/-! C39–C41: hook keywords. -/

namespace Gherkin

open Hooks

theorem asks_iff (events : List Str) (tag : Str) : (startsWith tag pre = true ∧ isFor events tag = true) ↔ Asks events tag := by
  constructor
  · rintro ⟨h1, h2⟩
    obtain ⟨e, rfl⟩ := List.isPrefixOf_iff_prefix.1 h1
    simp only [isFor, List.drop_left, List.contains_eq_mem, decide_eq_true_eq] at h2
    exact ⟨e, h2, rfl⟩
  · rintro ⟨e, he, rfl⟩
    refine ⟨List.isPrefixOf_iff_prefix.2 (List.prefix_append _ _), ?_⟩
    have : (py"hook:" ++ e).drop pre.length = e := List.drop_left
    rw [isFor, this]
    simpa using he

theorem keywords_eq (s : Store) : s.keywords = allKeywords s := by
  simp [Store.keywords, allKeywords]

theorem fullName_eq (owner : Str) (k : Keyword) : fullName owner k = owner ++ py"." ++ k.name := by simp [fullName]

/-- What `yield_hooks` yields. -/
theorem yieldHooks_eq (s : Store) (events : List Str) : yieldHooks s events = hooksFor s events := by
  rw [yieldHooks, hooksFor, keywords_eq]
  induction allKeywords s with
  | nil => rfl
  | cons ok l ih =>
    rcases ok with ⟨owner, k⟩
    rw [List.flatMap_cons, ih, List.filter_cons]
    have hkey : ∀ tags : List Str, ((tags.filter fun tag => startsWith tag pre).flatMap fun tag =>
        if isFor events tag = true then (if s.runner (fullName owner k) = k.ident then [fullName owner k] else []) else []) =
        if Callable s (owner, k) then List.replicate (tags.countP fun t => Asks events t) (owner ++ py"." ++ k.name) else [] := by
      intro tags
      unfold Callable
      rw [fullName_eq]
      induction tags with
      | nil => simp
      | cons t ts ih =>
        rw [List.filter_cons, List.countP_cons]
        by_cases h1 : startsWith t pre = true
        · rw [if_pos h1, List.flatMap_cons, ih]
          by_cases h2 : isFor events t = true
          · have ha : Asks events t := (asks_iff _ _).1 ⟨h1, h2⟩
            simp only [h2, if_true, ha, decide_true]
            by_cases h3 : s.runner (owner ++ py"." ++ k.name) = k.ident
            · simp only [h3, if_true, List.replicate_succ, List.singleton_append]
            · simp only [h3, if_false, List.nil_append]
          · have ha : ¬ Asks events t := fun h => h2 ((asks_iff _ _).2 h).2
            simp [h2, ha]
        · have ha : ¬ Asks events t := fun h => h1 ((asks_iff _ _).2 h).1
          simp only [h1, Bool.false_eq_true, if_false]
          rw [ih]
          simp [ha]
    by_cases hc : Callable s (owner, k)
    · simp only [hc, decide_true, if_true, List.flatMap_cons]
      congr 1
      have := hkey k.tags
      rw [if_pos hc] at this
      exact this
    · simp only [hc, decide_false, Bool.false_eq_true, if_false]
      have := hkey k.tags
      rw [if_neg hc] at this
      simp only [hookTags]
      rw [this]; rfl

theorem joinAnd_append (kws ns : List Str) (h : kws ≠ []) : joinAnd kws ns = kws ++ ns.flatMap fun n => [py"AND", n] := by
  induction ns generalizing kws with
  | nil => simp [joinAnd]
  | cons n ns ih =>
    have : kws.isEmpty = false := by cases kws <;> simp_all
    rw [joinAnd, this]
    simp only [Bool.false_eq_true, if_false]
    rw [ih _ (by simp)]
    simp

theorem joinAnd_cons (n : Str) (ns : List Str) : joinAnd [] (n :: ns) = n :: ns.flatMap fun n => [py"AND", n] := by
  rw [joinAnd]
  show joinAnd [n] ns = _
  rw [joinAnd_append _ _ (by simp)]; rfl

theorem joinAnd_eq_nil (ns : List Str) : joinAnd [] ns = [] ↔ ns = [] := by
  cases ns with
  | nil => simp [joinAnd]
  | cons n ns => rw [joinAnd_cons]; simp

theorem calls_ne_nil (as : List Str) : calls as ≠ [] := by
  cases as with
  | nil => simp [calls]
  | cons a as => rw [calls]; split; simp; split <;> simp

theorem calls_join (n : Str) (ns rest : List Str) (h : ∀ x ∈ n :: ns, x ≠ py"AND") :
    calls ((n :: ns.flatMap fun n => [py"AND", n]) ++ py"AND" :: rest) = (n :: ns).map (fun n => [n]) ++ calls rest := by
  induction ns generalizing n with
  | nil =>
    simp only [List.flatMap_nil, List.cons_append, List.nil_append]
    rw [calls, if_neg (h n (by simp)), calls, if_pos rfl]
    rfl
  | cons m ns ih =>
    have := ih m (fun x hx => h x (by simp [List.mem_cons.1 hx]))
    simp only [List.flatMap_cons, List.cons_append, List.nil_append] at this ⊢
    rw [calls, if_neg (h n (by simp)), calls, if_pos rfl, this]
    rfl

theorem calls_join_end (n : Str) (ns : List Str) (h : ∀ x ∈ n :: ns, x ≠ py"AND") :
    calls (n :: ns.flatMap fun n => [py"AND", n]) = (n :: ns).map (fun n => [n]) := by
  induction ns generalizing n with
  | nil =>
    simp only [List.flatMap_nil]
    rw [calls, if_neg (h n (by simp))]
    rfl
  | cons m ns ih =>
    have := ih m (fun x hx => h x (by simp [List.mem_cons.1 hx]))
    simp only [List.flatMap_cons, List.cons_append, List.nil_append] at this ⊢
    rw [calls, if_neg (h n (by simp)), calls, if_pos rfl, this]
    rfl

/-- No full name is the word `AND`. -/
theorem hooksFor_ne_and (s : Store) (events : List Str) : ∀ x ∈ hooksFor s events, x ≠ py"AND" := by
  intro x hx
  simp only [hooksFor, List.mem_flatMap, List.mem_replicate] at hx
  obtain ⟨ok, _, _, rfl⟩ := hx
  intro h
  have : '.' ∈ ok.1 ++ py"." ++ ok.2.name := by simp
  rw [h] at this
  simp at this

/-- The call made of the hooks and an existing setup. -/
theorem calls_run (s : Store) (events : List Str) (f : Fixture) (hne : hooksFor s events ≠ []) :
    calls (joinAnd [] (yieldHooks s events) ++ [py"AND", f.name] ++ f.args) = (hooksFor s events).map (fun n => [n]) ++ calls (f.name :: f.args) ∧
    calls (joinAnd [] (yieldHooks s events)) = (hooksFor s events).map (fun n => [n]) := by
  rw [yieldHooks_eq]
  have hand := hooksFor_ne_and s events
  cases hh : hooksFor s events with
  | nil => exact absurd hh hne
  | cons n ns =>
    rw [hh] at hand
    rw [joinAnd_cons]
    refine ⟨?_, calls_join_end n ns hand⟩
    have := calls_join n ns (f.name :: f.args) hand
    simpa using this

/-! ### C39 -/

/-- The keyword that runs several keywords. -/
def runKeywords : Str := py"BuiltIn.Run Keywords"

/-- C39 (partial): when a suite or test without teardown starts, its setup becomes a call of `Run Keywords` that runs the hook keywords
for the events, the resources' before the libraries', and then the original setup with its arguments; without hooks nothing changes.
Missing: with a teardown this is false, see `C40_counterexample`; a keyword with several tags for these events runs several times. -/
theorem C39_setup_partial (s : Store) (d : Data) (events : List Str) :
    (hooksFor s events = [] → createSetupAndTeardown s d events = d) ∧
    (hooksFor s events ≠ [] → d.teardown.name = [] →
      (createSetupAndTeardown s d events).setup.name = runKeywords ∧
      (d.setup.name = [] → calls (createSetupAndTeardown s d events).setup.args = (hooksFor s events).map fun n => [n]) ∧
      (d.setup.name ≠ [] → calls (createSetupAndTeardown s d events).setup.args =
        ((hooksFor s events).map fun n => [n]) ++ calls (d.setup.name :: d.setup.args))) := by
  constructor
  · intro h
    have h0 : joinAnd [] (yieldHooks s events) = [] := by rw [yieldHooks_eq, h]; rfl
    simp [createSetupAndTeardown, h0]
  · intro h ht
    have h0 : joinAnd [] (yieldHooks s events) ≠ [] := by rw [yieldHooks_eq]; exact fun h' => h ((joinAnd_eq_nil _).1 h')
    have hset : (createSetupAndTeardown s d events).setup =
        if d.setup.name ≠ [] then { name := runKeywords, args := joinAnd [] (yieldHooks s events) ++ [py"AND", d.setup.name] ++ d.setup.args,
                                    lineno := if d.isTest then d.lineno else 1 }
        else { name := runKeywords, args := joinAnd [] (yieldHooks s events), lineno := if d.isTest then d.lineno else 1 } := by
      simp only [createSetupAndTeardown, h0, ht, ne_eq, not_false_eq_true, if_true, not_true_eq_false, if_false]
      rfl
    rw [hset]
    refine ⟨?_, ?_, ?_⟩
    · split <;> rfl
    · intro hs; rw [if_neg (by simp [hs])]; exact (calls_run s events ⟨[], [], 0⟩ h).2
    · intro hs; rw [if_pos hs]; exact (calls_run s events d.setup h).1

/-- C39 at suite and test start: which tags ask for a hook. -/
theorem C39_events (s : Store) (d : Data) :
    startSuite s d = createSetupAndTeardown s d [py"before-suite", py"before-feature"] ∧
    (∀ tag, Asks [py"before-suite", py"before-feature"] tag ↔ tag = py"hook:before-suite" ∨ tag = py"hook:before-feature") ∧
    startTest s d = createSetupAndTeardown s d [py"before-test", py"before-test"] ∧
    ∀ tag, Asks [py"before-test", py"before-test"] tag ↔ tag = py"hook:before-test" := by
  refine ⟨rfl, fun tag => ?_, rfl, fun tag => ?_⟩ <;> simp [Asks]

/-- C39 (partial), for tests: the hooks are the keywords tagged `hook:before-test`, and no others. Missing: as in `C39_setup_partial`. -/
theorem C39_test_partial (s : Store) (d : Data) :
    (hooksFor s [py"before-test"] = [] → startTest s d = d) ∧
    (hooksFor s [py"before-test"] ≠ [] → d.teardown.name = [] →
      (startTest s d).setup.name = runKeywords ∧
      (d.setup.name = [] → calls (startTest s d).setup.args = (hooksFor s [py"before-test"]).map fun n => [n]) ∧
      (d.setup.name ≠ [] → calls (startTest s d).setup.args =
        ((hooksFor s [py"before-test"]).map fun n => [n]) ++ calls (d.setup.name :: d.setup.args))) := by
  have h : hooksFor s [py"before-test", py"before-test"] = hooksFor s [py"before-test"] := by
    have ha : ∀ t, Asks [py"before-test", py"before-test"] t ↔ Asks [py"before-test"] t := fun t => by simp [Asks]
    simp only [hooksFor, ha]
  have := C39_setup_partial s d [py"before-test", py"before-test"]
  rw [h] at this
  exact this

/-! Two resources and a library; one keyword is hidden by another of the same full name. -/
def Sample.store : Store :=
  { resources := [(py"r", [⟨1, py"k", [py"hook:before-suite"]⟩, ⟨2, py"l", [py"x"]⟩]), (py"q", [⟨3, py"m", [py"hook:before-feature", py"z"]⟩])],
    libraries := [(py"Lib", [⟨4, py"n", [py"hook:before-suite", py"hook:before-test"]⟩, ⟨5, py"o", [py"hook:before-suite"]⟩])]
    runner := fun n => if n = py"r.k" then 1 else if n = py"q.m" then 3 else if n = py"Lib.n" then 4 else 9 }

def Sample.suite : Data := { isTest := false, lineno := 0, setup := ⟨py"Open", [py"a", py"b"], 3⟩, teardown := ⟨[], [], 0⟩ }

example : (startSuite Sample.store Sample.suite).setup =
    ⟨runKeywords, [py"r.k", py"AND", py"q.m", py"AND", py"Lib.n", py"AND", py"Open", py"a", py"b"], 1⟩ := by decide
example : hooksFor Sample.store [py"before-suite", py"before-feature"] ≠ [] ∧ Sample.suite.teardown.name = [] := by decide
example : hooksFor Sample.store [py"before-test"] = [py"Lib.n"] ∧ Sample.suite.setup.name ≠ [] := by decide

/-! ### C40 -/

/-- C40 (partial): an existing teardown is never changed. Missing: the setup made from the hooks is replaced. -/
theorem C40_teardown_kept_partial (s : Store) (d : Data) (events : List Str) (h : d.teardown.name ≠ []) :
    (createSetupAndTeardown s d events).teardown = d.teardown := by
  by_cases hk : joinAnd [] (yieldHooks s events) = []
  · simp [createSetupAndTeardown, hk]
  · simp [createSetupAndTeardown, hk, h]

/-- C40 is false: with hooks and a teardown, the setup is replaced by one that runs the hooks and the *teardown*; the original setup is
lost, for every suite and test. -/
theorem C40_counterexample (s : Store) (d : Data) (events : List Str) (hh : hooksFor s events ≠ []) (h : d.teardown.name ≠ []) :
    (createSetupAndTeardown s d events).setup.name = runKeywords ∧
    calls (createSetupAndTeardown s d events).setup.args =
      ((hooksFor s events).map fun n => [n]) ++ calls (d.teardown.name :: d.teardown.args) := by
  have h0 : joinAnd [] (yieldHooks s events) ≠ [] := by rw [yieldHooks_eq]; exact fun h' => hh ((joinAnd_eq_nil _).1 h')
  have hset : (createSetupAndTeardown s d events).setup =
      { name := runKeywords, args := joinAnd [] (yieldHooks s events) ++ [py"AND", d.teardown.name] ++ d.teardown.args,
        lineno := if d.isTest then d.lineno else 1 } := by
    simp [createSetupAndTeardown, h0, h, runKeywords]
  rw [hset]
  exact ⟨rfl, (calls_run s events d.teardown hh).1⟩

/-- What happens without a teardown: the hooks for the *start* events become the teardown. -/
theorem C40_new_teardown (s : Store) (d : Data) (events : List Str) (hh : hooksFor s events ≠ []) (h : d.teardown.name = []) :
    (createSetupAndTeardown s d events).teardown.name = runKeywords ∧
    calls (createSetupAndTeardown s d events).teardown.args = (hooksFor s events).map fun n => [n] := by
  have h0 : joinAnd [] (yieldHooks s events) ≠ [] := by rw [yieldHooks_eq]; exact fun h' => hh ((joinAnd_eq_nil _).1 h')
  have hset : (createSetupAndTeardown s d events).teardown =
      { name := runKeywords, args := joinAnd [] (yieldHooks s events), lineno := if d.isTest then d.lineno else 1 } := by
    simp [createSetupAndTeardown, h0, h, runKeywords]
  rw [hset]
  exact ⟨rfl, (calls_run s events ⟨[], [], 0⟩ hh).2⟩

example : (startSuite Sample.store { Sample.suite with teardown := ⟨py"Close", [py"x"], 9⟩ }).setup =
    ⟨runKeywords, [py"r.k", py"AND", py"q.m", py"AND", py"Lib.n", py"AND", py"Close", py"x"], 1⟩ := by decide

/-! ### C41 -/

theorem callTags_eq {σ : Type} (s : Store) (run : Str → σ → Outcome × σ) (events : List Str) (owner : Str) (k : Keyword) (c : CallState σ) :
    callTags s run events owner k (hookTags k) c =
      if Callable s (owner, k) ∧ ∃ t ∈ k.tags, Asks events t then callOne run (owner ++ py"." ++ k.name) c else c := by
  have : ∀ tags : List Str, callTags s run events owner k (tags.filter fun tag => startsWith tag pre) c =
      if Callable s (owner, k) ∧ ∃ t ∈ tags, Asks events t then callOne run (owner ++ py"." ++ k.name) c else c := by
    intro tags
    unfold Callable
    induction tags with
    | nil => simp [callTags]
    | cons t ts ih =>
      rw [List.filter_cons]
      by_cases h1 : startsWith t pre = true
      · rw [if_pos h1, callTags, ih, fullName_eq]
        by_cases h2 : isFor events t = true
        · have ha : Asks events t := (asks_iff _ _).1 ⟨h1, h2⟩
          rw [if_pos h2]
          by_cases h3 : s.runner (owner ++ py"." ++ k.name) = k.ident
          · rw [if_pos h3, if_pos ⟨h3, t, by simp, ha⟩]
          · rw [if_neg h3, if_neg (fun h => h3 h.1), if_neg (fun h => h3 h.1)]
        · have ha : ¬ Asks events t := fun h => h2 ((asks_iff _ _).2 h).2
          rw [if_neg h2]
          simp [ha]
      · have ha : ¬ Asks events t := fun h => h1 ((asks_iff _ _).2 h).1
        rw [if_neg h1, ih]
        simp [ha]
  exact this k.tags

theorem callKeywords_eq {σ : Type} (s : Store) (run : Str → σ → Outcome × σ) (events : List Str) (ks : List (Str × Keyword)) (w : σ)
    (ran : List Str) :
    let c := callKeywords s run events ks { ran := ran, world := w, errored := false, raised := none }
    let r := runUntil run ((ks.filter fun ok => Callable s ok ∧ ∃ t ∈ ok.2.tags, Asks events t).map fun ok => ok.1 ++ py"." ++ ok.2.name) w
    c.ran = ran ++ r.1 ∧ c.world = r.2 ∧ c.raised = none := by
  induction ks generalizing w ran with
  | nil => simp [callKeywords, runUntil]
  | cons ok ks ih =>
    rcases ok with ⟨owner, k⟩
    intro c r
    have hc : c = callKeywords s run events ((owner, k) :: ks) { ran := ran, world := w, errored := false, raised := none } := rfl
    have hr : r = runUntil run (((((owner, k) :: ks).filter fun ok => Callable s ok ∧ ∃ t ∈ ok.2.tags, Asks events t)).map
      fun ok => ok.1 ++ py"." ++ ok.2.name) w := rfl
    clear_value c r
    rw [callKeywords, callTags_eq] at hc
    rw [List.filter_cons] at hr
    by_cases h : Callable s (owner, k) ∧ ∃ t ∈ k.tags, Asks events t
    · rw [if_pos h] at hc
      rw [if_pos (by simpa using h), List.map_cons, runUntil] at hr
      rcases hrun : run (owner ++ py"." ++ k.name) w with ⟨o, w'⟩
      rw [hrun] at hr
      cases o with
      | exception =>
        simp only [callOne, hrun, finallyBreak, Option.isSome_none, Bool.false_eq_true, if_false, if_true] at hc
        rw [hc, hr]; exact ⟨rfl, rfl, rfl⟩
      | ok =>
        simp only [callOne, hrun, finallyBreak, Option.isSome_none, Bool.false_eq_true, if_false] at hc
        obtain ⟨h1, h2, h3⟩ := ih w' (ran ++ [owner ++ py"." ++ k.name])
        rw [hc, hr]
        exact ⟨by rw [h1]; simp, h2, h3⟩
      | other =>
        simp only [callOne, hrun, finallyBreak, Option.isSome_none, Bool.false_eq_true, if_false] at hc
        obtain ⟨h1, h2, h3⟩ := ih w' (ran ++ [owner ++ py"." ++ k.name])
        rw [hc, hr]
        exact ⟨by rw [h1]; simp, h2, h3⟩
    · rw [if_neg h] at hc
      rw [if_neg (by simpa using h)] at hr
      simp only [Option.isSome_none, Bool.false_eq_true, if_false] at hc
      rw [hc, hr]
      exact ih w ran

/-- C41 (partial): `call_hooks` runs the hook keywords for the events, each once, the resources' before the libraries', up to and
including the first that fails. Missing: the failure does not reach the caller, see `C41_counterexample`. -/
theorem C41_hooks_run_partial {σ : Type} (s : Store) (run : Str → σ → Outcome × σ) (events : List Str) (w : σ) :
    (callHooks s run events w).1 = (runUntil run (hooksOnce s events) w).1 ∧
    (callHooks s run events w).2.1 = (runUntil run (hooksOnce s events) w).2 := by
  have h := callKeywords_eq s run events s.keywords w []
  rw [keywords_eq] at h
  refine ⟨?_, ?_⟩
  · have := h.1
    rw [List.nil_append] at this
    rw [← keywords_eq] at this
    rw [callHooks, hooksOnce, ← keywords_eq]
    exact this
  · have := h.2.1
    rw [← keywords_eq] at this
    rw [callHooks, hooksOnce, ← keywords_eq]
    exact this

/-- C41 is false: whatever the hooks do, no exception leaves `call_hooks`. -/
theorem C41_counterexample {σ : Type} (s : Store) (run : Str → σ → Outcome × σ) (events : List Str) (w : σ) :
    (callHooks s run events w).2.2 = none := (callKeywords_eq s run events s.keywords w []).2.2

/-! The second of three hooks fails: the third does not run, and the caller does not notice. -/
example : callHooks Sample.store (fun n (w : Nat) => (if n = py"q.m" then .exception else .ok, w + 1)) [py"before-suite", py"before-feature"] 0 =
    ([py"r.k", py"q.m"], 2, none) := by decide

end Gherkin
