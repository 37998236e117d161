import Verif.Collect
import Verif.Spec.Collect
import Verif.Props.Suite
import Verif.Props.Files
import Verif.Props.FileText

/-! # C69, C70: whole directories, and what Robot calls -/

namespace Gherkin

open Robot Files

theorem find_dir {es : List DirEntry} {n : Str} {sub : List DirEntry} (hn : (es.map DirEntry.name).Nodup) (h : .dir n sub ∈ es) :
    es.find? (isDirNamed n) = some (.dir n sub) := by
  induction es with
  | nil => simp at h
  | cons e es ih =>
    simp only [List.map_cons, List.nodup_cons] at hn
    rcases List.mem_cons.1 h with rfl | h
    · simp [isDirNamed]
    · have hne : e.name ≠ n := fun he => hn.1 (List.mem_map.2 ⟨_, h, he.symm⟩)
      rw [List.find?_cons_of_neg, ih hn.2 h]
      cases e <;> simp [DirEntry.name, isDirNamed] at hne ⊢
      exact hne

theorem entriesAt_dir {es ent : List DirEntry} {p : List Str} (ht : Tidy es) (h : DirAt es p ent) : entriesAt es p = ent := by
  induction h with
  | here => rfl
  | @deeper es sub ent n p hm _ ih =>
    cases ht with
    | mk h1 h2 =>
      rw [entriesAt, find_dir h1 hm]
      exact ih (h2 _ _ hm)

theorem fileAt_dirAt {es : List DirEntry} {p : List Str} (h : FileAt es p) :
    ∃ d n ent, p = d ++ [n] ∧ DirAt es d ent ∧ .file n ∈ ent := by
  induction h with
  | @here es n h => exact ⟨[], n, es, rfl, .here, h⟩
  | @deeper es sub n p hm _ ih =>
    obtain ⟨d, m, ent, rfl, h1, h2⟩ := ih
    exact ⟨n :: d, m, ent, rfl, .deeper hm h1, h2⟩

theorem dirAt_fileAt {es ent : List DirEntry} {d : List Str} {n : Str} (h : DirAt es d ent) (hm : .file n ∈ ent) : FileAt es (d ++ [n]) := by
  induction h with
  | here => exact .here hm
  | deeper h _ ih => exact .deeper h (ih hm)

theorem dirAt_unique {es ent ent' : List DirEntry} {p : List Str} (ht : Tidy es) (h : DirAt es p ent) (h' : DirAt es p ent') : ent = ent' := by
  rw [← entriesAt_dir ht h, entriesAt_dir ht h']

/-- The path of a feature file below the directory. -/
def Files.Found.path (f : Found) : List Str := f.dir ++ [f.name]

theorem featureFiles_found {es : List DirEntry} (ht : Tidy es) :
    ∃ fs : List Found, featureFiles es = fs.map Found.path ∧ fs.Nodup ∧ ∀ f, f ∈ fs ↔ f.In es := by
  have hmk : ∀ ps : List (List Str), (∀ p ∈ ps, p ∈ featureFiles es) → ps.Nodup → ∃ fs : List Found, ps = fs.map Found.path ∧ fs.Nodup ∧
      ∀ f, f ∈ fs ↔ f.In es ∧ f.path ∈ ps := by
    intro ps
    induction ps with
    | nil => intros; exact ⟨[], rfl, .nil, by simp⟩
    | cons p ps ih =>
      intro hp hn
      rw [List.nodup_cons] at hn
      obtain ⟨fs, h1, h2, h3⟩ := ih (fun q hq => hp q (by simp [hq])) hn.2
      obtain ⟨hf, pre, n, he, hx⟩ := (C50_feature_files es p).1 (hp p (by simp))
      obtain ⟨d, n', ent, he', hd, hm⟩ := fileAt_dirAt hf
      have : pre = d ∧ n = n' := by
        have := he.symm.trans he'
        simpa using List.append_inj' this rfl
      obtain ⟨rfl, rfl⟩ := this
      have hin : Found.In ⟨pre, n, ent⟩ es := ⟨hd, hm, hx⟩
      refine ⟨⟨pre, n, ent⟩ :: fs, ?_, ?_, ?_⟩
      · rw [List.map_cons, ← h1, he]; rfl
      · rw [List.nodup_cons]
        refine ⟨fun h => hn.1 ?_, h2⟩
        rw [h1, he]
        exact List.mem_map_of_mem (f := Found.path) h
      · intro f
        rw [List.mem_cons, h3, List.mem_cons]
        constructor
        · rintro (rfl | ⟨a, b⟩)
          · exact ⟨hin, .inl he.symm⟩
          · exact ⟨a, .inr b⟩
        · rintro ⟨a, b | b⟩
          · left
            obtain ⟨fd, fn, fe⟩ := f
            have hb : fd ++ [fn] = pre ++ [n] := b.trans he
            obtain ⟨rfl, hb⟩ := List.append_inj' hb rfl
            simp at hb
            subst hb
            have := dirAt_unique ht a.1 hd
            simp only at this
            rw [this]
          · exact .inr ⟨a, b⟩
  obtain ⟨fs, h1, h2, h3⟩ := hmk (featureFiles es) (fun _ h => h) ((C37_iter_files _ _ es).2 ht)
  refine ⟨fs, h1, h2, fun f => (h3 f).trans ⟨And.left, fun h => ⟨h, ?_⟩⟩⟩
  exact (C50_feature_files es _).2 ⟨dirAt_fileAt h.1 h.2.1, f.dir, f.name, rfl, h.2.2⟩

/-- What building the file alone, given its own directory's entries, returns or raises. -/
def Robot.Folder.alone (eng : Engine) (printable : Char → Bool) (d : Folder) (f : Found) : Except Crash BuiltFile :=
  buildFile eng printable f.entries (d.path ++ '/' :: joinStr ['/'] f.path) f.name (d.read f.path)

theorem build_alone (eng : Engine) (printable : Char → Bool) {d : Folder} (ht : Tidy d.entries) {f : Found} (h : f.In d.entries) :
    d.build eng printable f.path = d.alone eng printable f := by
  have h1 : f.path.dropLast = f.dir := by simp [Found.path]
  have h2 : f.path.getLastD [] = f.name := by simp [Found.path]
  unfold Folder.build Folder.alone
  rw [h1, h2, entriesAt_dir ht h.1]
  rfl

theorem buildEach_ok {eng : Engine} {printable : Char → Bool} {d : Folder} : ∀ {ps : List (List Str)} {rs : List BuiltFile},
    buildEach eng printable d ps = .ok rs ↔ List.Forall₂ (fun p r => d.build eng printable p = .ok r) ps rs := by
  intro ps
  induction ps with
  | nil => intro rs; constructor
           · intro h; cases h; exact .nil
           · intro h; cases h; rfl
  | cons p ps ih =>
    intro rs
    rw [buildEach]
    cases hp : d.build eng printable p with
    | error c => constructor
                 · intro h; cases h
                 · intro h; cases h with | cons h _ => rw [hp] at h; cases h
    | ok r =>
      simp only
      cases hq : buildEach eng printable d ps with
      | error c => constructor
                   · intro h; cases h
                   · intro h; cases h with | cons _ h => rw [ih.2 h] at hq; cases hq
      | ok rs' => constructor
                  · intro h; cases h; exact .cons hp (ih.1 hq)
                  · intro h
                    cases h with
                    | cons h1 h2 =>
                      rw [hp] at h1
                      rw [ih.2 h2] at hq
                      cases h1; cases hq; rfl

theorem buildEach_error {eng : Engine} {printable : Char → Bool} {d : Folder} {c : Crash} : ∀ {ps : List (List Str)},
    buildEach eng printable d ps = .error c ↔
      ∃ a p b, ps = a ++ p :: b ∧ (∀ q ∈ a, ∃ r, d.build eng printable q = .ok r) ∧ d.build eng printable p = .error c := by
  intro ps
  induction ps with
  | nil => simp [buildEach]
  | cons p ps ih =>
    rw [buildEach]
    cases hp : d.build eng printable p with
    | error c' =>
      simp only [Except.error.injEq]
      constructor
      · rintro rfl; exact ⟨[], p, ps, rfl, by simp, hp⟩
      · rintro ⟨a, q, b, he, ha, hq⟩
        cases a with
        | nil => simp at he; rw [← he.1, hp] at hq; cases hq; rfl
        | cons x a =>
          simp at he
          obtain ⟨r, hr⟩ := ha x (by simp)
          rw [← he.1, hp] at hr
          cases hr
    | ok r =>
      simp only
      refine Iff.trans (b := buildEach eng printable d ps = .error c) (by cases buildEach eng printable d ps <;> simp) ?_
      rw [ih]
      constructor
      · rintro ⟨a, q, b, he, ha, hq⟩
        exact ⟨p :: a, q, b, by rw [he]; rfl, by
          intro x hx
          rcases List.mem_cons.1 hx with rfl | hx
          · exact ⟨r, hp⟩
          · exact ha x hx, hq⟩
      · rintro ⟨a, q, b, he, ha, hq⟩
        cases a with
        | nil => simp at he; rw [← he.1, hp] at hq; cases hq
        | cons x a =>
          simp at he
          exact ⟨a, q, b, he.2, fun y hy => ha y (by simp [hy]), hq⟩

/-- **C69.** Collecting a directory that succeeds gives one result for each feature file below it, and each result is what this file gives alone. -/
theorem C69_each_file (eng : Engine) (printable : Char → Bool) (d : Folder) (ht : Tidy d.entries) (rs : List BuiltFile)
    (h : collectGherkinSuites eng printable d = .ok rs) :
    ∃ fs : List Found, fs.Nodup ∧ (∀ f, f ∈ fs ↔ f.In d.entries) ∧ List.Forall₂ (fun f r => d.alone eng printable f = .ok r) fs rs := by
  obtain ⟨fs, h1, h2, h3⟩ := featureFiles_found ht
  refine ⟨fs, h2, h3, ?_⟩
  unfold collectGherkinSuites at h
  rw [h1, buildEach_ok] at h
  have hin : ∀ f ∈ fs, f.In d.entries := fun f hf => (h3 f).1 hf
  clear h1 h2 h3
  induction fs generalizing rs with
  | nil => cases h; exact .nil
  | cons f fs ih =>
    cases h with
    | cons ha hb => exact .cons ((build_alone eng printable ht (hin f (by simp))).symm.trans ha) (ih _ hb fun g hg => hin g (by simp [hg]))

/-- A file that spoils the collection: its parse errors include one without a column, as "unexpected end of file" has none. -/
def Robot.Spoils (d : Folder) (f : Found) : Prop :=
  ∃ text errs, robotText (d.read f.path) = some text ∧ parseFile f.name text = .error (.composite errs) ∧ ∃ e ∈ errs, e.loc.column = none

theorem alone_error {eng : Engine} {printable : Char → Bool} {d : Folder} {f : Found} {c : Crash} :
    d.alone eng printable f = .error c ↔ c = .typeError ∧ Spoils d f := by
  unfold Folder.alone buildFile Spoils
  cases hr : robotText (d.read f.path) with
  | none => simp
  | some text =>
    simp only
    by_cases hp : ∃ errs, parseFile f.name text = .error (.composite errs)
    · obtain ⟨errs, hp⟩ := hp
      obtain ⟨h1, h2⟩ := C33_errors_partial eng printable f.entries (d.path ++ '/' :: joinStr ['/'] f.path) f.name text errs hp
      by_cases hc : ∃ e ∈ errs, e.loc.column = none
      · rw [h2 hc]
        constructor
        · intro h; cases h; exact ⟨rfl, text, errs, rfl, hp, hc⟩
        · rintro ⟨rfl, _⟩; rfl
      · have : ∀ e ∈ errs, e.loc.column.isSome := by
          intro e he
          cases hx : e.loc.column with
          | none => exact absurd ⟨e, he, hx⟩ hc
          | some _ => rfl
        obtain ⟨en, h3, _⟩ := h1 this
        rw [h3]
        constructor
        · intro h; cases h
        · rintro ⟨_, t, errs', ht, hp', hc'⟩
          cases ht
          rw [hp] at hp'
          cases hp'
          exact absurd hc' hc
    · have hn : ∀ errs, parseFile f.name text ≠ .error (.composite errs) := fun errs h => hp ⟨errs, h⟩
      constructor
      · intro h
        rcases C33_other_failures eng printable f.entries (d.path ++ '/' :: joinStr ['/'] f.path) f.name text hn with ⟨_, _, _, h'⟩ | ⟨_, _, h', _⟩ <;>
          rw [h'] at h <;> cases h
      · rintro ⟨_, t, errs', ht, hp', _⟩
        cases ht
        exact absurd hp' (hn _)

/-- C69: the collection fails exactly if some file has a parse error without a column, and then with `TypeError`. Missing: in this case there is no
result for the other files either. -/
theorem C69_collected_partial (eng : Engine) (printable : Char → Bool) (d : Folder) (ht : Tidy d.entries) :
    ((∀ f : Found, f.In d.entries → ¬ Spoils d f) → ∃ rs, collectGherkinSuites eng printable d = .ok rs) ∧
    ((∃ f : Found, f.In d.entries ∧ Spoils d f) → collectGherkinSuites eng printable d = .error .typeError) := by
  obtain ⟨fs, h1, _, h3⟩ := featureFiles_found ht
  have key : ∀ c, collectGherkinSuites eng printable d = .error c → c = .typeError ∧ ∃ f : Found, f.In d.entries ∧ Spoils d f := by
    intro c h
    unfold collectGherkinSuites at h
    rw [buildEach_error] at h
    obtain ⟨a, p, b, he, _, hp⟩ := h
    have hm : p ∈ fs.map Found.path := by rw [← h1, he]; simp
    obtain ⟨f, hf, rfl⟩ := List.mem_map.1 hm
    rw [build_alone eng printable ht ((h3 f).1 hf), alone_error] at hp
    exact ⟨hp.1, f, (h3 f).1 hf, hp.2⟩
  constructor
  · intro h
    cases hc : collectGherkinSuites eng printable d with
    | ok rs => exact ⟨rs, rfl⟩
    | error c =>
      obtain ⟨_, f, hf, hs⟩ := key c hc
      exact absurd hs (h f hf)
  · rintro ⟨f, hf, hs⟩
    cases hc : collectGherkinSuites eng printable d with
    | error c => rw [(key c hc).1]
    | ok rs =>
      unfold collectGherkinSuites at hc
      rw [buildEach_ok] at hc
      have hm : f.path ∈ featureFiles d.entries := by rw [h1]; exact List.mem_map_of_mem ((h3 f).2 hf)
      have hne : ∀ {ps : List (List Str)} {rs : List BuiltFile}, List.Forall₂ (fun p r => d.build eng printable p = .ok r) ps rs → ∀ p ∈ ps,
          ∃ r, d.build eng printable p = .ok r := by
        intro ps rs h
        induction h with
        | nil => simp
        | cons h _ ih =>
          intro p hp
          rcases List.mem_cons.1 hp with rfl | hp
          · exact ⟨_, h⟩
          · exact ih p hp
      obtain ⟨r, hr⟩ := hne hc _ hm
      rw [build_alone eng printable ht hf, alone_error.2 ⟨rfl, hs⟩] at hr
      cases hr

/-- **C69** for the runner: the results are added behind the suites that are there; a suite whose source is no directory stays as it is. -/
theorem C69_runner (eng : Engine) (printable : Char → Bool) (s s' : RunSuite) (h : runnerStartSuite eng printable s = .ok s') :
    (∀ d, s.source = some (.inr d) → ∃ rs, collectGherkinSuites eng printable d = .ok rs ∧ s'.suites = s.suites ++ rs.map .inr ∧ s'.source = s.source) ∧
    ((∀ d, s.source ≠ some (.inr d)) → s' = s) := by
  unfold runnerStartSuite at h
  constructor
  · intro d hd
    rw [hd] at h
    simp only at h
    cases hc : collectGherkinSuites eng printable d with
    | error c => rw [hc] at h; cases h
    | ok rs => rw [hc] at h; cases h; exact ⟨rs, rfl, rfl, hd ▸ rfl⟩
  · intro hn
    split at h
    · exact absurd (by assumption) (hn _)
    · cases h; rfl

theorem robotText_plain {t : Str} (ht : PlainText t) : robotText t.utf8Encode = some t := by
  refine robotText_saved ht ⟨t, ?_, .inl rfl⟩
  clear ht
  induction t with
  | nil => exact .nil
  | cons c cs ih =>
    by_cases hc : c = '\n'
    · subst hc; exact .unix ih
    · exact .char hc ih

/-- A directory with a good file, in a directory of its own, and a file that ends after a tag. -/
noncomputable def Sample.folder : Folder where
  path := py"/x"
  entries := [.dir py"d" [.file py"a.feature", .file py"r.resource"], .file py"b.feature"]
  read := fun p => if p = [py"b.feature"] then (py"@tag\n").utf8Encode else (py"Feature: a\n  Scenario: s\n    * x\n").utf8Encode

theorem Sample.folder_tidy : Tidy Sample.folder.entries := by
  refine .mk (by decide) ?_
  intro n sub h
  simp [Sample.folder] at h
  obtain ⟨_, rfl⟩ := h
  refine .mk (by decide) ?_
  intro n sub h
  simp at h

/-- C69 is false: a file that ends after a tag leaves the whole directory without tests, although the other file alone has one. -/
theorem C69_one_spoils (eng : Engine) (printable : Char → Bool) :
    collectGherkinSuites eng printable Sample.folder = .error .typeError ∧
    ∃ f : Found, f.In Sample.folder.entries ∧ ¬ Spoils Sample.folder f ∧ f.path = [py"d", py"a.feature"] := by
  constructor
  · refine (C69_collected_partial eng printable _ Sample.folder_tidy).2 ⟨⟨[], py"b.feature", Sample.folder.entries⟩, ⟨.here, ?_, .inl ⟨py"b", rfl⟩⟩, ?_⟩
    · simp [Sample.folder]
    · refine ((alone_error (eng := eng) (printable := printable) (c := .typeError)).1 ?_).2
      have h : robotText (py"@tag\n").utf8Encode = some py"@tag\n" := robotText_plain ⟨no_crlf (by decide), by decide⟩
      have h' : Sample.folder.read (Found.path ⟨[], py"b.feature", Sample.folder.entries⟩) = (py"@tag\n").utf8Encode := rfl
      unfold Folder.alone buildFile
      rw [h', h]
      exact C33_counterexample eng printable Sample.folder.entries (Sample.folder.path ++ '/' :: joinStr ['/'] [py"b.feature"])
  · refine ⟨⟨[py"d"], py"a.feature", [.file py"a.feature", .file py"r.resource"]⟩,
      ⟨.deeper (sub := [.file py"a.feature", .file py"r.resource"]) (by simp [Sample.folder]) .here, by simp, .inl ⟨py"a", rfl⟩⟩, ?_, rfl⟩
    rintro ⟨text, errs, h1, h2, _⟩
    have h3 : robotText (py"Feature: a\n  Scenario: s\n    * x\n").utf8Encode = some py"Feature: a\n  Scenario: s\n    * x\n" :=
      robotText_plain ⟨no_crlf (by decide), by decide⟩
    have h4 : text = py"Feature: a\n  Scenario: s\n    * x\n" := by
      have := h1.symm.trans h3
      simpa using this
    subst h4
    have h5 : (match parseFile py"a.feature" py"Feature: a\n  Scenario: s\n    * x\n" with | .ok (some _) => true | _ => false) = true := by decide +kernel
    have h2 : parseFile py"a.feature" py"Feature: a\n  Scenario: s\n    * x\n" = .error (.composite errs) := h2
    rw [h2] at h5
    cases h5

/-! ### C70 -/

/-- **C70.** `GherkinParser.parse` hands Robot the model of the file; the suite has the feature's name if the file has a feature, and no name
otherwise; it has tests only if the file parses and has a feature. -/
theorem C70_suite_name (eng : Engine) (printable : Char → Bool) (es : List DirEntry) (uri name : Str) (bytes : ByteArray) (nm : Str) (model : File)
    (h : gherkinParse eng printable es uri name bytes = .ok (nm, model)) :
    (∀ sets tests, model = .suite sets tests → ∃ text d f, robotText bytes = some text ∧ parseFile name text = .ok (some d) ∧ d.feature = some f ∧
      f.name = some nm) ∧
    (∀ entries, model = .errors entries → nm = []) := by
  unfold gherkinParse at h
  cases hb : buildFile eng printable es uri name bytes with
  | error c => rw [hb] at h; cases h
  | ok r =>
    obtain ⟨model', fn⟩ := r
    rw [hb] at h
    cases h
    unfold buildFile at hb
    cases hr : robotText bytes with
    | none =>
      rw [hr] at hb
      cases hb
      constructor
      · intro _ _ h; cases h
      · intro _ _; rfl
    | some text =>
      rw [hr] at hb
      simp only at hb
      constructor
      · rintro sets tests rfl
        obtain ⟨d, f, _, _, h1, h2, _, _, _, h3⟩ := build_suite hb
        obtain ⟨x, hx⟩ := Option.isSome_iff_exists.1 ((parseFile_ready h1).2.2 f h2)
        exact ⟨text, d, f, rfl, h1, h2, by rw [h3, hx]; rfl⟩
      · rintro entries rfl
        have : fn = none := by
          by_cases hp : ∃ errs, parseFile name text = .error (.composite errs)
          · obtain ⟨errs, hp⟩ := hp
            unfold build tryBuild at hb
            rw [hp] at hb
            simp only at hb
            split at hb <;> cases hb
            rfl
          · rcases C33_other_failures eng printable es uri name text (fun errs h => hp ⟨errs, h⟩) with ⟨_, _, _, h'⟩ | ⟨_, _, h', _⟩ <;>
              rw [h'] at hb <;> cases hb
            rfl
        rw [this]
        rfl

/-- A file with errors and one with a feature. -/
example (eng : Engine) (printable : Char → Bool) : ∃ model, gherkinParse eng printable [] py"/a.feature" py"a.feature" ⟨#[0xFF]⟩ = .ok ([], model) := by
  unfold gherkinParse
  rw [C65_undecodable (by rw [← decode_none]; decide +kernel)]
  exact ⟨_, rfl⟩

example : ∃ model, gherkinParse Sample.noEngine (fun _ => true) [] py"/a.feature" py"a.feature" (py"Feature: ä\n  Scenario: s\n    * x\n").utf8Encode =
    .ok (py"ä", model) := by
  unfold gherkinParse buildFile
  rw [robotText_plain ⟨no_crlf (by decide), by decide⟩]
  have h : (match build Sample.noEngine (fun _ => true) [] py"/a.feature" py"a.feature" py"Feature: ä\n  Scenario: s\n    * x\n" with
      | .ok (_, some nm) => nm == py"ä" | _ => false) = true := by decide +kernel
  revert h
  simp only
  generalize build _ _ _ _ _ _ = r
  intro h
  split at h
  · exact ⟨_, by simp at h; rw [h]; rfl⟩
  · cases h

end Gherkin
