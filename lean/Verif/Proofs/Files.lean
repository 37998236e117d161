import Verif.Spec.Files
import Verif.Proofs.GlobRead

/-! What `iter_files` yields. -/

namespace Gherkin.Files

/-- Neither the path nor a directory on the way to it (below `pre`) is ignored. -/
def Clear (ign : Option (List Pat)) (pre p : List Str) : Prop :=
  ∀ k, 0 < k → k ≤ p.length → ignored ign (pre ++ p.take k) = false

theorem Clear.cons {ign : Option (List Pat)} {pre p : List Str} {n : Str} :
    Clear ign pre (n :: p) ↔ ignored ign (pre ++ [n]) = false ∧ Clear ign (pre ++ [n]) p := by
  constructor
  · intro h
    refine ⟨by simpa using h 1 (by omega) (by simp), fun k h1 h2 => ?_⟩
    have := h (k + 1) (by omega) (by simpa using h2)
    simpa using this
  · rintro ⟨h1, h2⟩ k hk hk'
    obtain ⟨j, rfl⟩ : ∃ j, k = j + 1 := ⟨k - 1, by omega⟩
    cases j with
    | zero => simpa using h1
    | succ j =>
      have := h2 (j + 1) (by omega) (by simpa using hk')
      simpa using this

theorem FileAt.cons_iff {e : DirEntry} {es : List DirEntry} {p : List Str} : FileAt (e :: es) p ↔ FileAt [e] p ∨ FileAt es p := by
  constructor
  · intro h
    cases h with
    | here h =>
      rcases List.mem_cons.1 h with rfl | h
      · exact .inl (.here (by simp))
      · exact .inr (.here h)
    | deeper h h' =>
      rcases List.mem_cons.1 h with rfl | h
      · exact .inl (.deeper (by simp) h')
      · exact .inr (.deeper h h')
  · rintro (h | h)
    · cases h with
      | here h => exact .here (by simp_all)
      | deeper h h' => exact .deeper (by simp_all) h'
    · cases h with
      | here h => exact .here (by simp [h])
      | deeper h h' => exact .deeper (by simp; exact .inr h) h'

theorem fileAt_nil {p : List Str} : ¬ FileAt [] p := by
  intro h; cases h <;> simp_all

theorem fileAt_file {n : Str} {p : List Str} : FileAt [.file n] p ↔ p = [n] := by
  constructor
  · intro h; cases h <;> simp_all
  · rintro rfl; exact .here (by simp)

theorem fileAt_dir {n : Str} {sub : List DirEntry} {p : List Str} : FileAt [.dir n sub] p ↔ ∃ q, p = n :: q ∧ FileAt sub q := by
  constructor
  · intro h
    cases h with
    | here h => simp at h
    | deeper h h' => simp at h; obtain ⟨rfl, rfl⟩ := h; exact ⟨_, rfl, h'⟩
  · rintro ⟨q, rfl, h⟩; exact .deeper (by simp) h

theorem fileAt_locked {n : Str} {p : List Str} : ¬ FileAt [.locked n] p := by
  intro h; cases h <;> simp_all

mutual
theorem mem_walk (pats ign : Option (List Pat)) (pre : List Str) (x : List Str) : (e : DirEntry) →
    (x ∈ walk pats ign pre e ↔ ∃ p, x = pre ++ p ∧ FileAt [e] p ∧ wanted pats x = true ∧ Clear ign pre p)
  | .file n => by
    rw [walk]
    constructor
    · intro h
      split at h
      · cases h
      · split at h
        · rw [List.mem_singleton] at h
          subst h
          refine ⟨[n], rfl, fileAt_file.2 rfl, by assumption, Clear.cons.2 ⟨by simp_all, ?_⟩⟩
          intro k h1 h2; simp at h2; omega
        · cases h
    · rintro ⟨p, rfl, hf, hw, hc⟩
      obtain rfl := fileAt_file.1 hf
      have := (Clear.cons.1 hc).1
      simp [this, hw]
  | .dir n es => by
    rw [walk]
    have ih := mem_walkAll pats ign (pre ++ [n]) x es
    constructor
    · intro h
      split at h
      · cases h
      · obtain ⟨p, rfl, hf, hw, hc⟩ := ih.1 h
        refine ⟨n :: p, by simp, fileAt_dir.2 ⟨p, rfl, hf⟩, hw, Clear.cons.2 ⟨by simp_all, hc⟩⟩
    · rintro ⟨p, rfl, hf, hw, hc⟩
      obtain ⟨q, rfl, hg⟩ := fileAt_dir.1 hf
      obtain ⟨h1, h2⟩ := Clear.cons.1 hc
      rw [if_neg (by simp [h1])]
      exact ih.2 ⟨q, by simp, hg, hw, h2⟩
  | .locked n => by
    rw [walk]
    exact ⟨fun h => (List.not_mem_nil h).elim, fun ⟨p, _, hf, _⟩ => (fileAt_locked hf).elim⟩
theorem mem_walkAll (pats ign : Option (List Pat)) (pre : List Str) (x : List Str) : (es : List DirEntry) →
    (x ∈ walkAll pats ign pre es ↔ ∃ p, x = pre ++ p ∧ FileAt es p ∧ wanted pats x = true ∧ Clear ign pre p)
  | [] => by
    rw [walkAll]
    exact ⟨fun h => (List.not_mem_nil h).elim, fun ⟨p, _, hf, _⟩ => (fileAt_nil hf).elim⟩
  | e :: es => by
    rw [walkAll, List.mem_append, mem_walk pats ign pre x e, mem_walkAll pats ign pre x es]
    constructor
    · rintro (⟨p, h1, h2, h3⟩ | ⟨p, h1, h2, h3⟩)
      · exact ⟨p, h1, FileAt.cons_iff.2 (.inl h2), h3⟩
      · exact ⟨p, h1, FileAt.cons_iff.2 (.inr h2), h3⟩
    · rintro ⟨p, h1, h2, h3⟩
      rcases FileAt.cons_iff.1 h2 with h | h
      · exact .inl ⟨p, h1, h, h3⟩
      · exact .inr ⟨p, h1, h, h3⟩
end

theorem FileAt.head {es : List DirEntry} {p : List Str} (h : FileAt es p) : ∃ n q, p = n :: q ∧ n ∈ es.map DirEntry.name := by
  cases h with
  | here h => exact ⟨_, _, rfl, List.mem_map.2 ⟨_, h, rfl⟩⟩
  | deeper h _ => exact ⟨_, _, rfl, List.mem_map.2 ⟨_, h, rfl⟩⟩

theorem Tidy.tail {e : DirEntry} {es : List DirEntry} (h : Tidy (e :: es)) : Tidy es := by
  cases h with
  | mk h1 h2 => exact .mk (by simp at h1; exact h1.2) fun n sub hm => h2 n sub (by simp [hm])

mutual
theorem walk_nodup (pats ign : Option (List Pat)) (pre : List Str) : (e : DirEntry) → Tidy [e] → (walk pats ign pre e).Nodup
  | .file n, _ => by
    rw [walk]
    split
    · simp
    · split <;> simp
  | .dir n es, h => by
    rw [walk]
    cases h with
    | mk h1 h2 =>
      split
      · simp
      · exact walkAll_nodup pats ign _ es (h2 n es (by simp))
  | .locked n, _ => by rw [walk]; simp
theorem walkAll_nodup (pats ign : Option (List Pat)) (pre : List Str) : (es : List DirEntry) → Tidy es → (walkAll pats ign pre es).Nodup
  | [], _ => by rw [walkAll]; simp
  | e :: es, h => by
    rw [walkAll, List.nodup_append]
    refine ⟨walk_nodup pats ign pre e ?_, walkAll_nodup pats ign pre es h.tail, ?_⟩
    · cases h with
      | mk h1 h2 => exact .mk (by simp) fun n sub hm => h2 n sub (by simp at hm; simp [hm])
    · intro x hx y hy hxy
      subst hxy
      obtain ⟨p, hp, hf, _⟩ := (mem_walk pats ign pre x e).1 hx
      obtain ⟨q, hq, hg, _⟩ := (mem_walkAll pats ign pre x es).1 hy
      obtain rfl : p = q := List.append_cancel_left (hp.symm.trans hq)
      obtain ⟨n, r, rfl, hn⟩ := hf.head
      obtain ⟨n', r', h', hn'⟩ := hg.head
      obtain ⟨rfl, rfl⟩ := List.cons.inj h'
      cases h with
      | mk h1 h2 =>
        simp only [List.map_cons, List.nodup_cons] at h1
        simp only [List.map_cons, List.map_nil, List.mem_singleton] at hn
        subst hn
        exact h1.1 hn'
end

/-! ### The patterns used -/

open Glob

/-- `**/*.{a,b,…}`. -/
def extPattern (exts : List Str) : List Glob.Item := [.dirs, .one .many, .one (.char '.'), .oneOf (exts.map (·.map Simple.char))]

theorem simpleFits_chars {s w : Str} : SimpleFits (s.map Simple.char) w ↔ w = s := by
  induction s generalizing w with
  | nil => constructor
           · intro h; cases h; rfl
           · rintro rfl; exact .nil
  | cons c s ih =>
    constructor
    · intro h; cases h with | char _ h => rw [ih.1 h]
    · rintro rfl; exact .char c (ih.2 rfl)

/-- A text is components with their `/`, then a text without `/`. -/
theorem last_component (s : Str) : ∃ d n, s = d ++ n ∧ '/' ∉ n ∧ (d = [] ∨ d.getLast? = some '/') := by
  induction s with
  | nil => exact ⟨[], [], rfl, by simp, .inl rfl⟩
  | cons c s ih =>
    obtain ⟨d, n, rfl, hn, hd⟩ := ih
    by_cases hc : c = '/' ∨ d ≠ []
    · refine ⟨c :: d, n, rfl, hn, .inr ?_⟩
      rcases hd with rfl | hd
      · rcases hc with rfl | hc
        · rfl
        · exact absurd rfl hc
      · rw [List.getLast?_cons, hd]; rfl
    · rw [not_or, Classical.not_not] at hc
      obtain ⟨hc, rfl⟩ := hc
      refine ⟨[], c :: n, rfl, ?_, .inl rfl⟩
      rw [List.mem_cons]
      rintro (h | h)
      · exact hc h.symm
      · exact hn h

theorem fits_nil {w : Str} (h : Glob.Fits [] w) : w = [] := by cases h; rfl

theorem fits_ext {exts : List Str} {path : Str} :
    Glob.Fits (extPattern exts) path ↔ ∃ e ∈ exts, ('.' :: e) <:+ path := by
  constructor
  · intro h
    cases h with
    | dirs _ h =>
    cases h with
    | one _ h =>
    cases h with
    | one hd h =>
    cases hd with
    | char _ hd =>
    cases hd
    cases h with
    | @oneOf _ a v _ w ha hv h =>
    obtain rfl := fits_nil h
    obtain ⟨e, he, rfl⟩ := List.mem_map.1 ha
    rw [simpleFits_chars.1 hv]
    refine ⟨e, he, ?_⟩
    simp only [List.append_nil, List.singleton_append]
    exact (List.suffix_append _ _).trans (List.suffix_append _ _)
  · rintro ⟨e, he, u, rfl⟩
    obtain ⟨d, n, rfl, hn, hd⟩ := last_component u
    rw [List.append_assoc]
    refine .dirs (hd.elim .inl fun h => .inr (.inl h)) (.one (v := n) ?_ ?_)
    · have := SimpleFits.many n hn .nil
      rwa [List.append_nil] at this
    · show Glob.Fits _ (['.'] ++ e)
      refine .one (.char '.' .nil) ?_
      have := Glob.Fits.oneOf (List.mem_map.2 ⟨e, he, rfl⟩) (simpleFits_chars.2 rfl) Glob.Fits.nil (alts := exts.map (·.map Simple.char))
      rwa [List.append_nil] at this

theorem chars_ok {s : Str} (h : ∀ c ∈ s, plain c = true ∧ c ≠ ',') : SimpleOk (s.map Simple.char) := by
  induction s with
  | nil => trivial
  | cons c s ih => exact ⟨(h c (by simp)).1, (h c (by simp)).2, ih fun d hd => h d (by simp [hd])⟩

theorem ext_ok {exts : List Str} (hne : exts ≠ []) (h : ∀ e ∈ exts, ∀ c ∈ e, plain c = true ∧ c ≠ ',') : Ok true (extPattern exts) := by
  refine ⟨rfl, by simp, by simp, by decide, by simpa using hne, ?_, trivial⟩
  intro a ha
  obtain ⟨e, he, rfl⟩ := List.mem_map.1 ha
  exact chars_ok (h e he)

theorem chars_write (s : Str) : (s.map Simple.char).flatMap Simple.write = s := by
  induction s with
  | nil => rfl
  | cons c s ih => simp [Simple.write, ih]

theorem ext_write (exts : List Str) : write (extPattern exts) = py"**/*.{" ++ joinStr [','] exts ++ py"}" := by
  have : (exts.map (·.map Simple.char)).map (fun a => a.flatMap Simple.write) = exts := by
    rw [List.map_map]
    refine (List.map_congr_left fun s _ => ?_).trans (List.map_id exts)
    exact chars_write s
  simp [extPattern, write, Simple.write, this]

/-- `**/*` and characters. -/
def endPattern (s : Str) : List Glob.Item := .dirs :: .one .many :: s.map (fun c => .one (.char c))

theorem fits_chars {s w : Str} : Glob.Fits (s.map fun c => .one (.char c)) w ↔ w = s := by
  induction s generalizing w with
  | nil => constructor
           · intro h; cases h; rfl
           · rintro rfl; exact .nil
  | cons c s ih =>
    constructor
    · intro h
      cases h with
      | one h h' => cases h with | char _ h => cases h; rw [ih.1 h']; rfl
    · rintro rfl
      exact .one (v := [c]) (.char c .nil) (ih.2 rfl)

theorem fits_end {s path : Str} : Glob.Fits (endPattern s) path ↔ s <:+ path := by
  constructor
  · intro h
    cases h with
    | dirs _ h =>
    cases h with
    | one _ h =>
    rw [fits_chars.1 h]
    exact (List.suffix_append _ _).trans (List.suffix_append _ _)
  · rintro ⟨u, rfl⟩
    obtain ⟨d, n, rfl, hn, hd⟩ := last_component u
    rw [List.append_assoc]
    refine .dirs (hd.elim .inl fun h => .inr (.inl h)) (.one (v := n) ?_ (fits_chars.2 rfl))
    have := SimpleFits.many n hn .nil
    rwa [List.append_nil] at this

theorem chars_item_ok {s : Str} (b : Bool) (h : ∀ c ∈ s, plain c = true) : Ok b (s.map fun c => .one (.char c)) := by
  induction s generalizing b with
  | nil => trivial
  | cons c s ih => exact ⟨h c (by simp), ih _ fun d hd => h d (by simp [hd])⟩

theorem end_ok {s : Str} (h : ∀ c ∈ s, plain c = true) : Ok true (endPattern s) := by
  refine ⟨rfl, ?_, ?_, chars_item_ok _ h⟩ <;> cases s <;> simp

theorem chars_item_write (s : Str) : write (s.map fun c => .one (.char c)) = s := by
  induction s with
  | nil => rfl
  | cons c s ih => simp [write, Simple.write, ih]

theorem end_write (s : Str) : write (endPattern s) = py"**/*" ++ s := by
  simp [endPattern, write, Simple.write, chars_item_write]

theorem suffix_relPath {pre : List Str} {n e : Str} (he : '/' ∉ e) : e <:+ relPath (pre ++ [n]) ↔ e <:+ n := by
  have key : ∀ d : Str, e <:+ d ++ '/' :: n ↔ e <:+ n := by
    intro d
    constructor
    · intro h
      rcases List.suffix_or_suffix_of_suffix h (List.suffix_append d ('/' :: n)) with h' | h'
      · rcases List.suffix_cons_iff.1 h' with rfl | h'
        · simp at he
        · exact h'
      · exact absurd (h'.subset (by simp : '/' ∈ '/' :: n)) he
    · intro h
      exact h.trans ((List.suffix_cons _ _).trans (List.suffix_append _ _))
  have : ∃ d, pre = [] ∧ relPath (pre ++ [n]) = n ∨ relPath (pre ++ [n]) = d ++ '/' :: n := by
    unfold relPath
    induction pre with
    | nil => exact ⟨[], .inl ⟨rfl, rfl⟩⟩
    | cons x pre ih =>
      obtain ⟨d, ⟨rfl, h⟩ | h⟩ := ih
      · exact ⟨x, .inr (by simp [joinStr])⟩
      · cases pre with
        | nil => exact ⟨x, .inr (by simp [joinStr])⟩
        | cons y pre =>
          refine ⟨x ++ '/' :: d, .inr ?_⟩
          simp only [List.cons_append, joinStr] at h ⊢
          rw [h]; simp
  obtain ⟨d, ⟨_, h⟩ | h⟩ := this
  · rw [h]
  · rw [h]; exact key d

theorem FileAt.last {es : List DirEntry} {p : List Str} (h : FileAt es p) : ∃ pre n, p = pre ++ [n] := by
  obtain ⟨n, q, rfl, _⟩ := h.head
  exact ⟨(n :: q).dropLast, (n :: q).getLast (by simp), (List.dropLast_concat_getLast (by simp)).symm⟩

/-- The stem of `x.ext` begins with `_` or `.` iff the name does. -/
theorem stem_start {n e : Str} (he : '.' ∉ e) (he0 : e ≠ []) (h : ('.' :: e) <:+ n) (c : Char) :
    startsWith (stem n) [c] = startsWith n [c] := by
  obtain ⟨u, rfl⟩ := h
  have h1 : (u ++ '.' :: e).reverse = e.reverse ++ '.' :: u.reverse := by simp
  have hp : ∀ x ∈ e.reverse, (x != '.') = true := by
    intro x hx
    have : x ∈ e := List.mem_reverse.1 hx
    simp only [bne_iff_ne, ne_eq]; rintro rfl; exact he this
  have h2 : (u ++ '.' :: e).reverse.dropWhile (· != '.') = '.' :: u.reverse := by
    rw [h1, List.dropWhile_append_of_pos hp]; simp
  have h3 : (u ++ '.' :: e).reverse.takeWhile (· != '.') = e.reverse := by
    rw [h1, List.takeWhile_append_of_pos hp]; simp
  unfold stem
  rw [h2, h3]
  by_cases hu : u = []
  · subst hu; simp
  · simp only [List.reverse_eq_nil_iff, hu, he0, or_self, if_false, List.reverse_reverse]
    cases u with
    | nil => exact absurd rfl hu
    | cons d u => simp [startsWith, List.isPrefixOf]

end Gherkin.Files
