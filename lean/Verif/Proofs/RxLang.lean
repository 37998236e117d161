import Verif.Proofs.RxRun
import Verif.MatcherClassic

/-! The regular expression of the language header. -/

namespace Gherkin.Regex

open Classic

/-- packages/gurke/src/gurke/token_matcher.py:17 `LANGUAGE_RE`. -/
def languageRe : Str := py"^\\s*#\\s*language\\s*:\\s*([a-zA-Z\\-_]+)\\s*$"

def langSet : Set := ⟨false, [.range 'a' 'z', .range 'A' 'Z', .one '-', .one '_']⟩
def spaceSet : Set := ⟨false, [.space]⟩

theorem langSet_has (c : Char) : langSet.has c = isLangChar c := by
  simp [Set.has, Item.has, langSet, isLangChar, Bool.or_assoc]

theorem spaceSet_has : spaceSet.has = isSpace := funext has_space

theorem lang_space {c : Char} (h : isSpace c = true) : isLangChar c = false := by
  cases hl : isLangChar c with
  | false => rfl
  | true =>
    exfalso
    simp only [isLangChar, Bool.or_eq_true, Bool.and_eq_true, decide_eq_true_eq, beq_iff_eq, Char.le_def, UInt32.le_iff_toNat_le, ← Char.ext_iff] at hl
    have hn : (65 ≤ c.toNat ∧ c.toNat ≤ 122) ∨ c.toNat = 45 := by
      rcases hl with ((hl | hl) | hl) | hl
      · exact .inl ⟨Nat.le_trans (by decide) hl.1, hl.2⟩
      · exact .inl ⟨hl.1, Nat.le_trans hl.2 (by decide)⟩
      · subst hl; exact .inr rfl
      · subst hl; exact .inl (by decide)
    simp only [isSpace, Bool.or_eq_true, Bool.and_eq_true, decide_eq_true_eq, beq_iff_eq] at h
    omega

/-- What the expression is. -/
def languageRx : Rx :=
  let sp : Rx := .star (.set spaceSet)
  .seq (.seq (.seq (.seq (.seq (.seq (.seq (.seq (.seq (.seq (.seq (.seq (.seq (.seq (.seq (.seq (.seq (.seq .eps (.bol false)) sp) (lit '#')) sp) (lit 'l')) (lit 'a')) (lit 'n'))
    (lit 'g')) (lit 'u')) (lit 'a')) (lit 'g')) (lit 'e')) sp) (lit ':')) sp)
    (.group 1 (.seq .eps (.seq (.set langSet) (.star (.set langSet)))))) sp) (.eol false)

theorem language_read : read languageRe = some languageRx := by decide +kernel

/-- A group: what was read in it is remembered. -/
theorem run_group (n : Nat) (a : Rx) (p : Pos) (k : Pos → List Pos) :
    ((Rx.group n a).run p).flatMap k = (a.run p).flatMap fun q => k { q with caps := (n, p.rest.take (p.rest.length - q.rest.length)) :: q.caps } := by
  simp only [Rx.run, List.flatMap_map]

theorem dropPre_some {v s r : Str} : dropPre v s = some r ↔ s = v ++ r := by
  unfold dropPre
  split
  · rename_i h
    obtain ⟨r', rfl⟩ := List.isPrefixOf_iff_prefix.1 h
    simp
  · rename_i h
    simp only [reduceCtorEq, false_iff]
    rintro rfl
    exact h (by simp)

theorem chain_dropPre (v : Str) (k : Pos → List Pos) (q : Pos) :
    chain v k q = match dropPre v q.rest with | none => [] | some r => k ⟨v.reverse ++ q.back, r, q.caps⟩ := by
  unfold chain
  cases h : dropPre v q.rest with
  | none =>
    rw [if_neg]
    rintro ⟨r, hr⟩
    rw [dropPre_some.2 hr.symm] at h; cases h
  | some r =>
    have := dropPre_some.1 h
    rw [if_pos ⟨r, this.symm⟩]
    simp [Pos.adv, this]

/-- `\s*$` at the end. -/
theorem space_end (p : Pos) : ((((Rx.star (.set spaceSet)).run p).flatMap (Rx.eol false).run).head?).map (·.caps) = if p.rest.all isSpace then some p.caps else none := by
  rw [run_star, spaceSet_has]
  generalize hb : p.back = back
  have key : ∀ rest back : Str, ((runsOf isSpace p.caps back rest).flatMap (Rx.eol false).run).head?.map (·.caps) = if rest.all isSpace then some p.caps else none := by
    intro rest
    induction rest with
    | nil => intro back; simp [runsOf, Rx.run]
    | cons c cs ih =>
      intro back
      simp only [runsOf]
      cases hc : isSpace c with
      | false =>
        have : c ≠ '\n' := by rintro rfl; simp [isSpace] at hc
        simp [Rx.run, hc, this]
      | true =>
        simp only [if_true, List.flatMap_append, List.all_cons, hc, Bool.true_and]
        cases hall : cs.all isSpace with
        | true =>
          have := ih (c :: back)
          rw [hall] at this
          rw [List.head?_append]
          cases hx : ((runsOf isSpace p.caps (c :: back) cs).flatMap (Rx.eol false).run).head? with
          | none => rw [hx] at this; simp at this
          | some x => rw [hx] at this; simpa using this
        | false =>
          have := ih (c :: back)
          rw [hall] at this
          simp only [Bool.false_eq_true, if_false, Option.map_eq_none_iff, List.head?_eq_none_iff] at this
          rw [this]
          have hne : cs ≠ [] := by rintro rfl; simp at hall
          simp [Rx.run, hne]
  exact key p.rest back

theorem end_blocked (q : Pos) (c : Char) (cs : Str) (h : q.rest = c :: cs) (hc : isSpace c = false) :
    ((Rx.star (.set spaceSet)).run q).flatMap (Rx.eol false).run = [] := by
  have := space_end q
  rw [h] at this
  simp only [List.all_cons, hc, Bool.false_and, Bool.false_eq_true, if_false, Option.map_eq_none_iff, List.head?_eq_none_iff] at this
  exact this

/-- The rest of the expression, from the name on. -/
def langTail (q : Pos) : List Pos :=
  ((Rx.group 1 (.seq .eps (.seq (.set langSet) (.star (.set langSet))))).run q).flatMap fun q => ((Rx.star (.set spaceSet)).run q).flatMap (Rx.eol false).run

theorem langTail_group (q : Pos) : (langTail q).head?.bind (·.group 1) =
    if (q.rest.takeWhile isLangChar).isEmpty then none
    else if (q.rest.dropWhile isLangChar).all isSpace then some (q.rest.takeWhile isLangChar) else none := by
  unfold langTail
  rw [run_group, run_seq, List.flatMap_assoc]
  rw [show Rx.eps.run q = [q] from rfl]
  simp only [List.flatMap_cons, List.flatMap_nil, List.append_nil, run_seq]
  cases hr : q.rest with
  | nil => simp [Rx.run, hr]
  | cons c cs =>
    cases hc : isLangChar c with
    | false => simp [Rx.run, hr, langSet_has, hc]
    | true =>
      rw [show (Rx.set langSet).run q = [⟨c :: q.back, cs, q.caps⟩] by simp [Rx.run, hr, langSet_has, hc]]
      simp only [List.flatMap_cons, List.flatMap_nil, List.append_nil]
      rw [star_then langSet (by
        intro x d ds hx hd
        rw [langSet_has] at hd
        refine end_blocked _ d ds hx ?_
        cases hs : isSpace d with
        | false => rfl
        | true => rw [lang_space hs] at hd; cases hd)]
      generalize hq : (⟨c :: q.back, cs, q.caps⟩ : Pos).skip langSet.has = x
      have hx : x.rest = cs.dropWhile isLangChar := by
        rw [← hq, adv_takeWhile, show langSet.has = isLangChar from funext langSet_has]
      have hlen : (c :: cs).take ((c :: cs).length - x.rest.length) = c :: cs.takeWhile isLangChar := by
        rw [hx]
        have h1 : c :: cs = (c :: cs.takeWhile isLangChar) ++ cs.dropWhile isLangChar := by simp
        rw [h1, List.length_append, Nat.add_sub_cancel, List.take_left']
        rfl
      have := space_end { x with caps := (1, (c :: cs).take ((c :: cs).length - x.rest.length)) :: x.caps }
      simp only [List.takeWhile_cons, List.dropWhile_cons, hc, if_true, List.isEmpty_cons, Bool.false_eq_true, if_false]
      rw [hlen] at this ⊢
      simp only [hx] at this ⊢
      rw [← hx] at this ⊢
      cases hy : (((Rx.star (.set spaceSet)).run { x with caps := (1, c :: cs.takeWhile isLangChar) :: x.caps }).flatMap (Rx.eol false).run).head? with
      | none =>
        rw [hy] at this
        split at this
        · simp at this
        · rename_i hn; rw [if_neg hn]; rfl
      | some y =>
        rw [hy] at this
        split at this
        · rename_i hn
          rw [if_pos hn]
          simp only [Option.map_some, Option.some.injEq] at this
          simp [Pos.group, this]
        · simp at this

theorem langTail_blocked (q : Pos) (c : Char) (cs : Str) (h : q.rest = c :: cs) (hc : isSpace c = true) : langTail q = [] := by
  unfold langTail
  rw [run_group, run_seq, List.flatMap_assoc, show Rx.eps.run q = [q] from rfl]
  simp [run_seq, Rx.run, h, langSet_has, lang_space hc]

/-- The whole expression, step by step. -/
theorem language_run (s : Str) : languageRx.run (start s) = chain ['#'] (fun q => chain py"language" (fun q => chain [':'] (fun q => langTail (q.skip isSpace)) (q.skip isSpace)) (q.skip isSpace))
    ((start s).skip isSpace) := by
  have hsp : ∀ (k : Pos → List Pos) (q : Pos), (∀ x c cs, x.rest = c :: cs → isSpace c = true → k x = []) →
      ((Rx.star (.set spaceSet)).run q).flatMap k = k (q.skip isSpace) := by
    intro k q hk
    rw [star_then spaceSet (by rw [spaceSet_has]; exact hk), spaceSet_has]
  have hw : ∀ (k : Pos → List Pos) (q : Pos), ((lit 'l').run q).flatMap (fun q => ((lit 'a').run q).flatMap fun q => ((lit 'n').run q).flatMap fun q => ((lit 'g').run q).flatMap fun q =>
      ((lit 'u').run q).flatMap fun q => ((lit 'a').run q).flatMap fun q => ((lit 'g').run q).flatMap fun q => ((lit 'e').run q).flatMap k) = chain py"language" k q := by
    intro k q
    have e : chain py"language" k q = ((lit 'l').run q).flatMap (fun q => ((lit 'a').run q).flatMap fun q => ((lit 'n').run q).flatMap fun q => ((lit 'g').run q).flatMap fun q =>
      ((lit 'u').run q).flatMap fun q => ((lit 'a').run q).flatMap fun q => ((lit 'g').run q).flatMap fun q => ((lit 'e').run q).flatMap fun q => chain [] k q) := by
      simp only [chain_cons]
    rw [e]
    simp only [chain_nil]
  have e0 : languageRx.run (start s) = ((Rx.star (.set spaceSet)).run (start s)).flatMap fun q => ((lit '#').run q).flatMap fun q => ((Rx.star (.set spaceSet)).run q).flatMap fun q =>
      ((lit 'l').run q).flatMap (fun q => ((lit 'a').run q).flatMap fun q => ((lit 'n').run q).flatMap fun q => ((lit 'g').run q).flatMap fun q =>
      ((lit 'u').run q).flatMap fun q => ((lit 'a').run q).flatMap fun q => ((lit 'g').run q).flatMap fun q => ((lit 'e').run q).flatMap fun q =>
      ((Rx.star (.set spaceSet)).run q).flatMap fun q => ((lit ':').run q).flatMap fun q => ((Rx.star (.set spaceSet)).run q).flatMap langTail) := by
    unfold languageRx langTail
    simp only [run_seq, List.flatMap_assoc]
    rw [show Rx.eps.run (start s) = [start s] from rfl]
    simp only [List.flatMap_cons, List.flatMap_nil, List.append_nil]
    rw [show (Rx.bol false).run (start s) = [start s] by simp [Rx.run, start]]
    simp only [List.flatMap_cons, List.flatMap_nil, List.append_nil]
  rw [e0]
  simp only [hw]
  simp only [lit_chain]
  have hA : ∀ q, ((Rx.star (.set spaceSet)).run q).flatMap langTail = langTail (q.skip isSpace) := fun q => hsp _ q fun x c cs h hc => langTail_blocked x c cs h hc
  have hB : ∀ k q, ((Rx.star (.set spaceSet)).run q).flatMap (fun q => chain [':'] k q) = chain [':'] k (q.skip isSpace) := fun k q => hsp _ q (chain_blocked (by decide) _ k)
  have hC : ∀ k q, ((Rx.star (.set spaceSet)).run q).flatMap (fun q => chain py"language" k q) = chain py"language" k (q.skip isSpace) :=
    fun k q => hsp _ q (chain_blocked (by decide) _ k)
  have hD : ∀ k q, ((Rx.star (.set spaceSet)).run q).flatMap (fun q => chain ['#'] k q) = chain ['#'] k (q.skip isSpace) := fun k q => hsp _ q (chain_blocked (by decide) _ k)
  simp only [hA, hB, hC, hD]

/-- `LANGUAGE_RE.match(s).group(1)` is what the matcher model takes. -/
theorem language_regex (s : Str) : ((read languageRe).bind fun r => (r.match? s).bind (·.group 1)) = languageName s := by
  rw [language_read]
  simp only [Option.bind_some, Rx.match?, language_run]
  rw [chain_dropPre, adv_takeWhile]
  unfold languageName
  show _ = match dropPre ['#'] (List.dropWhile isSpace s) with | none => none | some s1 => _
  simp only [start]
  cases dropPre ['#'] (s.dropWhile isSpace) with
  | none => rfl
  | some s1 =>
    simp only
    rw [chain_dropPre, adv_takeWhile]
    simp only [lstrip, lstripBy]
    cases dropPre py"language" (s1.dropWhile isSpace) with
    | none => rfl
    | some s2 =>
      simp only
      rw [chain_dropPre, adv_takeWhile]
      cases dropPre [':'] (s2.dropWhile isSpace) with
      | none => rfl
      | some s3 =>
        simp only
        rw [langTail_group, adv_takeWhile]
        rfl

end Gherkin.Regex
