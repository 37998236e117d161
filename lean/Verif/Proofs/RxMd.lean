import Verif.Proofs.RxText
import Verif.Proofs.RxLang
import Verif.MatcherMd

/-! The regular expressions of token_matcher_markdown.py. -/

namespace Gherkin.Regex

/-! ### Table rows -/

def optSpace : Rx := .alt (.set ⟨false, [.space]⟩) .eps

def rowRx : Rx := .seq (.seq (.seq (.seq (.seq (.seq (.seq .eps (.bol false)) optSpace) optSpace) optSpace) optSpace) optSpace) (lit '|')

theorem row_read : read py"^\\s?\\s?\\s?\\s?\\s?\\|" = some rowRx := by decide +kernel

theorem optSpace_run (p : Pos) (k : Pos → List Pos) : (optSpace.run p).flatMap k =
    match p.rest with | c :: cs => if isSpace c then k ⟨c :: p.back, cs, p.caps⟩ ++ k p else k p | [] => k p := by
  simp only [optSpace, Rx.run]
  cases h : p.rest with
  | nil => simp
  | cons c cs => simp only [has_space]; split <;> simp

/-- At most `n` white-space characters, then `|`. -/
def barAfter : Nat → Pos → List Pos
  | 0, p => (lit '|').run p
  | n + 1, p => (optSpace.run p).flatMap (barAfter n)

theorem isEmpty_app {α : Type} (a b : List α) : (a ++ b).isEmpty = (a.isEmpty && b.isEmpty) := by cases a <;> rfl

theorem isSome_head {α : Type} (a : List α) : a.head?.isSome = !a.isEmpty := by cases a <;> rfl

theorem barAfter_some : ∀ (n : Nat) (p : Pos), (barAfter n p).isEmpty = !((p.rest.takeWhile isSpace).length ≤ n && startsWith (p.rest.dropWhile isSpace) ['|']) := by
  have hbar : isSpace '|' = false := by decide
  intro n
  induction n with
  | zero =>
    intro p
    simp only [barAfter, lit, Rx.run]
    cases h : p.rest with
    | nil => rfl
    | cons c cs =>
      simp only [has_one]
      by_cases e : c = '|'
      · subst e; simp [hbar, startsWith]
      · have hp : startsWith (c :: cs) ['|'] = false := by simp [startsWith, List.isPrefixOf, Ne.symm e]
        cases hc : isSpace c <;> simp [hc, e, hp]
  | succ n ih =>
    intro p
    simp only [barAfter]
    rw [optSpace_run]
    cases h : p.rest with
    | nil => simp only; rw [ih, h]; rfl
    | cons c cs =>
      simp only
      cases hc : isSpace c with
      | false =>
        simp only [Bool.false_eq_true, if_false]
        rw [ih, h]
        simp [hc]
      | true =>
        simp only [if_true]
        rw [isEmpty_app, ih, ih, h]
        simp only [List.takeWhile_cons, List.dropWhile_cons, hc, if_true, List.length_cons]
        by_cases h1 : (cs.takeWhile isSpace).length ≤ n
        · have : (cs.takeWhile isSpace).length + 1 ≤ n + 1 := by omega
          simp only [h1, this, decide_true, Bool.true_and]
          cases startsWith (cs.dropWhile isSpace) ['|'] <;> simp
        · have h2 : ¬ (cs.takeWhile isSpace).length + 1 ≤ n + 1 := by omega
          have h3 : ¬ (cs.takeWhile isSpace).length + 1 ≤ n := by omega
          simp [h1, h2, h3]

/-- packages/gurke/src/gurke/token_matcher_markdown.py:67. -/
theorem tableRow_regex (l : Line) : ((read py"^\\s?\\s?\\s?\\s?\\s?\\|").map fun r => (r.match? l.text).isSome) = some (l.indent ≤ 5 && l.startsWith ['|']) := by
  rw [row_read]
  simp only [Option.map_some, Option.some.injEq, Rx.match?]
  have hrun : rowRx.run (start l.text) = barAfter 5 (start l.text) := by
    simp only [rowRx, run_seq, List.flatMap_assoc]
    have e0 : (Rx.eps).run (start l.text) = [start l.text] := rfl
    have e1 : (Rx.bol false).run (start l.text) = [start l.text] := by simp [Rx.run, start]
    rw [e0]
    simp only [List.flatMap_cons, List.flatMap_nil, List.append_nil]
    rw [e1]
    simp only [List.flatMap_cons, List.flatMap_nil, List.append_nil]
    rfl
  rw [hrun]
  have := barAfter_some 5 (start l.text)
  have hi : (l.text.takeWhile isSpace).length = l.indent := by
    have := congrArg List.length (List.takeWhile_append_dropWhile (p := isSpace) (l := l.text))
    rw [List.length_append] at this
    unfold Line.indent Line.trimmed lstrip lstripBy
    omega
  simp only [start, hi] at this
  rw [isSome_head]
  simp only [start]
  rw [this]
  rw [Bool.not_not]
  rfl

/-! ### Separator rows -/

def optColon : Rx := .alt (.set ⟨false, [.one ':']⟩) .eps

def sepRx : Rx := .seq (.seq (.seq (.seq (.seq .eps (.bol false)) optColon) (.seq (lit '-') (.star (lit '-')))) optColon) (.eol false)

theorem sep_read : read py"^:?-+:?$" = some sepRx := by decide +kernel

theorem optColon_run (p : Pos) (k : Pos → List Pos) (hk : ∀ q cs, q.rest = ':' :: cs → k q = []) : (optColon.run p).flatMap k =
    match p.rest with | ':' :: cs => k ⟨':' :: p.back, cs, p.caps⟩ | _ => k p := by
  simp only [optColon, Rx.run]
  cases h : p.rest with
  | nil => simp
  | cons c cs =>
    simp only [has_one]
    by_cases e : c = ':'
    · subst e; simp [hk p cs h]
    · rw [if_neg (by simpa using e)]
      simp only [List.nil_append, List.flatMap_cons, List.flatMap_nil, List.append_nil]
      split
      · rename_i heq; cases heq; exact absurd rfl e
      · rfl

theorem eol_run (p : Pos) : (Rx.eol false).run p = if p.rest = [] ∨ p.rest = ['\n'] then [p] else [] := by
  simp [Rx.run]

theorem eol_blocked (p : Pos) (c : Char) (cs : Str) (h : p.rest = c :: cs) (hc : c ≠ '\n') : (Rx.eol false).run p = [] := by
  rw [eol_run, if_neg]
  rw [h]
  rintro (h | h)
  · cases h
  · cases h; exact hc rfl

/-- packages/gurke/src/gurke/token_matcher_markdown.py:79. -/
theorem sepText_regex (s : Str) : ((read py"^:?-+:?$").map fun r => (r.match? s).isSome) = some (Md.isSepText s) := by
  rw [sep_read]
  simp only [Option.map_some, Option.some.injEq, Rx.match?]
  have hdash : (fun c => Set.has ⟨false, [.one '-']⟩ c) = (· == '-') := funext fun c => has_one '-' c
  -- the end
  have hend : ∀ p : Pos, (optColon.run p).flatMap (Rx.eol false).run =
      match p.rest with | ':' :: cs => (Rx.eol false).run ⟨':' :: p.back, cs, p.caps⟩ | _ => (Rx.eol false).run p := by
    intro p
    rw [optColon_run]
    intro q cs hq
    exact eol_blocked q ':' cs hq (by decide)
  -- the dashes
  have hdashes : ∀ p : Pos, ((Rx.star (lit '-')).run p).flatMap (fun q => (optColon.run q).flatMap (Rx.eol false).run) =
      (fun q => (optColon.run q).flatMap (Rx.eol false).run) (p.skip (· == '-')) := by
    intro p
    have := star_then ⟨false, [.one '-']⟩ (k := fun q => (optColon.run q).flatMap (Rx.eol false).run) (by
      intro q c cs hq hc
      rw [has_one] at hc
      have hc : c = '-' := by simpa using hc
      subst hc
      show (optColon.run q).flatMap (Rx.eol false).run = []
      rw [hend, hq]
      exact eol_blocked q '-' cs hq (by decide)) p
    rw [show (Set.has ⟨false, [.one '-']⟩) = (· == '-') from hdash] at this
    exact this
  have hmid : ∀ p : Pos, ((Rx.seq (lit '-') (.star (lit '-'))).run p).flatMap (fun q => (optColon.run q).flatMap (Rx.eol false).run) =
      chain ['-'] (fun q => (fun q => (optColon.run q).flatMap (Rx.eol false).run) (q.skip (· == '-'))) p := by
    intro p
    rw [run_seq, List.flatMap_assoc]
    simp only [hdashes]
    rw [lit_chain]
  have hrun : sepRx.run (start s) = (optColon.run (start s)).flatMap (chain ['-'] (fun q => (fun q => (optColon.run q).flatMap (Rx.eol false).run) (q.skip (· == '-')))) := by
    have e0 : (Rx.eps).run (start s) = [start s] := rfl
    have e1 : (Rx.bol false).run (start s) = [start s] := by simp [Rx.run, start]
    simp only [sepRx]
    rw [run_seq, run_seq, run_seq, run_seq, run_seq, e0]
    simp only [List.flatMap_cons, List.flatMap_nil, List.append_nil, e1, List.flatMap_assoc]
    have : ∀ p : Pos, ((Rx.seq (lit '-') (.star (lit '-'))).run p).flatMap (fun q => (optColon.run q).flatMap (Rx.eol false).run) = _ := hmid
    simp only [this]
  rw [hrun, optColon_run]
  · have key : ∀ p : Pos, (chain ['-'] (fun q => (fun q => (optColon.run q).flatMap (Rx.eol false).run) (q.skip (· == '-'))) p).head?.isSome =
        (let s1 := p.rest
         let s2 := s1.dropWhile (· == '-')
         let s3 := match s2 with | ':' :: r => r | _ => s2
         s1.head? = some '-' && (s3 == [] || s3 == ['\n'])) := by
      intro p
      simp only [chain]
      cases hp : p.rest with
      | nil => simp
      | cons c cs =>
        by_cases e : c = '-'
        · subst e
          rw [if_pos (by simp [List.cons_prefix_cons])]
          have hrest : ((p.adv ['-']).skip (· == '-')).rest = cs.dropWhile (· == '-') := by
            rw [adv_takeWhile]; simp [Pos.adv, hp]
          rw [hend, hrest]
          simp only [List.dropWhile_cons, beq_self_eq_true, if_true, List.head?_cons, decide_true, Bool.true_and]
          split
          · rename_i r hr
            rw [eol_run]
            simp only [hr]
            split <;> simp_all
          · rename_i hne
            rw [eol_run, hrest]
            generalize cs.dropWhile (· == '-') = t at *
            cases t with
            | nil => simp
            | cons a as =>
              by_cases ha : a = ':'
              · subst ha; exact absurd rfl (hne as)
              · split <;> simp_all
        · rw [if_neg (by simp [List.cons_prefix_cons, Ne.symm e])]
          simp [e]
    simp only [start]
    unfold Md.isSepText
    cases s with
    | nil => exact key _
    | cons c cs =>
      by_cases e : c = ':'
      · subst e; exact key _
      · split
        · rename_i heq; cases heq; exact absurd rfl e
        · have := key ⟨[], c :: cs, []⟩
          rw [this]
          split
          · rename_i heq; cases heq; exact absurd rfl e
          · rfl
  · intro q cs hq
    simp [chain, hq, List.cons_prefix_cons]

/-! ### Tags -/

def notTick : Set := ⟨true, [.one '`']⟩

def tagRx : Rx := .seq (.seq (.seq .eps (lit '`')) (.group 1 (.seq (.seq .eps (lit '@')) (.seq (.set notTick) (.star (.set notTick)))))) (lit '`')

theorem tag_read : read py"`(@[^`]+)`" = some tagRx := by decide +kernel

/-- The name of a tag that begins here. -/
def tagHere (rest : Str) : Option Str :=
  match rest with
  | '`' :: '@' :: r =>
    let name := r.takeWhile (· != '`')
    if !name.isEmpty && (r.drop name.length).head? == some '`' then some name else none
  | _ => none

theorem tagHere_eq {rest name : Str} (h : tagHere rest = some name) : ∃ t, rest = '`' :: '@' :: (name ++ '`' :: t) ∧ name ≠ [] ∧ '`' ∉ name := by
  unfold tagHere at h
  split at h
  · rename_i r
    simp only at h
    split at h
    · rename_i hc
      simp only [Option.some.injEq] at h
      subst h
      simp only [Bool.and_eq_true, Bool.not_eq_true', beq_iff_eq] at hc
      have hsplit := List.takeWhile_append_dropWhile (p := (· != '`')) (l := r)
      have hd : r.drop (r.takeWhile (· != '`')).length = r.dropWhile (· != '`') := by
        have := congrArg (List.drop (r.takeWhile (· != '`')).length) hsplit
        rw [List.drop_left] at this
        exact this.symm
      rw [hd] at hc
      cases hx : r.dropWhile (· != '`') with
      | nil => rw [hx] at hc; simp at hc
      | cons a as =>
        rw [hx] at hc hsplit
        have ha : a = '`' := by simpa using hc.2
        subst ha
        refine ⟨as, by rw [hsplit], ?_, ?_⟩
        · intro hn; rw [hn] at hc; simp at hc
        · intro hm
          have := takeWhile_all (p := (· != '`')) r _ hm
          simp at this
    · cases h
  · cases h

theorem chain_pos (v t : Str) (k : Pos → List Pos) (back : Str) (caps : List (Nat × Str)) : chain v k ⟨back, v ++ t, caps⟩ = k ⟨v.reverse ++ back, t, caps⟩ := by
  simp [chain, Pos.adv]

theorem tag_tail (p : Pos) (k : Pos → List Pos) (hk : ∀ q c cs, q.rest = c :: cs → notTick.has c = true → k q = []) :
    ((Rx.seq (.set notTick) (.star (.set notTick))).run p).flatMap k =
      if (p.rest.takeWhile (· != '`')).isEmpty then [] else k (p.skip (· != '`')) := by
  have hset : notTick.has = (· != '`') := funext fun c => has_not '`' c
  rw [run_seq, List.flatMap_assoc]
  have : ∀ q, ((Rx.star (.set notTick)).run q).flatMap k = k (q.skip notTick.has) := fun q => star_then notTick hk q
  simp only [this, hset]
  simp only [Rx.run]
  cases h : p.rest with
  | nil => simp
  | cons c cs =>
    simp only [hset]
    cases hc : c != '`' with
    | false => simp [List.takeWhile_cons, hc]
    | true =>
      simp only [if_true, List.flatMap_cons, List.flatMap_nil, List.append_nil, List.takeWhile_cons, hc]
      simp [Pos.skip, Pos.adv, h, List.takeWhile_cons, hc]

theorem tag_run (back rest : Str) : tagRx.run ⟨back, rest, []⟩ =
    match tagHere rest with
    | none => []
    | some name => [⟨'`' :: (name.reverse ++ '@' :: '`' :: back), rest.drop (name.length + 3), [(1, '@' :: name)]⟩] := by
  have hset : notTick.has = (· != '`') := funext fun c => has_not '`' c
  have h0 : ∀ p, tagRx.run p = chain ['`'] (fun p => chain ['@'] (fun q => if (q.rest.takeWhile (· != '`')).isEmpty then [] else
      (fun q => chain ['`'] (fun q => [q]) { q with caps := (1, p.rest.take (p.rest.length - q.rest.length)) :: q.caps }) (q.skip (· != '`'))) p) p := by
    intro p
    simp only [tagRx]
    rw [run_seq, run_seq, run_seq, List.flatMap_assoc, List.flatMap_assoc]
    simp only [Rx.run, List.flatMap_cons, List.flatMap_nil, List.append_nil]
    have hlast : ∀ q, (lit '`').run q = chain ['`'] (fun q => [q]) q := by
      intro q; rw [← lit_chain, List.flatMap_singleton']
    rw [show (lit '`').run p = ((lit '`').run p).flatMap (fun q => [q]) from (List.flatMap_singleton' _).symm, List.flatMap_assoc]
    simp only [List.flatMap_cons, List.flatMap_nil, List.append_nil]
    rw [lit_chain]
    congr 1
    funext p
    rw [List.flatMap_map, List.flatMap_assoc]
    simp only [hlast]
    rw [lit_chain]
    congr 1
    funext q
    have := tag_tail q (fun q => chain ['`'] (fun q => [q]) { q with caps := (1, p.rest.take (p.rest.length - q.rest.length)) :: q.caps }) (by
      intro q c cs hq hc
      rw [hset] at hc
      have : c ≠ '`' := by simpa using hc
      simp [chain, hq, List.cons_prefix_cons, Ne.symm this])
    rw [← this]
    rfl
  rw [h0]
  cases ht : tagHere rest with
  | some name =>
    obtain ⟨t, h1, h2, h3⟩ := tagHere_eq ht
    subst h1
    simp only
    rw [show '`' :: '@' :: (name ++ '`' :: t) = ['`'] ++ ('@' :: (name ++ '`' :: t)) from rfl, chain_pos]
    rw [show '@' :: (name ++ '`' :: t) = ['@'] ++ (name ++ '`' :: t) from rfl, chain_pos]
    have htw : (name ++ '`' :: t).takeWhile (· != '`') = name := by
      apply List.takeWhile_append_of_pos _ |>.trans
      · simp
      · intro a ha; simp; rintro rfl; exact h3 ha
    have hsk : (⟨['@'].reverse ++ (['`'].reverse ++ back), name ++ '`' :: t, []⟩ : Pos).skip (· != '`') = ⟨name.reverse ++ ['@', '`'] ++ back, '`' :: t, []⟩ := by
      simp [Pos.skip, Pos.adv, htw]
    rw [hsk]
    simp only [htw]
    rw [if_neg (by simpa using h2)]
    rw [show '`' :: t = ['`'] ++ t from rfl, chain_pos]
    simp
    rw [show name.length + (t.length + 1) - t.length = name.length + 1 by omega, List.take_succ_cons]; simp
  | none =>
    simp only
    unfold tagHere at ht
    cases rest with
    | nil => simp [chain]
    | cons a r1 =>
      by_cases ea : a = '`'
      · subst ea
        rw [show '`' :: r1 = ['`'] ++ r1 from rfl, chain_pos]
        cases r1 with
        | nil => simp [chain]
        | cons b r2 =>
          by_cases eb : b = '@'
          · subst eb
            rw [show '@' :: r2 = ['@'] ++ r2 from rfl, chain_pos]
            simp only at ht ⊢
            split
            · rfl
            · rename_i hne
              have hr : ((⟨['@'].reverse ++ (['`'].reverse ++ back), r2, []⟩ : Pos).skip (· != '`')).rest = r2.dropWhile (· != '`') := adv_takeWhile _ _
              have hd : r2.drop (r2.takeWhile (· != '`')).length = r2.dropWhile (· != '`') := by
                have := congrArg (List.drop (r2.takeWhile (· != '`')).length) (List.takeWhile_append_dropWhile (p := (· != '`')) (l := r2))
                rw [List.drop_left] at this
                exact this.symm
              rw [hd] at ht
              simp only [chain, hr]
              rw [if_neg]
              intro hpre
              cases hx : r2.dropWhile (· != '`') with
              | nil => rw [hx] at hpre; simp at hpre
              | cons x xs =>
                rw [hx] at hpre ht
                have : x = '`' := by simpa [List.cons_prefix_cons, eq_comm] using hpre
                subst this
                simp at hne
                simp [hne] at ht
          · simp [chain, List.cons_prefix_cons, Ne.symm eb]
      · simp [chain, List.cons_prefix_cons, Ne.symm ea]

/-- Passing over `k` characters. -/
theorem findTags_skip : ∀ (k : Nat) (s : Str) (pos : Nat), k ≤ s.length → Md.findTags s pos k = Md.findTags (s.drop k) (pos + k) 0 := by
  intro k
  induction k with
  | zero => intro s pos _; rfl
  | succ k ih =>
    intro s pos h
    cases s with
    | nil => simp at h
    | cons c cs =>
      simp only [Md.findTags, List.drop_succ_cons]
      rw [ih cs (pos + 1) (by simpa using h), Nat.add_assoc, Nat.add_comm 1 k]

theorem findTags_here (s : Str) (pos : Nat) : Md.findTags s pos 0 =
    match s with
    | [] => []
    | _ :: cs => match tagHere s with
      | some name => (pos, '@' :: name) :: Md.findTags (s.drop (name.length + 3)) (pos + name.length + 3) 0
      | none => Md.findTags cs (pos + 1) 0 := by
  cases s with
  | nil => rfl
  | cons c cs =>
    cases ht : tagHere (c :: cs) with
    | some name =>
      obtain ⟨t, h1, h2, h3⟩ := tagHere_eq ht
      cases h1
      have hh := ht
      simp only [tagHere] at hh
      split at hh
      · rename_i hc
        simp only [Option.some.injEq] at hh
        simp only [Md.findTags]
        rw [hh] at hc ⊢
        rw [if_pos hc, findTags_skip _ _ _ (by simp)]
        simp only [List.drop_succ_cons]
        congr 2
        omega
      · cases hh
    | none =>
      simp only
      unfold tagHere at ht
      cases cs with
      | nil => simp [Md.findTags]
      | cons b r =>
        by_cases ea : c = '`'
        · subst ea
          by_cases eb : b = '@'
          · subst eb
            simp only [Md.findTags] at ht ⊢
            split at ht
            · cases ht
            · rename_i hc; rw [if_neg hc]
          · rw [Md.findTags]
            intro rest _ heq; cases heq; exact absurd rfl eb
        · rw [Md.findTags]
          intro rest heq; exact absurd heq ea

theorem tags_from : ∀ (n : Nat) (rest back : Str), rest.length ≤ n →
    (tagRx.from false ⟨back, rest, []⟩).map (fun m => (back.length + rest.length - m.first.rest.length, m.last.group 1)) =
      (Md.findTags rest back.length 0).map fun x => (x.1, some x.2) := by
  intro n
  induction n with
  | zero =>
    intro rest back h
    have : rest = [] := by simpa using h
    subst this
    rw [from_none (by rw [tag_run]; rfl)]
    rfl
  | succ n ih =>
    intro rest back h
    rw [findTags_here]
    cases rest with
    | nil => rw [from_none (by rw [tag_run]; rfl)]; rfl
    | cons c cs =>
      cases ht : tagHere (c :: cs) with
      | none =>
        rw [from_none (by rw [tag_run, ht]; rfl)]
        simp only
        have := ih cs (c :: back) (by simpa using h)
        simp only [List.length_cons] at this ⊢
        rw [← this]
        apply List.map_congr_left
        intro m _
        simp; omega
      | some name =>
        obtain ⟨t, h1, h2, h3⟩ := tagHere_eq ht
        have hn : 0 < name.length := List.length_pos_iff.mpr h2
        rw [from_some (q := ⟨'`' :: (name.reverse ++ '@' :: '`' :: back), (c :: cs).drop (name.length + 3), [(1, '@' :: name)]⟩) (by rw [tag_run, ht]; rfl)]
        have hdrop : (c :: cs).drop (name.length + 3) = t := by
          rw [h1]; simp
        have hlen : (c :: cs).length = name.length + 3 + t.length := by rw [h1]; simp; omega
        have hb : (((c :: cs).drop (name.length + 3)).length == (c :: cs).length) = false := by rw [hdrop, hlen]; simp
        simp only [hb]
        simp only [hdrop]
        simp only [List.map_cons, List.cons.injEq]
        refine ⟨?_, ?_⟩
        · simp [Pos.group, List.lookup]
        · have := ih t ('`' :: (name.reverse ++ '@' :: '`' :: back)) (by omega)
          have hl : ('`' :: (name.reverse ++ '@' :: '`' :: back)).length = back.length + name.length + 3 := by simp; omega
          rw [hl] at this
          rw [← this]
          apply List.map_congr_left
          intro m _
          simp only [hlen]
          congr 1
          omega

/-- packages/gurke/src/gurke/token_matcher_markdown.py:136-139: the start of each match and its group 1. -/
theorem findTags_regex (s : Str) : ((read py"`(@[^`]+)`").map fun r => (r.all s).map fun m => (s.length - m.first.rest.length, m.last.group 1)) =
    some ((Md.findTags s 0 0).map fun x => (x.1, some x.2)) := by
  rw [tag_read]
  simp only [Option.map_some, Option.some.injEq, all_from]
  have := tags_from _ s [] (Nat.le_refl _)
  simpa [start] using this

end Gherkin.Regex
