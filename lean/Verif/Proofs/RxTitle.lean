import Verif.Proofs.RxMd

/-! The expression of `_match_title_line` in token_matcher_markdown.py. -/

namespace Gherkin.Regex

/-- packages/gurke/src/gurke/token_matcher_markdown.py:190-191: the pattern, `"{}({}){}(.*)".format(prefix, "|".join(map(re.escape, keywords)), suffix)`. -/
def titlePattern (pre : Str) (kws : List Str) (suffix : Str) : Str :=
  pre ++ '(' :: (joinStr ['|'] (kws.map reEscape) ++ ')' :: (suffix ++ py"(.*)"))

theorem alts_steps (fl : Flags) : ∀ (kws : List Str), kws ≠ [] → ∀ (st : State), st.mode = .norm → st.cur.pre = .eps → st.cur.last = none →
    ∃ f : Frame, steps fl st (joinStr ['|'] (kws.map reEscape)) = some { st with cur := f } ∧ f.num = st.cur.num ∧
      ∀ p (k : Pos → List Pos), (f.body.run p).flatMap k = (match st.cur.alts with | none => [] | some a => (a.run p).flatMap k) ++ kws.flatMap fun kw => chain kw k p := by
  intro kws
  have hbody : ∀ (f : Frame) p (k : Pos → List Pos), (f.body.run p).flatMap k = (match f.alts with | none => [] | some a => (a.run p).flatMap k) ++ (f.cur.run p).flatMap k := by
    intro f p k
    unfold Frame.body
    cases f.alts with
    | none => rfl
    | some a => simp [Rx.run]
  induction kws with
  | nil => intro h; exact absurd rfl h
  | cons kw rest ih =>
    intro _ st hm hpre hlast
    obtain ⟨f, h1, h2, h3, h4⟩ := spell_steps fl (spells_escape kw) st hm
    have hcur : st.cur.cur = .eps := by unfold Frame.cur; rw [hlast]; exact hpre
    have hf : ∀ p (k : Pos → List Pos), (f.cur.run p).flatMap k = chain kw k p := by
      intro p k; rw [h4, hcur]; simp [Rx.run]
    cases rest with
    | nil =>
      refine ⟨f, h1, h2, fun p k => ?_⟩
      rw [hbody, h3, hf]; simp
    | cons kw2 rest =>
      have hj : joinStr ['|'] ((kw :: kw2 :: rest).map reEscape) = reEscape kw ++ '|' :: joinStr ['|'] ((kw2 :: rest).map reEscape) := by
        simp [joinStr]
      obtain ⟨g, g1, g2, g3⟩ := ih (by simp) { st with cur := { f with alts := some f.body, pre := .eps, last := none } } hm rfl rfl
      refine ⟨g, ?_, by rw [g2]; exact h2, fun p k => ?_⟩
      · rw [hj, steps_append, h1]
        simp only [Option.bind_some, steps]
        have : step fl { st with cur := f } '|' = some { st with cur := { f with alts := some f.body, pre := .eps, last := none } } := by
          simp [step, hm, stepNorm]
        rw [this]
        exact g1
      · rw [g3]
        simp only
        rw [hbody, h3, hf]
        simp

theorem escape_head (v : Str) : (reEscape v).head? ≠ some '?' := by
  cases v with
  | nil => simp [reEscape]
  | cons c cs =>
    unfold reEscape
    rw [List.flatMap_cons]
    split
    · simp
    · rename_i h
      simp only [List.cons_append, List.nil_append, List.head?_cons, ne_eq, Option.some.injEq]
      rintro rfl
      revert h; decide

theorem join_head (kws : List Str) (t : Str) : (joinStr ['|'] (kws.map reEscape) ++ ')' :: t).head? ≠ some '?' := by
  have hne : ∀ (v t : Str), t.head? ≠ some '?' → (reEscape v ++ t).head? ≠ some '?' := by
    intro v t ht
    rw [List.head?_append]
    have := escape_head v
    cases hh : (reEscape v).head? with
    | none => simpa using ht
    | some c => rw [hh] at this; simpa using this
  match kws with
  | [] => simp [joinStr]
  | [v] => simp only [List.map_cons, List.map_nil, joinStr]; exact hne v _ (by simp)
  | v :: w :: ws =>
    simp only [List.map_cons, joinStr, List.append_assoc]
    exact hne v _ (by simp)

theorem opened_steps (fl : Flags) (st : State) (s : Str) (h0 : s ≠ []) (h : s.head? ≠ some '?') : steps fl { st with mode := .opened } s = steps fl st.open s := by
  cases s with
  | nil => exact absurd rfl h0
  | cons c cs =>
    have hc : c ≠ '?' := by simpa using h
    simp only [steps, step, hc, if_false]
    rfl

/-- A group of keywords. -/
theorem group_steps (fl : Flags) (kws : List Str) (hk : kws ≠ []) (st : State) (hm : st.mode = .norm) (t : Str) :
    ∃ body : Rx, steps fl st ('(' :: (joinStr ['|'] (kws.map reEscape) ++ ')' :: t)) =
        steps fl { outer := st.outer, cur := st.cur.push (.group (st.groups + 1) body), groups := st.groups + 1, mode := .norm } t ∧
      ∀ p (k : Pos → List Pos), (body.run p).flatMap k = kws.flatMap fun kw => chain kw k p := by
  obtain ⟨f, h1, h2, h3⟩ := alts_steps fl kws hk st.open rfl rfl rfl
  refine ⟨f.body, ?_, fun p k => by rw [h3]; rfl⟩
  have e1 : step fl st '(' = some { st with mode := .opened } := by simp [step, hm, stepNorm]
  rw [steps, e1]
  simp only
  rw [opened_steps fl st _ (by simp) (join_head kws t), steps_append, h1]
  simp only [Option.bind_some, steps]
  have e2 : step fl { st.open with cur := f } ')' = some { outer := st.outer, cur := st.cur.push (.group (st.groups + 1) f.body), groups := st.groups + 1, mode := .norm } := by
    have hn : f.num = some (st.groups + 1) := h2
    simp [step, stepNorm, State.open, Frame.close, hn]
  rw [e2]

def dot : Set := ⟨true, [.one '\n']⟩

theorem rest_steps (st : State) (hm : st.mode = .norm) : steps ⟨false, false⟩ st py"(.*)" =
    some { outer := st.outer, cur := st.cur.push (.group (st.groups + 1) (.seq .eps (.star (.set dot)))), groups := st.groups + 1, mode := .norm } := by
  have e1 : step ⟨false, false⟩ st '(' = some { st with mode := .opened } := by simp [step, hm, stepNorm]
  rw [steps, e1]
  rfl

/-- What follows the prefix. -/
def titleTail (kws : List Str) (suffix : Str) (p : Pos) : List Pos :=
  kws.flatMap fun kw => chain kw (fun q => chain suffix (fun q' => (runsOf (· != '\n') q'.caps q'.back q'.rest).map fun z =>
    { z with caps := (3, q'.rest.take (q'.rest.length - z.rest.length)) :: z.caps })
    { q with caps := (2, p.rest.take (p.rest.length - q.rest.length)) :: q.caps }) p

theorem title_read (pre : Str) (f0 : Frame) (hf : f0.num = none ∧ f0.alts = none) (hpre : steps ⟨false, false⟩ State.init pre = some { outer := [], cur := f0, groups := 1, mode := .norm })
    (hms : pre.head? = some '^') (kws : List Str) (hk : kws ≠ []) (suffix : Str) (hs : suffix.any Pickles.isMeta = false) :
    ∃ r, read (titlePattern pre kws suffix) = some r ∧ ∀ p, r.run p = (f0.cur.run p).flatMap (titleTail kws suffix) := by
  obtain ⟨body, h1, h2⟩ := group_steps ⟨false, false⟩ kws hk { outer := [], cur := f0, groups := 1, mode := .norm } rfl (suffix ++ py"(.*)")
  obtain ⟨f, g1, g2, g3, g4⟩ := spell_steps ⟨false, false⟩ (spells_self hs) { outer := [], cur := f0.push (.group 2 body), groups := 2, mode := .norm } rfl
  refine ⟨(f.push (.group 3 (.seq .eps (.star (.set dot))))).cur, ?_, fun p => ?_⟩
  · have hfl : startsWith (titlePattern pre kws suffix) py"(?ms)" = false := by
      unfold titlePattern
      cases pre with
      | nil => simp at hms
      | cons c cs =>
        have : c = '^' := by simpa using hms
        subst this
        simp [startsWith, List.isPrefixOf]
    unfold read
    simp only [hfl]
    unfold titlePattern
    rw [steps_append, hpre]
    simp only [Option.bind_some]
    rw [h1]
    simp only [Nat.reduceAdd]
    rw [steps_append, g1]
    simp only [Option.bind_some]
    rw [rest_steps _ rfl]
    have hn : f.num = none := by rw [g2]; exact hf.1
    have ha : f.alts = none := by rw [g3]; exact hf.2
    simp [State.finish, Frame.close, Frame.body, Frame.push, Frame.cur, hn, ha]
  · rw [push_run, g4]
    simp only
    rw [push_run, List.flatMap_assoc]
    congr 1
    funext q
    rw [run_group, h2]
    unfold titleTail
    have hd : dot.has = (· != '\n') := funext fun c => has_not '\n' c
    have : ∀ q', (Rx.group 3 (.seq .eps (.star (.set dot)))).run q' = (runsOf (· != '\n') q'.caps q'.back q'.rest).map fun z =>
        { z with caps := (3, q'.rest.take (q'.rest.length - z.rest.length)) :: z.caps } := by
      intro q'
      have : (Rx.seq .eps (.star (.set dot))).run q' = runsOf (· != '\n') q'.caps q'.back q'.rest := by
        rw [run_seq]
        simp only [Rx.run, List.flatMap_cons, List.flatMap_nil, List.append_nil]
        rw [← hd]
        exact loop_set dot _ q' (Nat.le_refl _)
      show ((Rx.seq .eps (.star (.set dot))).run q').map _ = _
      rw [this]
    rw [funext this]

theorem find_flat {α β : Type} (l : List α) (f : α → List β) : (l.flatMap f).head? = l.findSome? fun a => (f a).head? := by
  induction l with
  | nil => rfl
  | cons a as ih =>
    rw [List.flatMap_cons, List.head?_append, ih, List.findSome?_cons]
    cases (f a).head? <;> rfl

/-- The first way to match what follows the prefix. -/
theorem titleTail_head (kws : List Str) (suffix : Str) (p : Pos) (g : Str) (hp : p.caps = [(1, g)]) :
    (titleTail kws suffix p).head?.map (fun q => (q.group 1, q.group 2, q.group 3)) =
      (kws.find? fun kw => startsWith p.rest (kw ++ suffix)).map fun kw =>
        (some g, some kw, some ((p.rest.drop (kw.length + suffix.length)).takeWhile (· != '\n'))) := by
  unfold titleTail
  rw [find_flat]
  induction kws with
  | nil => rfl
  | cons kw kws ih =>
    rw [List.findSome?_cons, List.find?_cons]
    by_cases h : kw ++ suffix <+: p.rest
    · obtain ⟨t, ht⟩ := h
      rw [show startsWith p.rest (kw ++ suffix) = true from List.isPrefixOf_iff_prefix.mpr ⟨t, ht⟩]
      simp only
      rw [List.append_assoc] at ht
      obtain ⟨back, rest, caps⟩ := p
      simp only at ht hp
      subst ht hp
      rw [chain_pos]
      simp only
      rw [chain_pos]
      rw [List.head?_map, head_runs]
      have hl : (kw ++ (suffix ++ t)).length - (suffix ++ t).length = kw.length := by simp
      have hd : (kw ++ (suffix ++ t)).drop (kw.length + suffix.length) = t := by
        rw [← List.append_assoc, ← List.length_append, List.drop_left]
      have hr : ((⟨suffix.reverse ++ (kw.reverse ++ back), t, (2, (kw ++ (suffix ++ t)).take ((kw ++ (suffix ++ t)).length - (suffix ++ t).length)) :: [(1, g)]⟩ : Pos).skip (· != '\n')).rest = t.dropWhile (· != '\n') := adv_takeWhile _ _
      have hc : t.take (t.length - (t.dropWhile (· != '\n')).length) = t.takeWhile (· != '\n') := by
        have e := List.takeWhile_append_dropWhile (p := (· != '\n')) (l := t)
        have el := congrArg List.length e
        rw [List.length_append] at el
        have : t.length - (t.dropWhile (· != '\n')).length = (t.takeWhile (· != '\n')).length := by omega
        rw [this]
        have e2 := congrArg (List.take (t.takeWhile (· != '\n')).length) e
        rw [List.take_left] at e2
        exact e2.symm
      simp only [Option.map_some, hr, hc, hd, hl]
      have h5 : t.length - (t.length - (t.takeWhile (· != '\n')).length) = t.length - (t.dropWhile (· != '\n')).length := by
        have e := congrArg List.length (List.takeWhile_append_dropWhile (p := (· != '\n')) (l := t))
        rw [List.length_append] at e
        omega
      simp [Pos.group, Pos.skip, Pos.adv, List.lookup]
      rw [h5, hc]
    · rw [show startsWith p.rest (kw ++ suffix) = false from by
        cases hh : startsWith p.rest (kw ++ suffix) with
        | false => rfl
        | true => exact absurd (List.isPrefixOf_iff_prefix.mp hh) h]
      simp only
      have hnone : (chain kw (fun q => chain suffix (fun q' => (runsOf (· != '\n') q'.caps q'.back q'.rest).map fun z =>
          { z with caps := (3, q'.rest.take (q'.rest.length - z.rest.length)) :: z.caps })
          { q with caps := (2, p.rest.take (p.rest.length - q.rest.length)) :: q.caps }) p) = [] := by
        unfold chain
        split
        · rename_i h1
          apply if_neg
          obtain ⟨t1, ht1⟩ := h1
          simp only [Pos.adv, ← ht1, List.drop_left]
          rintro ⟨t2, ht2⟩
          exact h ⟨t2, by rw [← ht1, ← ht2, List.append_assoc]⟩
        · rfl
      rw [hnone]
      exact ih

/-- What the prefix can match, with the length of group 1. -/
theorem title_search {r : Rx} {f0 : Frame} {kws : List Str} {suffix s : Str} (hrun : ∀ p, r.run p = (f0.cur.run p).flatMap (titleTail kws suffix))
    (hdead : ∀ q : Pos, q.back ≠ [] → f0.cur.run q = []) (prefixes : List Md.PrefixMatch)
    (hpre : f0.cur.run (start s) = prefixes.map fun x => ⟨(s.take x.1).reverse, x.2, [(1, s.take x.1)]⟩) :
    ((r.search s).map fun m => (m.last.group 1, m.last.group 2, m.last.group 3)) =
      (Md.searchTitle prefixes kws suffix).map fun x => (some (s.take x.1), some x.2.1, some x.2.2) := by
  rw [search_anchored (fun q hq => by rw [hrun, hdead q hq]; rfl)]
  unfold Rx.match?
  rw [hrun, hpre, find_flat]
  unfold Md.searchTitle
  clear hpre
  induction prefixes with
  | nil => rfl
  | cons x xs ih =>
    rw [List.map_cons, List.findSome?_cons, List.findSome?_cons]
    have := titleTail_head kws suffix ⟨(s.take x.1).reverse, x.2, [(1, s.take x.1)]⟩ _ rfl
    simp only at this
    cases h1 : (titleTail kws suffix ⟨(s.take x.1).reverse, x.2, [(1, s.take x.1)]⟩).head? with
    | some q =>
      rw [h1] at this
      cases h2 : kws.find? fun kw => startsWith x.2 (kw ++ suffix) with
      | none => rw [h2] at this; simp at this
      | some kw =>
        rw [h2] at this
        obtain ⟨n, rest⟩ := x
        simp only [Option.map_some] at this h2 ⊢
        rw [h2]
        simpa using this
    | none =>
      rw [h1] at this
      cases h2 : kws.find? fun kw => startsWith x.2 (kw ++ suffix) with
      | some kw => rw [h2] at this; simp at this
      | none =>
        obtain ⟨n, rest⟩ := x
        simp only at h2 ⊢
        rw [h2]
        exact ih

/-! ### The prefixes -/

theorem upTo_then (k : Pos → List Pos) (hk : ∀ q cs, q.rest = '#' :: cs → k q = []) : ∀ (n : Nat) (p : Pos),
    ((upTo (lit '#') n).run p).flatMap k = if (p.rest.takeWhile (· == '#')).length ≤ n then k (p.skip (· == '#')) else [] := by
  intro n
  induction n with
  | zero =>
    intro p
    simp only [upTo, Rx.run, List.flatMap_cons, List.flatMap_nil, List.append_nil]
    split
    · rename_i h
      have : p.rest.takeWhile (· == '#') = [] := by simpa using h
      simp [Pos.skip, Pos.adv, this]
    · rename_i h
      cases hr : p.rest with
      | nil => rw [hr] at h; simp at h
      | cons c cs =>
        by_cases e : c = '#'
        · subst e; exact hk p cs hr
        · rw [hr] at h; simp [List.takeWhile_cons, e] at h
  | succ n ih =>
    intro p
    simp only [upTo]
    simp only [Rx.run, List.flatMap_append, List.flatMap_assoc, List.flatMap_cons, List.flatMap_nil, List.append_nil]
    simp only [ih]
    simp only [lit, Rx.run]
    cases hr : p.rest with
    | nil =>
      have : p.skip (· == '#') = p := by obtain ⟨b, r, cp⟩ := p; simp only at hr; subst hr; rfl
      simp [this]
    | cons c cs =>
      by_cases e : c = '#'
      · subst e
        simp only [has_one, beq_self_eq_true, if_true, List.flatMap_cons, List.flatMap_nil, List.append_nil, List.takeWhile_cons, List.length_cons]
        rw [hk p cs hr, List.append_nil]
        have : (⟨'#' :: p.back, cs, p.caps⟩ : Pos).skip (· == '#') = p.skip (· == '#') := by
          simp [Pos.skip, Pos.adv, hr, List.takeWhile_cons]
        rw [this]
        simp only [Nat.add_le_add_iff_right]
      · simp only [has_one, show (c == '#') = false by simpa using e, List.takeWhile_cons]
        have : p.skip (· == '#') = p := by obtain ⟨b, r, cp⟩ := p; simp only at hr; subst hr; simp [Pos.skip, Pos.adv, List.takeWhile_cons, e]
        simp [this]

def headerFrame : Frame :=
  { num := none, alts := none, pre := .seq .eps (.bol false), last := some (.group 1 (.seq (.seq .eps (.seq (times (lit '#') 1) (upTo (lit '#') 5))) (.set ⟨false, [.space]⟩)), true) }

theorem header_steps : steps ⟨false, false⟩ State.init py"^(#{1,6}\\s)" = some { outer := [], cur := headerFrame, groups := 1, mode := .norm } := by decide +kernel

theorem frame_dead (a : Rx) (q : Pos) (h : q.back ≠ []) : (Rx.seq (.seq .eps (.bol false)) a).run q = [] := bol_dead a q h

theorem frame_start (a : Rx) (s : Str) : (Rx.seq (.seq .eps (.bol false)) a).run (start s) = a.run (start s) := by
  simp [Rx.run, start]

theorem header_run (s : Str) : headerFrame.cur.run (start s) = (Md.headerPrefix s).map fun x => ⟨(s.take x.1).reverse, x.2, [(1, s.take x.1)]⟩ := by
  show (Rx.seq (.seq .eps (.bol false)) _).run (start s) = _
  rw [frame_start]
  rw [show ∀ (n : Nat) (a : Rx) (p : Pos), (Rx.group n a).run p = (a.run p).map fun q => { q with caps := (n, p.rest.take (p.rest.length - q.rest.length)) :: q.caps } from fun _ _ _ => rfl]
  have hb : ∀ (q : Pos) (cs : Str), q.rest = '#' :: cs → (Rx.set ⟨false, [.space]⟩).run q = [] := by
    intro q cs hq
    simp only [Rx.run, hq, has_space]
    rfl
  have hrun : ((Rx.seq (.seq .eps (.seq (times (lit '#') 1) (upTo (lit '#') 5))) (.set ⟨false, [.space]⟩)).run (start s)) =
      chain ['#'] (fun q => if (q.rest.takeWhile (· == '#')).length ≤ 5 then (Rx.set ⟨false, [.space]⟩).run (q.skip (· == '#')) else []) (start s) := by
    rw [← lit_chain]
    rw [run_seq, run_seq]
    rw [show (Rx.eps).run (start s) = [start s] from rfl]
    simp only [List.flatMap_cons, List.flatMap_nil, List.append_nil]
    rw [run_seq, show times (lit '#') 1 = .seq (lit '#') .eps from rfl, run_seq, List.flatMap_assoc, show (Rx.eps).run = fun q => [q] from rfl, List.flatMap_singleton']
    congr 1
    funext q
    exact upTo_then _ hb 5 q
  rw [hrun]
  unfold Md.headerPrefix
  cases s with
  | nil => simp [chain, start]
  | cons c cs =>
    by_cases e : c = '#'
    · subst e
      rw [show start ('#' :: cs) = ⟨[], ['#'] ++ cs, []⟩ from rfl, chain_pos]
      simp only [List.takeWhile_cons, beq_self_eq_true, if_true, List.length_cons, List.drop_succ_cons]
      have hd : cs.drop (cs.takeWhile (· == '#')).length = cs.dropWhile (· == '#') := by
        have := congrArg (List.drop (cs.takeWhile (· == '#')).length) (List.takeWhile_append_dropWhile (p := (· == '#')) (l := cs))
        rw [List.drop_left] at this
        exact this.symm
      rw [hd]
      have hsk : (⟨['#'].reverse ++ [], cs, []⟩ : Pos).skip (· == '#') = ⟨(cs.takeWhile (· == '#')).reverse ++ ['#'], cs.dropWhile (· == '#'), []⟩ := by
        simp [Pos.skip, Pos.adv, hd]
      rw [hsk]
      have hcs := List.takeWhile_append_dropWhile (p := (· == '#')) (l := cs)
      generalize cs.takeWhile (· == '#') = w at *
      generalize cs.dropWhile (· == '#') = t at *
      subst hcs
      cases t with
      | nil => simp [Rx.run]
      | cons a as =>
        simp only [Rx.run, has_space]
        by_cases hl : w.length ≤ 5
        · have h2 : w.length + 1 ≤ 6 := by omega
          cases ha : isSpace a with
          | false => simp [hl]
          | true =>
            simp [hl]
            refine ⟨?_, ?_⟩
            · rw [show w.length + 1 = (w ++ [a]).length by simp, show w ++ a :: as = (w ++ [a]) ++ as by simp, List.take_left]; simp
            · rw [show w.length + (as.length + 1) + 1 - as.length = (w.length + 1) + 1 by omega, List.take_succ_cons]
        · have h2 : ¬ w.length + 1 ≤ 6 := by omega
          simp [hl]
    · simp [chain, start, List.cons_prefix_cons, Ne.symm e, e]

/-- packages/gurke/src/gurke/token_matcher_markdown.py:11, 190-191: a title behind `#`s. -/
theorem headerTitle_regex (kws : List Str) (hk : kws ≠ []) (suffix : Str) (hs : suffix.any Pickles.isMeta = false) (s : Str) :
    ((read (titlePattern py"^(#{1,6}\\s)" kws suffix)).bind fun r => (r.search s).map fun m => (m.last.group 1, m.last.group 2, m.last.group 3)) =
      (Md.searchTitle (Md.headerPrefix s) kws suffix).map fun x => (some (s.take x.1), some x.2.1, some x.2.2) := by
  obtain ⟨r, h1, h2⟩ := title_read py"^(#{1,6}\\s)" headerFrame ⟨rfl, rfl⟩ header_steps rfl kws hk suffix hs
  rw [h1]
  exact title_search h2 (fun q hq => frame_dead _ q hq) _ (header_run s)

def bulletSet : Set := ⟨false, [.one '*', .one '+', .one '-']⟩

def bulletFrame : Frame :=
  { num := none, alts := none, pre := .seq .eps (.bol false),
    last := some (.group 1 (.seq (.seq (.seq .eps (.star (.set ⟨false, [.space]⟩))) (.set bulletSet)) (.star (.set ⟨false, [.space]⟩))), true) }

theorem bullet_steps : steps ⟨false, false⟩ State.init py"^(\\s*[*+-]\\s*)" = some { outer := [], cur := bulletFrame, groups := 1, mode := .norm } := by decide +kernel

theorem runs_spaces : ∀ (rest : Str) (n : Nat) (back : Str), runsOf isSpace [] back rest = (Md.spaceRuns n rest).map fun x => ⟨(rest.take (x.1 - n)).reverse ++ back, x.2, []⟩ := by
  have hle : ∀ (rest : Str) (n : Nat), ∀ x ∈ Md.spaceRuns n rest, n ≤ x.1 := by
    intro rest
    induction rest with
    | nil => intro n x hx; simp [Md.spaceRuns] at hx; subst hx; exact Nat.le_refl _
    | cons c cs ih =>
      intro n x hx
      simp only [Md.spaceRuns] at hx
      split at hx
      · rcases List.mem_append.mp hx with hx | hx
        · have := ih _ _ hx; omega
        · simp at hx; subst hx; exact Nat.le_refl _
      · simp at hx; subst hx; exact Nat.le_refl _
  intro rest
  induction rest with
  | nil => intro n back; simp [runsOf, Md.spaceRuns]
  | cons c cs ih =>
    intro n back
    simp only [runsOf, Md.spaceRuns]
    split
    · rw [List.map_append, ih (n + 1) (c :: back)]
      congr 1
      · apply List.map_congr_left
        intro x hx
        have := hle cs (n + 1) x hx
        rw [show x.1 - n = (x.1 - (n + 1)) + 1 by omega, List.take_succ_cons]
        simp
      · simp
    · simp

theorem spaceRuns_rest : ∀ (rest : Str) (n : Nat), ∀ x ∈ Md.spaceRuns n rest, rest.length + n = x.2.length + x.1 := by
  intro rest
  induction rest with
  | nil => intro n x hx; simp [Md.spaceRuns] at hx; subst hx; simp
  | cons c cs ih =>
    intro n x hx
    simp only [Md.spaceRuns] at hx
    split at hx
    · rcases List.mem_append.mp hx with hx | hx
      · have := ih _ _ hx; simp; omega
      · simp at hx; subst hx; simp
    · simp at hx; subst hx; simp

theorem bullet_has (c : Char) : bulletSet.has c = (c == '*' || c == '+' || c == '-') := by
  simp [Set.has, Item.has, bulletSet, Bool.or_assoc]

theorem bullet_run (s : Str) (hs : NoHead isSpace s) : bulletFrame.cur.run (start s) = (Md.bulletPrefix s).map fun x => ⟨(s.take x.1).reverse, x.2, [(1, s.take x.1)]⟩ := by
  show (Rx.seq (.seq .eps (.bol false)) _).run (start s) = _
  rw [frame_start]
  rw [show ∀ (n : Nat) (a : Rx) (p : Pos), (Rx.group n a).run p = (a.run p).map fun q => { q with caps := (n, p.rest.take (p.rest.length - q.rest.length)) :: q.caps } from fun _ _ _ => rfl]
  have hsp : (Set.has ⟨false, [.space]⟩) = isSpace := funext has_space
  have hrun : (Rx.seq (.seq (.seq .eps (.star (.set ⟨false, [.space]⟩))) (.set bulletSet)) (.star (.set ⟨false, [.space]⟩))).run (start s) =
      ((Rx.set bulletSet).run (start s)).flatMap (Rx.star (.set ⟨false, [.space]⟩)).run := by
    rw [run_seq, run_seq, run_seq]
    simp only [Rx.run.eq_1, List.flatMap_cons, List.flatMap_nil, List.append_nil]
    rw [star_then ⟨false, [.space]⟩ (by
      intro q c cs hq hc
      rw [hsp] at hc
      simp only [Rx.run, hq]
      rw [if_neg]
      rw [bullet_has]
      intro h
      simp only [Bool.or_eq_true, beq_iff_eq] at h
      rcases h with (rfl | rfl) | rfl <;> revert hc <;> decide)]
    rw [hsp]
    have : (start s).skip isSpace = start s := by
      cases s with
      | nil => rfl
      | cons c cs =>
        have : isSpace c = false := hs c (by simp)
        simp [Pos.skip, Pos.adv, start, List.takeWhile_cons, this]
    rw [this]
  rw [hrun]
  unfold Md.bulletPrefix
  cases s with
  | nil => simp [start, Rx.run]
  | cons c cs =>
    simp only [start, Rx.run.eq_2, bullet_has]
    cases hc : (c == '*' || c == '+' || c == '-') with
    | false => simp
    | true =>
      simp only [if_true, List.flatMap_cons, List.flatMap_nil, List.append_nil]
      rw [run_star, hsp]
      simp only
      rw [runs_spaces cs 1 [c], List.map_map]
      apply List.map_congr_left
      intro x hx
      have h1 := spaceRuns_rest cs 1 x hx
      have h2 : 1 ≤ x.1 := by
        have : x.2.length ≤ cs.length := by
          have hall : ∀ (rest : Str) (n : Nat), ∀ x ∈ Md.spaceRuns n rest, x.2.length ≤ rest.length := by
            intro rest
            induction rest with
            | nil => intro n x hx; simp [Md.spaceRuns] at hx; subst hx; simp
            | cons c cs ih =>
              intro n x hx
              simp only [Md.spaceRuns] at hx
              split at hx
              · rcases List.mem_append.mp hx with hx | hx
                · have := ih _ _ hx; simp; omega
                · simp at hx; subst hx; simp
              · simp at hx; subst hx; simp
          exact hall cs 1 x hx
        omega
      obtain ⟨m, hm⟩ : ∃ m, x.1 = m + 1 := ⟨x.1 - 1, by omega⟩
      simp only [Function.comp, hm, Nat.add_sub_cancel, List.take_succ_cons, List.reverse_cons, List.length_cons]
      congr 3
      rw [show cs.length + 1 - x.2.length = m + 1 by omega, List.take_succ_cons]

/-- packages/gurke/src/gurke/token_matcher_markdown.py:10, 190-191: a step behind a bullet, on a line without leading white space. -/
theorem bulletTitle_regex (kws : List Str) (hk : kws ≠ []) (suffix : Str) (hs : suffix.any Pickles.isMeta = false) (s : Str) (hn : NoHead isSpace s) :
    ((read (titlePattern py"^(\\s*[*+-]\\s*)" kws suffix)).bind fun r => (r.search s).map fun m => (m.last.group 1, m.last.group 2, m.last.group 3)) =
      (Md.searchTitle (Md.bulletPrefix s) kws suffix).map fun x => (some (s.take x.1), some x.2.1, some x.2.2) := by
  obtain ⟨r, h1, h2⟩ := title_read py"^(\\s*[*+-]\\s*)" bulletFrame ⟨rfl, rfl⟩ bullet_steps rfl kws hk suffix hs
  rw [h1]
  exact title_search h2 (fun q hq => frame_dead _ q hq) _ (bullet_run s hn)

end Gherkin.Regex
